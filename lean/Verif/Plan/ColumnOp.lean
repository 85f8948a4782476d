import Verif.Plan.Na

/-!
# withColumns and replace

Models `resolve_query_with_columns` and `resolve_query_replace` of crates/sail-plan/src/resolver/query/column_op.rs (`co`).

Simplifications. A column is its visible name with its contents, and an expression gives contents from the columns of the
input. Metadata of columns, generators and window functions in the expressions (co:255-260) and the alias of the
input are left out. For `replace` a value is NULL (`none`) or an element of a set with its equality, and the conversion of a
literal to the type of a column is a parameter, `none` for NULL.
-/

namespace Verif.Plan.ColumnOp

open Verif.Plan.Na (Ty Lit Col)

variable {β : Type}

/-- The columns of a table. -/
abbrev Cols (β : Type) := List (String × β)

/-- `IndexMap::insert`, co:216: the value is replaced in its place. -/
def insert {γ : Type} : List (String × γ) → String → γ → List (String × γ)
  | [], n, e => [(n, e)]
  | a :: rest, n, e => if a.1 = n then (n, e) :: rest else a :: insert rest n e

/-- `aliases`, co:199-220. -/
def aliasMap {γ : Type} (aliases : List (String × γ)) : List (String × γ) :=
  aliases.foldl (fun m a => insert m a.1 a.2) []

/-- A look-up in the map, co:226. -/
def lookup {γ : Type} (m : List (String × γ)) (n : String) : Option γ := (m.find? fun a => a.1 == n).map Prod.snd

/-- `resolve_query_with_columns`, co:178-271. -/
def withColumns (columns : Cols β) (aliases : List (String × (Cols β → β))) : Cols β :=
  let m := aliasMap aliases
  (columns.map fun c => (c.1, (lookup m c.1).elim c.2 fun e => e columns))
    ++ (m.filter fun a => !columns.any fun c => c.1 == a.1).map fun a => (a.1, a.2 columns)

/-- `to_ascii_lowercase`. -/
def lower (s : String) : String := s.map Char.toLower

/-- Whether a pair is used for a column, co:336-342. -/
def fits (old column : Ty) : Bool :=
  old == .null || (old.isNumeric && column.isNumeric) || old == column

/-- The `CASE` for a value, co:334-358: the first pair whose comparison is true; a comparison with NULL is not. -/
def replaceValue [DecidableEq β] (cast : Ty → Lit β → Option β) (pairs : List (Lit β × Lit β)) (ty : Ty)
    (v : Option β) : Option β :=
  match (pairs.filter fun p => fits p.1.ty ty).find? fun p => v.isSome && decide (cast ty p.1 = v) with
  | some p => cast ty p.2
  | none => v

/-- Whether a column is changed, co:282-285 and co:332. -/
def replaceChosen (chosen : List String) (c : Col) : Bool :=
  (chosen.map lower).isEmpty || (chosen.map lower).contains (lower c.name)

/-- A row of the projection, co:329-364. -/
def replaceRow [DecidableEq β] (cast : Ty → Lit β → Option β) (chosen : List String) (pairs : List (Lit β × Lit β)) :
    List Col → List (Option β) → List (Option β)
  | c :: cs, v :: vs =>
    (if replaceChosen chosen c then replaceValue cast pairs c.ty v else v) :: replaceRow cast chosen pairs cs vs
  | _, _ => []

/-- `resolve_query_replace`, co:273-370: the names, which are in lower case (co:303 and co:362), and the rows; `none` is an
error. -/
def replace [DecidableEq β] (cast : Ty → Lit β → Option β) (schema : List Col) (chosen : List String)
    (pairs : List (Lit β × Lit β)) (rows : List (List (Option β))) : Option (List String × List (List (Option β))) :=
  if (chosen.map lower).any fun n => !(schema.map fun c => lower c.name).contains n then none
  else some (schema.map fun c => lower c.name, rows.map (replaceRow cast chosen pairs schema))

end Verif.Plan.ColumnOp
