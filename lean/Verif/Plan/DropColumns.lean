/-!
# drop

Models `resolve_query_drop` of crates/sail-plan/src/resolver/query/column_op.rs (`co`) and the look-up of columns in
crates/sail-plan/src/resolver/schema.rs (`sc`).

Simplifications. A column of the schema is its position, as the internal names of fields are unique. The arguments are
attributes; another expression or a metadata column is refused (co:137-144) and is not modelled. Every field of the schema
has its `FieldInfo`; one without would match no name (sc:44-46). `Char.toLower` is the ASCII conversion, like
`eq_ignore_ascii_case`. `Projection::try_new` (co:172) is taken to succeed.
-/

namespace Verif.Plan.DropColumns

/-- A field with its `FieldInfo`, crates/sail-plan/src/resolver/state.rs, and its contents. -/
structure Field (β : Type) where
  name : String
  planIds : List Int
  hidden : Bool
  content : β
deriving DecidableEq

/-- `UnresolvedAttribute`: the parts of the name and the plan id. -/
structure Attr where
  parts : List String
  planId : Option Int
deriving DecidableEq

variable {β : Type}

/-- `FieldInfo::matches`, crates/sail-plan/src/resolver/state.rs:39-45. -/
def Field.matches (f : Field β) (name : String) (planId : Option Int) : Bool :=
  (f.name.map Char.toLower == name.map Char.toLower)
    && match planId with
      | some p => f.planIds.contains p
      | none => true

/-- `resolve_column_candidates`, sc:34-50. -/
def candidates (fields : List (Field β)) (name : String) (planId : Option Int) : List Nat :=
  (fields.zipIdx.filter fun p => !p.1.hidden && p.1.matches name planId).map Prod.snd

/-- `resolve_optional_column`, sc:52-71; the outer `none` is an error. -/
def optionalColumn (fields : List (Field β)) (name : String) (planId : Option Int) : Option (Option Nat) :=
  match candidates fields name planId with
  | [] => some none
  | [c] => some (some c)
  | _ => none

/-- The columns that the references exclude, co:134-155. -/
def excludedBy (fields : List (Field β)) : List Attr → Option (List Nat)
  | [] => some []
  | a :: rest =>
    match a.parts with
    | [name] =>
      (optionalColumn fields name a.planId).bind fun c => (excludedBy fields rest).map fun cs => c.toList ++ cs
    | _ => excludedBy fields rest

/-- `resolve_query_drop`, co:125-176; `none` is an error. -/
def drop (fields : List (Field β)) (columns : List Attr) (names : List String) : Option (List (Field β)) :=
  (excludedBy fields columns).map fun cs =>
    let excluded := cs ++ names.flatMap fun n => candidates fields n none
    (fields.zipIdx.filter fun p => !excluded.contains p.2).map Prod.fst

end Verif.Plan.DropColumns
