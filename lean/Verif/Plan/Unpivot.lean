/-!
# unpivot

Models `resolve_query_unpivot` of crates/sail-plan/src/resolver/query/pivoting.rs (`pv`).

Simplifications. Columns are given by their positions in a table whose names are distinct. A value is NULL (`none`) or an
element of a set; the types of the value columns, the check that they have a common type (pv:385-397) and the coercion to it
are left out.
-/

namespace Verif.Plan.Unpivot

/-- `UnpivotValue`, crates/sail-common/src/spec/plan.rs:818-821: a value of the `IN` list with its columns and its alias. -/
structure Value where
  columns : List Nat
  alias : Option String
deriving DecidableEq

/-- A row of the result: the ids, the name and the value. -/
structure Out (α : Type) where
  ids : List (Option α)
  name : String
  value : Option α
deriving DecidableEq

/-- `remaining_exprs`, the columns that are not chosen, pv:312-327. -/
def remaining (width : Nat) (chosen : List Nat) : List Nat := (List.range width).filter fun i => !chosen.contains i

/-- The match that chooses the id and value columns, pv:368-383, after the columns of the values were flattened,
pv:347-366; `none` is an error. -/
def choose (width : Nat) (ids : Option (List Nat)) (values : Option (List Value)) : Option (List Nat × List Nat) :=
  match ids, values.map fun vs => vs.flatMap Value.columns with
  | some ids, values =>
    if ids.length = width then none
    else
      match values with
      | some [] => none
      | some values => some (ids, values)
      | none => some (ids, remaining width ids)
  | none, some [] => none
  | none, some values => some (remaining width values, values)
  | none, none => none

/-- The value of a column in a row. -/
def cell {α : Type} (row : List (Option α)) (i : Nat) : Option α := (row[i]?).join

/-- The rows that `inline` makes of a row, pv:402-427. -/
def expand {α : Type} (names : List String) (ids values : List Nat) (row : List (Option α)) : List (Out α) :=
  values.map fun v => ⟨ids.map (cell row), (names[v]?).getD "", cell row v⟩

/-- `resolve_query_unpivot`, pv:287-441; `includeNulls` is not read. -/
def unpivot {α : Type} (names : List String) (ids : Option (List Nat)) (values : Option (List Value))
    (_includeNulls : Bool) (rows : List (List (Option α))) : Option (List (Out α)) :=
  (choose names.length ids values).map fun c => rows.flatMap (expand names c.1 c.2)

end Verif.Plan.Unpivot
