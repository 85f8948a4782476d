/-!
# EXCEPT and UNION BY NAME

Models `resolve_query_set_operation` of crates/sail-plan/src/resolver/query/set_op.rs (`so`).

Simplifications. A table is its visible column names with its rows, and a row has a value, or NULL, for each column. Two rows
are equal when their values are, NULL being equal to NULL (`NullEquality::NullEqualsNull`, so:199 and so:211, and the
partitions of a window). The types of the columns, INTERSECT, and the union of two tables with the same columns are left to
DataFusion; the union puts the rows of the right table after those of the left one.
-/

namespace Verif.Plan.SetOp

/-- `row_number` over the partition of equal rows, so:141-178, in the order in which the rows come. -/
def number {α : Type} [DecidableEq α] : List α → List α → List (α × Nat)
  | _, [] => []
  | seen, a :: rest => (a, seen.count a + 1) :: number (a :: seen) rest

/-- The left anti join, so:193-200 and so:206-212. -/
def anti {α : Type} [DecidableEq α] (left right : List α) : List α := left.filter fun a => !decide (a ∈ right)

/-- EXCEPT ALL on the rows, so:138-202. -/
def exceptAllRows {α : Type} [DecidableEq α] (left right : List α) : List α :=
  (anti (number [] left) (number [] right)).map Prod.fst

/-- The rows without repetition. -/
def distinct {α : Type} [DecidableEq α] : List α → List α
  | [] => []
  | a :: rest => a :: (distinct rest).filter fun b => b != a

/-- EXCEPT on the rows, so:203-214. -/
def exceptRows {α : Type} [DecidableEq α] (left right : List α) : List α := anti (distinct left) right

/-- A table. -/
structure Table (α : Type) where
  names : List String
  rows : List (List (Option α))
deriving DecidableEq

/-- EXCEPT, so:115-216; `none` is an error. -/
def except {α : Type} [DecidableEq α] (all : Bool) (left right : Table α) : Option (Table α) :=
  if left.names.length ≠ right.names.length then none
  else some ⟨left.names, if all then exceptAllRows left.rows right.rows else exceptRows left.rows right.rows⟩

/-- `eq_ignore_ascii_case`. -/
def sameName (a b : String) : Bool := a.map Char.toLower == b.map Char.toLower

/-- The position of a name, so:46-48. -/
def position (names : List String) (name : String) : Option Nat := names.findIdx? fun n => sameName name n

/-- A projection: each column is a column of the input or the literal NULL. -/
def projectRow {α : Type} (exprs : List (Option Nat)) (row : List (Option α)) : List (Option α) :=
  exprs.map fun e => e.bind fun i => (row[i]?).join

/-- `right_reordered_columns` before the extra columns, so:42-72. -/
def reordered (allowMissing : Bool) (right : List String) : List String → Option (List (Option Nat))
  | [] => some []
  | l :: ls =>
    if (position right l).isSome || allowMissing then (reordered allowMissing right ls).map fun es => position right l :: es
    else none

/-- The positions and names of the columns that only the right table has, so:75-92. -/
def extra (left right : List String) : List (String × Nat) :=
  right.zipIdx.filter fun p => !left.any fun l => sameName l p.1

/-- UNION ALL BY NAME, so:35-108. -/
def unionByName {α : Type} (allowMissing : Bool) (left right : Table α) : Option (Table α) :=
  (reordered allowMissing right.names left.names).map fun es =>
    if allowMissing then
      ⟨left.names ++ (extra left.names right.names).map Prod.fst,
        (left.rows.map (projectRow ((List.range left.names.length).map some
            ++ (extra left.names right.names).map fun _ => none)))
          ++ right.rows.map (projectRow (es ++ (extra left.names right.names).map fun p => some p.2))⟩
    else ⟨left.names, left.rows ++ right.rows.map (projectRow es)⟩

end Verif.Plan.SetOp
