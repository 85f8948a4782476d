import Verif.Plan.SetOp

/-!
# crosstab

Models `resolve_query_stat_cross_tab` of crates/sail-plan/src/resolver/query/stat.rs (`st`).

Simplifications. A row is the pair of the values of the two columns, `none` for NULL; a value is the text that it is shown as,
so that the comparison with the literal text of a value (st:383) is equality. Both executions see the same rows.
-/

namespace Verif.Plan.Crosstab

open Verif.Plan.SetOp (distinct)

/-- A row of the input. -/
abbrev Pair := Option String × Option String

/-- `unique_values`, st:361-376: the valid ones of the distinct values. -/
def uniqueValues (rows : List Pair) : List String := (distinct (rows.map Prod.snd)).filterMap fun v => v

/-- The 0/1 column of a value, st:380-388. -/
def flag (value : String) (row : Pair) : Nat := if some value = row.2 then 1 else 0

/-- `sum` of a 0/1 column in a group, st:396-411. -/
def sumFlags (value : String) (rows : List Pair) : Nat := rows.foldl (fun acc row => acc + flag value row) 0

/-- The result, st:413-437: the names of the columns after the first, and the rows. -/
def crosstab (rows : List Pair) : List String × List (Option String × List Nat) :=
  let values := uniqueValues rows
  (values, (distinct (rows.map Prod.fst)).map fun l =>
    (l, values.map fun v => sumFlags v (rows.filter fun row => decide (row.1 = l))))

end Verif.Plan.Crosstab
