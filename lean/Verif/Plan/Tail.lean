/-!
# tail

Models `resolve_query_tail` of crates/sail-plan/src/resolver/query/limit.rs (`li`).

Simplifications. `counted` are the rows of the execution that counts (li:86-100) and `rows` those of the execution that
reads. Numbers are mathematical integers; DataFusion refuses a limit with a negative fetch.
-/

namespace Verif.Plan.Tail

/-- The offset, li:102. -/
def offset (count n : Int) : Int := max 0 (count - n)

/-- The limit node, li:101-105; `none` is an error. -/
def limit {α : Type} (skip fetch : Int) (rows : List α) : Option (List α) :=
  if skip < 0 ∨ fetch < 0 then none else some ((rows.drop skip.toNat).take fetch.toNat)

/-- `resolve_query_tail`, li:47-106, and the run of its plan. -/
def tail {α : Type} (counted : List α) (n : Int) (rows : List α) : Option (List α) :=
  limit (offset counted.length n) n rows

end Verif.Plan.Tail
