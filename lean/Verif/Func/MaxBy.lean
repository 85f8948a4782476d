import Verif.Func.Accumulator
/-!
# `max_by` and `min_by`
-/
namespace Verif.Func.MaxBy

variable {V W : Type}

/-- The accumulator, and also a row and a state: a value and its ordering, either of which may be
NULL (`crates/sail-function/src/aggregate/max_min_by.rs` 18-37). -/
abbrev Pair (V W : Type) := Option V × Option W

/-- Whether a row replaces what is held (`max_min_by.rs` 48-57).  `cmp` is the comparison of two
non-NULL orderings, `none` when they cannot be compared. -/
def better (cmp : W → W → Option Ordering) (isMax : Bool) (new : W) (held : Option W) : Bool :=
  match held with
  | none => true
  | some h =>
    match cmp new h with
    | some .gt => isMax
    | some .lt => !isMax
    | _ => false

/-- One row of `update_batch` (`max_min_by.rs` 43-62). -/
def step (cmp : W → W → Option Ordering) (isMax : Bool) (s : Pair V W) (r : Pair V W) : Pair V W :=
  match r.2 with
  | none => s
  | some w => if better cmp isMax w s.2 then (r.1, some w) else s

/-- One state of `merge_batch`, which is `update_batch` on the two state columns
(`max_min_by.rs` 74-76); a missing state has NULL in both. -/
def mergeOne (cmp : W → W → Option Ordering) (isMax : Bool) (s : Pair V W)
    (t : Option (Pair V W)) : Pair V W :=
  step cmp isMax s (t.getD (none, none))

/-- `max_by` (`isMax`) and `min_by` (`max_min_by.rs` 39-81). -/
def agg (cmp : W → W → Option Ordering) (isMax : Bool) :
    Accumulator Unit (Pair V W) (Pair V W) (Pair V W) (Option V) where
  init := (none, none)
  update := fun s b => .ok (b.foldl (step cmp isMax) s)
  state := id
  merge := fun s b => b.foldlM (fun s t => .ok (mergeOne cmp isMax s t)) s
  eval := fun s => s.1

/-- A key of a sort: `Sort::new(expr, asc, nulls_first)`.  Whether `a` may come before `b`. -/
def mayPrecede (cmp : W → W → Option Ordering) (asc nullsFirst : Bool) : Option W → Option W → Bool
  | none, none => true
  | none, some _ => nullsFirst
  | some _, none => !nullsFirst
  | some a, some b => cmp a b != some (if asc then .gt else .lt)

/-- The plan the optimizer puts in place of the aggregate (`simplify`, `max_min_by.rs` 159-186 and
261-288): `last_value(first) FILTER (existing AND second IS NOT NULL) ORDER BY second`, ascending
for `max_by`, descending for `min_by`, NULLs first.  The rows kept are sorted in any way the key
allows and the value of the last one is taken.  Simplification: the aggregate had no `ORDER BY`. -/
structure Simplified (cmp : W → W → Option Ordering) (isMax : Bool) (keep : Pair V W → Bool)
    (rows : List (Pair V W)) (answer : Option V) : Prop where
  ofSorted : ∃ sorted : List (Pair V W),
    sorted.Perm (rows.filter fun r => keep r && r.2.isSome) ∧
    sorted.Pairwise (fun a b => mayPrecede cmp isMax true a.2 b.2) ∧
    answer = (sorted.getLast?.bind fun r => r.1)

end Verif.Func.MaxBy
