import Verif.Func.Accumulator
/-!
# The average that answers NULL on overflow

`try_avg` over decimals and year-month intervals.  Doubles are not modelled.
-/
namespace Verif.Func

namespace TryAvg

/-- The two exact result types of `try_avg` (`crates/sail-function/src/aggregate/try_avg.rs` 53,
`dtype`): a decimal of the given precision, or an interval of months. -/
inductive Kind where
  | decimal (precision : Nat)
  | months
deriving DecidableEq, Repr

/-- The range of the machine word of a sum: `i128` for decimals, `i64` for months
(`try_avg.rs` 51-52). -/
def inWord : Kind → Int → Bool
  | .decimal _, x => -(2 ^ 127) ≤ x && x < 2 ^ 127
  | .months, x => -(2 ^ 63) ≤ x && x < 2 ^ 63

/-- `exceeds_decimal128_precision`, negated (`try_avg.rs` 432-452), and `fits_i32` (255-257).  The
power of ten is computed in unbounded arithmetic; precisions above 38 do not occur. -/
def fits : Kind → Int → Bool
  | .decimal p, x => -(10 ^ p - 1) ≤ x && x ≤ 10 ^ p - 1
  | .months, x => -(2 ^ 31) ≤ x && x ≤ 2 ^ 31 - 1

/-- The accumulator (`try_avg.rs` 46-55): the sum of the kind in use, the number of rows in it, and
whether some addition went wrong. -/
structure State where
  sum : Option Int
  count : Int
  failed : Bool
deriving DecidableEq, Repr

/-- `TryAvgAccumulator::new` (`try_avg.rs` 58-68). -/
def init : State := ⟨none, 0, false⟩

/-- Adding a value to an optional sum, with both range checks (`try_avg.rs` 138-153, 168-183,
359-374, 395-408); `none` is the failure. -/
def add (k : Kind) (acc : Option Int) (v : Int) : Option Int :=
  match acc with
  | none => if fits k v then some v else none
  | some a => if inWord k (a + v) && fits k (a + v) then some (a + v) else none

/-- `checked_add` on the 64-bit count (`try_avg.rs` 79-90, 342-349). -/
def addCount (c d : Int) : Option Int :=
  if -(2 ^ 63) ≤ c + d ∧ c + d < 2 ^ 63 then some (c + d) else none

/-- One row of `update_dec128` and `update_yearmonth` (`try_avg.rs` 130-190).  After a failure the
loop returns and later calls return at once, so nothing more changes.  (The code has stored the
overflowing decimal sum by then; a failed accumulator never shows its sum.) -/
def step (k : Kind) (s : State) (v : Option Int) : State :=
  if s.failed then s else
    match v with
    | none => s
    | some v =>
      match add k s.sum v with
      | none => { s with failed := true }
      | some n =>
        match addCount s.count 1 with
        | none => { sum := some n, count := 0, failed := true }
        | some c => { sum := some n, count := c, failed := false }

/-- The state sent on (`try_avg.rs` 301-328): sum, count and flag, the first two NULL after a
failure.  (A year-month sum is cast to `i32`, which it fits.) -/
structure Sent where
  sum : Option Int
  count : Option Int
  failed : Bool
deriving DecidableEq, Repr

/-- `state` (`try_avg.rs` 301-328). -/
def send (s : State) : Sent :=
  if s.failed then ⟨none, none, true⟩ else ⟨s.sum, some s.count, false⟩

/-- The second pass of `merge_batch` (`try_avg.rs` 340-350): NULL counts are skipped. -/
def addCounts : Int → List (Option Int) → Option Int
  | c, [] => some c
  | c, none :: ds => addCounts c ds
  | c, some d :: ds =>
    match addCount c d with
    | none => none
    | some c' => addCounts c' ds

/-- The third pass of `merge_batch` (`try_avg.rs` 353-410): NULL sums are skipped. -/
def addSums (k : Kind) : Option Int → List (Option Int) → Option (Option Int)
  | acc, [] => some acc
  | acc, none :: vs => addSums k acc vs
  | acc, some v :: vs =>
    match add k acc v with
    | none => none
    | some n => addSums k (some n) vs

/-- Whether a state received is flagged (`try_avg.rs` 332-337); a NULL flag is not. -/
def flagged : Option Sent → Bool
  | none => false
  | some t => t.failed

/-- The column of partial sums. -/
def sumColumn (b : List (Option Sent)) : List (Option Int) := b.map fun t => t.bind Sent.sum

/-- The column of counts. -/
def countColumn (b : List (Option Sent)) : List (Option Int) := b.map fun t => t.bind Sent.count

/-- `merge_batch` (`try_avg.rs` 330-419): the flags of all states, then all counts, then all sums.
When a pass fails the partly added count or sum stays behind in the code; here the count and sum
before the failing pass are kept, which cannot be told apart because the flag hides them. -/
def merge (k : Kind) (s : State) (b : List (Option Sent)) : State :=
  if b.any flagged then { s with failed := true } else
    match addCounts s.count (countColumn b) with
    | none => { s with failed := true }
    | some c =>
      match addSums k s.sum (sumColumn b) with
      | none => { s with count := c, failed := true }
      | some n => { s with sum := n, count := c }

/-- `avg_scalar` (`try_avg.rs` 192-252).  Decimals: the quotient truncated at the scale of the
input.  Months: half of the count is added away from zero before truncating. -/
def eval (k : Kind) (s : State) : Option Int :=
  if s.failed || s.count == 0 then none else
    match s.sum with
    | none => none
    | some total =>
      match k with
      | .decimal _ =>
        let q := total.tdiv s.count
        if fits k q then some q else none
      | .months =>
        let half := s.count.tdiv 2
        let adj := if 0 ≤ total then total + half else total - half
        if inWord k adj then
          let q := adj.tdiv s.count
          if fits k q then some q else none
        else none

/-- `try_avg` as an aggregate (`try_avg.rs` 259-420). -/
def agg (k : Kind) : Accumulator Unit State (Option Int) Sent (Option Int) where
  init := init
  update := fun s b => .ok (b.foldl (step k) s)
  state := send
  merge := fun s b => .ok (merge k s b)
  eval := eval k

end TryAvg
end Verif.Func
