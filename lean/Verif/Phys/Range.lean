/-!
# `range()`

Models `Range` and `RangeIterator` (crates/sail-logical-plan/src/range.rs) and their use in
`RangeExec` (crates/sail-physical-plan/src/range.rs).
-/

namespace Verif.Phys.Range

def i64Min : Int := -2 ^ 63
def i64Max : Int := 2 ^ 63 - 1

/-- A 64-bit integer. -/
def Is64 (x : Int) : Prop := i64Min ≤ x ∧ x ≤ i64Max

instance (x : Int) : Decidable (Is64 x) := inferInstanceAs (Decidable (_ ∧ _))

/-- `as i64` on an `i128`: the low 64 bits as a signed number. -/
def wrap64 (x : Int) : Int := (x + 2 ^ 63) % 2 ^ 64 - 2 ^ 63

/-- `i64::checked_add`. -/
def checkedAdd (a b : Int) : Option Int := if Is64 (a + b) then some (a + b) else none

/-- `Range`, range.rs:12-17. -/
structure Range where
  start : Int
  stop : Int
  step : Int
deriving Repr, DecidableEq

/-- `num_elements`, range.rs:24-30. Division of non-negative numbers, where Rust and Lean agree. -/
def Range.numElements (r : Range) : Int :=
  if (decide (r.stop > r.start)) ≠ (decide (r.step > 0)) then 0
  else
    let diff : Int := (r.stop - r.start).natAbs
    let step : Int := r.step.natAbs
    diff / step + if diff % step = 0 then 0 else 1

/-- `Range::partition`, range.rs:20-40. The `i128` arithmetic is modelled as exact: it cannot
overflow for fewer than 2^62 partitions. -/
def Range.partition (r : Range) (p np : Nat) : Range where
  start := wrap64 ((p : Int) * r.numElements / np * r.step + r.start)
  stop := wrap64 (((p : Int) + 1) * r.numElements / np * r.step + r.start)
  step := r.step

/-- `RangeIterator::next`, range.rs:63-76, iterated at most `fuel` times. -/
def iterate (r : Range) : Nat → Int → List Int
  | 0, _ => []
  | fuel + 1, current =>
    if (r.step > 0 ∧ current < r.stop) ∨ (r.step < 0 ∧ current > r.stop) then
      current :: iterate r fuel ((checkedAdd current r.step).getD r.stop)
    else []

/-- All values of the iterator (range.rs:43-54, collected by physical range.rs:110-116). Every
value moves the iterator by at least one towards the end, so `|stop - start|` iterations exhaust
it (`iterate_exhausted` in `RangeProps`). -/
def Range.values (r : Range) : List Int := iterate r (r.stop - r.start).natAbs r.start

/-- All partitions of a `RangeExec` in order. -/
def Range.allValues (r : Range) (np : Nat) : List Int :=
  (List.range np).flatMap fun p => (r.partition p np).values

end Verif.Phys.Range
