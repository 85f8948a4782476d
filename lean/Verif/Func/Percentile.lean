import Verif.Func.Counts
import Verif.Base.Sort
/-!
# `percentile`

The accumulators keep a hash map from values to counts.  Percentages are fractions `num / den` between
zero and one; numbers are rational, so that the rounding of floating point operations is not modelled,
and neither is NaN except where said.
-/
namespace Verif.Func.Percentile

open Counts

/-- A percentage. -/
structure Fraction where
  num : Nat
  den : Nat
deriving Repr, DecidableEq

/-- `NumericPercentileAccumulator`, `StringPercentileAccumulator`, `IntervalPercentileAccumulator`:
`crates/sail-function/src/aggregate/percentile.rs` 179-185, 527-532, 866-871. -/
structure State (α : Type) where
  counts : List (α × Nat)
  total : Nat
deriving Repr, DecidableEq

variable {α β : Type} [DecidableEq α]

/-- One row of `update_batch`: `crates/sail-function/src/aggregate/percentile.rs` 248-252 (588-592). -/
def addRow (s : State α) : Option α → State α
  | some v => ⟨bump s.counts v 1, s.total + 1⟩
  | none => s

/-- One row of `retract_batch`: `crates/sail-function/src/aggregate/percentile.rs` 326-337. -/
def retractRow (s : State α) : Option α → State α
  | some v => if v ∈ s.counts.map Prod.fst then ⟨drop1 s.counts v, s.total - 1⟩ else s
  | none => s

/-- `get_sorted_values`: `crates/sail-function/src/aggregate/percentile.rs` 222-235. -/
def sorted (le : α → α → Bool) (s : State α) : List α := (expand s.counts).insSort le

/-- `merge_batch` for one state: `crates/sail-function/src/aggregate/percentile.rs` 298-310. -/
def mergeOne (s : State α) : Option (List α) → State α
  | some vs => vs.foldl (fun s v => addRow s (some v)) s
  | none => s

/-- `calculate_percentile` for numbers: `crates/sail-function/src/aggregate/percentile.rs` 197-220.
`pos` is `(n - 1) * num / den`. -/
def interpolate (p : Fraction) (vs : List Rat) : Option Rat :=
  if vs.length = 0 then none
  else if vs.length = 1 then vs[0]?
  else
    let pos := (vs.length - 1) * p.num
    let lower := pos / p.den
    let upper := (pos + p.den - 1) / p.den
    if lower = upper then vs[lower]?
    else
      match vs[lower]?, vs[upper]? with
      | some lo, some hi =>
        let fraction : Rat := (pos : Rat) / p.den - lower
        some (lo + fraction * (hi - lo))
      | _, _ => none

/-- `f64::round`: half away from zero. -/
def round (x : Rat) : Int := if 0 ≤ x then (x + 1 / 2).floor else - (-x + 1 / 2).floor

/-- `calculate_percentile` for intervals: `crates/sail-function/src/aggregate/percentile.rs`
884-906. -/
def interpolateInterval (p : Fraction) (vs : List Int) : Option Int :=
  if vs.length = 0 then none
  else if vs.length = 1 then vs[0]?
  else
    let pos := (vs.length - 1) * p.num
    let lower := pos / p.den
    let upper := (pos + p.den - 1) / p.den
    if lower = upper then vs[lower]?
    else
      match vs[lower]?, vs[upper]? with
      | some lo, some hi =>
        let fraction : Rat := (pos : Rat) / p.den - lower
        some (round ((lo : Rat) + fraction * ((hi : Rat) - (lo : Rat))))
      | _, _ => none

/-- `calculate_percentile` for strings: `crates/sail-function/src/aggregate/percentile.rs` 545-560.
Half is rounded up (the position is not negative). -/
def nearest (p : Fraction) (vs : List α) : Option α :=
  if vs.length = 0 then none
  else if vs.length = 1 then vs[0]?
  else
    let pos := (vs.length - 1) * p.num
    vs[(2 * pos + p.den) / (2 * p.den)]?

/-- The accumulators: `crates/sail-function/src/aggregate/percentile.rs` 237-345, 576-690, 923-1200.
`pick` is the function above that picks the result. -/
def percentile (le : α → α → Bool) (pick : List α → Option β) :
    Accumulator Unit (State α) (Option α) (List α) (Option β) where
  init := ⟨[], 0⟩
  update s rows := .ok (rows.foldl addRow s)
  state := sorted le
  merge s states := .ok (states.foldl mergeOne s)
  eval s := if s.total = 0 then none else pick (sorted le s)
  alike s s' := s.counts.Perm s'.counts ∧ s.total = s'.total

/-- The accumulators for an array of percentages:
`crates/sail-function/src/aggregate/percentile.rs` 406-520, 740-860, 1309-1557.  The result is NULL
without values and otherwise an array. -/
def percentiles (le : α → α → Bool) (pick : Fraction → List α → Option β) (ps : List Fraction) :
    Accumulator Unit (State α) (Option α) (List α) (Option (List (Option β))) where
  init := ⟨[], 0⟩
  update s rows := .ok (rows.foldl addRow s)
  state := sorted le
  merge s states := .ok (states.foldl mergeOne s)
  eval s := if s.total = 0 then none else some (ps.map fun p => pick p (sorted le s))
  alike s s' := s.counts.Perm s'.counts ∧ s.total = s'.total

/-- One row of a sliding window: the rows that enter the frame are added, those that leave it are
retracted, and the result is read.  (The driver is DataFusion's; the accumulator takes part through
`retract_batch`, `crates/sail-function/src/aggregate/percentile.rs` 316-344.)  Frames are half-open
intervals of row numbers. -/
def slide (rows : List (Option α)) (last cur : Nat × Nat) (s : State α) : State α :=
  let s := ((rows.take cur.2).drop last.2).foldl addRow s
  ((rows.take cur.1).drop last.1).foldl retractRow s

/-- A sequence of frames. -/
def slideAll (ev : State α → Option β) (rows : List (Option α)) (last : Nat × Nat) (s : State α) :
    List (Nat × Nat) → List (Option β)
  | [] => []
  | cur :: frames =>
    let s := slide rows last cur s
    ev s :: slideAll ev rows cur s frames

end Verif.Func.Percentile
