import Verif.Func.Percentile
/-!
# `percentile_disc`

The first value of the ordered input whose cumulative share reaches the percentage.  There is an
accumulator for one group and one for many groups at once.  The product of the percentage and the
number of values is exact here (in the code it is a floating point product).
-/
namespace Verif.Func.PercentileDisc

open Percentile hiding mergeOne

variable {α : Type}

/-- `percentile_disc_index`: `crates/sail-function/src/aggregate/utils.rs` 230-250. -/
def discIndex (len : Nat) (p : Fraction) (descending : Bool) : Nat :=
  let ceil := (p.num * len + p.den - 1) / p.den
  if descending then
    if p.num = 0 then len - 1
    else if p.num = p.den then 0
    else min (len - ceil) (len - 1)
  else if p.num = 0 then 0
  else if p.num = p.den then len - 1
  else min (ceil - 1) (len - 1)

/-- `calculate_percentile_disc`: `crates/sail-function/src/aggregate/utils.rs` 257-271.
`select_nth_unstable_by` gives the element that would be at the index if the values were sorted. -/
def discValue (le : α → α → Bool) (p : Fraction) (descending : Bool) (values : List α) : Option α :=
  if values.length = 0 then none
  else (values.insSort le)[discIndex values.length p descending]?

/-- `merge_batch` for one state: `crates/sail-function/src/aggregate/percentile_disc.rs` 475-481. -/
def mergeOne (vs : List α) : Option (List α) → List α
  | some s => vs ++ s
  | none => vs

/-- `PercentileDiscAccumulator`: `crates/sail-function/src/aggregate/percentile_disc.rs` 422-493
(630-720 for intervals).  That `state` and `evaluate` leave the accumulator empty is not modelled. -/
def disc (le : α → α → Bool) (p : Fraction) (descending : Bool) :
    Accumulator Unit (List α) (Option α) (List α) (Option α) where
  init := []
  update vs rows := .ok (vs ++ rows.filterMap id)
  state vs := vs
  merge vs states := .ok (states.foldl mergeOne vs)
  eval := discValue le p descending

/-- `MultiPercentileDiscAccumulator`: `crates/sail-function/src/aggregate/percentile_disc.rs`
501-592. -/
def discMany (le : α → α → Bool) (ps : List Fraction) (descending : Bool) :
    Accumulator Unit (List α) (Option α) (List α) (Option (List (Option α))) where
  init := []
  update vs rows := .ok (vs ++ rows.filterMap id)
  state vs := vs
  merge vs states := .ok (states.foldl mergeOne vs)
  eval vs :=
    if vs.isEmpty ∨ ps.isEmpty then none
    else some (ps.map fun p => (vs.insSort le)[discIndex vs.length p descending]?)

/-! ## Many groups -/

/-- A primitive array: values and, if there are NULLs, a validity bit per value. -/
structure Prim (α : Type) where
  data : List α
  valid : Option (List Bool)
deriving Repr

/-- `self.group_values[group_index].push(new_value)`. -/
def push (gs : List (List α)) (g : Nat) (v : α) : List (List α) := gs.modify g (· ++ [v])

/-- `self.group_values.resize(total_num_groups, Vec::new())`. -/
def resize (gs : List (List α)) (n : Nat) : List (List α) :=
  gs.take n ++ .replicate (n - gs.length) []

/-- The validity bits of a chunk of at most 64 values as a word, the first value in the lowest bit. -/
def word (bits : List Bool) : BitVec 64 := (BitVec.ofBoolListLE bits).setWidth 64

/-- The inner loop over a full chunk:
`crates/sail-function/src/aggregate/percentile_disc_groups.rs` 65-78; the mask is shifted by one in
every step. -/
def chunkLoop (mask : BitVec 64) : BitVec 64 → List (Nat × α) → List (List α) → List (List α)
  | _, [], gs => gs
  | index, (g, v) :: rows, gs =>
    chunkLoop mask (index <<< 1) rows (if mask &&& index ≠ 0 then push gs g v else gs)

/-- The loop over the remainder:
`crates/sail-function/src/aggregate/percentile_disc_groups.rs` 80-90. -/
def remainderLoop (mask : BitVec 64) : Nat → List (Nat × α) → List (List α) → List (List α)
  | _, [], gs => gs
  | i, (g, v) :: rows, gs =>
    remainderLoop mask (i + 1) rows (if mask &&& (1#64 <<< i) ≠ 0 then push gs g v else gs)

/-- `accumulate_with_nulls_chunked`:
`crates/sail-function/src/aggregate/percentile_disc_groups.rs` 47-91. -/
def chunked (rows : List (Nat × α)) (bits : List Bool) (gs : List (List α)) : List (List α) :=
  if 64 ≤ rows.length then
    chunked (rows.drop 64) (bits.drop 64) (chunkLoop (word (bits.take 64)) 1 (rows.take 64) gs)
  else remainderLoop (word bits) 0 rows gs
termination_by rows.length
decreasing_by simp; omega

/-- `update_batch`: `crates/sail-function/src/aggregate/percentile_disc_groups.rs` 95-148. -/
def groupUpdate (gs : List (List α)) (values : Prim α) (groups : List Nat)
    (filter : Option (List (Option Bool))) (total : Nat) : List (List α) :=
  let gs := resize gs total
  match values.valid, filter with
  | none, none => (groups.zip values.data).foldl (fun gs r => push gs r.1 r.2) gs
  | some bits, none => chunked (groups.zip values.data) bits gs
  | none, some f =>
    ((groups.zip values.data).zip f).foldl
      (fun gs r => if r.2 = some true then push gs r.1.1 r.1.2 else gs) gs
  | some bits, some f =>
    ((f.zip groups).zip (values.data.zip bits)).foldl
      (fun gs r => if r.1.1 = some true then (if r.2.2 then push gs r.1.2 r.2.1 else gs) else gs) gs

/-- `self.group_values[group_index].extend(values.values().iter())` for one state. -/
def extend (gs : List (List α)) (r : Nat × Option (List α)) : List (List α) :=
  match r.2 with
  | some vs => gs.modify r.1 (· ++ vs)
  | none => gs

/-- `merge_batch`: `crates/sail-function/src/aggregate/percentile_disc_groups.rs` 150-172. -/
def groupMerge (gs : List (List α)) (states : List (Option (List α))) (groups : List Nat)
    (total : Nat) : List (List α) :=
  (groups.zip states).foldl extend (resize gs total)

/-- `EmitTo::take_needed`: all groups, or the first `n`. -/
def takeNeeded (gs : List (List α)) : Option Nat → List (List α) × List (List α)
  | none => (gs, [])
  | some n => (gs.take n, gs.drop n)

/-- The offsets of a list array whose entries have these lengths:
`crates/sail-function/src/aggregate/percentile_disc_groups.rs` 176-184. -/
def offsets : Nat → List (List α) → List Nat
  | cur, [] => [cur]
  | cur, g :: gs => cur :: offsets (cur + g.length) gs

/-- Entry `i` of a list array. -/
def entry (offs : List Nat) (values : List α) (i : Nat) : List α :=
  (values.take (offs.getD (i + 1) 0)).drop (offs.getD i 0)

/-- `state`: `crates/sail-function/src/aggregate/percentile_disc_groups.rs` 174-200: the lists that the
array of offsets and the flattened values denote, and the groups that remain. -/
def groupState (gs : List (List α)) (emit : Option Nat) : List (Option (List α)) × List (List α) :=
  let (out, rest) := takeNeeded gs emit
  let offs := offsets 0 out
  ((List.range out.length).map fun i => some (entry offs out.flatten i), rest)

/-- `evaluate`: `crates/sail-function/src/aggregate/percentile_disc_groups.rs` 202-214. -/
def groupEval (le : α → α → Bool) (p : Fraction) (descending : Bool) (gs : List (List α))
    (emit : Option Nat) : List (Option α) × List (List α) :=
  let (out, rest) := takeNeeded gs emit
  (out.map (discValue le p descending), rest)

/-- The rows that a filter keeps. -/
def keepMask (n : Nat) : Option (List (Option Bool)) → List Bool
  | some f => f.map (· == some true)
  | none => .replicate n true

/-- `convert_to_state`: `crates/sail-function/src/aggregate/percentile_disc_groups.rs` 216-247: every
row becomes the state of a group of its own; NULL for a NULL value or one that the filter does not
keep (`filtered_null_mask` of DataFusion). -/
def convertToState (values : Prim α) (filter : Option (List (Option Bool))) : List (Option (List α)) :=
  let n := values.data.length
  let bits := values.valid.getD (.replicate n true)
  let keep := keepMask n filter
  (List.range n).map fun i =>
    if bits.getD i false && keep.getD i false then some (entry (List.range (n + 1)) values.data i)
    else none

end Verif.Func.PercentileDisc
