import Verif.Func.ListArray
/-!
# `sequence` over integers

`crates/sail-function/src/scalar/array/spark_sequence.rs`.  Machine integers are unbounded integers
with explicit range tests where the code has them; `bits` is the width of the type (8, 16, 32, 64).
Failing allocations (`reserve`) are not modelled.
-/
namespace Verif.Func.Sequence

inductive Err where
  | boundaries | size | internal | range | capacity
deriving Repr, DecidableEq

/-- The values of a signed type of the given width. -/
def inTy (bits : Nat) (v : Int) : Bool := decide (-2 ^ (bits - 1) ≤ v ∧ v < 2 ^ (bits - 1))

/-- `MAX_ROUNDED_ARRAY_LENGTH`, spark_sequence.rs 34-40: `i32::MAX - 15`. -/
def maxLength : Int := 2147483632

/-- spark_sequence.rs 501-503 (`valid_boundaries`). -/
def validBoundaries (start stop step : Int) : Bool :=
  (step > 0 && start ≤ stop) || (step < 0 && start ≥ stop) || (step == 0 && start == stop)

/-- spark_sequence.rs 515-553 (`sequence_length`): the arguments are 64-bit; the subtraction is
checked, and the quotient truncates. -/
def sequenceLength (start stop step : Int) : Except Err Nat :=
  if !validBoundaries start stop step then .error .boundaries
  else if start = stop then .ok 1
  else
    let delta := stop - start
    let (length, overflowed) :=
      if inTy 64 delta ∧ ¬ (delta = -2 ^ 63 ∧ step = -1) then (1 + delta.tdiv step, false)
      else (1 + (stop - start).tdiv step, true)
    if length > maxLength then .error .size
    else if overflowed then .error .internal
    else .ok length.toNat

/-- spark_sequence.rs 647-661 (`extend_integral_values`): the loop from `index`, `n` rounds. -/
def extendFrom (bits : Nat) (start step : Int) (index : Nat) : Nat → List Int → Except Err (List Int)
  | 0, acc => .ok acc
  | n + 1, acc =>
    let value := start + step * index
    if inTy bits value then extendFrom bits start step (index + 1) n (acc ++ [value])
    else .error .range

/-- spark_sequence.rs 617-645 (`integral_row`): a single row, limited to `maxValues`; also used for
dates (32 bits) and timestamps (64 bits). -/
def integralRow (bits : Nat) (start stop step : Int) (maxValues : Nat) : Except Err (List Int) :=
  match sequenceLength start stop step with
  | .error e => .error e
  | .ok n => if n > maxValues then .error .capacity else extendFrom bits start step 0 n []

/-- The arguments of one row; `none` is NULL. -/
structure Args where
  start : Option Int
  stop : Option Int
  step : Option Int
deriving Repr, DecidableEq

/-- The step of a row when the arguments are not NULL: given, or up or down by one
(spark_sequence.rs 693-702). -/
def stepOf (three : Bool) (start stop : Int) (step : Option Int) : Option Int :=
  if three then step else some (if start ≤ stop then 1 else -1)

/-- spark_sequence.rs 680-706: the first pass, which computes the length of every row.  `three`:
whether there is a step argument. -/
def plan (three : Bool) (total : Nat) : List Args → Except Err (List (Option (Int × Int × Nat)))
  | [] => .ok []
  | r :: rs =>
    match r.start, r.stop with
    | some start, some stop =>
      match stepOf three start stop r.step with
      | some step =>
        match sequenceLength start stop step with
        | .error e => .error e
        | .ok n =>
          if total + n > 2147483647 then .error .capacity
          else
            match plan three (total + n) rs with
            | .error e => .error e
            | .ok ps => .ok (some (start, step, n) :: ps)
      | none =>
        match plan three total rs with
        | .error e => .error e
        | .ok ps => .ok (none :: ps)
    | _, _ =>
      match plan three total rs with
      | .error e => .error e
      | .ok ps => .ok (none :: ps)

/-- spark_sequence.rs 708-725: the second pass, which fills the column. -/
def fill (bits : Nat) : List (Option (Int × Int × Nat)) → ListArr Int → Except Err (ListArr Int)
  | [], a => .ok a
  | none :: ps, a => fill bits ps a.pushNull
  | some (start, step, n) :: ps, a =>
    match extendFrom bits start step 0 n [] with
    | .error e => .error e
    | .ok l =>
      if a.values.length + l.length > 2147483647 then .error .capacity
      else fill bits ps (a.pushRow l)

/-- spark_sequence.rs 663-735 (`impl_sequence_for_type!`). -/
def genSequence (bits : Nat) (three : Bool) (rows : List Args) : Except Err (ListArr Int) :=
  match plan three 0 rows with
  | .error e => .error e
  | .ok ps => fill bits ps .empty

end Verif.Func.Sequence
