import Verif.Func.Sequence
import Verif.Func.Civil
/-!
# `sequence` over dates and timestamps

`crates/sail-function/src/scalar/array/spark_sequence.rs` 760-1310, for timestamps without time zone
and for sessions whose time zone is UTC (`timestamp_ntz` and `use_wide_utc_arithmetic` true).  The
arithmetic in other time zones (`add_ltz_interval` and the localisation of dates) is not modelled.
Timestamps are microseconds and dates days since 1970-01-01.
-/
namespace Verif.Func.TemporalSeq

open Verif.Func.Sequence Verif.Func.Civil

/-- spark_sequence.rs 35-36. -/
def microsPerDay : Int := 86400000000
def microsPerMonth : Int := 28 * microsPerDay

/-- A result reduced to a signed type of the given width, as `wrapping_mul` and `wrapping_add` do. -/
def wrap (bits : Nat) (v : Int) : Int :=
  (v + 2 ^ (bits - 1)) % 2 ^ bits - 2 ^ (bits - 1)

inductive TErr where
  | seq (e : Err)
  | daysOverflow | overflow | granularity | date
deriving Repr, DecidableEq

/-- spark_sequence.rs 760-765 (`TemporalStep`): months and days are 32-bit, microseconds 64-bit. -/
inductive Step where
  | calendar (months days micros : Int)
  | yearMonth (months : Int)
  | dayTime (micros : Int)
deriving Repr, DecidableEq

/-- spark_sequence.rs 768-774 (`default_for`). -/
def defaultStep (start stop : Int) : Step := .calendar 0 (if start ≤ stop then 1 else -1) 0

/-- spark_sequence.rs 776-792 (`parts`). -/
def Step.parts : Step → Except TErr (Int × Int × Int)
  | .calendar m d u => .ok (m, d, u)
  | .yearMonth m => .ok (m, 0, 0)
  | .dayTime u =>
    let days := u.tdiv microsPerDay
    if inTy 32 days then .ok (0, days, u - days * microsPerDay) else .error .daysOverflow

/-- spark_sequence.rs 864-868 (`estimated_temporal_step`). -/
def estimatedStep (months days micros : Int) : Int :=
  wrap 64 (wrap 64 (micros + wrap 64 (months * microsPerMonth)) + wrap 64 (days * microsPerDay))

/-- spark_sequence.rs 937-957 (`add_wide_calendar_interval`).  The checked operations on years and
days cannot overflow for 64-bit timestamps and 32-bit months and days and are left out. -/
def addWide (start months days micros : Int) : Int :=
  let epochDay := start / microsPerDay
  let microsOfDay := start % microsPerDay
  let (year, month, day) := civilFromDays epochDay
  let monthIndex := year * 12 + (month - 1) + months
  let year := monthIndex / 12
  let month := monthIndex % 12 + 1
  let day := min day (daysInMonth year month)
  let epochDay := daysFromCivil year month day + days
  epochDay * microsPerDay + microsOfDay + micros

/-- spark_sequence.rs 1044-1061 and 1039-1042 (`add_temporal_interval`, `add_ntz_interval`): the
step is multiplied by the index with wrapping, and the result must fit 64 bits. -/
def addTemporal (start : Int) (index : Nat) (months days micros : Int) : Except TErr Int :=
  let v := addWide start (wrap 32 (months * index)) (wrap 32 (days * index)) (wrap 64 (micros * index))
  if inTy 64 v then .ok v else .error .overflow

/-- The test that lets a value into the sequence, spark_sequence.rs 1080-1081 and 1086 (1161-1162
and 1174). -/
def inside (stop est v : Int) : Bool :=
  let sign : Int := if est > 0 then 1 else -1
  let exclusive := wrap 64 (stop + sign)
  xor (decide (v < exclusive)) (decide (sign < 0))

/-- The loop of spark_sequence.rs 1083-1102 and 1164-1190: `room` is how many more values may be
pushed, `full` the error when there is no room, `conv` the conversion of a pushed value (to a date,
or none). -/
def loop {α : Type} (value : Nat → Except TErr Int) (into : Int → Bool) (conv : Int → Except TErr α)
    (full : TErr) : Nat → Nat → List α → Except TErr (List α)
  | room, index, acc =>
    match value index with
    | .error e => .error e
    | .ok v =>
      if !into v then .ok acc
      else
        match room with
        | 0 => .error full
        | room + 1 =>
          match conv v with
          | .error e => .error e
          | .ok x => loop value into conv full room (index + 1) (acc ++ [x])

/-- How many values fit, and the error beyond: spark_sequence.rs 1089-1094. -/
def room (maxValues : Nat) : Nat := min maxLength.toNat maxValues
def fullErr (maxValues : Nat) : TErr :=
  if maxLength.toNat ≤ maxValues then .seq .size else .seq .capacity

/-- spark_sequence.rs 1063-1104 (`temporal_timestamp_row`). -/
def timestampRow (start stop : Int) (step : Step) (maxValues : Nat) : Except TErr (List Int) :=
  match step.parts with
  | .error e => .error e
  | .ok (months, days, micros) =>
    if months = 0 ∧ days = 0 then
      match integralRow 64 start stop micros maxValues with
      | .error e => .error (.seq e)
      | .ok l => .ok l
    else
      let est := estimatedStep months days micros
      match sequenceLength start stop est with
      | .error e => .error (.seq e)
      | .ok _ =>
        loop (fun i => addTemporal start i months days micros) (inside stop est) .ok
          (fullErr maxValues) (room maxValues) 0 []

/-- spark_sequence.rs 1119-1123 (`micros_to_date`). -/
def microsToDate (v : Int) : Except TErr Int :=
  if inTy 32 (v / microsPerDay) then .ok (v / microsPerDay) else .error .date

/-- spark_sequence.rs 1106-1111 (`date_to_micros` in UTC): the checked product. -/
def dateToMicros (date : Int) : Except TErr Int :=
  if inTy 64 (date * microsPerDay) then .ok (date * microsPerDay) else .error .date

/-- spark_sequence.rs 1135-1192 (`temporal_date_row`). -/
def dateRow (start stop : Int) (step : Step) (maxValues : Nat) : Except TErr (List Int) :=
  match step.parts with
  | .error e => .error e
  | .ok (months, days, micros) =>
    if months = 0 ∧ days = 0 then .error .granularity
    else if months = 0 ∧ micros = 0 then
      match integralRow 32 start stop days maxValues with
      | .error e => .error (.seq e)
      | .ok l => .ok l
    else
      match dateToMicros start with
      | .error e => .error e
      | .ok startMicros =>
        match dateToMicros stop with
        | .error e => .error e
        | .ok stopMicros =>
          let est := estimatedStep months days micros
          match sequenceLength startMicros stopMicros est with
          | .error e => .error (.seq e)
          | .ok _ =>
            loop (fun i => addTemporal startMicros i months days micros) (inside stopMicros est)
              microsToDate (fullErr maxValues) (room maxValues) 0 []

/-- The arguments of one row; `none` is NULL. -/
structure TArgs where
  start : Option Int
  stop : Option Int
  step : Option Step
deriving Repr, DecidableEq

/-- spark_sequence.rs 597-615 (`append_row`) and 1217-1245, 1280-1301: the loop over the rows of a
batch.  `three`: whether there is a step argument. -/
def genRows (row : Int → Int → Step → Nat → Except TErr (List Int)) (three : Bool) :
    List TArgs → ListArr Int → Except TErr (ListArr Int)
  | [], a => .ok a
  | r :: rs, a =>
    match r.start, r.stop with
    | some start, some stop =>
      match (if three then r.step else some (defaultStep start stop)) with
      | some step =>
        match row start stop step (2147483647 - a.values.length) with
        | .error e => .error e
        | .ok l =>
          if (l.length : Int) > maxLength then .error (.seq .size)
          else if a.values.length + l.length > 2147483647 then .error (.seq .capacity)
          else genRows row three rs (a.pushRow l)
      | none => genRows row three rs a.pushNull
    | _, _ => genRows row three rs a.pushNull

end Verif.Func.TemporalSeq
