import Mathlib.Data.Int.Order.Basic

/-!
# try_add, try_subtract, try_multiply, try_mod and div of intervals

Models crates/sail-function/src/scalar/math/spark_try_add.rs, spark_try_subtract.rs, spark_try_mult.rs,
spark_try_mod.rs, spark_div.rs and utils/try_op.rs.

Simplifications. A column is the list of its values, `none` being NULL; a constant is a column of equal
values (`to_array_of_size`). Signed integers of `w` bits are integers in their range. Dates and timestamps
with a number of days or microseconds are these integers. Not modelled: dates with calendar intervals, and
try_divide, which computes with floating point numbers. For div the NULL arguments are left out: they give NULL.
-/

namespace Verif.Func.TryArith

/-- Whether an integer is a signed one of `w` bits. -/
def fits (w : Nat) (x : Int) : Bool := decide (-2 ^ (w - 1) ≤ x) && decide (x < 2 ^ (w - 1))

/-- The value if it is in range. -/
def checked (w : Nat) (x : Int) : Option Int := if fits w x then some x else none

/-- `checked_add`. -/
def checkedAdd (w : Nat) (a b : Int) : Option Int := checked w (a + b)

/-- `checked_sub`. -/
def checkedSub (w : Nat) (a b : Int) : Option Int := checked w (a - b)

/-- `checked_mul`. -/
def checkedMul (w : Nat) (a b : Int) : Option Int := checked w (a * b)

/-- `checked_rem`: "returning None if rhs == 0 or the division results in overflow". -/
def checkedRem (w : Nat) (a b : Int) : Option Int :=
  if b = 0 then none else if a = -2 ^ (w - 1) ∧ b = -1 then none else some (Int.tmod a b)

/-- The loop of `try_binary_op_primitive`, try_op.rs:58-81, and of the functions like it
(`try_op_interval_yearmonth` 32-56, `try_binary_op_date32_i32` 108-134, `try_op_timestamp_duration`
219-244, `try_op_interval_yearmonth_i32` 277-301). -/
def tryOp {α β γ : Type} (op : α → β → Option γ) : List (Option α) → List (Option β) → List (Option γ)
  | some a :: l, some b :: r => op a b :: tryOp op l r
  | _ :: l, _ :: r => none :: tryOp op l r
  | _, _ => []

/-- `IntervalMonthDayNano`: months and days of 32 bits, nanoseconds of 64. -/
structure Interval where
  months : Int
  days : Int
  nanos : Int
deriving DecidableEq

/-- All three parts, or nothing. -/
def parts (m d n : Option Int) : Option Interval :=
  match m, d, n with
  | some m, some d, some n => some ⟨m, d, n⟩
  | _, _, _ => none

/-- `IntervalMonthDayNano::checked_add` of the arrow-buffer crate, used in
`try_add_interval_monthdaynano`, try_op.rs:246-267. -/
def addInterval (a b : Interval) : Option Interval :=
  parts (checkedAdd 32 a.months b.months) (checkedAdd 32 a.days b.days) (checkedAdd 64 a.nanos b.nanos)

/-- `wrapping_neg`. -/
def wrapNeg (w : Nat) (x : Int) : Int := if x = -2 ^ (w - 1) then x else -x

/-- `IntervalMonthDayNano::neg` in a release build, where it wraps (with debug assertions it panics). -/
def negInterval (a : Interval) : Interval :=
  ⟨wrapNeg 32 a.months, wrapNeg 32 a.days, wrapNeg 64 a.nanos⟩

/-- try_subtract of two intervals, spark_try_subtract.rs:173-179. -/
def subInterval (a b : Interval) : Option Interval := addInterval a (negInterval b)

/-- `try_op_interval_monthdaynano_i64` with `i64::checked_mul`, try_op.rs:336-367 (and
`try_op_interval_monthdaynano_i32`, 303-334, where the factor is an `i32`): months and days are multiplied
as 64-bit numbers and then have to fit 32 bits. -/
def mulInterval (a : Interval) (k : Int) : Option Interval :=
  parts ((checkedMul 64 a.months k).bind (checked 32)) ((checkedMul 64 a.days k).bind (checked 32))
    (checkedMul 64 a.nanos k)

/-- try_multiply of a year-month interval and a number, spark_try_mult.rs:153-166: a number that does not
fit 32 bits becomes NULL. -/
def mulYearMonth (months k : Int) : Option Int := (checked 32 k).bind (checkedMul 32 months)

/-- `rescale_decimal_up` of one value, spark_try_mod.rs:207-239, with `w` = 128. -/
def rescaleUp (w delta : Nat) (v : Int) : Option Int :=
  if fits w (10 ^ delta) then checkedMul w v (10 ^ delta) else none

/-- try_mod of decimals of scales `s₁` and `s₂`, spark_try_mod.rs:129-148: the unscaled value of the result,
whose scale is the larger one (`w` = 128, the width of the unscaled values). -/
def modDecimal (w s₁ s₂ : Nat) (a b : Int) : Option Int :=
  match rescaleUp w (max s₁ s₂ - s₁) a, rescaleUp w (max s₁ s₂ - s₂) b with
  | some x, some y => checkedRem w x y
  | _, _ => none

/-! ### div of intervals -/

/-- 64-bit arithmetic in a release build: it wraps. -/
def wrap64 (x : Int) : Int := (x + 2 ^ 63) % 2 ^ 64 - 2 ^ 63

/-- `/` of `i64`: panics on overflow. The outer `none` is a panic, the inner one is NULL. -/
def divI64 (d s : Int) : Option (Option Int) :=
  if s = 0 then some none
  else if d = -2 ^ 63 ∧ s = -1 then none
  else some (some (Int.tdiv d s))

/-- div of two year-month intervals, spark_div.rs:89-106. -/
def divYearMonth (d s : Int) : Option (Option Int) := divI64 d s

/-- div of two day-time intervals (days, milliseconds), spark_div.rs:107-127. -/
def divDayTime (d s : Int × Int) : Option (Option Int) :=
  divI64 (wrap64 (wrap64 (d.1 * 86400000) + d.2)) (wrap64 (wrap64 (s.1 * 86400000) + s.2))

/-- The nanoseconds of an interval as spark_div.rs:140-145 computes them. -/
def nanosOf (a : Interval) : Int :=
  wrap64 (wrap64 (wrap64 (a.months * 2592000000000000) + wrap64 (a.days * 86400000000000)) + a.nanos)

/-- div of two calendar intervals, spark_div.rs:128-155. -/
def divInterval (d s : Interval) : Option (Option Int) := divI64 (nanosOf d) (nanosOf s)

end Verif.Func.TryArith
