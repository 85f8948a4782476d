import Verif.Base.Calendar

/-!
# Filters on year, last_day and floor (C66)

Models crates/sail-function/src/scalar/datetime/spark_year.rs and spark_last_day.rs and
crates/sail-function/src/scalar/math/spark_ceil_floor.rs: the functions, the range of arguments each
of them announces for a constant (`preimage`), and the rewrite of a comparison with the constant into
comparisons with the range.

The calendar of chrono's `NaiveDate` is the proleptic Gregorian calendar of Base/Calendar.lean,
limited to the years it supports.
-/
namespace Verif.Func.Preimage

open Verif.Calendar

/-! ## The rewrite of comparisons -/

inductive Op where
  | eq | ne | lt | le | gt | ge
deriving Repr, DecidableEq

/-- A comparison of two numbers. -/
def Op.test : Op → Int → Int → Bool
  | .eq, a, b => a == b
  | .ne, a, b => a != b
  | .lt, a, b => decide (a < b)
  | .le, a, b => decide (a ≤ b)
  | .gt, a, b => decide (a > b)
  | .ge, a, b => decide (a ≥ b)

/-- datafusion-optimizer `rewrite_with_preimage`, what the simplifier makes of `f(x) op constant`
when `f` announces the range from `lower` up to but not including `upper`; the arguments say whether
the column is below `lower` and whether it is below `upper`. -/
def rewritten (op : Op) (belowLower belowUpper : Bool) : Bool :=
  match op with
  | .eq => !belowLower && belowUpper
  | .ne => belowLower || !belowUpper
  | .lt => belowLower
  | .le => belowUpper
  | .gt => !belowUpper
  | .ge => !belowLower

/-! ## Dates -/

/-- The years of chrono's `NaiveDate`. -/
def chronoYear (y : Int) : Bool := decide (-262143 ≤ y) && decide (y ≤ 262142)

/-- `NaiveDate::from_ymd_opt(y, m, 1)` as days since 1970. -/
def firstOf (y m : Int) : Option Int :=
  if chronoYear y then some (monthFirst ((y - 1970) * 12 + (m - 1))) else none

/-- spark_year.rs 138-143 (`date32_to_year`); `none` is an error. -/
def year (days : Int) : Option Int := if chronoYear (yearOf days) then some (yearOf days) else none

/-- spark_year.rs 130-136 (`lit_as_year`) and 100-127 (`preimage`), for an integer literal of 32 or
64 bits. -/
def yearRange (lit : Int) : Option (Int × Int) :=
  if ¬ (-2 ^ 31 ≤ lit ∧ lit < 2 ^ 31) then none
  else
    match firstOf lit 1 with
    | none => none
    | some lo =>
      match firstOf (lit + 1) 1 with
      | none => none
      | some hi => some (lo, hi)

/-- spark_last_day.rs 152-175 (`spark_last_day`); `none` is an error. -/
def lastDay (days : Int) : Option Int :=
  if ¬ chronoYear (yearOf days) then none
  else
    let y := yearOf days
    let m := month0 days + 1
    let (ny, nm) := if m = 12 then (y + 1, 1) else (y, m + 1)
    (firstOf ny nm).map (· - 1)

/-- spark_last_day.rs 109-143 (`preimage`), for a date literal.  The day of the month is the distance
to the first of its month. -/
def lastDayRange (lit : Int) : Option (Int × Int) :=
  if ¬ chronoYear (yearOf lit) then none
  else if ¬ chronoYear (yearOf (lit + 1)) then none
  else if lit + 1 - monthFirst (monthOf (lit + 1)) + 1 ≠ 1 then none
  else
    match firstOf (yearOf lit) (month0 lit + 1) with
    | none => none
    | some lo => some (lo, lit + 1)

/-! ## Numbers -/

/-- spark_ceil_floor.rs 728-763 (`ceil_floor_with_target_scale` for floor to a whole number): the
unscaled value of a decimal with a scale of zero or more. -/
def floorDecimal (unscaled : Int) (scale : Nat) : Int :=
  if scale = 0 then unscaled else unscaled / 10 ^ scale

/-- spark_ceil_floor.rs 836-861 (`lit_as_integer`) for a decimal literal. -/
def decimalLit (unscaled : Int) (scale : Nat) : Option Int :=
  if scale = 0 then some unscaled
  else if 10 ^ scale ≥ (2 : Int) ^ 127 then none
  else if unscaled.tmod (10 ^ scale) = 0 then some (unscaled.tdiv (10 ^ scale)) else none

def inI128 (v : Int) : Bool := decide (-2 ^ 127 ≤ v) && decide (v < 2 ^ 127)

/-- spark_ceil_floor.rs 875-882 (`int_bounds`) for integers of the given width. -/
def intRange (bits : Nat) (n : Int) : Option (Int × Int) :=
  if -2 ^ (bits - 1) ≤ n ∧ n < 2 ^ (bits - 1) then
    if n + 1 < 2 ^ (bits - 1) then some (n, n + 1) else none
  else none

/-- spark_ceil_floor.rs 884-903 (`decimal128_bounds`) for a scale of zero or more: unscaled values. -/
def decimalRange (n : Int) (precision scale : Nat) : Option (Int × Int) :=
  if ¬ inI128 (10 ^ scale) then none
  else if ¬ inI128 (n * 10 ^ scale) then none
  else if ¬ inI128 (n * 10 ^ scale + 10 ^ scale) then none
  else if (n * 10 ^ scale).natAbs ≥ 10 ^ precision ∨
      (n * 10 ^ scale + 10 ^ scale).natAbs ≥ 10 ^ precision then none
  else some (n * 10 ^ scale, n * 10 ^ scale + 10 ^ scale)

/-- Floating point numbers as far as they matter here: which fractions a 64-bit and a 32-bit float
can hold, and the rounding of an integer to the nearest 64-bit float (`as f64`), respectively of a
64-bit float to a 32-bit one.  Nothing else is assumed about the formats. -/
structure Format where
  rep64 : Int → Nat → Prop
  rep32 : Int → Nat → Prop
  widen : ∀ p d, rep32 p d → rep64 p d
  round : Int → Int
  nearest : ∀ n p d, 0 < d → rep64 p d → (round n - n).natAbs * d ≤ (p - n * d).natAbs
  round32 : Int → Int

/-- A float: a fraction, the negative zero, an infinity or a NaN with its sign. -/
inductive Flt where
  | fin (p : Int) (d : Nat)
  | negZero
  | inf (negative : Bool)
  | nan (negative : Bool)
deriving Repr, DecidableEq

/-- `as i64`: saturating, and zero for NaN. -/
def saturate (v : Int) : Int := if v < -2 ^ 63 then -2 ^ 63 else if 2 ^ 63 ≤ v then 2 ^ 63 - 1 else v

/-- spark_ceil_floor.rs 582-604: `f64::floor` followed by `as i64`. -/
def floorFlt : Flt → Int
  | .fin p d => saturate (p / d)
  | .negZero => 0
  | .inf negative => if negative then -2 ^ 63 else 2 ^ 63 - 1
  | .nan _ => 0

/-- arrow-ord `lt` for floats, which is `total_cmp`, against a float with an integral value (a zero
that is not negative). -/
def below (b : Int) : Flt → Bool
  | .fin p d => decide (p < b * d)
  | .negZero => decide (0 ≤ b)
  | .inf negative => negative
  | .nan negative => negative

/-- `as i128` of an integral float. -/
def asI128 (v : Int) : Int := if v < -2 ^ 127 then -2 ^ 127 else if 2 ^ 127 ≤ v then 2 ^ 127 - 1 else v

/-- spark_ceil_floor.rs 863-873 (`float_bounds`); all results are finite, because they are below
2 ^ 128. -/
def floatRange (f : Format) (n : Int) : Option (Int × Int) :=
  if ¬ inI128 (n + 1) then none
  else if asI128 (f.round n) ≠ n ∨ f.round (n + 1) ≤ f.round n then none
  else some (f.round n, f.round (n + 1))

/-- spark_ceil_floor.rs 800-813: the same for a 32-bit column. -/
def floatRange32 (f : Format) (n : Int) : Option (Int × Int) :=
  match floatRange f n with
  | none => none
  | some (lo, hi) =>
    if f.round32 lo ≠ lo ∨ f.round32 hi ≠ hi ∨ f.round32 hi ≤ f.round32 lo then none
    else some (f.round32 lo, f.round32 hi)

end Verif.Func.Preimage
