import Verif.Sql.Datetime
import Verif.Sql.Interval

/-!
# How literals are shown

`sail-common-datafusion/src/formatter.rs`, used by `sail-plan/src/formatter.rs:196-330` for the names of
columns and by the text output of tables. Only what is written between the quotes is modelled.
-/

namespace Verif.Sql

open Verif.Calendar

/-- `{:0k}` of a number that is not negative: zeros in front up to `k` digits. -/
def padText (k n : Nat) : Text := List.replicate (k - (Nat.toDigits 10 n).length) '0' ++ Nat.toDigits 10 n

/-- `{}` of a signed integer. -/
def intText (n : Int) : Text := if n < 0 then '-' :: Nat.toDigits 10 n.natAbs else Nat.toDigits 10 n.natAbs

/-- `trim_end_matches('0')`. -/
def trimZeros (s : Text) : Text := (s.reverse.dropWhile (· == '0')).reverse

/-- `FractionFormatter<N>` (`formatter.rs:29-51`). -/
def fractionText (n v : Nat) : Text :=
  if v > 0 then
    '.' :: (List.replicate (n - (Nat.toDigits 10 v).length) '0' ++ trimZeros (Nat.toDigits 10 v))
  else []

/-- `Item::Numeric(Numeric::Year, Pad::Zero)` of the date library: a sign outside of 0 to 9999, at least four
digits. -/
def yearText (y : Int) : Text :=
  if 0 ≤ y ∧ y ≤ 9999 then padText 4 y.natAbs
  else (if y < 0 then '-' else '+') :: padText 4 y.natAbs

/-- `DATE_FORMAT_ITEMS` (`formatter.rs:66-72`) of the civil date of a day number. -/
def dateItems (days : Int) : Text :=
  yearText (yearOf days) ++ '-' :: padText 2 (month0 days + 1).toNat ++
    '-' :: padText 2 (days - monthFirst (monthOf days) + 1).toNat

/-- `TIME_FORMAT_ITEMS` (`formatter.rs:73-79`) of the seconds since midnight. -/
def timeItems (seconds : Nat) : Text :=
  padText 2 (seconds / 3600) ++ ':' :: padText 2 (seconds / 60 % 60) ++ ':' :: padText 2 (seconds % 60)

/-- `"ERROR"`. -/
def errorText : Text := "ERROR".toList

/-- The first day of the date library, −262143-01-01. -/
def firstDay : Int := monthFirst ((-262143 - 1970) * 12)

/-- `Date32Formatter` (`formatter.rs:146-157`). -/
def showDate (days : Int) : Text := if firstDay ≤ days ∧ days ≤ lastDay then dateItems days else errorText

/-- `Time64MicrosecondFormatter` (`formatter.rs:201-214`) of a value that is not negative. -/
def showTime (us : Nat) : Text :=
  if us < 86400000000 then timeItems (us / 1000000) ++ fractionText 6 (us % 1000000) else errorText

/-- `TimestampMicrosecondFormatter` (`formatter.rs:118-134`) without a time zone, and `write_timestamp`
(`formatter.rs:81-94`). -/
def showTimestamp (us : Int) : Text :=
  let seconds := us / 1000000
  let nanos := (us % 1000000).toNat * 1000
  let days := seconds / 86400
  if firstDay ≤ days ∧ days ≤ lastDay then
    dateItems days ++ ' ' :: timeItems (seconds % 86400).toNat ++ fractionText 9 nanos
  else errorText

/-- `IntervalYearMonthFormatter` (`formatter.rs:231-241`). -/
def showMonths (n : Int) : Text :=
  let years := n.tdiv 12
  (if years = 0 ∧ n < 0 then ['-'] else []) ++ intText years ++ '-' :: Nat.toDigits 10 (n.tmod 12).natAbs

/-- `DurationSecondFormatter` to `DurationNanosecondFormatter` (`formatter.rs:324-398`), for a second of
`10 ^ k` units: `k` is 0, 3, 6, 9. -/
def showDuration (k : Nat) (n : Int) : Text :=
  let u : Int := 10 ^ k
  let days := n.tdiv (86400 * u)
  (if days = 0 ∧ n < 0 then ['-'] else []) ++ intText days ++
    ' ' :: padText 2 ((n.tmod (86400 * u)).tdiv (3600 * u)).natAbs ++
    ':' :: padText 2 ((n.tmod (3600 * u)).tdiv (60 * u)).natAbs ++
    ':' :: padText 2 ((n.tmod (60 * u)).tdiv u).natAbs ++ fractionText k (n.tmod u).natAbs

/-- `IntervalDayTimeFormatter` (`formatter.rs:243-266`). The sum of the days is assumed to fit. -/
def showDayTime (d ms : Int) : Text :=
  let days := d + ms.tdiv 86400000
  let ms := ms.tmod 86400000
  (if days = 0 ∧ ms < 0 then ['-'] else []) ++ intText days ++
    ' ' :: padText 2 (ms.tdiv 3600000).natAbs ++
    ':' :: padText 2 ((ms.tmod 3600000).tdiv 60000).natAbs ++
    ':' :: padText 2 ((ms.tmod 60000).tdiv 1000).natAbs ++ fractionText 3 (ms.tmod 1000).natAbs

end Verif.Sql
