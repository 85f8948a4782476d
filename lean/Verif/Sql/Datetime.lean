import Verif.Sql.Number
import Verif.Base.Calendar

/-!
# Date, time and timestamp literals

`sail-sql-analyzer/src/literal/datetime.rs` and its use in
`sail-plan/src/resolver/expression/literal.rs`. The parsers are written with the combinators of chumsky,
which try alternatives in order and do not come back to an alternative once it has succeeded.
-/

namespace Verif.Sql

open Verif.Calendar

/-- `one_of('0'..='9').repeated().at_most(max)`: as many digits as there are, up to the limit. -/
def digitsUpTo (max : Nat) (s : Text) : Text := (s.takeWhile Char.isDigit).take max

/-- `unsigned(min, max)` (`datetime.rs:107-119`). The number always fits into the type, a `u8` for two
digits. -/
def unsigned (min max : Nat) (s : Text) : Option (Nat × Text) :=
  if (digitsUpTo max s).length < min then none
  else some (Nat.ofDigitChars 10 (digitsUpTo max s) 0, s.drop (digitsUpTo max s).length)

/-- `signed(4, 7)` (`datetime.rs:88-105`), an `i32`. -/
def signedYear (s : Text) : Option (Int × Text) :=
  match unsigned 4 7 (takeSign s).2 with
  | none => none
  | some (n, r) => some (if (takeSign s).1 = ['-'] then -(n : Int) else (n : Int), r)

/-- `just(sep).ignore_then(unsigned(1, 2)).or_not()`: if it does not succeed then nothing is consumed. -/
def optField (sep : Char) (s : Text) : Option Nat × Text :=
  match s with
  | [] => (none, [])
  | c :: r =>
    if c == sep then
      match unsigned 1 2 r with
      | none => (none, c :: r)
      | some (n, r') => (some n, r')
    else (none, c :: r)

/-- `DateValue` (`datetime.rs:10-15`). -/
structure DateValue where
  year : Int
  month : Nat
  day : Nat
  deriving DecidableEq, Repr

/-- `date()` (`datetime.rs:148-163`). -/
def dateP (s : Text) : Option (DateValue × Text) :=
  match signedYear s with
  | none => none
  | some (y, r) =>
    let m := optField '-' r
    let d := optField '-' m.2
    some (⟨y, m.1.getD 1, d.1.getD 1⟩, d.2)

/-- `char::is_ascii_whitespace`. -/
def isAsciiSpace (c : Char) : Bool :=
  c == ' ' || c == '\t' || c == '\n' || c == '\r' || c == Char.ofNat 12

/-- `create_date_parser` (`datetime.rs:230-243`): a white space and then anything may follow. -/
def parseDate (s : Text) : Option DateValue :=
  match dateP s with
  | none => none
  | some (v, []) => some v
  | some (v, c :: _) => if isAsciiSpace c then some v else none

/-- `TimeValue` (`datetime.rs:26-32`). -/
structure TimeValue where
  hour : Nat
  minute : Nat
  second : Nat
  nanos : Nat
  deriving DecidableEq, Repr

/-- `just('.').ignore_then(fraction(0, 9)).or_not()` (`datetime.rs:121-146,174-178`): up to nine digits,
filled with zeros. -/
def optFraction (s : Text) : Option Nat × Text :=
  match s with
  | [] => (none, [])
  | c :: r =>
    if c == '.' then
      (some (Nat.ofDigitChars 10 ((digitsUpTo 9 r ++ List.replicate 9 '0').take 9) 0),
        r.drop (digitsUpTo 9 r).length)
    else (none, c :: r)

/-- `time()` (`datetime.rs:165-184`). -/
def timeP (s : Text) : Option (TimeValue × Text) :=
  match unsigned 1 2 s with
  | none => none
  | some (h, r) =>
    let m := optField ':' r
    let x := optField ':' m.2
    let f := optFraction x.2
    some (⟨h, m.1.getD 0, x.1.getD 0, f.1.getD 0⟩, f.2)

/-- `create_time_parser` (`datetime.rs:252-258`). -/
def parseTime (s : Text) : Option TimeValue :=
  match timeP s with
  | some (v, []) => some v
  | _ => none

/-- `trim_matches(' ')`. -/
def trimSpaces (s : Text) : Text :=
  ((s.dropWhile (· == ' ')).reverse.dropWhile (· == ' ')).reverse

/-- `timezone()` (`datetime.rs:186-201`) on the rest of the text. -/
def timezoneOf (s : Text) : Text :=
  let t := trimSpaces s
  if t = ['Z'] ∨ t = ['z'] then ['U', 'T', 'C']
  else if t.take 4 = ['U', 'T', 'C', '+'] ∨ t.take 4 = ['U', 'T', 'C', '-'] then t.drop 3
  else t

/-- What may be between the date and the time (`datetime.rs:207-213`): a `T` with spaces around it, or
spaces. -/
def dateTimeSep (s : Text) : Option Text :=
  match s.dropWhile (· == ' ') with
  | c :: r =>
    if c == 'T' || c == 't' then some (r.dropWhile (· == ' '))
    else if s.takeWhile (· == ' ') = [] then none
    else some (c :: r)
  | [] => if s.takeWhile (· == ' ') = [] then none else some []

/-- `TimestampValue` (`datetime.rs:58-63`). -/
structure TimestampValue where
  date : DateValue
  time : TimeValue
  timezone : Text
  deriving DecidableEq, Repr

/-- The first alternative after the date (`datetime.rs:208-213`). -/
def timeAndZone (s : Text) : Option (TimeValue × Text) :=
  match dateTimeSep s with
  | none => none
  | some r =>
    match timeP r with
    | none => none
    | some (t, r') => some (t, timezoneOf r')

/-- `create_timestamp_parser` (`datetime.rs:203-228,245-250`). The time zone takes everything to the end;
without a time only spaces may follow the date. -/
def parseTimestamp (s : Text) : Option TimestampValue :=
  match dateP s with
  | none => none
  | some (d, r) =>
    match timeAndZone r with
    | some (t, z) => some ⟨d, t, z⟩
    | none => if r.dropWhile (· == ' ') = [] then some ⟨d, ⟨0, 0, 0, 0⟩, []⟩ else none

/-- `NaiveDate::from_ymd_opt` (`datetime.rs:17-24`), as days since 1970-01-01. The years of the date
library are −262143 to 262142. -/
def naiveDate (v : DateValue) : Option Int :=
  let i := (v.year - 1970) * 12 + ((v.month : Int) - 1)
  if -262143 ≤ v.year ∧ v.year ≤ 262142 ∧ 1 ≤ v.month ∧ v.month ≤ 12 ∧ 1 ≤ v.day ∧
      (v.day : Int) ≤ monthFirst (i + 1) - monthFirst i then
    some (monthFirst i + ((v.day : Int) - 1))
  else none

/-- `NaiveTime::try_from` (`datetime.rs:34-56`), as nanoseconds since midnight. -/
def naiveTime (v : TimeValue) : Option Nat :=
  if v.second = 60 ∧ (v.hour ≠ 23 ∨ v.minute ≠ 59) then none
  else
    let second := if v.second = 60 then 59 else v.second
    if v.hour < 24 ∧ v.minute < 60 ∧ second < 60 ∧ v.nanos < 2000000000 then
      some (((v.hour * 60 + v.minute) * 60 + second) * 1000000000 + v.nanos)
    else none

/-- The outcome of a literal. -/
inductive Outcome (α : Type) where
  | ok (a : α)
  | error
  | panic
  deriving DecidableEq, Repr

/-- The last day of the date library, 262142-12-31. -/
def lastDay : Int := monthFirst ((262142 - 1970) * 12 + 12) - 1

/-- `TimestampValue::into_naive` (`datetime.rs:65-86`): nanoseconds since 1970-01-01 00:00 without a time
zone. The addition of a second panics after the last day. -/
def intoNaive (v : TimestampValue) : Outcome Int :=
  match naiveDate v.date with
  | none => .error
  | some d =>
    match naiveTime v.time with
    | none => .error
    | some t =>
      let n := d * 86400000000000 + (t : Int)
      if v.time.second = 60 then
        if n + 1000000000 < (lastDay + 1) * 86400000000000 then .ok (n + 1000000000) else .panic
      else .ok n

/-- `resolve_expression_date` (`sail-plan/src/resolver/expression/literal.rs:36-46`): days since
1970-01-01. -/
def dateLiteral (s : Text) : Option Int :=
  match parseDate s with
  | none => none
  | some v => naiveDate v

/-- `resolve_expression_time` (`literal.rs:90-113`): microseconds since midnight. -/
def timeLiteral (s : Text) : Option Nat :=
  match parseTime s with
  | none => none
  | some v =>
    match naiveTime v with
    | none => none
    | some n => some (n / 1000)

/-- The local date and time, in microseconds, and the time zone text of a timestamp literal
(`literal.rs:48-88`). The conversion from the zone is not modelled. -/
def timestampLiteral (s : Text) : Outcome (Int × Text) :=
  match parseTimestamp s with
  | none => .error
  | some v =>
    match intoNaive v with
    | .ok n => .ok (n / 1000, v.timezone)
    | .error => .error
    | .panic => .panic

end Verif.Sql
