import Verif.Sql.Number

/-!
# Interval literals

`sail-sql-analyzer/src/literal/interval.rs` and `literal/utils.rs`, from the syntax tree of the literal
to its value.
-/

namespace Verif.Sql

/-- The names of the captures. -/
inductive IField
  | year | month | day | hour | minute | second
  deriving DecidableEq, Repr

/-- What is between two fields in the regular expressions: `-`, `:` or `\s+`. -/
inductive ISep
  | dash | colon | space
  deriving DecidableEq, Repr

/-- `StandardIntervalKind` (`interval.rs:228-242`). -/
inductive IKind
  | year | yearToMonth | month
  | day | dayToHour | dayToMinute | dayToSecond
  | hour | hourToMinute | hourToSecond
  | minute | minuteToSecond
  | second
  deriving DecidableEq, Repr

/-- The first field of the regular expression of a kind (`interval.rs:23-58,302-349`), and the further
fields, each with what comes before it. -/
def IKind.fields : IKind → IField × List (ISep × IField)
  | .year => (.year, [])
  | .yearToMonth => (.year, [(.dash, .month)])
  | .month => (.month, [])
  | .day => (.day, [])
  | .dayToHour => (.day, [(.space, .hour)])
  | .dayToMinute => (.day, [(.space, .hour), (.colon, .minute)])
  | .dayToSecond => (.day, [(.space, .hour), (.colon, .minute), (.colon, .second)])
  | .hour => (.hour, [])
  | .hourToMinute => (.hour, [(.colon, .minute)])
  | .hourToSecond => (.hour, [(.colon, .minute), (.colon, .second)])
  | .minute => (.minute, [])
  | .minuteToSecond => (.minute, [(.colon, .second)])
  | .second => (.second, [])

/-- The kinds that are counted in months. -/
def IKind.isMonths : IKind → Bool
  | .year => true
  | .yearToMonth => true
  | .month => true
  | _ => false

/-- The kinds whose regular expression ends with `[.]?(?P<fraction>\d+)?`. -/
def IKind.hasFraction : IKind → Bool
  | .dayToSecond => true
  | .hourToSecond => true
  | .minuteToSecond => true
  | .second => true
  | _ => false

/-- `\s`. White space outside of ASCII is left out. -/
def isSp (c : Char) : Bool :=
  c == ' ' || c == '\t' || c == '\n' || c == '\r' || c == Char.ofNat 11 || c == Char.ofNat 12

/-- The captures: the sign is a minus, the fields, the fraction. -/
structure ICaps where
  minus : Bool
  fields : List (IField × Nat)
  fraction : Option Text
  deriving DecidableEq, Repr

/-- `\d+` for a field, with the number that the digits stand for. Digits outside of ASCII would be
matched as well, but not parsed as numbers later. -/
def takeField (s : Text) : Option (Nat × Text) :=
  if s.takeWhile Char.isDigit = [] then none
  else some (Nat.ofDigitChars 10 (s.takeWhile Char.isDigit) 0, s.dropWhile Char.isDigit)

/-- What is between two fields. -/
def takeSep : ISep → Text → Option Text
  | .dash, s =>
    match s with
    | c :: r => if c == '-' then some r else none
    | [] => none
  | .colon, s =>
    match s with
    | c :: r => if c == ':' then some r else none
    | [] => none
  | .space, s => if s.takeWhile isSp = [] then none else some (s.dropWhile isSp)

/-- The fields after the first. -/
def takeFields : List (ISep × IField) → Text → Option (List (IField × Nat) × Text)
  | [], s => some ([], s)
  | (sep, f) :: l, s =>
    match takeSep sep s with
    | none => none
    | some r =>
      match takeField r with
      | none => none
      | some (n, r') =>
        match takeFields l r' with
        | none => none
        | some (fs, r'') => some ((f, n) :: fs, r'')

/-- `[.]?(?P<fraction>\d+)?`, where all digits before belong to the field before. -/
def takeFraction (s : Text) : Option Text × Text :=
  let r := dropPoint s
  if r.takeWhile Char.isDigit = [] then (none, r)
  else (some (r.takeWhile Char.isDigit), r.dropWhile Char.isDigit)

/-- The captures of the regular expression of a kind (`interval.rs:23-58`). -/
def intervalCaps (k : IKind) (s : Text) : Option ICaps :=
  let s := s.dropWhile isSp
  match takeField (takeSign s).2 with
  | none => none
  | some (n, r) =>
    match takeFields k.fields.2 r with
    | none => none
    | some (fs, r') =>
      let fr := if k.hasFraction then takeFraction r' else (none, r')
      if fr.2.all isSp then some ⟨(takeSign s).1 == ['-'], (k.fields.1, n) :: fs, fr.1⟩ else none

/-- `captures.name(..)` for a field. -/
def ICaps.get (c : ICaps) (f : IField) : Option Nat :=
  match c.fields.find? (fun x => x.1 == f) with
  | none => none
  | some x => some x.2

/-- `extract_match(..)?.unwrap_or(0)` (`utils.rs:82-95`) for a signed integer type. -/
def ICaps.int (c : ICaps) (bits : Nat) (f : IField) : Option Int :=
  match c.get f with
  | none => some 0
  | some n => if n < 2 ^ (bits - 1) then some (n : Int) else none

/-- `extract_fraction_match(.., 6, ..)?.unwrap_or(0)` (`utils.rs:97-117`): the first six digits, filled
up with zeros. -/
def fractionMicros : Option Text → Nat
  | none => 0
  | some f => Nat.ofDigitChars 10 ((f ++ List.replicate 6 '0').take 6) 0

/-- `IntervalValue` (`interval.rs:60-73`). -/
inductive IValue
  | months (n : Int)
  | micros (n : Int)
  | mixed (months days nanos : Int)
  deriving DecidableEq, Repr

/-- A checked operation on a signed integer type: the exact result if it fits. -/
def checked (bits : Nat) (n : Int) : Option Int :=
  if -(2 ^ (bits - 1) : Int) ≤ n ∧ n < 2 ^ (bits - 1) then some n else none

/-- `n.checked_mul(-1)` if negated. -/
def negIf (bits : Nat) (neg : Bool) (n : Int) : Option Int := if neg then checked bits (-n) else some n

/-- `parse_interval_year_month_string` (`interval.rs:176-198`). -/
def yearMonthString (k : IKind) (neg : Bool) (s : Text) : Option IValue :=
  match intervalCaps k s with
  | none => none
  | some c =>
    match c.int 32 .year with
    | none => none
    | some years =>
      match c.int 32 .month with
      | none => none
      | some months =>
        match checked 32 (years * 12) with
        | none => none
        | some m =>
          match checked 32 (m + months) with
          | none => none
          | some n =>
            match negIf 32 (neg != c.minus) n with
            | none => none
            | some n => some (.months n)

/-- `TimeDelta` of the time library, in microseconds: at most `i64::MAX` milliseconds in both
directions. All constructors that can fail and the checked operations fail exactly outside of this
range. -/
def delta (us : Int) : Option Int :=
  if -((2 ^ 63 - 1) * 1000 : Int) ≤ us ∧ us ≤ (2 ^ 63 - 1) * 1000 then some us else none

/-- `delta.checked_add(&TimeDelta::try_..(n)?)?` for a unit of the given number of microseconds. -/
def addDelta (d : Int) (n unit : Int) : Option Int :=
  match delta (n * unit) with
  | none => none
  | some x => delta (d + x)

/-- `parse_interval_day_time_string` (`interval.rs:200-226`). -/
def dayTimeString (k : IKind) (neg : Bool) (s : Text) : Option IValue :=
  match intervalCaps k s with
  | none => none
  | some c =>
    match c.int 64 .day with
    | none => none
    | some days =>
      match c.int 64 .hour with
      | none => none
      | some hours =>
        match c.int 64 .minute with
        | none => none
        | some minutes =>
          match c.int 64 .second with
          | none => none
          | some seconds =>
            match delta (days * 86400000000) with
            | none => none
            | some d =>
              match addDelta d hours 3600000000 with
              | none => none
              | some d =>
                match addDelta d minutes 60000000 with
                | none => none
                | some d =>
                  match addDelta d seconds 1000000 with
                  | none => none
                  | some d =>
                    match addDelta d (fractionMicros c.fraction : Nat) 1 with
                    | none => none
                    | some d =>
                      match checked 64 d with
                      | none => none
                      | some us =>
                        match negIf 64 (neg != c.minus) us with
                        | none => none
                        | some n => some (.micros n)

/-- The expressions that can be the value of an interval (`utils.rs:49-80`): a minus sign, a number
literal without a suffix by its text, a string literal; anything else is an error. -/
inductive IExpr
  | neg (e : IExpr)
  | lit (s : Text)
  | other
  deriving DecidableEq, Repr

/-- `parse_signed_value::<Signed<String>>` (`utils.rs:49-80`): the signs and the text. -/
def signedText : IExpr → Option (Bool × Text)
  | .neg e =>
    match signedText e with
    | none => none
    | some (b, s) => some (!b, s)
  | .lit s => some (false, s)
  | .other => none

/-- `parse_signed_value::<i32>` and `::<i64>` (`utils.rs:49-80`). The negation wraps around in a release
build. -/
def signedInt (bits : Nat) : IExpr → Option Int
  | .neg e =>
    match signedInt bits e with
    | none => none
    | some n => some (Int.bmod (-n) (2 ^ bits))
  | .lit s => parseInt bits s
  | .other => none

/-- `Signed<DecimalSecond>::from_str` (`interval.rs:153-174`): the sign, the seconds and the microseconds. -/
def decimalSecond (s : Text) : Option (Bool × Nat × Nat) :=
  match intervalCaps .second s with
  | none => none
  | some c =>
    match c.get .second with
    | none => none
    | some n => if n < 2 ^ 32 then some (c.minus, n, fractionMicros c.fraction) else none

/-- `parse_signed_value::<Signed<DecimalSecond>>` (`utils.rs:49-80`). -/
def signedSecond : IExpr → Option (Bool × Nat × Nat)
  | .neg e =>
    match signedSecond e with
    | none => none
    | some (b, x) => some (!b, x)
  | .lit s => decimalSecond s
  | .other => none

/-- `from_ast_standard_interval` (`interval.rs:294-349`). -/
def standardInterval (e : IExpr) (k : IKind) (neg : Bool) : Option IValue :=
  match signedText e with
  | none => none
  | some (b, s) => if k.isMonths then yearMonthString k (b != neg) s else dayTimeString k (b != neg) s

/-- `IntervalUnit`, singular and plural. -/
inductive IUnit
  | year | month | week | day | hour | minute | second | millisecond | microsecond
  deriving DecidableEq, Repr

/-- One round of the loop in `from_ast_multi_unit_interval` (`interval.rs:358-418`). -/
def addUnit (months d : Int) (e : IExpr) : IUnit → Option (Int × Int)
  | .year =>
    match signedInt 32 e with
    | none => none
    | some v =>
      match checked 32 (v * 12) with
      | none => none
      | some m => (checked 32 (months + m)).map (·, d)
  | .month =>
    match signedInt 32 e with
    | none => none
    | some v => (checked 32 (months + v)).map (·, d)
  | .week => ((signedInt 64 e).bind (addDelta d · 604800000000)).map (months, ·)
  | .day => ((signedInt 64 e).bind (addDelta d · 86400000000)).map (months, ·)
  | .hour => ((signedInt 64 e).bind (addDelta d · 3600000000)).map (months, ·)
  | .minute => ((signedInt 64 e).bind (addDelta d · 60000000)).map (months, ·)
  | .second =>
    match signedSecond e with
    | none => none
    | some (b, s, us) =>
      match delta (if b then d - s * 1000000 else d + s * 1000000) with
      | none => none
      | some d => (delta (if b then d - us else d + us)).map (months, ·)
  | .millisecond => ((signedInt 64 e).bind (addDelta d · 1000)).map (months, ·)
  | .microsecond => ((signedInt 64 e).bind (addDelta d · 1)).map (months, ·)

/-- The loop in `from_ast_multi_unit_interval`. -/
def addUnits : List (IExpr × IUnit) → Int → Int → Option (Int × Int)
  | [], months, d => some (months, d)
  | (e, u) :: l, months, d =>
    match addUnit months d e u with
    | none => none
    | some (months, d) => addUnits l months d

/-- The end of `from_ast_multi_unit_interval` (`interval.rs:419-464`). The number of days is truncated
toward zero. -/
def multiUnitValue (months d : Int) (neg : Bool) : Option IValue :=
  if months ≠ 0 then
    if d = 0 then (negIf 32 neg months).map .months
    else
      let days := d.tdiv 86400000000
      match checked 64 (d - days * 86400000000) with
      | none => none
      | some us =>
        match negIf 32 neg months with
        | none => none
        | some months =>
          match negIf 64 neg days with
          | none => none
          | some days =>
            match checked 32 days with
            | none => none
            | some days =>
              match negIf 64 neg us with
              | none => none
              | some us => some (.mixed months days (Int.bmod (us * 1000) (2 ^ 64)))
  else
    match checked 64 d with
    | none => none
    | some us => (negIf 64 neg us).map .micros

/-- `from_ast_multi_unit_interval` (`interval.rs:351-464`). -/
def multiUnitInterval (l : List (IExpr × IUnit)) (neg : Bool) : Option IValue :=
  match addUnits l 0 0 with
  | none => none
  | some (months, d) => multiUnitValue months d neg

/-- The syntax of intervals (`IntervalExpr`). -/
inductive Interval
  | standard (e : IExpr) (k : IKind)
  | multi (head : IExpr × IUnit) (tail : List (IExpr × IUnit))
  deriving DecidableEq, Repr

/-- The standard kind for a single unit (`interval.rs:107-137`). -/
def IUnit.kind : IUnit → Option IKind
  | .year => some .year
  | .month => some .month
  | .day => some .day
  | .hour => some .hour
  | .minute => some .minute
  | .second => some .second
  | _ => none

/-- `from_ast_signed_interval` (`interval.rs:97-151`). A literal in quotes is parsed to one of these
forms first. -/
def signedInterval (neg : Bool) : Interval → Option IValue
  | .standard e k => standardInterval e k neg
  | .multi head [] =>
    match head.2.kind with
    | some k => standardInterval head.1 k neg
    | none => multiUnitInterval [head] neg
  | .multi head tail => multiUnitInterval (head :: tail) neg

end Verif.Sql
