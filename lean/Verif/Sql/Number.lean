import Verif.Sql.Name

/-!
# Number literals

The state machine for number literals over adjacent tokens
(`sail-sql-parser/src/ast/literal.rs`), the choice of the type
(`sail-sql-analyzer/src/value.rs`) and the decimal parser
(`sail-sql-analyzer/src/literal/numeric.rs`).
-/

namespace Verif.Sql

/-- `NumberSuffix` (`literal.rs:23-31`). -/
inductive Suffix
  | y | s | l | f | d | bd
  deriving DecidableEq, Repr

/-- `NumberState` (`literal.rs:51-66`). The six states with a complete suffix are one constructor. -/
inductive NumState
  | start
  | whole (x : Text)
  | point (x : Text)
  | decimal (x : Text)
  | marker (x : Text)
  | sign (x : Text)
  | exponent (x : Text)
  | suffixB (x : Text)
  | suffix (k : Suffix) (x : Text)
  deriving DecidableEq, Repr

/-- The character is the letter, in upper or lower case. -/
def isLetter (l : Char) (c : Char) : Bool := c == l || c == l.toUpper

/-- The suffixes after a fraction or an exponent (`literal.rs:108-110,123-125`). -/
def nextSuffix (x : Text) (c : Char) : Option NumState :=
  if isLetter 'f' c then some (.suffix .f x)
  else if isLetter 'd' c then some (.suffix .d x)
  else if isLetter 'b' c then some (.suffixB x)
  else none

/-- `NumberState::next` (`literal.rs:77-141`). -/
def NumState.next : NumState → Char → Option NumState
  | .start, c =>
    if c.isDigit then some (.whole [c]) else if c == '.' then some (.point [c]) else none
  | .whole x, c =>
    if c.isDigit then some (.whole (x ++ [c]))
    else if c == '.' then some (.decimal (x ++ [c]))
    else if isLetter 'e' c then some (.marker (x ++ [c]))
    else if isLetter 'y' c then some (.suffix .y x)
    else if isLetter 's' c then some (.suffix .s x)
    else if isLetter 'l' c then some (.suffix .l x)
    else nextSuffix x c
  | .point x, c => if c.isDigit then some (.decimal (x ++ [c])) else none
  | .decimal x, c =>
    if c.isDigit then some (.decimal (x ++ [c]))
    else if isLetter 'e' c then some (.marker (x ++ [c]))
    else nextSuffix x c
  | .marker x, c =>
    if c == '+' || c == '-' then some (.sign (x ++ [c]))
    else if c.isDigit then some (.exponent (x ++ [c]))
    else none
  | .sign x, c => if c.isDigit then some (.exponent (x ++ [c])) else none
  | .exponent x, c => if c.isDigit then some (.exponent (x ++ [c])) else nextSuffix x c
  | .suffixB x, c => if isLetter 'd' c then some (.suffix .bd x) else none
  | .suffix _ _, _ => none

/-- `NumberState::next_slice` (`literal.rs:69-75`). -/
def NumState.nextSlice : NumState → Text → Option NumState
  | st, [] => some st
  | st, c :: r =>
    match st.next c with
    | none => none
    | some st' => st'.nextSlice r

/-- `NumberState::finalize` (`literal.rs:143-161`). -/
def NumState.finalize : NumState → Option (Text × Option Suffix)
  | .whole x => some (x, none)
  | .decimal x => some (x, none)
  | .exponent x => some (x, none)
  | .suffix k x => some (x, some k)
  | _ => none

/-- The text that a token gives to the state machine (`literal.rs:178-186`). -/
def numRaw : Tok → Option Text
  | .word raw => some raw
  | .punct c => if c == '.' || c == '+' || c == '-' then some [c] else none
  | _ => none

/-- The loop of the parser of number literals (`literal.rs:176-203`): the last state at the end of a
token in which the literal is complete, with the tokens after it. -/
def numberLoop : NumState → Option ((Text × Option Suffix) × List Tok) → List Tok →
    Option ((Text × Option Suffix) × List Tok)
  | _, cand, [] => cand
  | st, cand, t :: ts =>
    match numRaw t with
    | none => cand
    | some raw =>
      match st.nextSlice raw with
      | none => cand
      | some st' =>
        match st'.finalize with
        | some v => numberLoop st' (some (v, ts)) ts
        | none => numberLoop st' cand ts

/-- `NumberLiteral::parser` (`literal.rs:171-215`): the text, the suffix and the remaining tokens. -/
def parseNumber (ts : List Tok) : Option ((Text × Option Suffix) × List Tok) :=
  match numberLoop .start none ts with
  | none => none
  | some (v, r) => some (v, skipWs r)

/-- A literal in the plan (`spec::Literal`). Floating point values are of some type. -/
inductive NumLit (F32 F64 : Type)
  | int8 (v : Int)
  | int16 (v : Int)
  | int32 (v : Int)
  | int64 (v : Int)
  | float32 (v : F32)
  | float64 (v : F64)
  | dec128 (precision : Nat) (scale : Int) (v : Int)
  | dec256 (precision : Nat) (scale : Int) (v : Int)
  deriving DecidableEq, Repr

/-- The outcome of the conversion; `crash` is a panic. -/
inductive Conv (α : Type)
  | ok (a : α)
  | error
  | crash
  deriving DecidableEq, Repr

/-- `Result::or_else`, where a panic is not caught. -/
def Conv.orElse {α : Type} : Conv α → (Unit → Conv α) → Conv α
  | .ok a, _ => .ok a
  | .error, f => f ()
  | .crash, _ => .crash

/-- The digits of a number, without a sign. -/
def parseDigits (s : Text) : Option Nat :=
  if s ≠ [] ∧ s.all Char.isDigit = true then some (Nat.ofDigitChars 10 s 0) else none

/-- `str::parse` for a signed integer type of the given number of bits. -/
def parseInt (bits : Nat) (s : Text) : Option Int :=
  let v : Option Int :=
    match s with
    | [] => none
    | c :: r =>
      if c == '-' then (parseDigits r).map (fun n : Nat => -(n : Int))
      else if c == '+' then (parseDigits r).map (fun n : Nat => (n : Int))
      else (parseDigits (c :: r)).map (fun n : Nat => (n : Int))
  match v with
  | none => none
  | some n => if -(2 ^ (bits - 1) : Int) ≤ n ∧ n < 2 ^ (bits - 1) then some n else none

/-- The end of both regular expressions (`numeric.rs:19,22`): the exponent with its sign, if any. -/
def decimalEnd : Text → Option (Option Text)
  | [] => some none
  | c :: r =>
    if c == 'e' || c == 'E' then
      match r with
      | [] => none
      | d :: r' =>
        let ds := if d == '+' || d == '-' then r' else d :: r'
        if ds ≠ [] ∧ ds.all Char.isDigit = true then some (some (d :: r')) else none
    else none

/-- The captures of the regular expressions. -/
structure Caps where
  sign : Text
  whole : Text
  fraction : Text
  exponent : Option Text
  deriving DecidableEq, Repr

/-- `[.]?` -/
def dropPoint : Text → Text
  | [] => []
  | c :: r => if c == '.' then r else c :: r

/-- `[+-]?` -/
def takeSign : Text → Text × Text
  | [] => ([], [])
  | c :: r => if c == '+' || c == '-' then ([c], r) else ([], c :: r)

/-- `DECIMAL_REGEX.captures(s).or_else(|| DECIMAL_FRACTION_REGEX.captures(s))` (`numeric.rs:17-24,96-99`).
The whole part takes as many digits as it can, up to 38. To give digits back would not help: they
would belong to the fraction, after which the same end is required, and if there is a point then
there is no way to have digits of the fraction before it. The class of digits contains further
characters than the ASCII digits, which do not occur in number literals. -/
def decimalCaps (s : Text) : Option Caps :=
  let sign := (takeSign s).1
  let r := (takeSign s).2
  let whole := (r.takeWhile Char.isDigit).take 38
  if whole ≠ [] then
    let r' := dropPoint (r.drop whole.length)
    let fraction := r'.takeWhile Char.isDigit
    if fraction.length ≤ 38 then
      match decimalEnd (r'.dropWhile Char.isDigit) with
      | none => none
      | some e => some ⟨sign, whole, fraction, e⟩
    else none
  else
    match r with
    | [] => none
    | c :: r' =>
      if c == '.' then
        let fraction := r'.takeWhile Char.isDigit
        if fraction ≠ [] ∧ fraction.length ≤ 38 then
          match decimalEnd (r'.dropWhile Char.isDigit) with
          | none => none
          | some e => some ⟨sign, [], fraction, e⟩
        else none
      else none

/-- The signed number that the sign and the digits stand for, as `str::parse` reads it. -/
def signedDigits (sign num : Text) : Int :=
  if sign = ['-'] then -(Nat.ofDigitChars 10 num 0 : Int) else (Nat.ofDigitChars 10 num 0 : Int)

/-- `extract_match(&captures, "exponent", error)?.unwrap_or(0)` (`numeric.rs:107`): an `i8`. -/
def capsExp : Option Text → Option Int
  | none => some 0
  | some x => parseInt 8 x

/-- The computation on the captures of `parse_decimal_string` (`numeric.rs:100-150`). The sum of
the lengths is an `i8` and wraps around in a release build; a negative width becomes a huge `usize`, which
the formatting refuses with a panic. At most 76 digits fit into the type, so the last parse never fails. -/
def decimalOf {F32 F64 : Type} (caps : Caps) : Conv (NumLit F32 F64) :=
  let whole := caps.whole.dropWhile (· == '0')
  match capsExp caps.exponent with
  | none => .error
  | some e =>
    let zero := whole = [] ∧ caps.fraction = []
    let whole := if zero then ['0'] else whole
    let w : Int := if zero then 1 else whole.length
    let f : Int := if zero then 0 else caps.fraction.length
    let scale := f - e
    if scale < -128 ∨ 127 < scale then .error
    else if scale < -76 ∨ 76 < scale then .error
    else
      let padding := if scale < 0 then -scale else 0
      let scale := if scale < 0 then 0 else scale
      let width := Int.bmod (w + f + padding) 256
      let precision := (max width scale).toNat
      if width < 0 then .crash
      else
        let num := whole ++ caps.fraction
        let value := num ++ List.replicate (width.toNat - num.length) '0'
        if precision = 0 ∨ 76 < precision ∨ (precision : Int) < scale then .error
        else if 38 < precision then .ok (.dec256 precision scale (signedDigits caps.sign value))
        else .ok (.dec128 precision scale (signedDigits caps.sign value))

/-- `parse_decimal_string` (`numeric.rs:94-151`). -/
def decimalString {F32 F64 : Type} (s : Text) : Conv (NumLit F32 F64) :=
  match decimalCaps s with
  | none => .error
  | some caps => decimalOf caps

/-- `parse_decimal_128_string` (`numeric.rs:74-82`). -/
def decimal128String {F32 F64 : Type} (s : Text) : Conv (NumLit F32 F64) :=
  match (decimalString s : Conv (NumLit F32 F64)) with
  | .ok (.dec128 p sc v) => .ok (.dec128 p sc v)
  | .ok _ => .error
  | .error => .error
  | .crash => .crash

/-- `parse_decimal_256_string` (`numeric.rs:84-92`). -/
def decimal256String {F32 F64 : Type} (s : Text) : Conv (NumLit F32 F64) :=
  match (decimalString s : Conv (NumLit F32 F64)) with
  | .ok (.dec256 p sc v) => .ok (.dec256 p sc v)
  | .ok _ => .error
  | .error => .error
  | .crash => .crash

/-- `parse_i8_string` and the like (`numeric.rs:26-52`), and the float parsers (`numeric.rs:54-72`). -/
def convOf {α β : Type} (mk : α → β) : Option α → Conv β
  | some a => .ok (mk a)
  | none => .error

/-- `from_ast_number_literal` (`value.rs:13-42`). The floating point parsers, which give finite values
only, are parameters. -/
def numberLiteral {F32 F64 : Type} (f32 : Text → Option F32) (f64 : Text → Option F64)
    (value : Text) : Option Suffix → Conv (NumLit F32 F64)
  | some .y => convOf .int8 (parseInt 8 value)
  | some .s => convOf .int16 (parseInt 16 value)
  | some .l => convOf .int64 (parseInt 64 value)
  | some .f => convOf .float32 (f32 value)
  | some .d => convOf .float64 (f64 value)
  | some .bd => (decimal128String value).orElse fun _ => decimal256String value
  | none =>
    if value.contains 'e' || value.contains 'E' then
      ((convOf .float64 (f64 value)).orElse fun _ => decimal128String value).orElse fun _ =>
        decimal256String value
    else
      (((convOf .int32 (parseInt 32 value)).orElse fun _ => convOf .int64 (parseInt 64 value)).orElse
        fun _ => decimal128String value).orElse fun _ => decimal256String value

end Verif.Sql
