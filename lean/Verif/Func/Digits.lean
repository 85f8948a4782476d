/-!
# hex, unhex, bin and conv (C71)

Models crates/sail-function/src/scalar/math/spark_unhex.rs, spark_bin.rs and spark_conv.rs.  Text is
a list of bytes, each a number below 256.  Integers of 64 bits are `Int`s in their range.
-/
namespace Verif.Func.Digits

abbrev Text := List Nat

/-- The character of a digit as `{:X}`, or `std::char::from_digit` in upper case, prints it. -/
def digitChar (d : Nat) : Nat := if d < 10 then 48 + d else 55 + d

/-- spark_unhex.rs 78-91 (`hex_encode` in upper case): two digits for every byte. -/
def hexEncode : List Nat → Text
  | [] => []
  | b :: bs => digitChar (b / 16) :: digitChar (b % 16) :: hexEncode bs

/-- The digits of a number that `{:X}` prints: at least one, and no zero in front. -/
def natDigits (radix : Nat) (n : Nat) : List Nat :=
  if h : n < radix ∨ radix < 2 then [n] else natDigits radix (n / radix) ++ [n % radix]
termination_by n
decreasing_by
  have : 2 ≤ radix ∧ radix ≤ n := by omega
  exact Nat.div_lt_self (by omega) (by omega)

/-- A 64-bit integer as an unsigned one (`as u64`). -/
def asU64 (v : Int) : Nat := (v % 2 ^ 64).toNat

/-- spark_unhex.rs 73-75 (`hex_int64`). -/
def hexInt64 (v : Int) : Text := (natDigits 16 (asU64 v)).map digitChar

/-- spark_unhex.rs 217-226 (`unhex_digit`). -/
def unhexDigit (c : Nat) : Option Nat :=
  if 48 ≤ c ∧ c ≤ 57 then some (c - 48)
  else if 65 ≤ c ∧ c ≤ 70 then some (10 + c - 65)
  else if 97 ≤ c ∧ c ≤ 102 then some (10 + c - 97)
  else none

/-- spark_unhex.rs 243-249: the loop over pairs.  The buffer is kept when a digit is invalid; the
flag says whether all were valid.  The list is of even length. -/
def unhexPairs : Text → List Nat → Bool × List Nat
  | c :: d :: rest, buffer =>
    match unhexDigit c with
    | none => (false, buffer)
    | some first =>
      match unhexDigit d with
      | none => (false, buffer)
      | some second => unhexPairs rest (buffer ++ [first * 16 + second])
  | _, buffer => (true, buffer)

/-- spark_unhex.rs 230-251 (`unhex`): appends to the buffer. -/
def unhexInto (text : Text) (buffer : List Nat) : Bool × List Nat :=
  match text with
  | c :: rest =>
    if text.length % 2 ≠ 0 then
      match unhexDigit c with
      | none => (false, buffer)
      | some v => unhexPairs rest (buffer ++ [v])
    else unhexPairs text buffer
  | [] => (true, buffer)

/-- spark_unhex.rs 253-277 (`spark_unhex_inner` for a column): one buffer serves all rows and is
cleared after each of them.  `none` is an error. -/
def unhexRows (failOnError : Bool) : List (Option Text) → List Nat → List (Option (List Nat)) →
    Option (List (Option (List Nat)))
  | [], _, out => some out
  | none :: rows, buffer, out => unhexRows failOnError rows buffer (out ++ [none])
  | some s :: rows, buffer, out =>
    match unhexInto s buffer with
    | (true, encoded) => unhexRows failOnError rows [] (out ++ [some encoded])
    | (false, _) =>
      if failOnError then none else unhexRows failOnError rows [] (out ++ [none])

/-- spark_bin.rs 205-220 (`bin_into`). -/
def binBits (v : Int) : List Nat :=
  let u := asU64 v
  let bits := if v ≥ 0 then max (if u = 0 then 0 else Nat.log2 u + 1) 1 else 64
  (List.range bits).reverse.map fun (i : Nat) => u / 2 ^ i % 2

def bin (v : Int) : Text := (binBits v).map digitChar

/-- The value of a digit in `from_str_radix`: letters of either case. -/
def charDigit (c : Nat) : Option Nat :=
  if 48 ≤ c ∧ c ≤ 57 then some (c - 48)
  else if 65 ≤ c ∧ c ≤ 90 then some (c - 55)
  else if 97 ≤ c ∧ c ≤ 122 then some (c - 87)
  else none

/-- The digits of a text in a radix, from the first; `none` if one is not a digit of the radix. -/
def readDigits (radix : Nat) : Text → Nat → Option Nat
  | [], acc => some acc
  | c :: rest, acc =>
    match charDigit c with
    | none => none
    | some d => if d < radix then readDigits radix rest (acc * radix + d) else none

/-- `i64::from_str_radix` of the Rust standard library: an optional sign, at least one digit, and a
value that fits.  Its checked arithmetic fails exactly if the final value does not fit, since the
absolute values never shrink. -/
def fromStrRadix (radix : Nat) (text : Text) : Option Int :=
  let fit (v : Int) : Option Int := if -2 ^ 63 ≤ v ∧ v < 2 ^ 63 then some v else none
  match text with
  | [] => none
  | 45 :: [] => none
  | 43 :: [] => none
  | 45 :: rest => (readDigits radix rest 0).bind fun n => fit (-n)
  | 43 :: rest => (readDigits radix rest 0).bind fun n => fit n
  | text => (readDigits radix text 0).bind fun n => fit n

/-- `i64::abs` without overflow checks: the least value is its own absolute value. -/
def absI64 (v : Int) : Int := if v = -2 ^ 63 then v else if v < 0 then -v else v

/-- spark_conv.rs 231-243: the digits from the last one; `std::char::from_digit` gives no character
for a remainder of 36 or more (a negative remainder becomes a large byte), printed as `?`. -/
def radixLoop (radix : Nat) : Nat → Int → Text
  | 0, _ => []
  | fuel + 1, n =>
    let rem := ((n.tmod radix) % 256).toNat
    let c := if rem < 36 then digitChar rem else 63
    let n := n.tdiv radix
    if n = 0 then [c] else c :: radixLoop radix fuel n

/-- spark_conv.rs 220-250 (`to_radix_string`).  64 rounds are enough since every division at least
halves. -/
def toRadixString (n : Int) (radix : Nat) : Text :=
  if n = 0 then [48]
  else
    let digits := radixLoop radix 64 (absI64 n)
    let digits := if n < 0 then digits ++ [45] else digits
    digits.reverse

/-- spark_conv.rs 49-95 and 130-218 (`invoke_with_args`, `invoke_vectorized`) for text: the row of a
column. -/
def conv (text : Option Text) (source target : Int) : Option Text :=
  if 2 ≤ source ∧ source ≤ 36 ∧ 2 ≤ target ∧ target ≤ 36 then
    text.bind fun s => (fromStrRadix source.toNat s).map fun n => toRadixString n target.toNat
  else none

/-- spark_conv.rs 60-62 and 72-85: a literal is printed first, and a NULL literal prints as NULL. -/
def convLiteral (text : Option Text) (source target : Int) : Option Text :=
  conv (some (text.getD [78, 85, 76, 76])) source target

/-- spark_conv.rs 199-204: a column of integers is taken for numbers already, whatever the base
they are said to be written in. -/
def convInts (v : Option Int) (source target : Int) : Option Text :=
  if 2 ≤ source ∧ source ≤ 36 ∧ 2 ≤ target ∧ target ≤ 36 then
    v.map fun n => toRadixString n target.toNat
  else none

end Verif.Func.Digits
