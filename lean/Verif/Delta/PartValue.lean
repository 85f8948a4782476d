/-!
# Partition values in the Delta log

`crates/sail-delta-lake/src/conversion/scalar.rs`, written by
`crates/sail-delta-lake/src/writer/stats.rs:74-87`. Paths below are relative to
`crates/sail-delta-lake/src`. Texts are lists of characters.

The engine's casts from text (`ScalarValue::try_from_string`) are not in the repository. They are
modelled as the exact reading of numerals, of `true` and `false`, and of the UTF-8 bytes of a text.
Limits of integers, floating point numbers, dates and timestamps are left out.
-/

namespace Verif.Delta.PartValue

abbrev Text := List Char

/-- The values of partition columns. A decimal is `bits / 10 ^ scale`. -/
inductive PVal
  | null
  | text (s : Text)
  | int (i : Int)
  | bool (b : Bool)
  | decimal (bits scale : Int)
  | binary (bytes : List Nat)
deriving DecidableEq, Repr

/-- The types of partition columns. -/
inductive PTy
  | text
  | int
  | bool
  | decimal (scale : Int)
  | binary
deriving DecidableEq, Repr

/-! ## Writing -/

/-- `to_string` of an integer. -/
def intText (i : Int) : Text := (if i < 0 then ['-'] else []) ++ Nat.toDigits 10 i.natAbs

/-- `{:0>width$}`: zeros in front of the text, up to the width. -/
def padLeft (width : Nat) (t : Text) : Text := List.replicate (width - t.length) '0' ++ t

/-- `serialize_decimal` (`conversion/scalar.rs:490-518`). Division truncates. -/
def decimalText (bits scale : Int) : Text :=
  if scale = 0 then intText bits
  else if 0 < scale then
    intText (bits.tdiv (10 ^ scale.toNat)) ++ '.' :: padLeft scale.toNat (intText (bits.tmod (10 ^ scale.toNat)))
  else intText bits ++ List.replicate (-scale).toNat '0'

/-- A hexadecimal digit, upper case. -/
def hexDigit (n : Nat) : Char := if n < 10 then Char.ofNat (48 + n) else Char.ofNat (55 + n)

/-- `create_escaped_binary_string` (`conversion/scalar.rs:520-526`): a backslash, `u` and four digits
for each byte. -/
def binaryText (bytes : List Nat) : Text :=
  bytes.flatMap (fun b => ['\\', 'u', '0', '0', hexDigit (b / 16), hexDigit (b % 16)])

/-- What is written to the log (`writer/stats.rs:77-83`, `ScalarExt::serialize`,
`conversion/scalar.rs:370-402`). -/
def serialize : PVal → Option Text
  | .null => none
  | .text s => some s
  | .int i => some (intText i)
  | .bool b => some (if b then "true".toList else "false".toList)
  | .decimal bits scale => some (decimalText bits scale)
  | .binary bytes => some (binaryText bytes)

/-! ## Reading -/

/-- `NULL_PARTITION_VALUE_DATA_PATH`. -/
def hiveNull : Text := "__HIVE_DEFAULT_PARTITION__".toList

/-- Digits, at least one. -/
def readNat (t : Text) : Option Nat :=
  if t ≠ [] ∧ t.all Char.isDigit = true then some (Nat.ofDigitChars 10 t 0) else none

/-- An integer, with a sign or none. -/
def readInt : Text → Option Int
  | '-' :: t => (readNat t).map (fun n : Nat => -(n : Int))
  | t => (readNat t).map (fun n : Nat => (n : Int))

/-- The number of units of `10 ^ -scale` in `n / 10 ^ frac`, if whole. (The engine rounds.) -/
def atScale (n frac : Nat) (scale : Int) : Option Nat :=
  if (frac : Int) ≤ scale then some (n * 10 ^ (scale - frac).toNat)
  else if n % 10 ^ (frac - scale).toNat = 0 then some (n / 10 ^ (frac - scale).toNat)
  else none

/-- A decimal without a sign: digits, and a point and digits or nothing. -/
def readUnsigned (scale : Int) (t : Text) : Option Nat :=
  match t.dropWhile (· ≠ '.') with
  | [] => (readNat t).bind (fun n => atScale n 0 scale)
  | _ :: f =>
    if (readNat f).isNone then none
    else (readNat (t.takeWhile (· ≠ '.') ++ f)).bind (fun n => atScale n f.length scale)

/-- A decimal. -/
def readDecimal (scale : Int) : Text → Option Int
  | '-' :: t => (readUnsigned scale t).map (fun n : Nat => -(n : Int))
  | t => (readUnsigned scale t).map (fun n : Nat => (n : Int))

/-- The bytes of a text of ASCII characters. -/
def utf8 (t : Text) : List Nat := t.map Char.toNat

/-- The engine's cast of a text. -/
def castText : PTy → Text → Option PVal
  | .text, t => some (.text t)
  | .int, t => (readInt t).map .int
  | .bool, t => if t = "true".toList then some (.bool true) else if t = "false".toList then some (.bool false) else none
  | .decimal scale, t => (readDecimal scale t).map (.decimal · scale)
  | .binary, t => some (.binary (utf8 t))

/-- `parse_partition_value` (`conversion/scalar.rs:537-544`) and `parse_optional_partition_value`
(`conversion/scalar.rs:546-555`); `none` is an error. -/
def parse (ty : PTy) : Option Text → Option PVal
  | none => some .null
  | some t => if t = [] ∨ t = hiveNull then some .null else castText ty t

end Verif.Delta.PartValue
