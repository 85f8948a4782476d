/-!
# File paths in the Delta log

Models `encode_path` and `decode_path` of crates/sail-delta-lake/src/spec/utils.rs, including what the
percent-encoding crate does for them.

Simplifications: a string is the list of its UTF-8 bytes. `decode_path` also fails if the decoded
bytes are not UTF-8, which is left out; the bytes of an encoded path are.
-/

namespace Verif.Delta.PathText

/-- The characters `INVALID` adds to the control characters, spec/utils.rs:29-46: `\`, `{`, `^`, `}`,
`%`, a backtick, `]`, `"`, `>`, `[`, `<`, `#`, `|`, carriage return, line feed, `*`, `?`. -/
def added : List Nat :=
  [0x5C, 0x7B, 0x5E, 0x7D, 0x25, 0x60, 0x5D, 0x22, 0x3E, 0x5B, 0x3C, 0x23, 0x7C, 0x0D, 0x0A, 0x2A, 0x3F]

/-- `AsciiSet::should_percent_encode` of the percent-encoding crate for `INVALID`, spec/utils.rs:29-46:
bytes that are not ASCII, the control characters and the added characters. -/
def escaped (b : Nat) : Bool :=
  decide (0x80 ≤ b) || decide (b < 0x20) || decide (b = 0x7F) || added.contains b

/-- The digits of `percent_encode_byte` of the percent-encoding crate: upper case hexadecimal. -/
def hexDigit (d : Nat) : Nat :=
  if d < 10 then 0x30 + d else 0x37 + d

/-- `encode_path`, spec/utils.rs:48-50. -/
def encode : List Nat → List Nat
  | [] => []
  | b :: r => if escaped b then 0x25 :: hexDigit (b / 16) :: hexDigit (b % 16) :: encode r else b :: encode r

/-- `char::to_digit(16)` of a byte, as `after_percent_sign` of the percent-encoding crate uses it. -/
def digit (c : Nat) : Option Nat :=
  if 0x30 ≤ c ∧ c ≤ 0x39 then some (c - 0x30)
  else if 0x41 ≤ c ∧ c ≤ 0x46 then some (c - 0x37)
  else if 0x61 ≤ c ∧ c ≤ 0x66 then some (c - 0x57)
  else none

/-- `decode_path`, spec/utils.rs:52-54: a percent sign and two hexadecimal digits are a byte, and
everything else stands for itself. The first argument bounds the recursion. -/
def decodeFuel : Nat → List Nat → List Nat
  | 0, _ => []
  | _ + 1, [] => []
  | n + 1, b :: r =>
    if b = 0x25 then
      match r with
      | h :: l :: r' =>
        match digit h, digit l with
        | some x, some y => (x * 16 + y) :: decodeFuel n r'
        | _, _ => b :: decodeFuel n r
      | _ => b :: decodeFuel n r
    else b :: decodeFuel n r

/-- `decode_path`, spec/utils.rs:52-54. -/
def decode (s : List Nat) : List Nat :=
  decodeFuel s.length s

end Verif.Delta.PathText
