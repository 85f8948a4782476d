import Verif.Sql.Lexer

/-!
# Values of quoted strings

`sail-sql-parser/src/string.rs` with the default parser options.
-/

namespace Verif.Sql

/-- One decoded character (`Char`, `string.rs:272-276`). The text of invalid escapes, which only
occurs in error messages, is left out. -/
inductive SChar
  | one (c : Char)
  | two (c d : Char)
  | invalid
  deriving DecidableEq, Repr

/-- `StringValue` (`string.rs:292-296`) without the reasons of errors. -/
inductive StrVal
  | valid (value : Text) (pre : Option Char)
  | invalid
  deriving DecidableEq, Repr

/-- `is_digit(8)`. -/
def isOct (c : Char) : Bool := '0' ≤ c && c ≤ '7'

/-- `is_ascii_hexdigit`. -/
def isHex (c : Char) : Bool := c.isDigit || ('a' ≤ c && c ≤ 'f') || ('A' ≤ c && c ≤ 'F')

/-- The value of a digit. -/
def digitVal (c : Char) : Nat :=
  if c.isDigit then c.toNat - 48 else if 'a' ≤ c && c ≤ 'f' then c.toNat - 87 else c.toNat - 55

/-- `u32::from_str_radix` on at most eight digits. -/
def fromRadix (radix : Nat) (ds : Text) : Nat := ds.foldl (fun n c => n * radix + digitVal c) 0

/-- `char::from_u32` (`string.rs:278-290`). -/
def charOf (n : Nat) : SChar :=
  if n < 0xD800 ∨ (0xDFFF < n ∧ n < 0x110000) then .one (Char.ofNat n) else .invalid

/-- The character escapes of one letter (`string.rs:113-125`). -/
def simpleEscape (e : Char) : Option SChar :=
  if e == '\'' || e == '"' || e == '?' || e == '\\' then some (.one e)
  else if e == 'b' then some (.one '\x08')
  else if e == 'n' then some (.one '\n')
  else if e == 'r' then some (.one '\r')
  else if e == 't' then some (.one '\t')
  else if e == 'Z' then some (.one '\x1a')
  else if e == '%' then some (.two '\\' '%')
  else if e == '_' then some (.two '\\' '_')
  else none

/-- `p().repeated().at_most(n)`. -/
def takeUpTo (n : Nat) (p : Char → Bool) (s : Text) : Text := (s.take n).takeWhile p

/-- `backslash_escape_char` after the backslash (`string.rs:107-144`). -/
def escAfter : Text → Option (SChar × Text)
  | [] => none
  | e :: r =>
    match simpleEscape e with
    | some x => some (x, r)
    | none =>
      if isOct e then
        let ds := takeUpTo 3 isOct (e :: r)
        some (charOf (fromRadix 8 ds), (e :: r).drop ds.length)
      else if e == 'x' && (takeUpTo 2 isHex r).length ≥ 1 then
        let ds := takeUpTo 2 isHex r
        some (charOf (fromRadix 16 ds), r.drop ds.length)
      else if e == 'u' && (takeUpTo 4 isHex r).length == 4 then
        some (charOf (fromRadix 16 (takeUpTo 4 isHex r)), r.drop 4)
      else if e == 'U' && (takeUpTo 8 isHex r).length == 8 then
        some (charOf (fromRadix 16 (takeUpTo 8 isHex r)), r.drop 8)
      else some (.one e, r)

/-- `backslash_escape_char` (`string.rs:107-144`). -/
def escChar (d : Char) : Text → Option (SChar × Text)
  | [] => none
  | c :: r => if c == '\\' then escAfter r else if c == d then none else some (.one c, r)

/-- A character of a raw string (`string.rs:177-187`). -/
def plainChar (d : Char) : Text → Option (SChar × Text)
  | [] => none
  | c :: r => if c == d then none else some (.one c, r)

/-- A character of a Unicode string (`string.rs:231-254`). -/
def uniChar (d esc : Char) : Text → Option (SChar × Text)
  | [] => none
  | c :: r =>
    if c == esc then
      if (takeUpTo 4 isHex r).length == 4 then
        some (charOf (fromRadix 16 (takeUpTo 4 isHex r)), r.drop 4)
      else if r.head? == some '+' && (takeUpTo 6 isHex r.tail).length == 6 then
        some (charOf (fromRadix 16 (takeUpTo 6 isHex r.tail)), r.tail.drop 6)
      else some (.invalid, r.drop 1)
    else if c == d then none else some (.one c, r)

/-- A character of a name in backticks (`string.rs:256-262`). -/
def tickChar : Text → Option (SChar × Text)
  | [] => none
  | [c] => if c == '`' then none else some (.one c, [])
  | c :: e :: r =>
    if c == '`' then (if e == '`' then some (.one '`', r) else none) else some (.one c, e :: r)

/-- A character of a dollar quoted string (`string.rs:264-270`). -/
def dollarChar (tag : Text) : Text → Option (SChar × Text)
  | [] => none
  | c :: r => if tag.isPrefixOf (c :: r) then none else some (.one c, r)

/-- `character.repeated().collect()` (`string.rs:156-164`), with a bound on the rounds. -/
def charsN (p : Text → Option (SChar × Text)) : Nat → Text → List SChar × Text
  | 0, s => ([], s)
  | n + 1, s =>
    match p s with
    | none => ([], s)
    | some (x, r) => ((x :: (charsN p n r).1), (charsN p n r).2)

/-- Pushing the decoded characters into the value (`string.rs:329-359`). -/
def collect : List SChar → Option Text
  | [] => some []
  | .one c :: r => match collect r with
    | some v => some (c :: v)
    | none => none
  | .two c d :: r => match collect r with
    | some v => some (c :: d :: v)
    | none => none
  | .invalid :: _ => none

/-- `text` (`string.rs:156-164`) followed by the end of the input. -/
def textVal (delim : Text) (p : Text → Option (SChar × Text)) (pre : Option Char) (s : Text) : StrVal :=
  if delim.isPrefixOf s then
    let body := s.drop delim.length
    let (xs, r) := charsN p body.length body
    if r == delim then
      match collect xs with
      | some v => .valid v pre
      | none => .invalid
    else .invalid
  else .invalid

/-- `StringStyle::parse` (`string.rs:20-90`) with `with_prefix` (`string.rs:166-175`). -/
def parseStr : Style → Text → StrVal
  | .quoted d none, raw => textVal [d] (escChar d) none raw
  | .quoted d (some p), raw =>
    match raw with
    | [] => .invalid
    | c :: r =>
      if c == p then
        textVal [d] (if isRawPrefix p then plainChar d else escChar d) (some p) (r.dropWhile isBlank)
      else .invalid
  | .unicode d esc, raw =>
    match raw with
    | a :: b :: r =>
      if a == 'U' && b == '&' then textVal [d] (uniChar d (esc.getD '\\')) none r else .invalid
    | _ => .invalid
  | .backtick, raw => textVal ['`'] tickChar none raw
  | .dollar tag, raw => textVal tag (dollarChar tag) none raw

end Verif.Sql
