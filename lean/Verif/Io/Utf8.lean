/-!
# The lossy UTF-8 decoder of CSV files

`sail-data-source/src/formats/csv/decoder.rs`. Bytes are natural numbers below 256.
-/

namespace Verif.Io

/-- A sequence of bytes. -/
abbrev Bytes := List Nat

/-- `Utf8Unit` (`decoder.rs:11-16`). -/
inductive Utf8Unit
  | valid (n : Nat)
  | malformed (n : Nat)
  | incomplete
  deriving DecidableEq, Repr

/-- `is_continuation` (`decoder.rs:18-20`): for a byte, `byte & 0xc0 == 0x80` is this range. -/
def isCont (b : Nat) : Bool := decide (0x80 ≤ b ∧ b < 0xc0)

/-- The answer when a byte is missing (`decoder.rs:29-33` and the like). -/
def short (n : Nat) (eoi : Bool) : Utf8Unit := if eoi then .malformed n else .incomplete

/-- The last byte of four (`decoder.rs:99-111`). -/
def classifyFourth (rest : Bytes) (eoi : Bool) : Utf8Unit :=
  match rest with
  | [] => short 3 eoi
  | d :: _ => if isCont d then .valid 4 else .malformed 3

/-- The third byte of four (`decoder.rs:88-98`). -/
def classifyThird (rest : Bytes) (eoi : Bool) : Utf8Unit :=
  match rest with
  | [] => short 2 eoi
  | c :: r => if isCont c then classifyFourth r eoi else .malformed 2

/-- The last byte of three (`decoder.rs:54-70`). -/
def classifyLast (first second : Nat) (rest : Bytes) (eoi : Bool) : Utf8Unit :=
  match rest with
  | [] => short 2 eoi
  | c :: _ =>
    if !isCont c then .malformed 2
    else if first == 0xed && decide (0xa0 ≤ second) then .malformed 3
    else .valid 3

/-- `classify_utf8_unit` (`decoder.rs:23-114`) on an input that is not empty. -/
def classify (first : Nat) (rest : Bytes) (eoi : Bool) : Utf8Unit :=
  if first ≤ 0x7f then .valid 1
  else if 0xc2 ≤ first ∧ first ≤ 0xdf then
    match rest with
    | [] => short 1 eoi
    | b :: _ => if isCont b then .valid 2 else .malformed 1
  else if 0xe0 ≤ first ∧ first ≤ 0xef then
    match rest with
    | [] => short 1 eoi
    | b :: r =>
      if !isCont b || (first == 0xe0 && decide (b < 0xa0)) then .malformed 1
      else classifyLast first b r eoi
  else if 0xf0 ≤ first ∧ first ≤ 0xf4 then
    match rest with
    | [] => short 1 eoi
    | b :: r =>
      if !isCont b || (first == 0xf0 && decide (b < 0x90)) || (first == 0xf4 && decide (0x8f < b)) then
        .malformed 1
      else classifyThird r eoi
  else .malformed 1

/-- `REPLACEMENT_CHARACTER` (`decoder.rs:9`). -/
def replacement : Bytes := [0xef, 0xbf, 0xbd]

/-- `std::str::from_utf8(..).is_ok()` of the standard library: sequences of the forms of RFC 3629, section 4.
The fuel is the length. -/
def isUtf8N : Nat → Bytes → Bool
  | _, [] => true
  | 0, _ :: _ => false
  | n + 1, a :: r =>
    if a ≤ 0x7f then isUtf8N n r
    else if 0xc2 ≤ a ∧ a ≤ 0xdf then
      match r with
      | b :: r => isCont b && isUtf8N n r
      | _ => false
    else if 0xe0 ≤ a ∧ a ≤ 0xef then
      match r with
      | b :: c :: r =>
        isCont b && isCont c && (a != 0xe0 || decide (0xa0 ≤ b)) && (a != 0xed || decide (b ≤ 0x9f)) && isUtf8N n r
      | _ => false
    else if 0xf0 ≤ a ∧ a ≤ 0xf4 then
      match r with
      | b :: c :: d :: r =>
        isCont b && isCont c && isCont d && (a != 0xf0 || decide (0x90 ≤ b)) && (a != 0xf4 || decide (b ≤ 0x8f)) &&
          isUtf8N n r
      | _ => false
    else false

/-- `std::str::from_utf8(..).is_ok()`. -/
def isUtf8 (bytes : Bytes) : Bool := isUtf8N bytes.length bytes

/-- The loop of `LossyUtf8Decoder::repair` (`decoder.rs:148-164`): the output and the incomplete rest. Every
unit has a byte at least, so that the length is enough fuel. -/
def repairN : Nat → Bytes → Bool → Bytes × Bytes
  | _, [], _ => ([], [])
  | 0, rest, _ => ([], rest)
  | n + 1, a :: r, eoi =>
    match classify a r eoi with
    | .valid k =>
      ((a :: r).take k ++ (repairN n ((a :: r).drop k) eoi).1, (repairN n ((a :: r).drop k) eoi).2)
    | .malformed k =>
      (replacement ++ (repairN n ((a :: r).drop k) eoi).1, (repairN n ((a :: r).drop k) eoi).2)
    | .incomplete => ([], a :: r)

/-- `LossyUtf8Decoder::repair` (`decoder.rs:140-169`): the output and what is kept in `incomplete`. -/
def repair (bytes : Bytes) (eoi : Bool) : Bytes × Bytes :=
  if isUtf8 bytes then (bytes, []) else repairN bytes.length bytes eoi

/-- `LossyUtf8Decoder::decode` (`decoder.rs:129-133`): the output and the new state. -/
def decode (incomplete input : Bytes) : Bytes × Bytes := repair (incomplete ++ input) false

/-- `LossyUtf8Decoder::decode_bytes` (`decoder.rs:122-127`). -/
def decodeBytes (incomplete input : Bytes) : Bytes × Bytes :=
  if incomplete = [] ∧ isUtf8 input = true then (input, []) else decode incomplete input

/-- `LossyUtf8Decoder::finish` (`decoder.rs:135-138`). -/
def finish (incomplete : Bytes) : Bytes := (repair incomplete true).1

/-- `decode_utf8_lossy_stream` (`decoder.rs:224-256`) for an input without errors: the parts that are sent on,
which are never empty. -/
def decodeStream : Bytes → List Bytes → List Bytes
  | inc, [] => if finish inc = [] then [] else [finish inc]
  | inc, c :: cs =>
    if (decodeBytes inc c).1 = [] then decodeStream (decodeBytes inc c).2 cs
    else (decodeBytes inc c).1 :: decodeStream (decodeBytes inc c).2 cs

/-- `LossyUtf8Reader` (`decoder.rs:171-177`): the parts that the input will give, the state of the decoder, what
is left of `decoded`, and `finished`. -/
structure Reader where
  input : List Bytes
  incomplete : Bytes
  decoded : Bytes
  finished : Bool
  deriving DecidableEq, Repr

/-- `LossyUtf8Reader::read` (`decoder.rs:191-222`) into `n` bytes, for the parts that the input gives; a part is
empty at the end of the input only. -/
def readFrom (n : Nat) : List Bytes → Bytes → Bytes → Bool → Bytes × Reader
  | input, inc, d :: ds, fin => ((d :: ds).take n, ⟨input, inc, (d :: ds).drop n, fin⟩)
  | input, inc, [], true => ([], ⟨input, inc, [], true⟩)
  | [], inc, [], false =>
    let out := finish inc
    (out.take n, ⟨[], [], out.drop n, true⟩)
  | c :: cs, inc, [], false => readFrom n cs (decode inc c).2 (decode inc c).1 false
termination_by structural input => input

/-- `LossyUtf8Reader::read`. -/
def Reader.read (r : Reader) (n : Nat) : Bytes × Reader :=
  if n = 0 then ([], r) else readFrom n r.input r.incomplete r.decoded r.finished

/-- A caller that reads with buffers of the given sizes until nothing comes, as `read_to_end` does; `none` if the
end is not reached. -/
def Reader.readAll (r : Reader) : List Nat → Option Bytes
  | [] => none
  | n :: ns =>
    if (r.read n).1 = [] then some []
    else
      match (r.read n).2.readAll ns with
      | none => none
      | some out => some ((r.read n).1 ++ out)

end Verif.Io
