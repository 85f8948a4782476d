/-
Z85 text encoding of inline deletion vectors, after
`/repo/crates/sail-delta-lake/src/deletion_vector/z85.rs`.
-/

namespace Verif.Delta.Z85

/-- A byte (`u8`). -/
abbrev Byte := UInt8

inductive Err where
  | length
  | character
  deriving DecidableEq, Repr

deriving instance DecidableEq for Except

/-- `Z85_CHARS`, deletion_vector/z85.rs:4-5, as byte values. -/
def chars : List UInt8 :=
  [48, 49, 50, 51, 52, 53, 54, 55, 56, 57, 97, 98, 99, 100, 101, 102, 103, 104, 105, 106,
   107, 108, 109, 110, 111, 112, 113, 114, 115, 116, 117, 118, 119, 120, 121, 122, 65, 66,
   67, 68, 69, 70, 71, 72, 73, 74, 75, 76, 77, 78, 79, 80, 81, 82, 83, 84, 85, 86, 87, 88,
   89, 90, 46, 45, 58, 43, 61, 94, 33, 47, 42, 63, 38, 60, 62, 40, 41, 91, 93, 123, 125, 64,
   37, 36, 35]

/-- The inner loop of `z85_encode`, z85.rs:22-26: fills the last of `n` characters with the value modulo
85 and goes on with the quotient. -/
def digits : Nat → Nat → List Nat
  | 0, _ => []
  | n + 1, v => digits n (v / 85) ++ [v % 85]

/-- `u32::from_be_bytes`, z85.rs:21. -/
def fromBe (a b c d : Byte) : Nat :=
  ((a.toNat * 256 + b.toNat) * 256 + c.toNat) * 256 + d.toNat

/-- `(value as u32).to_be_bytes()`, z85.rs:70: the value is truncated to 32 bits. -/
def toBe (value : Nat) : List Byte :=
  let v := value % 2 ^ 32
  [UInt8.ofNat (v / 2 ^ 24), UInt8.ofNat (v / 2 ^ 16), UInt8.ofNat (v / 2 ^ 8), UInt8.ofNat v]

/-- The loop over `as_chunks::<4>()`, z85.rs:18-30.  The index into the alphabet is below 85, so the
default of the list access is never used. -/
def encodeChunks : List Byte → List Byte
  | a :: b :: c :: d :: rest =>
    (digits 5 (fromBe a b c d)).map (fun i => chars.getD i 0) ++ encodeChunks rest
  | _ => []

/-- `z85_encode`, z85.rs:10-32. -/
def encode (data : List Byte) : Except Err (List Byte) :=
  if data.length % 4 ≠ 0 then .error .length else .ok (encodeChunks data)

/-- `z85_encode_padded`, z85.rs:37-47; `next_multiple_of(4)` is written out. -/
def encodePadded (data : List Byte) : Except Err (List Byte) :=
  if data.length % 4 = 0 then encode data
  else encode (data ++ List.replicate (4 - data.length % 4) 0)

/-- `z85_char_to_value`, z85.rs:75-81. -/
def charValue (c : Byte) : Except Err Nat :=
  match chars.idxOf? c with
  | some i => .ok i
  | none => .error .character

/-- The value of a group of five characters, z85.rs:65-69; at most 85^5 - 1, so the `u64` does not
overflow. -/
def groupValue : List Byte → Except Err Nat
  | cs => cs.foldlM (fun value c => do return value * 85 + (← charValue c)) 0

/-- The loop over `as_chunks::<5>()`, z85.rs:62-71. -/
def decodeChunks : List Byte → Except Err (List Byte)
  | a :: b :: c :: d :: e :: rest => do
    let value ← groupValue [a, b, c, d, e]
    let tail ← decodeChunks rest
    return toBe value ++ tail
  | _ => .ok []

/-- `z85_decode`, z85.rs:52-73.  Errors of a later group do not depend on earlier ones, so collecting
from the back is the same as stopping at the first error up to which error is reported. -/
def decode (encoded : List Byte) : Except Err (List Byte) :=
  if encoded.length % 5 ≠ 0 then .error .length else decodeChunks encoded

end Verif.Delta.Z85
