import Verif.Delta.Z85

/-!
# Files of deletion vectors

Models crates/sail-delta-lake/src/deletion_vector/storage.rs, resolve.rs and bitmap.rs.

Simplifications. The portable format of the roaring crate (`ser`, `de`), the CRC-32 function and the set of
characters that `object_store::path::Path` escapes are parameters. A URL is given by its path (the
percent-encoded text after the authority), text by its bytes. Only vectors with a relative path
(`StorageType::UuidRelativePath`), the ones Sail writes, are read. An object store is a list of paths with
contents; requests do not fail.
-/

namespace Verif.Delta.DvFile

open Verif.Delta.Z85 (Byte fromBe toBe)

inductive Err where
  | empty | version | negativeSize | negativeOffset | short | checksum | magic | bitmap
  | name | missing
deriving DecidableEq

/-- The parts that are not modelled: `RoaringTreemap::serialize_into` and `deserialize_from`,
`crc32fast::hash`, and the characters `Path` escapes. -/
structure Env (B : Type) where
  ser : B → List Byte
  de : List Byte → Option B
  crc : List Byte → Nat
  esc : Byte → Bool

variable {B : Type}

/-- `PORTABLE_ROARING_BITMAP_MAGIC.to_le_bytes()`, bitmap.rs:8 and 68. -/
def magic : List Byte := (toBe 1681511377).reverse

/-- `DeletionVectorBitmap::serialize`, bitmap.rs:65-73. -/
def serialize (E : Env B) (b : B) : List Byte := magic ++ E.ser b

/-- `DeletionVectorBitmap::deserialize`, bitmap.rs:78-94. -/
def deserialize (E : Env B) (data : List Byte) : Except Err B :=
  match data with
  | a :: b :: c :: d :: rest =>
    if fromBe d c b a ≠ 1681511377 then .error .magic
    else
      match E.de rest with
      | some x => .ok x
      | none => .error .bitmap
  | _ => .error .short

/-- `x as i32` of a length. -/
def asI32 (n : Nat) : Int :=
  if n % 2 ^ 32 < 2 ^ 31 then (n % 2 ^ 32 : Nat) else (n % 2 ^ 32 : Nat) - 2 ^ 32

/-- The content of the file, storage.rs:171-180. -/
def fileBytes (E : Env B) (data : List Byte) : List Byte :=
  [1] ++ toBe data.length ++ data ++ toBe (E.crc data)

/-- Four bytes from a place on, as a big-endian number; `none` if the slice ends before. -/
def u32At (data : List Byte) (start : Nat) : Option Nat :=
  match data.drop start with
  | a :: b :: c :: d :: _ => some (fromBe a b c d)
  | _ => none

/-- `read_dv_from_file_bytes`, storage.rs:64-148; the additions do not overflow a 64-bit `usize`, and
another size in the descriptor only leads to a warning. -/
def readBytes (E : Env B) (data : List Byte) (offset : Option Int) (size : Int) : Except Err B :=
  match data with
  | [] => .error .empty
  | v :: _ =>
    if v ≠ 1 then .error .version
    else if size < 0 then .error .negativeSize
    else if offset.getD 1 < 0 then .error .negativeOffset
    else
      let start := (offset.getD 1).toNat
      match u32At data start with
      | none => .error .short
      | some len =>
        match u32At data (start + 4 + len) with
        | none => .error .short
        | some stored =>
          let bitmap := (data.drop (start + 4)).take len
          if stored ≠ E.crc bitmap then .error .checksum
          else deserialize E bitmap

/-- A lower case hexadecimal digit. -/
def hexLower (n : Nat) : Byte := if n < 10 then UInt8.ofNat (48 + n) else UInt8.ofNat (87 + n)

/-- Bytes in lower case hexadecimal. -/
def hexText (bs : List Byte) : List Byte :=
  bs.flatMap fun b => [hexLower (b.toNat / 16), hexLower (b.toNat % 16)]

/-- `Uuid::to_string`: groups of 4, 2, 2, 2 and 6 bytes, separated by `-`. -/
def uuidText (u : List Byte) : List Byte :=
  hexText (u.take 4) ++ [45] ++ hexText ((u.drop 4).take 2) ++ [45] ++ hexText ((u.drop 6).take 2) ++ [45]
    ++ hexText ((u.drop 8).take 2) ++ [45] ++ hexText (u.drop 10)

/-- The bytes of an ASCII text. -/
def ascii (s : String) : List Byte := s.toList.map fun c => UInt8.ofNat c.toNat

/-- `new_uuid_dv_path`, resolve.rs:67-77: the text for the descriptor and the relative path. -/
def newName (u : List Byte) : Except Err (List Byte × List Byte) :=
  match Z85.encode u with
  | .error _ => .error .name
  | .ok encoded =>
    .ok ((uuidText u).take 2 ++ encoded,
      (uuidText u).take 2 ++ ascii "/deletion_vector_" ++ uuidText u ++ ascii ".bin")

/-- The relative path in `resolve_dv_absolute_path`, resolve.rs:27-46, and `decode_z85_uuid`,
resolve.rs:86-97. -/
def resolveName (field : List Byte) : Except Err (List Byte) :=
  if field.length < 20 then .error .name
  else
    let pre := field.take (field.length - 20)
    match Z85.decode (field.drop (field.length - 20)) with
    | .error _ => .error .name
    | .ok u =>
      if u.length ≠ 16 then .error .name
      else if pre.isEmpty then .ok (ascii "deletion_vector_" ++ uuidText u ++ ascii ".bin")
      else .ok (pre ++ ascii "/deletion_vector_" ++ uuidText u ++ ascii ".bin")

/-- `str::split('/')`. -/
def segments : List Byte → List (List Byte)
  | [] => [[]]
  | c :: r =>
    if c = 47 then [] :: segments r
    else
      match segments r with
      | s :: ss => (c :: s) :: ss
      | [] => [[c]]

/-- Joining with `/`. -/
def joinSegments : List (List Byte) → List Byte
  | [] => []
  | [s] => s
  | s :: ss => s ++ 47 :: joinSegments ss

/-- An upper case hexadecimal digit. -/
def hexUpper (n : Nat) : Byte := if n < 10 then UInt8.ofNat (48 + n) else UInt8.ofNat (55 + n)

/-- `percent_encode` with a set. -/
def percentEncode (esc : Byte → Bool) (s : List Byte) : List Byte :=
  s.flatMap fun c => if esc c then [37, hexUpper (c.toNat / 16), hexUpper (c.toNat % 16)] else [c]

/-- `PathPart::from` of the object_store crate: `.` and `..` are escaped as well. -/
def pathPart (esc : Byte → Bool) (s : List Byte) : List Byte :=
  if s = [46] then ascii "%2E"
  else if s = [46, 46] then ascii "%2E%2E"
  else percentEncode esc s

/-- `Path::from` of the object_store crate, as its segments: empty ones are dropped. -/
def pathFrom (esc : Byte → Bool) (s : List Byte) : List (List Byte) :=
  ((segments s).filter fun x => !x.isEmpty).map (pathPart esc)

/-- `full_path` in `DeletionVectorWriter::write`, storage.rs:185-191. -/
def writerPath (E : Env B) (root relative : List Byte) : List (List Byte) :=
  pathFrom E.esc (joinSegments (pathFrom E.esc root) ++ 47 :: relative)

/-- `Url::join` with a relative path: the text after the last `/` of the base is replaced. The path has no
character that has to be escaped in a URL. -/
def urlJoin (root relative : List Byte) : List Byte :=
  ((root.reverse.dropWhile fun c => c != 47).reverse) ++ relative

/-- `path` in `read_deletion_vector`, storage.rs:42-46, after resolve.rs:47-50. -/
def readerPath (E : Env B) (root relative : List Byte) : List (List Byte) :=
  pathFrom E.esc (urlJoin root relative)

/-- The object store. -/
abbrev Store := List (List (List Byte) × List Byte)

/-- `DeletionVectorDescriptor`, without the cardinality. -/
structure Descriptor where
  field : List Byte
  offset : Option Int
  size : Int

/-- `DeletionVectorWriter::write`, storage.rs:163-206, for the UUID that was drawn. -/
def write (E : Env B) (root u : List Byte) (b : B) (store : Store) : Except Err (Store × Descriptor) :=
  let data := serialize E b
  match newName u with
  | .error e => .error e
  | .ok (field, relative) =>
    .ok ((writerPath E root relative, fileBytes E data) :: store, ⟨field, some 1, asI32 data.length⟩)

/-- `read_deletion_vector`, storage.rs:32-61. -/
def read (E : Env B) (root : List Byte) (store : Store) (dv : Descriptor) : Except Err B :=
  match resolveName dv.field with
  | .error e => .error e
  | .ok relative =>
    match store.lookup (readerPath E root relative) with
    | none => .error .missing
    | some data => readBytes E data dv.offset dv.size

end Verif.Delta.DvFile
