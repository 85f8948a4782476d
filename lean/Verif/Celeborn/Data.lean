import Verif.Celeborn.Transport

/-!
# What is pushed and what is read

Model of the framing of shuffle data: compressed blocks, batches with a header of 16 bytes,
chunks, and frames with record batches
(`crates/sail-celeborn/src/worker/client.rs`,
`crates/sail-execution/src/stream/celeborn/core.rs`).
-/

namespace Verif.Celeborn

open Verif.Func.CountMin (toBE fromBE)

/-- The errors of reading and writing shuffle data. `transport` is an error of the
connection. -/
inductive DErr
  | codec | tooLarge | blockHeader | blockTruncated | blockRaw | blockMethod | blockChecksum
  | batchLength | truncated | frameHeader | frame | ipc
  | transport (e : TErr)
deriving DecidableEq, Repr

/-- `u32::to_le_bytes`. -/
def toLE (n x : Nat) : Bytes := (toBE n x).reverse

/-- `u32::from_le_bytes`. -/
def fromLE (b : Bytes) : Nat := fromBE b.reverse

/-- What differs between LZ4 and Zstandard (`client.rs:354-409`, `:416-443`): the magic, the
method of a compressed block, the functions of the library and the checksum. The library
functions are arbitrary here; `unpack` gets the length of the result. -/
structure Codec where
  magic : Bytes
  method : Byte
  pack : Bytes → Option Bytes
  unpack : Bytes → Nat → Option Bytes
  sum : Bytes → Nat

/-- `compress` (`client.rs:351-411`); `none` is no compression. -/
def compress (c : Option Codec) (d : Bytes) : Except DErr Bytes :=
  match c with
  | none => .ok d
  | some c =>
    match c.pack d with
    | none => .error .codec
    | some p =>
      let raw := d.length ≤ p.length
      let method : Byte := if raw then 0x10 else c.method
      let payload := if raw then d else p
      if 2 ^ 32 ≤ payload.length then .error .tooLarge
      else if 2 ^ 32 ≤ d.length then .error .tooLarge
      else .ok (c.magic ++ (method :: (toLE 4 payload.length ++ (toLE 4 d.length ++
        (toLE 4 (c.sum d) ++ payload)))))

/-- `decompress_block` (`client.rs:447-511`). -/
def decompressBlock (c : Codec) (b : Bytes) : Except DErr Bytes :=
  let m := c.magic.length
  if b.length < m + 13 ∨ b.take m ≠ c.magic then .error .blockHeader
  else
    let method := (b.drop m).head?
    let compressedLen := fromLE ((b.drop (m + 1)).take 4)
    let originalLen := fromLE ((b.drop (m + 5)).take 4)
    let sum := fromLE ((b.drop (m + 9)).take 4)
    if m + 13 + compressedLen ≠ b.length then .error .blockTruncated
    else
      let out : Except DErr Bytes :=
        if method = some 0x10 then
          if compressedLen ≠ originalLen then .error .blockRaw else .ok (b.drop (m + 13))
        else if method = some c.method then
          match c.unpack (b.drop (m + 13)) originalLen with
          | none => .error .codec
          | some d => .ok d
        else .error .blockMethod
      match out with
      | .error e => .error e
      | .ok d => if d.length ≠ originalLen ∨ c.sum d ≠ sum then .error .blockChecksum else .ok d

/-- `decompress` (`client.rs:413-445`). -/
def decompress (c : Option Codec) (b : Bytes) : Except DErr Bytes :=
  match c with
  | none => .ok b
  | some c => decompressBlock c b

/-- The batch that a worker gets and keeps: what `push_data` (`client.rs:307-331`,
`transport.rs:277-295`) puts into the body. The frame is refused if the length of the data
does not fit. -/
def batchBody (c : Option Codec) (map attempt batch : BitVec 32) (d : Bytes) : Except DErr Bytes :=
  match compress c d with
  | .error e => .error e
  | .ok p => if 2 ^ 31 ≤ p.length then .error .tooLarge else .ok (batchPrefix map attempt batch p.length ++ p)

/-- `take_batch` (`client.rs:513-533`): the data of the first batch and what follows it. -/
def takeBatch (b : Bytes) : Except DErr (Option (Bytes × Bytes)) :=
  if b.length < 16 then .ok none
  else
    let n := fromBE ((b.drop 12).take 4)
    if 2 ^ 31 ≤ n then .error .batchLength
    else if b.length < 16 + n then .ok none
    else .ok (some ((b.take (16 + n)).drop 16, b.drop (16 + n)))

/-- The batches in the buffer (the first part of the loop, `client.rs:261-274`), and what is
left of the buffer. The fuel is the length of the buffer; every batch has 16 bytes or more. -/
def drain (c : Option Codec) : Nat → Bytes → List Bytes × Except DErr Bytes
  | 0, b => ([], .ok b)
  | fuel + 1, b =>
    match takeBatch b with
    | .error e => ([], .error e)
    | .ok none => ([], .ok b)
    | .ok (some (x, rest)) =>
      match decompress c x with
      | .error e => ([], .error e)
      | .ok d =>
        let r := drain c fuel rest
        (d :: r.1, r.2)

/-- The stream of `read_partition_stream` (`client.rs:218-292`) after it was opened: the
batches, and the error after them if there is one (`try_unfold` ends after an error). The
chunks are what `fetch_chunk` gives for `0 .. num_chunks`. -/
def readChunks (c : Option Codec) (buf : Bytes) (chunks : List (Except TErr Bytes)) :
    List Bytes × Option DErr :=
  match drain c buf.length buf with
  | (l, .error e) => (l, some e)
  | (l, .ok rest) =>
    match chunks with
    | [] => (l, if rest = [] then none else some .truncated)
    | .error e :: _ => (l, some (.transport e))
    | .ok x :: more =>
      let s := readChunks c (rest ++ x) more
      (l ++ s.1, s.2)

/-- `CelebornStreamSink::write` (`core.rs:180-211`): the bytes that are pushed for a record
batch. `enc` is the Arrow IPC stream of the batch. -/
def sinkFrame {B : Type} (enc : B → Bytes) (b : B) : Except DErr Bytes :=
  if 2 ^ 32 ≤ (enc b).length then .error .tooLarge
  else .ok (toBE 4 (enc b).length ++ enc b)

/-- `decode_batches` (`core.rs:267-294`), with fuel. `dec` reads an Arrow IPC stream. -/
def decodeFrames {B : Type} (dec : Bytes → Option (List B)) : Nat → Bytes → Except DErr (List B)
  | 0, _ => .ok []
  | fuel + 1, d =>
    if d = [] then .ok []
    else if d.length < 4 then .error .frameHeader
    else
      let n := fromBE (d.take 4)
      if d.length < 4 + n then .error .frame
      else
        match dec ((d.drop 4).take n) with
        | none => .error .ipc
        | some l =>
          match decodeFrames dec fuel (d.drop (4 + n)) with
          | .error e => .error e
          | .ok r => .ok (l ++ r)

/-- `decode_batches`: every frame has 4 bytes or more. -/
def decodeBatches {B : Type} (dec : Bytes → Option (List B)) (d : Bytes) : Except DErr (List B) :=
  decodeFrames dec (d.length + 1) d

/-- The items of the stream of a partition (`shuffle/actor/handler.rs:434-446`): the streams
of its locations one after the other. The outer list has, for each location, the chunks. -/
def readLocations (c : Option Codec) (locations : List (List (Except TErr Bytes))) :
    List (Except DErr Bytes) :=
  locations.flatMap fun chunks =>
    let r := readChunks c [] chunks
    r.1.map .ok ++ r.2.toList.map .error

/-- The items a task gets for an item of the stream (`core.rs:150-159`). -/
def decodeItem {B : Type} (dec : Bytes → Option (List B)) : Except DErr Bytes → List (Except DErr B)
  | .error e => [.error e]
  | .ok d =>
    match decodeBatches dec d with
    | .error e => [.error e]
    | .ok l => l.map .ok

/-- The items a task gets for a partition (`core.rs:147-162`). -/
def readBatches {B : Type} (c : Option Codec) (dec : Bytes → Option (List B))
    (locations : List (List (Except TErr Bytes))) : List (Except DErr B) :=
  (readLocations c locations).flatMap (decodeItem dec)

end Verif.Celeborn
