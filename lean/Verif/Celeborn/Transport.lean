import Verif.Func.CountMin

/-!
# The Celeborn transport

`crates/sail-celeborn/src/protocol/transport.rs`: the frames that are exchanged with Celeborn
masters and workers, and the connection that clients share, on which one request at a time is
written and its reply is read. Bytes are 8-bit vectors; `toBE` and `fromBE` are `to_be_bytes`
and `from_be_bytes`.
-/

namespace Verif.Celeborn

open Verif.Func.CountMin (toBE fromBE)

abbrev Byte := BitVec 8
abbrev Bytes := List Byte

/-- The errors, one constructor for every kind of place that makes one. `closed`: the
connection was closed before enough bytes came, which after the timeout is also what happens
when they never come. -/
inductive TErr
  | tooLarge | closed | headerLength | frameType | bodyLength | broken
  | rpcHeader | rpcId | rpcBody | rpcFailure | rpcFrame
  | remote (message : Bytes)
  | worker (status : Nat)
  | chunk | chunkMismatch | chunkSlice
  | message | java
deriving DecidableEq, Repr

/-- `TransportFrameType` (`transport.rs:17-42`). -/
def frameTypes : List Byte :=
  [0, 1, 2, 3, 4, 5, 6, 7, 9, 11, 12, 13, 14, 15, 16, 17, 18, 19, 20, 21, 22, 23, 24, 25]

/-- `TransportFrame` (`transport.rs:44-92`). The two representations of a body are one. -/
structure Frame where
  type : Byte
  header : Bytes
  body : Bytes
deriving DecidableEq, Repr

/-- `TransportFrame::write` (`transport.rs:201-216`). -/
def Frame.write (f : Frame) : Except TErr Bytes :=
  if 2 ^ 31 ≤ f.header.length then .error .tooLarge
  else if 2 ^ 31 ≤ f.body.length then .error .tooLarge
  else .ok (toBE 4 f.header.length ++ f.type :: toBE 4 f.body.length ++ f.header ++ f.body)

/-- `read_exact`. -/
def takeExact (n : Nat) (b : Bytes) : Except TErr (Bytes × Bytes) :=
  if b.length < n then .error .closed else .ok (b.take n, b.drop n)

/-- `TransportFrame::read` (`transport.rs:112-127`): the frame and the bytes after it. -/
def Frame.read (b : Bytes) : Except TErr (Frame × Bytes) :=
  match takeExact 4 b with
  | .error e => .error e
  | .ok (hl, b) =>
    if 2 ^ 31 ≤ fromBE hl then .error .headerLength else
    match takeExact 1 b with
    | .error e => .error e
    | .ok (t, b) =>
      match t with
      | [t] =>
        if t ∉ frameTypes then .error .frameType else
        match takeExact 4 b with
        | .error e => .error e
        | .ok (bl, b) =>
          if 2 ^ 31 ≤ fromBE bl then .error .bodyLength else
          match takeExact (fromBE hl) b with
          | .error e => .error e
          | .ok (header, b) =>
            match takeExact (fromBE bl) b with
            | .error e => .error e
            | .ok (body, b) => .ok (⟨t, header, body⟩, b)
      | _ => .error .closed

/-- `TransportFrame::rpc_request` (`transport.rs:103-110`). -/
def rpcRequest (id : BitVec 64) (body : Bytes) : Except TErr Frame :=
  if 2 ^ 31 ≤ body.length then .error .tooLarge
  else .ok ⟨3, toBE 8 id.toNat ++ toBE 4 body.length, body⟩

/-- `into_rpc_response` (`transport.rs:131-199`). -/
def Frame.rpcResponse (f : Frame) (id : BitVec 64) : Except TErr Bytes :=
  if f.type = 4 then
    if f.header.length ≠ 12 then .error .rpcHeader
    else if fromBE (f.header.take 8) ≠ id.toNat then .error .rpcId
    else if fromBE (f.header.drop 8) ≠ f.body.length ∨ 2 ^ 31 ≤ fromBE (f.header.drop 8) then
      .error .rpcBody
    else .ok f.body
  else if f.type = 5 then
    if f.body ≠ [] ∨ f.header.length < 12 then .error .rpcFailure
    else if fromBE (f.header.take 8) ≠ id.toNat then .error .rpcId
    else if 2 ^ 31 ≤ fromBE ((f.header.drop 8).take 4) then .error .rpcFailure
    else if f.header.length ≠ 12 + fromBE ((f.header.drop 8).take 4) then .error .rpcFailure
    else .error (.remote (f.header.drop 12))
  else .error .rpcFrame

/-- `write_bytes` (`transport.rs:408-416`). -/
def writeBytes (b : Bytes) : Except TErr Bytes :=
  if 2 ^ 31 ≤ b.length then .error .tooLarge else .ok (toBE 4 b.length ++ b)

/-- The first 16 bytes of what is pushed (`transport.rs:284-288`). -/
def batchPrefix (map attempt batch : BitVec 32) (length : Nat) : Bytes :=
  toBE 4 map.toNat ++ toBE 4 attempt.toNat ++ toBE 4 batch.toNat ++ toBE 4 length

/-- The frame of `push_data` (`transport.rs:262-295`). -/
def pushRequest (id : BitVec 64) (key loc : Bytes) (map attempt batch : BitVec 32) (data : Bytes) :
    Except TErr Frame :=
  if 2 ^ 31 ≤ 8 + 1 + 4 + key.length + 4 + loc.length then .error .tooLarge
  else if 2 ^ 31 ≤ data.length then .error .tooLarge
  else
    match writeBytes key with
    | .error e => .error e
    | .ok k =>
      match writeBytes loc with
      | .error e => .error e
      | .ok l => .ok ⟨11, toBE 8 id.toNat ++ 0 :: k ++ l, batchPrefix map attempt batch data.length ++ data⟩

/-- What `push_data` makes of the response (`transport.rs:296-312`). The numbers are
`Success`, `MapEnded`, `PushDataSuccessPrimaryCongested`, `PushDataSuccessReplicaCongested`
(`protocol/mod.rs:13-84`). -/
def pushAccepted : List Nat := [0, 15, 30, 31]

def pushAnswer (response : Bytes) : Except TErr Bytes :=
  match response with
  | [] => .ok []
  | s :: _ => if s.toNat ∈ pushAccepted then .ok [] else .error (.worker s.toNat)

/-- The frame of `fetch_chunk` (`transport.rs:315-332`). -/
def fetchRequest (stream : BitVec 64) (chunk offset length : BitVec 32) : Frame :=
  ⟨0, toBE 8 stream.toNat ++ toBE 4 chunk.toNat ++ toBE 4 offset.toNat ++ toBE 4 length.toNat, []⟩

/-- What `fetch_chunk` makes of the reply (`transport.rs:334-373`). -/
def Frame.chunk (f : Frame) (stream : BitVec 64) (chunk offset : BitVec 32) : Except TErr Bytes :=
  if f.type ≠ 1 ∨ f.header.length ≠ 20 then .error .chunk
  else if fromBE (f.header.take 8) ≠ stream.toNat ∨
      fromBE ((f.header.drop 8).take 4) ≠ chunk.toNat then .error .chunkMismatch
  else if fromBE ((f.header.drop 12).take 4) ≠ offset.toNat then .error .chunkSlice
  else if 2 ^ 31 ≤ fromBE (f.header.drop 16) then .error .chunkSlice
  else .ok f.body

/-- What a connection is used for. -/
inductive Call
  | rpc (body : Bytes)
  | push (key loc : Bytes) (map attempt batch : BitVec 32) (data : Bytes)
  | fetch (stream : BitVec 64) (chunk offset length : BitVec 32)
deriving DecidableEq, Repr

/-- The request, with the id `next`. -/
def Call.frame (next : BitVec 64) : Call → Except TErr Frame
  | .rpc body => rpcRequest next body
  | .push key loc m a b d => pushRequest next key loc m a b d
  | .fetch s c o l => .ok (fetchRequest s c o l)

/-- The result, from the reply. -/
def Call.answer (id : BitVec 64) (f : Frame) : Call → Except TErr Bytes
  | .rpc _ => f.rpcResponse id
  | .push .. =>
    match f.rpcResponse id with
    | .error e => .error e
    | .ok b => pushAnswer b
  | .fetch s c o _ => f.chunk s c o

/-- `next_request_id` (`transport.rs:249-251`), used by `send_rpc` and `push_data`. -/
def Call.nextId (next : BitVec 64) : Call → BitVec 64
  | .fetch .. => next
  | _ => next + 1

/-- `TransportConnection` (`transport.rs:225-242`): the bytes that were sent to it and not
read, if it is connected, and the next request id. -/
structure Conn where
  stream : Option Bytes := none
  next : BitVec 64 := 0
deriving DecidableEq, Repr

/-- What happens to a call. `answered`: the request was written and the other end sent some
bytes. `broken`: connecting or writing failed, or the time was up. `dropped`: the future of
the call was dropped, before the request was written, or after it was written, the other end
sent some bytes and some number of bytes were read. (Requests of which a part was written are
left out.) -/
inductive Fate
  | answered (sent : Bytes)
  | broken
  | dropped (sent : Option (Bytes × Nat))
deriving DecidableEq, Repr

/-- `TransportConnection::request` (`transport.rs:375-405`) with its callers: the connection
afterwards, and the result unless the call was dropped. The lock is held during the whole
request, so requests follow each other; when the future is dropped the lock is released and
nothing else happens. -/
def Conn.call (c : Conn) (q : Call) (fate : Fate) : Conn × Option (Except TErr Bytes) :=
  let next := q.nextId c.next
  match q.frame c.next with
  | .error e => (⟨c.stream, next⟩, some (.error e))
  | .ok f =>
    match fate with
    | .broken => (⟨none, next⟩, some (.error .broken))
    | .dropped none => (⟨c.stream, next⟩, none)
    | .dropped (some (sent, n)) => (⟨some ((c.stream.getD [] ++ sent).drop n), next⟩, none)
    | .answered sent =>
      match f.write with
      | .error e => (⟨none, next⟩, some (.error e))
      | .ok _ =>
        match Frame.read (c.stream.getD [] ++ sent) with
        | .error e => (⟨none, next⟩, some (.error e))
        | .ok (r, rest) => (⟨some rest, next⟩, some (q.answer c.next r))

/-- A number of calls, one after the other, and their results. -/
def Conn.calls (c : Conn) : List (Call × Fate) → Conn × List (Option (Except TErr Bytes))
  | [] => (c, [])
  | (q, f) :: rest =>
    let r := c.call q f
    let rs := r.1.calls rest
    (rs.1, r.2 :: rs.2)

/-! ## Messages -/

/-- `TransportMessage::encode` (`transport.rs:433-441`). The type is the number of the
Protobuf enumeration. -/
def encodeMessage (type : Nat) (payload : Bytes) : Except TErr Bytes :=
  if 2 ^ 31 ≤ payload.length then .error .tooLarge
  else .ok (toBE 4 type ++ toBE 4 payload.length ++ payload)

/-- `TransportMessage::decode` (`transport.rs:443-470`); `known` tells the numbers of the
enumeration. -/
def decodeMessage (known : Nat → Bool) (b : Bytes) : Except TErr (Nat × Bytes) :=
  if b.length < 8 then .error .message
  else if known (fromBE (b.take 4)) = false then .error .message
  else if 2 ^ 31 ≤ fromBE ((b.drop 4).take 4) then .error .message
  else if b.length ≠ fromBE ((b.drop 4).take 4) + 8 then .error .message
  else .ok (fromBE (b.take 4), b.drop 8)

end Verif.Celeborn
