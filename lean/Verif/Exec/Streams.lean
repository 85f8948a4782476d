import Mathlib.Data.Nat.Digits.Defs

/-!
# Task streams: in memory and in storage

Models of `MemoryStream` and `MemoryStreamReplicaSender`
(crates/sail-execution/src/stream/local/memory.rs), the life of one entry of `LocalStreamManager`
(stream/local/core.rs), `MultiChannelTaskStreamSink` (stream/accessor.rs:467-503) and
`StorageStreamSink`/`fetch_stream` (stream/storage/core.rs).

A batch is an element of an arbitrary type; errors of the network or of the object store are not
modelled.
-/

namespace Verif.Exec.Streams

/-! ## In-memory stream -/

/-- One replica: the bounded channel and its two ends, and the overflow queue of the sender. -/
structure Replica (α : Type) where
  /-- content of the tokio channel -/
  chan : List α
  overflow : List α
  /-- `senders[i].is_some()` -/
  sender : Bool
  /-- the receiver exists -/
  reader : Bool
  /-- batches the reader has taken out so far -/
  received : List α
  deriving Repr, DecidableEq

/-- `MemoryStream::new`, memory.rs:25-45. -/
def Replica.new {α : Type} : Replica α := ⟨[], [], true, true, []⟩

/-- Flushing the overflow queue, memory.rs:83-95: pushes as long as the channel has room.
Only called when the receiver exists. -/
def flush {α : Type} (cap : Nat) : List α → List α → List α × List α
  | chan, [] => (chan, [])
  | chan, b :: rest =>
    if chan.length < cap then flush cap (chan ++ [b]) rest else (chan, b :: rest)

/-- One iteration of the loop in `write`, memory.rs:73-131. `try_send` to a channel
whose receiver is dropped fails with `Closed`, whether or not it is full. -/
def Replica.write {α : Type} (cap : Nat) (r : Replica α) (b : α) : Replica α :=
  if r.sender = false then r
  else if r.reader = false then { r with sender := false, overflow := [] }
  else match flush cap r.chan r.overflow with
    | (chan, []) =>
      if chan.length < cap then { r with chan := chan ++ [b], overflow := [] }
      else { r with chan := chan, overflow := [b] }
    | (chan, o) => { r with chan := chan, overflow := o ++ [b] }

/-- `active` for the iteration, memory.rs:129. -/
def Replica.active {α : Type} (r : Replica α) : Bool := r.sender && r.reader

inductive Phase | writing | committing | committed | aborted
  deriving Repr, DecidableEq

structure Mem (α : Type) where
  cap : Nat
  replicas : List (Replica α)
  phase : Phase
  /-- ghost: all batches passed to `write` -/
  written : List α
  deriving Repr, DecidableEq

def Mem.new {α : Type} (cap n : Nat) : Mem α := ⟨cap, List.replicate n .new, .writing, []⟩

/-- `write`, memory.rs:71-137. -/
def Mem.write {α : Type} (m : Mem α) (b : α) : Mem α :=
  { m with replicas := m.replicas.map (·.write m.cap b), written := m.written ++ [b] }

/-- The state returned by `write`: `Closed` iff no replica is active, memory.rs:132-136. -/
def Mem.closedAfterWrite {α : Type} (m : Mem α) : Bool := !m.replicas.any (·.active)

/-- A suspended `commit` (memory.rs:139-165) makes one step: it works on the first replica that
still has overflow; `send` waits for room, so without room nothing happens. -/
def commitReplicas {α : Type} (cap : Nat) : List (Replica α) → List (Replica α)
  | [] => []
  | r :: rest =>
    if r.sender = true ∧ r.overflow ≠ [] then
      if r.reader = false then { r with sender := false, overflow := [] } :: rest
      else if r.chan.length < cap then
        { r with chan := r.chan ++ r.overflow.take 1, overflow := r.overflow.drop 1 } :: rest
      else r :: rest
    else r :: commitReplicas cap rest

inductive Ev (α : Type)
  | write (b : α)
  /-- the reader of replica `i` takes a batch -/
  | read (i : Nat)
  /-- the reader of replica `i` goes away -/
  | drop (i : Nat)
  /-- `commit` is called -/
  | commit
  /-- the suspended `commit` is polled -/
  | commitStep
  /-- `abort` (memory.rs:167-169), or the sink is dropped because the task was canceled -/
  | abort

/-- A replica takes a batch out of its channel. -/
def Replica.read {α : Type} (r : Replica α) : Replica α :=
  if r.reader then { r with chan := r.chan.drop 1, received := r.received ++ r.chan.take 1 } else r

def Replica.dropReader {α : Type} (r : Replica α) : Replica α := { r with reader := false }

/-- The commit has nothing left to send. -/
def Mem.flushed {α : Type} (m : Mem α) : Bool :=
  m.replicas.all fun r => !r.sender || r.overflow.isEmpty

def Mem.step {α : Type} (m : Mem α) : Ev α → Mem α
  | .write b => if m.phase = .writing then m.write b else m
  | .read i => { m with replicas := m.replicas.modify i (·.read) }
  | .drop i => { m with replicas := m.replicas.modify i (·.dropReader) }
  | .commit => if m.phase = .writing then { m with phase := .committing } else m
  | .commitStep =>
    if m.phase = .committing then
      if m.flushed then { m with phase := .committed }
      else { m with replicas := commitReplicas m.cap m.replicas }
    else m
  | .abort => if m.phase = .writing ∨ m.phase = .committing then { m with phase := .aborted } else m

def Mem.run {α : Type} (es : List (Ev α)) (m : Mem α) : Mem α := es.foldl Mem.step m

/-- What a poll of the receiver shows: end of stream iff the channel is empty and its sender is
gone (the sink drops all senders when it is committed or aborted). -/
def Mem.atEnd {α : Type} (m : Mem α) (r : Replica α) : Bool :=
  r.chan.isEmpty && (!r.sender || m.phase == .committed || m.phase == .aborted)

/-! ## One entry of the local stream manager -/

/-- `LocalStreamState` (stream/local/mod.rs) with the number of senders handed out while pending and
the number of receivers left after creation. Absence of the entry is `absent`. -/
inductive Entry | absent | pending (senders : Nat) | created (left : Nat) | failed
  deriving Repr, DecidableEq

/-- `create_stream`, core.rs:29-82: `none` is an error. Creation itself does not fail. -/
def Entry.create (e : Entry) (replicas : Nat) : Option Entry :=
  match e with
  | .absent => some (.created replicas)
  | .pending n => some (.created (max replicas n - n))
  | .created _ => none
  | .failed => none

/-- `fetch_stream`, core.rs:84-117. -/
def Entry.fetch (e : Entry) : Option Entry :=
  match e with
  | .absent => some (.pending 1)
  | .pending n => some (.pending (n + 1))
  | .created 0 => none
  | .created (n + 1) => some (.created n)
  | .failed => none

/-! ## Several channels -/

/-- `MultiChannelTaskStreamSink`, accessor.rs:467-469: per channel the stream and whether the
sink has been dropped. -/
structure Multi (α : Type) where
  chans : List (Mem α × Bool)

/-- `write`, accessor.rs:473-488; the first component of the result is `Closed`; `none` is the
error for a channel that does not exist. -/
def Multi.write {α : Type} (m : Multi α) (ch : Nat) (b : α) : Option (Bool × Multi α) :=
  match m.chans[ch]? with
  | none => none
  | some (s, dropped) =>
    let cs := if dropped then m.chans
      else m.chans.set ch (s.write b, (s.write b).closedAfterWrite)
    some (cs.all (·.2), ⟨cs⟩)

/-- Events: a write to a channel, or something that happens to a reader of a channel. -/
inductive MEv (α : Type)
  | write (ch : Nat) (b : α)
  | read (ch i : Nat)
  | drop (ch i : Nat)

def Multi.step {α : Type} (m : Multi α) : MEv α → Multi α
  | .write ch b => ((m.write ch b).map (·.2)).getD m
  | .read ch i => ⟨m.chans.modify ch fun c => (c.1.step (.read i), c.2)⟩
  | .drop ch i => ⟨m.chans.modify ch fun c => (c.1.step (.drop i), c.2)⟩

def Multi.run {α : Type} (es : List (MEv α)) (m : Multi α) : Multi α := es.foldl Multi.step m

/-- The writer opens the channels, accessor.rs:378-411. -/
def Multi.new {α : Type} (cap replicas channels : Nat) : Multi α :=
  ⟨List.replicate channels (Mem.new cap replicas, false)⟩

/-! ## Storage -/

/-- `format!("{:020}", n)`: decimal digits padded with zeros to 20. -/
def padded (n : Nat) : List Nat :=
  List.replicate (20 - (Nat.digits 10 n).length) 0 ++ (Nat.digits 10 n).reverse

/-- Lexicographic comparison of file names; `object_store::path::Path` compares as string. Prefix
and suffix of the names are the same, so only the digits are kept. -/
def lexLe : List Nat → List Nat → Bool
  | [], _ => true
  | _ :: _, [] => false
  | a :: as, b :: bs => decide (a < b) || (decide (a = b) && lexLe as bs)

/-- A file: the stream directory (`stream_prefix`, storage/core.rs:323-331, one per task attempt and
channel), the name and the batches in it. -/
structure File (α : Type) where
  dir : Nat
  name : List Nat
  batches : List α
  deriving Repr, DecidableEq

/-- `StorageStreamSink`, storage/core.rs:210-219; `cur` are the batches in the open writer. -/
structure Sink (α : Type) where
  dir : Nat
  cur : List α
  index : Nat
  deriving Repr, DecidableEq

/-- `flush_file`, storage/core.rs:248-275. -/
def Sink.flush {α : Type} (s : Sink α) (store : List (File α)) : Sink α × List (File α) :=
  if s.cur = [] then (s, store)
  else ({ s with cur := [], index := s.index + 1 },
    store.filter (fun f => f.dir ≠ s.dir ∨ f.name ≠ padded s.index) ++
      [⟨s.dir, padded s.index, s.cur⟩])

/-- `write`, storage/core.rs:279-294. `size` is the length of the encoded open file. -/
def Sink.write {α : Type} (size : List α → Nat) (maxSize : Nat) (s : Sink α) (b : α)
    (store : List (File α)) : Sink α × List (File α) :=
  if maxSize ≤ size (s.cur ++ [b]) then ({ s with cur := s.cur ++ [b] } : Sink α).flush store
  else ({ s with cur := s.cur ++ [b] }, store)

/-- `abort`, storage/core.rs:300-313. -/
def Sink.abort {α : Type} (s : Sink α) (store : List (File α)) : List (File α) :=
  store.filter fun f => f.dir ≠ s.dir

/-- `fetch_stream`, storage/core.rs:77-139: lists the directory, sorts by name, reads all files. -/
def readDir {α : Type} (dir : Nat) (listing : List (File α)) : List α :=
  ((listing.filter fun f => f.dir = dir).mergeSort fun a b => lexLe a.name b.name).flatMap (·.batches)

/-- Writes all batches. -/
def Sink.writeAll {α : Type} (size : List α → Nat) (maxSize : Nat) (s : Sink α) :
    List α → List (File α) → Sink α × List (File α)
  | [], store => (s, store)
  | b :: bs, store =>
    (s.write size maxSize b store).1.writeAll size maxSize bs (s.write size maxSize b store).2

end Verif.Exec.Streams
