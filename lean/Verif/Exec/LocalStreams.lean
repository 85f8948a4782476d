import Mathlib.Data.List.Nodup

/-!
# Readers of an in-memory output before and after it exists

Model of `LocalStreamManager` (crates/sail-execution/src/stream/local/core.rs) for one stream key, together
with the delayed probe sent to the task runner (`send_with_delay`, core.rs:108-111, handled by
`handle_probe_pending_local_stream`, task_runner/actor/handler.rs:154-157).

Simplifications: time is left out; a probe that was scheduled may fire at any later point. The
contents of the stream are modelled in `Streams.lean`. Readers are numbered in the order of their
requests.
-/

namespace Verif.Exec.LocalStreams

/-- What a reader has got so far: nothing yet, a replica of the stream, an error, or a channel that
ended without data and without error. -/
inductive Outcome | waiting | attached | error | ended
  deriving Repr, DecidableEq

/-- `LocalStreamState`, stream/local/mod.rs, with the readers waiting (`senders`) or the number of
replicas left; `absent` if the map has no entry. -/
inductive Entry | absent | pending (readers : List Nat) | created (left : Nat) | failed
  deriving Repr, DecidableEq

structure State where
  entry : Entry
  /-- one entry per reader -/
  readers : List Outcome
  /-- probes scheduled and not yet fired -/
  probes : Nat
  deriving Repr, DecidableEq

def State.init : State := ⟨.absent, [], 0⟩

/-- Sets the outcome of some readers. -/
def settle (rs : List Nat) (o : Outcome) (l : List Outcome) : List Outcome :=
  l.mapIdx fun i x => if i ∈ rs then o else x

inductive Ev
  | fetch
  | create (replicas : Nat) (ok : Bool)
  | probe
  | remove
  deriving Repr, DecidableEq

/-- `fetch_stream`, core.rs:84-117. -/
def State.fetch (s : State) : State :=
  match s.entry with
  | .absent => ⟨.pending [s.readers.length], s.readers ++ [.waiting], s.probes + 1⟩
  | .pending rs => { s with entry := .pending (rs ++ [s.readers.length]), readers := s.readers ++ [.waiting] }
  | .created 0 => { s with readers := s.readers ++ [.error] }
  | .created (n + 1) => { s with entry := .created n, readers := s.readers ++ [.attached] }
  | .failed => { s with readers := s.readers ++ [.error] }

/-- `create_stream`, core.rs:29-82; `ok` is whether `publish` succeeds. -/
def State.create (s : State) (replicas : Nat) (ok : Bool) : State :=
  match s.entry with
  | .absent => { s with entry := if ok then .created replicas else .failed }
  | .pending rs =>
    if ok then
      { s with entry := .created (max replicas rs.length - rs.length), readers := settle rs .attached s.readers }
    else { s with entry := .failed, readers := settle rs .error s.readers }
  | .created _ => s
  | .failed => s

/-- `fail_stream_if_pending`, core.rs:128-138, for a probe that was scheduled. -/
def State.probe (s : State) : State :=
  if s.probes = 0 then s
  else match s.entry with
    | .pending rs => ⟨.failed, settle rs .error s.readers, s.probes - 1⟩
    | _ => { s with probes := s.probes - 1 }

/-- `remove_streams`, core.rs:119-126: dropping the senders of a pending stream ends the channels. -/
def State.remove (s : State) : State :=
  match s.entry with
  | .pending rs => { s with entry := .absent, readers := settle rs .ended s.readers }
  | _ => { s with entry := .absent }

def State.step (s : State) : Ev → State
  | .fetch => s.fetch
  | .create n ok => s.create n ok
  | .probe => s.probe
  | .remove => s.remove

def State.run (es : List Ev) (s : State) : State := es.foldl State.step s

end Verif.Exec.LocalStreams
