/-!
# Job output

Model of `JobOutputStream` (crates/sail-execution/src/driver/output.rs): the streams of the final
stage's task attempts are merged into the stream returned to the client.

Simplifications: job, stage, partition and channel of a `TaskStreamKey` are one number, because
they are only compared for equality, all together; attempts are not looked at by the code. A task
stream is the finite list of what it yields until it ends. A poll of `JobOutputStream` is split into
the receiving of an item and the polling of one inner stream; which of the inner streams is polled
by `SelectAll`, and when, is left open (event `poll i`), so every interleaving is covered.
-/

namespace Verif.Exec.Output

/-- What a task stream yields: `Ok(batch)` (a list of rows) or `Err`. -/
inductive Item
  | batch (rows : List Nat)
  | error
  deriving Repr, DecidableEq

/-- `TaskStreamWrapper`, output.rs:216-229. `rest` is what the inner stream will still yield;
`muted` is `inner = None`. -/
structure Wrapper where
  key : Nat
  rest : List Item
  muted : Bool
  count : Nat
  deriving Repr, DecidableEq

/-- `JobOutputState`, output.rs:126-137 (`Modifying` is never observed between polls). -/
inductive Status | active | draining | completed | failed
  deriving Repr, DecidableEq

/-- What the client receives: a batch (with the key of its stream, which the client does not see) or
an error. -/
inductive Out
  | batch (key : Nat) (rows : List Nat)
  | error
  deriving Repr, DecidableEq

structure State where
  status : Status
  inner : List Wrapper
  out : List Out
  deriving Repr, DecidableEq

/-- `JobOutputStream::new`, output.rs:71-78. -/
def State.init : State := ⟨.active, [], []⟩

/-- `conflicts_with`, output.rs:231-237. -/
def Wrapper.conflicts (w : Wrapper) (key : Nat) : Bool := w.key == key && decide (0 < w.count)

/-- `mute_if_needed`, output.rs:239-247. -/
def Wrapper.mute (w : Wrapper) (key : Nat) : Wrapper :=
  if w.key = key then { w with muted := true } else w

inductive Event
  /-- the receiver yields `JobOutputItem::Stream` -/
  | stream (key : Nat) (content : List Item)
  /-- the receiver yields `JobOutputItem::Error` -/
  | error
  /-- all senders are gone -/
  | closed
  /-- `SelectAll` polls its `i`-th stream and the stream is ready -/
  | poll (i : Nat)
  /-- `SelectAll` is polled and has no streams -/
  | pollEmpty

/-- `poll_next` of the stream at position `i`, output.rs:250-262, and its removal by `SelectAll`
when it has ended. -/
def pollInner (s : State) (i : Nat) : State :=
  match s.inner[i]? with
  | none => s
  | some w =>
    if w.muted then { s with inner := s.inner.eraseIdx i }
    else match w.rest with
      | [] => { s with inner := s.inner.eraseIdx i }
      | .batch rows :: rest =>
        { s with
          inner := s.inner.set i { w with rest := rest, count := w.count + rows.length }
          out := s.out ++ [.batch w.key rows] }
      | .error :: rest =>
        { s with inner := s.inner.set i { w with rest := rest }, out := s.out ++ [.error] }

/-- `poll_next`, output.rs:148-213. -/
def step (s : State) : Event → State
  | .stream key content =>
    if s.status = .active then
      if s.inner.any (·.conflicts key) then
        { s with status := .failed, inner := [], out := s.out ++ [.error] }
      else
        { s with inner := s.inner.map (·.mute key) ++ [⟨key, content, false, 0⟩] }
    else s
  | .error =>
    if s.status = .active then
      { s with status := .failed, inner := [], out := s.out ++ [.error] }
    else s
  | .closed => if s.status = .active then { s with status := .draining } else s
  | .poll i =>
    if s.status = .active ∨ s.status = .draining then pollInner s i else s
  | .pollEmpty =>
    if s.status = .draining ∧ s.inner = [] then { s with status := .completed } else s

def run (es : List Event) (s : State) : State := es.foldl step s

end Verif.Exec.Output
