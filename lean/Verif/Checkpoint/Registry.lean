/-!
# Publishing checkpoints and stopping the session

Models crates/sail-cache/src/remote_checkpoint.rs:42-163, `commit_checkpoint` in
crates/sail-physical-plan/src/remote_checkpoint.rs:600-645, and `delete_session` in
crates/sail-session/src/session_manager/actor/handler.rs:278-297.

Simplifications. Relation ids are numbers; a command writes a given number of objects, named by its relation id,
by the command (the UUID in the file name) and by a number. Listing and deleting the objects below a path is one
step and does not fail; locks are not poisoned. Descriptors hold the command and the number of objects.
`LocalJobRunner::stop` (crates/sail-execution/src/job_runner.rs:73-75) only sets a flag, so commands go on while the
session is stopped.
-/

namespace Verif.Checkpoint

/-- How far a command is: writing its objects, having read `closed` as false, about to clean up after an error,
successful, failed, or dropped. -/
inductive Stage where
  | writing | checked | failing | done | failed | dropped
deriving DecidableEq

/-- A checkpoint command: the relation id, the number of objects to write, the number of objects written. -/
structure Op where
  id : Nat
  parts : Nat
  next : Nat
  stage : Stage
deriving DecidableEq

/-- How far `cleanup_session` is, remote_checkpoint.rs:117-140: not begun, `closed` set, the objects deleted, the
registry cleared. -/
inductive Stop where
  | running | closed | deleted | cleared
deriving DecidableEq

/-- An object: the relation id in its path, the command that wrote it, its number. -/
structure Obj where
  id : Nat
  op : Nat
  part : Nat
deriving DecidableEq

/-- A published descriptor: the relation id, the command, the number of objects. -/
structure Entry where
  id : Nat
  op : Nat
  parts : Nat
deriving DecidableEq

/-- The state; a command is named by its position in `ops`. -/
structure State where
  stop : Stop := .running
  ops : List Op := []
  objects : List Obj := []
  registered : List Entry := []
deriving DecidableEq

/-- The steps. -/
inductive Action where
  | begin (id parts : Nat)
  | write (op : Nat)
  | fail (op : Nat)
  | check (op : Nat)
  | publish (op : Nat)
  | cleanup (op : Nat)
  | drop (op : Nat)
  | close
  | delete
  | clear
deriving DecidableEq

/-- Command `i` at another stage. -/
def State.setStage (s : State) (i : Nat) (op : Op) (stage : Stage) : State :=
  { s with ops := s.ops.set i { op with stage := stage } }

/-- `resolve_relation`, sail-cache remote_checkpoint.rs:62-75: a command is planned only if `closed` is not set. -/
def State.begin (s : State) (id parts : Nat) : State :=
  if s.stop = .running then { s with ops := s.ops ++ [⟨id, parts, 0, .writing⟩] } else s

/-- A task of the command writes its object, sail-physical-plan remote_checkpoint.rs:519-597. -/
def State.write (s : State) (i : Nat) (op : Op) : State :=
  if op.stage = .writing ∧ op.next < op.parts then
    { s with
      ops := s.ops.set i { op with next := op.next + 1 }
      objects := ⟨op.id, i, op.next⟩ :: s.objects }
  else s

/-- A task or the collection of the reports fails, sail-physical-plan remote_checkpoint.rs:614. -/
def State.fail (s : State) (i : Nat) (op : Op) : State :=
  if op.stage = .writing then s.setStage i op .failing else s

/-- All reports are there and `insert` reads `closed`, sail-cache remote_checkpoint.rs:77-82. -/
def State.check (s : State) (i : Nat) (op : Op) : State :=
  if op.stage = .writing ∧ op.next = op.parts then
    if s.stop = .running then s.setStage i op .checked else s.setStage i op .failing
  else s

/-- The rest of `insert`, under the lock, sail-cache remote_checkpoint.rs:83-97. -/
def State.publish (s : State) (i : Nat) (op : Op) : State :=
  if op.stage = .checked then
    if s.registered.any fun e => decide (e.id = op.id) then s.setStage i op .failing
    else { s.setStage i op .done with registered := ⟨op.id, i, op.parts⟩ :: s.registered }
  else s

/-- `cleanup_relation` after an error, sail-physical-plan remote_checkpoint.rs:630-643. -/
def State.cleanup (s : State) (i : Nat) (op : Op) : State :=
  if op.stage = .failing then
    { s.setStage i op .failed with objects := s.objects.filter fun o => decide (o.id ≠ op.id) }
  else s

/-- The command is cancelled, its future is dropped. -/
def State.drop (s : State) (i : Nat) (op : Op) : State :=
  if op.stage = .writing ∨ op.stage = .checked ∨ op.stage = .failing then s.setStage i op .dropped else s

/-- A step of a command, nothing if there is no such command. -/
def State.on (s : State) (i : Nat) (f : State → Nat → Op → State) : State :=
  match s.ops[i]? with
  | some op => f s i op
  | none => s

/-- One step; a step that is not possible does nothing. -/
def State.step (s : State) : Action → State
  | .begin id parts => s.begin id parts
  | .write i => s.on i State.write
  | .fail i => s.on i State.fail
  | .check i => s.on i State.check
  | .publish i => s.on i State.publish
  | .cleanup i => s.on i State.cleanup
  | .drop i => s.on i State.drop
  | .close => if s.stop = .running then { s with stop := .closed } else s
  | .delete => if s.stop = .closed then { s with stop := .deleted, objects := [] } else s
  | .clear => if s.stop = .deleted then { s with stop := .cleared, registered := [] } else s

/-- A run. -/
def State.run (s : State) (actions : List Action) : State := actions.foldl State.step s

end Verif.Checkpoint
