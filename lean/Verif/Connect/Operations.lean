/-!
# The operations of a session

The table of executors of a Spark session and the requests that change it.

Sources: crates/sail-spark-connect/src/session.rs:172-217 (the table),
crates/sail-spark-connect/src/service/plan_executor.rs:113-141 (`handle_execute_plan`), 552-588
(interrupts), 590-635 (reattach, release), crates/sail-spark-connect/src/executor.rs:350-450.

Simplifications: what an operation sends to its client is the model of `Connect/Executor`; here an
execution only has a status. A handler that removes executors from the table and pauses them is one
step: the removal is done under the lock, so no other handler finds the executors afterwards. Results
that need no executor (plan_executor.rs:236-249 and others) never enter the table and are not
modelled. The map is an association list; its order stands for the iteration order of the
`HashMap`.
-/

namespace Verif.Connect.Ops

/-- The life of one execution. `planning` is the time between the request and `add_executor`
(plan_executor.rs:120-135), `away` a task paused because its client went away (executor.rs:369),
`stopped` a task ended by the server: paused by an interrupt or release, after which nothing refers to
it, or dropped together with its executor, which drops the notifier and so ends the `select!` of
executor.rs:363-366. -/
inductive Status where
  | planning
  | running
  | away
  | finished
  | failed
  | stopped
  deriving DecidableEq, Repr

/-- One execute request: `ExecutorMetadata`, executor.rs, and the status of its execution. -/
structure Execution where
  op : String
  tags : List String
  reattachable : Bool
  status : Status
  deriving DecidableEq, Repr

/-- The state of a session: all executions there have been, by number, and the table from operation
ids to executors, here the numbers of their executions. -/
structure State where
  runs : List Execution
  table : List (String × Nat)
  deriving DecidableEq, Repr

/-- What a client or the server does. `finish`, `fail` and `leave` are the execution's own doing. -/
inductive Event where
  | request (op : String) (tags : List String) (reattachable : Bool)
  | register (n : Nat)
  | planFails (n : Nat)
  | finish (n : Nat)
  | fail (n : Nat)
  | leave (n : Nat)
  | reattach (op : String)
  | release (op : String)
  | releaseUntil (op : String)
  | interruptAll
  | interruptTag (tag : String)
  | interruptOp (op : String)
  deriving DecidableEq, Repr

/-- `SparkSession::new` without executors, session.rs:314-321. -/
def init : State := { runs := [], table := [] }

/-- `HashMap::get`. -/
def lookup (op : String) (t : List (String × Nat)) : Option Nat :=
  (t.find? fun e => e.1 == op).map (·.2)

/-- `HashMap::remove`. -/
def erase (op : String) (t : List (String × Nat)) : List (String × Nat) :=
  t.filter fun e => e.1 != op

/-- `HashMap::insert`, which replaces an entry with the same key, session.rs:172-177. -/
def insert (op : String) (n : Nat) (t : List (String × Nat)) : List (String × Nat) :=
  (op, n) :: erase op t

/-- A task that is told to stop, or whose executor is dropped: it stops unless it is over,
executor.rs:427-450. -/
def Status.stop : Status → Status
  | .running => .stopped
  | .away => .stopped
  | s => s

/-- Stop the executions with the given numbers. -/
def stopRuns (ns : List Nat) (runs : List Execution) : List Execution :=
  runs.mapIdx fun i x => if i ∈ ns then { x with status := x.status.stop } else x

/-- Change the status of an execution. -/
def setStatus (n : Nat) (f : Status → Status) (runs : List Execution) : List Execution :=
  runs.modify n fun x => { x with status := f x.status }

/-- The status after the client has reattached: the task runs again, executor.rs:379-425; also a task
that was running is paused and started again. -/
def Status.restart : Status → Status
  | .away => .running
  | s => s

/-- Whether the executor of execution `n` carries the tag, session.rs:206-209. -/
def hasTag (runs : List Execution) (tag : String) (n : Nat) : Bool :=
  match runs[n]? with
  | some x => x.tags.contains tag
  | none => false

/-- Whether execution `n` is reattachable. -/
def canReattach (runs : List Execution) (n : Nat) : Bool :=
  match runs[n]? with
  | some x => x.reattachable
  | none => false

/-- The ids an interrupt reports are those of the executors' metadata, plan_executor.rs:552-588. -/
def opsOf (runs : List Execution) (ns : List Nat) : List String :=
  ns.filterMap fun n => (runs[n]?).map (·.op)

/-- `add_executor` of execution `n` with its start, plan_executor.rs:132-134, session.rs:172-177: the
executor that had the id is dropped. -/
def register (s : State) (n : Nat) : State :=
  match s.runs[n]? with
  | some x =>
    if x.status = .planning then
      { runs := setStatus n (fun _ => .running) (stopRuns (lookup x.op s.table).toList s.runs)
        table := insert x.op n s.table }
    else s
  | none => s

/-- `handle_interrupt_all` with `remove_all_executors`, plan_executor.rs:552-560, session.rs:192-199:
the state and the ids reported. -/
def interruptAll (s : State) : State × List String :=
  let ns := s.table.map (·.2)
  ({ runs := stopRuns ns s.runs, table := [] }, opsOf s.runs ns)

/-- `handle_interrupt_tag` with `remove_executors_by_tag`, plan_executor.rs:562-573,
session.rs:201-217. -/
def interruptTag (s : State) (tag : String) : State × List String :=
  let ns := (s.table.filter fun e => hasTag s.runs tag e.2).map (·.2)
  ({ runs := stopRuns ns s.runs, table := s.table.filter fun e => !hasTag s.runs tag e.2 },
    opsOf s.runs ns)

/-- `handle_interrupt_operation_id` with `remove_executor`, plan_executor.rs:575-588,
session.rs:184-190. -/
def interruptOp (s : State) (op : String) : State × List String :=
  match lookup op s.table with
  | some n => ({ runs := stopRuns [n] s.runs, table := erase op s.table }, opsOf s.runs [n])
  | none => (s, [])

/-- `handle_release_execute` without a response id, plan_executor.rs:617-635. -/
def release (s : State) (op : String) : State :=
  match lookup op s.table with
  | some n =>
    if canReattach s.runs n then { runs := stopRuns [n] s.runs, table := erase op s.table } else s
  | none => s

/-- `handle_reattach_execute`, plan_executor.rs:590-615. -/
def reattach (s : State) (op : String) : State :=
  match lookup op s.table with
  | some n =>
    if canReattach s.runs n then { s with runs := setStatus n Status.restart s.runs } else s
  | none => s

/-- The execution's own changes of status: only a running task finishes, fails or notices that its
client is gone. -/
def ownChange (to : Status) : Status → Status
  | .running => to
  | s => s

/-- One step: the new state and what an interrupt reports. -/
def step (s : State) : Event → State × List String
  | .request op tags re => ({ s with runs := s.runs ++ [⟨op, tags, re, .planning⟩] }, [])
  | .register n => (register s n, [])
  | .planFails n =>
    ({ s with runs := setStatus n (fun st => if st = .planning then .failed else st) s.runs }, [])
  | .finish n => ({ s with runs := setStatus n (ownChange .finished) s.runs }, [])
  | .fail n => ({ s with runs := setStatus n (ownChange .failed) s.runs }, [])
  | .leave n => ({ s with runs := setStatus n (ownChange .away) s.runs }, [])
  | .reattach op => (reattach s op, [])
  | .release op => (release s op, [])
  | .releaseUntil _ => (s, [])
  | .interruptAll => interruptAll s
  | .interruptTag tag => interruptTag s tag
  | .interruptOp op => interruptOp s op

/-- The state after a history. -/
def run (s : State) : List Event → State
  | [] => s
  | e :: es => run (step s e).1 es

end Verif.Connect.Ops
