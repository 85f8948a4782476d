/-!
# Reattachable execution of a Spark Connect operation

Model of `crates/sail-spark-connect/src/executor.rs` and of the request handlers that drive an
executor (`crates/sail-spark-connect/src/service/plan_executor.rs:111-139, 599-643`).

Four parties take turns in any order: the task that runs the plan, the transport that takes
responses out of the channel and carries them, the client, and the request handlers.  `step` gives
the effect of one event; an event that cannot happen in a state leaves the state as it is.
-/

namespace Verif.Connect

/-- What a response carries (`ExecutorBatch`, executor.rs:30-41).  A batch is the list of its rows;
the results of the different commands are one constructor with a result of any type `ρ`.  The
schema itself is not modelled. -/
inductive Body (α ρ : Type) where
  | heartbeat
  | schema
  | batch (rows : List α)
  | result (r : ρ)
  | complete
  deriving DecidableEq, Repr

/-- A response with its id (`ExecutorOutput`, executor.rs:43-60).  The random id is modelled by a
counter: what matters is that no two outputs have the same id. -/
structure Out (α ρ : Type) where
  id : Nat
  body : Body α ρ
  deriving DecidableEq, Repr

/-- `ExecutorBuffer::add` (executor.rs:80-88). -/
def bufferAdd {α ρ : Type} (cap : Nat) (buffer : List (Out α ρ)) (o : Out α ρ) : List (Out α ρ) :=
  if cap = 0 then buffer
  else if cap ≤ buffer.length then buffer.tail ++ [o]
  else buffer ++ [o]

/-- `ExecutorBuffer::remove_until` (executor.rs:90-95): drops everything up to and including the
first output with the id, and nothing if there is none. -/
def removeUntil {α ρ : Type} (id : Nat) (buffer : List (Out α ρ)) : List (Out α ρ) :=
  match buffer.findIdx? (fun o => o.id == id) with
  | some i => buffer.drop (i + 1)
  | none => buffer

/-- The kind of operation (`ExecutorMode`, executor.rs:136-160).  `none` as the outcome of the
completion step is an error; `some none` means that the command has no result to send. -/
inductive Mode (α ρ : Type) where
  | query
  | command (completion : List (List α) → Option (Option ρ))

/-- What does not change: the kind of operation, whether it is reattachable, the number of
responses the transport can hold, the capacity of the buffer (128 or 0, executor.rs:69, 221-225). -/
structure Cfg (α ρ : Type) where
  mode : Mode α ρ
  reattachable : Bool
  wireCap : Nat
  bufCap : Nat

/-- What the task does once the response it is sending has been taken by the channel. -/
inductive Kont where
  /-- wait for the next batch; the flag says that no batch was sent since the task (re)started -/
  | next (empty : Bool)
  /-- the stream has ended and all batches are sent -/
  | finish
  /-- return from `run_internal` -/
  | done
  deriving DecidableEq, Repr

/-- How the task returned (`ExecutorTaskResult`, executor.rs:207-211). -/
inductive Ret where
  | paused
  | failed
  | completed
  deriving DecidableEq, Repr

/-- Where the task is.  `replay`: sending the outputs that were in the buffer (executor.rs:251-257).
`put`: waiting for the channel with an output that is in the buffer already (`send_output`,
executor.rs:193-204).  `next`: waiting for the stream or the heartbeat timer (executor.rs:178-190).
`error`: sending the error to the client (executor.rs:371).  `returned`: the task is over. -/
inductive Pc (α ρ : Type) where
  | replay (o : Out α ρ) (rest : List (Out α ρ))
  | put (o : Out α ρ) (k : Kont)
  | next (empty : Bool)
  | error
  | returned (r : Ret)
  deriving DecidableEq, Repr

/-- What travels to the client: an output or the error that ends the stream. -/
inductive Item (α ρ : Type) where
  | out (o : Out α ρ)
  | err
  deriving DecidableEq, Repr

/-- `ExecutorState` (executor.rs:108-120).  `Pending` is left out: an executor is started as soon
as it exists (plan_executor.rs:126-132), and after a pause it is started by the handler that paused
it (`handle_reattach_execute`), so no other request of the same client sees it pending. -/
inductive Exec where
  | running
  | pausing
  | idle
  | failed
  deriving DecidableEq, Repr

/-- The answer to the last reattach request. -/
inductive Reply where
  | ok
  | notFound
  | failed
  | refused
  deriving DecidableEq, Repr

/-- The state of an operation and of its client.
* `src`, `bad`: the batches the plan has yet to produce, and whether it then fails.
* `held`, `taken`: the batches a command has collected, and whether its completion step was taken
  (`ExecutorTaskState::Command`, executor.rs:162-168).
* `buffer`: the replay buffer; `chan`: the channel with room for one item; `rxOpen`: whether the
  receiving end exists; `wire`: what the transport has taken and not yet delivered.
* `attached`: whether the client still reads this stream; `got`, `gotErr`: what it received.
* `emitted`: all outputs ever created, `runs`: how often the completion step ran, `lost`: outputs
  that were in the channel when the receiving end was dropped or whose sending failed.  These three
  are for stating properties only; no transition looks at them. -/
structure Sys (α ρ : Type) where
  src : List (List α)
  bad : Bool
  held : List (List α)
  taken : Bool
  buffer : List (Out α ρ)
  nextId : Nat
  exec : Exec
  pc : Pc α ρ
  chan : List (Item α ρ)
  rxOpen : Bool
  wire : List (Item α ρ)
  attached : Bool
  got : List (Out α ρ)
  gotErr : Bool
  reply : Option Reply
  emitted : List (Out α ρ)
  runs : Nat
  lost : List (Out α ρ)

section
variable {α ρ : Type}

/-- Creates an output, puts it in the buffer and starts to send it (`send_output`,
executor.rs:193-204). -/
def emit (c : Cfg α ρ) (s : Sys α ρ) (b : Body α ρ) (k : Kont) : Sys α ρ :=
  { s with
    nextId := s.nextId + 1
    buffer := bufferAdd c.bufCap s.buffer ⟨s.nextId, b⟩
    emitted := s.emitted ++ [⟨s.nextId, b⟩]
    pc := .put ⟨s.nextId, b⟩ k }

/-- What follows a sent output (executor.rs:270-353, 366). -/
def continueWith (c : Cfg α ρ) (s : Sys α ρ) : Kont → Sys α ρ
  | .next e => { s with pc := .next e }
  | .finish => if c.reattachable then emit c s .complete .done
               else { s with pc := .returned .completed }
  | .done => { s with pc := .returned .completed }

/-- What the task does after the replay (executor.rs:258-270, 312-316): a query sends the schema,
each time it is started. -/
def begin (c : Cfg α ρ) (s : Sys α ρ) : Sys α ρ :=
  match c.mode with
  | .query => emit c s .schema (.next true)
  | .command _ => { s with pc := .next true }

/-- The start of the task with a buffer (executor.rs:246-258). -/
def startTask (c : Cfg α ρ) (s : Sys α ρ) : Sys α ρ :=
  match s.buffer with
  | [] => begin c s
  | o :: rest => { s with pc := .replay o rest }

/-- The state after `handle_execute_plan` (plan_executor.rs:126-138). -/
def init (c : Cfg α ρ) (batches : List (List α)) (bad : Bool) : Sys α ρ :=
  startTask c
    { src := batches, bad := bad, held := [], taken := false, buffer := [], nextId := 0,
      exec := .running, pc := .returned .paused, chan := [], rxOpen := true, wire := [],
      attached := true, got := [], gotErr := false, reply := none, emitted := [], runs := 0,
      lost := [] }

/-- The stream has ended (executor.rs:297-309 for queries, 337-353 for commands).  A stream that
has ended ends again when it is polled again. -/
def streamEnd (c : Cfg α ρ) (s : Sys α ρ) (empty : Bool) : Sys α ρ :=
  match c.mode with
  | .query => if empty then emit c s (.batch []) .finish else continueWith c s .finish
  | .command completion =>
    if s.taken then continueWith c s .finish
    else
      match completion s.held with
      | none => { s with taken := true, held := [], runs := s.runs + 1, pc := .error }
      | some none =>
        continueWith c { s with taken := true, held := [], runs := s.runs + 1 } .finish
      | some (some r) =>
        emit c { s with taken := true, held := [], runs := s.runs + 1 } (.result r) .finish

/-- The stream yields its next item (executor.rs:183, 276-288, 317-323).  Conversion of a batch to
its wire format is taken to succeed. -/
def streamNext (c : Cfg α ρ) (s : Sys α ρ) (empty : Bool) : Sys α ρ :=
  match s.src with
  | b :: rest =>
    match c.mode with
    | .query => emit c { s with src := rest } (.batch b) (.next false)
    | .command _ => { s with src := rest, held := s.held ++ [b] }
  | [] => if s.bad then { s with pc := .error } else streamEnd c s empty

/-- The task runs up to its next waiting point.  Sending waits while the channel is full and fails
when the receiving end is gone, which makes the task return as paused (executor.rs:358-377). -/
def work (c : Cfg α ρ) (s : Sys α ρ) : Sys α ρ :=
  match s.pc with
  | .replay o rest =>
    if !s.rxOpen then { s with pc := .returned .paused, lost := s.lost ++ (o :: rest) }
    else if s.chan = [] then
      match rest with
      | [] => begin c { s with chan := [.out o] }
      | o' :: rest' => { s with chan := [.out o], pc := .replay o' rest' }
    else s
  | .put o k =>
    if !s.rxOpen then { s with pc := .returned .paused, lost := s.lost ++ [o] }
    else if s.chan = [] then continueWith c { s with chan := [.out o] } k
    else s
  | .next e => streamNext c s e
  | .error =>
    if !s.rxOpen then { s with pc := .returned .failed }
    else if s.chan = [] then { s with chan := [.err], pc := .returned .failed }
    else s
  | .returned _ => s

/-- The heartbeat timer fires before the stream yields (executor.rs:184-188, 290-297). -/
def beat (c : Cfg α ρ) (s : Sys α ρ) : Sys α ρ :=
  match s.pc with
  | .next e => emit c s .heartbeat (.next e)
  | _ => s

/-- A pause notification wins the race in `run` (executor.rs:360-363); possible where the task
waits inside `run_internal`. -/
def stop (s : Sys α ρ) : Sys α ρ :=
  match s.exec, s.pc with
  | .pausing, .replay o rest =>
    { s with pc := .returned .paused, lost := s.lost ++ (o :: rest) }
  | .pausing, .put o _ => { s with pc := .returned .paused, lost := s.lost ++ [o] }
  | .pausing, .next _ => { s with pc := .returned .paused }
  | _, _ => s

/-- The outputs among the items. -/
def outs (l : List (Item α ρ)) : List (Out α ρ) :=
  l.filterMap fun
    | .out o => some o
    | .err => none

/-- The release that comes with a reattach request: up to the last response the client received, if
it received any (plan_executor.rs:612-614). -/
def releaseLast (got buffer : List (Out α ρ)) : List (Out α ρ) :=
  match got.getLast? with
  | some o => removeUntil o.id buffer
  | none => buffer

/-- The end of `handle_reattach_execute` once the task has returned (plan_executor.rs:611-615;
executor.rs:379-409, 445-452): the buffer is released up to the client's last response and the task
is started with a new channel, if the task was paused.  If the task was completed there is nothing
to start. -/
def resume (c : Cfg α ρ) (s : Sys α ρ) : Sys α ρ :=
  match s.exec, s.pc with
  | .pausing, .returned .paused =>
    startTask c
      { s with
        exec := .running
        buffer := releaseLast s.got s.buffer
        chan := [], rxOpen := true, wire := [], attached := true, lost := []
        reply := some .ok }
  | .pausing, .returned .completed => { s with exec := .idle, reply := some .notFound }
  | .pausing, .returned .failed => { s with exec := .failed, reply := some .failed }
  | _, _ => s

/-- The client sends a reattach request (plan_executor.rs:590-610): it no longer reads the old
stream; a running task is told to pause. -/
def reattach (c : Cfg α ρ) (s : Sys α ρ) : Sys α ρ :=
  if !c.reattachable then { s with attached := false, reply := some .refused }
  else
    match s.exec with
    | .running => { s with attached := false, exec := .pausing, reply := none }
    | .pausing => s
    | .idle => { s with attached := false, reply := some .notFound }
    | .failed => { s with attached := false, reply := some .failed }

/-- The client releases responses up to the `i`-th it received (`Executor::release`,
executor.rs:454-467; plan_executor.rs:623-634). -/
def release (c : Cfg α ρ) (s : Sys α ρ) (i : Nat) : Sys α ρ :=
  if c.reattachable ∧ s.exec = .running then
    match s.got[i]? with
    | some o => { s with buffer := removeUntil o.id s.buffer }
    | none => s
  else s

/-- The transport takes an item out of the channel. -/
def pull (c : Cfg α ρ) (s : Sys α ρ) : Sys α ρ :=
  if s.rxOpen ∧ s.wire.length < c.wireCap then
    { s with wire := s.wire ++ s.chan, chan := [] }
  else s

/-- The client receives an item from the stream it reads. -/
def deliver (s : Sys α ρ) : Sys α ρ :=
  if s.attached then
    match s.wire with
    | [] => s
    | .out o :: rest => { s with wire := rest, got := s.got ++ [o] }
    | .err :: rest => { s with wire := rest, gotErr := true }
  else s

/-- The client loses its connection; the server may not have noticed yet, so what the transport
holds stays there. -/
def lose (s : Sys α ρ) : Sys α ρ := { s with attached := false }

/-- The server drops the receiving end of the channel with what is in it. -/
def drop (s : Sys α ρ) : Sys α ρ :=
  { s with rxOpen := false, chan := [], lost := outs s.chan ++ s.lost }

inductive Event where
  | work
  | beat
  | stop
  | resume
  | reattach
  | release (i : Nat)
  | pull
  | deliver
  | lose
  | drop
  deriving DecidableEq, Repr

def step (c : Cfg α ρ) (s : Sys α ρ) : Event → Sys α ρ
  | .work => work c s
  | .beat => beat c s
  | .stop => stop s
  | .resume => resume c s
  | .reattach => reattach c s
  | .release i => release c s i
  | .pull => pull c s
  | .deliver => deliver s
  | .lose => lose s
  | .drop => drop s

def run (c : Cfg α ρ) (s : Sys α ρ) (es : List Event) : Sys α ρ := es.foldl (step c) s

end

end Verif.Connect
