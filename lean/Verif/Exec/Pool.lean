/-!
# Workers: identifiers, status sequence numbers and the worker pool

Models `IdGenerator` (crates/sail-execution/src/id.rs), the sequence filter of `handle_update_task`
(crates/sail-execution/src/driver/actor/handler.rs) and `WorkerPool`
(crates/sail-execution/src/driver/worker_pool/core.rs) with the probes that drive it.
-/

namespace Verif.Exec.Pool

/-! ## Identifiers -/

/-- `u64::MAX`. -/
def u64Max : Nat := 2 ^ 64 - 1

/-- `IdGenerator::generate`, id.rs:85-89, with `first` (id.rs:13-15) and `next` (id.rs:17-20).
The state is `next_value`; `none` is the "ID overflow" error, which leaves the state unchanged.
-/
def generate (next : Nat) : Option Nat × Nat :=
  if next + 1 ≤ u64Max then (some next, next + 1) else (none, next)

/-- Results of `n` requests. -/
def generateMany : Nat → Nat → List (Option Nat)
  | 0, _ => []
  | n + 1, next => (generate next).1 :: generateMany n (generate next).2

/-- `IdGenerator::new`, id.rs:78-83. -/
def firstId : Nat := 1

/-! ## Sequence filter -/

/-- A status report of an attempt: its sequence number (`none` for reports the driver makes
itself) and its payload. -/
structure Report (α : Type) where
  key : Nat
  sequence : Option Nat
  payload : α
deriving Repr, DecidableEq

/-- The sequence filter of `handle_update_task`, handler.rs:197-208. `seqs` is `task_sequences`;
the result says whether the report is applied. Task keys are represented by numbers. -/
def accept {α : Type} (seqs : Nat → Option Nat) (r : Report α) : Bool × (Nat → Option Nat) :=
  match r.sequence with
  | none => (true, seqs)
  | some q =>
    if (seqs r.key).any (fun s => decide (q ≤ s)) then (false, seqs)
    else (true, fun k => if k = r.key then some q else seqs k)

/-- The reports that are applied, in order. -/
def applied {α : Type} : List (Report α) → (Nat → Option Nat) → List (Report α)
  | [], _ => []
  | r :: rs, seqs =>
    if (accept seqs r).1 then r :: applied rs (accept seqs r).2 else applied rs (accept seqs r).2

/-! ## Worker pool -/

/-- `WorkerState`, worker_pool/state.rs:20-31, without the address and the client. -/
inductive WState where
  | pending
  | running (updatedAt heartbeatAt : Nat)
  | completed
  | failed
deriving Repr, DecidableEq

/-- Delayed messages the driver sends to itself: `ProbePendingWorker`, `ProbeIdleWorker` and
`ProbeLostWorker`. -/
inductive Probe where
  | pending (worker : Nat)
  | idle (worker instant : Nat)
  | lost (worker instant : Nat)
deriving Repr, DecidableEq

/-- Options: `worker_launch_timeout`, `worker_max_idle_time`, `worker_heartbeat_timeout`. -/
structure Options where
  launch : Nat
  idle : Nat
  heartbeat : Nat
deriving Repr, DecidableEq

/-- State of the pool. Workers are numbered in the order they are started, so that worker `i` is
the `i`-th entry (identifiers come from `IdGenerator`; the exhaustion of identifiers, which shuts
down the driver, is not modelled here). `busy` is the negation of `is_worker_idle` of the task
assigner. `inFlight` holds delayed messages with the time from which they can be delivered. -/
structure State where
  now : Nat
  workers : List WState
  busy : List Bool
  inFlight : List (Nat × Probe)
deriving Repr, DecidableEq

def State.init : State := ⟨0, [], [], []⟩

/-- `start_worker`, worker_pool/core.rs:41-101. The launch itself is outside the model: its effect
is a registration, at any time or never. -/
def State.start (o : Options) (s : State) : State :=
  { s with
    workers := s.workers ++ [.pending]
    busy := s.busy ++ [false]
    inFlight := s.inFlight ++ [(s.now + o.launch, .pending s.workers.length)] }

/-- `register_worker`, worker_pool/core.rs:103-148. `false` is the error. -/
def State.register (o : Options) (s : State) (i : Nat) : Bool × State :=
  match s.workers[i]? with
  | some .pending =>
    (true, { s with
      workers := s.workers.set i (.running s.now s.now)
      inFlight := s.inFlight ++ [(s.now + o.heartbeat, .lost i s.now), (s.now + o.idle, .idle i s.now)] })
  | _ => (false, s)

/-- `stop_worker`, worker_pool/core.rs:150-212. `get_client_set` cannot fail for a running worker
(core.rs:472-495). -/
def State.stop (s : State) (i : Nat) : State :=
  match s.workers[i]? with
  | some .pending | some (.running _ _) => { s with workers := s.workers.set i .completed }
  | _ => s

/-- `update_worker_heartbeat`, worker_pool/core.rs:245-258. -/
def State.heartbeat (o : Options) (s : State) (i : Nat) : State :=
  match s.workers[i]? with
  | some (.running u _) => { s with
      workers := s.workers.set i (.running u s.now)
      inFlight := s.inFlight ++ [(s.now + o.heartbeat, .lost i s.now)] }
  | _ => s

/-- `track_worker_activity`, worker_pool/core.rs:571-587: called by `run_task`, `stop_task`,
`fetch_task_stream` and `clean_up_job`. -/
def State.activity (o : Options) (s : State) (i : Nat) : State :=
  match s.workers[i]? with
  | some (.running _ h) => { s with
      workers := s.workers.set i (.running s.now h)
      inFlight := s.inFlight ++ [(s.now + o.idle, .idle i s.now)] }
  | _ => s

/-- Delivery of a probe: `handle_probe_pending_worker` (handler.rs:89-99) with
`fail_worker_if_pending` (core.rs:272-296), `handle_probe_idle_worker` (handler.rs:101-121),
`handle_probe_lost_worker` (handler.rs:123-160, the part that concerns the pool). -/
def State.probe (s : State) : Probe → State
  | .pending i =>
    match s.workers[i]? with
    | some .pending => { s with workers := s.workers.set i .failed }
    | _ => s
  | .idle i instant =>
    match s.workers[i]?, s.busy[i]? with
    | some (.running u _), some false => if u ≤ instant then s.stop i else s
    | _, _ => s
  | .lost i instant =>
    match s.workers[i]? with
    | some (.running _ h) => if h ≤ instant then s.stop i else s
    | _ => s

/-- What can happen. -/
inductive Ev where
  | tick (d : Nat)
  | start
  | register (i : Nat)
  | heartbeat (i : Nat)
  | activity (i : Nat)
  /-- a task set is placed on the worker, or the worker's last task or stream is gone -/
  | setBusy (i : Nat) (b : Bool)
  /-- the `k`-th delayed message is delivered, at its due time or later -/
  | deliver (k : Nat)
  /-- `WorkerPool::close`, core.rs:31-39, one worker -/
  | stop (i : Nat)
deriving Repr, DecidableEq

def State.step (o : Options) (s : State) : Ev → State
  | .tick d => { s with now := s.now + d }
  | .start => s.start o
  | .register i => (s.register o i).2
  | .heartbeat i => s.heartbeat o i
  | .activity i => s.activity o i
  | .setBusy i b => { s with busy := s.busy.set i b }
  | .deliver k =>
    match s.inFlight[k]? with
    | some (due, p) =>
      if due ≤ s.now then ({ s with inFlight := s.inFlight.eraseIdx k } : State).probe p else s
    | none => s
  | .stop i => s.stop i

def State.run (o : Options) (es : List Ev) (s : State) : State :=
  es.foldl (fun s e => s.step o e) s

end Verif.Exec.Pool
