import Verif.Exec.Scheduler

/-!
# Task assigner

Model of `TaskAssigner` (crates/sail-execution/src/driver/task_assigner/core.rs, state.rs,
mod.rs).

Simplifications: `IndexSet` is a list without repetitions up to order; `IndexMap` of workers is
an association list in insertion order (a worker is never removed). `usize::MAX` as limit
is "no limit". Log messages are dropped.
-/

namespace Verif.Exec.Assign

/-- `TaskKey`, id.rs. -/
structure TKey where
  job : Nat
  stage : Nat
  partition : Nat
  attempt : Nat
  deriving Repr, DecidableEq

/-- `TaskOutputKind`, task/scheduling.rs. -/
inductive OutKind | localStream | storage | external
  deriving Repr, DecidableEq

/-- `TaskSet`, task/scheduling.rs: entries with task key and output kind. -/
abbrev TaskSet := List (TKey × OutKind)

def TaskSet.tasks (s : TaskSet) : List TKey := s.map (·.1)

/-- `TaskSet::local_streams`, task/scheduling.rs. -/
def TaskSet.localStreams (s : TaskSet) : List TKey :=
  (s.filter fun e => e.2 == .localStream).map (·.1)

/-- `TaskRegion`, task/scheduling.rs. -/
abbrev Region := List (Placement × TaskSet)

/-- `TaskAssignment`, task/scheduling.rs. -/
inductive Assignment | driver | worker (id slot : Nat)
  deriving Repr, DecidableEq

/-- `WorkerResource`, state.rs:90-112. -/
inductive Worker
  | active (slots : List (List TKey)) (streams : List TKey)
  | inactive
  deriving Repr, DecidableEq

/-- `TaskAssigner`, mod.rs:13-31 (the storage and external streams of the driver are not
modelled here). -/
structure State where
  maxCount : Nat
  taskSlots : Nat
  driverSlots : List (List TKey)
  driverStreams : List TKey
  workers : List (Nat × Worker)
  requested : Nat
  assigned : TKey → Option Assignment
  queue : List Region

/-- `TaskAssigner::new`, mod.rs:33-44. -/
def State.init (maxCount taskSlots : Nat) : State :=
  ⟨maxCount, taskSlots, [], [], [], 0, fun _ => none, []⟩

/-- `TaskSlot::is_vacant`, state.rs:203-205. -/
def vacant (slot : List TKey) : Bool := slot.isEmpty

/-- `TaskSlot::add_tasks`, state.rs:207-211. -/
def addTasks (slot : List TKey) (tasks : List TKey) : List TKey :=
  tasks.foldl (fun s t => if t ∈ s then s else s ++ [t]) slot

/-- `TaskSlot::remove_task`, state.rs:213-215 (`swap_remove` changes the order, which is
irrelevant here). -/
def removeTask (slot : List TKey) (t : TKey) : List TKey := slot.filter (· ≠ t)

/-- Looks up a worker. -/
def State.worker (s : State) (id : Nat) : Option Worker := s.workers.lookup id

def State.setWorker (s : State) (id : Nat) (f : Worker → Worker) : State :=
  { s with workers := s.workers.map fun w => if w.1 = id then (w.1, f w.2) else w }

/-! ## Worker counts -/

/-- Number of worker slots a region needs, core.rs:19-25. -/
def workerSets (r : Region) : Nat := (r.filter fun x => x.1 == .worker).length

/-- Vacant slots of one worker, core.rs:30-35. -/
def Worker.vacantSlots : Worker → Nat
  | .active slots _ => (slots.filter vacant).length
  | .inactive => 0

def Worker.isActive : Worker → Bool
  | .active _ _ => true
  | .inactive => false

/-- core.rs:38-42. -/
def State.activeWorkers (s : State) : Nat := (s.workers.filter fun w => w.2.isActive).length

/-- The number of workers to start, core.rs:15-55. `div_ceil` by zero slots panics in Rust;
the configuration has at least one slot per worker. -/
def State.requiredWorkers (s : State) : Nat :=
  let enqueued := (s.queue.map workerSets).sum
  let vacantSlots := (s.workers.map fun w => w.2.vacantSlots).sum
  let needed := (enqueued - vacantSlots + s.taskSlots - 1) / s.taskSlots
  if s.maxCount = 0 then needed
  else min needed (s.maxCount - s.requested - s.activeWorkers)

/-- `request_workers`, core.rs:15-56. -/
def State.requestWorkers (s : State) : State × Nat :=
  ({ s with requested := s.requested + s.requiredWorkers }, s.requiredWorkers)

/-- `track_worker_failed_to_start`, core.rs:58-60. -/
def State.workerFailedToStart (s : State) : State := { s with requested := s.requested - 1 }

/-- `activate_worker`, core.rs:62-75. -/
def State.activateWorker (s : State) (id : Nat) : State :=
  if (s.worker id).isSome then { s with requested := s.requested - 1 }
  else { s with
    requested := s.requested - 1
    workers := s.workers ++ [(id, .active (List.replicate s.taskSlots []) [])] }

/-- `deactivate_worker`, core.rs:77-90. -/
def State.deactivateWorker (s : State) (id : Nat) : State := s.setWorker id fun _ => .inactive

/-! ## Queue -/

/-- `enqueue_tasks`, core.rs:92-94. -/
def State.enqueue (s : State) (r : Region) : State := { s with queue := s.queue ++ [r] }

/-- `TaskRegion::contains`, task/scheduling.rs. -/
def Region.contains (r : Region) (k : TKey) : Bool := r.any fun x => x.2.any fun e => e.1 == k

/-- `exclude_task`, core.rs:96-98. -/
def State.exclude (s : State) (k : TKey) : State :=
  { s with queue := s.queue.filter fun r => !r.contains k }

/-! ## Assignment -/

/-- Available slots per worker, `build_worker_task_slot_assigner`, core.rs:255-278. Workers
without vacant slots are left out. -/
def freeSlots (w : Worker) : List Nat :=
  match w with
  | .inactive => []
  | .active slots _ => (slots.zipIdx.filter fun x => vacant x.1).map (·.2)

def State.available (s : State) : List (Nat × List Nat) :=
  (s.workers.map fun w => (w.1, freeSlots w.2)).filter fun w => !w.2.isEmpty

/-- `TaskSlotAssigner::next`, core.rs:298-302: the last slot of the first worker that still
has one. -/
def nextSlot : List (Nat × List Nat) → Option ((Nat × Nat) × List (Nat × List Nat))
  | [] => none
  | (id, slots) :: rest =>
    match slots.getLast? with
    | some slot => some ((id, slot), (id, slots.dropLast) :: rest)
    | none => (nextSlot rest).map fun x => (x.1, (id, slots) :: x.2)

/-- `try_assign_task_region`, core.rs:304-334. Returns the slots left in any case, since the
Rust code does not give slots back when the region does not fit. `none` is `Err(region)`. -/
def tryAssign : List (Nat × List Nat) → Region →
    Option (List (TaskSet × Assignment)) × List (Nat × List Nat)
  | av, [] => (some [], av)
  | av, (.driver, set) :: rest =>
    ((tryAssign av rest).1.map ((set, .driver) :: ·), (tryAssign av rest).2)
  | av, (.worker, set) :: rest =>
    match nextSlot av with
    | none => (none, av)
    | some ((id, slot), av') =>
      ((tryAssign av' rest).1.map ((set, .worker id slot) :: ·), (tryAssign av' rest).2)

/-- The `while` loop of `assign_tasks`, core.rs:104-120: assignments and the remaining queue. -/
def assignQueue : List (Nat × List Nat) → List Region →
    List (TaskSet × Assignment) × List Region
  | _, [] => ([], [])
  | av, r :: rest =>
    match tryAssign av r with
    | (some as, av') => (as ++ (assignQueue av' rest).1, (assignQueue av' rest).2)
    | (none, _) => ([], r :: rest)

/-- `DriverResource::add_task_set`, state.rs:24-34. -/
def addDriverSet : List (List TKey) → TaskSet → List (List TKey)
  | [], set => [addTasks [] set.tasks]
  | slot :: rest, set =>
    if vacant slot then addTasks slot set.tasks :: rest else slot :: addDriverSet rest set

/-- `WorkerResource::add_task_set`, state.rs:116-129. -/
def Worker.addSet (w : Worker) (slot : Nat) (set : TaskSet) : Worker :=
  match w with
  | .active slots streams => .active (slots.modify slot (addTasks · set.tasks)) streams
  | .inactive => .inactive

/-- One iteration of the loop updating driver and workers, core.rs:123-144. The lookup of the
worker always succeeds (`C08`), so the `error!` branch is not modelled. -/
def State.apply (s : State) (a : TaskSet × Assignment) : State :=
  match a.2 with
  | .driver =>
    { s with
      driverSlots := addDriverSet s.driverSlots a.1
      assigned := fun k => if k ∈ a.1.tasks then some .driver else s.assigned k }
  | .worker id slot =>
    { s.setWorker id (·.addSet slot a.1) with
      assigned := fun k => if k ∈ a.1.tasks then some (.worker id slot) else s.assigned k }

/-- `assign_tasks`, core.rs:100-147. -/
def State.assignTasks (s : State) : State × List (TaskSet × Assignment) :=
  ((assignQueue s.available s.queue).1.foldl State.apply
      { s with queue := (assignQueue s.available s.queue).2 },
    (assignQueue s.available s.queue).1)

/-- `DriverResource::remove_task`, state.rs:36-43: only the first slot holding the task. -/
def removeDriverTask : List (List TKey) → TKey → List (List TKey)
  | [], _ => []
  | slot :: rest, k => if k ∈ slot then removeTask slot k :: rest else slot :: removeDriverTask rest k

/-- `WorkerResource::remove_task`, state.rs:131-146. -/
def Worker.remove (w : Worker) (slot : Nat) (k : TKey) : Worker :=
  match w with
  | .active slots streams => .active (slots.modify slot (removeTask · k)) streams
  | .inactive => .inactive

/-- `unassign_task`, core.rs:149-164. -/
def State.unassign (s : State) (k : TKey) : State :=
  match s.assigned k with
  | none => s
  | some .driver => { s with driverSlots := removeDriverTask s.driverSlots k }
  | some (.worker id slot) => s.setWorker id (·.remove slot k)

/-! ## Streams -/

/-- `extend` of an `IndexSet`. -/
def extendSet (set : List TKey) (ks : List TKey) : List TKey := addTasks set ks

/-- `WorkerResource::track_local_streams`, state.rs:148-157. -/
def Worker.track (w : Worker) (set : TaskSet) : Worker :=
  match w with
  | .active slots streams => .active slots (extendSet streams set.localStreams)
  | .inactive => .inactive

/-- `track_streams`, core.rs:167-184, for one assignment. -/
def State.track (s : State) (a : TaskSet × Assignment) : State :=
  match a.2 with
  | .driver => { s with driverStreams := extendSet s.driverStreams a.1.localStreams }
  | .worker id _ => s.setWorker id (·.track a.1)

/-- The streams kept by `untrack_local_streams`, state.rs:58-67 and 159-175. -/
def keepStream (job : Nat) (stage : Option Nat) (k : TKey) : Bool :=
  match stage with
  | some st => k.job != job || k.stage != st
  | none => k.job != job

def Worker.untrack (w : Worker) (job : Nat) (stage : Option Nat) : Worker :=
  match w with
  | .active slots streams => .active slots (streams.filter (keepStream job stage))
  | .inactive => .inactive

/-- `untrack_local_streams`, core.rs:186-205. -/
def State.untrack (s : State) (job : Nat) (stage : Option Nat) : State :=
  { s with
    driverStreams := s.driverStreams.filter (keepStream job stage)
    workers := s.workers.map fun w => (w.1, w.2.untrack job stage) }

/-- `is_worker_idle`, core.rs:224-236. -/
def State.isIdle (s : State) (id : Nat) : Bool :=
  match s.worker id with
  | some (.active slots streams) => slots.all vacant && streams.isEmpty
  | _ => false

/-- `run_tasks` (driver/actor/handler.rs:508-510): assignment followed by stream tracking. -/
def State.runTasks (s : State) : State × List (TaskSet × Assignment) :=
  (s.assignTasks.2.foldl State.track s.assignTasks.1, s.assignTasks.2)

/-- Calls of the driver on the assigner. -/
inductive Op
  | enqueue (r : Region)
  | exclude (k : TKey)
  | runTasks
  | unassign (k : TKey)
  | untrack (job : Nat) (stage : Option Nat)
  | requestWorkers
  | workerFailedToStart
  | activate (id : Nat)
  | deactivate (id : Nat)

def step (s : State) : Op → State
  | .enqueue r => s.enqueue r
  | .exclude k => s.exclude k
  | .runTasks => s.runTasks.1
  | .unassign k => s.unassign k
  | .untrack j st => s.untrack j st
  | .requestWorkers => s.requestWorkers.1
  | .workerFailedToStart => s.workerFailedToStart
  | .activate id => s.activateWorker id
  | .deactivate id => s.deactivateWorker id

def run (ops : List Op) (s : State) : State := ops.foldl step s

end Verif.Exec.Assign
