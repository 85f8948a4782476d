import Verif.Exec.TaskState
import Verif.Exec.Topology

/-!
# Job scheduler

Model of one job in `JobScheduler`
(crates/sail-execution/src/driver/job_scheduler/core.rs and state.rs).

Simplifications:
* jobs do not interact in the scheduler, so one job is modelled;
* system events, messages and timestamps are dropped; an error cause is a number;
* `attempts` is a function on tasks instead of nested vectors; tasks that do not exist have
  no attempts (in Rust an access outside the vectors is a panic; regions only contain
  existing tasks, see `C14`).
-/

namespace Verif.Exec

/-- `TaskAttemptDescriptor`, state.rs:120-128. -/
structure Attempt where
  state : TaskState
  cause : Option Nat
  fetched : Bool
  deriving Repr, DecidableEq

/-- The attempt pushed by core.rs:405-410. -/
def Attempt.new : Attempt := ⟨.created, none, false⟩

/-- `TaskRegionState`, state.rs:108-112. -/
inductive RegionState | running | succeeded | failed
  deriving Repr, DecidableEq

/-- `JobState`, state.rs. -/
inductive JobStatus | running | draining | succeeded | failed | canceled
  deriving Repr, DecidableEq

/-- `TaskPlacement`, job_graph/mod.rs. -/
inductive Placement | driver | worker
  deriving Repr, DecidableEq

/-- `TaskKey` (id.rs) without the job: task and attempt number. -/
structure AKey where
  task : Task
  attempt : Nat
  deriving Repr, DecidableEq

/-- What does not change during the job: `JobDescriptor::graph`, `topology`
(state.rs) and `JobSchedulerOptions::task_max_attempts`. -/
structure Plan where
  graph : TGraph
  regions : List (List Task)
  deps : Nat → List Nat
  /-- `distribution.channels()` per stage -/
  channels : Nat → Nat
  placement : Nat → Placement
  group : Nat → Nat
  maxAttempts : Nat

/-- The plan of a job graph, `JobDescriptor::try_new` (state.rs) with `JobTopology::try_new`. -/
def Plan.ofGraph (g : TGraph) (regions : List (List Task)) (channels : Nat → Nat)
    (placement : Nat → Placement) (group : Nat → Nat) (maxAttempts : Nat) : Plan :=
  ⟨g, regions, regionDeps g regions, channels, placement, group, maxAttempts⟩

abbrev Attempts := Task → List Attempt

structure Job where
  attempts : Attempts
  /-- `StageState::Active` -/
  stageActive : Nat → Bool
  regionState : Nat → RegionState
  status : JobStatus

/-- A new job, `JobDescriptor::try_new` (state.rs): no attempts, all stages active, all regions
running. -/
def Job.init : Job := ⟨fun _ => [], fun _ => true, fun _ => .running, .running⟩

/-- `JobAction` (job_scheduler/mod.rs). Handles, schemas and contexts are dropped. -/
inductive Action
  | scheduleRegion (region : Nat) (tasks : List (Placement × List AKey))
  | cancelTask (key : AKey)
  | extendJobOutput (key : AKey) (channel : Nat)
  | failJobOutput (cause : Option Nat)
  | cleanUpStage (stage : Nat)
  | cleanUpJob
  deriving Repr, DecidableEq

/-! ## Task reports -/

/-- The attempt after a report, core.rs:121-125. -/
def Attempt.report (a : Attempt) (s : TaskState) (cause : Option Nat) : Attempt :=
  { a with state := a.state.consolidate s, cause := cause.or a.cause }

/-- `update_task`, core.rs:103-136. Reports about attempts that do not exist are ignored. -/
def updateTask (j : Job) (k : AKey) (s : TaskState) (cause : Option Nat) : Job :=
  { j with attempts := fun t =>
      if t = k.task then (j.attempts t).modify k.attempt (·.report s cause) else j.attempts t }

/-! ## Refreshing -/

def lastState (as : List Attempt) : Option TaskState := as.getLast?.map (·.state)

/-- core.rs:287-292: the last attempt is `Failed`. -/
def lastFailed (as : List Attempt) : Bool := lastState as == some .failed

/-- core.rs:262-265. -/
def lastSucceeded (as : List Attempt) : Bool := lastState as == some .succeeded

/-- core.rs:392-396: there is a last attempt and it is not terminal. -/
def lastLive (as : List Attempt) : Bool :=
  match lastState as with
  | some s => !s.isTerminal
  | none => false

/-- core.rs:249-253. -/
def exhausted (max : Nat) (as : List Attempt) : Bool :=
  (lastState as == some .failed || lastState as == some .canceled) && decide (max ≤ as.length)

/-- core.rs:301-302. -/
def Attempt.cancel (a : Attempt) : Attempt :=
  if a.state.isTerminal then a else { a with state := .canceled }

/-- Applies `f` to the attempts of the given tasks. -/
def onTasks (ts : List Task) (f : List Attempt → List Attempt) (m : Attempts) : Attempts :=
  fun t => if t ∈ ts then f (m t) else m t

/-- The attempts of `t` that are not terminal, as task keys. -/
def liveKeys (t : Task) (as : List Attempt) : List AKey :=
  (as.zipIdx.filter fun x => !x.1.state.isTerminal).map fun x => ⟨t, x.2⟩

/-- `cascade_cancel_task_attempts`, core.rs:275-326: loop over the regions. -/
def cascade : List (List Task) → Attempts → Attempts × List Action
  | [], m => (m, [])
  | ts :: rest, m =>
    if ts.any fun t => lastFailed (m t) then
      ((cascade rest (onTasks ts (·.map Attempt.cancel) m)).1,
        (ts.flatMap fun t => (liveKeys t (m t)).map .cancelTask) ++
          (cascade rest (onTasks ts (·.map Attempt.cancel) m)).2)
    else cascade rest m

/-- core.rs:517-525: the last attempt is running or succeeded and not yet part of the output. -/
def fetchable (as : List Attempt) : Bool :=
  match as.getLast? with
  | some a => (a.state == .running || a.state == .succeeded) && !a.fetched
  | none => false

/-- Marks the last attempt as fetched, core.rs:526. -/
def markFetched (as : List Attempt) : List Attempt :=
  as.modify (as.length - 1) fun a => { a with fetched := true }

/-- Final stages: nobody consumes their output, core.rs:509-512. -/
def Plan.final (p : Plan) (s : Nat) : Bool := (p.graph.consumers s).isEmpty

/-- The tasks of a stage. -/
def Plan.stageTasks (p : Plan) (s : Nat) : List Task :=
  (List.range (p.graph.parts s)).map fun q => (s, q)

/-- All tasks of the job in order. -/
def Plan.allTasks (p : Plan) : List Task :=
  (List.range p.graph.length).flatMap p.stageTasks

/-- The tasks of final stages whose output is added now, core.rs:501-542. -/
def Plan.outputTasks (p : Plan) (m : Attempts) : List Task :=
  ((List.range p.graph.length).filter p.final).flatMap fun s =>
    (p.stageTasks s).filter fun t => fetchable (m t)

/-- `extend_job_output`, core.rs:501-542. -/
def extendOutput (p : Plan) (m : Attempts) : Attempts × List Action :=
  (onTasks (p.outputTasks m) markFetched m,
    (p.outputTasks m).flatMap fun t =>
      (List.range (p.channels t.1)).map fun c => .extendJobOutput ⟨t, (m t).length - 1⟩ c)

/-- core.rs:340-356: a stage all of whose consumers have succeeded. -/
def Plan.unneeded (p : Plan) (m : Attempts) (s : Nat) : Bool :=
  ((p.graph.consumers s).all fun c => (p.stageTasks c).all fun t => lastSucceeded (m t)) &&
    !(p.graph.consumers s).isEmpty

/-- `clean_up_job_by_stage`, core.rs:328-371. -/
def cleanStages (p : Plan) (m : Attempts) (active : Nat → Bool) : (Nat → Bool) × List Action :=
  (fun s => active s && !(decide (s < p.graph.length) && p.unneeded m s),
    ((List.range p.graph.length).filter fun s => active s && p.unneeded m s).map .cleanUpStage)

/-- `update_task_regions`, core.rs:245-273. -/
def regionStateOf (p : Plan) (m : Attempts) (r : Nat) : RegionState :=
  if (p.regions.getD r []).any fun t => exhausted p.maxAttempts (m t) then .failed
  else if (p.regions.getD r []).all fun t => lastSucceeded (m t) then .succeeded
  else .running

/-- The causes of failed attempts of a task, oldest first, core.rs:547-556. -/
def failureCauses (as : List Attempt) : List Nat :=
  as.filterMap fun a => if a.state = .failed then a.cause else none

/-- The better of two tasks for reporting, core.rs:559-566: more failures, else the earlier
(stage, partition). The tasks are compared in order, so ties keep the first one. -/
def betterCause (m : Attempts) (best : Option Task) (t : Task) : Option Task :=
  if failureCauses (m t) = [] then best
  else match best with
    | none => some t
    | some b => if (failureCauses (m b)).length < (failureCauses (m t)).length then some t else some b

/-- `infer_job_failure_cause`, core.rs:544-573. `none` is the internal error
"job failed for unknown reason". -/
def inferCause (p : Plan) (m : Attempts) : Option Nat :=
  ((p.allTasks.foldl (betterCause m) none).bind fun t => (failureCauses (m t)).getLast?)

/-! ### Building task sets -/

/-- `StageGroupKey`, core.rs. -/
def Plan.groupKey (p : Plan) (s : Nat) : Placement × Nat := (p.placement s, p.group s)

/-- Stages of the region in order of first appearance, core.rs:438-442. -/
def regionStages (ts : List Task) : List Nat := (ts.map (·.1)).eraseDups

/-- The stage groups in order of first appearance, core.rs:443-450. -/
def Plan.groupKeys (p : Plan) (ts : List Task) : List (Placement × Nat) :=
  ((regionStages ts).map p.groupKey).eraseDups

/-- Number of buckets of a group: the largest partition count among its stages,
core.rs:451-457. -/
def Plan.buckets (p : Plan) (ts : List Task) (k : Placement × Nat) : Nat :=
  (((regionStages ts).filter fun s => p.groupKey s == k).map p.graph.parts).foldl max 0

/-- core.rs:476-478. -/
def Plan.bucketOf (p : Plan) (ts : List Task) (t : Task) : Nat :=
  t.2 * p.buckets ts (p.groupKey t.1) / p.graph.parts t.1

/-- The tasks of the region put into bucket `b` of group `k`, core.rs:460-487. Every task of a
scheduled region has an attempt, so the `if let` on line 461 always succeeds. -/
def Plan.bucketTasks (p : Plan) (ts : List Task) (k : Placement × Nat) (b : Nat) : List Task :=
  ts.filter fun t => p.groupKey t.1 == k && p.bucketOf ts t == b

/-- `build_task_region`, core.rs:433-499. -/
def Plan.buildRegion (p : Plan) (m : Attempts) (ts : List Task) : List (Placement × List AKey) :=
  (p.groupKeys ts).flatMap fun k =>
    (List.range (p.buckets ts k)).map fun b =>
      (k.1, (p.bucketTasks ts k b).map fun t => ⟨t, (m t).length - 1⟩)

/-! ### Scheduling regions -/

/-- core.rs:381-401: the checks before a region is scheduled. -/
def Plan.ready (p : Plan) (rs : Nat → RegionState) (m : Attempts) (r : Nat) (ts : List Task) :
    Bool :=
  rs r != .succeeded && ((p.deps r).all fun d => rs d == .succeeded) &&
    !(ts.any fun t => lastLive (m t))

/-- `schedule_task_regions`, core.rs:373-431: loop over the regions with their index. -/
def schedule (p : Plan) (rs : Nat → RegionState) : List (List Task × Nat) → Attempts →
    Attempts × List Action
  | [], m => (m, [])
  | (ts, r) :: rest, m =>
    if p.ready rs m r ts then
      ((schedule p rs rest (onTasks ts (· ++ [.new]) m)).1,
        .scheduleRegion r (p.buildRegion (onTasks ts (· ++ [.new]) m) ts) ::
          (schedule p rs rest (onTasks ts (· ++ [.new]) m)).2)
    else schedule p rs rest m

/-- Some region of the plan is in the given state. -/
def Plan.anyRegion (p : Plan) (rs : Nat → RegionState) (s : RegionState) : Bool :=
  (List.range p.regions.length).any fun r => rs r == s

def Plan.allRegions (p : Plan) (rs : Nat → RegionState) (s : RegionState) : Bool :=
  (List.range p.regions.length).all fun r => rs r == s

/-- The attempts after canceling and after marking output, core.rs:180-186. -/
def refreshed (p : Plan) (j : Job) : Attempts :=
  (extendOutput p (cascade p.regions j.attempts).1).1

/-- `refresh_job`, core.rs:167-243. -/
def refresh (p : Plan) (j : Job) : Job × List Action :=
  if j.status = .running then
    if p.anyRegion (regionStateOf p (refreshed p j)) .failed then
      ({ attempts := refreshed p j
         stageActive := (cleanStages p (refreshed p j) j.stageActive).1
         regionState := regionStateOf p (refreshed p j)
         status := .failed },
        (cascade p.regions j.attempts).2 ++
        (extendOutput p (cascade p.regions j.attempts).1).2 ++
        (cleanStages p (refreshed p j) j.stageActive).2 ++
        [.failJobOutput (inferCause p (refreshed p j))])
    else if p.allRegions (regionStateOf p (refreshed p j)) .succeeded then
      ({ attempts := refreshed p j
         stageActive := (cleanStages p (refreshed p j) j.stageActive).1
         regionState := regionStateOf p (refreshed p j)
         status := .draining },
        (cascade p.regions j.attempts).2 ++
        (extendOutput p (cascade p.regions j.attempts).1).2 ++
        (cleanStages p (refreshed p j) j.stageActive).2)
    else
      ({ attempts := (schedule p (regionStateOf p (refreshed p j)) p.regions.zipIdx
            (refreshed p j)).1
         stageActive := (cleanStages p (refreshed p j) j.stageActive).1
         regionState := regionStateOf p (refreshed p j)
         status := .running },
        (cascade p.regions j.attempts).2 ++
        (extendOutput p (cascade p.regions j.attempts).1).2 ++
        (cleanStages p (refreshed p j) j.stageActive).2 ++
        (schedule p (regionStateOf p (refreshed p j)) p.regions.zipIdx (refreshed p j)).2)
  else (j, [])

/-! ## Cleaning up and stopping -/

/-- `clean_up_job`, core.rs:578-634. The attempts are not marked as canceled. -/
def cleanUp (p : Plan) (j : Job) : Job × List Action :=
  ({ j with
      stageActive := fun _ => false
      status := if j.status = .draining then .succeeded else .canceled },
    (p.allTasks.flatMap fun t => (liveKeys t (j.attempts t)).map .cancelTask) ++ [.cleanUpJob])

/-- `stop`, core.rs:670-721. -/
def stop (j : Job) : Job :=
  { j with
      attempts := fun t => (j.attempts t).map Attempt.cancel
      stageActive := fun _ => false
      status := if j.status = .running ∨ j.status = .draining then .canceled else j.status }

/-- The calls the driver makes on the scheduler for a job. -/
inductive Op
  | report (key : AKey) (state : TaskState) (cause : Option Nat)
  | refresh
  | cleanUp
  | stop

def step (p : Plan) (j : Job) : Op → Job × List Action
  | .report k s c => (updateTask j k s c, [])
  | .refresh => Verif.Exec.refresh p j
  | .cleanUp => Verif.Exec.cleanUp p j
  | .stop => (Verif.Exec.stop j, [])

/-- The job after a history of calls. -/
def run (p : Plan) (ops : List Op) (j : Job) : Job := ops.foldl (fun j o => (step p j o).1) j

/-- All actions emitted during a history of calls, oldest first. -/
def trace (p : Plan) : List Op → Job → List Action
  | [], _ => []
  | o :: ops, j => (step p j o).2 ++ trace p ops (step p j o).1

end Verif.Exec
