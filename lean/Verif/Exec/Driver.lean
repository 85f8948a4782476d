import Verif.Exec.Scheduler

/-!
# Driver: scheduler and queue together

How `DriverActor` (crates/sail-execution/src/driver/actor/handler.rs) connects the job scheduler
to the queue of the task assigner, for one job.

Simplifications: which slots are free is abstracted: a `dispatch n` event places the first `n`
queued regions (`C09` shows that every assignment round places a prefix of the queue). Regions of
other jobs in the queue are left out. A task definition can always be built
(`get_task_definition` succeeds).
-/

namespace Verif.Exec.Driver

open Verif.Exec

/-- A queued region as built by the scheduler. -/
abbrev QRegion := List (Placement × List AKey)

/-- The attempts in a region. -/
def QRegion.keys (q : QRegion) : List AKey := q.flatMap (·.2)

structure State where
  job : Job
  queue : List QRegion
  /-- attempts sent to a worker or to the driver's task runner, oldest first -/
  dispatched : List AKey

def State.init : State := ⟨Job.init, [], []⟩

/-- `run_job_action`, handler.rs:353-384, as far as the queue is concerned: `ScheduleTaskRegion`
appends (core.rs:92-94 of the assigner), `CancelTask` removes the regions containing the
attempt (core.rs:96-98 of the assigner). -/
def applyAction (q : List QRegion) : Action → List QRegion
  | .scheduleRegion _ tasks => q ++ [tasks]
  | .cancelTask k => q.filter fun r => !decide (k ∈ QRegion.keys r)
  | _ => q

/-- `refresh_job`, handler.rs:341-345. -/
def State.refresh (p : Plan) (s : State) : State :=
  { s with job := (Exec.refresh p s.job).1, queue := (Exec.refresh p s.job).2.foldl applyAction s.queue }

/-- Events of the driver about one job. -/
inductive Event
  /-- `handle_execute_job`, handler.rs:162-177 -/
  | execute
  /-- `handle_update_task`, handler.rs:188-243, including the report made for a task that was
  not placed in time (`handle_probe_pending_task`, handler.rs:245-288) -/
  | report (k : AKey) (state : TaskState) (cause : Option Nat)
  /-- `run_tasks`, handler.rs:508-562, placing `n` regions -/
  | dispatch (n : Nat)
  /-- `handle_clean_up_job`, handler.rs:179-186 -/
  | cleanUp

def step (p : Plan) (s : State) : Event → State
  | .execute => s.refresh p
  | .report k st c =>
    if st = .canceled then { s with job := updateTask s.job k st c }
    else ({ s with job := updateTask s.job k st c } : State).refresh p
  | .dispatch n =>
    { job := ((s.queue.take n).flatMap QRegion.keys).foldl
        (fun j k => updateTask j k .scheduled none) s.job
      queue := s.queue.drop n
      dispatched := s.dispatched ++ (s.queue.take n).flatMap QRegion.keys }
  | .cleanUp =>
    { s with job := (Exec.cleanUp p s.job).1
             queue := (Exec.cleanUp p s.job).2.foldl applyAction s.queue }

def run (p : Plan) (es : List Event) (s : State) : State := es.foldl (step p) s

end Verif.Exec.Driver
