/-!
# Task attempt status

Model of `TaskState` in `crates/sail-execution/src/driver/job_scheduler/state.rs`.
-/

namespace Verif.Exec

/-- `TaskState`, driver/job_scheduler/state.rs:130-145. -/
inductive TaskState where
  | created | scheduled | running | succeeded | failed | canceled
  deriving DecidableEq, Repr

namespace TaskState

/-- `TaskState::consolidate`, driver/job_scheduler/state.rs:159-168. -/
def consolidate : TaskState → TaskState → TaskState
  | created, x => x
  | scheduled, created => scheduled
  | scheduled, x => x
  | running, created => running
  | running, scheduled => running
  | running, x => x
  | succeeded, _ => succeeded
  | failed, _ => failed
  | canceled, _ => canceled

/-- `TaskState::is_terminal`, driver/job_scheduler/state.rs:170-175. -/
def isTerminal : TaskState → Bool
  | succeeded | failed | canceled => true
  | created | scheduled | running => false

/-- The status of an attempt after a list of reports has been folded in:
`update_task` (driver/job_scheduler/core.rs:103-136) does
`attempt.state = attempt.state.consolidate(state)` for each report. -/
def after (s : TaskState) (reports : List TaskState) : TaskState :=
  reports.foldl consolidate s

end TaskState
end Verif.Exec
