import Verif.Delta.Log

/-!
# Replaying the Delta log inside a query

Models `DeltaLogReplayExec` (crates/sail-delta-lake/src/physical_plan/log_replay_exec.rs) and the
selection of log files for it (physical_plan/planner/log_segment.rs, delta_log/segment_files.rs,
physical_plan/planner/log_scan.rs, physical_plan/planner/utils.rs:412-830).

Simplifications: the payload of an `add` row is the number of the action; the row carries its key as
well (path and deletion vector are part of the payload). Batches are not modelled: input and output are
sequences of rows. Rows whose replay path is null (other actions) are skipped by the operator and are
left out. The pushed-down predicates on checkpoint rows are not modelled.
-/

namespace Verif.Delta.Log

/-- The filters on the version relative to the checkpoint, log_segment.rs:60-80. -/
def newer (ckpt : Option Ckpt) (v : Nat) : Bool :=
  match ckpt with
  | some c => decide (v > c.version)
  | none => true

/-- `resolve_log_segment_files`, log_segment.rs:31-106, without options and catalog-managed commits: as
`Store.resolve` but the files are not checked for gaps. -/
def Store.planSegment (st : Store) (target : Nat) : Segment :=
  let off := st.offset target
  let ckpt := selectCkpt (st.listCkpts off target) st.hint
  let commits := (st.listCommits off target).filter fun c => newer ckpt c.version
  let comps := (st.listComps off target).filter fun c => newer ckpt c.start
  let r := resolveComps commits comps
  ⟨ckpt, r.1, r.2⟩

/-- A row of the log scan after the projection of utils.rs:436-720. -/
structure Row where
  key : Key
  remove : Bool
  version : Nat
  file : Nat
  deriving Repr, DecidableEq

/-- The row of an action in a file whose name begins with `version`, utils.rs:535-557 and
log_scan.rs:139-167. -/
def rowOf (version : Nat) : Action → Option Row
  | .add k f => some ⟨k, false, version, f⟩
  | .remove k _ => some ⟨k, true, version, 0⟩
  | _ => none

def rowsOf (version : Nat) (as : List Action) : List Row := as.filterMap (rowOf version)

/-- Rows of the checkpoint scan. -/
def Segment.ckptRows (g : Segment) : List Row :=
  match g.ckpt with
  | some c => rowsOf c.version c.rows
  | none => []

/-- Rows of the scan of commits and compactions; a compaction gets its first version, because
`parse_version_prefix` reads the beginning of its name. -/
def Segment.commitRows (g : Segment) : List Row :=
  (g.commits.flatMap fun c => rowsOf c.version c.actions) ++ g.comps.flatMap fun c => rowsOf c.start c.actions

/-! ## Hash mode -/

/-- `ReplayEntry`, log_replay_exec.rs:422-426. -/
structure Entry where
  version : Nat
  remove : Bool
  payload : Option Nat
  deriving Repr, DecidableEq

/-- One row of `process_commits_batch`, log_replay_exec.rs:534-590. -/
def buildRow (m : List (Key × Entry)) (r : Row) : List (Key × Entry) :=
  let entry : Entry := ⟨r.version, r.remove, if r.remove then none else some r.file⟩
  match m.find? fun x => decide (x.1 = r.key) with
  | none => put r.key entry m
  | some (_, e) =>
    if r.version > e.version ∨ (r.version = e.version ∧ e.remove = true ∧ r.remove = false) then put r.key entry m
    else m

def build (rows : List Row) : List (Key × Entry) := rows.foldl buildRow []

/-- `process_checkpoint_batch`, log_replay_exec.rs:594-622. -/
def probe (m : List (Key × Entry)) (rows : List Row) : List (Key × Nat) :=
  rows.filterMap fun r =>
    if r.remove then none
    else if m.any fun x => decide (x.1 = r.key) then none
    else some (r.key, r.file)

/-- The `Emit` stage, log_replay_exec.rs:653-676. The order of the hash map is not modelled. -/
def emit (m : List (Key × Entry)) : List (Key × Nat) :=
  m.filterMap fun x => if x.2.remove then none else x.2.payload.map fun f => (x.1, f)

/-- `hash_replay_stream`, log_replay_exec.rs:632-689; without a checkpoint `ckpt` is empty (mode
`HashCommits`). -/
def hashReplay (ckpt commits : List Row) : List (Key × Nat) :=
  probe (build commits) ckpt ++ emit (build commits)

/-! ## Sort mode -/

/-- `ReplayState`, log_replay_exec.rs:271-285. -/
structure Scan where
  path : Option Key
  removed : Bool
  row : Option (Key × Nat)
  out : List (Key × Nat)
  deriving Repr, DecidableEq

/-- `flush_current_group`, log_replay_exec.rs:314-325. -/
def Scan.flush (s : Scan) : Scan :=
  { s with out := s.out ++ s.row.toList, row := none, removed := false }

/-- The change of group in `process_batch`, log_replay_exec.rs:362-371. -/
def Scan.enter (s : Scan) (k : Key) : Scan :=
  match s.path with
  | none => { s with path := some k }
  | some p => if p ≠ k then { s.flush with path := some k } else s

/-- The decision in `process_batch`, log_replay_exec.rs:373-394. -/
def Scan.take (s : Scan) (r : Row) : Scan :=
  if s.removed = true ∨ s.row.isSome = true then s
  else if r.remove then { s with removed := true }
  else { s with row := some (r.key, r.file) }

/-- One row of `process_batch`, log_replay_exec.rs:357-394. -/
def Scan.row1 (s : Scan) (r : Row) : Scan := (s.enter r.key).take r

/-- The stream of `execute`, log_replay_exec.rs:841-872. -/
def sortReplay (rows : List Row) : List (Key × Nat) :=
  (rows.foldl Scan.row1 ⟨none, false, none, []⟩).flush.out

end Verif.Delta.Log
