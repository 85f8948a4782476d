import Verif.Base.Sort
/-!
# Delta log: replay, checkpoints, compaction, clean-up

Models `ReconciledCheckpointState`, `CheckpointManager::create_checkpoint`,
`replay_commit_actions`, `build_replay_sequence`, `create_log_compaction_for`
(crates/sail-delta-lake/src/checkpoint/mod.rs), `LogSegmentResolver::resolve_for_full_state`,
`list_log_files`, `select_checkpoint_candidate`, `resolve_compactions` and the contiguity checks
(crates/sail-delta-lake/src/delta_log/segment.rs), `load_replayed_table_state` and
`latest_replayable_version` (delta_log/replay.rs) and the log clean-up (delta_log/cleanup.rs).

Simplifications common to the whole file:
* Versions are natural numbers. The code subtracts one from a version with `saturating_sub` on
  `i64`, giving -1 for version 0; listing from "-1" and from "0" return the same files.
* Paths, domains, application ids, protocols, deletion vectors and the contents of `Add` other than
  the key are numbers (the code compares them for equality only).
* A `HashMap` is a list of pairs without repeated keys. The code sorts the entries
  (`BTreeMap`) before writing; the order does not matter (`rows_spec` in `LogLemmas`).
* The rows of a V2 checkpoint in its sidecar files are part of the checkpoint (the removal of
  unreferenced sidecars is not modelled).
* Errors of the object store and undecodable files are not modelled. Each operation is atomic. `none`
  is an error.
* Catalog-managed commits are not modelled (`catalog_managed_commits = None`).
-/

namespace Verif.Delta.Log

/-! ## Actions and reconciliation -/

/-- `LogicalFileKey`, spec/actions.rs:116-124: path and unique id of the deletion vector. -/
structure Key where
  path : Nat
  dv : Option Nat
  deriving Repr, DecidableEq

/-- `Metadata` with the two table properties the log code looks at. -/
structure Meta where
  id : Nat
  /-- `delta.deletedFileRetentionDuration` in milliseconds -/
  deletedRetention : Int
  /-- `delta.logRetentionDuration` in milliseconds -/
  logRetention : Int
  deriving Repr, DecidableEq

/-- `Transaction`: version and `last_updated`. -/
structure Txn where
  version : Nat
  updated : Option Int
  deriving Repr, DecidableEq

/-- `Action`, spec/actions.rs:129-141. A domain metadata action without value is one with
`removed = true`. `other` stands for commit info, CDC files, checkpoint metadata and sidecars. -/
inductive Action
  | protocol (p : Nat)
  | metadata (m : Meta)
  | txn (app : Nat) (t : Txn)
  | domain (d : Nat) (value : Option Nat)
  | add (k : Key) (file : Nat)
  | remove (k : Key) (deletedAt : Option Int)
  | other
  deriving Repr, DecidableEq

/-- `HashMap::remove`. -/
def del {κ α : Type} [DecidableEq κ] (k : κ) (l : List (κ × α)) : List (κ × α) :=
  l.filter fun x => x.1 ≠ k

/-- `HashMap::insert`. -/
def put {κ α : Type} [DecidableEq κ] (k : κ) (v : α) (l : List (κ × α)) : List (κ × α) :=
  (k, v) :: del k l

/-- `ReconciledCheckpointState`, checkpoint/mod.rs:105-113. -/
structure State where
  protocol : Option Nat
  metadata : Option Meta
  txns : List (Nat × Txn)
  domains : List (Nat × Nat)
  adds : List (Key × Nat)
  removes : List (Key × Option Int)
  deriving Repr, DecidableEq

def State.empty : State := ⟨none, none, [], [], [], []⟩

/-- `apply_action`, checkpoint/mod.rs:136-170. -/
def State.apply (s : State) : Action → State
  | .protocol p => { s with protocol := some p }
  | .metadata m => { s with metadata := some m }
  | .txn app t => { s with txns := put app t s.txns }
  | .domain d none => { s with domains := del d s.domains }
  | .domain d (some v) => { s with domains := put d v s.domains }
  | .add k f => { s with removes := del k s.removes, adds := put k f s.adds }
  | .remove k t => { s with adds := del k s.adds, removes := put k t s.removes }
  | .other => s

def State.applyAll (s : State) (as : List Action) : State := as.foldl State.apply s

/-- `deletion_timestamp.map(|t| t > cutoff).unwrap_or(true)`, checkpoint/mod.rs:187-191, 196-202. -/
def unexpired (cutoff : Int) : Option Int → Bool
  | some t => decide (t > cutoff)
  | none => true

/-- `prune_expired_checkpoint_actions`, checkpoint/mod.rs:179-211, with
`retention_cutoff_timestamp` (86-103). The arithmetic cannot overflow. -/
def State.prune (s : State) (now : Int) : Option State :=
  match s.metadata with
  | none => none
  | some m => some { s with
      txns := s.txns.filter fun x => unexpired (now - m.logRetention) x.2.updated
      removes := s.removes.filter fun x => unexpired (now - m.deletedRetention) x.2 }

def txnRows (s : State) : List Action := s.txns.map fun x => .txn x.1 x.2
def domainRows (s : State) : List Action := s.domains.map fun x => .domain x.1 (some x.2)
def removeRows (s : State) : List Action := s.removes.map fun x => .remove x.1 x.2
def addRows (s : State) : List Action := s.adds.map fun x => .add x.1 x.2

/-- Rows of a classic checkpoint, `into_checkpoint_batch_iter`, checkpoint/mod.rs:213-291. -/
def State.rowsV1 (s : State) : Option (List Action) :=
  match s.protocol, s.metadata with
  | some p, some m =>
    some (.protocol p :: .metadata m :: (txnRows s ++ domainRows s ++ removeRows s ++ addRows s))
  | _, _ => none

/-- Rows of a V2 checkpoint as read back by `read_checkpoint_rows_from_checkpoint_file`
(checkpoint/mod.rs:999-1040): the main file written by `write_v2_checkpoint`
(checkpoint/mod.rs:693-743), whose first and last rows are `other`, then the sidecar
(checkpoint/mod.rs:652-686). -/
def State.rowsV2 (s : State) : Option (List Action) :=
  match s.protocol, s.metadata with
  | some p, some m =>
    some (.other :: .protocol p :: .metadata m :: (txnRows s ++ domainRows s ++ [.other] ++
      addRows s ++ removeRows s))
  | _, _ => none

/-! ## The log directory -/

/-- A commit file with its timestamp (as resolved by delta_log/timestamps.rs). -/
structure Commit where
  version : Nat
  ts : Int
  actions : List Action
  deriving Repr, DecidableEq

/-- A checkpoint file; `name = none` is the classic name, `some` a UUID name. -/
structure Ckpt where
  version : Nat
  name : Option Nat
  rows : List Action
  deriving Repr, DecidableEq

/-- A compacted log file for versions `start..=stop`. -/
structure Comp where
  start : Nat
  stop : Nat
  actions : List Action
  deriving Repr, DecidableEq

/-- `_last_checkpoint`; `name` is the path of a V2 checkpoint. -/
structure Hint where
  version : Nat
  name : Option Nat
  deriving Repr, DecidableEq

structure Store where
  commits : List Commit
  ckpts : List Ckpt
  comps : List Comp
  hint : Option Hint
  deriving Repr, DecidableEq

def Store.empty : Store := ⟨[], [], [], none⟩

/-- Where listing starts for a target version, segment.rs:287-290 (also checkpoint/mod.rs:543-546
and segment_files.rs:53-56). A file is listed if its name begins with at least this version. -/
def Store.offset (st : Store) (target : Nat) : Nat :=
  match st.hint with
  | some h => min h.version target - 1
  | none => 0

/-! ## Selecting files -/

/-- Order of `select_checkpoint_candidate`, segment.rs:462-466: newest version first, then by file name.
A UUID consists of hexadecimal digits and sorts before the word `parquet` of the classic name. -/
def ckptBefore (a b : Ckpt) : Bool :=
  decide (b.version < a.version) || (decide (a.version = b.version) &&
    match a.name, b.name with
    | some x, some y => decide (x ≤ y)
    | some _, none => true
    | none, none => true
    | none, some _ => false)

/-- `select_checkpoint_candidate`, segment.rs:458-485. -/
def selectCkpt (cands : List Ckpt) (hint : Option Hint) : Option Ckpt :=
  match cands.insSort ckptBefore with
  | [] => none
  | c :: cs =>
    match hint with
    | some ⟨v, some n⟩ =>
      if v = c.version then
        match (c :: cs).find? fun x => decide (x.version = v ∧ x.name = some n) with
        | some x => some x
        | none => ((c :: cs).filter fun x => x.version ≠ v).head?
      else some c
    | _ => some c

/-- Commits of a listing, sorted, segment.rs:422-427 and 445. -/
def Store.listCommits (st : Store) (off max : Nat) : List Commit :=
  (st.commits.filter fun c => off ≤ c.version ∧ c.version ≤ max).insSort
    fun a b => decide (a.version ≤ b.version)

/-- Compactions of a listing, sorted by start, segment.rs:434-439 and 448. -/
def Store.listComps (st : Store) (off max : Nat) : List Comp :=
  (st.comps.filter fun c => off ≤ c.start ∧ c.stop ≤ max).insSort
    fun a b => decide (a.start ≤ b.start)

def Store.listCkpts (st : Store) (off max : Nat) : List Ckpt :=
  st.ckpts.filter fun c => off ≤ c.version ∧ c.version ≤ max

/-- The loop of `validate_commit_contiguity`, segment.rs:495-514, and of
`replay_commit_actions_for_state`, checkpoint/mod.rs:850-886. -/
def contiguous (start stop : Nat) : List Nat → Nat → Bool
  | [], expected => expected == stop + 1
  | v :: vs, expected =>
    if v < start ∨ stop < v then contiguous start stop vs expected
    else if v ≠ expected then false
    else contiguous start stop vs (expected + 1)

/-- Greedy selection of `resolve_compactions`, segment.rs:568-584, on compactions sorted by
decreasing end. -/
def pickComps : List Comp → Option Nat → List Comp
  | [], _ => []
  | c :: cs, covered =>
    if covered.any fun b => decide (c.stop ≥ b) then pickComps cs covered
    else c :: pickComps cs (some c.start)

/-- `resolve_compactions`, segment.rs:560-597. -/
def resolveComps (commits : List Commit) (comps : List Comp) : List Commit × List Comp :=
  let picked := pickComps (comps.insSort fun a b => decide (b.stop ≤ a.stop)) none
  (commits.filter fun c => !picked.any fun p => decide (p.start ≤ c.version ∧ c.version ≤ p.stop),
    picked.insSort fun a b => decide (a.start ≤ b.start))

/-- The interval loop of `validate_commit_contiguity_with_compactions`, segment.rs:628-643. -/
def chain (stop : Nat) : List (Nat × Nat) → Nat → Bool
  | [], expected => expected == stop + 1
  | (s, e) :: rest, expected => if s ≠ expected then false else chain stop rest (e + 1)

/-- `validate_commit_contiguity_with_compactions`, segment.rs:602-644. -/
def validate (commits : List Commit) (comps : List Comp) (start stop : Nat) : Bool :=
  if start > stop then true
  else if comps = [] then contiguous start stop (commits.map (·.version)) start
  else
    let ivs := ((commits.filter fun c => start ≤ c.version ∧ c.version ≤ stop).map
        fun c => (c.version, c.version)) ++ comps.map fun c => (c.start, c.stop)
    chain stop (ivs.insSort fun a b => decide (a.1 ≤ b.1)) start

/-- The version after a checkpoint, segment.rs:294-297 and checkpoint/mod.rs:567-576. -/
def firstAfter : Option Ckpt → Nat
  | some c => c.version + 1
  | none => 0

structure Segment where
  ckpt : Option Ckpt
  commits : List Commit
  comps : List Comp
  deriving Repr, DecidableEq

/-- `resolve_for_full_state`, segment.rs:283-325. -/
def Store.resolve (st : Store) (target : Nat) : Option Segment :=
  let off := st.offset target
  let ckpt := selectCkpt (st.listCkpts off target) st.hint
  let start := firstAfter ckpt
  let commits := (st.listCommits off target).filter fun c => start ≤ c.version ∧ c.version ≤ target
  let comps := (st.listComps off target).filter fun c => start ≤ c.start ∧ c.stop ≤ target
  let r := resolveComps commits comps
  if validate r.1 r.2 start target then some ⟨ckpt, r.1, r.2⟩ else none

/-! ## Replay -/

/-- `replay_commit_actions_for_state`, checkpoint/mod.rs:838-887. -/
def replayCommits (s : State) (commits : List Commit) (start stop : Nat) : Option State :=
  if start > stop then some s
  else if contiguous start stop (commits.map (·.version)) start then
    some (s.applyAll ((commits.filter fun c => start ≤ c.version ∧ c.version ≤ stop).flatMap (·.actions)))
  else none

/-- The action lists in the order of `build_replay_sequence`, checkpoint/mod.rs:1261-1302. `fuel`
bounds the number of iterations; each one increases `version`, so `stop + 1 - start` suffice. The
map of compactions has one entry per start version. -/
def replaySeq (comps : List Comp) (stop : Nat) : Nat → List Commit → Nat → List (List Action)
  | 0, _, _ => []
  | fuel + 1, commits, version =>
    if stop < version then []
    else match comps.find? fun c => decide (c.start = version) with
      | some c =>
        c.actions :: replaySeq comps stop fuel
          (commits.dropWhile fun x => decide (x.version < c.stop + 1)) (c.stop + 1)
      | none =>
        match commits with
        | [] => []
        | c :: cs =>
          if c.version = version then c.actions :: replaySeq comps stop fuel cs (version + 1)
          else replaySeq comps stop fuel (c :: cs) (version + 1)

/-- What the caller gets, `ReplayedTableState`, checkpoint/mod.rs:438-447 (without timestamps). -/
structure Table where
  protocol : Nat
  metadata : Meta
  txns : List (Nat × Txn)
  domains : List (Nat × Nat)
  adds : List (Key × Nat)
  removes : List (Key × Option Int)
  deriving Repr, DecidableEq

def State.table (s : State) : Option Table :=
  match s.protocol, s.metadata with
  | some p, some m => some ⟨p, m, s.txns, s.domains, s.adds, s.removes⟩
  | _, _ => none

/-- The first commit version to replay as computed by `load_replayed_table_state`, replay.rs:106-119. -/
def Segment.first (g : Segment) (target : Nat) : Nat :=
  match g.ckpt with
  | none => 0
  | some _ =>
    match g.commits, g.comps with
    | c :: _, _ => c.version
    | [], c :: _ => c.start
    | [], [] => target + 1

def Segment.base (g : Segment) : State :=
  match g.ckpt with
  | none => .empty
  | some c => State.empty.applyAll c.rows

/-- `load_replayed_table_state`, replay.rs:104-130, after resolution. -/
def Segment.replay (g : Segment) (target : Nat) : Option State :=
  if g.comps = [] then replayCommits g.base g.commits (g.first target) target
  else some (g.base.applyAll
    (replaySeq g.comps target (target + 1 - g.first target) g.commits (g.first target)).flatten)

/-- `load_replayed_table_state`, replay.rs:77-165. -/
def Store.load (st : Store) (target : Nat) : Option Table :=
  match st.resolve target with
  | none => none
  | some g =>
    match g.replay target with
    | none => none
    | some s => s.table

/-- `latest_replayable_version`, replay.rs:250-270. -/
def Store.latest (st : Store) : Option Nat :=
  let off := match st.hint with
    | some h => h.version - 1
    | none => 0
  (((st.commits.filter fun c => off ≤ c.version).map (·.version)) ++
    ((st.ckpts.filter fun c => off ≤ c.version).map (·.version)) ++
    ((st.comps.filter fun c => off ≤ c.start).map (·.stop))).max?

/-! ## Writing -/

/-- Writes a checkpoint file; a file with the same name is replaced. -/
def Store.putCkpt (st : Store) (c : Ckpt) : Store :=
  { st with ckpts := st.ckpts.filter (fun x => x.version ≠ c.version ∨ x.name ≠ c.name) ++ [c] }

/-- The state a checkpoint is made of, `create_checkpoint`, checkpoint/mod.rs:535-584. -/
def Store.checkpointState (st : Store) (version : Nat) (now : Int) : Option State :=
  let off := st.offset version
  let commits := st.listCommits off version
  let base := ((st.listCkpts off version).insSort fun a b => decide (a.version ≤ b.version)).getLast?
  let start := firstAfter base
  let s0 := match base with
    | some c => State.empty.applyAll c.rows
    | none => .empty
  match replayCommits s0 commits start version with
  | none => none
  | some s => s.prune now

/-- `create_checkpoint`, checkpoint/mod.rs:535-785. `v2` is the UUID of a V2 checkpoint, if the
policy asks for one. `hinted` is false if the writer stops before it writes `_last_checkpoint`. -/
def Store.createCkpt (st : Store) (version : Nat) (now : Int) (v2 : Option Nat) (hinted : Bool) : Option Store :=
  match st.checkpointState version now with
  | none => none
  | some s =>
    match (if v2.isSome then s.rowsV2 else s.rowsV1) with
    | none => none
    | some rows =>
      let st' := st.putCkpt ⟨version, v2, rows⟩
      some (if hinted then { st' with hint := some ⟨version, v2⟩ } else st')

/-- `create_log_compaction_for`, checkpoint/mod.rs:1320-1449. `minTs` is
`min_file_retention_timestamp_millis`. A file whose range is a single version is written but never
recognised (`parse_compacted_json_versions`, spec/log.rs:185-203), so it is left out here. -/
def Store.compact (st : Store) (start stop : Nat) (minTs : Int) : Option Store :=
  let files := (List.range' start (stop + 1 - start)).map fun v => st.commits.find? fun c => decide (c.version = v)
  if files.all Option.isSome then
    let s := State.empty.applyAll ((files.filterMap id).flatMap (·.actions))
    let rows := (s.protocol.toList.map Action.protocol) ++ (s.metadata.toList.map Action.metadata) ++
      txnRows s ++ domainRows s ++
      ((s.removes.filter fun x => match x.2 with
        | some t => decide (t ≥ minTs)
        | none => true).map fun x => Action.remove x.1 x.2) ++ addRows s
    if stop ≤ start ∨ st.comps.any fun c => decide (c.start = start ∧ c.stop = stop) then some st
    else some { st with comps := st.comps ++ [⟨start, stop, rows⟩] }
  else none

/-! ## Clean-up -/

/-- `RetentionCleanupBoundary` over all files, cleanup.rs:88-118 and 212-254: the newest checkpoint not
after the newest commit that is at most `latest` and not younger than the cut-off. -/
def Store.boundary (st : Store) (latest : Nat) (cutoff : Int) : Option Nat :=
  match ((st.commits.filter fun c => c.version ≤ latest ∧ c.ts ≤ cutoff).map (·.version)).max? with
  | none => none
  | some v => ((st.ckpts.filter fun c => c.version ≤ latest ∧ c.version ≤ v).map (·.version)).max?

/-- Writes the classic copy of a V2 checkpoint, `write_classic_checkpoint_from_v2_checkpoint`,
checkpoint/mod.rs:806-818. -/
def Store.copyClassic (st : Store) (c : Ckpt) : Option Store :=
  match (State.empty.applyAll c.rows).rowsV1 with
  | none => none
  | some rows => some (st.putCkpt ⟨c.version, none, rows⟩)

/-- `ensure_v2_compat_classic_checkpoint`, cleanup.rs:157-210. The listing is in the order of the file
names. -/
def Store.ensureClassic (st : Store) (version : Nat) : Option Store :=
  if st.ckpts.any fun c => decide (c.version = version ∧ c.name = none) then some st
  else match st.hint with
    | some ⟨v, some n⟩ =>
      if v = version then
        match st.ckpts.find? fun c => decide (c.version = v ∧ c.name = some n) with
        | none => none
        | some c => st.copyClassic c
      else match (st.ckpts.insSort ckptBefore).find? fun c => decide (c.version = version) with
        | none => some st
        | some c => st.copyClassic c
    | _ => match (st.ckpts.insSort ckptBefore).find? fun c => decide (c.version = version) with
      | none => some st
      | some c => st.copyClassic c

/-- `delete_logs_before_checkpoint_version`, cleanup.rs:256-283 with `expires_before` (79-84). -/
def Store.deleteBefore (st : Store) (v : Nat) : Store :=
  { st with
    commits := st.commits.filter fun c => !decide (c.version < v)
    ckpts := st.ckpts.filter fun c => !decide (c.version < v)
    comps := st.comps.filter fun c => !decide (c.stop < v) }

/-- `cleanup_expired_delta_log_files`, cleanup.rs:120-155. -/
def Store.cleanup (st : Store) (latest : Nat) (cutoff : Int) : Option Store :=
  match st.boundary latest cutoff with
  | none => some st
  | some v =>
    match st.ensureClassic v with
    | none => none
    | some st' => some (st'.deleteBefore v)

/-! ## Histories -/

/-- The log together with the commits that were ever made, oldest first. -/
structure Sys where
  store : Store
  history : List (Int × List Action)

def Sys.init : Sys := ⟨.empty, []⟩

/-- What happens to a table. A commit gets the next version (C42). The other operations may
happen at any time, for any version, by any writer; an operation that fails changes nothing. -/
inductive Ev
  | commit (ts : Int) (actions : List Action)
  | checkpoint (version : Nat) (now : Int) (v2 : Option Nat) (hinted : Bool)
  | compact (start stop : Nat) (minTs : Int)
  | cleanup (latest : Nat) (cutoff : Int)

def Sys.step (y : Sys) : Ev → Sys
  | .commit ts as =>
    { store := { y.store with commits := y.store.commits ++ [⟨y.history.length, ts, as⟩] }
      history := y.history ++ [(ts, as)] }
  | .checkpoint v now v2 hinted =>
    { y with store := (y.store.createCkpt v now v2 hinted).getD y.store }
  | .compact a b t => { y with store := (y.store.compact a b t).getD y.store }
  | .cleanup l c => { y with store := (y.store.cleanup l c).getD y.store }

def Sys.run (es : List Ev) (y : Sys) : Sys := es.foldl Sys.step y

end Verif.Delta.Log
