import Verif.Delta.Log

/-! # Delta commit protocol

crates/sail-delta-lake/src/transaction/mod.rs:552-680, 705-800, 1296-1516 (commit loop),
transaction/conflict_checker.rs, delta_log/store.rs:150-230 (put-if-absent, latest version),
delta_log/timestamps.rs.

Any number of writers run the commit loop against one object store. A writer is a small state machine: it
*looks* (lists the log, checks conflicts with newer commits, computes what to write) and then *puts* its file;
anything can happen between the two. Entries of the log are immutable, so reading them during a look is taken
to happen at once. Simplifications: identifiers, schemas and configuration are numbers, except the parts that
the code examines; clean-up of the log and catalog-managed commits are left out. -/

namespace Verif.Delta.Commit

open Verif.Delta.Log (Key)

/-- A protocol, spec/protocol.rs: the part used here. `ict` says that it has the writer feature
`inCommitTimestamp`; `rest` stands for the other features. -/
structure Proto where
  minReader : Int
  minWriter : Int
  ict : Bool
  rest : Nat
  deriving Repr, DecidableEq

inductive Iso
  | serializable
  | writeSerializable
  | snapshot
  deriving Repr, DecidableEq

/-- The configuration of a table, spec/properties.rs: enableInCommitTimestamps,
inCommitTimestampEnablementVersion (the timestamp beside it is not read by the code modelled here), isolation
level, all other settings. -/
structure Config where
  ict : Bool
  ictFrom : Option Nat
  iso : Iso
  rest : Nat
  deriving Repr, DecidableEq

/-- Table metadata; `id` stands for id, name, creation time. -/
structure Meta where
  schema : Nat
  partitioning : Nat
  config : Config
  id : Nat
  deriving Repr, DecidableEq

/-- `CommitAction` other than `CommitInfo`. -/
inductive Act
  | protocol (p : Proto)
  | metadata (m : Meta)
  | add (key : Key) (dataChange : Bool)
  | remove (key : Key) (dataChange : Bool)
  | txn (app : Nat)
  | domain (d : Nat)
  | cdc
  deriving Repr, DecidableEq

/-- A commit file. `info` is what its `CommitInfo` says about blind append and timestamp; `mtime` is the
modification time in the store; `owner` is the writer (for the statement of properties). -/
structure Commit where
  blind : Bool
  ict : Option Int
  acts : List Act
  mtime : Int
  owner : Nat
  deriving Repr, DecidableEq

/-- `DeltaOperation`, spec/operation.rs: the part that the commit protocol examines. `plainWrite` is
`Write` without predicate; `wholeTable` is `read_whole_table`; `changesData` is `changes_data`. -/
structure Op where
  plainWrite : Bool
  wholeTable : Bool
  changesData : Bool
  deriving Repr, DecidableEq

/-- `CommitData::is_blind_append`, mod.rs:660-672. -/
def isBlindAppend (acts : List Act) (op : Op) : Bool :=
  op.plainWrite && acts.all fun a => match a with
    | .add _ _ => true
    | .txn _ => true
    | _ => false

/-! ## Snapshots -/

/-- `DeltaSnapshot`. `adds` is empty if the snapshot was loaded without files (`require_files`). -/
structure Snap where
  version : Nat
  protocol : Proto
  metadata : Meta
  adds : List Key
  deriving Repr, DecidableEq

/-- State of a replay; see `Log.State` for the complete one. -/
structure Replay where
  protocol : Option Proto
  metadata : Option Meta
  adds : List Key
  deriving Repr, DecidableEq

def Replay.empty : Replay := ⟨none, none, []⟩

def Replay.apply (r : Replay) : Act → Replay
  | .protocol p => { r with protocol := some p }
  | .metadata m => { r with metadata := some m }
  | .add k _ => { r with adds := k :: r.adds.filter (· ≠ k) }
  | .remove k _ => { r with adds := r.adds.filter (· ≠ k) }
  | _ => r

def Replay.applyAll (r : Replay) (as : List Act) : Replay := as.foldl Replay.apply r

/-! ## The store -/

/-- The commit files of the log: names (versions) and contents. -/
abbrev Files := List (Nat × Commit)

def Files.get (fs : Files) (v : Nat) : Option Commit := (fs.find? fun x => decide (x.1 = v)).map (·.2)

/-- `put_opts` with `PutMode::Create`, store.rs:194-215: fails if the file exists. -/
def Files.put (fs : Files) (v : Nat) (c : Commit) : Option Files :=
  match fs.get v with
  | some _ => none
  | none => some (fs ++ [(v, c)])

/-- `latest_version_from_listing`, listing.rs:122-140, without hint. -/
def Files.latest (fs : Files) : Option Nat :=
  fs.foldl (fun m x => some (match m with | some cur => max cur x.1 | none => x.1)) none

/-- `get_latest_version`, store.rs:233-240; `MissingVersion` is `none`. -/
def Files.latestFrom (fs : Files) (start : Nat) : Option Nat :=
  match fs.latest with
  | some v => if start ≤ v then some v else none
  | none => none

/-- Actions of versions `0..=v` in order, `none` if a version is missing. -/
def Files.actsTo (fs : Files) : Nat → Option (List Act)
  | 0 => (fs.get 0).map (·.acts)
  | v + 1 =>
    match Files.actsTo fs v, fs.get (v + 1) with
    | some as, some c => some (as ++ c.acts)
    | _, _ => none

/-- `DeltaSnapshot::try_new`; that loading gives the replay of the commits is C37. -/
def Files.snap (fs : Files) (files : Bool) (v : Nat) : Option Snap :=
  match Files.actsTo fs v with
  | none => none
  | some as =>
    match Replay.empty.applyAll as with
    | ⟨some p, some m, adds⟩ => some ⟨v, p, m, if files then adds else []⟩
    | _ => none

/-! ## Conflicts -/

def protocolsOf (as : List Act) : List Proto := as.filterMap fun a => match a with | .protocol p => some p | _ => none
def metadatasOf (as : List Act) : List Meta := as.filterMap fun a => match a with | .metadata m => some m | _ => none
def addsOf (as : List Act) : List Key := as.filterMap fun a => match a with | .add k _ => some k | _ => none
def removesOf (as : List Act) : List Key := as.filterMap fun a => match a with | .remove k _ => some k | _ => none
def txnsOf (as : List Act) : List Nat := as.filterMap fun a => match a with | .txn x => some x | _ => none
def domainsOf (as : List Act) : List Nat := as.filterMap fun a => match a with | .domain d => some d | _ => none

/-- `can_downgrade_to_snapshot_isolation`, conflict_checker.rs:560-593. The winning actions include the
commit info, which is an action of the last kind, so this is always false; `info` is whether it is present. -/
def canDowngrade (info : Bool) (win : List Act) (op : Op) (iso : Iso) : Bool :=
  let changed := win.any fun a => match a with
    | .add _ d => d
    | .remove _ d => d
    | _ => false
  let other := info || win.any fun a => match a with
    | .add _ d => !d
    | .remove _ d => !d
    | _ => true
  if other then false
  else match iso with
    | .serializable => !changed
    | .writeSerializable => !changed && !op.changesData
    | .snapshot => false

/-- `ConflictChecker::new`, conflict_checker.rs:275-302. -/
def isolation (snap : Snap) (win : Commit) (op : Op) : Iso :=
  if canDowngrade true win.acts op snap.metadata.config.iso then .snapshot else snap.metadata.config.iso

/-- `check_protocol_compatibility`, conflict_checker.rs:322-357. -/
def protocolOk (snap : Snap) (acts : List Act) (win : Commit) : Bool :=
  let wins := protocolsOf win.acts
  if wins.any fun p => decide (snap.protocol.minReader < p.minReader ∨ p.minWriter < snap.protocol.minWriter) then false
  else if wins = [] then true
  else match (protocolsOf acts).head? with
    | some p => !(wins.any fun q => decide (q ≠ p))
    | none => false

/-- `check_no_metadata_updates`, conflict_checker.rs:360-373. -/
def metadataOk (acts : List Act) (win : Commit) : Bool :=
  let wins := metadatasOf win.acts
  if wins = [] then true
  else match (metadatasOf acts).head? with
    | some m => !(wins.any fun q => decide (q ≠ m))
    | none => false

/-- `check_no_domain_metadata_conflicts`, conflict_checker.rs:375-390. -/
def domainsOk (acts : List Act) (win : Commit) : Bool :=
  !((domainsOf acts).any fun d => decide (d ∈ domainsOf win.acts))

/-- `check_for_added_files_that_should_have_been_read_by_current_txn`, conflict_checker.rs:394-456. -/
def addedOk (iso : Iso) (acts : List Act) (op : Op) (win : Commit) : Bool :=
  let files := match iso with
    | .snapshot => []
    | .writeSerializable =>
      if metadatasOf acts = [] then (if win.blind then [] else addsOf win.acts) else addsOf win.acts
    | .serializable => addsOf win.acts
  !(op.wholeTable && decide (files ≠ []))

/-- `check_for_deleted_files_against_current_txn_read_files`, conflict_checker.rs:460-487. -/
def deletedReadOk (snap : Snap) (op : Op) (win : Commit) : Bool :=
  !((removesOf win.acts).any fun k => decide (k ∈ snap.adds)) &&
    !(decide (removesOf win.acts ≠ []) && op.wholeTable)

/-- `check_for_deleted_files_against_current_txn_deleted_files`, conflict_checker.rs:491-526. -/
def deletedTwiceOk (acts : List Act) (win : Commit) : Bool :=
  !((removesOf acts).any fun k => decide (k ∈ removesOf win.acts))

/-- `check_for_updated_application_transaction_ids_that_current_txn_depends_on`,
conflict_checker.rs:530-548. -/
def txnsOk (acts : List Act) (win : Commit) : Bool :=
  !((txnsOf acts).any fun a => decide (a ∈ txnsOf win.acts))

/-- `check_conflicts`, conflict_checker.rs:307-317. -/
def noConflict (snap : Snap) (acts : List Act) (op : Op) (win : Commit) : Bool :=
  protocolOk snap acts win && metadataOk acts win && domainsOk acts win &&
    addedOk (isolation snap win op) acts op win && deletedReadOk snap op win && deletedTwiceOk acts win &&
    txnsOk acts win

/-- The loop over newer versions, mod.rs:1428-1453: `n` versions from `v` on; `none` if a version cannot be
read, `some false` on a conflict. -/
def checkRange (fs : Files) (snap : Snap) (acts : List Act) (op : Op) : Nat → Nat → Bool
  | 0, _ => true
  | n + 1, v =>
    match fs.get v with
    | none => false
    | some win => noConflict snap acts op win && checkRange fs snap acts op n (v + 1)

/-! ## Timestamps -/

/-- `is_in_commit_timestamps_enabled`. -/
def ictEnabled (p : Proto) (m : Meta) : Bool := p.ict && m.config.ict

/-- `version_uses_in_commit_timestamps`, timestamps.rs:40-54. -/
def usesIct (v : Nat) (p : Proto) (m : Meta) : Bool :=
  if !ictEnabled p m then false
  else match m.config.ictFrom with
    | some e => decide (e ≤ v)
    | none => true

/-- `previous_effective_commit_timestamp`, mod.rs:705-721, with `resolve_version_timestamp`,
timestamps.rs:108-138, and the timestamps cached by the snapshot (checkpoint/mod.rs:864-873, 1190-1209).
`viaCompaction` is the modification time of the compacted log file, if the version of the snapshot was read
from one; otherwise the cached time, or the time read from checksum, commit or file, is that of the commit. -/
def previousTimestamp (fs : Files) (snap : Snap) (viaCompaction : Option Int) : Option Int :=
  match viaCompaction with
  | some t => some t
  | none =>
    match fs.get snap.version with
    | none => none
    | some c => if usesIct snap.version snap.protocol snap.metadata then c.ict else some c.mtime

def maxI64 : Int := 9223372036854775807

/-- `i64::saturating_add(1)`. -/
def satSucc (t : Int) : Int := if t < maxI64 then t + 1 else maxI64

/-- `resolve_effective_protocol_and_metadata`, timestamps.rs:16-38. -/
def effective (snap : Option Snap) (acts : List Act) : Option (Proto × Meta) :=
  match (protocolsOf acts).getLast?.or (snap.map (·.protocol)), (metadatasOf acts).getLast?.or (snap.map (·.metadata)) with
  | some p, some m => some (p, m)
  | _, _ => none

/-- Replaces the first metadata action, mod.rs:771-797. -/
def setIctFrom (v : Nat) : List Act → List Act
  | [] => []
  | .metadata m :: as => .metadata { m with config := { m.config with ictFrom := some v } } :: as
  | a :: as => a :: setIctFrom v as

/-- `finalize_attempt_actions`, mod.rs:730-800: the timestamp and the actions to be written. -/
def finalize (acts : List Act) (snap : Option Snap) (version : Nat) (prev : Option Int) (now : Int) :
    Option Int × List Act :=
  let old := match snap with
    | some s => ictEnabled s.protocol s.metadata
    | none => false
  let new := match effective snap acts with
    | some (p, m) => ictEnabled p m
    | none => false
  let ict := if new then some (max now ((prev.map satSucc).getD now)) else none
  (ict, if snap.isSome && !old && new then setIctFrom version acts else acts)

/-! ## Writers -/

/-- Where a writer is in the commit loop. `left` counts the remaining attempts. -/
inductive Phase
  | ready (left : Nat)
  | aiming (left : Nat) (version : Nat) (ict : Option Int) (acts : List Act)
  | done (version : Nat)
  | failed
  deriving Repr, DecidableEq

/-- A commit in progress: `PreparedCommit` and the local variables of its loop. `table` is `table_data`, `orig`
is `data.actions` without the commit info, `snap` is `read_snapshot`, `acts` are the `local_actions`, and `blind` is
the flag in their commit info. -/
structure Writer where
  op : Op
  maxRetries : Nat
  table : Option Snap
  orig : List Act
  /-- whether snapshots are loaded with files -/
  files : Bool
  snap : Option Snap
  acts : List Act
  blind : Bool
  phase : Phase
  deriving Repr, DecidableEq

/-- `creation_intent`, mod.rs:1305. -/
def Writer.creator (w : Writer) : Bool := w.table.isNone

/-- `effective_max_retries`, mod.rs:1314-1327; `max_retries` is 15 by default. -/
def Writer.retries (w : Writer) : Nat := if w.creator || isBlindAppend w.orig w.op then w.maxRetries else 0

/-- mod.rs:1304-1331: a new writer. -/
def Writer.new (op : Op) (maxRetries : Nat) (table : Option Snap) (files : Bool) (acts : List Act) : Writer :=
  let w : Writer := ⟨op, maxRetries, table, acts, files, table, acts, isBlindAppend acts op, .failed⟩
  { w with phase := .ready (w.retries + 1) }

def isInit : Act → Bool
  | .protocol _ => true
  | .metadata _ => true
  | _ => false

/-- mod.rs:1306-1313, 1358-1392: does the table that exists now match the one to be created? -/
def Writer.compatible (w : Writer) (s : Snap) : Bool :=
  (match (protocolsOf w.orig).head? with
    | some p => decide (p = s.protocol)
    | none => true) &&
  match (metadatasOf w.orig).head? with
  | some m => decide (m.schema = s.metadata.schema) && decide (m.partitioning = s.metadata.partitioning) &&
      decide (m.config = s.metadata.config)
  | none => true

/-- mod.rs:1394-1414: drop the actions that create the table. Doing it again changes nothing. -/
def Writer.strip (w : Writer) : Writer :=
  if w.acts.any isInit then { w with acts := w.acts.filter fun a => !isInit a, blind := true } else w

/-- mod.rs:1342-1354: a writer without snapshot loads one. -/
def Writer.adopt (w : Writer) (fs : Files) (latest : Nat) : Option Writer :=
  match w.snap with
  | some _ => some w
  | none =>
    match fs.snap true latest with
    | none => none
    | some s => some { w with snap := some s, files := true }

/-- mod.rs:1356-1415: a creator turns into an appender. -/
def Writer.convert (w : Writer) : Option Writer :=
  match w.snap with
  | none => some w
  | some s => if w.creator then (if w.compatible s then some w.strip else none) else some w

/-- mod.rs:1417-1460: conflicts with versions newer than the snapshot; the snapshot is brought up to date. -/
def Writer.catchUp (w : Writer) (fs : Files) (latest : Nat) : Option Writer :=
  match w.snap with
  | none => some w
  | some s =>
    if s.version < latest then
      if w.retries = 0 then none
      else if checkRange fs s w.acts w.op (latest - s.version) (s.version + 1) then
        match fs.snap w.files latest with
        | some s' => some { w with snap := some s' }
        | none => none
      else none
    else some w

/-- mod.rs:1462-1480: what to write. `valid` is `validate_effective_commit_target` apart from the check
that protocol and metadata exist. -/
def Writer.aim (valid : Proto → Meta → List Act → Bool) (w : Writer) (fs : Files) (left version : Nat) (now : Int)
    (via : Option Int) : Option Writer :=
  let prev := match w.snap with
    | some s => (previousTimestamp fs s via).map some
    | none => some none
  match prev with
  | none => none
  | some prev =>
    let r := finalize w.acts w.snap version prev now
    match effective w.snap r.2 with
    | some (p, m) => if valid p m r.2 then some { w with phase := .aiming left version r.1 r.2 } else none
    | none => none

/-- One attempt up to the write, mod.rs:1338-1480; `none` is an error. -/
def Writer.attempt (valid : Proto → Meta → List Act → Bool) (w : Writer) (fs : Files) (left : Nat) (now : Int)
    (via : Option Int) : Option Writer :=
  match fs.latestFrom ((w.snap.map (·.version)).getD 0) with
  | none => w.aim valid fs left 0 now via
  | some latest =>
    ((w.adopt fs latest).bind Writer.convert).bind fun w1 =>
      (w1.catchUp fs latest).bind fun w2 => w2.aim valid fs left (latest + 1) now via

/-! ## The system -/

structure Sys where
  files : Files
  writers : List Writer
  deriving Repr, DecidableEq

def Sys.init : Sys := ⟨[], []⟩

inductive Ev
  /-- A commit begins that read version `base` of the table, or found no table. -/
  | start (op : Op) (maxRetries : Nat) (base : Option Nat) (files : Bool) (acts : List Act)
  /-- Writer `i` makes an attempt up to the write. -/
  | look (i : Nat) (now : Int) (via : Option Int)
  /-- Writer `i` writes its file, at the time `mtime` of the store. -/
  | put (i : Nat) (mtime : Int)
  deriving Repr, DecidableEq

def Sys.setWriter (y : Sys) (i : Nat) (w : Writer) : Sys := { y with writers := y.writers.set i w }

/-- mod.rs:1482-1513: the write; `VersionAlreadyExists` leads to the next attempt. -/
def Sys.put (y : Sys) (i : Nat) (w : Writer) (left version : Nat) (ict : Option Int) (acts : List Act) (mtime : Int) : Sys :=
  match y.files.put version ⟨w.blind, ict, acts, mtime, i⟩ with
  | some fs => { files := fs, writers := y.writers.set i { w with phase := .done version } }
  | none => y.setWriter i { w with phase := if left - 1 = 0 then .failed else .ready (left - 1) }

def Sys.start (y : Sys) (op : Op) (maxRetries : Nat) (base : Option Nat) (files : Bool) (acts : List Act) : Sys :=
  match base with
  | none => { y with writers := y.writers ++ [Writer.new op maxRetries none files acts] }
  | some b =>
    match y.files.snap files b with
    | some s => { y with writers := y.writers ++ [Writer.new op maxRetries (some s) files acts] }
    | none => y

def Sys.step (valid : Proto → Meta → List Act → Bool) (y : Sys) : Ev → Sys
  | .start op r base files acts => y.start op r base files acts
  | .look i now via =>
    match y.writers[i]? with
    | some w =>
      match w.phase with
      | .ready left => y.setWriter i ((w.attempt valid y.files left now via).getD { w with phase := .failed })
      | _ => y
    | none => y
  | .put i mtime =>
    match y.writers[i]? with
    | some w =>
      match w.phase with
      | .aiming left version ict acts => y.put i w left version ict acts mtime
      | _ => y
    | none => y

def Sys.run (valid : Proto → Meta → List Act → Bool) (es : List Ev) : Sys := es.foldl (Sys.step valid) Sys.init

end Verif.Delta.Commit
