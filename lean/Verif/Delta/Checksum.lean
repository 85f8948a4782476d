import Verif.Delta.Log
/-!
# Delta version checksums and the table header read through them

Models `PostCommit::build_incremental_checksum`, `build_full_checksum_fallback` and
`write_version_checksum_incremental` (crates/sail-delta-lake/src/transaction/mod.rs),
`DeltaSnapshot::build_version_checksum` and the header path of `DeltaSnapshot::try_new`
(snapshot/mod.rs), `LogSegmentResolver::resolve_for_header` and `validate_and_build_header`
(delta_log/segment.rs), `load_replayed_table_header` (delta_log/replay.rs) and
`ReconciledHeaderState` (checkpoint/mod.rs), on top of the log of `Verif.Delta.Log`.

Simplifications common to the whole file:
* Those of `Verif.Delta.Log`.
* The lists of a checksum are sorted in the code; here their order means nothing.
* Transaction ids, in-commit timestamps, histograms and the list of all files are left out.
* A checksum that cannot be read or decoded is absent.
-/

namespace Verif.Delta.Log

/-! ## Checksums -/

/-- The sizes that actions carry: `Add::size` by file, and `Remove::size`, which is optional, by
version and file. -/
structure Sizes where
  file : Nat → Int
  removed : Nat → Key → Option Int

/-- `VersionChecksum`, spec/checksum.rs:24-46. -/
structure Crc where
  bytes : Int
  files : Int
  numMetadata : Int
  numProtocol : Int
  txns : Option (List (Nat × Txn))
  domains : Option (List (Nat × Nat))
  metadata : Meta
  protocol : Nat
  deriving Repr, DecidableEq

/-- `i64::checked_add` (and `checked_sub`, with the negated argument). -/
def add64 (a b : Int) : Option Int :=
  if -(2 ^ 63) ≤ a + b ∧ a + b < 2 ^ 63 then some (a + b) else none

/-- Result of the loop of transaction/mod.rs:1716-1745. -/
inductive Change
  | total (files bytes : Int)
  | noSize
  | overflow
  deriving Repr, DecidableEq

/-- The loop that counts added and removed files, transaction/mod.rs:1716-1745. -/
def delta (sz : Sizes) (v : Nat) : List Action → Int → Int → Change
  | [], n, b => .total n b
  | .add _ f :: as, n, b =>
    match add64 n 1, add64 b (sz.file f) with
    | some n', some b' => delta sz v as n' b'
    | _, _ => .overflow
  | .remove k _ :: as, n, b =>
    match add64 n (-1) with
    | none => .overflow
    | some n' =>
      match sz.removed v k with
      | none => .noSize
      | some s =>
        match add64 b (-s) with
        | none => .overflow
        | some b' => delta sz v as n' b'
  | _ :: as, n, b => delta sz v as n b

/-- `(!list.is_empty()).then_some(list)`. -/
def nonEmpty {α : Type} : List α → Option (List α)
  | [] => none
  | l => some l

/-- Collecting pairs into a `HashMap`: later entries win. -/
def collect {α : Type} (l : List (Nat × α)) : List (Nat × α) :=
  l.foldl (fun m x => put x.1 x.2 m) []

/-- `commit_txns`, transaction/mod.rs:1748-1754. -/
def commitTxns : List Action → List (Nat × Txn)
  | [] => []
  | .txn a t :: as => (a, t) :: commitTxns as
  | _ :: as => commitTxns as

/-- `commit_domains`, transaction/mod.rs:1755-1761; `none` is a removal. -/
def commitDomains : List Action → List (Nat × Option Nat)
  | [] => []
  | .domain d v :: as => (d, v) :: commitDomains as
  | _ :: as => commitDomains as

/-- `commit_domains.into_iter().filter(|d| !d.removed)`, transaction/mod.rs:1768-1769. -/
def liveDomains (l : List (Nat × Option Nat)) : List (Nat × Nat) :=
  l.filterMap fun x => x.2.map fun v => (x.1, v)

/-- Transactions of the previous checksum and of the commit, transaction/mod.rs:1831-1842. -/
def mergeTxns (prev : List (Nat × Txn)) (new : List (Nat × Txn)) : List (Nat × Txn) :=
  new.foldl (fun m x => put x.1 x.2 m) (collect prev)

/-- Domains of the previous checksum and of the commit, transaction/mod.rs:1844-1859. -/
def mergeDomains (prev : List (Nat × Nat)) (new : List (Nat × Option Nat)) : List (Nat × Nat) :=
  new.foldl (fun m x => match x.2 with
    | none => del x.1 m
    | some v => put x.1 v m) (collect prev)

/-- The last protocol of a commit, transaction/mod.rs:1645-1651. -/
def lastProtocol (as : List Action) : Option Nat :=
  as.reverse.findSome? fun a => match a with
    | .protocol p => some p
    | _ => none

/-- The last metadata of a commit, transaction/mod.rs:1653-1659. -/
def lastMetadata (as : List Action) : Option Meta :=
  as.reverse.findSome? fun a => match a with
    | .metadata m => some m
    | _ => none

/-- `has_dv`, transaction/mod.rs:1702-1714. -/
def hasDv (as : List Action) : Bool :=
  as.any fun a => match a with
    | .add k _ => k.dv.isSome
    | .remove k _ => k.dv.isSome
    | _ => false

/-- The loop of snapshot/mod.rs:558-565. -/
def countFiles (sz : Sizes) : List (Key × Nat) → Int → Int → Option (Int × Int)
  | [], n, b => some (n, b)
  | x :: xs, n, b =>
    match add64 n 1, add64 b (sz.file x.2) with
    | some n', some b' => countFiles sz xs n' b'
    | _, _ => none

/-- `build_version_checksum`, snapshot/mod.rs:535-592. `sup` tells which protocols have only
features that the engine supports. -/
def fullCrc (sup : Nat → Bool) (sz : Sizes) (t : Table) : Option Crc :=
  if !sup t.protocol then none
  else if t.adds.any (fun x => x.1.dv.isSome) || t.removes.any (fun x => x.1.dv.isSome) then none
  else match countFiles sz t.adds 0 0 with
    | none => none
    | some (n, b) => some ⟨b, n, 1, 1, nonEmpty t.txns, nonEmpty t.domains, t.metadata, t.protocol⟩

/-- `build_full_checksum_fallback`, transaction/mod.rs:1882-1963. A snapshot with files that is
brought forward is loaded anew (snapshot/mod.rs:340-346), so both branches load the version. -/
def fallback (sup : Nat → Bool) (sz : Sizes) (st : Store) (v : Nat) : Option Crc :=
  (st.load v).bind (fullCrc sup sz)

/-- `build_incremental_checksum`, transaction/mod.rs:1639-1875, for version `v` with actions `as`.
`base` is the protocol and metadata of the snapshot the commit was based on, `prev` the checksum of
the version before. -/
def buildCrc (sup : Nat → Bool) (sz : Sizes) (st : Store) (v : Nat) (as : List Action)
    (base : Option (Nat × Meta)) (prev : Option Crc) : Option Crc :=
  match (lastProtocol as).or (base.map (·.1)), (lastMetadata as).or (base.map (·.2)) with
  | some p, some m =>
    if !sup p then none
    else if hasDv as then none
    else match delta sz v as 0 0 with
      | .overflow => none
      | .noSize => fallback sup sz st v
      | .total n b =>
        if v = 0 then
          some ⟨b, n, 1, 1, nonEmpty (commitTxns as), nonEmpty (liveDomains (commitDomains as)), m, p⟩
        else match prev with
          | none => fallback sup sz st v
          | some c =>
            match add64 c.files n, add64 c.bytes b with
            | some n', some b' =>
              some ⟨b', n', 1, 1, nonEmpty (mergeTxns (c.txns.getD []) (commitTxns as)),
                nonEmpty (mergeDomains (c.domains.getD []) (commitDomains as)), m, p⟩
            | _, _ => none
  | _, _ => none

/-! ## Tables with checksums -/

/-- The log and its checksum files by version. -/
structure CSys where
  log : Sys
  crcs : List (Nat × Crc)

def CSys.init : CSys := ⟨.init, []⟩

def lookupCrc (crcs : List (Nat × Crc)) (v : Nat) : Option Crc :=
  (crcs.find? fun x => decide (x.1 = v)).map (·.2)

/-- Something happens to the log; the writer of version `v` makes its checksum; a checksum file is
removed (the clean-up does so, cleanup.rs:256-283). -/
inductive CEv
  | log (e : Ev)
  | checksum (v : Nat) (hasBase prevReadable : Bool)
  | drop (v : Nat)

/-- The protocol and metadata of the snapshot that a commit is based on: those of the version
before. The commit loop brings the snapshot forward to it (transaction/mod.rs:1330-1450). -/
def baseOf (h : List (Int × List Action)) : Option (Nat × Meta) :=
  match (State.empty.applyAll (h.flatMap (·.2))).protocol, (State.empty.applyAll (h.flatMap (·.2))).metadata with
  | some p, some m => some (p, m)
  | _, _ => none

/-- One event. A checksum is written with `PutMode::Create`: an existing one stays
(`write_version_checksum_incremental`, transaction/mod.rs:1965-2047). It is made after the commit,
so anything may have happened in between. -/
def CSys.step (sup : Nat → Bool) (sz : Sizes) (y : CSys) : CEv → CSys
  | .log e => { y with log := y.log.step e }
  | .drop v => { y with crcs := y.crcs.filter fun x => x.1 ≠ v }
  | .checksum v hasBase prevReadable =>
    match y.log.history[v]? with
    | none => y
    | some c =>
      if (lookupCrc y.crcs v).isSome then y
      else match buildCrc sup sz y.log.store v c.2
          (if hasBase then baseOf (y.log.history.take v) else none)
          (if prevReadable then lookupCrc y.crcs (v - 1) else none) with
        | none => y
        | some crc => { y with crcs := (v, crc) :: y.crcs }

def CSys.run (sup : Nat → Bool) (sz : Sizes) (es : List CEv) (y : CSys) : CSys :=
  es.foldl (CSys.step sup sz) y

/-! ## The header -/

/-- `ReplayedTableHeader`, segment.rs:24. -/
structure Header where
  version : Nat
  protocol : Nat
  metadata : Meta
  txns : List (Nat × Txn)
  domains : List (Nat × Nat)
  deriving Repr, DecidableEq

/-- `ReconciledHeaderState`, checkpoint/mod.rs:296-302. -/
structure HState where
  protocol : Option Nat
  metadata : Option Meta
  txns : List (Nat × Txn)
  domains : List (Nat × Nat)
  deriving Repr, DecidableEq

def HState.empty : HState := ⟨none, none, [], []⟩

/-- `ReconciledHeaderState::apply_action`, checkpoint/mod.rs:305-331. -/
def HState.apply (s : HState) : Action → HState
  | .protocol p => { s with protocol := some p }
  | .metadata m => { s with metadata := some m }
  | .txn app t => { s with txns := put app t s.txns }
  | .domain d none => { s with domains := del d s.domains }
  | .domain d (some v) => { s with domains := put d v s.domains }
  | .add _ _ => s
  | .remove _ _ => s
  | .other => s

def HState.applyAll (s : HState) (as : List Action) : HState := as.foldl HState.apply s

/-- `from_header`, checkpoint/mod.rs:340-347. -/
def HState.ofHeader (h : Header) : HState := ⟨some h.protocol, some h.metadata, h.txns, h.domains⟩

/-- `validate_and_build_header`, segment.rs:353-395. -/
def headerOf (v : Nat) (c : Crc) : Option Header :=
  if c.numMetadata ≠ 1 ∨ c.numProtocol ≠ 1 then none
  else some ⟨v, c.protocol, c.metadata, collect (c.txns.getD []), collect (c.domains.getD [])⟩

/-- `CHECKSUM_LOOKBACK_WINDOW`, segment.rs:21. -/
def lookback : Nat := 100

/-- `ResolvedLogSegment` as used for headers. -/
inductive HSegment
  | exact (h : Header)
  | incremental (base : Header) (ckpt : Option Ckpt) (commits : List Commit) (comps : List Comp)
  | full
  deriving Repr, DecidableEq

/-- The oldest checksum that is looked at, segment.rs:127-134. -/
def crcFloor (target : Nat) (hint : Option Header) : Nat :=
  max (target - lookback) (match hint with
    | some h => h.version + 1
    | none => 0)

/-- The newest usable checksum before the target, segment.rs:145-181. -/
def olderHeader (crcs : List (Nat × Crc)) (off floor target : Nat) : Option Header :=
  ((crcs.filter fun x => off ≤ x.1 ∧ x.1 ≤ target ∧ floor ≤ x.1 ∧ x.1 < target).insSort
    fun a b => decide (b.1 ≤ a.1)).findSome? fun x => headerOf x.1 x.2

/-- The checkpoint, if it is newer than the base, segment.rs:231-236. -/
def newerCkpt (ckpt : Option Ckpt) (base : Header) : Option Ckpt :=
  match ckpt with
  | some c => if base.version < c.version then some c else none
  | none => none

/-- The first version to replay, segment.rs:238-255. -/
def headerStart (ckpt : Option Ckpt) (base : Header) : Nat :=
  match ckpt with
  | some c => c.version + 1
  | none => base.version + 1

/-- `resolve_for_header`, segment.rs:116-281. -/
def Store.resolveHeader (st : Store) (crcs : List (Nat × Crc)) (target : Nat) (hint : Option Header) :
    Option HSegment :=
  match (lookupCrc crcs target).bind (headerOf target) with
  | some h => some (.exact h)
  | none =>
    let floor := crcFloor target hint
    let off := min floor (st.offset target)
    match (olderHeader crcs off floor target).or hint with
    | none => some .full
    | some base =>
      let ckpt := newerCkpt (selectCkpt (st.listCkpts off target) st.hint) base
      let start := headerStart ckpt base
      let r := resolveComps
        ((st.listCommits off target).filter fun c => start ≤ c.version ∧ c.version ≤ target)
        ((st.listComps off target).filter fun c => start ≤ c.start ∧ c.stop ≤ target)
      if validate r.1 r.2 start target then some (.incremental base ckpt r.1 r.2) else none

/-- `replay_commit_header_actions`, checkpoint/mod.rs:838-887 for header states. -/
def replayHeader (s : HState) (commits : List Commit) (start stop : Nat) : Option HState :=
  if start > stop then some s
  else if contiguous start stop (commits.map (·.version)) start then
    some (s.applyAll ((commits.filter fun c => start ≤ c.version ∧ c.version ≤ stop).flatMap (·.actions)))
  else none

/-- The state to start from and the first version to replay, replay.rs:195-213. -/
def headerBase (base : Header) (ckpt : Option Ckpt) (commits : List Commit) (comps : List Comp) (target : Nat) :
    HState × Nat :=
  match ckpt with
  | some c => (HState.empty.applyAll c.rows, match commits, comps with
    | x :: _, _ => x.version
    | [], x :: _ => x.start
    | [], [] => target + 1)
  | none => (.ofHeader base, base.version + 1)

def HState.header (s : HState) (v : Nat) : Option Header :=
  match s.protocol, s.metadata with
  | some p, some m => some ⟨v, p, m, s.txns, s.domains⟩
  | _, _ => none

/-- `load_replayed_table_header`, replay.rs:167-248. `none` is an error, `some none` asks for the
whole log to be replayed. -/
def Store.loadHeader (st : Store) (crcs : List (Nat × Crc)) (target : Nat) (hint : Option Header) :
    Option (Option Header) :=
  match st.resolveHeader crcs target hint with
  | none => none
  | some (.exact h) => some (some h)
  | some .full => some none
  | some (.incremental base ckpt commits comps) =>
    let b := headerBase base ckpt commits comps target
    let s := if comps = [] then replayHeader b.1 commits b.2 target
      else if b.2 ≤ target then
        some (b.1.applyAll (replaySeq comps target (target + 1 - b.2) commits b.2).flatten)
      else some b.1
    match s with
    | none => none
    | some s => (s.header target).map some

def Table.header (t : Table) (v : Nat) : Header := ⟨v, t.protocol, t.metadata, t.txns, t.domains⟩

/-- `DeltaSnapshot::try_new` without files, snapshot/mod.rs:156-210. -/
def Store.openHeader (st : Store) (crcs : List (Nat × Crc)) (target : Nat) (hint : Option Header) : Option Header :=
  match st.loadHeader crcs target hint with
  | some (some h) => some h
  | _ => (st.load target).map fun t => t.header target

/-- `DeltaSnapshot::update` to a given version of a snapshot without files, snapshot/mod.rs:309-347. -/
def Store.updateHeader (st : Store) (crcs : List (Nat × Crc)) (target : Nat) (h : Header) : Option Header :=
  if target = h.version then some h
  else if target < h.version then none
  else st.openHeader crcs target (some h)

end Verif.Delta.Log
