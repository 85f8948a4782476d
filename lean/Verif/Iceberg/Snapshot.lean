/-!
# Commits to an Iceberg table

Model of `crates/sail-iceberg/src/operations/snapshot.rs` (the snapshot producer), of the metadata
update in `crates/sail-iceberg/src/physical_plan/commit/commit_exec.rs` and
`crates/sail-iceberg/src/operations/bootstrap.rs`, of row lineage in
`crates/sail-iceberg/src/spec/metadata/table_metadata.rs`, and of the reader of manifests in
`crates/sail-iceberg/src/datasource/provider.rs`.

Simplifications: manifest lists and manifests are part of the snapshot, not files of the store;
paths of files are numbers; counts and ids do not overflow; the bounds, sizes and partition values
of files are left out; a commit does not add schemas or partition specs, it can only ask for a
higher format version.
-/

namespace Verif.Iceberg.Commit

/-- `DataContentType`, spec/manifest/data_file.rs. -/
inductive Content where
  | data | posDel | eqDel
  deriving DecidableEq, Repr

/-- `DataFile`: path, content, `record_count`, `partition_spec_id`, `first_row_id`,
spec/manifest/data_file.rs. -/
structure DFile where
  path : Nat
  content : Content
  records : Nat
  spec : Int
  firstRow : Option Int
  deriving DecidableEq, Repr

/-- `ManifestStatus`, spec/manifest/entry.rs. -/
inductive Status where
  | added | existing | deleted
  deriving DecidableEq, Repr

/-- `ManifestEntry`: status, data sequence number, file, spec/manifest/entry.rs. -/
structure Entry where
  status : Status
  seq : Option Int
  file : DFile
  deriving DecidableEq, Repr

/-- `ManifestContentType`, spec/manifest_list.rs:593-600. -/
inductive MKind where
  | data | deletes
  deriving DecidableEq, Repr

/-- `ManifestFile` with the entries of the manifest it points to, spec/manifest_list.rs:602-652. -/
structure Manifest where
  spec : Int
  kind : MKind
  seq : Int
  addedSnapshot : Int
  addedFiles : Option Int
  existingFiles : Option Int
  deletedFiles : Option Int
  addedRows : Option Int
  existingRows : Option Int
  deletedRows : Option Int
  firstRow : Option Int
  entries : List Entry
  deriving DecidableEq, Repr

/-- `SnapshotUpdateKind`, snapshot.rs:269-274. -/
inductive Kind where
  | fastAppend | fullOverwrite | rowDelta
  deriving DecidableEq, Repr

/-- `Operation`, spec/snapshots. -/
inductive Op where
  | append | overwrite | delete
  deriving DecidableEq, Repr

/-- `Summary`: the operation and the properties the producer writes, as numbers; absent properties
are `none`, snapshot.rs:487-516 and 84-110. -/
structure Summary where
  op : Op
  addedDataFiles : Option Nat
  addedRecords : Option Nat
  addedDeleteFiles : Option Nat
  addedPosFiles : Option Nat
  addedPos : Option Nat
  addedEqFiles : Option Nat
  addedEq : Option Nat
  totalDataFiles : Option Int
  totalDeleteFiles : Option Int
  totalRecords : Option Int
  totalPos : Option Nat
  totalEq : Option Nat
  deriving DecidableEq, Repr

/-- `Snapshot` with its manifest list, spec/snapshots/snapshot.rs. -/
structure Snapshot where
  id : Int
  seq : Int
  parent : Option Int
  manifests : List Manifest
  summary : Summary
  firstRow : Option Int
  addedRows : Option Int
  deriving DecidableEq, Repr

/-- `SnapshotUpdateKind::summary_operation`, snapshot.rs:299-311. -/
def summaryOp (k : Kind) (nData nDel : Nat) : Op :=
  match k with
  | .fastAppend => .append
  | .fullOverwrite => .overwrite
  | .rowDelta =>
    if 0 < nData ∧ ¬ 0 < nDel then .append
    else if 0 < nDel ∧ ¬ 0 < nData then .delete
    else .overwrite

/-- `carries_parent_manifests`, snapshot.rs:313-315. -/
def carries : Kind → Bool
  | .fastAppend => true
  | .rowDelta => true
  | .fullOverwrite => false

/-- `active_file_count`, snapshot.rs:32-34. -/
def activeFiles (m : Manifest) : Option Int :=
  match m.addedFiles, m.existingFiles with
  | some a, some e => some (a + e)
  | _, _ => none

/-- `active_row_count`, snapshot.rs:36-38. -/
def activeRows (m : Manifest) : Option Int :=
  match m.addedRows, m.existingRows with
  | some a, some e => some (a + e)
  | _, _ => none

/-- `total.zip(active).map(|(t, a)| t + a)`, snapshot.rs:69-81. -/
def addTo (t a : Option Int) : Option Int :=
  match t, a with
  | some x, some y => some (x + y)
  | _, _ => none

/-- The loop over manifests in `with_manifest_totals`, snapshot.rs:64-82: data files, delete files,
records. -/
def totals : List Manifest → Option Int × Option Int × Option Int → Option Int × Option Int × Option Int
  | [], t => t
  | m :: ms, (d, x, r) =>
    match m.kind with
    | .data => totals ms (addTo d (activeFiles m), x, addTo r (activeRows m))
    | .deletes => totals ms (d, addTo x (activeFiles m), r)

/-- Insertion into `BTreeMap<i32, Vec<DataFile>>`, snapshot.rs:120-126; the map is the list of its
entries in key order. -/
def insertGroup (f : DFile) : List (Int × List DFile) → List (Int × List DFile)
  | [] => [(f.spec, [f])]
  | (k, fs) :: gs =>
    if f.spec < k then (f.spec, [f]) :: (k, fs) :: gs
    else if f.spec = k then (k, fs ++ [f]) :: gs
    else (k, fs) :: insertGroup f gs

/-- The files by partition spec, snapshot.rs:120-126. -/
def groupBySpec (files : List DFile) : List (Int × List DFile) :=
  files.foldl (fun g f => insertGroup f g) []

/-- `manifest_inputs`, snapshot.rs:114-152: fails if the partition spec of a file is not known. -/
def manifestInputs (specs : List Int) (files : List DFile) : Option (List (Int × List DFile)) :=
  if (groupBySpec files).all (fun g => specs.contains g.1) then some (groupBySpec files) else none

/-- `validate_delete_files_for_format`, snapshot.rs:180-204. -/
def deletesAllowed (fmt : Nat) (dels : List DFile) : Bool :=
  !(dels.any fun f => f.content == .data) &&
  !(fmt == 1 && !dels.isEmpty) &&
  !(fmt == 3 && dels.any fun f => f.content == .posDel)

/-- The number of entries with a status, snapshot.rs:231-247. -/
def countFiles (s : Status) (es : List Entry) : Int :=
  ((es.filter fun e => e.status == s).length : Nat)

/-- The sum of the records of the entries with a status, snapshot.rs:231-247. -/
def countRows (s : Status) (es : List Entry) : Int :=
  (((es.filter fun e => e.status == s).map fun e => e.file.records).sum : Nat)

/-- `populate_retained_manifest_counts`, snapshot.rs:215-267: counts that are present are kept. -/
def populate (m : Manifest) : Manifest :=
  { m with
    addedFiles := some (m.addedFiles.getD (countFiles .added m.entries))
    existingFiles := some (m.existingFiles.getD (countFiles .existing m.entries))
    deletedFiles := some (m.deletedFiles.getD (countFiles .deleted m.entries))
    addedRows := some (m.addedRows.getD (countRows .added m.entries))
    existingRows := some (m.existingRows.getD (countRows .existing m.entries))
    deletedRows := some (m.deletedRows.getD (countRows .deleted m.entries)) }

/-- The loop that gives row ids to retained data manifests without, snapshot.rs:598-611: the
manifests, the next row id and the number of ids given. -/
def assign (next : Int) : List Manifest → List Manifest × Int × Int
  | [] => ([], next, 0)
  | m :: ms =>
    if m.kind = .data ∧ m.firstRow = none then
      let a := m.addedRows.getD 0 + m.existingRows.getD 0
      let r := assign (next + a) ms
      ({ m with firstRow := some next } :: r.1, r.2.1, r.2.2 + a)
    else
      let r := assign next ms
      (m :: r.1, r.2.1, r.2.2)

/-- Rows of a list of files. -/
def rowsOf (fs : List DFile) : Int := ((fs.map DFile.records).sum : Nat)

/-- A new manifest: all entries are added and inherit their sequence number, snapshot.rs:617-665,
667-708; spec/manifest/writer.rs:76-79, mod.rs:164-171. -/
def newManifest (kind : MKind) (seq id : Int) (firstRow : Option Int) (g : Int × List DFile) :
    Manifest :=
  { spec := g.1, kind := kind, seq := seq, addedSnapshot := id
    addedFiles := some g.2.length, existingFiles := some 0, deletedFiles := some 0
    addedRows := some (rowsOf g.2), existingRows := some 0, deletedRows := some 0
    firstRow := firstRow
    entries := g.2.map fun f => ⟨.added, none, f⟩ }

/-- The new data manifests, snapshot.rs:617-665. -/
def newDataManifests (seq id : Int) : Option Int → List (Int × List DFile) → List Manifest
  | _, [] => []
  | next, g :: gs =>
    newManifest .data seq id next g :: newDataManifests seq id (next.map (· + rowsOf g.2)) gs

/-- The records of the delete files of a content, snapshot.rs:471-486. -/
def recordsOf (c : Content) (fs : List DFile) : Nat :=
  ((fs.filter fun f => f.content == c).map DFile.records).sum

/-- The number of files of a content, snapshot.rs:471-486. -/
def filesOf (c : Content) (fs : List DFile) : Nat := (fs.filter fun f => f.content == c).length

/-- `Some(n)` if the property is written. -/
def ifPos (b : Bool) (n : Nat) : Option Nat := if b then some n else none

/-- `DeleteRowTotalsBase::previous_total`, snapshot.rs:47-54; no parent stands for `Empty`. -/
def previousTotal (base : Option Summary) (get : Summary → Option Nat) : Option Nat :=
  match base with
  | none => some 0
  | some s => get s

/-- The summary of a new snapshot, snapshot.rs:487-516, 84-110. -/
def summaryOf (k : Kind) (data dels : List DFile) (base : Option Summary) (ms : List Manifest) :
    Summary :=
  let t := totals ms (some 0, some 0, some 0)
  { op := summaryOp k data.length dels.length
    addedDataFiles := ifPos (0 < data.length) data.length
    addedRecords := ifPos (0 < data.length) (data.map DFile.records).sum
    addedDeleteFiles := ifPos (!dels.isEmpty) dels.length
    addedPosFiles := ifPos (!dels.isEmpty && 0 < filesOf .posDel dels) (filesOf .posDel dels)
    addedPos := ifPos (!dels.isEmpty && 0 < filesOf .posDel dels) (recordsOf .posDel dels)
    addedEqFiles := ifPos (!dels.isEmpty && 0 < filesOf .eqDel dels) (filesOf .eqDel dels)
    addedEq := ifPos (!dels.isEmpty && 0 < filesOf .eqDel dels) (recordsOf .eqDel dels)
    totalDataFiles := t.1
    totalDeleteFiles := t.2.1
    totalRecords := t.2.2
    totalPos := (previousTotal base Summary.totalPos).map (· + recordsOf .posDel dels)
    totalEq := (previousTotal base Summary.totalEq).map (· + recordsOf .eqDel dels) }

/-- What a writer wants to commit: `IcebergCommitInfo` with the files, the expected snapshot, the
format version its schema needs and the random snapshot id. -/
structure Change where
  kind : Kind
  data : List DFile
  dels : List DFile
  expected : Option (Option Int)
  needFmt : Nat
  newId : Int
  deriving DecidableEq, Repr

/-- `TableMetadata`: format version, last sequence number, ids of the partition specs, next row
id, snapshots, `current-snapshot-id`, `refs["main"]`, spec/metadata/table_metadata.rs:33-101. -/
structure Meta where
  fmt : Nat
  lastSeq : Int
  specs : List Int
  nextRow : Option Int
  snapshots : List Snapshot
  current : Option Int
  main : Option Int
  deriving DecidableEq, Repr

/-- `current_snapshot`, table_metadata.rs:137-160. -/
def currentSnapshot (m : Meta) : Option Snapshot :=
  match m.main.or m.current with
  | some id => m.snapshots.find? fun s => s.id == id
  | none => none

/-- `inferred_next_row_id`, table_metadata.rs:238-250. -/
def inferredNext (m : Meta) : Int :=
  ((m.snapshots.filterMap fun s =>
    match s.firstRow, s.addedRows with
    | some f, some a => some (f + a)
    | _, _ => none).max?).getD 0

/-- `row_lineage_start_row_id`, table_metadata.rs:227-230 with `ensure_required_format_fields`,
209-225. -/
def startRow (m : Meta) : Option Int :=
  if 3 ≤ m.fmt then some (m.nextRow.getD (inferredNext m)) else none

/-- The retained manifests of the parent, snapshot.rs:555-588; no parent stands for bootstrap. -/
def retained (k : Kind) (parent : Option Snapshot) : List Manifest :=
  match parent with
  | none => []
  | some p => if carries k then p.manifests.map populate else []

/-- Row ids for the retained manifests, snapshot.rs:590-616. -/
def assignAll (start : Option Int) (ms : List Manifest) : List Manifest × Option Int × Int :=
  match start with
  | none => (ms, none, 0)
  | some n => ((assign n ms).1, some (assign n ms).2.1, (assign n ms).2.2)

/-- `delete_totals_base`, snapshot.rs:317-327. -/
def totalsBase (k : Kind) (parent : Option Snapshot) : Option Summary :=
  match parent with
  | none => none
  | some p => if carries k then some p.summary else none

/-- `build_action_commit`, snapshot.rs:458-830: the new snapshot. -/
def produce (fmt : Nat) (lastSeq : Int) (specs : List Int) (start : Option Int)
    (parent : Option Snapshot) (c : Change) : Option Snapshot :=
  if deletesAllowed fmt c.dels then
    match manifestInputs specs c.data, manifestInputs specs c.dels with
    | some gd, some gx =>
      let seq := lastSeq + 1
      let old := assignAll start (retained c.kind parent)
      let new := newDataManifests seq c.newId old.2.1 gd ++
        gx.map (newManifest .deletes seq c.newId none)
      some
        { id := c.newId, seq := seq, parent := parent.map Snapshot.id
          manifests := old.1 ++ new
          summary := summaryOf c.kind c.data c.dels (totalsBase c.kind parent) (old.1 ++ new)
          firstRow := start
          addedRows := start.map fun _ => old.2.2 + rowsOf c.data }
    | _, _ => none
  else none

/-- `validate_requirements` for the expected snapshot of the main branch,
commit_exec.rs:280-304 with `expected_snapshot_requirement`, 122-129. -/
def expectedOk (m : Meta) (expected : Option (Option Int)) : Bool :=
  match expected with
  | none => true
  | some e => (m.current.filter fun id => 0 ≤ id) == e

/-- `advance_next_row_id`, table_metadata.rs:232-236, after a snapshot with these added rows. -/
def advance (m : Meta) (added : Option Int) : Meta :=
  match added, startRow m with
  | some a, some s => { m with nextRow := some (s + a) }
  | _, _ => m

/-- The metadata the commit starts from: the format version is raised if the schema needs it and the
next row id of a version 3 table is filled in, commit_exec.rs:749-768. -/
def prepared (m : Meta) (c : Change) : Meta :=
  let m1 := { m with fmt := max m.fmt c.needFmt }
  if 3 ≤ m1.fmt then { m1 with nextRow := some (m1.nextRow.getD (inferredNext m1)) } else m1

/-- Putting the new snapshot into the metadata. With a parent: commit_exec.rs:1044-1084; the first
snapshot: `bootstrap_first_snapshot`, bootstrap.rs:495-536, which keeps a main reference that is
already there. -/
def install (m : Meta) (hasParent : Bool) (s : Snapshot) : Meta :=
  advance
    { m with
      snapshots := m.snapshots ++ [s]
      current := some s.id
      main := if hasParent then some s.id else m.main.or (some s.id)
      lastSeq := if hasParent then (if m.lastSeq < s.seq then s.seq else m.lastSeq) else s.seq }
    s.addedRows

/-- One attempt to commit on top of given metadata: the new metadata, or a failure before anything
is published, commit_exec.rs:705-1084. The requirement the producer itself adds compares the
current snapshot with the one the producer started from, 963-969. -/
def commit (m : Meta) (c : Change) : Option Meta :=
  if expectedOk m c.expected then
    let m1 := prepared m c
    let parent := currentSnapshot m1
    match produce m1.fmt m1.lastSeq m1.specs (startRow m1) parent c with
    | none => none
    | some s =>
      if expectedOk m1 (if parent.isSome then some (parent.map Snapshot.id) else none) then
        some (install m1 parent.isSome s)
      else none
  else none

/-- A sequence of commits; failed ones leave the table as it is. -/
def commits (m : Meta) : List Change → Meta
  | [] => m
  | c :: cs => commits ((commit m c).getD m) cs

/-- A file as a reader of the snapshot gets it: with its data sequence number. -/
abbrev Found := DFile × Int

/-- The walk over the entries of one data manifest in `load_data_files_with_seq`,
provider.rs:346-374, without filters. -/
def walk (spec seq : Int) : Option Int → List Entry → List Found
  | _, [] => []
  | next, e :: es =>
    match e.status with
    | .deleted => walk spec seq next es
    | _ =>
      ({ e.file with spec := spec, firstRow := e.file.firstRow.or next }, e.seq.getD seq) ::
        walk spec seq (next.map (· + (e.file.records : Int))) es

/-- The data files of a snapshot, `load_data_files_with_seq`, provider.rs:323-415, without
filters. -/
def readData (s : Snapshot) : List Found :=
  (s.manifests.filter fun m => m.kind == .data).flatMap fun m =>
    walk m.spec m.seq m.firstRow m.entries

/-- The delete files of a snapshot, `build_delete_file_index`, provider.rs:417-466: those that are
put into the index. -/
def readDeletes (s : Snapshot) : List Found :=
  (s.manifests.filter fun m => m.kind == .deletes).flatMap fun m =>
    (m.entries.filter fun e => e.status != .deleted).map fun e =>
      ({ e.file with spec := m.spec }, e.seq.getD m.seq)

namespace Spec

/-- A file without the row id it may inherit later. -/
def plain (f : Found) : Found := ({ f.1 with firstRow := none }, f.2)

/-- What a commit adds for the readers. -/
def addedAs (seq : Int) (fs : List DFile) : List Found :=
  fs.map fun f => ({ f with firstRow := none }, seq)

/-- What a reader of the table finds now: data files. -/
def dataNow (m : Meta) : List Found :=
  match currentSnapshot m with
  | none => []
  | some p => readData p

/-- What a reader of the table finds now: delete files. -/
def delsNow (m : Meta) : List Found :=
  match currentSnapshot m with
  | none => []
  | some p => readDeletes p

/-- The main branch, if set, points to a snapshot of the table. -/
def MainOk (m : Meta) : Prop := ∀ id, m.main = some id → ∃ s ∈ m.snapshots, s.id = id

/-- No snapshot of the table has the id. -/
def Fresh (m : Meta) (id : Int) : Prop := ∀ s ∈ m.snapshots, s.id ≠ id

/-- Every sequence number in the table is at most the last one given. -/
def SeqOk (m : Meta) : Prop :=
  ∀ s ∈ m.snapshots, s.seq ≤ m.lastSeq ∧
    (∀ f ∈ readData s, f.2 ≤ m.lastSeq) ∧ ∀ f ∈ readDeletes s, f.2 ≤ m.lastSeq

/-- The counts of a manifest, where present, are those of its entries. -/
def Honest (m : Manifest) : Prop :=
  (∀ n, m.addedFiles = some n → n = countFiles .added m.entries) ∧
  (∀ n, m.existingFiles = some n → n = countFiles .existing m.entries) ∧
  (∀ n, m.addedRows = some n → n = countRows .added m.entries) ∧
  (∀ n, m.existingRows = some n → n = countRows .existing m.entries)

/-- The records in the delete files of a content among those a reader finds. -/
def recordsFound (c : Content) (fs : List Found) : Nat := recordsOf c (fs.map Prod.fst)

/-- The row ids `a, …, b-1` and `c, …, d-1` have nothing in common. -/
def Apart (x y : Int × Int) : Prop := x.2 ≤ y.1 ∨ y.2 ≤ x.1

/-- The range of row ids of a file a reader finds. -/
def idsOf (f : DFile) : Option (Int × Int) := f.firstRow.map fun a => (a, a + f.records)

/-- The ids claimed by a manifest: by files with an id of their own and by the range reserved for the
others. -/
def claims (m : Manifest) : List (Int × Int) :=
  match m.kind with
  | .deletes => []
  | .data =>
    ((m.entries.filter fun e => e.status != .deleted).filterMap fun e => idsOf e.file) ++
      match m.firstRow with
      | none => []
      | some a => [(a, a + (countRows .added m.entries + countRows .existing m.entries))]

/-- The first row id that is still free. -/
def nextId (m : Meta) : Int := m.nextRow.getD (inferredNext m)

/-- In every snapshot the claimed ids are apart and below the next one, and counts are right. -/
def LineageOk (m : Meta) : Prop :=
  ∀ s ∈ m.snapshots, (∀ x ∈ s.manifests, Honest x) ∧
    (s.manifests.flatMap claims).Pairwise Apart ∧
    ∀ x ∈ s.manifests.flatMap claims, x.2 ≤ nextId m

/-- The ids of the live files of a data manifest as the Iceberg format defines them: a file without an
id gets the first row id of the manifest plus the rows of the files before it that had none either. -/
def formatIds (next : Option Int) : List Entry → List (Option Int)
  | [] => []
  | e :: es =>
    if e.status = .deleted then formatIds next es
    else
      match e.file.firstRow with
      | some a => some a :: formatIds next es
      | none => next :: formatIds (next.map (· + (e.file.records : Int))) es

end Spec

end Verif.Iceberg.Commit
