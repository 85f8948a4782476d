import Verif.Iceberg.Transform
import Verif.Base.Sort

/-!
# Delete files of an Iceberg table

Model of `crates/sail-iceberg/src/spec/delete_index.rs` (which delete files apply to which data
files) and of `crates/sail-iceberg/src/physical_plan/delete_apply_exec.rs` (how they are
applied).
-/

namespace Verif.Iceberg.Deletes

open Verif.Iceberg (leBytes)

/-- A partition value: `PrimitiveLiteral`, spec/types/values.rs. Floats are their bits; strings
and binaries their bytes. Values of nested types do not occur in partition tuples. -/
inductive PVal where
  | bool (b : Bool)
  | int (v : Int)
  | long (v : Int)
  | float (bits : Nat)
  | double (bits : Nat)
  | i128 (v : Int)
  | u128 (v : Nat)
  | str (b : List Nat)
  | bin (b : List Nat)
  deriving DecidableEq, Repr

/-- `encode_primitive`, delete_index.rs:103-145. `as u32` keeps the low four bytes of the
length. -/
def encVal : PVal → List Nat
  | .bool b => [1, if b then 1 else 0]
  | .int v => 2 :: leBytes 4 v
  | .long v => 3 :: leBytes 8 v
  | .float b => 4 :: leBytes 4 b
  | .double b => 5 :: leBytes 8 b
  | .i128 v => 6 :: leBytes 16 v
  | .u128 v => 7 :: leBytes 16 v
  | .str b => 8 :: (leBytes 4 b.length ++ b)
  | .bin b => 9 :: (leBytes 4 b.length ++ b)

/-- The bytes of one member of the tuple, delete_index.rs:47-54. -/
def encOpt : Option PVal → List Nat
  | none => [0]
  | some v => 1 :: encVal v

/-- The bytes of `PartitionKey::new`, delete_index.rs:44-57. -/
def encode (vs : List (Option PVal)) : List Nat := vs.flatMap encOpt

/-- `PartitionKey`, delete_index.rs:37-41. -/
abbrev Key := Nat × List Nat

/-- `DataContentType`. -/
inductive Content where
  | data | position | equality
  deriving DecidableEq, Repr

/-- An entry of a delete manifest, or a data file: the fields that are used. `puffin` is whether
the format is Puffin with an offset and a size, that is, a deletion vector. -/
structure Entry where
  path : String
  content : Content
  part : List (Option PVal)
  referenced : Option String := none
  puffin : Bool := false
  seq : Option Int := none
  live : Bool := true
  deriving DecidableEq, Repr

/-- `DeleteFileRef`, delete_index.rs:12-25. -/
structure Ref where
  file : Entry
  seq : Int
  spec : Nat
  unpartitioned : Bool
  deriving DecidableEq, Repr

/-- A hash map from keys to lists, as an association list. -/
abbrev Index (κ : Type) := List (κ × List Ref)

/-- `entry(key).or_default().push(r)`. -/
def push {κ : Type} [DecidableEq κ] (k : κ) (r : Ref) : Index κ → Index κ
  | [] => [(k, [r])]
  | (k', rs) :: m => if k' = k then (k', rs ++ [r]) :: m else (k', rs) :: push k r m

/-- `get(key)`, empty if there is no entry. -/
def get {κ : Type} [DecidableEq κ] (k : κ) : Index κ → List Ref
  | [] => []
  | (k', rs) :: m => if k' = k then rs else get k m

/-- `DeleteFileIndex`, delete_index.rs:147-160. -/
structure DIndex where
  globalEq : List Ref := []
  eqByPart : Index Key := []
  posByPart : Index Key := []
  posByPath : Index String := []

/-- `DeleteFileIndex::insert`, delete_index.rs:190-227; `none` is an error. -/
def insert (ix : DIndex) (r : Ref) : Option DIndex :=
  if r.file.content = .position ∧ r.file.puffin = true then none
  else
    match r.file.content with
    | .data => none
    | .equality =>
      if r.unpartitioned then some { ix with globalEq := ix.globalEq ++ [r] }
      else some { ix with eqByPart := push (r.spec, encode r.file.part) r ix.eqByPart }
    | .position =>
      match r.file.referenced with
      | some p => some { ix with posByPath := push p r ix.posByPath }
      | none => some { ix with posByPart := push (r.spec, encode r.file.part) r ix.posByPart }

/-- Insertion of a list of delete files, in order. -/
def insertAll (ix : DIndex) : List Ref → Option DIndex
  | [] => some ix
  | r :: rs =>
    match insert ix r with
    | none => none
    | some ix' => insertAll ix' rs

/-- `DeleteFileIndex::for_data_file`, delete_index.rs:230-269: positional and equality deletes of
a data file with the sequence number `seq` in the partition `part` of the spec `spec`. -/
def forDataFile (ix : DIndex) (path : String) (spec : Nat) (part : List (Option PVal))
    (seq : Int) : List Ref × List Ref :=
  let key := (spec, encode part)
  ((get path ix.posByPath).filter (fun r => decide (seq ≤ r.seq)) ++
    (get key ix.posByPart).filter (fun r => decide (seq ≤ r.seq)),
   (get key ix.eqByPart).filter (fun r => decide (seq < r.seq)) ++
    ix.globalEq.filter (fun r => decide (seq < r.seq)))

/-- A delete manifest: its spec, its sequence number in the manifest list, its entries. -/
structure DManifest where
  spec : Nat
  seq : Int
  entries : List Entry

/-- `PartitionSpec::is_unpartitioned` (spec/partition/spec.rs:123-125) on the transforms of the
spec with that id; a spec that is not known counts as partitioned (provider.rs:431-434). -/
def isUnpartitioned (specs : Nat → Option (List Transform)) (id : Nat) : Bool :=
  match specs id with
  | some fs => fs.all fun t => t == .void
  | none => false

/-- The references of one manifest, provider.rs:436-455: entries that are not deleted, with the
sequence number of the manifest where the entry has none. -/
def refsOf (specs : Nat → Option (List Transform)) (m : DManifest) : List Ref :=
  (m.entries.filter (·.live)).map fun e =>
    { file := e, seq := e.seq.getD m.seq, spec := m.spec,
      unpartitioned := isUnpartitioned specs m.spec }

/-- `build_delete_file_index`, provider.rs:410-470; `none` is an error. -/
def buildIndex (specs : Nat → Option (List Transform)) (ms : List DManifest) : Option DIndex :=
  insertAll {} (ms.flatMap (refsOf specs))

/-! ## Applying deletes -/

/-- A row of a position delete file: path and position; `none` is NULL. -/
abbrev PosRow := Option String × Option Int

/-- `Vec::dedup` on numbers: repeated neighbours are removed. -/
def dedupNat : List Nat → List Nat
  | [] => []
  | [a] => [a]
  | a :: b :: l => if a = b then dedupNat (b :: l) else a :: dedupNat (b :: l)

/-- The position a row of a delete file deletes in the data file, delete_apply_exec.rs:299-311. -/
def posOf (path : String) (r : PosRow) : Option Nat :=
  match r with
  | (some p, some i) => if p ≠ path then none else if 0 ≤ i then some i.toNat else none
  | _ => none

/-- `load_deleted_positions`, delete_apply_exec.rs:247-318, on the rows of the delete files. -/
def positions (path : String) (files : List (List PosRow)) : List Nat :=
  dedupNat ((files.flatMap fun rows => rows.filterMap (posOf path)).insSort (fun a b => a ≤ b))

/-- A field of an equality key (`EqualityKeyField`), delete_apply_exec.rs:331-335. Types are
numbers. -/
structure KeyField where
  id : Nat
  name : String
  ty : Nat
  deriving DecidableEq, Repr

/-- A column of the table schema: field id, name and type. -/
structure Col where
  id : Nat
  name : String
  ty : Nat
  deriving DecidableEq, Repr

/-- `resolve_equality_key_fields`, delete_apply_exec.rs:338-367; `none` is an error. -/
def resolve (sch : List Col) : List Nat → Option (List KeyField)
  | [] => some []
  | i :: ids =>
    match sch.find? (fun c => c.id == i), resolve sch ids with
    | some c, some ks => some (⟨i, c.name, c.ty⟩ :: ks)
    | _, _ => none

/-- An equality delete file: the field ids of its key, its Parquet columns (field id and type) and
its rows, with one value per column. -/
structure EqFile (V : Type) where
  ids : List Nat
  cols : List (Option Nat × Nat)
  rows : List (List V)

/-- Indices of the columns with a field id, from the `i`-th on. -/
def rootsWith (id : Nat) (i : Nat) : List (Option Nat × Nat) → List Nat
  | [] => []
  | c :: cs => if c.1 = some id then i :: rootsWith id (i + 1) cs else rootsWith id (i + 1) cs

/-- The index of the column of one key field, delete_apply_exec.rs:455-474; `none` is an error:
there must be exactly one. -/
def rootOf (cols : List (Option Nat × Nat)) (k : KeyField) : Option Nat :=
  match rootsWith k.id 0 cols with
  | [i] => some i
  | _ => none

/-- All members of a list of options, or nothing. -/
def allSome {α : Type} : List (Option α) → Option (List α)
  | [] => some []
  | none :: _ => none
  | some a :: l => (allSome l).map (a :: ·)

/-- `projected_roots`, delete_apply_exec.rs:477-479. -/
def projected (roots : List Nat) : List Nat := dedupNat (roots.insSort (fun a b => a ≤ b))

/-- The key of one row of the delete file: the columns are read in file order without repetitions
and put back into the order of the key, delete_apply_exec.rs:480-522. `binary_search` in a
sorted list without repetitions is the index of the member. `none` is an error. -/
def keyOfRow {V : Type} (f : EqFile V) (ks : List KeyField) (row : List V) : Option (List V) :=
  match allSome (ks.map (rootOf f.cols)) with
  | none => none
  | some roots =>
    let proj := projected roots
    let read := proj.map fun i => (row[i]?, (f.cols[i]?).map (·.2))
    allSome ((roots.zip ks).map fun (r, k) =>
      match proj.findIdx? (· == r) with
      | none => none
      | some j =>
        match read[j]? with
        | some (some v, some ty) => if ty = k.ty then some v else none
        | _ => none)

/-- `LoadedEqualityDelete`, delete_apply_exec.rs:321-329. The row converter maps equal rows, and
only those, to equal bytes, NULL being one value; the rows themselves stand for the bytes. -/
structure Loaded (V : Type) where
  keys : List KeyField
  deleted : List (List V)

/-- `load_equality_deletes` for one file, delete_apply_exec.rs:379-424; `none` is an error. An
error in a column is found even if the file has no rows. -/
def loadOne {V : Type} (sch : List Col) (f : EqFile V) : Option (Loaded V) :=
  if f.ids = [] then none
  else
    match resolve sch f.ids with
    | none => none
    | some ks =>
      match allSome (ks.map (rootOf f.cols)) with
      | none => none
      | some _ => (allSome (f.rows.map (keyOfRow f ks))).map fun rs => ⟨ks, rs⟩

/-- `load_equality_deletes`, delete_apply_exec.rs:369-428. -/
def loadAll {V : Type} (sch : List Col) (fs : List (EqFile V)) : Option (List (Loaded V)) :=
  allSome (fs.map (loadOne sch))

/-- A row of the data file, adapted to the table schema: the value of each column. -/
abbrev DRow (V : Type) := String → V

/-- The columns of the batches of the data file: name and type. -/
abbrev BSchema := List (String × Nat)

/-- The checks of `project_equality_key_columns`, delete_apply_exec.rs:430-449. -/
def projectable (bs : BSchema) (ks : List KeyField) : Bool :=
  ks.all fun k => (bs.find? (fun c => c.1 == k.name)).map (·.2) == some k.ty

/-- Positional part of `compute_delete_mask`, delete_apply_exec.rs:584-594. `partition_point` in a
sorted list is the length of the part before. -/
def posMask (off : Nat) (n : Nat) (ps : List Nat) : List Bool :=
  let first := (ps.takeWhile (fun p => decide (p < off))).length
  let last := (ps.takeWhile (fun p => decide (p < off + n))).length
  ((ps.take last).drop first).foldl (fun m p => if p - off < n then m.set (p - off) false else m)
    (List.replicate n true)

/-- Equality part of `compute_delete_mask` for one delete file, delete_apply_exec.rs:597-618. -/
def eqMask {V : Type} [DecidableEq V] (e : Loaded V) (rows : List (DRow V)) (m : List Bool) :
    List Bool :=
  (m.zip rows).map fun (keep, row) =>
    if keep then !(e.deleted.contains (e.keys.map fun k => row k.name)) else keep

/-- `compute_delete_mask`, delete_apply_exec.rs:573-622; `none` is an error. -/
def mask {V : Type} [DecidableEq V] (bs : BSchema) (off : Nat) (ps : List Nat)
    (es : List (Loaded V)) (rows : List (DRow V)) : Option (List Bool) :=
  if es.all (fun e => projectable bs e.keys) then
    some (es.foldl (fun m e => eqMask e rows m) (posMask off rows.length ps))
  else none

/-- `filter_record_batch`. -/
def filterBatch {α : Type} (rows : List α) (m : List Bool) : List α :=
  ((rows.zip m).filter (·.2)).map (·.1)

/-- The loop of `IcebergDeleteApplyExec::execute`, delete_apply_exec.rs:215-236: the batches that
are sent. -/
def applyBatches {V : Type} [DecidableEq V] (bs : BSchema) (ps : List Nat) (es : List (Loaded V)) :
    Nat → List (List (DRow V)) → Option (List (List (DRow V)))
  | _, [] => some []
  | off, b :: rest =>
    match mask bs off ps es b with
    | none => none
    | some m =>
      match applyBatches bs ps es (off + b.length) rest with
      | none => none
      | some out => some (if filterBatch b m = [] then out else filterBatch b m :: out)

/-- `IcebergDeleteApplyExec::execute`, delete_apply_exec.rs:180-243, for one data file. -/
def apply {V : Type} [DecidableEq V] (sch : List Col) (bs : BSchema) (path : String)
    (pos : List (List PosRow)) (eqs : List (EqFile V)) (batches : List (List (DRow V))) :
    Option (List (List (DRow V))) :=
  match loadAll sch eqs with
  | none => none
  | some es => applyBatches bs (positions path pos) es 0 batches

namespace Spec

/-- Values that occur: integers in range, bytes, lengths below 4 GiB. -/
def ValOk : PVal → Prop
  | .bool _ => True
  | .int v => -2147483648 ≤ v ∧ v ≤ 2147483647
  | .long v => -9223372036854775808 ≤ v ∧ v ≤ 9223372036854775807
  | .float b => b < 4294967296
  | .double b => b < 18446744073709551616
  | .i128 v => -(2 : Int) ^ 127 ≤ v ∧ v < (2 : Int) ^ 127
  | .u128 v => v < 2 ^ 128
  | .str b => b.length < 4294967296
  | .bin b => b.length < 4294967296

/-- Tuples that occur. -/
def TupleOk (vs : List (Option PVal)) : Prop := ∀ v, some v ∈ vs → ValOk v

/-- The rule of the specification for position delete files: the data file is not newer than the
delete file; the delete file names the data file, or it names none and both lie in the same
partition of the same spec. -/
def PosApplies (path : String) (spec : Nat) (part : List (Option PVal)) (seq : Int) (r : Ref) :
    Prop :=
  r.file.content = .position ∧ seq ≤ r.seq ∧
    (r.file.referenced = some path ∨
      (r.file.referenced = none ∧ r.spec = spec ∧ r.file.part = part))

/-- The rule for equality delete files: the data file is older than the delete file, which lies in
the same partition of the same spec or belongs to an unpartitioned spec. -/
def EqApplies (spec : Nat) (part : List (Option PVal)) (seq : Int) (r : Ref) : Prop :=
  r.file.content = .equality ∧ seq < r.seq ∧
    (r.unpartitioned = true ∨ (r.spec = spec ∧ r.file.part = part))

/-- The value a row of an equality delete file has for a field id: that of a column with this
id. -/
def HasValue {V : Type} (f : EqFile V) (row : List V) (id : Nat) (v : V) : Prop :=
  ∃ (i : Nat) (ty : Nat), f.cols[i]? = some (some id, ty) ∧ row[i]? = some v

/-- The value of a row of the data file for a field id. -/
def FieldIs {V : Type} (sch : List Col) (row : DRow V) (id : Nat) (v : V) : Prop :=
  ∃ c, sch.find? (fun c => c.id == id) = some c ∧ row c.name = v

/-- The row at position `i` of the data file is deleted. -/
def Deleted {V : Type} (sch : List Col) (path : String) (pos : List (List PosRow))
    (eqs : List (EqFile V)) (i : Nat) (row : DRow V) : Prop :=
  (∃ f ∈ pos, (some path, some (i : Int)) ∈ f) ∨
  (∃ f ∈ eqs, ∃ d ∈ f.rows, ∀ id ∈ f.ids, ∃ v, HasValue f d id v ∧ FieldIs sch row id v)

open Classical in
/-- The rows that must be read, in order. -/
noncomputable def remaining {V : Type} (sch : List Col) (path : String) (pos : List (List PosRow))
    (eqs : List (EqFile V)) (rows : List (DRow V)) : List (DRow V) :=
  (rows.zipIdx.filter fun x => decide (¬ Deleted sch path pos eqs x.2 x.1)).map (·.1)

end Spec

end Verif.Iceberg.Deletes
