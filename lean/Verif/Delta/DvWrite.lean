import Mathlib.Data.Finset.Card

/-!
# Writing deletion vectors

Models `DeletionVectorRowsWriterExec::execute` (merge-on-read MERGE), `DeletionVectorWriterExec::execute`
and `scan_file_for_matching_rows` (DELETE) of
crates/sail-delta-lake/src/physical_plan/dv_writer_exec.rs.

Simplifications. A bitmap is a finite set of row positions (the roaring crate is trusted). Written
vectors are kept in a list that is only appended to, and the name of a vector is its place in the list:
a new vector gets a new name (`Uuid::new_v4`) and written files are not changed. Whether a written
vector is found again is C135. A vector that cannot be read is `none`. The batches of a stream are
joined into one list of rows; errors of the input streams are left out. Times and the metrics other than
the counts are left out.
-/

namespace Verif.Delta.Dv

/-- `DeletionVectorBitmap`, deletion_vector/bitmap.rs:12-14. -/
abbrev Bitmap := Finset Nat

/-- The vectors in the storage, by name. -/
abbrev Disk := List (Option Bitmap)

/-- An `Add` action: its path, the name of its deletion vector, `tightBounds` of its statistics (`none` if
there are none or they cannot be parsed) and all other fields. -/
structure Add (M : Type) where
  path : String
  dv : Option Nat
  tight : Option Bool
  info : M
deriving DecidableEq

/-- The actions the writer emits; of a `Remove` only what identifies the file, dv_writer_exec.rs:313-336. -/
inductive Action (M : Type) where
  | remove (path : String) (dv : Option Nat)
  | add (a : Add M)
deriving DecidableEq

inductive Err where
  /-- "references file that is not active in Delta snapshot", dv_writer_exec.rs:281-285. -/
  | inactive
  /-- `read_deletion_vector` failed, dv_writer_exec.rs:289-295. -/
  | unreadable
  /-- "must have non-null file path and row index", dv_writer_exec.rs:517-521. -/
  | null
  /-- "row index must be non-negative", dv_writer_exec.rs:523-527. -/
  | negative
deriving DecidableEq

/-- What a partition has produced so far: the storage, `output_actions`, `total_deleted_rows`,
`num_dv_added` and `num_dv_updated`, dv_writer_exec.rs:485-488. -/
structure Out (M : Type) where
  disk : Disk
  actions : List (Action M)
  deleted : Nat
  added : Nat
  updated : Nat
deriving DecidableEq

variable {M : Type}

/-- `read_deletion_vector` by name. -/
def read (d : Disk) (n : Nat) : Option Bitmap := (d[n]?).join

/-- `widen_stats_bounds(..).or_else(|| add.stats.clone())`, dv_writer_exec.rs:42-59 and 338. -/
def widen (t : Option Bool) : Option Bool := t.map fun _ => false

/-- The vector an `Add` already has, dv_writer_exec.rs:288-305: nothing is read if it has none. -/
def existing (d : Disk) (a : Add M) : Option Bitmap :=
  match a.dv with
  | none => some ∅
  | some n => read d n

/-- The actions and counts for one file, `bitmap` being the new positions: dv_writer_exec.rs:287-360 for
MERGE and 750-833 for DELETE. `newly_deleted` is the growth of the bitmap, or its size if there was none. -/
def writeAdd (a : Add M) (bitmap : Bitmap) (o : Out M) : Except Err (Out M) :=
  match existing o.disk a with
  | none => .error .unreadable
  | some old =>
    let final := old ∪ bitmap
    let newly := final.card - old.card
    if newly = 0 then .ok o
    else
      .ok { disk := o.disk ++ [some final]
            actions := o.actions ++ [.remove a.path a.dv,
              .add { a with dv := some o.disk.length, tight := widen a.tight }]
            deleted := o.deleted + newly
            added := o.added + 1
            updated := o.updated + (if a.dv.isSome then 1 else 0) }

/-- `add_by_path.get(&path)`, dv_writer_exec.rs:281 and 460-476: the last `Add` inserted for the path. -/
def lookup (adds : List (Add M)) (path : String) : Option (Add M) :=
  adds.reverse.find? fun a => a.path == path

/-- `write_merge_dv_actions_for_path`, dv_writer_exec.rs:271-361. -/
def writePath (adds : List (Add M)) (path : String) (bitmap : Bitmap) (o : Out M) : Except Err (Out M) :=
  match lookup adds path with
  | none => .error .inactive
  | some a => writeAdd a bitmap o

/-- A row of the MERGE plan: the file path and the row index, either of which may be NULL. -/
abbrev Row := Option String × Option Int

/-- `current_path`, `current_bitmap` and what was produced, dv_writer_exec.rs:485-490. -/
structure Loop (M : Type) where
  current : Option String
  bitmap : Bitmap
  out : Out M

/-- The body of the loop over the rows, dv_writer_exec.rs:516-560. -/
def rowStep (adds : List (Add M)) (s : Loop M) : Row → Except Err (Loop M)
  | (none, _) => .error .null
  | (some _, none) => .error .null
  | (some path, some index) =>
    if index < 0 then .error .negative
    else
      match s.current with
      | none => .ok { current := some path, bitmap := insert index.toNat s.bitmap, out := s.out }
      | some current =>
        if current = path then .ok { s with bitmap := insert index.toNat s.bitmap }
        else
          match writePath adds current s.bitmap s.out with
          | .error e => .error e
          | .ok out => .ok { current := some path, bitmap := {index.toNat}, out := out }

/-- The loop over the rows, dv_writer_exec.rs:492-561. -/
def rowLoop (adds : List (Add M)) : Loop M → List Row → Except Err (Loop M)
  | s, [] => .ok s
  | s, r :: rs =>
    match rowStep adds s r with
    | .error e => .error e
    | .ok s' => rowLoop adds s' rs

/-- `DeletionVectorRowsWriterExec::execute` for one partition, dv_writer_exec.rs:456-582. -/
def runRows (adds : List (Add M)) (rows : List Row) (o : Out M) : Except Err (Out M) :=
  match rowLoop adds ⟨none, ∅, o⟩ rows with
  | .error e => .error e
  | .ok s =>
    match s.current with
    | none => .ok s.out
    | some path => writePath adds path s.bitmap s.out

/-- All partitions of a MERGE, each with its `Add`s and its rows (`required_input_distribution`,
dv_writer_exec.rs:399-409, sends a path to one partition of both inputs). The partitions run side by side
and only share the storage; here they run one after the other. -/
def runMerge : List (List (Add M) × List Row) → Out M → Except Err (Out M)
  | [], o => .ok o
  | p :: ps, o =>
    match runRows p.1 p.2 o with
    | .error e => .error e
    | .ok o' => runMerge ps o'

/-- The loop over the batches of one file, dv_writer_exec.rs:917-951: the positions at which the
condition is valid and true. The condition is given by its values, `none` being NULL. -/
def matchingFrom : Nat → List (List (Option Bool)) → List Nat
  | _, [] => []
  | offset, b :: bs =>
    ((List.range b.length).filter fun i => b[i]? == some (some true)).map (offset + ·)
      ++ matchingFrom (offset + b.length) bs

/-- `scan_file_for_matching_rows`, dv_writer_exec.rs:875-954. -/
def matchingRows (batches : List (List (Option Bool))) : List Nat := matchingFrom 0 batches

/-- The loop over the files of `DeletionVectorWriterExec::execute`, dv_writer_exec.rs:731-834; `cond`
gives the values of the condition on the batches of a file. -/
def runFiles (cond : Add M → List (List (Option Bool))) : List (Add M) → Out M → Except Err (Out M)
  | [], o => .ok o
  | a :: as, o =>
    let rows := matchingRows (cond a)
    if rows = [] then runFiles cond as o
    else
      match writeAdd a rows.toFinset o with
      | .error e => .error e
      | .ok o' => runFiles cond as o'

/-- What an action does to the files of a table: a file is identified by its path and its deletion vector
(the rule of the Delta protocol, proved of the log replay in C37). -/
def applyAction [DecidableEq M] (t : List (Add M)) : Action M → List (Add M)
  | .remove p v => t.filter fun a => !(a.path == p && a.dv == v)
  | .add a => (t.filter fun b => !(b.path == a.path && b.dv == a.dv)) ++ [a]

/-- The files of the table after the actions of a commit. -/
def applyActions [DecidableEq M] (t : List (Add M)) (as : List (Action M)) : List (Add M) :=
  as.foldl applyAction t

end Verif.Delta.Dv
