import Mathlib.Data.Finset.Card

/-!
# Reading files with deletion vectors

Models `DeltaScanByAddsExec::execute` and `ScanByAddsStreamState` of
crates/sail-delta-lake/src/physical_plan/scan_by_adds_exec.rs.

Simplifications. A stream is the list of its batches, a batch the list of its rows; errors are left out.
What the Parquet reader returns for a file is given: with no predicate its rows in order, cut into batches
in some way, and with a predicate some other batches. `build_file_scan_config` puts the files into groups
in some way, each group being one stream. Scans of which only partition values are needed
(`partition_scan`) are left out, and so is the restoring of column names.
-/

namespace Verif.Delta.DvScan

variable {α : Type}

/-- An `Add` with what is read for it: the vector of its descriptor (`load_deletion_vectors`,
scan_by_adds_exec.rs:327-361), the batches of the file, and its batches under the pushed predicate. -/
structure File (α : Type) where
  dv : Option (Finset Nat)
  plain : List (List α)
  pushed : List (List α)

/-- `filter_record_batch`. -/
def filterBatch : List α → List Bool → List α
  | r :: rs, k :: ks => if k then r :: filterBatch rs ks else filterBatch rs ks
  | _, _ => []

/-- `dv_filter_stream`, scan_by_adds_exec.rs:551-594, from the running offset. -/
def dvFilter (bitmap : Finset Nat) : Nat → List (List α) → List (List α)
  | _, [] => []
  | offset, b :: bs =>
    if b.length = 0 then dvFilter bitmap offset bs
    else
      let keep := (List.range b.length).map fun i => !decide (offset + i ∈ bitmap)
      let offset' := offset + b.length
      if keep.count true = 0 then dvFilter bitmap offset' bs
      else if keep.count true = b.length then b :: dvFilter bitmap offset' bs
      else filterBatch b keep :: dvFilter bitmap offset' bs

/-- `append_row_index_stream`, scan_by_adds_exec.rs:508-541, from the running offset. -/
def appendRowIndex : Nat → List (List α) → List (List (α × Option Nat))
  | _, [] => []
  | offset, b :: bs =>
    b.zip ((List.range b.length).map fun i => some (offset + i)) :: appendRowIndex (offset + b.length) bs

/-- The rows of a stream without row index. -/
def noRowIndex (bs : List (List α)) : List (List (α × Option Nat)) :=
  bs.map fun b => b.map fun r => (r, none)

/-- `build_bulk_scan`, scan_by_adds_exec.rs:402-482: one stream per group of files. The predicate is not
pushed if a row index is asked for or a file has a vector. -/
def bulkScan (group : List (File α) → List (List (File α))) (rowIndex : Bool) (adds : List (File α)) :
    List (List (List α)) :=
  (group adds).map fun g => g.flatMap fun f =>
    if rowIndex || adds.any fun a => a.dv.isSome then f.plain else f.pushed

/-- `build_position_aware_scans`, scan_by_adds_exec.rs:362-399: the streams of each file by itself. -/
def positionAware (group : List (File α) → List (List (File α))) (rowIndex : Bool) (adds : List (File α)) :
    List (List (List (α × Option Nat))) :=
  adds.flatMap fun f => (bulkScan group rowIndex [f]).map fun stream =>
    let stream := if rowIndex then appendRowIndex 0 stream else noRowIndex stream
    match f.dv with
    | some bitmap => dvFilter bitmap 0 stream
    | none => stream

/-- `build_next_scan` for one chunk of files, scan_by_adds_exec.rs:252-325. -/
def scanChunk (group : List (File α) → List (List (File α))) (rowIndex : Bool) (adds : List (File α)) :
    List (List (α × Option Nat)) :=
  if rowIndex then (positionAware group true adds).flatten
  else
    let plain := adds.filter fun f => !f.dv.isSome
    let marked := adds.filter fun f => f.dv.isSome
    (if plain.isEmpty then [] else ((bulkScan group false plain).map noRowIndex).flatten)
      ++ (positionAware group false marked).flatten

/-- The scans started while at least `ADD_SCAN_CHUNK_FILES` = `chunk` files wait, or, once the input is
done, while any wait, scan_by_adds_exec.rs:253-254 and 838-844; with the files left waiting. The first
argument bounds the recursion. -/
def drain (chunk : Nat) (done : Bool) : Nat → List (File α) → List (List (File α)) × List (File α)
  | 0, pending => ([], pending)
  | n + 1, pending =>
    if !pending.isEmpty && (decide (chunk ≤ pending.length) || done) then
      let len := min pending.length chunk
      let r := drain chunk done n (pending.drop len)
      (pending.take len :: r.1, r.2)
    else ([], pending)

/-- The chunks of files in the order in which they are scanned, for an input of batches of `Add`s,
scan_by_adds_exec.rs:794-881. -/
def chunks (chunk : Nat) : List (File α) → List (List (File α)) → List (List (File α))
  | pending, [] => (drain chunk true pending.length pending).1
  | pending, b :: bs =>
    if b.length = 0 then chunks chunk pending bs
    else
      let r := drain chunk false (pending ++ b).length (pending ++ b)
      r.1 ++ chunks chunk r.2 bs

/-- The row limit, scan_by_adds_exec.rs:797-821. -/
def limitRows {β : Type} : Nat → List (List β) → List (List β)
  | _, [] => []
  | remaining, b :: bs =>
    if remaining = 0 then []
    else
      let rows := min b.length remaining
      b.take rows :: limitRows (remaining - rows) bs

/-- `ADD_SCAN_CHUNK_FILES`, scan_by_adds_exec.rs:53. -/
def chunkFiles : Nat := 1024

/-- The batches of the whole scan, scan_by_adds_exec.rs:794-883. -/
def scan (group : List (File α) → List (List (File α))) (rowIndex : Bool) (limit : Option Nat)
    (input : List (List (File α))) : List (List (α × Option Nat)) :=
  let batches := ((chunks chunkFiles [] input).map (scanChunk group rowIndex)).flatten
  let batches := if (chunks chunkFiles [] input).isEmpty then [[]] else batches
  match limit with
  | none => batches
  | some n => limitRows n batches

end Verif.Delta.DvScan
