import Verif.Iceberg.Pruning

/-!
# LIMIT on an Iceberg scan

Model of the limit in `crates/sail-iceberg/src/datasource/pruning.rs` (`prune_files`) and of its
use in `crates/sail-iceberg/src/datasource/provider.rs` (`scan`).
-/

namespace Verif.Iceberg.Limit

/-- `TableProviderFilterPushDown`. -/
inductive PushDown where
  | exact | inexact | unsupported
  deriving DecidableEq, Repr

/-- The partition fields `partition_source_col_only_uses_identity` looks at, over all partition
specs of the table: those on the column, except void and unknown ones, provider.rs:1409-1418. -/
def fieldsOn (sch : List Field) (specs : List (List PField)) (col : String) : List PField :=
  specs.flatten.filter fun pf => decide (pf.transform ≠ .void ∧ pf.transform ≠ .unknown) &&
    match fieldById sch pf.sourceId with
    | some f => f.name == col
    | none => false

/-- `partition_source_col_only_uses_identity`, provider.rs:1406-1424. -/
def onlyIdentity (sch : List Field) (specs : List (List PField)) (col : String) : Option Bool :=
  if fieldsOn sch specs col = [] then none
  else some ((fieldsOn sch specs col).all fun pf => pf.transform == .identity)

/-- `eq_in_pushdown_for_partition_col`, provider.rs:1388-1398; no answer is `Unsupported`. -/
def eqPushDown (sch : List Field) (specs : List (List PField)) (col : String) : PushDown :=
  match onlyIdentity sch specs col with
  | some true => .exact
  | some false => .inexact
  | none => .unsupported

/-- A data file of the scan: its rows in file order, each with whether a delete file that applies
to the data file removes it. -/
structure File where
  rows : List (Row × Bool)

/-- `record_count`: the number of rows the file was written with. -/
def File.count (f : File) : Nat := f.rows.length

/-- The loop of `prune_files` with a limit, pruning.rs:230-248, on the files the predicate keeps;
`n` is `rows_collected`. Counts do not overflow. -/
def collect (lim : Nat) : Nat → List File → List File
  | _, [] => []
  | n, f :: fs =>
    if n ≤ lim then
      if lim < n + f.count then [f] else f :: collect lim (n + f.count) fs
    else []

/-- `prune_files` after the pruning predicate, pruning.rs:228-252. -/
def keep (limit : Option Nat) (files : List File) : List File :=
  match limit with
  | none => files
  | some lim => collect lim 0 files

/-- The rows of a file that are not deleted (`IcebergDeleteApplyExec`). -/
def File.live (f : File) : List Row := (f.rows.filter fun r => !r.2).map (·.1)

/-- The rows of the scan, provider.rs:862-1060: files are cut by the limit, deletes are applied,
the filters pushed down exactly (`pass`) are evaluated above, and then the limit. -/
def scan (limit : Option Nat) (pass : Row → Bool) (files : List File) : List Row :=
  let rows := ((keep limit files).flatMap File.live).filter pass
  match limit with
  | none => rows
  | some lim => rows.take lim

namespace Spec

/-- The result of the query without LIMIT. -/
def result (pass : Row → Bool) (files : List File) : List Row :=
  (files.flatMap fun f => (f.rows.filter fun r => r.2 = false).map Prod.fst).filter
    fun r => pass r

/-- A right answer to `LIMIT n`: rows of the result, as many as there are up to `n`. -/
def Right (n : Nat) (pass : Row → Bool) (files : List File) (out : List Row) : Prop :=
  out.Sublist (result pass files) ∧ out.length = min n (result pass files).length

end Spec

end Verif.Iceberg.Limit
