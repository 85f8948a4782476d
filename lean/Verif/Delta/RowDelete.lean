import Verif.Delta.MetaFilter

/-!
What a Delta scan returns, what DELETE leaves and what overwriting with replaceWhere leaves, as
functions of the data files.

Modelled: `crates/sail-delta-lake/src/physical/scan_planner.rs` (file list not loaded),
`crates/sail-delta-lake/src/physical_plan/planner/op_delete.rs`,
`crates/sail-delta-lake/src/physical_plan/planner/op_write.rs` (`build_overwrite_if_plan`) and the
partition-only rule of `crates/sail-delta-lake/src/physical_plan/scan_by_adds_exec.rs`.
Files are scanned and written in parallel; the model has one order and the theorems speak of
permutations.
-/
namespace Verif.Delta.MetaFilter

/-- The rows of a file as a query sees them. -/
def rowsOf (t : Table) (f : File) : List Row := f.rows.map (seen t f)

/-- The rows of a table. -/
def content (t : Table) (fs : List File) : List Row := fs.flatMap (rowsOf t)

/-- Whether an expression is true on a row. -/
def holds (e : Expr) (r : Row) : Bool := (eval (envOf r) e).toB == some true

/-- `IS NOT TRUE` on a row (`op_delete.rs:51-52`). -/
def notTrue (e : Expr) (r : Row) : Bool := !holds e r

/-- `NOT` on a row (`op_write.rs:345-347`): false and null both drop the row. -/
def isFalse (e : Expr) (r : Row) : Bool := (not3 (eval (envOf r) e).toB) == some true

/-- `conjunction` of the filters, `none` when there are none (`scan_planner.rs:164`). -/
def conjAll : List Expr → Option Expr := conj

/-- `plan_delta_scan` where the file list is not loaded
(`crates/sail-delta-lake/src/physical/scan_planner.rs:138-195,307-345`): the conjunction of all
filters chooses the files, and the engine checks only those that are not reported as exact
(`get_pushdown_filters`, `crates/sail-delta-lake/src/datasource/expressions.rs:56-72`). The
pushdown of inexact filters into the Parquet reader is left out, as the engine checks them
again. -/
def scan (t : Table) (filters : List Expr) (fs : List File) : List Row :=
  let files :=
    match conjAll filters with
    | some e => fs.filter (chosen t e)
    | none => fs
  let checked := filters.filter (fun e => !reportedExact t e)
  (content t files).filter (fun r => checked.all (fun e => holds e r))

/-- The rows that `DeltaScanByAddsExec` reads from the files found
(`crates/sail-delta-lake/src/physical_plan/scan_by_adds_exec.rs:212-225,826-833`): none at all when
the discovery is marked as partition-only. -/
def scanByAdds (t : Table) (partitionOnly : Bool) (fs : List File) : List Row :=
  if partitionOnly then [] else content t fs

/-- `build_delete_plan` (`op_delete.rs:33-175`): the rows of the table after the commit. The files
found by the metadata filter are removed and what the retention filter lets through is written to
new files. -/
def deleteCow (t : Table) (c : Expr) (fs : List File) : List Row :=
  let partitionOnly := !requiresStats t c
  let touched := fs.filter (chosen t c)
  let untouched := fs.filter (fun f => !chosen t c f)
  content t untouched ++ (scanByAdds t partitionOnly touched).filter (notTrue c)

/-- `scan_file_for_matching_rows`
(`crates/sail-delta-lake/src/physical_plan/dv_writer_exec.rs:876-954`): whether the position of a
stored row is collected. The data file is read with the schema of the table and without partition
values; the writer leaves partition columns out of data files
(`crates/sail-delta-lake/src/writer/mod.rs:694-706`), and a column that the file does not have reads
as null (`crates/sail-common-datafusion/src/schema_evolution.rs:293-307`; an error if the column is
declared not null). Column mapping is left out here. -/
def matches_ (c : Expr) (r : Row) : Bool := (eval (envOf r) c).toB == some true

/-- `build_delete_plan_mor` (`op_delete.rs:181-262`): the rows after the commit. A condition that
reads partition columns only takes the other path; otherwise the positions that match are added to
the deletion vector of each file found
(`crates/sail-delta-lake/src/physical_plan/dv_writer_exec.rs:731-835`). -/
def deleteMor (t : Table) (c : Expr) (fs : List File) : List Row :=
  if !requiresStats t c then deleteCow t c fs
  else fs.flatMap (fun f =>
    if chosen t c f then (f.rows.filter (fun r => !matches_ c r)).map (seen t f) else rowsOf t f)

/-- `build_overwrite_if_plan` (`op_write.rs:152-287`) with `build_old_data_plan` (290-350): the
rows after the commit. `wparts` are the partition columns that the writer was given: the old data
side decides with them whether the condition is partition-only (298), the table's own decide only
what is reported for the remove side (242). -/
def overwriteIf (t : Table) (wparts : List String) (c : Expr) (new : List Row) (fs : List File) :
    List Row :=
  let partitionOnly := !(c.cols.any (fun n => !wparts.contains n))
  let touched := fs.filter (chosen t c)
  let untouched := fs.filter (fun f => !chosen t c f)
  content t untouched ++ new ++ (scanByAdds t partitionOnly touched).filter (isFalse c)

end Verif.Delta.MetaFilter
