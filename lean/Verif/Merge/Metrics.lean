import Verif.Merge.Model

/-! # MERGE INTO: the row counters of the Delta writer

Source: `crates/sail-delta-lake/src/physical_plan/writer_exec.rs:70-277, 825-850`. -/

namespace Verif.Merge

/-- `MergeRowMetrics` (writer_exec.rs:74-88). Counters are unbounded here; in the code they stop at 2^64-1. -/
structure Counters where
  copied : Nat := 0
  inserted : Nat := 0
  updated : Nat := 0
  deleted : Nat := 0
  noop : Nat := 0
  sourceMetric : Nat := 0
  matchedUpdated : Nat := 0
  bySourceUpdated : Nat := 0
  matchedDeleted : Nat := 0
  bySourceDeleted : Nat := 0
  detailed : Bool := false
  usesMetric : Bool := false
  deriving DecidableEq, Repr

/-- `add_operation_value` (writer_exec.rs:152-199). -/
def Counters.add (c : Counters) (op : Op) (metric : Option Nat) : Counters :=
  match op with
  | .copy => { c with copied := c.copied + 1 }
  | .insert => { c with inserted := c.inserted + 1 }
  | .update => { c with updated := c.updated + 1 }
  | .delete => { c with deleted := c.deleted + 1 }
  | .noop => { c with detailed := true, noop := c.noop + 1 }
  | .matchedUpdate => { c with detailed := true, updated := c.updated + 1, matchedUpdated := c.matchedUpdated + 1 }
  | .bySourceUpdate => { c with detailed := true, updated := c.updated + 1, bySourceUpdated := c.bySourceUpdated + 1 }
  | .matchedDelete => { c with detailed := true, deleted := c.deleted + 1, matchedDeleted := c.matchedDeleted + 1 }
  | .bySourceDelete => { c with detailed := true, deleted := c.deleted + 1, bySourceDeleted := c.bySourceDeleted + 1 }
  | .sourceMetric => { c with sourceMetric := c.sourceMetric + metric.getD 1 }

/-- `source_rows` (writer_exec.rs:201-222). -/
def Counters.sourceRows (c : Counters) : Nat :=
  if c.usesMetric then c.sourceMetric
  else if 0 < c.sourceMetric then c.sourceMetric
  else if c.detailed then c.inserted + c.matchedUpdated + c.matchedDeleted + c.noop
  else c.inserted + c.updated + c.deleted + c.noop

variable {α : Type} [DecidableEq α]

/-- `accumulate_batch` (writer_exec.rs:224-277) over the input of the writer; `metricColumn` says whether its schema has
the column of the source metric. -/
def accumulate (metricColumn : Bool) (rows : List (PRow α)) : Counters :=
  rows.foldl (fun c p => c.add p.op p.metric) { usesMetric := metricColumn && !rows.isEmpty }

/-- The counters of a copy-on-write MERGE (writer_exec.rs:829-848). Only the general plan has the metric column. -/
def cowMetrics (o : Options α) (rows : List (PRow α)) : Counters := accumulate (!insertOnly o) rows

end Verif.Merge
