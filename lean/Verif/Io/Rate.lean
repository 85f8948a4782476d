/-!
# The rate source

Models crates/sail-data-source/src/formats/rate/reader.rs:188-324.

Simplifications. The clock is given; the time between batches is one second divided by their number and is exact.
Values are natural numbers, their 64 bits do not overflow. The time zone and the flow events around the batches are
left out.
-/

namespace Verif.Io.Rate

/-- `BatchGeneratorAction`, reader.rs:242-249. -/
inductive Act where
  | timestamp
  | value
  | copy (index : Nat)
deriving DecidableEq

/-- The loop of `BatchGenerator::try_new`, reader.rs:264-290; the arguments are the actions so far and the two
positions; a wrong index is an error. -/
def plan : List Nat → List Act → Option Nat → Option Nat → Option (List Act)
  | [], acts, _, _ => some acts
  | 0 :: rest, acts, ts, v =>
    match ts with
    | some j => plan rest (acts ++ [.copy j]) ts v
    | none => plan rest (acts ++ [.timestamp]) (some acts.length) v
  | 1 :: rest, acts, ts, v =>
    match v with
    | some j => plan rest (acts ++ [.copy j]) ts v
    | none => plan rest (acts ++ [.value]) ts (some acts.length)
  | _ :: _, _, _, _ => none

/-- A column of a batch. -/
inductive Col where
  | time (rows : List Int)
  | value (rows : List Nat)
deriving DecidableEq

/-- The loop of `generate`, reader.rs:299-319; copying a column that does not exist panics. -/
def columns (now : Int) (offset size : Nat) : List Act → List Col → Option (List Col)
  | [], cols => some cols
  | .timestamp :: rest, cols => columns now offset size rest (cols ++ [.time (List.replicate size now)])
  | .value :: rest, cols => columns now offset size rest (cols ++ [.value ((List.range size).map fun i => offset + i)])
  | .copy j :: rest, cols =>
    match cols[j]? with
    | some c => columns now offset size rest (cols ++ [c])
    | none => none

/-- `generate`, reader.rs:298-323: the batch, or an error, and the new offset; `RecordBatch::try_new` refuses a batch
without columns. -/
def generate (acts : List Act) (now : Int) (offset size : Nat) : Option (List Col) × Nat :=
  ((columns now offset size acts []).bind fun cols => if cols.isEmpty then none else some cols, offset + size)

/-- The stream of a partition, reader.rs:223-229: one batch for each time the clock is read. -/
def batches (acts : List Act) (size : Nat) : List Int → Nat → List (Option (List Col))
  | [], _ => []
  | now :: rest, offset => (generate acts now offset size).1 :: batches acts size rest (generate acts now offset size).2

/-- Rows per second in a partition, reader.rs:211-212. -/
def partitionRate (rowsPerSecond partitions : Nat) : Nat := max (rowsPerSecond / partitions) 1

/-- Batches per second in a partition, reader.rs:215. -/
def batchesPerSecond (rowsPerSecond partitions : Nat) : Nat := min (partitionRate rowsPerSecond partitions) 1000

/-- The rows of a batch, reader.rs:216. -/
def batchSize (rowsPerSecond partitions : Nat) : Nat :=
  partitionRate rowsPerSecond partitions / batchesPerSecond rowsPerSecond partitions

/-- `execute`, reader.rs:188-238: an error for a partition that does not exist or a wrong projection; no batches for
the rate 0. -/
def execute (rowsPerSecond partitions : Nat) (projection : List Nat) (partition : Nat) (clock : List Int) :
    Option (List (Option (List Col))) :=
  if partitions ≤ partition then none
  else if rowsPerSecond = 0 then some []
  else (plan projection [] none none).map fun acts => batches acts (batchSize rowsPerSecond partitions) clock 0

end Verif.Io.Rate
