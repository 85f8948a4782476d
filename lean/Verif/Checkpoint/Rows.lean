/-!
# Writing and reading checkpoints

Models crates/sail-physical-plan/src/remote_checkpoint.rs:519-597, 646-790 and the scan of a checkpoint in
crates/sail-session/src/planner.rs:212-360.

Simplifications. A batch is the list of its rows; an error in a stream is `none`, and so is an error of a function.
Row counts are natural numbers, their 64 bits do not overflow. A Parquet file gives back the rows written to it and
has a given size. The report of a partition, sent as JSON, arrives as it is or as an error. A path is the list of its
parts, a part a list of characters. The hash partitioning keeps a number for its expressions.
-/

namespace Verif.Checkpoint

/-- `CheckpointPartitionMetadata`, remote_checkpoint.rs:190-197. -/
structure Report where
  partition : Nat
  location : Option (List (List Char))
  size : Nat
  rowCount : Nat
deriving DecidableEq

/-- `RemoteCheckpointPartition`, sail-cache remote_checkpoint.rs:23-28; the file is a location and a size. -/
structure Part where
  partition : Nat
  rowCount : Nat
  file : Option (List (List Char) × Nat)
deriving DecidableEq

/-! ### The writer -/

section
variable {R : Type}

/-- The loop that looks for the first batch to write, remote_checkpoint.rs:529-544: the rows counted, the batch, and
the rest of the input. -/
def leading (zeroColumns : Bool) : List (Option (List R)) → Nat → Option (Nat × Option (List R × List (Option (List R))))
  | [], n => some (n, none)
  | none :: _, _ => none
  | some b :: rest, n =>
    if zeroColumns || b.isEmpty then leading zeroColumns rest (n + b.length)
    else some (n + b.length, some (b, rest))

/-- The rows that the sink writes, or an error. -/
def sink : List (Option (List R)) → Option (List R)
  | [] => some []
  | none :: _ => none
  | some b :: rest => (sink rest).map fun rows => b ++ rows

/-- `write_checkpoint_partition`, remote_checkpoint.rs:519-597: the report and the file. -/
def writePartition (zeroColumns : Bool) (size : List R → Nat) (partition : Nat) (location : List (List Char))
    (input : List (Option (List R))) : Option (Report × Option (List R)) :=
  (leading zeroColumns input 0).bind fun r =>
    match r.2 with
    | none => some (⟨partition, none, 0, r.1⟩, none)
    | some (first, rest) =>
      (sink (some first :: rest)).map fun rows => (⟨partition, some location, size rows, rows.length⟩, some rows)
end

/-! ### File names -/

/-- The number with at least five digits, `{partition:05}`. -/
def fiveDigits (n : Nat) : List Char :=
  List.replicate (5 - (Nat.toDigits 10 n).length) '0' ++ Nat.toDigits 10 n

/-- `part-{partition:05}-`, remote_checkpoint.rs:498, 772. -/
def partPrefix (n : Nat) : List Char := "part-".toList ++ fiveDigits n ++ ['-']

/-- The location of the file of a partition, remote_checkpoint.rs:495-498. -/
def fileLocation (root : List (List Char)) (n : Nat) (uuid : List Char) : List (List Char) :=
  root ++ [partPrefix n ++ uuid ++ ".parquet".toList]

/-- `str::strip_prefix`. -/
def stripPrefix : List Char → List Char → Option (List Char)
  | [], s => some s
  | _ :: _, [] => none
  | a :: p, b :: s => if a = b then stripPrefix p s else none

/-- `str::strip_suffix`. -/
def stripSuffix (suffix s : List Char) : Option (List Char) :=
  (stripPrefix suffix.reverse s.reverse).map List.reverse

/-- `validate_partition_location`, remote_checkpoint.rs:762-789; `uuid` is whether `Uuid::parse_str` accepts. -/
def validLocation (uuid : List Char → Bool) (root : List (List Char)) (n : Nat) (location : List (List Char)) : Bool :=
  match location.getLast? with
  | none => false
  | some name =>
    root.isPrefixOf location && decide (location.length = root.length + 1)
      && ((stripPrefix (partPrefix n) name).bind (stripSuffix ".parquet".toList)).any uuid

/-! ### The commit -/

/-- The checks of one report, remote_checkpoint.rs:683-710. -/
def acceptReport (uuid : List Char → Bool) (root : List (List Char)) (zeroColumns : Bool) (r : Report) : Option Part :=
  match r.location with
  | some location =>
    if zeroColumns then none
    else if r.size = 0 ∨ r.rowCount = 0 then none
    else if validLocation uuid root r.partition location then some ⟨r.partition, r.rowCount, some (location, r.size)⟩
    else none
  | none =>
    if r.size ≠ 0 then none
    else if r.rowCount ≠ 0 ∧ zeroColumns = false then none
    else some ⟨r.partition, r.rowCount, none⟩

/-- Insertion into the map of partitions, an error if the partition is there, remote_checkpoint.rs:711-726. -/
def insertPart (p : Part) : List Part → Option (List Part)
  | [] => some [p]
  | q :: rest =>
    if p.partition < q.partition then some (p :: q :: rest)
    else if p.partition = q.partition then none
    else (insertPart p rest).map fun l => q :: l

/-- The loop over the reports, remote_checkpoint.rs:651-728. -/
def collectInto (uuid : List Char → Bool) (root : List (List Char)) (zeroColumns : Bool) :
    List (Option Report) → List Part → Option (List Part)
  | [], parts => some parts
  | none :: _, _ => none
  | some r :: rest, parts =>
    (acceptReport uuid root zeroColumns r).bind fun p =>
    (insertPart p parts).bind fun parts' => collectInto uuid root zeroColumns rest parts'

/-- The check of the numbers, remote_checkpoint.rs:734-745. -/
def numbered : List Part → Nat → Bool
  | [], _ => true
  | p :: rest, n => decide (p.partition = n) && numbered rest (n + 1)

/-- `collect_checkpoint_partitions`, remote_checkpoint.rs:646-746. -/
def collect (uuid : List Char → Bool) (root : List (List Char)) (zeroColumns : Bool) (reports : List (Option Report)) :
    Option (List Part) :=
  (collectInto uuid root zeroColumns reports []).bind fun parts =>
    if parts.isEmpty then none else if numbered parts 0 then some parts else none

/-- The partitionings of DataFusion. -/
inductive Partitioning where
  | roundRobin (n : Nat)
  | hash (expressions n : Nat)
  | unknown (n : Nat)
deriving DecidableEq

/-- `checkpoint_partitioning_with_count`, remote_checkpoint.rs:748-760. -/
def withCount (p : Partitioning) (n : Nat) : Partitioning :=
  match p with
  | .roundRobin _ => .roundRobin n
  | .hash e expected => if expected = n then .hash e n else .unknown n
  | .unknown _ => .unknown n

/-! ### The scan -/

/-- The rows of one partition, planner.rs:246-260, 283-305: as many rows without columns as were counted, or the rows
of the file, or none without a file. -/
def scanPart {R : Type} (zeroColumns : Bool) (unit : R) (store : List (List Char) → Option (List R)) (p : Part) :
    Option (List R) :=
  if zeroColumns then some (List.replicate p.rowCount unit)
  else
    match p.file with
    | none => some []
    | some (location, _) => store location

/-- The partitions of the scan. -/
def scan {R : Type} (zeroColumns : Bool) (unit : R) (store : List (List Char) → Option (List R)) :
    List Part → Option (List (List R))
  | [] => some []
  | p :: rest =>
    (scanPart zeroColumns unit store p).bind fun rows => (scan zeroColumns unit store rest).map fun l => rows :: l

end Verif.Checkpoint
