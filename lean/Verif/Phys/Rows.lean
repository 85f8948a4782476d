/-!
# Row-wise physical operators

Models round-robin repartition (crates/sail-physical-plan/src/repartition.rs), monotonic ids
(crates/sail-physical-plan/src/monotonic_id.rs), the MERGE cardinality check
(crates/sail-physical-plan/src/merge_cardinality_check.rs), the streaming limit
(crates/sail-physical-plan/src/streaming/limit.rs) and the encoding of flow events
(crates/sail-common-datafusion/src/streaming/event/encoding.rs).

A record batch is a list of rows.
-/

namespace Verif.Phys.Rows

/-! ## Round robin -/

/-- `RowRoundRobinPartitioner`, repartition.rs:31-34. -/
structure RoundRobin where
  numPartitions : Nat
  nextIdx : Nat
deriving Repr, DecidableEq

/-- `RowRoundRobinPartitioner::new`, repartition.rs:37-52. -/
def RoundRobin.new (np inputPartition numInput : Nat) : Option RoundRobin :=
  if np = 0 then none
  else if numInput = 0 then none
  else some ⟨np, inputPartition * np / numInput⟩

/-- Indices of the rows of a batch of `n` rows that go to a partition, repartition.rs:66-70. -/
def RoundRobin.indices (r : RoundRobin) (n p : Nat) : List Nat :=
  (List.range n).filter fun i => (r.nextIdx + i) % r.numPartitions = p

/-- `RowRoundRobinPartitioner::partition`, repartition.rs:54-86: the non-empty output batches
with their partitions, and the new state. `take_arrays` selects rows by index. -/
def RoundRobin.partition {α : Type} (r : RoundRobin) (batch : List α) :
    List (Nat × List α) × RoundRobin :=
  if batch.length = 0 then ([], r)
  else if r.numPartitions = 1 then ([(0, batch)], r)
  else
    let outs := (List.range r.numPartitions).filterMap fun p =>
      let idx := r.indices batch.length p
      if idx = [] then none else some (p, idx.filterMap fun i => batch[i]?)
    (outs, { r with nextIdx := (r.nextIdx + batch.length) % r.numPartitions })

/-- All batches of one input partition, in order. -/
def RoundRobin.all {α : Type} (r : RoundRobin) : List (List α) → List (Nat × List α)
  | [] => []
  | b :: bs => (r.partition b).1 ++ (r.partition b).2.all bs

/-- Rows an output partition receives. -/
def received {α : Type} (p : Nat) (outs : List (Nat × List α)) : List α :=
  (outs.filter fun o => o.1 = p).flatMap (·.2)

/-! ## Monotonic ids -/

/-- A 64-bit word read as a signed number (`as i64`). -/
def signed (v : Nat) : Int := if v < 2 ^ 63 then (v : Int) else (v : Int) - 2 ^ 64

/-- `make_ids`, monotonic_id.rs:177-191: ids of a batch of `len` rows, and the new offset.
`none` is the overflow error. `u64` shift drops high bits; `as i64` reinterprets. -/
def makeIds (partition offset len : Nat) : Option (List Int × Nat) :=
  let base := (partition * 2 ^ 33) % 2 ^ 64
  if offset + len > 2 ^ 33 then none
  else some ((List.range len).map fun i => signed (base + offset + i), offset + len)

/-- Ids of a sequence of batches (`poll_next`, monotonic_id.rs:203-213). After an error the
stream is not polled again. -/
def allIds (partition : Nat) : List Nat → Nat → Option (List Int)
  | [], _ => some []
  | len :: lens, offset =>
    match makeIds partition offset len with
    | none => none
    | some (ids, offset') => (allIds partition lens offset').map (ids ++ ·)

/-! ## MERGE cardinality check -/

/-- The columns the check looks at, and the rest of the row. Booleans are nullable. -/
structure MergeRow (κ α : Type) where
  rowId : Option κ
  targetPresent : Option Bool
  sourcePresent : Option Bool
  rest : α
deriving Repr, DecidableEq

/-- The loop over the rows of a batch, merge_cardinality_check.rs:220-241: new `seen`, or the
violating id. -/
def checkRows {κ α : Type} [DecidableEq κ] : List (MergeRow κ α) → List κ → Except κ (List κ)
  | [], seen => .ok seen
  | r :: rs, seen =>
    if r.targetPresent = some true ∧ r.sourcePresent = some true then
      match r.rowId with
      | none => checkRows rs seen
      | some k => if k ∈ seen then .error k else checkRows rs (k :: seen)
    else checkRows rs seen

/-- `poll_next` over all batches, merge_cardinality_check.rs:177-245: the batches passed through, and
whether the stream ended with a violation. -/
def mergeCheck {κ α : Type} [DecidableEq κ] :
    List (List (MergeRow κ α)) → List κ → List (List (MergeRow κ α)) × Option κ
  | [], _ => ([], none)
  | b :: bs, seen =>
    match checkRows b seen with
    | .error k => ([], some k)
    | .ok seen' => (b :: (mergeCheck bs seen').1, (mergeCheck bs seen').2)

/-! ## Flow events -/

/-- `FlowEvent`: data rows, each with its retraction flag, or a marker. -/
inductive Event (α μ : Type) where
  | data (rows : List (α × Bool))
  | marker (m : μ)
deriving Repr, DecidableEq

/-- `StreamLimitState`, limit.rs:165-169. -/
structure Limit where
  skip : Nat
  fetch : Option Nat
deriving Repr, DecidableEq

/-- `skip_batch_if_needed`, limit.rs:172-190. -/
def Limit.skipBatch {α : Type} (l : Limit) (rows : List α) : Option (List α) × Limit :=
  if l.skip = 0 then (some rows, l)
  else if rows.length ≤ l.skip then (none, { l with skip := l.skip - rows.length })
  else (some (rows.drop l.skip), { l with skip := 0 })

/-- `fetch_batch`, limit.rs:192-212. -/
def Limit.fetchBatch {α : Type} (l : Limit) (rows : List α) : Option (List α) × Limit :=
  match l.fetch with
  | none => (some rows, l)
  | some f =>
    if f ≥ rows.length then (some rows, { l with fetch := some (f - rows.length) })
    else if f > 0 then (some (rows.take f), { l with fetch := some 0 })
    else (none, l)

/-- `step`, limit.rs:214-244, unfolded over the events of the input. Errors of the input are
forwarded like markers and are not distinguished here. -/
def Limit.run {α μ : Type} (l : Limit) : List (Event α μ) → List (Event α μ)
  | [] => []
  | .marker m :: es => .marker m :: l.run es
  | .data rows :: es =>
    match l.skipBatch rows with
    | (none, l1) => l1.run es
    | (some rows1, l1) =>
      match l1.fetchBatch rows1 with
      | (none, _) => []
      | (some rows2, l2) => .data rows2 :: l2.run es

/-- A row of an encoded batch: the marker column and, if it is null, the data. -/
structure ERow (α β : Type) where
  marker : Option β
  retracted : Bool
  data : Option α
deriving Repr, DecidableEq

/-- `EncodedFlowEventStream::encode`, encoding.rs:42-75. The data columns of a marker row hold
nulls or placeholders (`none`). -/
def encode {α μ β : Type} (enc : μ → β) : Event α μ → List (ERow α β)
  | .data rows => rows.map fun r => ⟨none, r.2, some r.1⟩
  | .marker m => [⟨some (enc m), false, none⟩]

/-- The loop of `DecodedMultiFlowEventStream::decode`, encoding.rs:147-177. `pending` are the
data rows from `start_data_index` on. `none` is an error: a marker that cannot be decoded (or a row
without data, which cannot happen in Arrow). -/
def decodeLoop {α μ β : Type} (dec : β → Option μ) :
    List (ERow α β) → List (α × Bool) → Option (List (Event α μ))
  | [], pending => some (if pending = [] then [] else [.data pending])
  | r :: rs, pending =>
    match r.marker with
    | some b =>
      match dec b with
      | none => none
      | some m => (decodeLoop dec rs []).map fun es =>
        (if pending = [] then [] else [.data pending]) ++ .marker m :: es
    | none =>
      match r.data with
      | none => none
      | some d => decodeLoop dec rs (pending ++ [(d, r.retracted)])

/-- `decode`, encoding.rs:141-177, with `get_special_columns_and_data` (encoding.rs:118-139):
`RecordBatch::try_new` fails when the data schema has no column. -/
def decode {α μ β : Type} (dec : β → Option μ) (numColumns : Nat) (batch : List (ERow α β)) :
    Option (List (Event α μ)) :=
  if numColumns = 0 then none else decodeLoop dec batch []

/-- `DecodedFlowEventStream`, encoding.rs:192-222: the events of all batches in order. -/
def decodeAll {α μ β : Type} (dec : β → Option μ) (numColumns : Nat) :
    List (List (ERow α β)) → Option (List (Event α μ))
  | [] => some []
  | b :: bs =>
    match decode dec numColumns b, decodeAll dec numColumns bs with
    | some es, some es' => some (es ++ es')
    | _, _ => none

end Verif.Phys.Rows
