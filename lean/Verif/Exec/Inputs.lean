/-!
# Wiring of stage inputs

Model of `TaskInputBuilder::build_task_input_keys`
(crates/sail-execution/src/driver/job_scheduler/core.rs:866-943), of
`JobGraph::replicas` (crates/sail-execution/src/job_graph/mod.rs:47-66) and of
`coalesced_input_range` (crates/sail-physical-plan/src/coalesce.rs:141-149).
-/

namespace Verif.Exec

/-- `InputMode`, job_graph/mod.rs:146-163. -/
inductive InputMode where
  | forward | merge | shuffle | broadcast | rescale
  deriving DecidableEq, Repr

/-- `TaskInputKey`: which output of the producer stage is read. -/
structure InputKey where
  partition : Nat
  attempt : Nat
  channel : Nat
  deriving DecidableEq, Repr

/-- The range `start..end` as a list (Rust `start..end`, empty when `end ≤ start`). -/
def natRange (start stop : Nat) : List Nat :=
  (List.range (stop - start)).map (start + ·)

/-- `coalesced_input_range`, sail-physical-plan/src/coalesce.rs:141-149; the same
arithmetic is used for `InputMode::Rescale` in core.rs:921-922. -/
def coalescedInputRange (partition inputPartitions outputPartitions : Nat) : Nat × Nat :=
  (partition * inputPartitions / outputPartitions,
   (partition + 1) * inputPartitions / outputPartitions)

/-- One group holding all channels of one producer partition
(core.rs:875-884 and 929-936). `latest` is `latest_attempt`, core.rs:945-957;
`none` is the error it returns when the producer task has no attempt. -/
def partitionGroup (inChannels : Nat) (latest : Nat → Option Nat) (p : Nat) :
    Option (List InputKey) :=
  (latest p).map fun a => (List.range inChannels).map fun c => ⟨p, a, c⟩

/-- One group holding one channel of all producer partitions (core.rs:893-903). -/
def channelGroup (inPartitions : Nat) (latest : Nat → Option Nat) (c : Nat) :
    Option (List InputKey) :=
  (List.range inPartitions).mapM fun p => (latest p).map fun a => ⟨p, a, c⟩

/-- `build_task_input_keys`, core.rs:866-943. The result is one group of keys per
partition of the input operator; `none` is the error result. -/
def inputKeys (mode : InputMode) (inPartitions inChannels outPartitions : Nat)
    (latest : Nat → Option Nat) : Option (List (List InputKey)) :=
  match mode with
  | .forward | .merge => (List.range inPartitions).mapM (partitionGroup inChannels latest)
  | .shuffle => (List.range inChannels).mapM (channelGroup inPartitions latest)
  | .broadcast =>
    ((List.range inPartitions).mapM (partitionGroup inChannels latest)).map fun gs => [gs.flatten]
  | .rescale =>
    (List.range outPartitions).mapM fun o =>
      let r := coalescedInputRange o inPartitions outPartitions
      ((natRange r.1 r.2).mapM (partitionGroup inChannels latest)).map List.flatten

/-- A stage as far as wiring is concerned (`Stage`, job_graph/mod.rs): its inputs, its
number of partitions and its number of output channels. -/
structure WStage where
  inputs : List (Nat × InputMode)
  partitions : Nat
  channels : Nat
  deriving Repr

/-- The replicas one input asks for, job_graph/mod.rs:56-61. -/
def inputReplicas (mode : InputMode) (consumerPartitions : Nat) : Nat :=
  match mode with
  | .forward | .shuffle | .rescale => 1
  | .merge | .broadcast => consumerPartitions

/-- `JobGraph::replicas`, job_graph/mod.rs:47-66. -/
def replicas (stages : List WStage) (stage : Nat) : Nat :=
  max (stages.flatMap fun x =>
    (x.inputs.filter fun i => i.1 == stage).map fun i => inputReplicas i.2 x.partitions).sum 1

end Verif.Exec
