import Verif.Exec.Inputs

/-!
# Task regions

Model of `JobTopology::try_new`
(crates/sail-execution/src/driver/job_scheduler/topology.rs:40-203).

Simplifications: the schema check of final stages (lines 57-66) is not modelled, it only
rejects graphs. Stage indices out of range are a panic in Rust; here lookups of missing
stages yield an empty stage and the theorems assume well-formed graphs.
-/

namespace Verif.Exec

/-- The part of `Stage` (job_graph/mod.rs) used by the topology. -/
structure TStage where
  inputs : List (Nat × InputMode)
  partitions : Nat
  /-- `OutputMode::Pipelined`; otherwise `OutputMode::Blocking`. -/
  pipelined : Bool
  deriving Repr, DecidableEq

/-- `TaskTopology`: stage and partition (topology.rs:25-28). -/
abbrev Task := Nat × Nat

abbrev TGraph := List TStage

def TGraph.stage (g : TGraph) (s : Nat) : TStage := g.getD s ⟨[], 0, false⟩
def TGraph.inputs (g : TGraph) (s : Nat) : List (Nat × InputMode) := (g.stage s).inputs
def TGraph.parts (g : TGraph) (s : Nat) : Nat := (g.stage s).partitions

/-- `stages[s].consumers`, topology.rs:47-49. -/
def TGraph.consumers (g : TGraph) (s : Nat) : List Nat :=
  (List.range g.length).flatMap fun c =>
    ((g.inputs c).filter fun i => i.1 == s).map fun _ => c

/-- `pipelined_adjacency[u]`, topology.rs:45-55: both directions of every input whose
producer is pipelined. (The order of the entries is not kept; it only influences the order
of stages inside a component.) -/
def TGraph.adjacent (g : TGraph) (u : Nat) : List Nat :=
  (((g.inputs u).filter fun i => (g.stage i.1).pipelined).map fun i => i.1) ++
  (if (g.stage u).pipelined then g.consumers u else [])

/-- The loop over the neighbors, topology.rs:79-86. -/
def pushAll (nbrs visited queue : List Nat) : List Nat × List Nat :=
  nbrs.foldl (fun st v => if v ∈ st.1 then st else (st.1 ++ [v], st.2 ++ [v])) (visited, queue)

/-- The `while` loop, topology.rs:77-87. `fuel` bounds the number of iterations; with
`fuel` = number of stages the loop always ends with an empty queue (`bfs_spec`). -/
def bfs (adj : Nat → List Nat) : Nat → List Nat → List Nat → List Nat → List Nat × List Nat
  | 0, visited, _, comp => (visited, comp)
  | _ + 1, visited, [], comp => (visited, comp)
  | fuel + 1, visited, u :: queue, comp =>
    bfs adj fuel (pushAll (adj u) visited queue).1 (pushAll (adj u) visited queue).2 (comp ++ [u])

/-- One iteration of the `for` loop over stages, topology.rs:71-90. -/
def componentStep (adj : Nat → List Nat) (n : Nat) (st : List Nat × List (List Nat)) (s : Nat) :
    List Nat × List (List Nat) :=
  if s ∈ st.1 then st
  else
    ((bfs adj n (st.1 ++ [s]) [s] []).1, st.2 ++ [(bfs adj n (st.1 ++ [s]) [s] []).2])

/-- All pipelined components, topology.rs:68-90. -/
def components (adj : Nat → List Nat) (n : Nat) : List (List Nat) :=
  ((List.range n).foldl (componentStep adj n) ([], [])).2

/-- `all_forward`, topology.rs:95-108. -/
def allForward (g : TGraph) (comp : List Nat) : Bool :=
  comp.all fun u => (g.inputs u).all fun i => !(decide (i.1 ∈ comp)) || i.2 == .forward

/-- Regions of one component, topology.rs:110-162. `none` is the internal error of lines
125-128. -/
def componentRegions (g : TGraph) (comp : List Nat) : Option (List (List Task)) :=
  if allForward g comp then
    match comp.map g.parts with
    | [] => none
    | p :: ps =>
      if ps.all (· == p) then
        some ((List.range p).map fun q => comp.map fun s => (s, q))
      else none
  else
    some [comp.flatMap fun s => (List.range (g.parts s)).map fun p => (s, p)]

/-- The task lists of all regions, topology.rs:92-163. -/
def regionTasks (g : TGraph) : Option (List (List Task)) :=
  ((components g.adjacent g.length).mapM (componentRegions g)).map List.flatten

/-- `task_to_region`, topology.rs:166-171 (every task is in one region only, `C14`, so the
first match is the only one). -/
def regionOf (regions : List (List Task)) (t : Task) : Option Nat :=
  regions.findIdx? fun r => decide (t ∈ r)

/-- The producer tasks looked up for one input of a task, topology.rs:174-197. -/
def dependencyTasks (g : TGraph) (t : Task) : List Task :=
  (g.inputs t.1).flatMap fun i =>
    if i.2 = .forward then [(i.1, t.2)]
    else (List.range (g.parts i.1)).map fun p => (i.1, p)

/-- `region.dependencies`, topology.rs:172-200. (Kept as a list, possibly with repetitions.) -/
def regionDeps (g : TGraph) (regions : List (List Task)) (r : Nat) : List Nat :=
  ((regions.getD r []).flatMap fun t =>
    (dependencyTasks g t).filterMap fun d => regionOf regions d).filter (· ≠ r)

end Verif.Exec
