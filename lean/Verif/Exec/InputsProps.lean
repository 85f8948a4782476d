import Verif.Exec.InputsLemmas
import Mathlib.Tactic.Ring

/-!
# C15, C16, C17: stage inputs, replicas, coalescing

`Spec` describes, from the documentation of `InputMode` (job_graph/mod.rs:145-163),
which groups of the input operator a consumer stage executes:

* forward / shuffle / rescale: consumer tasks together execute every partition of the
  input operator once (`exec` lists them over all consumer tasks, in any order; a plan such
  as a union just permutes who executes what);
* merge: every consumer task executes all partitions of the input operator;
* broadcast: every consumer task executes partition 0 of the input operator.
-/

namespace Verif.Exec

namespace Spec

/-- All keys read by executing the given partitions of the input operator
(`MultiChannelTaskStreamReader::open` reads `keys[partition]`, stream/accessor.rs:287-344;
an index outside of the list is an error, here it reads nothing). -/
def readsOf (groups : List (List InputKey)) (exec : List Nat) : List InputKey :=
  exec.flatMap fun g => groups.getD g []

end Spec

variable (P C O : Nat) (latest : Nat → Option Nat) (att : Nat → Nat)

/-- C15 (one-to-one): every producer output `(p, c)` is read exactly once over all tasks of
the consumer stage. -/
theorem C15_forward_exactly_once (h : ∀ p < P, latest p = some (att p))
    (exec : List Nat) (hexec : exec.Perm (List.range P))
    (p c : Nat) (hp : p < P) (hc : c < C) :
    ∃ groups, inputKeys .forward P C O latest = some groups ∧
      (Spec.readsOf groups exec).count ⟨p, att p, c⟩ = 1 := by
  refine ⟨_, inputKeys_forward P C O latest att h, ?_⟩
  have e : Spec.readsOf ((List.range P).map (pkeys att C)) exec = exec.flatMap (pkeys att C) := by
    unfold Spec.readsOf
    apply List.flatMap_congr
    intro g hg
    have : g < P := List.mem_range.mp (hexec.mem_iff.mp hg)
    simp [List.getD, this]
  rw [e, count_flatMap_pkeys _ _ _ _ hc, hexec.count_eq, count_range_lt hp]

/-- C15 (one-to-one): the task executing partition `p` reads only partition `p`, from its
latest attempt, all channels in order. -/
theorem C15_forward_same_partition (h : ∀ p < P, latest p = some (att p))
    (p : Nat) (hp : p < P) :
    ∃ groups, inputKeys .forward P C O latest = some groups ∧ groups.length = P ∧
      groups[p]? = some ((List.range C).map fun c => ⟨p, att p, c⟩) := by
  refine ⟨_, inputKeys_forward P C O latest att h, by simp, ?_⟩
  simp [hp, pkeys]

/-- C15 (shuffle): every producer output is read exactly once, by the task that executes
the partition of the channel's number. -/
theorem C15_shuffle_exactly_once (h : ∀ p < P, latest p = some (att p))
    (exec : List Nat) (hexec : exec.Perm (List.range C))
    (p c : Nat) (hp : p < P) (hc : c < C) :
    ∃ groups, inputKeys .shuffle P C O latest = some groups ∧ groups.length = C ∧
      (Spec.readsOf groups exec).count ⟨p, att p, c⟩ = 1 ∧
      (Spec.readsOf groups [c]).count ⟨p, att p, c⟩ = 1 := by
  refine ⟨_, inputKeys_shuffle P C O latest att h, by simp, ?_⟩
  have key : ∀ l : List Nat, (∀ g ∈ l, g < C) →
      (Spec.readsOf ((List.range C).map fun c => (List.range P).map fun p =>
        (⟨p, att p, c⟩ : InputKey)) l).count ⟨p, att p, c⟩ = l.count c := by
    intro l hl
    induction l with
    | nil => rfl
    | cons g l ih =>
      have hg : g < C := hl g (by simp)
      have ih' := ih (fun g' hg' => hl g' (by simp [hg']))
      simp only [Spec.readsOf, List.flatMap_cons, List.count_append] at ih' ⊢
      rw [ih', List.count_cons]
      have : (((List.range C).map fun c => (List.range P).map fun p =>
          (⟨p, att p, c⟩ : InputKey)).getD g []) =
          (List.range P).map fun p => (⟨p, att p, g⟩ : InputKey) := by
        simp [List.getD, hg]
      rw [this]
      by_cases hgc : g = c
      · subst hgc
        rw [List.count_eq_one_of_mem]
        · simp [Nat.add_comm]
        · apply List.Nodup.map _ List.nodup_range
          intro a b hab; simpa using (InputKey.mk.inj hab).1
        · simpa using hp
      · rw [List.count_eq_zero_of_not_mem]
        · simp [hgc]
        · simp only [List.mem_map, not_exists, not_and]
          intro x _ hx
          exact hgc (InputKey.mk.inj hx).2.2
  constructor
  · rw [key exec (fun g hg => List.mem_range.mp (hexec.mem_iff.mp hg)), hexec.count_eq,
      count_range_lt hc]
  · rw [key [c] (by simpa using hc)]; simp

/-- C15 (merge): every consumer task, which executes all partitions of the input, reads
every producer output exactly once. -/
theorem C15_merge_each_reader_once (h : ∀ p < P, latest p = some (att p))
    (p c : Nat) (hp : p < P) (hc : c < C) :
    ∃ groups, inputKeys .merge P C O latest = some groups ∧ groups.length = P ∧
      (Spec.readsOf groups (List.range P)).count ⟨p, att p, c⟩ = 1 := by
  obtain ⟨g, hg, h1⟩ := C15_forward_exactly_once P C O latest att h (List.range P)
    (List.Perm.refl _) p c hp hc
  refine ⟨g, hg, ?_, h1⟩
  have := inputKeys_forward P C O latest att h
  rw [this] at hg
  simp [← Option.some.inj hg]

/-- C15 (broadcast): every consumer task, which executes partition 0 of the input, reads
every producer output exactly once. -/
theorem C15_broadcast_each_reader_once (h : ∀ p < P, latest p = some (att p))
    (p c : Nat) (hp : p < P) (hc : c < C) :
    ∃ groups, inputKeys .broadcast P C O latest = some groups ∧ groups.length = 1 ∧
      (Spec.readsOf groups [0]).count ⟨p, att p, c⟩ = 1 := by
  refine ⟨_, inputKeys_broadcast P C O latest att h, rfl, ?_⟩
  have : Spec.readsOf [((List.range P).map (pkeys att C)).flatten] [0]
      = (List.range P).flatMap (pkeys att C) := by
    simp [Spec.readsOf, List.getD, List.flatMap]
  rw [this, count_flatMap_pkeys _ _ _ _ hc, count_range_lt hp]

/-- The concatenation of the first `k` rescale groups. -/
theorem rescale_reads (k : Nat) (hk : k ≤ O) :
    Spec.readsOf ((List.range O).map fun o =>
        (natRange (coalescedInputRange o P O).1 (coalescedInputRange o P O).2).flatMap
          (pkeys att C)) (List.range k)
      = (natRange 0 (k * P / O)).flatMap (pkeys att C) := by
  rw [← coalesced_concat, List.flatMap_assoc]
  unfold Spec.readsOf
  apply List.flatMap_congr
  intro g hg
  have : g < O := Nat.lt_of_lt_of_le (List.mem_range.mp hg) hk
  simp [List.getD, this]

/-- C15 (rescale), partial: when the input operator has as many partitions as its consumer
stage, every producer output is read exactly once. Missing for the full property: the input
operator may have fewer partitions than the stage it is part of (a union on top of a
coalesce), see `C15_rescale_union_loses_input`. -/
theorem C15_rescale_exactly_once_partial (h : ∀ p < P, latest p = some (att p)) (hO : 0 < O)
    (exec : List Nat) (hexec : exec.Perm (List.range O))
    (p c : Nat) (hp : p < P) (hc : c < C) :
    ∃ groups, inputKeys .rescale P C O latest = some groups ∧
      (Spec.readsOf groups exec).count ⟨p, att p, c⟩ = 1 := by
  refine ⟨_, inputKeys_rescale P C O latest att h, ?_⟩
  have e := rescale_reads P C O att O (Nat.le_refl _)
  rw [Nat.mul_div_cancel_left _ hO] at e
  have hperm : (Spec.readsOf ((List.range O).map fun o =>
        (natRange (coalescedInputRange o P O).1 (coalescedInputRange o P O).2).flatMap
          (pkeys att C)) exec).Perm
      ((natRange 0 P).flatMap (pkeys att C)) := by
    rw [← e]
    exact hexec.flatMap_right _
  rw [hperm.count_eq, count_flatMap_pkeys _ _ _ _ hc, natRange_zero, count_range_lt hp]

/-- C15 is violated for rescale inputs: if the coalesced operator has `k` partitions but the
stage containing it has `O > k` partitions (for example `coalesce(k)` below a `UNION ALL`),
then with `P ≥ O` producer partitions the last producer partition is read by nobody, although
the inputs are built without an error. -/
theorem C15_rescale_union_loses_input (h : ∀ p < P, latest p = some (att p))
    (k : Nat) (hk : k < O) (hP : O ≤ P) (c : Nat) :
    ∃ groups, inputKeys .rescale P C O latest = some groups ∧
      (Spec.readsOf groups (List.range k)).count ⟨P - 1, att (P - 1), c⟩ = 0 := by
  refine ⟨_, inputKeys_rescale P C O latest att h, ?_⟩
  rw [rescale_reads P C O att k (Nat.le_of_lt hk)]
  apply List.count_eq_zero_of_not_mem
  simp only [List.mem_flatMap, pkeys, List.mem_map, not_exists, not_and]
  intro q hq c' _ heq
  have hq' := (mem_natRange.mp hq).2
  have hqe : q = P - 1 := (InputKey.mk.inj heq).1
  have : k * P / O ≤ P - 1 := by
    have h1 : k * P ≤ (O - 1) * P := Nat.mul_le_mul_right _ (by omega)
    have h2 : (O - 1) * P = O * P - P := by rw [Nat.sub_mul, Nat.one_mul]
    have h3 : k * P ≤ O * P - O := by omega
    have h4 : O * P - O = O * (P - 1) := by rw [Nat.mul_sub_one]
    rw [h4] at h3
    calc k * P / O ≤ O * (P - 1) / O := Nat.div_le_div_right h3
      _ = P - 1 := Nat.mul_div_cancel_left _ (by omega)
  omega

/-- C15: nothing else is read: every key names an existing producer partition and channel
and the latest attempt of that partition, in every mode. -/
theorem C15_only_existing_outputs (h : ∀ p < P, latest p = some (att p))
    (mode : InputMode) (groups : List (List InputKey))
    (hg : inputKeys mode P C O latest = some groups)
    (k : InputKey) (hk : k ∈ groups.flatten) :
    k.partition < P ∧ k.channel < C ∧ k.attempt = att k.partition := by
  have pk : ∀ p < P, k ∈ pkeys att C p → k.partition < P ∧ k.channel < C ∧ k.attempt = att k.partition := by
    intro p hp hk
    simp only [pkeys, List.mem_map, List.mem_range] at hk
    obtain ⟨c, hc, rfl⟩ := hk
    exact ⟨hp, hc, rfl⟩
  cases mode with
  | forward =>
    rw [inputKeys_forward P C O latest att h] at hg
    obtain rfl := Option.some.inj hg
    simp only [List.mem_flatten, List.mem_map, List.mem_range] at hk
    obtain ⟨_, ⟨p, hp, rfl⟩, hk⟩ := hk
    exact pk p hp hk
  | merge =>
    rw [inputKeys_merge P C O latest att h] at hg
    obtain rfl := Option.some.inj hg
    simp only [List.mem_flatten, List.mem_map, List.mem_range] at hk
    obtain ⟨_, ⟨p, hp, rfl⟩, hk⟩ := hk
    exact pk p hp hk
  | broadcast =>
    rw [inputKeys_broadcast P C O latest att h] at hg
    obtain rfl := Option.some.inj hg
    simp only [List.flatten_cons, List.flatten_nil, List.append_nil, List.mem_flatten,
      List.mem_map, List.mem_range] at hk
    obtain ⟨_, ⟨p, hp, rfl⟩, hk⟩ := hk
    exact pk p hp hk
  | shuffle =>
    rw [inputKeys_shuffle P C O latest att h] at hg
    obtain rfl := Option.some.inj hg
    simp only [List.mem_flatten, List.mem_map, List.mem_range] at hk
    obtain ⟨_, ⟨c, hc, rfl⟩, hk⟩ := hk
    simp only [List.mem_map, List.mem_range] at hk
    obtain ⟨p, hp, rfl⟩ := hk
    exact ⟨hp, hc, rfl⟩
  | rescale =>
    rw [inputKeys_rescale P C O latest att h] at hg
    obtain rfl := Option.some.inj hg
    simp only [List.mem_flatten, List.mem_map, List.mem_range] at hk
    obtain ⟨_, ⟨o, ho, rfl⟩, hk⟩ := hk
    simp only [List.mem_flatMap] at hk
    obtain ⟨p, hp, hk⟩ := hk
    refine pk p ?_ hk
    have h1 := (mem_natRange.mp hp).2
    refine Nat.lt_of_lt_of_le h1 ?_
    simp only [coalescedInputRange]
    calc (o + 1) * P / O ≤ O * P / O := Nat.div_le_div_right (Nat.mul_le_mul_right _ ho)
      _ ≤ P := Nat.le_of_eq (Nat.mul_div_cancel_left _ (by omega))

/-- C15: a producer partition without any attempt is an error, not a silently missing
input, for every mode that reads all producer partitions. -/
theorem C15_missing_attempt_is_error (mode : InputMode) (hm : mode = .shuffle → 0 < C)
    (hr : mode = .rescale → 0 < O)
    (p : Nat) (hp : p < P) (hl : latest p = none) :
    inputKeys mode P C O latest = none := by
  have pg : partitionGroup C latest p = none := by simp [partitionGroup, hl]
  have base : (List.range P).mapM (partitionGroup C latest) = none :=
    mapM_none_of_exists _ _ ⟨p, List.mem_range.mpr hp, pg⟩
  cases mode with
  | forward => exact base
  | merge => exact base
  | broadcast => simp [inputKeys, base]
  | shuffle =>
    apply mapM_none_of_exists
    refine ⟨0, List.mem_range.mpr (hm rfl), ?_⟩
    apply mapM_none_of_exists
    exact ⟨p, List.mem_range.mpr hp, by simp [hl]⟩
  | rescale =>
    have hO := hr rfl
    -- the output partition that owns `p`
    have hmem : p ∈ (List.range O).flatMap fun o =>
        natRange (coalescedInputRange o P O).1 (coalescedInputRange o P O).2 := by
      rw [coalesced_concat, Nat.mul_div_cancel_left _ hO, natRange_zero]
      exact List.mem_range.mpr hp
    obtain ⟨o, ho, hpo⟩ := List.mem_flatMap.mp hmem
    apply mapM_none_of_exists
    refine ⟨o, ho, ?_⟩
    simp only [Option.map_eq_none_iff]
    exact mapM_none_of_exists _ _ ⟨p, hpo, pg⟩

-- Two producers, two channels, three consumers; attempt numbers 4 and 7.
example : ∃ latest : Nat → Option Nat, ∃ att : Nat → Nat,
    (∀ p < 2, latest p = some (att p)) ∧
    inputKeys .shuffle 2 2 3 latest = some [[⟨0, 4, 0⟩, ⟨1, 7, 0⟩], [⟨0, 4, 1⟩, ⟨1, 7, 1⟩]] :=
  ⟨fun p => if p = 0 then some 4 else if p = 1 then some 7 else none,
   fun p => if p = 0 then 4 else 7, by decide, by decide⟩
-- `coalesce(2)` of 5 partitions below a union with 3 further partitions: 5 groups are built
-- and only the first two (producer partitions 0 and 1) are ever read.
example : inputKeys .rescale 5 1 5 (fun _ => some 0) =
    some [[⟨0, 0, 0⟩], [⟨1, 0, 0⟩], [⟨2, 0, 0⟩], [⟨3, 0, 0⟩], [⟨4, 0, 0⟩]] := by decide

/-! ## C16: replicas -/

namespace Spec

/-- How often one output `(p, c)` of the producer is read through one input of a consumer
stage with `parts` partitions, by the documentation of the modes: once in total for
one-to-one, shuffle and rescale; once by each consumer partition for merge, broadcast. -/
def readers (mode : InputMode) (parts : Nat) : Nat :=
  match mode with
  | .forward | .shuffle | .rescale => 1
  | .merge | .broadcast => parts

/-- The executions of the input operator over all tasks of a consumer with `parts`
partitions, for a producer with `P` partitions and `C` channels. (For rescale this assumes
that the coalesced operator has as many partitions as the stage, see
`C15_rescale_union_loses_input` for what happens otherwise.) -/
def executions (mode : InputMode) (P C parts : Nat) : List Nat :=
  match mode with
  | .forward => List.range P
  | .shuffle => List.range C
  | .rescale => List.range parts
  | .merge => (List.range parts).flatMap fun _ => List.range P
  | .broadcast => (List.range parts).map fun _ => 0

/-- Number of times output `(p, c)` of stage `s` is read in the whole job. -/
def jobReads (stages : List WStage) (latest : Nat → Option Nat) (att : Nat → Nat)
    (s P C p c : Nat) : Nat :=
  (stages.map fun x =>
    ((x.inputs.filter fun i => i.1 == s).map fun i =>
      match inputKeys i.2 P C x.partitions latest with
      | some groups =>
        (readsOf groups (executions i.2 P C x.partitions)).count ⟨p, att p, c⟩
      | none => 0).sum).sum

end Spec

theorem le_sum_of_mem {l : List Nat} {n : Nat} (h : n ∈ l) : n ≤ l.sum := by
  induction l with
  | nil => simp at h
  | cons a l ih =>
    rw [List.sum_cons]
    rcases List.mem_cons.mp h with rfl | h
    · omega
    · have := ih h; omega

theorem sum_count_const {α : Type} [BEq α] (l : List α) (k : α) (n : Nat) :
    (((List.range n).flatMap fun _ => l).count k) = n * l.count k := by
  induction n with
  | zero => simp
  | succ n ih =>
    rw [List.range_succ, List.flatMap_append, List.count_append, ih]
    simp [Nat.succ_mul]

/-- One input: the number of reads generated equals the number counted by `replicas`. -/
theorem reads_one_input (h : ∀ p < P, latest p = some (att p)) (mode : InputMode)
    (parts : Nat) (hparts : 0 < parts) (p c : Nat) (hp : p < P) (hc : c < C) :
    ∃ groups, inputKeys mode P C parts latest = some groups ∧
      (Spec.readsOf groups (Spec.executions mode P C parts)).count ⟨p, att p, c⟩
        = Spec.readers mode parts := by
  cases mode with
  | forward =>
    exact C15_forward_exactly_once P C parts latest att h _ (List.Perm.refl _) p c hp hc
  | shuffle =>
    obtain ⟨g, hg, _, h1, _⟩ := C15_shuffle_exactly_once P C parts latest att h _
      (List.Perm.refl _) p c hp hc
    exact ⟨g, hg, h1⟩
  | rescale =>
    exact C15_rescale_exactly_once_partial P C parts latest att h hparts _
      (List.Perm.refl _) p c hp hc
  | merge =>
    obtain ⟨g, hg, _, h1⟩ := C15_merge_each_reader_once P C parts latest att h p c hp hc
    refine ⟨g, hg, ?_⟩
    simp only [Spec.readsOf, Spec.executions, List.flatMap_assoc, Spec.readers] at h1 ⊢
    rw [sum_count_const, h1, Nat.mul_one]
  | broadcast =>
    obtain ⟨g, hg, _, h1⟩ := C15_broadcast_each_reader_once P C parts latest att h p c hp hc
    refine ⟨g, hg, ?_⟩
    simp only [Spec.readsOf, Spec.executions, Spec.readers] at h1 ⊢
    rw [List.flatMap_map]
    have h1' : (g.getD 0 []).count ⟨p, att p, c⟩ = 1 := by simpa using h1
    rw [sum_count_const, h1', Nat.mul_one]

/-- C16: for a stage with at least one consumer the number of copies kept of every output is
exactly the number of times this output is read in the whole job. -/
theorem C16_replicas_eq_reads (stages : List WStage) (s : Nat)
    (h : ∀ p < P, latest p = some (att p))
    (hparts : ∀ x ∈ stages, 0 < x.partitions)
    (hcons : ∃ x ∈ stages, ∃ i ∈ x.inputs, i.1 = s)
    (p c : Nat) (hp : p < P) (hc : c < C) :
    replicas stages s = Spec.jobReads stages latest att s P C p c := by
  have hsum : ∀ l : List WStage, (∀ x ∈ l, 0 < x.partitions) →
      Spec.jobReads l latest att s P C p c =
      (l.flatMap fun x => (x.inputs.filter fun i => i.1 == s).map fun i => inputReplicas i.2 x.partitions).sum := by
    intro l hl
    induction l with
    | nil => rfl
    | cons x l ih =>
      have ih' := ih (fun y hy => hl y (by simp [hy]))
      simp only [Spec.jobReads, List.map_cons, List.sum_cons, List.flatMap_cons,
        List.sum_append] at ih' ⊢
      rw [ih']
      congr 2
      apply List.map_congr_left
      intro i _
      obtain ⟨g, hg, hcount⟩ := reads_one_input P C latest att h i.2 x.partitions
        (hl x (by simp)) p c hp hc
      rw [hg]
      simp only [hcount, Spec.readers]
      cases i.2 <;> rfl
  unfold replicas
  rw [← hsum stages hparts]
  apply Nat.max_eq_left
  obtain ⟨x, hx, i, hi, his⟩ := hcons
  rw [hsum stages hparts]
  have hmem : inputReplicas i.2 x.partitions ∈ (stages.flatMap fun x =>
      (x.inputs.filter fun i => i.1 == s).map fun i => inputReplicas i.2 x.partitions) := by
    apply List.mem_flatMap.mpr
    refine ⟨x, hx, List.mem_map.mpr ⟨i, ?_, rfl⟩⟩
    simp [hi, his]
  refine Nat.le_trans ?_ (le_sum_of_mem hmem)
  have := hparts x hx
  cases i.2 <;> first | exact Nat.le_refl _ | exact this

/-- C16: the output of a final stage (no consumer) is kept once, for the job output. -/
theorem C16_final_stage_one_replica (stages : List WStage) (s : Nat)
    (hcons : ∀ x ∈ stages, ∀ i ∈ x.inputs, i.1 ≠ s) : replicas stages s = 1 := by
  unfold replicas
  have : (stages.flatMap fun x => (x.inputs.filter fun i => i.1 == s).map fun i => inputReplicas i.2 x.partitions) = [] := by
    apply List.flatMap_eq_nil_iff.mpr
    intro x hx
    have : (x.inputs.filter fun i => i.1 == s) = [] := by
      apply List.filter_eq_nil_iff.mpr
      intro i hi
      simpa using hcons x hx i hi
    rw [this]; rfl
  rw [this]; rfl

-- Stage 0 (2 partitions, 3 channels) is merged by a 4-partition stage and shuffled to another.
example : replicas [⟨[], 2, 3⟩, ⟨[(0, .merge)], 4, 1⟩, ⟨[(0, .shuffle)], 3, 1⟩] 0 = 5 := by decide
example : Spec.jobReads [⟨[], 2, 3⟩, ⟨[(0, .merge)], 4, 1⟩, ⟨[(0, .shuffle)], 3, 1⟩]
    (fun _ => some 0) (fun _ => 0) 0 2 3 1 2 = 5 := by decide

/-! ## C17: coalesce -/

/-- C17: reading the outputs in order reads the inputs `0, 1, ..., N-1` in order, each once. -/
theorem C17_concat_is_all_inputs (N M : Nat) (hM : 0 < M) :
    ((List.range M).flatMap fun o =>
      natRange (coalescedInputRange o N M).1 (coalescedInputRange o N M).2) = List.range N := by
  rw [coalesced_concat, Nat.mul_div_cancel_left _ hM, natRange_zero]

/-- C17: every input partition belongs to exactly one output partition. -/
theorem C17_unique_owner (N M : Nat) (hM : 0 < M) (i : Nat) (hi : i < N) :
    ∃ o, (o < M ∧ (coalescedInputRange o N M).1 ≤ i ∧ i < (coalescedInputRange o N M).2) ∧
      ∀ o', (coalescedInputRange o' N M).1 ≤ i ∧ i < (coalescedInputRange o' N M).2 → o' = o := by
  have hmem : i ∈ (List.range M).flatMap fun o =>
      natRange (coalescedInputRange o N M).1 (coalescedInputRange o N M).2 := by
    rw [C17_concat_is_all_inputs N M hM]; exact List.mem_range.mpr hi
  obtain ⟨o, ho, hio⟩ := List.mem_flatMap.mp hmem
  have hio' := mem_natRange.mp hio
  refine ⟨o, ⟨List.mem_range.mp ho, hio'⟩, ?_⟩
  rintro o' ⟨h1, h2⟩
  rcases Nat.lt_trichotomy o' o with hlt | heq | hgt
  · have : (o' + 1) * N / M ≤ o * N / M :=
      Nat.div_le_div_right (Nat.mul_le_mul_right _ hlt)
    simp only [coalescedInputRange] at h2 hio'
    omega
  · exact heq
  · have : (o + 1) * N / M ≤ o' * N / M :=
      Nat.div_le_div_right (Nat.mul_le_mul_right _ hgt)
    simp only [coalescedInputRange] at h1 hio'
    omega

/-- C17: each output partition gets `⌊N/M⌋` or `⌊N/M⌋ + 1` inputs. -/
theorem C17_balanced (N M o : Nat) (hM : 0 < M) :
    let n := (coalescedInputRange o N M).2 - (coalescedInputRange o N M).1
    n = N / M ∨ n = N / M + 1 := by
  simp only [coalescedInputRange]
  have hN : N = M * (N / M) + N % M := (Nat.div_add_mod N M).symm
  have hr := Nat.mod_lt N hM
  generalize N / M = q at hN ⊢
  generalize N % M = r at hN hr
  have e : ∀ k, k * N / M = k * q + k * r / M := by
    intro k
    have : k * N = k * r + M * (k * q) := by rw [hN]; ring_nf
    rw [this, Nat.add_mul_div_left _ _ hM, Nat.add_comm]
  rw [e, e]
  have h1 : (o + 1) * r / M ≤ o * r / M + 1 := by
    have : (o + 1) * r ≤ o * r + M := by rw [Nat.succ_mul]; omega
    calc (o + 1) * r / M ≤ (o * r + M) / M := Nat.div_le_div_right this
      _ = o * r / M + 1 := Nat.add_div_right _ hM
  have h2 : o * r / M ≤ (o + 1) * r / M :=
    Nat.div_le_div_right (Nat.mul_le_mul_right _ (by omega))
  have h3 : (o + 1) * q = o * q + q := Nat.succ_mul o q
  omega

/-- C17: no output partition is empty when the count is reduced. -/
theorem C17_no_empty_output (N M o : Nat) (hM : 0 < M) (h : M ≤ N) :
    (coalescedInputRange o N M).1 < (coalescedInputRange o N M).2 := by
  have h1 := C17_balanced N M o hM
  have h2 : 1 ≤ N / M := Nat.div_pos h hM
  simp only at h1
  omega

example : (List.range 3).map (fun o => coalescedInputRange o 5 3) = [(0, 1), (1, 3), (3, 5)] := by
  decide

end Verif.Exec
