import Mathlib.Data.List.Nodup
import Mathlib.Data.List.Induction
import Verif.Exec.SchedulerProps2

/-!
# C06 and C31, the part of the job scheduler

Outputs of final stages are added to the job output exactly once per attempt, and the cause of a failed
attempt is kept.
-/

namespace Verif.Exec

open Spec

/-! ## What every call preserves -/

/-- Every attempt of `as` is still there in `bs` and related by `R`. -/
def Pres (R : Attempt → Attempt → Prop) (as bs : List Attempt) : Prop :=
  ∀ (i : Nat) (a : Attempt), as[i]? = some a → ∃ b, bs[i]? = some b ∧ R a b

/-- Relations between attempts that survive cancelation and marking as fetched. -/
structure Stable (R : Attempt → Attempt → Prop) : Prop where
  refl : ∀ a, R a a
  trans : ∀ {a b c}, R a b → R b c → R a c
  cancel : ∀ a : Attempt, R a a.cancel
  fetch : ∀ a : Attempt, R a { a with fetched := true }

section
variable {R : Attempt → Attempt → Prop}

theorem Pres.refl (hR : Stable R) (as : List Attempt) : Pres R as as :=
  fun _ a h => ⟨a, h, hR.refl a⟩

theorem Pres.trans (hR : Stable R) {as bs cs : List Attempt} (h : Pres R as bs) (h' : Pres R bs cs) :
    Pres R as cs := by
  intro i a ha
  obtain ⟨b, hb, h1⟩ := h i a ha
  obtain ⟨c, hc, h2⟩ := h' i b hb
  exact ⟨c, hc, hR.trans h1 h2⟩

theorem pres_cancel (hR : Stable R) (as : List Attempt) : Pres R as (as.map Attempt.cancel) := by
  intro i a ha
  exact ⟨a.cancel, by simp [ha], hR.cancel a⟩

theorem pres_modify (hR : Stable R) (f : Attempt → Attempt) (hf : ∀ a, R a (f a)) (k : Nat)
    (as : List Attempt) : Pres R as (as.modify k f) := by
  intro i a ha
  by_cases hk : k = i
  · exact ⟨f a, by simp [hk, ha], hf a⟩
  · exact ⟨a, by simp [hk, ha], hR.refl a⟩

theorem pres_append (hR : Stable R) (as bs : List Attempt) : Pres R as (as ++ bs) := by
  intro i a ha
  refine ⟨a, ?_, hR.refl a⟩
  rw [List.getElem?_append_left]
  · exact ha
  · exact (List.getElem?_eq_some_iff.mp ha).1

theorem pres_onTasks (hR : Stable R) (ts : List Task) (f : List Attempt → List Attempt)
    (hf : ∀ as, Pres R as (f as)) (m : Attempts) (t : Task) : Pres R (m t) (onTasks ts f m t) := by
  unfold onTasks
  split
  · exact hf _
  · exact Pres.refl hR _

theorem pres_cascade (hR : Stable R) (l : List (List Task)) (m : Attempts) (t : Task) :
    Pres R (m t) ((cascade l m).1 t) := by
  induction l generalizing m with
  | nil => exact Pres.refl hR _
  | cons ts rest ih =>
    unfold cascade
    split
    · exact (pres_onTasks hR ts _ (pres_cancel hR) m t).trans hR (ih _)
    · exact ih _

theorem pres_refreshed (hR : Stable R) (p : Plan) (j : Job) (t : Task) :
    Pres R (j.attempts t) (refreshed p j t) :=
  (pres_cascade hR _ _ t).trans hR
    (pres_onTasks hR _ _ (fun as => pres_modify hR _ hR.fetch _ as) _ t)

theorem pres_schedule (hR : Stable R) (p : Plan) (rs : Nat → RegionState) (l : List (List Task × Nat))
    (m : Attempts) (t : Task) : Pres R (m t) ((schedule p rs l m).1 t) := by
  induction l generalizing m with
  | nil => exact Pres.refl hR _
  | cons x rest ih =>
    obtain ⟨ts, r⟩ := x
    unfold schedule
    split
    · exact (pres_onTasks hR ts _ (fun as => pres_append hR as _) m t).trans hR (ih _)
    · exact ih _

theorem pres_step (hR : Stable R) (p : Plan) (j : Job) (o : Op)
    (hrep : ∀ k s c, o = .report k s c → ∀ a, R a (a.report s c)) (t : Task) :
    Pres R (j.attempts t) ((step p j o).1.attempts t) := by
  cases o with
  | report k s c =>
    simp only [step, updateTask]
    split
    · exact pres_modify hR _ (hrep k s c rfl) _ _
    · exact Pres.refl hR _
  | cleanUp => exact Pres.refl hR _
  | stop => exact pres_cancel hR _
  | refresh =>
    simp only [step]
    unfold refresh
    split
    · split
      · exact pres_refreshed hR p j t
      · split
        · exact pres_refreshed hR p j t
        · exact (pres_refreshed hR p j t).trans hR (pres_schedule hR p _ _ _ t)
    · exact Pres.refl hR _

end

/-! ## C31: causes are kept -/

theorem stable_cause : Stable fun a b => ∀ c, a.cause = some c → b.cause = some c where
  refl _ _ h := h
  trans h h' c hc := h' c (h c hc)
  cancel a c h := by
    unfold Attempt.cancel
    split
    · exact h
    · exact h
  fetch _ _ h := h

/-- C31: once an attempt has failed with a cause, later calls and reports that carry no cause do not
lose it. -/
theorem C31_cause_is_kept (p : Plan) (k : AKey) (s : TaskState) (c : Nat) (ops : List Op) (j : Job)
    (hk : k.attempt < (j.attempts k.task).length)
    (hops : ∀ o ∈ ops, ∀ k' s' c', o = .report k' s' c' → c' = none) :
    ∃ a, ((run p (.report k s (some c) :: ops) j).attempts k.task)[k.attempt]? = some a ∧
      a.cause = some c := by
  have hstart : ∃ a, ((step p j (.report k s (some c))).1.attempts k.task)[k.attempt]? = some a ∧
      a.cause = some c := by
    refine ⟨((j.attempts k.task)[k.attempt]).report s (some c), ?_, rfl⟩
    simp [step, updateTask, List.getElem?_eq_getElem hk]
  simp only [run, List.foldl_cons]
  generalize (step p j (.report k s (some c))).1 = j' at hstart
  clear hk
  induction ops generalizing j' with
  | nil => exact hstart
  | cons o ops ih =>
    rw [List.foldl_cons]
    refine ih (fun o' ho' => hops o' (List.mem_cons_of_mem _ ho')) _ ?_
    obtain ⟨a, ha, hc⟩ := hstart
    obtain ⟨b, hb, hR⟩ := pres_step stable_cause p j' o
      (by
        intro k' s' c' ho a c hac
        have : c' = none := hops o (List.mem_cons_self ..) k' s' c' ho
        subst this
        simp [Attempt.report, hac]) k.task k.attempt a ha
    exact ⟨b, hb, hR c hc⟩

example : ((run (examplePlan 2) [.refresh, .report ⟨(0, 0), 0⟩ .failed (some 7),
    .report ⟨(0, 0), 0⟩ .failed none, .refresh] Job.init).attempts (0, 0)).map (·.cause)
    = [some 7, none] := by decide

/-! ## C06: outputs are added once -/

theorem stable_fetched : Stable fun a b => a.fetched = true → b.fetched = true where
  refl _ h := h
  trans h h' x := h' (h x)
  cancel a h := by
    unfold Attempt.cancel
    split <;> exact h
  fetch _ _ := rfl

/-- The attempt exists and is marked as part of the output. -/
def IsFetched (j : Job) (k : AKey) : Prop :=
  ∃ a, (j.attempts k.task)[k.attempt]? = some a ∧ a.fetched = true

theorem isFetched_step {p : Plan} {j : Job} {k : AKey} (h : IsFetched j k) (o : Op) :
    IsFetched (step p j o).1 k := by
  obtain ⟨a, ha, hf⟩ := h
  obtain ⟨b, hb, hR⟩ := pres_step stable_fetched p j o
    (fun _ _ _ _ _ h => h) k.task k.attempt a ha
  exact ⟨b, hb, hR hf⟩

theorem cascade_no_output (l : List (List Task)) (m : Attempts) (k : AKey) (c : Nat) :
    .extendJobOutput k c ∉ (cascade l m).2 := by
  induction l generalizing m with
  | nil => simp [cascade]
  | cons ts rest ih =>
    unfold cascade
    split
    · simp only [List.mem_append, List.mem_flatMap, List.mem_map, not_or]
      refine ⟨?_, ih _⟩
      rintro ⟨_, _, _, _, h⟩
      cases h
    · exact ih _

theorem schedule_no_output (p : Plan) (rs : Nat → RegionState) (l : List (List Task × Nat)) (m : Attempts)
    (k : AKey) (c : Nat) : .extendJobOutput k c ∉ (schedule p rs l m).2 := by
  induction l generalizing m with
  | nil => simp [schedule]
  | cons x rest ih =>
    obtain ⟨ts, r⟩ := x
    unfold schedule
    split
    · simp only [List.mem_cons, not_or]
      refine ⟨?_, ih _⟩
      intro h
      cases h
    · exact ih _

theorem cleanStages_no_output (p : Plan) (m : Attempts) (act : Nat → Bool) (k : AKey) (c : Nat) :
    .extendJobOutput k c ∉ (cleanStages p m act).2 := by
  simp [cleanStages]

/-- The output actions of a step are those of `extendOutput`, or none. -/
theorem count_step (p : Plan) (j : Job) (o : Op) (k : AKey) (c : Nat) :
    (o = .refresh ∧ j.status = .running ∧ (step p j o).2.count (.extendJobOutput k c) =
        (extendOutput p (cascade p.regions j.attempts).1).2.count (.extendJobOutput k c)) ∨
      (step p j o).2.count (.extendJobOutput k c) = 0 := by
  cases o with
  | report => right; simp [step]
  | cleanUp =>
    right
    simp only [step, cleanUp]
    rw [List.count_eq_zero]
    simp
  | stop => right; simp [step]
  | refresh =>
    simp only [step, true_and]
    unfold refresh
    split
    · left
      rename_i hrun
      have h1 := List.count_eq_zero.mpr (cascade_no_output p.regions j.attempts k c)
      have h2 := List.count_eq_zero.mpr (cleanStages_no_output p (refreshed p j) j.stageActive k c)
      have h3 := List.count_eq_zero.mpr (schedule_no_output p (regionStateOf p (refreshed p j)) p.regions.zipIdx
        (refreshed p j) k c)
      refine ⟨hrun, ?_⟩
      split
      · simp [List.count_append, h1, h2]
      · split
        · simp [List.count_append, h1, h2]
        · simp [List.count_append, h1, h2, h3]
    · right; simp

theorem mem_extendOutput {p : Plan} {m : Attempts} {k : AKey} {c : Nat} :
    .extendJobOutput k c ∈ (extendOutput p m).2 ↔
      IsTask p.graph k.task ∧ p.final k.task.1 = true ∧ c < p.channels k.task.1 ∧
      fetchable (m k.task) = true ∧ k.attempt = (m k.task).length - 1 := by
  obtain ⟨⟨s, q⟩, n⟩ := k
  simp only [extendOutput, Plan.outputTasks, Plan.stageTasks, List.mem_flatMap, List.mem_filter, List.mem_map,
    List.mem_range, IsTask]
  constructor
  · rintro ⟨t, ⟨s', ⟨hs, hfin⟩, ⟨q', hq', rfl⟩, hf⟩, c', hc', heq⟩
    cases heq
    exact ⟨⟨hs, hq'⟩, hfin, hc', hf, rfl⟩
  · rintro ⟨⟨hs, hq⟩, hfin, hc, hf, rfl⟩
    exact ⟨(s, q), ⟨s, ⟨hs, hfin⟩, ⟨q, hq, rfl⟩, hf⟩, c, hc, rfl⟩

theorem stageTasks_nodup (p : Plan) (s : Nat) : (p.stageTasks s).Nodup := by
  unfold Plan.stageTasks
  exact List.Nodup.map (fun a b h => by cases h; rfl) List.nodup_range

theorem outputTasks_nodup (p : Plan) (m : Attempts) : (p.outputTasks m).Nodup := by
  unfold Plan.outputTasks
  rw [List.nodup_flatMap]
  refine ⟨fun s _ => (stageTasks_nodup p s).filter _, ?_⟩
  refine (List.nodup_range.filter _).imp ?_
  intro a b hab x hx hy
  simp only [List.mem_filter, Plan.stageTasks, List.mem_map] at hx hy
  obtain ⟨⟨_, _, rfl⟩, _⟩ := hx
  obtain ⟨⟨_, _, h⟩, _⟩ := hy
  cases h
  exact hab rfl

theorem extendOutput_nodup (p : Plan) (m : Attempts) : (extendOutput p m).2.Nodup := by
  unfold extendOutput
  simp only
  rw [List.nodup_flatMap]
  refine ⟨fun t _ => List.Nodup.map (fun a b h => by cases h; rfl) List.nodup_range, ?_⟩
  refine (outputTasks_nodup p m).imp ?_
  intro a b hab x hx hy
  simp only [List.mem_map] at hx hy
  obtain ⟨_, _, rfl⟩ := hx
  obtain ⟨_, _, h⟩ := hy
  cases h
  exact hab rfl

theorem fetchable_spec {as : List Attempt} (h : fetchable as = true) :
    ∃ a, as[as.length - 1]? = some a ∧ a.fetched = false ∧ (a.state = .running ∨ a.state = .succeeded) := by
  unfold fetchable at h
  rw [getLast?_eq_getElem?'] at h
  split at h
  · rename_i a ha
    refine ⟨a, ha, ?_⟩
    simp only [Bool.and_eq_true, Bool.or_eq_true, beq_iff_eq, Bool.not_eq_true'] at h
    exact ⟨h.2, h.1⟩
  · cases h

/-- A fetched attempt is not added again by this step. -/
theorem count_step_fetched {p : Plan} {j : Job} {k : AKey} (h : IsFetched j k) (o : Op) (c : Nat) :
    (step p j o).2.count (.extendJobOutput k c) = 0 := by
  obtain ⟨-, -, hc⟩ | hc := count_step p j o k c
  swap
  · exact hc
  rw [hc, List.count_eq_zero, mem_extendOutput]
  rintro ⟨-, -, -, hf, hlen⟩
  obtain ⟨a, ha, hnf, -⟩ := fetchable_spec hf
  obtain ⟨b, hb, hbf⟩ := h
  obtain ⟨b', hb', hR⟩ := pres_cascade stable_fetched p.regions j.attempts k.task k.attempt b hb
  rw [hlen] at hb'
  rw [ha] at hb'
  cases hb'
  rw [hR hbf] at hnf
  cases hnf

theorem mem_step_output {p : Plan} {j : Job} {k : AKey} {o : Op} {c : Nat} :
    .extendJobOutput k c ∈ (step p j o).2 ↔
      o = .refresh ∧ j.status = .running ∧
        .extendJobOutput k c ∈ (extendOutput p (cascade p.regions j.attempts).1).2 := by
  constructor
  · intro h
    have hpos := List.count_pos_iff.mpr h
    obtain ⟨h1, h2, hc⟩ | hc := count_step p j o k c
    · rw [hc] at hpos
      exact ⟨h1, h2, List.count_pos_iff.mp hpos⟩
    · omega
  · rintro ⟨rfl, hrun, hm⟩
    simp only [step]
    unfold refresh
    simp only [hrun, if_true]
    split
    · simp only [List.mem_append]; exact .inl (.inl (.inr hm))
    · split
      · simp only [List.mem_append]; exact .inl (.inr hm)
      · simp only [List.mem_append]; exact .inl (.inl (.inr hm))

/-- The attempts after a refresh of a running job are the refreshed ones, possibly with new attempts. -/
theorem refresh_attempts {R : Attempt → Attempt → Prop} (hR : Stable R) {p : Plan} {j : Job}
    (hrun : j.status = .running) (t : Task) :
    Pres R (refreshed p j t) ((step p j .refresh).1.attempts t) := by
  simp only [step]
  unfold refresh
  simp only [hrun, if_true]
  split
  · exact Pres.refl hR _
  · split
    · exact Pres.refl hR _
    · exact pres_schedule hR p _ _ _ t

/-- An attempt added by this step is fetched afterwards. -/
theorem isFetched_of_added {p : Plan} {j : Job} {k : AKey} {o : Op} {c : Nat}
    (h : .extendJobOutput k c ∈ (step p j o).2) : IsFetched (step p j o).1 k := by
  obtain ⟨rfl, hrun, hm⟩ := mem_step_output.mp h
  rw [mem_extendOutput] at hm
  obtain ⟨⟨h1, h2⟩, hfin, hch, hf, hlen⟩ := hm
  obtain ⟨a, ha, -, -⟩ := fetchable_spec hf
  have hout : k.task ∈ p.outputTasks (cascade p.regions j.attempts).1 := by
    simp only [Plan.outputTasks, Plan.stageTasks, List.mem_flatMap, List.mem_filter, List.mem_map, List.mem_range]
    exact ⟨k.task.1, ⟨h1, hfin⟩, ⟨k.task.2, h2, rfl⟩, hf⟩
  have hr : (refreshed p j k.task)[k.attempt]? = some { a with fetched := true } := by
    simp only [refreshed, extendOutput, onTasks, if_pos hout, markFetched, hlen, List.getElem?_modify, ha]
    simp
  obtain ⟨b, hb, hR⟩ := refresh_attempts stable_fetched hrun k.task k.attempt _ hr
  exact ⟨b, hb, hR rfl⟩

theorem count_trace_fetched {p : Plan} (ops : List Op) {j : Job} {k : AKey} (h : IsFetched j k) (c : Nat) :
    (trace p ops j).count (.extendJobOutput k c) = 0 := by
  induction ops generalizing j with
  | nil => rfl
  | cons o ops ih =>
    rw [trace, List.count_append, count_step_fetched h, ih (isFetched_step h o)]

/-- C06: the scheduler adds each output channel of each attempt to the job output at most once, and only
for tasks of stages nobody else reads. -/
theorem C06_attempt_is_added_once (p : Plan) (ops : List Op) (j : Job) (k : AKey) (c : Nat) :
    (trace p ops j).count (.extendJobOutput k c) ≤ 1 ∧
    (.extendJobOutput k c ∈ trace p ops j →
      IsTask p.graph k.task ∧ (∀ s < p.graph.length, ∀ i ∈ p.graph.inputs s, i.1 ≠ k.task.1) ∧
        c < p.channels k.task.1) := by
  induction ops generalizing j with
  | nil => exact ⟨Nat.zero_le _, by simp [trace]⟩
  | cons o ops ih =>
    rw [trace, List.count_append]
    constructor
    · by_cases hm : .extendJobOutput k c ∈ (step p j o).2
      · rw [count_trace_fetched ops (isFetched_of_added hm) c]
        obtain ⟨-, -, hc⟩ | hc := count_step p j o k c
        · rw [hc]
          exact List.nodup_iff_count_le_one.mp (extendOutput_nodup p _) _
        · omega
      · rw [List.count_eq_zero.mpr hm, Nat.zero_add]
        exact (ih _).1
    · intro hm
      rw [List.mem_append] at hm
      obtain hm | hm := hm
      · obtain ⟨-, -, hm⟩ := mem_step_output.mp hm
        rw [mem_extendOutput] at hm
        obtain ⟨h1, h2, h3, -⟩ := hm
        refine ⟨h1, fun s hs i hi he => ?_, h3⟩
        have : s ∈ p.graph.consumers k.task.1 := by
          simp only [TGraph.consumers, List.mem_flatMap, List.mem_range, List.mem_map, List.mem_filter, beq_iff_eq]
          exact ⟨s, hs, i, ⟨hi, he⟩, rfl⟩
        rw [Plan.final, List.isEmpty_iff] at h2
        rw [h2] at this
        cases this
      · exact (ih _).2 hm

example : (trace (examplePlan 2) [.refresh, .report ⟨(0, 0), 0⟩ .succeeded none, .refresh,
    .report ⟨(1, 0), 0⟩ .running none, .report ⟨(2, 0), 0⟩ .running none, .refresh,
    .report ⟨(2, 0), 0⟩ .succeeded none, .refresh, .refresh] Job.init).count (.extendJobOutput ⟨(2, 0), 0⟩ 0)
    = 1 := by decide

/-! ## C06: no output is missing -/

/-- Attempts that are fetched in `bs` were already fetched in `as`. -/
def Back (as bs : List Attempt) : Prop :=
  ∀ (i : Nat) (b : Attempt), bs[i]? = some b → b.fetched = true → ∃ a, as[i]? = some a ∧ a.fetched = true

theorem Back.refl (as : List Attempt) : Back as as := fun _ b h hf => ⟨b, h, hf⟩

theorem Back.trans {as bs cs : List Attempt} (h : Back as bs) (h' : Back bs cs) : Back as cs := by
  intro i c hc hf
  obtain ⟨b, hb, hbf⟩ := h' i c hc hf
  exact h i b hb hbf

theorem back_cancel (as : List Attempt) : Back as (as.map Attempt.cancel) := by
  intro i b hb hf
  simp only [List.getElem?_map, Option.map_eq_some_iff] at hb
  obtain ⟨a, ha, rfl⟩ := hb
  refine ⟨a, ha, ?_⟩
  unfold Attempt.cancel at hf
  split at hf <;> exact hf

theorem back_append_new (as : List Attempt) : Back as (as ++ [.new]) := by
  intro i b hb hf
  rw [List.getElem?_append] at hb
  split at hb
  · exact ⟨b, hb, hf⟩
  · rw [List.getElem?_singleton] at hb
    split at hb
    · cases hb; cases hf
    · cases hb

theorem back_onTasks (ts : List Task) (f : List Attempt → List Attempt) (hf : ∀ as, Back as (f as))
    (m : Attempts) (t : Task) : Back (m t) (onTasks ts f m t) := by
  unfold onTasks
  split
  · exact hf _
  · exact Back.refl _

theorem back_cascade (l : List (List Task)) (m : Attempts) (t : Task) : Back (m t) ((cascade l m).1 t) := by
  induction l generalizing m with
  | nil => exact Back.refl _
  | cons ts rest ih =>
    unfold cascade
    split
    · exact (back_onTasks ts _ back_cancel m t).trans (ih _)
    · exact ih _

theorem back_schedule (p : Plan) (rs : Nat → RegionState) (l : List (List Task × Nat))
    (m : Attempts) (t : Task) : Back (m t) ((schedule p rs l m).1 t) := by
  induction l generalizing m with
  | nil => exact Back.refl _
  | cons x rest ih =>
    obtain ⟨ts, r⟩ := x
    unfold schedule
    split
    · exact (back_onTasks ts _ back_append_new m t).trans (ih _)
    · exact ih _

/-- A step marks an attempt as fetched only by adding all its channels. -/
theorem fetched_or_added {p : Plan} {j : Job} {o : Op} {k : AKey} (h : IsFetched (step p j o).1 k) :
    IsFetched j k ∨ ∀ c < p.channels k.task.1, .extendJobOutput k c ∈ (step p j o).2 := by
  obtain ⟨b, hb, hf⟩ := h
  cases o with
  | report k' s c =>
    left
    simp only [step, updateTask] at hb
    split at hb
    · rw [List.getElem?_modify] at hb
      obtain ⟨a, ha, rfl⟩ := Option.map_eq_some_iff.mp hb
      refine ⟨a, ha, ?_⟩
      split at hf <;> exact hf
    · exact ⟨b, hb, hf⟩
  | cleanUp => exact .inl ⟨b, hb, hf⟩
  | stop => exact .inl (back_cancel _ _ _ hb hf)
  | refresh =>
    by_cases hrun : j.status = .running
    swap
    · left
      refine ⟨b, ?_, hf⟩
      simpa [step, refresh, hrun] using hb
    have h1 : Back (refreshed p j k.task) ((step p j .refresh).1.attempts k.task) := by
      simp only [step]
      unfold refresh
      simp only [hrun, if_true]
      split
      · exact Back.refl _
      · split
        · exact Back.refl _
        · exact back_schedule p _ _ _ _
    obtain ⟨a, ha, hfa⟩ := h1 _ _ hb hf
    simp only [refreshed, extendOutput, onTasks] at ha
    split at ha
    · rename_i hout
      by_cases hlast : k.attempt = ((cascade p.regions j.attempts).1 k.task).length - 1
      · right
        intro c hc
        rw [mem_step_output]
        refine ⟨rfl, hrun, mem_extendOutput.mpr ?_⟩
        simp only [Plan.outputTasks, Plan.stageTasks, List.mem_flatMap, List.mem_filter, List.mem_map,
          List.mem_range] at hout
        obtain ⟨s, ⟨hs, hfin⟩, ⟨q, hq, heq⟩, hfe⟩ := hout
        have e1 : k.task.1 = s := by rw [← heq]
        have e2 : k.task.2 = q := by rw [← heq]
        exact ⟨⟨by rw [e1]; exact hs, by rw [e1, e2]; exact hq⟩, by rw [e1]; exact hfin, hc, hfe, hlast⟩
      · left
        rw [markFetched, List.getElem?_modify] at ha
        obtain ⟨a', ha', rfl⟩ := Option.map_eq_some_iff.mp ha
        have hne : ¬ ((cascade p.regions j.attempts).1 k.task).length - 1 = k.attempt := fun h => hlast h.symm
        rw [if_neg hne] at hfa
        exact back_cascade _ _ _ _ _ ha' hfa
    · left
      exact back_cascade _ _ _ _ _ ha hfa

theorem trace_append (p : Plan) (ops : List Op) (o : Op) (j : Job) :
    trace p (ops ++ [o]) j = trace p ops j ++ (step p (run p ops j) o).2 := by
  induction ops generalizing j with
  | nil => simp [trace, run]
  | cons o' ops ih => simp [trace, run, ih]

theorem run_append (p : Plan) (ops : List Op) (o : Op) (j : Job) :
    run p (ops ++ [o]) j = (step p (run p ops j) o).1 := by
  simp [run]

theorem fetched_in_trace (p : Plan) (ops : List Op) (k : AKey) (h : IsFetched (run p ops Job.init) k) :
    ∀ c < p.channels k.task.1, .extendJobOutput k c ∈ trace p ops Job.init := by
  induction ops using List.reverseRecOn with
  | nil =>
    obtain ⟨a, ha, -⟩ := h
    simp [run, Job.init] at ha
  | append_singleton ops o ih =>
    rw [run_append] at h
    intro c hc
    rw [trace_append, List.mem_append]
    obtain h | h := fetched_or_added h
    · exact .inl (ih h c hc)
    · exact .inr (h c hc)

/-- The last attempt of every task of a final stage has succeeded and is part of the output. -/
def OutputComplete (p : Plan) (j : Job) : Prop :=
  ∀ t, IsTask p.graph t → p.final t.1 = true →
    ∃ a, (j.attempts t)[(j.attempts t).length - 1]? = some a ∧ a.state = .succeeded ∧ a.fetched = true

theorem stable_done : Stable fun a b =>
    (a.state = .succeeded ∧ a.fetched = true → b.state = .succeeded ∧ b.fetched = true) where
  refl _ h := h
  trans h h' x := h' (h x)
  cancel a h := by
    unfold Attempt.cancel
    rw [if_pos (by rw [h.1]; rfl)]
    exact h
  fetch _ h := ⟨h.1, rfl⟩

theorem outputComplete_step {p : Plan} (hp : Planned p) {j : Job} (o : Op)
    (h : j.status = .draining → OutputComplete p j) :
    (step p j o).1.status = .draining → OutputComplete p (step p j o).1 := by
  intro hd
  by_cases hj : j.status = .draining
  · have hlen : ∀ t, ((step p j o).1.attempts t).length = (j.attempts t).length := by
      intro t
      cases o with
      | report k s c => simp only [step, updateTask]; split <;> simp
      | cleanUp => rfl
      | stop => simp [step, stop]
      | refresh => simp [step, refresh, hj]
    intro t ht hfin
    obtain ⟨a, ha, hs⟩ := h hj t ht hfin
    obtain ⟨b, hb, hR⟩ := pres_step stable_done p j o
      (by
        intro k s c _ a ⟨hs, hf⟩
        refine ⟨?_, hf⟩
        rw [report_state a s c (by rw [hs]; rfl), hs]) t _ a ha
    rw [hlen]
    exact ⟨b, hb, (hR hs).1, (hR hs).2⟩
  · cases o with
    | report k s c => exact absurd hd hj
    | cleanUp =>
      simp only [step, cleanUp] at hd
      split at hd <;> cases hd
    | stop =>
      simp only [step, stop] at hd
      split at hd
      · cases hd
      · exact absurd hd hj
    | refresh =>
      intro t ht hfin
      simp only [step] at hd ⊢
      unfold refresh at hd ⊢
      by_cases hrun : j.status = .running
      swap
      · simp only [hrun, if_false] at hd
        exact absurd hd hj
      simp only [hrun, if_true] at hd ⊢
      split at hd
      · cases hd
      split at hd
      swap
      · cases hd
      rename_i hnf hall
      simp only [hnf, if_false, hall, if_true, Bool.false_eq_true]
      rw [allRegions_true] at hall
      obtain ⟨ts, hts, htm⟩ := List.mem_flatten.mp ((Planned.mem hp).mpr ht)
      obtain ⟨r, hr⟩ := List.mem_iff_getElem?.mp hts
      have hrl : r < p.regions.length := (List.getElem?_eq_some_iff.mp hr).1
      have hls := regionStateOf_succeeded.mp (hall r hrl) t (mem_getD_of_getElem? hr ▸ htm)
      rw [lastSucceeded_iff, lastState, getLast?_eq_getElem?'] at hls
      obtain ⟨a, ha, hst⟩ := Option.map_eq_some_iff.mp hls
      refine ⟨a, ha, hst, ?_⟩
      simp only [refreshed, extendOutput, onTasks] at ha
      split at ha
      · rw [markFetched, List.length_modify, List.getElem?_modify] at ha
        obtain ⟨a', -, rfl⟩ := Option.map_eq_some_iff.mp ha
        simp
      · rename_i hout
        by_contra hnf
        apply hout
        simp only [Plan.outputTasks, Plan.stageTasks, List.mem_flatMap, List.mem_filter, List.mem_map,
          List.mem_range]
        refine ⟨t.1, ⟨ht.1, hfin⟩, ⟨t.2, ht.2, rfl⟩, ?_⟩
        rw [fetchable, getLast?_eq_getElem?', ha]
        simp [hst, Bool.not_eq_true _ ▸ hnf]

/-- C06: when the job has no more work, every channel of the last attempt of every task whose output
nobody else reads has been added to the job output, and that attempt has succeeded. -/
theorem C06_output_complete (p : Plan) (hp : Planned p) (ops : List Op)
    (hd : (run p ops Job.init).status = .draining) (t : Task) (ht : IsTask p.graph t)
    (hread : ∀ s < p.graph.length, ∀ i ∈ p.graph.inputs s, i.1 ≠ t.1) :
    ∃ n a, ((run p ops Job.init).attempts t).length = n + 1 ∧
      ((run p ops Job.init).attempts t)[n]? = some a ∧ a.state = .succeeded ∧
      ∀ c < p.channels t.1, (trace p ops Job.init).count (.extendJobOutput ⟨t, n⟩ c) = 1 := by
  have hfin : p.final t.1 = true := by
    rw [Plan.final, List.isEmpty_iff, List.eq_nil_iff_forall_not_mem]
    intro c hc
    simp only [TGraph.consumers, List.mem_flatMap, List.mem_range, List.mem_map, List.mem_filter, beq_iff_eq] at hc
    obtain ⟨s, hs, i, ⟨hi, he⟩, -⟩ := hc
    exact hread s hs i hi he
  have hinv : (run p ops Job.init).status = .draining → OutputComplete p (run p ops Job.init) := by
    clear hd
    induction ops using List.reverseRecOn with
    | nil => intro h; cases h
    | append_singleton ops o ih =>
      rw [run_append]
      exact outputComplete_step hp o ih
  obtain ⟨a, ha, hs, hf⟩ := hinv hd t ht hfin
  have hlt := (List.getElem?_eq_some_iff.mp ha).1
  refine ⟨_, a, by omega, ha, hs, fun c hc => ?_⟩
  have h1 := (C06_attempt_is_added_once p ops Job.init ⟨t, ((run p ops Job.init).attempts t).length - 1⟩ c).1
  have h2 := List.count_pos_iff.mpr (fetched_in_trace p ops ⟨t, _⟩ ⟨a, ha, hf⟩ c hc)
  omega

example : (run (examplePlan 1) [.refresh, .report ⟨(0, 0), 0⟩ .succeeded none, .refresh,
    .report ⟨(1, 0), 0⟩ .succeeded none, .report ⟨(2, 0), 0⟩ .succeeded none, .refresh] Job.init).status
    = .draining ∧ IsTask (examplePlan 1).graph (2, 0) ∧
    ∀ s < (examplePlan 1).graph.length, ∀ i ∈ (examplePlan 1).graph.inputs s, i.1 ≠ 2 :=
  ⟨by decide, ⟨by decide, by decide⟩, by decide⟩

end Verif.Exec
