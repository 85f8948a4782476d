import Verif.Exec.SchedulerProps

/-!
# C20, C30, C31 (job scheduler, continued) and C11, C12 (task sets)
-/

namespace Verif.Exec

open Spec

/-! ## C20 -/

/-- C20 is violated. The output of stage 0 is removed once its consumer (stage 1) has
succeeded, although stage 1 shares a region with stage 2. When stage 2 then fails, stage 1 is
started again and reads the removed output of stage 0, which is not run again. -/
theorem C20_removed_output_is_read_again :
    let ops : List Op := [.refresh, .report ⟨(0, 0), 0⟩ .succeeded none, .refresh,
      .report ⟨(1, 0), 0⟩ .succeeded none, .refresh, .report ⟨(2, 0), 0⟩ .failed none, .refresh]
    let j := run (examplePlan 2) ops Job.init
    (0, .forward) ∈ (examplePlan 2).graph.inputs 1 ∧
    .cleanUpStage 0 ∈ trace (examplePlan 2) ops Job.init ∧
    j.status = .running ∧ j.stageActive 0 = false ∧
    j.attempts (0, 0) = [⟨.succeeded, none, false⟩] ∧
    j.attempts (1, 0) = [⟨.succeeded, none, false⟩, .new] := by decide

/-- Only tasks of stages that read `s` share a region with a task that reads `s`. -/
def ConsumersAlone (p : Plan) (s : Nat) : Prop :=
  ∀ ts ∈ p.regions, ∀ t ∈ ts, t.1 ∈ p.graph.consumers s → ∀ u ∈ ts, u.1 ∈ p.graph.consumers s

/-- Consumers of a removed stage have succeeded. -/
def RemovedDone (p : Plan) (s : Nat) (j : Job) : Prop :=
  j.status = .running → j.stageActive s = false →
    ∀ t, IsTask p.graph t → t.1 ∈ p.graph.consumers s → lastSucceeded (j.attempts t) = true

theorem unneeded_spec {p : Plan} {m : Attempts} {s : Nat} (h : p.unneeded m s = true) (t : Task)
    (ht : IsTask p.graph t) (hc : t.1 ∈ p.graph.consumers s) : lastSucceeded (m t) = true := by
  unfold Plan.unneeded at h
  simp only [Bool.and_eq_true, List.all_eq_true] at h
  exact h.1 t.1 hc t (List.mem_map.mpr ⟨t.2, List.mem_range.mpr ht.2, rfl⟩)

theorem removedDone_step {p : Plan} (hp : Planned p) {s : Nat} (hs : ConsumersAlone p s) {j : Job}
    (h : RemovedDone p s j) (o : Op) : RemovedDone p s (step p j o).1 := by
  cases o with
  | report k st c =>
    intro hrun hact t ht hc
    exact (updateTask_adv j k st c t).lastSucceeded (h hrun hact t ht hc)
  | cleanUp =>
    intro hrun
    simp only [step, cleanUp] at hrun
    split at hrun <;> simp at hrun
  | stop =>
    intro hrun
    simp only [step, stop] at hrun
    split at hrun
    · simp at hrun
    · rename_i hn; exact absurd (Or.inl hrun) hn
  | refresh =>
    intro hrun hact t ht hc
    by_cases hr : j.status = .running
    · simp only [step] at hrun hact ⊢
      unfold refresh at hrun hact ⊢
      simp only [hr, if_true] at hrun hact ⊢
      -- before scheduling, all consumers have succeeded
      have hbase : (cleanStages p (refreshed p j) j.stageActive).1 s = false →
          ∀ u, IsTask p.graph u → u.1 ∈ p.graph.consumers s →
            lastSucceeded (refreshed p j u) = true := by
        intro hin u hu huc
        unfold cleanStages at hin
        simp only [Bool.and_eq_false_iff, Bool.not_eq_false', Bool.and_eq_true] at hin
        rcases hin with hin | ⟨_, hin⟩
        · exact (refreshed_adv p j u).lastSucceeded (h hr hin u hu huc)
        · exact unneeded_spec hin u hu huc
      split at hrun
      · simp at hrun
      · rename_i hnf
        split at hrun
        · simp at hrun
        · rename_i hns
          simp only [hnf, hns, if_false, Bool.false_eq_true] at hact ⊢
          have hall := hbase hact
          rcases schedule_apply p (regionStateOf p (refreshed p j)) p.regions.zipIdx
            (refreshed p j) (by rw [zipIdx_fst]; exact hp.nodup) t with ⟨⟨y, hy, hty, hyr⟩, _⟩ | ⟨_, he⟩
          · exfalso
            have hy1 := mem_zipIdx_iff.mp hy
            have hmem := List.mem_of_getElem? hy1
            unfold Plan.ready at hyr
            simp only [Bool.and_eq_true, bne_iff_ne] at hyr
            apply hyr.1.1
            apply regionStateOf_succeeded.mpr
            rw [mem_getD_of_getElem? hy1]
            intro u hu
            exact hall u (hp.mem.mp (List.mem_flatten.mpr ⟨y.1, hmem, hu⟩))
              (hs y.1 hmem t hty hc u hu)
          · rw [he]; exact hall t ht hc
    · simp only [step, refresh, hr, if_false] at hrun

/-- C20, partial: if the consumers of stage `s` exchange no data with other stages through
in-memory streams, then as long as the job runs, a removed output of `s` is not needed any
more: all its consumers have succeeded (and are never started again, since succeeded tasks
stay so). Missing for the full property: consumers that share a region with other stages, see
`C20_removed_output_is_read_again`. -/
theorem C20_removed_output_is_not_needed_partial (p : Plan) (hp : Planned p) (s : Nat)
    (hs : ConsumersAlone p s) (ops : List Op)
    (hrun : (run p ops Job.init).status = .running)
    (hrem : (run p ops Job.init).stageActive s = false)
    (t : Task) (ht : IsTask p.graph t) (m : InputMode) (hin : (s, m) ∈ p.graph.inputs t.1) :
    Succeeded (run p ops Job.init) t := by
  have key : ∀ (ops : List Op) (j : Job), RemovedDone p s j → RemovedDone p s (run p ops j) := by
    intro ops
    induction ops with
    | nil => exact fun j h => h
    | cons o ops ih => exact fun j h => ih _ (removedDone_step hp hs h o)
  have h0 : RemovedDone p s Job.init := by
    intro _ h; simp [Job.init] at h
  exact lastSucceeded_spec.mp (key ops _ h0 hrun hrem t ht (mem_consumers.mpr ⟨m, hin⟩))

-- the consumer of stage 1 in the example plan is stage 2, but it shares its region with
-- stage 1: only stage 2 (without consumers) satisfies the hypothesis; a plan of two stages
-- with a blocking edge satisfies it for stage 0.
example : ConsumersAlone
    (Plan.ofGraph [⟨[], 1, false⟩, ⟨[(0, .forward)], 1, true⟩] [[(0, 0)], [(1, 0)]] (fun _ => 1)
      (fun _ => .worker) (fun _ => 0) 1) 0 := by
  intro ts hts t ht hc u hu
  simp only [Plan.ofGraph, List.mem_cons, List.not_mem_nil, or_false] at hts
  rcases hts with rfl | rfl
  · simp at ht; subst ht; exact absurd hc (by decide)
  · simp at hu; subst hu; decide

example : ¬ ConsumersAlone (examplePlan 2) 0 := by
  intro h
  have := h [(1, 0), (2, 0)] (by decide) (1, 0) (by decide) (by decide) (2, 0) (by decide)
  revert this; decide

/-! ## C30 -/

/-- C30: a job that is still running after an evaluation has an unfinished task. In particular
a running job without unfinished tasks is not stuck: evaluating it fails it, finishes it or
starts tasks. -/
theorem C30_running_job_has_unfinished_task (p : Plan) (hp : Planned p) (ht : TreeShaped p.graph)
    (ops : List Op) (hrun : (refresh p (run p ops Job.init)).1.status = .running) :
    ∃ t i, IsTask p.graph t ∧ Live (refresh p (run p ops Job.init)).1 t i := by
  generalize run p ops Job.init = j at *
  obtain ⟨rank, hrank⟩ := C30_region_dependencies_acyclic p.graph hp.wf ht p.regions hp.regions
  have hjr : j.status = .running := by
    by_contra hne
    simp [refresh, hne] at hrun
  unfold refresh at hrun ⊢
  simp only [hjr, if_true] at hrun ⊢
  split at hrun
  · simp at hrun
  rename_i hnf
  split at hrun
  · simp at hrun
  rename_i hns
  simp only [hnf, hns, if_false, Bool.false_eq_true]
  set m := refreshed p j with hm
  set rs := regionStateOf p m with hrs
  -- a region of least rank that has not succeeded
  have hex : ∃ k r, r < p.regions.length ∧ rs r ≠ .succeeded ∧ rank r = k := by
    by_contra hno
    push Not at hno
    apply hns
    apply allRegions_true.mpr
    intro r hr
    by_contra hne
    exact hno _ r hr hne rfl
  classical
  obtain ⟨r, hr, hrne, hrk⟩ := Nat.find_spec hex
  have hmin : ∀ d, d < p.regions.length → rank d < rank r → rs d = .succeeded := by
    intro d hd hlt
    by_contra hne
    exact Nat.find_min hex (by rw [← hrk]; exact hlt) ⟨d, hd, hne, rfl⟩
  have hts := List.getElem?_eq_getElem hr
  have hdeps : ∀ d ∈ p.deps r, rs d = .succeeded := by
    intro d hd
    rw [hp.deps] at hd
    obtain ⟨_, _, _, _, _, _, b, _, hb, _⟩ :=
      dependency_is_blocking p.graph hp.wf p.regions hp.regions r d hd
    exact hmin d (List.getElem?_eq_some_iff.mp hb).1 (hrank r d hd)
  have hnd : (p.regions.zipIdx.map (·.1)).flatten.Nodup := by rw [zipIdx_fst]; exact hp.nodup
  by_cases hlive : ∃ t ∈ p.regions[r], lastLive (m t) = true
  · obtain ⟨t, htr, hl⟩ := hlive
    have htask : IsTask p.graph t :=
      hp.mem.mp (List.mem_flatten.mpr ⟨_, List.getElem_mem hr, htr⟩)
    rcases schedule_apply p rs p.regions.zipIdx m hnd t with ⟨⟨y, hy, hty, hyr⟩, _⟩ | ⟨_, he⟩
    · exfalso
      unfold Plan.ready at hyr
      simp only [Bool.and_eq_true, Bool.not_eq_true', List.any_eq_false] at hyr
      exact hyr.2 t hty hl
    · unfold lastLive at hl
      cases hst : lastState (m t) with
      | none => simp [hst] at hl
      | some s =>
        rw [hst] at hl
        unfold lastState at hst
        rw [getLast?_eq_getElem?'] at hst
        obtain ⟨a, ha, has⟩ := Option.map_eq_some_iff.mp hst
        refine ⟨t, (m t).length - 1, htask, s, ⟨a, ?_, has⟩, ?_⟩
        · simp only [he]; exact ha
        · cases s <;> simp_all [TaskState.isTerminal]
  · push Not at hlive
    have hready : p.ready rs m r p.regions[r] = true := by
      unfold Plan.ready
      simp only [Bool.and_eq_true, bne_iff_ne, ne_eq, List.all_eq_true, beq_iff_eq,
        Bool.not_eq_true', List.any_eq_false]
      exact ⟨⟨hrne, hdeps⟩, fun t htr => by simpa using hlive t htr⟩
    have hne : ∃ t, t ∈ p.regions[r] := by
      by_contra hno
      push Not at hno
      apply hrne
      apply regionStateOf_succeeded.mpr
      rw [mem_getD_of_getElem? hts]
      intro t htr; exact absurd htr (hno t)
    obtain ⟨t, htr⟩ := hne
    refine ⟨t, (m t).length,
      hp.mem.mp (List.mem_flatten.mpr ⟨_, List.getElem_mem hr, htr⟩), .created, ⟨.new, ?_, rfl⟩,
      by simp, by simp, by simp⟩
    rcases schedule_apply p rs p.regions.zipIdx m hnd t with ⟨_, he⟩ | ⟨hall, _⟩
    · simp [he]
    · have := hall (p.regions[r], r) (mem_zipIdx_iff.mpr hts) htr
      simp [hready] at this

example : (refresh (examplePlan 2) (run (examplePlan 2)
    [.refresh, .report ⟨(0, 0), 0⟩ .succeeded none] Job.init)).1.status = .running := by decide

/-! ## C31 -/

theorem mem_failureCauses {as : List Attempt} {c : Nat} :
    c ∈ failureCauses as ↔ ∃ a ∈ as, a.state = .failed ∧ a.cause = some c := by
  unfold failureCauses
  simp only [List.mem_filterMap]
  constructor
  · rintro ⟨a, ha, h⟩
    split at h
    · exact ⟨a, ha, by assumption, h⟩
    · simp at h
  · rintro ⟨a, ha, h1, h2⟩
    exact ⟨a, ha, by simp [h1, h2]⟩

theorem foldl_betterCause (m : Attempts) (l : List Task) (best : Option Task)
    (hb : ∀ b, best = some b → failureCauses (m b) ≠ []) :
    match l.foldl (betterCause m) best with
    | none => best = none ∧ ∀ t ∈ l, failureCauses (m t) = []
    | some b => (b ∈ l ∨ best = some b) ∧ failureCauses (m b) ≠ [] ∧
        (∀ t ∈ l, (failureCauses (m t)).length ≤ (failureCauses (m b)).length) ∧
        ∀ b0, best = some b0 → (failureCauses (m b0)).length ≤ (failureCauses (m b)).length := by
  induction l generalizing best with
  | nil =>
    cases best with
    | none => simp
    | some b => simp [hb b rfl]
  | cons t l ih =>
    rw [List.foldl_cons]
    by_cases ht : failureCauses (m t) = []
    · have e : betterCause m best t = best := by simp [betterCause, ht]
      rw [e]
      have := ih best hb
      split at this
      · simp_all
      · rename_i b heq
        obtain ⟨h1, h2, h3, h4⟩ := this
        refine ⟨?_, h2, ?_, h4⟩
        · rcases h1 with h1 | h1
          · exact Or.inl (by simp [h1])
          · exact Or.inr h1
        · intro u hu
          rcases List.mem_cons.mp hu with rfl | hu
          · simp [ht]
          · exact h3 u hu
    · have hb' : ∀ b, betterCause m best t = some b → failureCauses (m b) ≠ [] := by
        intro b hbb
        unfold betterCause at hbb
        simp only [ht, if_false] at hbb
        cases best with
        | none => simp at hbb; subst hbb; exact ht
        | some b0 =>
          simp only at hbb
          split at hbb
          · simp at hbb; subst hbb; exact ht
          · simp at hbb; subst hbb; exact hb _ rfl
      have hsome : ∃ b, betterCause m best t = some b ∧ (b = t ∨ best = some b) ∧
          (failureCauses (m t)).length ≤ (failureCauses (m b)).length ∧
          ∀ b0, best = some b0 → (failureCauses (m b0)).length ≤ (failureCauses (m b)).length := by
        unfold betterCause
        simp only [ht, if_false]
        cases best with
        | none => exact ⟨t, rfl, Or.inl rfl, Nat.le_refl _, by simp⟩
        | some b0 =>
          simp only
          split
          · rename_i hlt
            exact ⟨t, rfl, Or.inl rfl, Nat.le_refl _, fun b h => by
              simp at h; subst h; exact Nat.le_of_lt hlt⟩
          · rename_i hlt
            exact ⟨b0, rfl, Or.inr rfl, by omega, fun b h => by simp at h; subst h; exact Nat.le_refl _⟩
      obtain ⟨b1, e1, hmem1, hle1, hle1'⟩ := hsome
      have := ih (betterCause m best t) hb'
      split at this
      · rename_i heq
        rw [e1] at this; simp at this
      · rename_i b heq
        obtain ⟨h1, h2, h3, h4⟩ := this
        have hb1 := h4 b1 e1
        refine ⟨?_, h2, ?_, ?_⟩
        · rcases h1 with h1 | h1
          · exact Or.inl (by simp [h1])
          · rw [e1] at h1
            obtain rfl := Option.some.inj h1
            rcases hmem1 with rfl | h'
            · exact Or.inl (by simp)
            · exact Or.inr h'
        · intro u hu
          rcases List.mem_cons.mp hu with rfl | hu
          · omega
          · exact h3 u hu
        · intro b0 hb0
          have := hle1' b0 hb0
          omega

theorem mem_allTasks {p : Plan} {t : Task} : t ∈ p.allTasks ↔ IsTask p.graph t := by
  unfold Plan.allTasks Plan.stageTasks IsTask
  simp only [List.mem_flatMap, List.mem_map, List.mem_range]
  constructor
  · rintro ⟨s, hs, q, hq, rfl⟩; exact ⟨hs, hq⟩
  · rintro ⟨h1, h2⟩; exact ⟨t.1, h1, t.2, h2, rfl⟩

/-- Number of failed attempts of a task that came with a cause. -/
def Spec.failures (m : Attempts) (t : Task) : Nat :=
  ((m t).filter fun a => a.state == .failed && a.cause.isSome).length

theorem failureCauses_length (m : Attempts) (t : Task) :
    (failureCauses (m t)).length = Spec.failures m t := by
  unfold failureCauses Spec.failures
  induction m t with
  | nil => rfl
  | cons a as ih =>
    simp only [List.filterMap_cons, List.filter_cons]
    by_cases hs : a.state = .failed
    · cases hc : a.cause with
      | none => simp [hs, ih]
      | some c => simp [hs, ih]
    · simp [hs, ih]

/-- C31: when a job fails, the client is told the cause of the most recent failure of a task
with the largest number of failures; an unknown cause is only reported when no attempt failed
with a cause. -/
theorem C31_reported_cause_is_real (p : Plan) (hp : Planned p) (ops : List Op) (o : Op)
    (c : Option Nat) (hact : .failJobOutput c ∈ (step p (run p ops Job.init) o).2) :
    let m := (step p (run p ops Job.init) o).1.attempts
    (c = none → ∀ t, IsTask p.graph t → ∀ a ∈ m t, a.state = .failed → a.cause = none) ∧
    ∀ c', c = some c' → ∃ t, IsTask p.graph t ∧
        (∃ pre a post, m t = pre ++ a :: post ∧ a.state = .failed ∧ a.cause = some c' ∧
          ∀ b ∈ post, b.state = .failed → b.cause = none) ∧
        ∀ u, IsTask p.graph u → failures m u ≤ failures m t := by
  generalize run p ops Job.init = j at *
  -- the action only comes from a failing refresh
  have hfail : (step p j o).1.attempts = refreshed p j ∧ c = inferCause p (refreshed p j) := by
    cases o with
    | report k s c => simp [step] at hact
    | cleanUp =>
      simp only [step, cleanUp, List.mem_append, List.mem_flatMap, List.mem_map] at hact
      rcases hact with ⟨_, _, _, _, h⟩ | h <;> simp at h
    | stop => simp [step] at hact
    | refresh =>
      have hnot : ∀ P : Prop, .failJobOutput c ∈ (cascade p.regions j.attempts).2 → P := by
        intro P ha
        obtain ⟨_, _, _, _, _, k, _, hk⟩ := (cascade_actions _ _ hp.nodup _).mp ha
        simp at hk
      simp only [step] at hact ⊢
      unfold refresh at hact ⊢
      by_cases hrun : j.status = .running
      · simp only [hrun, if_true] at hact ⊢
        split at hact
        · rename_i hf
          simp only [hf, if_true]
          simp only [List.mem_append, extendOutput, cleanStages, List.mem_flatMap, List.mem_map,
            List.mem_singleton] at hact
          rcases hact with ((h1 | ⟨_, _, _, _, h1⟩) | ⟨_, _, h1⟩) | h1
          · exact hnot _ h1
          · simp at h1
          · simp at h1
          · simp at h1; exact ⟨trivial, h1⟩
        · split at hact
          · simp only [List.mem_append, extendOutput, cleanStages, List.mem_flatMap, List.mem_map] at hact
            rcases hact with (h1 | ⟨_, _, _, _, h1⟩) | ⟨_, _, h1⟩
            · exact hnot _ h1
            · simp at h1
            · simp at h1
          · simp only [List.mem_append, extendOutput, cleanStages, List.mem_flatMap, List.mem_map] at hact
            rcases hact with ((h1 | ⟨_, _, _, _, h1⟩) | ⟨_, _, h1⟩) | h1
            · exact hnot _ h1
            · simp at h1
            · simp at h1
            · obtain ⟨x, _, _, heq⟩ := (schedule_actions _ _ _ _
                (by rw [zipIdx_fst]; exact hp.nodup) _).mp h1
              simp at heq
      · simp only [hrun, if_false] at hact
        simp at hact
  obtain ⟨hm, rfl⟩ := hfail
  simp only [hm]
  have hfold := foldl_betterCause (refreshed p j) p.allTasks none (by simp)
  unfold inferCause
  cases hres : p.allTasks.foldl (betterCause (refreshed p j)) none with
  | none =>
    rw [hres] at hfold
    simp only [Option.bind_none]
    refine ⟨fun _ => ?_, by simp⟩
    intro t ht a ha hs
    cases hc : a.cause with
    | none => rfl
    | some c =>
      have : c ∈ failureCauses (refreshed p j t) := mem_failureCauses.mpr ⟨a, ha, hs, hc⟩
      rw [hfold.2 t (mem_allTasks.mpr ht)] at this
      simp at this
  | some t =>
    rw [hres] at hfold
    obtain ⟨h1, h2, h3, _⟩ := hfold
    simp only [Option.bind_some]
    cases hl : (failureCauses (refreshed p j t)).getLast? with
    | none => exact absurd (List.getLast?_eq_none_iff.mp hl) h2
    | some c =>
      have hlast : ∀ as : List Attempt, (failureCauses as).getLast? = some c →
          ∃ pre a post, as = pre ++ a :: post ∧ a.state = .failed ∧ a.cause = some c ∧
          ∀ b ∈ post, b.state = .failed → b.cause = none := by
        intro as
        induction as with
        | nil => simp [failureCauses]
        | cons a as ih =>
          intro hla
          by_cases hemp : failureCauses as = []
          · have hnone : ∀ b ∈ as, b.state = .failed → b.cause = none := by
              intro b hb hs
              cases hc : b.cause with
              | none => rfl
              | some d =>
                have : d ∈ failureCauses as := mem_failureCauses.mpr ⟨b, hb, hs, hc⟩
                rw [hemp] at this; simp at this
            have hcons : failureCauses (a :: as) = failureCauses [a] ++ failureCauses as := by
              unfold failureCauses
              rw [← List.filterMap_append]; rfl
            rw [hcons, hemp, List.append_nil] at hla
            have hmem := mem_failureCauses.mp (List.mem_of_getLast? hla)
            obtain ⟨a', ha', hs', hc'⟩ := hmem
            obtain rfl := List.mem_singleton.mp ha'
            exact ⟨[], a', as, rfl, hs', hc', hnone⟩
          · have hcons : failureCauses (a :: as) = failureCauses [a] ++ failureCauses as := by
              unfold failureCauses
              rw [← List.filterMap_append]; rfl
            rw [hcons, List.getLast?_append_of_ne_nil _ hemp] at hla
            obtain ⟨pre, b, post, rfl, hb⟩ := ih hla
            exact ⟨a :: pre, b, post, rfl, hb⟩
      refine ⟨by simp, fun c' hc' => ?_⟩
      obtain rfl := Option.some.inj hc'
      refine ⟨t, ?_, hlast _ hl, ?_⟩
      · rcases h1 with h1 | h1
        · exact mem_allTasks.mp h1
        · simp at h1
      · intro u hu
        rw [← failureCauses_length, ← failureCauses_length]
        exact h3 u (mem_allTasks.mpr hu)

example : .failJobOutput (some 8) ∈ (step (examplePlan 2) (run (examplePlan 2)
    [.refresh, .report ⟨(0, 0), 0⟩ .failed (some 7), .refresh, .report ⟨(0, 0), 1⟩ .failed (some 8)]
    Job.init) .refresh).2 := by decide

/-! ## C11 and C12 -/

theorem eraseDups_nodup {α : Type} [BEq α] [LawfulBEq α] (l : List α) : l.eraseDups.Nodup := by
  generalize hn : l.length = n
  induction n using Nat.strongRecOn generalizing l with
  | _ n ih =>
    cases l with
    | nil => simp
    | cons a l =>
      rw [List.eraseDups_cons]
      refine List.nodup_cons.mpr ⟨?_, ih _ ?_ _ rfl⟩
      · simp
      · have := List.length_filter_le (fun b => !b == a) l
        simp at hn; omega

theorem le_foldl_max (l : List Nat) (a x : Nat) (h : x ≤ a ∨ x ∈ l) : x ≤ l.foldl max a := by
  induction l generalizing a with
  | nil => simpa using h
  | cons b l ih =>
    rw [List.foldl_cons]
    apply ih
    rcases h with h | h
    · left; omega
    · rcases List.mem_cons.mp h with rfl | h
      · left; omega
      · right; exact h

theorem foldl_max_mem (l : List Nat) (a : Nat) : l.foldl max a = a ∨ l.foldl max a ∈ l := by
  induction l generalizing a with
  | nil => simp
  | cons b l ih =>
    rw [List.foldl_cons]
    rcases ih (max a b) with h | h
    · rw [h]
      rcases Nat.le_total a b with hab | hab
      · right; rw [Nat.max_eq_right hab]; simp
      · left; exact Nat.max_eq_left hab
    · right; simp [h]

theorem mem_regionStages {ts : List Task} {s : Nat} : s ∈ regionStages ts ↔ ∃ t ∈ ts, t.1 = s := by
  unfold regionStages
  rw [List.mem_eraseDups, List.mem_map]

theorem parts_le_buckets (p : Plan) (ts : List Task) (t : Task) (ht : t ∈ ts) :
    p.graph.parts t.1 ≤ p.buckets ts (p.groupKey t.1) := by
  unfold Plan.buckets
  apply le_foldl_max
  right
  apply List.mem_map_of_mem
  apply List.mem_filter.mpr
  exact ⟨mem_regionStages.mpr ⟨t, ht, rfl⟩, by simp⟩

theorem bucketOf_lt (p : Plan) (ts : List Task) (t : Task) (ht : t ∈ ts)
    (hq : t.2 < p.graph.parts t.1) : p.bucketOf ts t < p.buckets ts (p.groupKey t.1) := by
  unfold Plan.bucketOf
  have := parts_le_buckets p ts t ht
  rw [Nat.div_lt_iff_lt_mul (by omega), Nat.mul_comm]
  exact Nat.mul_lt_mul_of_pos_left hq (by omega)

theorem mem_groupKeys {p : Plan} {ts : List Task} {t : Task} (ht : t ∈ ts) :
    p.groupKey t.1 ∈ p.groupKeys ts := by
  unfold Plan.groupKeys
  rw [List.mem_eraseDups]
  exact List.mem_map_of_mem (mem_regionStages.mpr ⟨t, ht, rfl⟩)

theorem bucketOf_inj (p : Plan) (ts : List Task) (t u : Task) (ht : t ∈ ts)
    (hs : t.1 = u.1) (hpt : t.2 < p.graph.parts t.1)
    (h : p.bucketOf ts t = p.bucketOf ts u) : t = u := by
  have hb := parts_le_buckets p ts t ht
  unfold Plan.bucketOf at h
  rw [← hs] at h
  set B := p.buckets ts (p.groupKey t.1)
  set n := p.graph.parts t.1
  have hn : 0 < n := by omega
  have key : ∀ x y : Nat, x < y → x * B / n < y * B / n := by
    intro x y hxy
    have h1 : x * B / n + 1 ≤ (x * B + n) / n := by rw [Nat.add_div_right _ hn]
    have h2 : x * B + n ≤ y * B := by
      have : (x + 1) * B ≤ y * B := Nat.mul_le_mul_right B hxy
      rw [Nat.add_mul] at this; omega
    exact Nat.lt_of_lt_of_le h1 (Nat.div_le_div_right h2)
  have : t.2 = u.2 := by
    rcases Nat.lt_trichotomy t.2 u.2 with hlt | heq | hgt
    · have := key _ _ hlt; omega
    · exact heq
    · have := key _ _ hgt; omega
  exact Prod.ext hs this

/-- C12: tasks of one stage in the same task set are the same task. -/
theorem C12_partitions_never_share_a_slot (p : Plan) (m : Attempts) (ts : List Task)
    (hts : ∀ t ∈ ts, t.2 < p.graph.parts t.1)
    (x : Placement × List AKey) (hx : x ∈ p.buildRegion m ts)
    (k k' : AKey) (hk : k ∈ x.2) (hk' : k' ∈ x.2) (hstage : k.task.1 = k'.task.1) : k = k' := by
  unfold Plan.buildRegion at hx
  obtain ⟨g, _, hx⟩ := List.mem_flatMap.mp hx
  obtain ⟨b, _, rfl⟩ := List.mem_map.mp hx
  obtain ⟨t, ht, rfl⟩ := List.mem_map.mp hk
  obtain ⟨u, hu, rfl⟩ := List.mem_map.mp hk'
  unfold Plan.bucketTasks at ht hu
  simp only [List.mem_filter, Bool.and_eq_true, beq_iff_eq] at ht hu
  have := bucketOf_inj p ts t u ht.1 hstage (hts t ht.1) (by rw [ht.2.2, hu.2.2])
  subst this; rfl

/-- C12: the task sets together contain the latest attempt of every task of the region exactly
once, placed where its stage wants it, and nothing else. -/
theorem C12_every_task_in_exactly_one_set (p : Plan) (m : Attempts) (ts : List Task)
    (hnd : ts.Nodup) (hts : ∀ t ∈ ts, t.2 < p.graph.parts t.1) :
    ((p.buildRegion m ts).flatMap fun x => x.2.map fun k => (x.1, k)).Perm
      (ts.map fun t => (p.placement t.1, ⟨t, (m t).length - 1⟩)) := by
  have hdup : ((p.buildRegion m ts).flatMap fun x => x.2.map fun k => (x.1, k)).Nodup := by
    unfold Plan.buildRegion
    rw [List.flatMap_assoc, List.nodup_flatMap]
    constructor
    · intro k _
      rw [List.flatMap_map, List.nodup_flatMap]
      constructor
      · intro b _
        simp only [List.map_map]
        apply (hnd.filter _).map
        intro a c hac
        simp at hac
        exact hac.1
      · apply List.Pairwise.imp _ (List.nodup_range (n := p.buckets ts k))
        intro a b hab x hx hx'
        simp only [List.mem_map, Plan.bucketTasks, List.mem_filter, Bool.and_eq_true,
          beq_iff_eq] at hx hx'
        obtain ⟨_, ⟨t, ⟨_, _, h1⟩, rfl⟩, rfl⟩ := hx
        obtain ⟨_, ⟨u, ⟨_, _, h2⟩, rfl⟩, h3⟩ := hx'
        simp at h3
        obtain ⟨rfl, _⟩ := h3
        exact hab (h1.symm.trans h2)
    · have : (p.groupKeys ts).Nodup := eraseDups_nodup _
      apply List.Pairwise.imp _ this
      intro a b hab x hx hx'
      simp only [List.mem_flatMap, List.mem_map] at hx hx'
      obtain ⟨_, ⟨_, _, rfl⟩, _, hk, rfl⟩ := hx
      obtain ⟨_, ⟨_, _, rfl⟩, _, hk', h3⟩ := hx'
      obtain ⟨t, ht, rfl⟩ := List.mem_map.mp hk
      obtain ⟨u, hu, rfl⟩ := List.mem_map.mp hk'
      simp only [Plan.bucketTasks, List.mem_filter, Bool.and_eq_true, beq_iff_eq] at ht hu
      simp at h3
      obtain ⟨_, rfl, _⟩ := h3
      exact hab (ht.2.1.symm.trans hu.2.1)
  have hdup' : (ts.map fun t => (p.placement t.1, (⟨t, (m t).length - 1⟩ : AKey))).Nodup := by
    apply hnd.map
    intro a b hab
    simp at hab
    exact hab.2.1
  apply (List.perm_ext_iff_of_nodup hdup hdup').mpr
  rintro ⟨pl, k⟩
  simp only [List.mem_flatMap, List.mem_map, Plan.buildRegion, List.mem_range]
  constructor
  · rintro ⟨_, ⟨g, hg, b, hb, rfl⟩, _, hk, heq⟩
    obtain ⟨t, ht, rfl⟩ := List.mem_map.mp hk
    simp only [Plan.bucketTasks, List.mem_filter, Bool.and_eq_true, beq_iff_eq] at ht
    obtain ⟨ht, h1, h2⟩ := ht
    simp only [Prod.mk.injEq] at heq
    obtain ⟨rfl, rfl⟩ := heq
    refine ⟨t, ht, ?_⟩
    rw [← h1]; rfl
  · rintro ⟨t, ht, heq⟩
    simp only [Prod.mk.injEq] at heq
    obtain ⟨rfl, rfl⟩ := heq
    refine ⟨_, ⟨p.groupKey t.1, mem_groupKeys ht, p.bucketOf ts t,
      bucketOf_lt p ts t ht (hts t ht), rfl⟩, _, List.mem_map.mpr ⟨t, ?_, rfl⟩, rfl⟩
    simp [Plan.bucketTasks, ht]

/-- Two stages of one region: four partitions sharing slots with two partitions. -/
def exampleRegionPlan : Plan :=
  Plan.ofGraph [⟨[], 4, true⟩, ⟨[(0, .shuffle)], 2, true⟩]
    [[(0, 0), (0, 1), (0, 2), (0, 3), (1, 0), (1, 1)]] (fun _ => 1) (fun _ => .worker) (fun _ => 0) 1

example : exampleRegionPlan.buildRegion (fun _ => [.new])
      [(0, 0), (0, 1), (0, 2), (0, 3), (1, 0), (1, 1)] =
    [(.worker, [⟨(0, 0), 0⟩, ⟨(1, 0), 0⟩]), (.worker, [⟨(0, 1), 0⟩]),
     (.worker, [⟨(0, 2), 0⟩, ⟨(1, 1), 0⟩]), (.worker, [⟨(0, 3), 0⟩])] := by decide

/-- C11, partial: if a region contains all partitions of each of its stages, every slot it
asks for gets a task (so it asks for at most as many slots as it has tasks). Missing: regions
that contain a single partition of their stages, see `C11_sliced_region_asks_for_unused_slots`. -/
theorem C11_every_slot_has_work_partial (p : Plan) (m : Attempts) (ts : List Task)
    (hfull : ∀ t ∈ ts, ∀ q, q < p.graph.parts t.1 → (t.1, q) ∈ ts)
    (x : Placement × List AKey) (hx : x ∈ p.buildRegion m ts) : x.2 ≠ [] := by
  unfold Plan.buildRegion at hx
  obtain ⟨g, hg, hx⟩ := List.mem_flatMap.mp hx
  obtain ⟨b, hb, rfl⟩ := List.mem_map.mp hx
  have hb := List.mem_range.mp hb
  -- a stage of the group with the largest number of partitions
  have : ∃ s ∈ (regionStages ts).filter (fun s => p.groupKey s == g),
      p.graph.parts s = p.buckets ts g := by
    rcases foldl_max_mem (((regionStages ts).filter fun s => p.groupKey s == g).map p.graph.parts) 0
      with h | h
    · have h' : p.buckets ts g = 0 := h
      omega
    · obtain ⟨s, hs, he⟩ := List.mem_map.mp h
      exact ⟨s, hs, he⟩
  obtain ⟨s, hs, he⟩ := this
  obtain ⟨hs1, hs2⟩ := List.mem_filter.mp hs
  have hs2 : p.groupKey s = g := by simpa using hs2
  obtain ⟨t, ht, rfl⟩ := mem_regionStages.mp hs1
  have hmem := hfull t ht b (by omega)
  apply List.ne_nil_of_mem
  apply List.mem_map_of_mem (a := (t.1, b))
  unfold Plan.bucketTasks
  simp only [List.mem_filter, Bool.and_eq_true, beq_iff_eq]
  refine ⟨hmem, hs2, ?_⟩
  unfold Plan.bucketOf
  simp only [hs2, ← he]
  exact Nat.mul_div_cancel _ (by omega)

/-- C11 is violated: a region holding one partition of a four-partition stage asks for four
worker slots although it has one task. -/
theorem C11_sliced_region_asks_for_unused_slots :
    let p := Plan.ofGraph [⟨[], 4, false⟩] [[(0, 0)], [(0, 1)], [(0, 2)], [(0, 3)]] (fun _ => 1)
      (fun _ => .worker) (fun _ => 0) 1
    regionTasks p.graph = some p.regions ∧
    p.buildRegion (fun _ => [.new]) [(0, 2)] =
      [(.worker, []), (.worker, []), (.worker, [⟨(0, 2), 0⟩]), (.worker, [])] := by decide

end Verif.Exec
