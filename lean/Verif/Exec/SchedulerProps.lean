import Verif.Exec.SchedulerLemmas

/-!
# C02, C03, C04, C05, C07, C20, C30, C31: the job scheduler

A history is any list of calls of the driver: task reports (for any attempt, in any order,
duplicated or late), refreshes, clean-ups and stop. `run p ops Job.init` is the job after it.
`Planned p` says that the regions of the plan are those of its (well-formed) job graph.
-/

namespace Verif.Exec

namespace Spec

/-- The attempt `i` of task `t` is in state `s`. -/
def InState (j : Job) (t : Task) (i : Nat) (s : TaskState) : Prop :=
  ∃ a, (j.attempts t)[i]? = some a ∧ a.state = s

/-- The attempt exists and is not finished: it has not succeeded, failed or been canceled. -/
def Live (j : Job) (t : Task) (i : Nat) : Prop :=
  ∃ s, InState j t i s ∧ s ≠ .succeeded ∧ s ≠ .failed ∧ s ≠ .canceled

/-- Number of attempts of a task so far. -/
def attemptCount (j : Job) (t : Task) : Nat := (j.attempts t).length

/-- The most recent attempt of the task has succeeded. -/
def Succeeded (j : Job) (t : Task) : Prop :=
  0 < attemptCount j t ∧ InState j t (attemptCount j t - 1) .succeeded

/-- The most recent attempt of the task has failed or was canceled, and no attempt is left. -/
def Exhausted (p : Plan) (j : Job) (t : Task) : Prop :=
  0 < attemptCount j t ∧ p.maxAttempts ≤ attemptCount j t ∧
    (InState j t (attemptCount j t - 1) .failed ∨ InState j t (attemptCount j t - 1) .canceled)

end Spec

open Spec

/-- The example plan: a blocking stage, a stage reading it, and a stage merging that one. -/
def exampleGraph : TGraph := [⟨[], 1, false⟩, ⟨[(0, .forward)], 1, true⟩, ⟨[(1, .merge)], 1, true⟩]

def examplePlan (max : Nat) : Plan :=
  Plan.ofGraph exampleGraph [[(0, 0)], [(1, 0), (2, 0)]] (fun _ => 1) (fun _ => .worker)
    (fun _ => 0) max

theorem examplePlan_planned (max : Nat) : Planned (examplePlan max) where
  wf := by
    intro s i hi
    match s with
    | 0 => simp [examplePlan, Plan.ofGraph, exampleGraph, TGraph.inputs, TGraph.stage] at hi
    | 1 =>
      simp [examplePlan, Plan.ofGraph, exampleGraph, TGraph.inputs, TGraph.stage] at hi
      subst hi; show _ < 3; simp
    | 2 =>
      simp [examplePlan, Plan.ofGraph, exampleGraph, TGraph.inputs, TGraph.stage] at hi
      subst hi; show _ < 3; simp
    | n + 3 => simp [examplePlan, Plan.ofGraph, exampleGraph, TGraph.inputs, TGraph.stage] at hi
  regions := by
    show regionTasks exampleGraph = some [[(0, 0)], [(1, 0), (2, 0)]]
    decide
  deps := rfl

theorem examplePlan_treeShaped (max : Nat) : TreeShaped (examplePlan max).graph where
  earlier := by
    intro s i hi
    match s with
    | 0 => simp [examplePlan, Plan.ofGraph, exampleGraph, TGraph.inputs, TGraph.stage] at hi
    | 1 =>
      simp [examplePlan, Plan.ofGraph, exampleGraph, TGraph.inputs, TGraph.stage] at hi
      subst hi; decide
    | 2 =>
      simp [examplePlan, Plan.ofGraph, exampleGraph, TGraph.inputs, TGraph.stage] at hi
      subst hi; decide
    | n + 3 => simp [examplePlan, Plan.ofGraph, exampleGraph, TGraph.inputs, TGraph.stage] at hi
  single := by
    intro v hv u u' hu hu'
    have key : ∀ u, (∃ m, (v, m) ∈ TGraph.inputs (examplePlan max).graph u) → u = v + 1 := by
      rintro u ⟨m, hm⟩
      match u with
      | 0 => simp [examplePlan, Plan.ofGraph, exampleGraph, TGraph.inputs, TGraph.stage] at hm
      | 1 =>
        simp [examplePlan, Plan.ofGraph, exampleGraph, TGraph.inputs, TGraph.stage] at hm; omega
      | 2 =>
        simp [examplePlan, Plan.ofGraph, exampleGraph, TGraph.inputs, TGraph.stage] at hm; omega
      | n + 3 => simp [examplePlan, Plan.ofGraph, exampleGraph, TGraph.inputs, TGraph.stage] at hm
    rw [key u hu, key u' hu']

theorem reachable_inv {p : Plan} (hp : Planned p) (ops : List Op) : Inv p (run p ops Job.init) :=
  inv_run hp ops (inv_init p)

theorem lastState_inState {j : Job} {t : Task} {s : TaskState} :
    lastState (j.attempts t) = some s ↔
      0 < attemptCount j t ∧ InState j t (attemptCount j t - 1) s := by
  unfold lastState attemptCount InState
  rw [getLast?_eq_getElem?']
  constructor
  · intro h
    obtain ⟨a, ha, hs⟩ := Option.map_eq_some_iff.mp h
    have := (List.getElem?_eq_some_iff.mp ha).1
    exact ⟨by omega, a, ha, hs⟩
  · rintro ⟨_, a, ha, hs⟩
    simp [ha, hs]

theorem lastSucceeded_spec {j : Job} {t : Task} :
    lastSucceeded (j.attempts t) = true ↔ Succeeded j t := by
  rw [lastSucceeded_iff, lastState_inState]; rfl

theorem exhausted_spec {p : Plan} {j : Job} {t : Task} :
    exhausted p.maxAttempts (j.attempts t) = true ↔ Exhausted p j t := by
  unfold exhausted Exhausted
  simp only [Bool.and_eq_true, Bool.or_eq_true, beq_iff_eq, decide_eq_true_eq, lastState_inState]
  unfold attemptCount
  tauto

/-! ## C02 -/

/-- C02: no task ever has more attempts than configured (a configured maximum of zero still
runs every task once). -/
theorem C02_attempts_are_bounded (p : Plan) (hp : Planned p) (ops : List Op) (t : Task) :
    attemptCount (run p ops Job.init) t ≤ max p.maxAttempts 1 :=
  (reachable_inv hp ops).bound t

theorem refreshed_exhausted_iff {p : Plan} {j : Job} (hp : Planned p) (h : Inv p j) :
    (∃ t, IsTask p.graph t ∧ exhausted p.maxAttempts (refreshed p j t) = true) ↔
      ∃ t, IsTask p.graph t ∧ exhausted p.maxAttempts (j.attempts t) = true := by
  constructor
  · rintro ⟨t, ht, he⟩
    have hstate : lastState (refreshed p j t) = lastState ((cascade p.regions j.attempts).1 t) := by
      unfold refreshed extendOutput onTasks
      simp only
      split
      · unfold markFetched lastState
        rw [getLast?_eq_getElem?', getLast?_eq_getElem?', List.length_modify, List.getElem?_modify]
        cases ((cascade p.regions j.attempts).1 t)[((cascade p.regions j.attempts).1 t).length - 1]? <;> simp
      · rfl
    have hlen : (refreshed p j t).length = (j.attempts t).length := (refreshed_adv p j t).len.symm
    rcases cascade_apply p.regions j.attempts hp.nodup t with ⟨⟨ts, hts, htt, hany⟩, heq⟩ | ⟨_, heq⟩
    · obtain ⟨u, hu, hf⟩ := List.any_eq_true.mp hany
      refine ⟨u, hp.mem.mp (List.mem_flatten.mpr ⟨ts, hts, hu⟩), ?_⟩
      have hl := h.lockstep ts hts t htt u hu
      unfold exhausted at he ⊢
      simp only [Bool.and_eq_true, decide_eq_true_eq] at he ⊢
      refine ⟨?_, by omega⟩
      have : lastState (j.attempts u) = some .failed := by simpa [lastFailed] using hf
      simp [this]
    · refine ⟨t, ht, ?_⟩
      unfold exhausted at he ⊢
      rw [hstate, heq, hlen] at he
      exact he
  · rintro ⟨t, ht, he⟩
    refine ⟨t, ht, ?_⟩
    unfold exhausted at he ⊢
    simp only [Bool.and_eq_true, Bool.or_eq_true, beq_iff_eq, decide_eq_true_eq] at he ⊢
    refine ⟨?_, by rw [← (refreshed_adv p j t).len]; exact he.2⟩
    rcases he.1 with h1 | h1
    · exact Or.inl ((refreshed_adv p j t).lastState_terminal h1 rfl)
    · exact Or.inr ((refreshed_adv p j t).lastState_terminal h1 rfl)

/-- C02: evaluating a running job fails it exactly when some task has used up its attempts. -/
theorem C02_job_fails_exactly_when_attempts_exhausted (p : Plan) (hp : Planned p)
    (ops : List Op) (hrun : (run p ops Job.init).status = .running) :
    (refresh p (run p ops Job.init)).1.status = .failed ↔
      ∃ t, IsTask p.graph t ∧ Exhausted p (run p ops Job.init) t := by
  have h := reachable_inv hp ops
  generalize run p ops Job.init = j at *
  have key : p.anyRegion (regionStateOf p (refreshed p j)) .failed = true ↔
      ∃ t, IsTask p.graph t ∧ exhausted p.maxAttempts (refreshed p j t) = true := by
    rw [anyRegion_true]
    constructor
    · rintro ⟨r, hr, hf⟩
      obtain ⟨t, ht, he⟩ := regionStateOf_failed.mp hf
      refine ⟨t, hp.mem.mp (List.mem_flatten.mpr ⟨_, ?_, ht⟩), he⟩
      rw [mem_getD_of_getElem? (List.getElem?_eq_getElem hr)]
      exact List.getElem_mem hr
    · rintro ⟨t, ht, he⟩
      obtain ⟨ts, hts, htt⟩ := List.mem_flatten.mp (hp.mem.mpr ht)
      obtain ⟨r, hr⟩ := List.mem_iff_getElem?.mp hts
      exact ⟨r, (List.getElem?_eq_some_iff.mp hr).1,
        regionStateOf_failed.mpr ⟨t, by rw [mem_getD_of_getElem? hr]; exact htt, he⟩⟩
  have hspec : (∃ t, IsTask p.graph t ∧ Exhausted p j t) ↔
      ∃ t, IsTask p.graph t ∧ exhausted p.maxAttempts (j.attempts t) = true := by
    simp only [exhausted_spec]
  rw [hspec, ← refreshed_exhausted_iff hp h, ← key]
  unfold refresh
  rw [if_pos hrun]
  split
  · rename_i hf; simp [hf]
  · rename_i hf
    split <;> simp [hf]

/-- C02: no other call fails a job. -/
theorem C02_job_fails_only_by_refresh (p : Plan) (j : Job) (o : Op)
    (hne : j.status ≠ .failed) (hf : (step p j o).1.status = .failed) :
    o = .refresh ∧ j.status = .running := by
  cases o with
  | report k s c => exact absurd hf hne
  | refresh =>
    refine ⟨rfl, ?_⟩
    by_contra hnr
    simp only [step, refresh, hnr, if_false] at hf
    exact hne hf
  | cleanUp =>
    simp only [step, cleanUp] at hf
    split at hf <;> simp at hf
  | stop =>
    simp only [step, stop] at hf
    split at hf
    · simp at hf
    · exact absurd hf hne

-- two attempts allowed: the first failure of a task reschedules, the second one fails the job
example : (refresh (examplePlan 2) (run (examplePlan 2)
    [.refresh, .report ⟨(0, 0), 0⟩ .failed (some 7)] Job.init)).1.status = .running := by decide
example : (refresh (examplePlan 2) (run (examplePlan 2)
    [.refresh, .report ⟨(0, 0), 0⟩ .failed (some 7), .refresh, .report ⟨(0, 0), 1⟩ .failed (some 8)]
    Job.init)).1.status = .failed := by decide

/-! ## C03 -/

/-- C03: whenever a region is handed out, all tasks of all regions it depends on have
succeeded. -/
theorem C03_dependencies_succeeded_when_scheduled (p : Plan) (hp : Planned p) (ops : List Op)
    (o : Op) (r : Nat) (sets : List (Placement × List AKey))
    (hact : .scheduleRegion r sets ∈ (step p (run p ops Job.init) o).2) :
    ∀ d ∈ p.deps r, ∀ ts, p.regions[d]? = some ts → ∀ t ∈ ts,
      Succeeded (step p (run p ops Job.init) o).1 t := by
  have h := inv_step hp (reachable_inv hp ops) o
  generalize hj : run p ops Job.init = j at *
  cases o with
  | report k s c => simp [step] at hact
  | cleanUp =>
    simp only [step, cleanUp, List.mem_append, List.mem_flatMap, List.mem_map] at hact
    rcases hact with ⟨_, _, _, _, h⟩ | h <;> simp at h
  | stop => simp [step] at hact
  | refresh =>
    intro d hd ts hts t ht
    have hcas : ∀ a ∈ (cascade p.regions j.attempts).2, ∃ k, a = .cancelTask k := by
      intro a ha
      obtain ⟨_, _, _, _, _, k, _, rfl⟩ := (cascade_actions _ _ hp.nodup a).mp ha
      exact ⟨k, rfl⟩
    have hnot : ∀ P : Prop, .scheduleRegion r sets ∈ (cascade p.regions j.attempts).2 → P := by
      intro P ha
      obtain ⟨k, hk⟩ := hcas _ ha
      simp at hk
    simp only [step] at hact ⊢
    unfold refresh at hact ⊢
    by_cases hrun : j.status = .running
    · simp only [hrun, if_true] at hact ⊢
      split at hact
      · simp only [List.mem_append, extendOutput, cleanStages, List.mem_flatMap, List.mem_map,
          List.mem_singleton] at hact
        rcases hact with ((h1 | ⟨_, _, _, _, h1⟩) | ⟨_, _, h1⟩) | h1
        · exact hnot _ h1
        · simp at h1
        · simp at h1
        · simp at h1
      · split at hact
        · simp only [List.mem_append, extendOutput, cleanStages, List.mem_flatMap, List.mem_map] at hact
          rcases hact with (h1 | ⟨_, _, _, _, h1⟩) | ⟨_, _, h1⟩
          · exact hnot _ h1
          · simp at h1
          · simp at h1
        · rename_i hnf hns
          simp only [List.mem_append, extendOutput, cleanStages, List.mem_flatMap, List.mem_map] at hact
          rcases hact with ((h1 | ⟨_, _, _, _, h1⟩) | ⟨_, _, h1⟩) | h1
          · exact hnot _ h1
          · simp at h1
          · simp at h1
          · have hnd : (p.regions.zipIdx.map (·.1)).flatten.Nodup := by
              rw [zipIdx_fst]; exact hp.nodup
            obtain ⟨x, hx, hready, heq⟩ := (schedule_actions _ _ _ _ hnd _).mp h1
            simp only [Action.scheduleRegion.injEq] at heq
            obtain ⟨rfl, _⟩ := heq
            simp only [hnf, hns, if_false, Bool.false_eq_true]
            rw [← lastSucceeded_spec]
            simp only
            have hready' := hready
            unfold Plan.ready at hready'
            simp only [Bool.and_eq_true, List.all_eq_true, beq_iff_eq] at hready'
            have hds := hready'.1.2 d hd
            have hall := regionStateOf_succeeded.mp hds
            rw [mem_getD_of_getElem? hts] at hall
            rcases schedule_apply p (regionStateOf p (refreshed p j)) p.regions.zipIdx
              (refreshed p j) hnd t with ⟨⟨y, hy, hty, hyr⟩, _⟩ | ⟨_, he⟩
            · have hyd : y.2 = d := region_unique hp.nodup (mem_zipIdx_iff.mp hy) hts hty ht
              unfold Plan.ready at hyr
              simp only [Bool.and_eq_true, bne_iff_ne] at hyr
              rw [hyd] at hyr
              exact absurd hds hyr.1.1
            · rw [he]; exact hall t ht
    · simp only [hrun, if_false] at hact
      simp at hact

/-- C03, partial: once a task has been started, every producer task whose (blocking) output
it reads has succeeded and stays so. Missing for the full property: one-to-one inputs below a
union, which read a partition with a different number (`C03_union_reads_unfinished_stage`). -/
theorem C03_blocking_inputs_complete_partial (p : Plan) (hp : Planned p)
    (ht : TreeShaped p.graph) (ops : List Op)
    (u x v q : Nat) (m : InputMode) (hin : (v, m) ∈ p.graph.inputs u)
    (hblk : (p.graph.stage v).pipelined = false) (hq : q < p.graph.parts v)
    (hm : m = .forward → q = x)
    (hstarted : 0 < attemptCount (run p ops Job.init) (u, x)) :
    Succeeded (run p ops Job.init) (v, q) := by
  have h := reachable_inv hp ops
  generalize run p ops Job.init = j at *
  have hne : j.attempts (u, x) ≠ [] := by
    intro h0; simp [attemptCount, h0] at hstarted
  obtain ⟨ts, hts, htt⟩ := List.mem_flatten.mp (h.only_tasks _ hne)
  obtain ⟨r, hr⟩ := List.mem_iff_getElem?.mp hts
  obtain ⟨d, hd, hdr⟩ := C03_dependencies_complete_partial p.graph hp.wf p.regions hp.regions r ts
    hr u x v q m htt hin hq hm
  obtain ⟨ts', hts', hv⟩ := regionOf_spec hd
  rcases hdr with rfl | hdep
  · -- impossible: a blocking stage is the last of its component
    exfalso
    obtain rfl : ts = ts' := Option.some.inj (hr.symm.trans hts')
    have hc := C14_region_is_connected p.graph hp.wf p.regions hp.regions ts hts (v, q) (u, x) hv htt
    have hle := blocking_is_last p.graph ht v u hblk
      (Relation.ReflTransGen.mono (fun a b hab => piped_iff_adjacent.mp hab) _ _ hc)
    have := ht.earlier u _ hin
    simp at this
    omega
  · exact lastSucceeded_spec.mp (h.deps r ts hr (u, x) htt hne d (by rw [hp.deps]; exact hdep) ts'
      hts' (v, q) hv)

example : (run (examplePlan 2) [.refresh] Job.init).attempts (0, 0) = [.new] ∧
    (run (examplePlan 2) [.refresh] Job.init).attempts (1, 0) = [] ∧
    (run (examplePlan 2) [.refresh, .report ⟨(0, 0), 0⟩ .succeeded none, .refresh] Job.init).attempts
      (1, 0) = [.new] := by decide

/-! ## C04 -/

/-- C04: an unfinished attempt is the most recent one of its task; so there is at most one. -/
theorem C04_only_latest_attempt_is_live (p : Plan) (hp : Planned p) (ops : List Op) (t : Task)
    (i : Nat) (hl : Live (run p ops Job.init) t i) :
    i + 1 = attemptCount (run p ops Job.init) t := by
  obtain ⟨s, ⟨a, ha, hs⟩, h1, h2, h3⟩ := hl
  have hlt := (List.getElem?_eq_some_iff.mp ha).1
  by_contra hne
  have := (reachable_inv hp ops).old_done t i a ha (by unfold attemptCount at hne; omega)
  rw [hs] at this
  cases s <;> simp_all [TaskState.isTerminal]

theorem C04_at_most_one_live_attempt (p : Plan) (hp : Planned p) (ops : List Op) (t : Task)
    (i k : Nat) (hi : Live (run p ops Job.init) t i) (hk : Live (run p ops Job.init) t k) :
    i = k := by
  have h1 := C04_only_latest_attempt_is_live p hp ops t i hi
  have h2 := C04_only_latest_attempt_is_live p hp ops t k hk
  omega

-- the second attempt is live, the first one failed
example : Live (run (examplePlan 2) [.refresh, .report ⟨(0, 0), 0⟩ .failed none, .refresh] Job.init)
    (0, 0) 1 := ⟨.created, ⟨.new, by decide, rfl⟩, by decide, by decide, by decide⟩

/-! ## C05 -/

/-- C05: a consumer task and the producer tasks whose in-memory output it reads always have
the same number of attempts. -/
theorem C05_pipelined_tasks_retry_together (p : Plan) (hp : Planned p) (ops : List Op)
    (u v x q : Nat) (m : InputMode) (hin : (v, m) ∈ p.graph.inputs u)
    (hpipe : (p.graph.stage v).pipelined = true)
    (hx : x < p.graph.parts u) (hq : q < p.graph.parts v) (hm : m = .forward → x = q) :
    attemptCount (run p ops Job.init) (u, x) = attemptCount (run p ops Job.init) (v, q) := by
  obtain ⟨ts, hts, h1, h2⟩ := C14_pipelined_tasks_share_a_region p.graph hp.wf p.regions hp.regions
    u v x q m hin hpipe hx hq hm
  exact (reachable_inv hp ops).lockstep ts hts _ h1 _ h2

/-- C05: when a task of a region has failed, evaluating the job leaves no earlier attempt of
any task of the region unfinished, and every attempt stopped this way is told to cancel. -/
theorem C05_failure_stops_the_whole_region (p : Plan) (hp : Planned p) (ops : List Op)
    (hrun : (run p ops Job.init).status = .running)
    (ts : List Task) (hts : ts ∈ p.regions) (f : Task) (hf : f ∈ ts)
    (hfail : InState (run p ops Job.init) f (attemptCount (run p ops Job.init) f - 1) .failed)
    (t : Task) (ht : t ∈ ts) (i : Nat) (hi : i < attemptCount (run p ops Job.init) t) :
    ¬ Live (refresh p (run p ops Job.init)).1 t i ∧
    (Live (run p ops Job.init) t i →
      .cancelTask ⟨t, i⟩ ∈ (refresh p (run p ops Job.init)).2) := by
  generalize run p ops Job.init = j at *
  have hany : (ts.any fun u => lastFailed (j.attempts u)) = true := by
    refine List.any_eq_true.mpr ⟨f, hf, ?_⟩
    have : lastState (j.attempts f) = some .failed := lastState_inState.mpr
      ⟨by
        obtain ⟨a, ha, _⟩ := hfail
        have := (List.getElem?_eq_some_iff.mp ha).1
        unfold attemptCount; omega, hfail⟩
    simp [lastFailed, this]
  have hcas : (cascade p.regions j.attempts).1 t = (j.attempts t).map Attempt.cancel := by
    rcases cascade_apply p.regions j.attempts hp.nodup t with ⟨_, h⟩ | ⟨h, _⟩
    · exact h
    · have := h ts hts ht
      simp [hany] at this
  have hterm : ∀ (i : Nat) (a : Attempt), (refreshed p j t)[i]? = some a → a.state.isTerminal = true := by
    intro i a ha
    have hadv := extendOutput_adv p (cascade p.regions j.attempts).1 t
    have hlt : i < ((cascade p.regions j.attempts).1 t).length := by
      rw [hadv.len]; exact (List.getElem?_eq_some_iff.mp ha).1
    obtain ⟨b, hb, hst⟩ := hadv.2 i _ (List.getElem?_eq_getElem hlt)
    have h1 : (((cascade p.regions j.attempts).1 t)[i]).state.isTerminal = true := by
      simp only [hcas, List.getElem_map]
      exact cancel_terminal _
    have : a = b := Option.some.inj (ha.symm.trans hb)
    subst this
    rw [hst h1]; exact h1
  have hkeep : ∀ a : Attempt, ((refresh p j).1.attempts t)[i]? = some a → a.state.isTerminal = true := by
    intro a ha
    have hlen : i < (refreshed p j t).length := by
      rw [← (refreshed_adv p j t).len]; exact hi
    unfold refresh at ha
    rw [if_pos hrun] at ha
    split at ha
    · exact hterm i a ha
    · split at ha
      · exact hterm i a ha
      · simp only at ha
        rcases schedule_apply p (regionStateOf p (refreshed p j)) p.regions.zipIdx
          (refreshed p j) (by rw [zipIdx_fst]; exact hp.nodup) t with ⟨_, he⟩ | ⟨_, he⟩
        · rw [he, List.getElem?_append_left hlen] at ha
          exact hterm i a ha
        · rw [he] at ha; exact hterm i a ha
  constructor
  · rintro ⟨s, ⟨a, ha, hs⟩, h1, h2, h3⟩
    have := hkeep a ha
    rw [hs] at this
    cases s <;> simp_all [TaskState.isTerminal]
  · rintro ⟨s, ⟨a, ha, hs⟩, h1, h2, h3⟩
    have hmem : .cancelTask ⟨t, i⟩ ∈ (cascade p.regions j.attempts).2 := by
      refine (cascade_actions _ _ hp.nodup _).mpr ⟨ts, hts, hany, t, ht, ⟨t, i⟩, ?_, rfl⟩
      refine mem_liveKeys.mpr ⟨rfl, a, ha, ?_⟩
      rw [hs]
      cases s <;> simp_all [TaskState.isTerminal]
    unfold refresh
    rw [if_pos hrun]
    split
    · simp [hmem]
    · split <;> simp [hmem]

-- the consumer of the failed pipelined producer is canceled and both are started again
example :
    let j := run (examplePlan 2) [.refresh, .report ⟨(0, 0), 0⟩ .succeeded none, .refresh,
      .report ⟨(1, 0), 0⟩ .failed none] Job.init
    .cancelTask ⟨(2, 0), 0⟩ ∈ (refresh (examplePlan 2) j).2 ∧
    (refresh (examplePlan 2) j).1.attempts (2, 0) = [⟨.canceled, none, false⟩, .new] ∧
    (refresh (examplePlan 2) j).1.attempts (1, 0) = [⟨.failed, none, false⟩, .new] := by decide

/-! ## C07 -/

/-- C07: a job that is shown as draining or succeeded has no task that did not succeed. -/
theorem C07_success_means_every_task_succeeded (p : Plan) (hp : Planned p) (ops : List Op)
    (hs : (run p ops Job.init).status = .draining ∨ (run p ops Job.init).status = .succeeded)
    (t : Task) (ht : IsTask p.graph t) : Succeeded (run p ops Job.init) t := by
  obtain ⟨ts, hts, htt⟩ := List.mem_flatten.mp (hp.mem.mpr ht)
  exact lastSucceeded_spec.mp ((reachable_inv hp ops).done hs ts hts t htt)

/-- C07, partial: a job that left the running state never runs again, and a failed job is
never shown as succeeded or draining. Missing: the failed job does not stay failed, see
`C07_failed_job_ends_canceled`. -/
theorem C07_failed_job_never_succeeds_partial (p : Plan) (ops : List Op) (j : Job)
    (hs : j.status = .failed ∨ j.status = .canceled) :
    (run p ops j).status = .failed ∨ (run p ops j).status = .canceled := by
  induction ops generalizing j with
  | nil => exact hs
  | cons o ops ih =>
    apply ih
    cases o with
    | report k s c => exact hs
    | refresh =>
      have : j.status ≠ .running := by rcases hs with h | h <;> simp [h]
      simp only [step, refresh, this, if_false]
      exact hs
    | cleanUp =>
      have : j.status ≠ .draining := by rcases hs with h | h <;> simp [h]
      simp [step, cleanUp, this]
    | stop =>
      have : ¬ (j.status = .running ∨ j.status = .draining) := by rcases hs with h | h <;> simp [h]
      simp only [step, stop, this, if_false]
      exact hs

/-- C07 is violated: cleaning up a failed job (which the driver always does once the client
has received the error) turns its status from failed into canceled. -/
theorem C07_failed_job_ends_canceled :
    let j := run (examplePlan 1) [.refresh, .report ⟨(0, 0), 0⟩ .failed (some 7), .refresh] Job.init
    j.status = .failed ∧ (cleanUp (examplePlan 1) j).1.status = .canceled := by decide

/-- C07 is violated: a second clean-up turns a succeeded job into a canceled one. -/
theorem C07_repeated_clean_up_cancels_succeeded_job (p : Plan) (j : Job)
    (hs : j.status = .draining) :
    (cleanUp p j).1.status = .succeeded ∧ (cleanUp p (cleanUp p j).1).1.status = .canceled := by
  simp [cleanUp, hs]

example : (run (examplePlan 1) [.refresh, .report ⟨(0, 0), 0⟩ .succeeded none, .refresh,
    .report ⟨(1, 0), 0⟩ .succeeded none, .report ⟨(2, 0), 0⟩ .succeeded none, .refresh] Job.init).status
    = .draining := by decide

end Verif.Exec
