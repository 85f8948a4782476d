import Verif.Exec.Driver
import Verif.Exec.SchedulerProps2

/-!
# Properties of dispatching: C33
-/

namespace Verif.Exec.Driver

open Verif.Exec

theorem lastLive_iff {as : List Attempt} :
    lastLive as = true ↔ ∃ s, lastState as = some s ∧ s.isTerminal = false := by
  unfold lastLive
  split
  · rename_i s hs; simp [hs]
  · rename_i hs; simp [hs]

theorem lastState_modify {as : List Attempt} {i : Nat} {f : Attempt → Attempt}
    (h : i + 1 = as.length → ∀ a, (f a).state = a.state) :
    lastState (as.modify i f) = lastState as := by
  unfold lastState
  rw [getLast?_eq_getElem?', getLast?_eq_getElem?', List.length_modify, List.getElem?_modify]
  by_cases hi : i = as.length - 1
  · subst hi
    simp only [if_true]
    cases hg : as[as.length - 1]? with
    | none => rfl
    | some a =>
      have hl := (List.getElem?_eq_some_iff.mp hg).1
      simp [h (by omega) a]
  · simp [hi]

theorem lastState_markFetched (as : List Attempt) : lastState (markFetched as) = lastState as :=
  lastState_modify fun _ _ => rfl

theorem mem_applyActions (acts : List Action) (q : List QRegion) (r : QRegion)
    (h : r ∈ acts.foldl applyAction q) : r ∈ q ∨ ∃ i, Action.scheduleRegion i r ∈ acts := by
  induction acts generalizing q with
  | nil => exact Or.inl h
  | cons a acts ih =>
    rcases ih _ h with h1 | ⟨i, h1⟩
    · cases a with
      | scheduleRegion i ts =>
        simp only [applyAction, List.mem_append, List.mem_singleton] at h1
        rcases h1 with h1 | rfl
        · exact Or.inl h1
        · exact Or.inr ⟨i, by simp⟩
      | cancelTask k => exact Or.inl (List.mem_filter.mp h1).1
      | extendJobOutput k c => exact Or.inl h1
      | failJobOutput c => exact Or.inl h1
      | cleanUpStage s => exact Or.inl h1
      | cleanUpJob => exact Or.inl h1
    · exact Or.inr ⟨i, List.mem_cons_of_mem _ h1⟩

theorem region_eq {p : Plan} (hp : Planned p) {ts ts' : List Task} {t : Task}
    (h : ts ∈ p.regions) (h' : ts' ∈ p.regions) (ht : t ∈ ts) (ht' : t ∈ ts') : ts = ts' := by
  obtain ⟨i, hi⟩ := List.mem_iff_getElem?.mp h
  obtain ⟨j, hj⟩ := List.mem_iff_getElem?.mp h'
  have := region_unique hp.nodup hi hj ht ht'
  subst this
  rw [hi] at hj
  exact Option.some.inj hj

/-- Every queued region belongs to a region of the plan all of whose tasks are waiting with
exactly the queued attempts. -/
def QInv (p : Plan) (s : State) : Prop :=
  ∀ q ∈ s.queue, ∃ ts ∈ p.regions,
    (∀ k : AKey, k ∈ QRegion.keys q ↔ k.task ∈ ts ∧ k.attempt + 1 = (s.job.attempts k.task).length) ∧
    ∀ t ∈ ts, lastLive (s.job.attempts t) = true

theorem refreshed_live {p : Plan} {j : Job} (hp : Planned p) {ts : List Task} (hts : ts ∈ p.regions)
    (hl : ∀ t ∈ ts, lastLive (j.attempts t) = true) :
    ∀ t ∈ ts, lastLive (refreshed p j t) = true ∧
      (refreshed p j t).length = (j.attempts t).length := by
  intro t ht
  have hc : (cascade p.regions j.attempts).1 t = j.attempts t := by
    rcases cascade_apply p.regions j.attempts hp.nodup t with ⟨⟨ts', hts', ht', hf⟩, _⟩ | ⟨_, he⟩
    · have := region_eq hp hts hts' ht ht'
      subst this
      obtain ⟨u, hu, hfu⟩ := List.any_eq_true.mp hf
      obtain ⟨s, hs, hn⟩ := lastLive_iff.mp (hl u hu)
      simp only [lastFailed, beq_iff_eq, hs, Option.some.injEq] at hfu
      subst hfu
      simp [TaskState.isTerminal] at hn
    · exact he
  refine ⟨?_, ((refreshed_adv p j t).len).symm⟩
  unfold refreshed extendOutput onTasks
  simp only
  rw [hc]
  split
  · rw [lastLive_iff, lastState_markFetched, ← lastLive_iff]; exact hl t ht
  · exact hl t ht

theorem schedule_none {p : Plan} {rs : Nat → RegionState} {m : Attempts} (hp : Planned p)
    {ts : List Task} (hts : ts ∈ p.regions) (hl : ∀ t ∈ ts, lastLive (m t) = true) :
    ∀ t ∈ ts, (schedule p rs p.regions.zipIdx m).1 t = m t := by
  intro t ht
  rcases schedule_apply p rs p.regions.zipIdx m (by rw [zipIdx_fst]; exact hp.nodup) t with
    ⟨⟨x, hx, htx, hr⟩, _⟩ | ⟨_, he⟩
  · have hx' : x.1 ∈ p.regions := List.mem_of_getElem? (mem_zipIdx_iff.mp hx)
    have := region_eq hp hts hx' ht htx
    unfold Plan.ready at hr
    simp only [Bool.and_eq_true, Bool.not_eq_true'] at hr
    have h3 := hr.2
    rw [List.any_eq_false] at h3
    exact absurd (hl t ht) (h3 t htx)
  · exact he

theorem task_in_range {p : Plan} (hp : Planned p) {ts : List Task} (hts : ts ∈ p.regions) :
    ts.Nodup ∧ ∀ t ∈ ts, t.2 < p.graph.parts t.1 := by
  refine ⟨(List.nodup_flatten.mp hp.nodup).1 ts hts, fun t ht => ?_⟩
  exact (hp.mem.mp (List.mem_flatten.mpr ⟨ts, hts, ht⟩)).2

theorem mem_buildRegion {p : Plan} (hp : Planned p) {ts : List Task} (hts : ts ∈ p.regions)
    (m : Attempts) (k : AKey) :
    k ∈ QRegion.keys (p.buildRegion m ts) ↔ k.task ∈ ts ∧ k.attempt = (m k.task).length - 1 := by
  obtain ⟨hnd, hr⟩ := task_in_range hp hts
  have hperm := C12_every_task_in_exactly_one_set p m ts hnd hr
  have h2 := hperm.map (·.2)
  have h3 : ((p.buildRegion m ts).flatMap fun x => x.2.map fun k => (x.1, k)).map (·.2) =
      QRegion.keys (p.buildRegion m ts) := by
    unfold QRegion.keys
    rw [List.map_flatMap]
    congr 1
    funext x
    simp [Function.comp_def]
  rw [h3] at h2
  rw [h2.mem_iff]
  simp only [List.map_map, List.mem_map, Function.comp]
  constructor
  · rintro ⟨t, ht, rfl⟩; exact ⟨ht, rfl⟩
  · rintro ⟨h1, h2⟩; exact ⟨k.task, h1, by rw [← h2]⟩

theorem qinv_refresh {p : Plan} (hp : Planned p) {s : State} (h : QInv p s) :
    QInv p (s.refresh p) := by
  unfold State.refresh
  unfold Exec.refresh
  have hcas : ∀ i r, Action.scheduleRegion i r ∉ (cascade p.regions s.job.attempts).2 := by
    intro i r hm
    obtain ⟨_, _, _, _, _, _, _, he⟩ := (cascade_actions _ _ hp.nodup _).mp hm
    simp at he
  have hext : ∀ m i r, Action.scheduleRegion i r ∉ (extendOutput p m).2 := by
    intro m i r hm
    simp [extendOutput] at hm
  have hcln : ∀ m a i r, Action.scheduleRegion i r ∉ (cleanStages p m a).2 := by
    intro m a i r hm
    simp [cleanStages] at hm
  have hold : ∀ q ∈ s.queue, ∃ ts ∈ p.regions,
      (∀ k : AKey, k ∈ QRegion.keys q ↔ k.task ∈ ts ∧ k.attempt + 1 = (refreshed p s.job k.task).length) ∧
      ∀ t ∈ ts, lastLive (refreshed p s.job t) = true := by
    intro q hq
    obtain ⟨ts, hts, h1, h2⟩ := h q hq
    have hr := refreshed_live hp hts h2
    refine ⟨ts, hts, fun k => ?_, fun t ht => (hr t ht).1⟩
    rw [h1, (refreshed_adv p s.job k.task).len]
  split
  · split
    · intro q hq
      rcases mem_applyActions _ _ _ hq with h1 | ⟨i, h1⟩
      · exact hold q h1
      · simp only [List.mem_append, List.mem_singleton, reduceCtorEq, or_false] at h1
        rcases h1 with (h1 | h1) | h1
        · exact absurd h1 (hcas _ _)
        · exact absurd h1 (hext _ _ _)
        · exact absurd h1 (hcln _ _ _ _)
    · split
      · intro q hq
        rcases mem_applyActions _ _ _ hq with h1 | ⟨i, h1⟩
        · exact hold q h1
        · simp only [List.mem_append] at h1
          rcases h1 with (h1 | h1) | h1
          · exact absurd h1 (hcas _ _)
          · exact absurd h1 (hext _ _ _)
          · exact absurd h1 (hcln _ _ _ _)
      · intro q hq
        simp only
        rcases mem_applyActions _ _ _ hq with h1 | ⟨i, h1⟩
        · obtain ⟨ts, hts, h2, h3⟩ := hold q h1
          have hs := schedule_none (rs := regionStateOf p (refreshed p s.job)) hp hts h3
          refine ⟨ts, hts, fun k => ?_, fun t ht => by rw [hs t ht]; exact h3 t ht⟩
          rw [h2]
          constructor
          · rintro ⟨g1, g2⟩; exact ⟨g1, by rw [hs _ g1]; exact g2⟩
          · rintro ⟨g1, g2⟩; exact ⟨g1, by rw [hs _ g1] at g2; exact g2⟩
        · simp only [List.mem_append] at h1
          rcases h1 with ((h1 | h1) | h1) | h1
          · exact absurd h1 (hcas _ _)
          · exact absurd h1 (hext _ _ _)
          · exact absurd h1 (hcln _ _ _ _)
          · have hndz : ((p.regions.zipIdx).map (·.1)).flatten.Nodup := by
              rw [zipIdx_fst]; exact hp.nodup
            obtain ⟨x, hx, hr, he⟩ := (schedule_actions p _ _ _ hndz _).mp h1
            simp only [Action.scheduleRegion.injEq] at he
            obtain ⟨_, rfl⟩ := he
            have hts : x.1 ∈ p.regions := List.mem_of_getElem? (mem_zipIdx_iff.mp hx)
            have happ : ∀ t ∈ x.1, (schedule p (regionStateOf p (refreshed p s.job))
                p.regions.zipIdx (refreshed p s.job)).1 t = refreshed p s.job t ++ [.new] := by
              intro t ht
              rcases schedule_apply p (regionStateOf p (refreshed p s.job)) p.regions.zipIdx
                (refreshed p s.job) hndz t with ⟨_, he⟩ | ⟨hn, _⟩
              · exact he
              · have := hn x hx ht
                rw [hr] at this; cases this
            refine ⟨x.1, hts, fun k => ?_, fun t ht => ?_⟩
            · rw [mem_buildRegion hp hts]
              constructor
              · rintro ⟨g1, g2⟩
                refine ⟨g1, ?_⟩
                rw [g2, happ _ g1]; simp
              · rintro ⟨g1, g2⟩
                exact ⟨g1, by omega⟩
            · rw [happ t ht]
              simp [lastLive, lastState, Attempt.new, TaskState.isTerminal]
  · exact h

theorem updateTask_scheduled (j : Job) (k : AKey) (t : Task) :
    ((updateTask j k .scheduled none).attempts t).length = (j.attempts t).length ∧
    (lastLive (j.attempts t) = true →
      lastLive ((updateTask j k .scheduled none).attempts t) = true) := by
  refine ⟨((updateTask_adv j k .scheduled none t).len).symm, fun h => ?_⟩
  unfold updateTask
  simp only
  split
  · obtain ⟨s, hs, hn⟩ := lastLive_iff.mp h
    unfold lastState at hs
    rw [getLast?_eq_getElem?'] at hs
    obtain ⟨a, ha, rfl⟩ := Option.map_eq_some_iff.mp hs
    rw [lastLive_iff]
    unfold lastState
    rw [getLast?_eq_getElem?', List.length_modify, List.getElem?_modify, ha]
    by_cases hi : k.attempt = (j.attempts t).length - 1
    · refine ⟨(a.report .scheduled none).state, by simp [hi], ?_⟩
      unfold Attempt.report
      cases hst : a.state <;> simp_all [TaskState.isTerminal, TaskState.consolidate]
    · exact ⟨a.state, by simp [hi], hn⟩
  · exact h

theorem foldl_scheduled (ks : List AKey) (j : Job) (t : Task) :
    ((ks.foldl (fun j k => updateTask j k .scheduled none) j).attempts t).length =
      (j.attempts t).length ∧
    (lastLive (j.attempts t) = true →
      lastLive ((ks.foldl (fun j k => updateTask j k .scheduled none) j).attempts t) = true) := by
  induction ks generalizing j with
  | nil => exact ⟨rfl, fun h => h⟩
  | cons k ks ih =>
    obtain ⟨h1, h2⟩ := updateTask_scheduled j k t
    obtain ⟨g1, g2⟩ := ih (updateTask j k .scheduled none)
    exact ⟨g1.trans h1, fun h => g2 (h2 h)⟩

/-- The history in which no status report is about an attempt that is still in the queue. -/
def Spec.ReportsOnlyDispatched (p : Plan) : List Event → State → Prop
  | [], _ => True
  | e :: es, s =>
    (∀ k st c, e = .report k st c → ∀ q ∈ s.queue, k ∉ QRegion.keys q) ∧
      Spec.ReportsOnlyDispatched p es (step p s e)

theorem qinv_step {p : Plan} (hp : Planned p) {s : State} (h : QInv p s) (e : Event)
    (he : ∀ k st c, e = .report k st c → ∀ q ∈ s.queue, k ∉ QRegion.keys q) :
    QInv p (step p s e) := by
  cases e with
  | execute => exact qinv_refresh hp h
  | report k st c =>
    have hu : QInv p { s with job := updateTask s.job k st c } := by
      intro q hq
      obtain ⟨ts, hts, h1, h2⟩ := h q hq
      refine ⟨ts, hts, fun k' => ?_, fun t ht => ?_⟩
      · rw [h1, (updateTask_adv s.job k st c k'.task).len]
      · show lastLive ((updateTask s.job k st c).attempts t) = true
        unfold updateTask
        simp only
        split
        · rename_i htk
          have hk : ¬ (k.task ∈ ts ∧ k.attempt + 1 = (s.job.attempts k.task).length) :=
            fun hh => he k st c rfl q hq ((h1 k).mpr hh)
          have hne : k.attempt + 1 ≠ (s.job.attempts t).length := by
            intro heq
            exact hk ⟨by rw [← htk]; exact ht, by rw [← htk]; exact heq⟩
          rw [lastLive_iff, lastState_modify (fun hh => absurd hh hne), ← lastLive_iff]
          exact h2 t ht
        · exact h2 t ht
    simp only [step]
    split
    · exact hu
    · exact qinv_refresh hp hu
  | dispatch n =>
    intro q hq
    obtain ⟨ts, hts, h1, h2⟩ := h q (List.mem_of_mem_drop hq)
    refine ⟨ts, hts, fun k => ?_, fun t ht => ?_⟩
    · rw [h1]
      simp only [step]
      rw [(foldl_scheduled _ _ _).1]
    · simp only [step]
      exact (foldl_scheduled _ _ _).2 (h2 t ht)
  | cleanUp =>
    intro q hq
    have hq' : q ∈ s.queue := by
      rcases mem_applyActions _ _ _ hq with h1 | ⟨i, h1⟩
      · exact h1
      · simp [cleanUp] at h1
    obtain ⟨ts, hts, h1, h2⟩ := h q hq'
    exact ⟨ts, hts, h1, h2⟩

theorem qinv_run {p : Plan} (hp : Planned p) (es : List Event) {s : State} (h : QInv p s)
    (he : Spec.ReportsOnlyDispatched p es s) : QInv p (run p es s) := by
  induction es generalizing s with
  | nil => exact h
  | cons e es ih => exact ih (qinv_step hp h e he.1) he.2

/-- C33 (partial: for histories in which no status report is about an attempt that is still in
the queue; in the full code the "task scheduling timeout" makes such reports). Whatever prefix of
the queue is dispatched next, each attempt sent out is the latest attempt of its task and is
unfinished at that moment. -/
theorem C33_dispatched_attempts_are_live_partial (p : Plan) (hp : Planned p) (es : List Event)
    (he : Spec.ReportsOnlyDispatched p es State.init) (n : Nat) (k : AKey) :
    let s := run p es State.init
    k ∈ (step p s (.dispatch n)).dispatched.drop s.dispatched.length →
    k.attempt + 1 = (s.job.attempts k.task).length ∧
      ∃ a, (s.job.attempts k.task)[k.attempt]? = some a ∧ a.state.isTerminal = false := by
  intro s hk
  have hq := qinv_run hp es (s := State.init) (by intro q hq; simp [State.init] at hq) he
  simp only [step, List.drop_left, List.mem_flatMap] at hk
  obtain ⟨q, hqm, hkq⟩ := hk
  obtain ⟨ts, hts, h1, h2⟩ := hq q (List.mem_of_mem_take hqm)
  obtain ⟨g1, g2⟩ := (h1 k).mp hkq
  refine ⟨g2, ?_⟩
  obtain ⟨st, hst, hn⟩ := lastLive_iff.mp (h2 _ g1)
  unfold lastState at hst
  rw [getLast?_eq_getElem?'] at hst
  obtain ⟨a, ha, rfl⟩ := Option.map_eq_some_iff.mp hst
  refine ⟨a, ?_, hn⟩
  have : k.attempt = (s.job.attempts k.task).length - 1 := (Nat.sub_eq_of_eq_add g2.symm).symm
  rw [this]; exact ha

/-- A history that meets the hypothesis: the job starts, stage 0 is dispatched, fails, is retried. -/
def exampleHistory : List Event :=
  [.execute, .dispatch 1, .report ⟨(0, 0), 0⟩ .running none, .report ⟨(0, 0), 0⟩ .failed (some 3)]

example : Spec.ReportsOnlyDispatched (examplePlan 3) exampleHistory State.init := by
  refine ⟨fun _ _ _ h => by simp at h, fun _ _ _ h => by simp at h, ?_, ?_, trivial⟩
  · intro k st c _ q hq
    have : (step (examplePlan 3) (step (examplePlan 3) State.init .execute) (.dispatch 1)).queue
      = [] := by decide
    rw [this] at hq
    simp at hq
  · intro k st c _ q hq
    have : (step (examplePlan 3) (step (examplePlan 3) (step (examplePlan 3) State.init .execute)
      (.dispatch 1)) (.report ⟨(0, 0), 0⟩ .running none)).queue = [] := by decide
    rw [this] at hq
    simp at hq

example : (step (examplePlan 3) (run (examplePlan 3) exampleHistory State.init)
    (.dispatch 1)).dispatched = [⟨(0, 0), 0⟩, ⟨(0, 0), 1⟩] := by decide

/-- C33 is violated: a task waits in the queue longer than the launch timeout, so its first attempt
is reported as failed ("task scheduling timeout") and a second attempt is queued; the first one is
not removed from the queue. When slots become free both are sent out: the failed attempt runs, and
two attempts of the same task run at the same time. -/
theorem C33_timed_out_attempt_is_dispatched :
    let s := run (examplePlan 3) [.execute, .report ⟨(0, 0), 0⟩ .failed (some 1)] State.init
    (s.job.attempts (0, 0)).map (·.state) = [.failed, .created] ∧
    (step (examplePlan 3) s (.dispatch 2)).dispatched = [⟨(0, 0), 0⟩, ⟨(0, 0), 1⟩] := by
  decide

/-- C33: the same happens after the job has failed because of the timeouts: attempts that are still
queued are sent out once slots become free. -/
theorem C33_failed_job_is_dispatched :
    let s := run (examplePlan 2) [.execute, .report ⟨(0, 0), 0⟩ .failed (some 1),
      .report ⟨(0, 0), 1⟩ .failed (some 1), .cleanUp] State.init
    s.job.status = .canceled ∧
    (step (examplePlan 2) s (.dispatch 2)).dispatched = [⟨(0, 0), 0⟩, ⟨(0, 0), 1⟩] := by
  decide

end Verif.Exec.Driver
