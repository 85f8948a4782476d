import Verif.Exec.Scheduler
import Verif.Exec.TopologyProps

namespace Verif.Exec

/-! ## Advancing attempts -/

/-- The attempts `bs` are those of `as` with states moved forward: same number, and finished
attempts keep their state. -/
def Adv (as bs : List Attempt) : Prop :=
  as.length = bs.length ∧
    ∀ (i : Nat) (a : Attempt), as[i]? = some a → ∃ b : Attempt, bs[i]? = some b ∧ (a.state.isTerminal = true → b.state = a.state)

theorem Adv.len {as bs : List Attempt} (h : Adv as bs) : as.length = bs.length := h.1

theorem Adv.refl (as : List Attempt) : Adv as as := ⟨rfl, fun _ a h => ⟨a, h, fun _ => rfl⟩⟩

theorem Adv.trans {as bs cs : List Attempt} (h : Adv as bs) (h' : Adv bs cs) : Adv as cs := by
  refine ⟨h.1.trans h'.1, fun i a ha => ?_⟩
  obtain ⟨b, hb, hab⟩ := h.2 i a ha
  obtain ⟨c, hc, hbc⟩ := h'.2 i b hb
  refine ⟨c, hc, fun ht => ?_⟩
  have := hab ht
  rw [hbc (by rw [this]; exact ht), this]

theorem Adv.map (f : Attempt → Attempt)
    (hf : ∀ a, a.state.isTerminal = true → (f a).state = a.state) (as : List Attempt) :
    Adv as (as.map f) := by
  refine ⟨by simp, fun i a ha => ⟨f a, by simp [ha], hf a⟩⟩

theorem Adv.modify (f : Attempt → Attempt) (k : Nat)
    (hf : ∀ a, a.state.isTerminal = true → (f a).state = a.state) (as : List Attempt) :
    Adv as (as.modify k f) := by
  refine ⟨by simp, fun i a ha => ?_⟩
  by_cases hik : k = i
  · exact ⟨f a, by simp [ha, hik], hf a⟩
  · exact ⟨a, by simp [ha, hik], fun _ => rfl⟩

theorem getLast?_eq_getElem?' {α : Type} (l : List α) : l.getLast? = l[l.length - 1]? :=
  List.getLast?_eq_getElem?

theorem Adv.lastState_terminal {as bs : List Attempt} (h : Adv as bs) {s : TaskState}
    (hs : lastState as = some s) (ht : s.isTerminal = true) : lastState bs = some s := by
  unfold lastState at hs ⊢
  rw [getLast?_eq_getElem?'] at hs ⊢
  obtain ⟨a, ha, rfl⟩ := Option.map_eq_some_iff.mp hs
  obtain ⟨b, hb, hab⟩ := h.2 _ a ha
  rw [← h.1, hb]
  simp [hab ht]

theorem lastSucceeded_iff {as : List Attempt} :
    lastSucceeded as = true ↔ lastState as = some .succeeded := by
  simp [lastSucceeded]

theorem Adv.lastSucceeded {as bs : List Attempt} (h : Adv as bs)
    (hs : lastSucceeded as = true) : lastSucceeded bs = true :=
  lastSucceeded_iff.mpr (h.lastState_terminal (lastSucceeded_iff.mp hs) rfl)

theorem cancel_state (a : Attempt) (h : a.state.isTerminal = true) :
    a.cancel.state = a.state := by simp [Attempt.cancel, h]

theorem cancel_terminal (a : Attempt) : a.cancel.state.isTerminal = true := by
  unfold Attempt.cancel
  split
  · assumption
  · rfl

theorem report_state (a : Attempt) (s : TaskState) (c : Option Nat)
    (h : a.state.isTerminal = true) : (a.report s c).state = a.state := by
  unfold Attempt.report
  cases hs : a.state <;> simp_all [TaskState.isTerminal, TaskState.consolidate]

theorem updateTask_adv (j : Job) (k : AKey) (s : TaskState) (c : Option Nat) (t : Task) :
    Adv (j.attempts t) ((updateTask j k s c).attempts t) := by
  unfold updateTask
  by_cases h : t = k.task
  · simp only [h, if_true]
    exact Adv.modify _ _ (fun a ha => report_state a s c ha) _
  · simp only [h, if_false]
    exact Adv.refl _

theorem onTasks_adv (ts : List Task) (f : List Attempt → List Attempt) (hf : ∀ as, Adv as (f as))
    (m : Attempts) (t : Task) : Adv (m t) (onTasks ts f m t) := by
  unfold onTasks
  split
  · exact hf _
  · exact Adv.refl _

theorem cascade_adv (rs : List (List Task)) (m : Attempts) (t : Task) :
    Adv (m t) ((cascade rs m).1 t) := by
  induction rs generalizing m with
  | nil => exact Adv.refl _
  | cons ts rest ih =>
    unfold cascade
    split
    · exact (onTasks_adv ts _ (Adv.map _ cancel_state) m t).trans (ih _)
    · exact ih m

theorem markFetched_adv (as : List Attempt) : Adv as (markFetched as) :=
  Adv.modify (fun a => { a with fetched := true }) _ (fun _ _ => rfl) as

theorem extendOutput_adv (p : Plan) (m : Attempts) (t : Task) :
    Adv (m t) ((extendOutput p m).1 t) := onTasks_adv _ _ markFetched_adv m t

theorem refreshed_adv (p : Plan) (j : Job) (t : Task) : Adv (j.attempts t) (refreshed p j t) :=
  (cascade_adv _ _ t).trans (extendOutput_adv p _ t)

theorem stop_adv (j : Job) (t : Task) : Adv (j.attempts t) ((stop j).attempts t) :=
  Adv.map _ cancel_state _

/-! ## Scheduling regions -/

theorem ready_congr (p : Plan) (rs : Nat → RegionState) {m m' : Attempts} (r : Nat)
    (ts : List Task) (h : ∀ t ∈ ts, m t = m' t) : p.ready rs m r ts = p.ready rs m' r ts := by
  unfold Plan.ready
  have : (ts.any fun t => lastLive (m t)) = (ts.any fun t => lastLive (m' t)) := by
    rw [Bool.eq_iff_iff]
    simp only [List.any_eq_true]
    exact ⟨fun ⟨t, ht, hl⟩ => ⟨t, ht, by rw [← h t ht]; exact hl⟩,
      fun ⟨t, ht, hl⟩ => ⟨t, ht, by rw [h t ht]; exact hl⟩⟩
  rw [this]

theorem buildRegion_congr (p : Plan) {m m' : Attempts} (ts : List Task)
    (h : ∀ t ∈ ts, m t = m' t) : p.buildRegion m ts = p.buildRegion m' ts := by
  unfold Plan.buildRegion
  congr 1
  funext k
  apply List.map_congr_left
  intro b _
  congr 1
  apply List.map_congr_left
  intro t ht
  rw [h t (List.mem_filter.mp ht).1]

theorem schedule_apply (p : Plan) (rs : Nat → RegionState) (l : List (List Task × Nat))
    (m : Attempts) (hnd : (l.map (·.1)).flatten.Nodup) (t : Task) :
    ((∃ x ∈ l, t ∈ x.1 ∧ p.ready rs m x.2 x.1 = true) ∧
        (schedule p rs l m).1 t = m t ++ [.new]) ∨
    ((∀ x ∈ l, t ∈ x.1 → p.ready rs m x.2 x.1 = false) ∧ (schedule p rs l m).1 t = m t) := by
  induction l generalizing m with
  | nil => right; simp [schedule]
  | cons x rest ih =>
    obtain ⟨ts, r⟩ := x
    simp only [List.map_cons, List.flatten_cons] at hnd
    obtain ⟨_, hrest, hdis⟩ := List.nodup_append'.mp hnd
    have hout : ∀ y ∈ rest, ∀ u ∈ y.1, u ∉ ts := by
      intro y hy u hu hut
      exact hdis hut (List.mem_flatten.mpr ⟨y.1, List.mem_map_of_mem hy, hu⟩)
    unfold schedule
    by_cases hr : p.ready rs m r ts = true
    · simp only [hr, if_true]
      have hready : ∀ y ∈ rest,
          p.ready rs (onTasks ts (· ++ [.new]) m) y.2 y.1 = p.ready rs m y.2 y.1 := by
        intro y hy
        apply ready_congr
        intro u hu
        simp [onTasks, hout y hy u hu]
      rcases ih (onTasks ts (· ++ [.new]) m) hrest with ⟨⟨y, hy, hty, hyr⟩, heq⟩ | ⟨hall, heq⟩
      · left
        refine ⟨⟨y, by simp [hy], hty, by rw [← hready y hy]; exact hyr⟩, ?_⟩
        rw [heq]
        simp [onTasks, hout y hy t hty]
      · by_cases ht : t ∈ ts
        · left
          refine ⟨⟨(ts, r), by simp, ht, hr⟩, ?_⟩
          rw [heq]; simp [onTasks, ht]
        · right
          constructor
          · intro y hy hty
            rcases List.mem_cons.mp hy with rfl | hy
            · exact absurd hty ht
            · rw [← hready y hy]; exact hall y hy hty
          · rw [heq]; simp [onTasks, ht]
    · have hr' : p.ready rs m r ts = false := by simpa using hr
      simp only [hr', if_false, Bool.false_eq_true]
      rcases ih m hrest with ⟨⟨y, hy, hty, hyr⟩, heq⟩ | ⟨hall, heq⟩
      · left; exact ⟨⟨y, by simp [hy], hty, hyr⟩, heq⟩
      · right
        refine ⟨?_, heq⟩
        intro y hy hty
        rcases List.mem_cons.mp hy with rfl | hy
        · exact hr'
        · exact hall y hy hty

/-- A region is handed out exactly when it is ready, with the task sets built from the
attempts after scheduling. -/
theorem schedule_actions (p : Plan) (rs : Nat → RegionState) (l : List (List Task × Nat))
    (m : Attempts) (hnd : (l.map (·.1)).flatten.Nodup) (a : Action) :
    a ∈ (schedule p rs l m).2 ↔
      ∃ x ∈ l, p.ready rs m x.2 x.1 = true ∧
        a = .scheduleRegion x.2 (p.buildRegion (schedule p rs l m).1 x.1) := by
  induction l generalizing m with
  | nil => simp [schedule]
  | cons x rest ih =>
    obtain ⟨ts, r⟩ := x
    have hnd' := hnd
    simp only [List.map_cons, List.flatten_cons] at hnd
    obtain ⟨_, hrest, hdis⟩ := List.nodup_append'.mp hnd
    have hout : ∀ y ∈ rest, ∀ u ∈ y.1, u ∉ ts := by
      intro y hy u hu hut
      exact hdis hut (List.mem_flatten.mpr ⟨y.1, List.mem_map_of_mem hy, hu⟩)
    unfold schedule
    by_cases hr : p.ready rs m r ts = true
    · simp only [hr, if_true, List.mem_cons]
      have hready : ∀ y ∈ rest,
          p.ready rs (onTasks ts (· ++ [.new]) m) y.2 y.1 = p.ready rs m y.2 y.1 := by
        intro y hy
        apply ready_congr
        intro u hu
        simp [onTasks, hout y hy u hu]
      have hb : p.buildRegion (onTasks ts (· ++ [.new]) m) ts =
          p.buildRegion (schedule p rs rest (onTasks ts (· ++ [.new]) m)).1 ts := by
        apply buildRegion_congr
        intro t ht
        rcases schedule_apply p rs rest (onTasks ts (· ++ [.new]) m) hrest t with
          ⟨⟨y, hy, hty, _⟩, _⟩ | ⟨_, heq⟩
        · exact absurd ht (hout y hy t hty)
        · exact heq.symm
      rw [ih _ hrest]
      constructor
      · rintro (rfl | ⟨y, hy, hyr, rfl⟩)
        · exact ⟨(ts, r), by simp, hr, by rw [hb]⟩
        · exact ⟨y, Or.inr hy, by rw [← hready y hy]; exact hyr, rfl⟩
      · rintro ⟨y, rfl | hy, hyr, rfl⟩
        · left; rw [hb]
        · right; exact ⟨y, hy, by rw [hready y hy]; exact hyr, rfl⟩
    · have hr' : p.ready rs m r ts = false := by simpa using hr
      simp only [hr', if_false, Bool.false_eq_true]
      rw [ih m hrest]
      constructor
      · rintro ⟨y, hy, hyr, rfl⟩
        exact ⟨y, by simp [hy], hyr, rfl⟩
      · rintro ⟨y, hy, hyr, rfl⟩
        rcases List.mem_cons.mp hy with rfl | hy
        · simp [hr'] at hyr
        · exact ⟨y, hy, hyr, rfl⟩

theorem zipIdx_fst (l : List (List Task)) : (l.zipIdx.map (·.1)) = l := by simp

theorem mem_zipIdx_iff {l : List (List Task)} {x : List Task × Nat} :
    x ∈ l.zipIdx ↔ l[x.2]? = some x.1 := by
  rw [List.mem_zipIdx_iff_getElem?]

/-! ## Canceling regions -/

theorem any_lastFailed_congr {m m' : Attempts} (ts : List Task) (h : ∀ t ∈ ts, m t = m' t) :
    (ts.any fun t => lastFailed (m t)) = (ts.any fun t => lastFailed (m' t)) := by
  rw [Bool.eq_iff_iff]
  simp only [List.any_eq_true]
  exact ⟨fun ⟨t, ht, hl⟩ => ⟨t, ht, by rw [← h t ht]; exact hl⟩,
    fun ⟨t, ht, hl⟩ => ⟨t, ht, by rw [h t ht]; exact hl⟩⟩

theorem cascade_apply (l : List (List Task)) (m : Attempts) (hnd : l.flatten.Nodup) (t : Task) :
    ((∃ ts ∈ l, t ∈ ts ∧ (ts.any fun u => lastFailed (m u)) = true) ∧
        (cascade l m).1 t = (m t).map Attempt.cancel) ∨
    ((∀ ts ∈ l, t ∈ ts → (ts.any fun u => lastFailed (m u)) = false) ∧
        (cascade l m).1 t = m t) := by
  induction l generalizing m with
  | nil => right; simp [cascade]
  | cons ts rest ih =>
    simp only [List.flatten_cons] at hnd
    obtain ⟨_, hrest, hdis⟩ := List.nodup_append'.mp hnd
    have hout : ∀ y ∈ rest, ∀ u ∈ y, u ∉ ts := by
      intro y hy u hu hut
      exact hdis hut (List.mem_flatten.mpr ⟨y, hy, hu⟩)
    unfold cascade
    by_cases hr : (ts.any fun u => lastFailed (m u)) = true
    · simp only [hr, if_true]
      have hc : ∀ y ∈ rest, (y.any fun u => lastFailed (onTasks ts (·.map Attempt.cancel) m u)) =
          (y.any fun u => lastFailed (m u)) := by
        intro y hy
        apply any_lastFailed_congr
        intro u hu
        simp [onTasks, hout y hy u hu]
      rcases ih (onTasks ts (·.map Attempt.cancel) m) hrest with ⟨⟨y, hy, hty, hyr⟩, heq⟩ | ⟨hall, heq⟩
      · left
        refine ⟨⟨y, by simp [hy], hty, by rw [← hc y hy]; exact hyr⟩, ?_⟩
        rw [heq]
        simp [onTasks, hout y hy t hty]
      · by_cases ht : t ∈ ts
        · left
          refine ⟨⟨ts, by simp, ht, hr⟩, ?_⟩
          rw [heq]; simp [onTasks, ht]
        · right
          constructor
          · intro y hy hty
            rcases List.mem_cons.mp hy with rfl | hy
            · exact absurd hty ht
            · rw [← hc y hy]; exact hall y hy hty
          · rw [heq]; simp [onTasks, ht]
    · have hr' : (ts.any fun u => lastFailed (m u)) = false := by simpa using hr
      simp only [hr', if_false, Bool.false_eq_true]
      rcases ih m hrest with ⟨⟨y, hy, hty, hyr⟩, heq⟩ | ⟨hall, heq⟩
      · left; exact ⟨⟨y, by simp [hy], hty, hyr⟩, heq⟩
      · right
        refine ⟨?_, heq⟩
        intro y hy hty
        rcases List.mem_cons.mp hy with rfl | hy
        · exact hr'
        · exact hall y hy hty

theorem mem_liveKeys {t : Task} {as : List Attempt} {k : AKey} :
    k ∈ liveKeys t as ↔ k.task = t ∧ ∃ a, as[k.attempt]? = some a ∧ a.state.isTerminal = false := by
  unfold liveKeys
  simp only [List.mem_map, List.mem_filter]
  constructor
  · rintro ⟨x, ⟨hx, hl⟩, rfl⟩
    refine ⟨rfl, x.1, ?_, by simpa using hl⟩
    exact List.mem_zipIdx_iff_getElem?.mp hx
  · rintro ⟨rfl, a, ha, hl⟩
    exact ⟨(a, k.attempt), ⟨List.mem_zipIdx_iff_getElem?.mpr ha, by simp [hl]⟩, rfl⟩

theorem cascade_actions (l : List (List Task)) (m : Attempts) (hnd : l.flatten.Nodup)
    (a : Action) :
    a ∈ (cascade l m).2 ↔
      ∃ ts ∈ l, (ts.any fun u => lastFailed (m u)) = true ∧
        ∃ t ∈ ts, ∃ k ∈ liveKeys t (m t), a = .cancelTask k := by
  induction l generalizing m with
  | nil => simp [cascade]
  | cons ts rest ih =>
    simp only [List.flatten_cons] at hnd
    obtain ⟨_, hrest, hdis⟩ := List.nodup_append'.mp hnd
    have hout : ∀ y ∈ rest, ∀ u ∈ y, u ∉ ts := by
      intro y hy u hu hut
      exact hdis hut (List.mem_flatten.mpr ⟨y, hy, hu⟩)
    unfold cascade
    by_cases hr : (ts.any fun u => lastFailed (m u)) = true
    · simp only [hr, if_true]
      have hon : ∀ y ∈ rest, ∀ u ∈ y, onTasks ts (·.map Attempt.cancel) m u = m u := by
        intro y hy u hu
        simp [onTasks, hout y hy u hu]
      have hc : ∀ y ∈ rest, (y.any fun u => lastFailed (onTasks ts (·.map Attempt.cancel) m u)) =
          (y.any fun u => lastFailed (m u)) := by
        intro y hy
        exact any_lastFailed_congr _ (hon y hy)
      rw [List.mem_append, ih _ hrest]
      constructor
      · rintro (h | ⟨y, hy, hyr, t, ht, k, hk, rfl⟩)
        · obtain ⟨t, ht, h⟩ := List.mem_flatMap.mp h
          obtain ⟨k, hk, rfl⟩ := List.mem_map.mp h
          exact ⟨ts, by simp, hr, t, ht, k, hk, rfl⟩
        · exact ⟨y, by simp [hy], by rw [← hc y hy]; exact hyr, t, ht, k,
            by rw [← hon y hy t ht]; exact hk, rfl⟩
      · rintro ⟨y, hy, hyr, t, ht, k, hk, rfl⟩
        rcases List.mem_cons.mp hy with rfl | hy
        · left
          exact List.mem_flatMap.mpr ⟨t, ht, List.mem_map_of_mem hk⟩
        · right
          exact ⟨y, hy, by rw [hc y hy]; exact hyr, t, ht, k, by rw [hon y hy t ht]; exact hk, rfl⟩
    · have hr' : (ts.any fun u => lastFailed (m u)) = false := by simpa using hr
      simp only [hr', if_false, Bool.false_eq_true]
      rw [ih m hrest]
      constructor
      · rintro ⟨y, hy, h⟩
        exact ⟨y, by simp [hy], h⟩
      · rintro ⟨y, hy, hyr, h⟩
        rcases List.mem_cons.mp hy with rfl | hy
        · simp [hr'] at hyr
        · exact ⟨y, hy, hyr, h⟩

/-! ## Region states -/

theorem regionStateOf_succeeded {p : Plan} {m : Attempts} {r : Nat} :
    regionStateOf p m r = .succeeded ↔
      ∀ t ∈ p.regions.getD r [], lastSucceeded (m t) = true := by
  unfold regionStateOf
  constructor
  · intro h
    split at h
    · simp at h
    · split at h
      · rename_i hall
        exact fun t ht => List.all_eq_true.mp hall t ht
      · simp at h
  · intro h
    have h1 : ((p.regions.getD r []).any fun t => exhausted p.maxAttempts (m t)) = false := by
      rw [List.any_eq_false]
      intro t ht
      have := lastSucceeded_iff.mp (h t ht)
      simp [exhausted, this]
    simp only [h1, if_false, Bool.false_eq_true]
    rw [if_pos (List.all_eq_true.mpr h)]

theorem regionStateOf_failed {p : Plan} {m : Attempts} {r : Nat} :
    regionStateOf p m r = .failed ↔
      ∃ t ∈ p.regions.getD r [], exhausted p.maxAttempts (m t) = true := by
  unfold regionStateOf
  constructor
  · intro h
    split at h
    · rename_i hany
      exact List.any_eq_true.mp hany
    · split at h <;> simp at h
  · intro h
    rw [if_pos (List.any_eq_true.mpr h)]

/-- What the planner guarantees for a plan: the regions are those of the job graph. -/
structure Planned (p : Plan) : Prop where
  wf : p.graph.WF
  regions : regionTasks p.graph = some p.regions
  deps : p.deps = regionDeps p.graph p.regions

theorem Planned.nodup {p : Plan} (h : Planned p) : p.regions.flatten.Nodup :=
  (C14_regions_cover_tasks_exactly_once p.graph h.wf p.regions h.regions).1

theorem Planned.mem {p : Plan} (h : Planned p) {t : Task} :
    t ∈ p.regions.flatten ↔ Spec.IsTask p.graph t :=
  (C14_regions_cover_tasks_exactly_once p.graph h.wf p.regions h.regions).2 t

/-! ## The invariant -/

/-- The invariant of a job. -/
structure Inv (p : Plan) (j : Job) : Prop where
  old_done : ∀ (t : Task) (i : Nat) (a : Attempt), (j.attempts t)[i]? = some a → i + 1 < (j.attempts t).length →
    a.state.isTerminal = true
  lockstep : ∀ ts ∈ p.regions, ∀ t ∈ ts, ∀ u ∈ ts,
    (j.attempts t).length = (j.attempts u).length
  bound : ∀ t, (j.attempts t).length ≤ max p.maxAttempts 1
  deps : ∀ (r : Nat) (ts : List Task), p.regions[r]? = some ts → ∀ t ∈ ts, j.attempts t ≠ [] → ∀ d ∈ p.deps r,
    ∀ ts' : List Task, p.regions[d]? = some ts' → ∀ u ∈ ts', lastSucceeded (j.attempts u) = true
  done : (j.status = .draining ∨ j.status = .succeeded) → ∀ ts ∈ p.regions, ∀ t ∈ ts,
    lastSucceeded (j.attempts t) = true
  only_tasks : ∀ t, j.attempts t ≠ [] → t ∈ p.regions.flatten

theorem inv_init (p : Plan) : Inv p Job.init where
  old_done := by simp [Job.init]
  lockstep := by simp [Job.init]
  bound := by simp [Job.init]
  deps := by simp [Job.init]
  done := by simp [Job.init]
  only_tasks := by simp [Job.init]

theorem Inv.adv {p : Plan} {j j' : Job} (h : Inv p j)
    (ha : ∀ t, Adv (j.attempts t) (j'.attempts t))
    (hs : (j'.status = .draining ∨ j'.status = .succeeded) →
      (j.status = .draining ∨ j.status = .succeeded) ∨
      ∀ ts ∈ p.regions, ∀ t ∈ ts, lastSucceeded (j'.attempts t) = true) : Inv p j' where
  old_done := by
    intro t i b hb hi
    have hlen := (ha t).1
    have hlt : i < (j.attempts t).length := by omega
    obtain ⟨b', hb', hst⟩ := (ha t).2 i _ (List.getElem?_eq_getElem hlt)
    have ht := h.old_done t i _ (List.getElem?_eq_getElem hlt) (by omega)
    have : b = b' := Option.some.inj (hb.symm.trans hb')
    subst this
    rw [hst ht]; exact ht
  lockstep := by
    intro ts hts t ht u hu
    rw [← (ha t).len, ← (ha u).len]
    exact h.lockstep ts hts t ht u hu
  bound := by
    intro t; rw [← (ha t).len]; exact h.bound t
  deps := by
    intro r ts hr t ht hne d hd ts' hd' u hu
    apply (ha u).lastSucceeded
    refine h.deps r ts hr t ht ?_ d hd ts' hd' u hu
    intro h0
    apply hne
    apply List.eq_nil_of_length_eq_zero
    rw [← (ha t).len, h0]; rfl
  done := by
    intro hd ts hts t ht
    rcases hs hd with h1 | h1
    · exact (ha t).lastSucceeded (h.done h1 ts hts t ht)
    · exact h1 ts hts t ht
  only_tasks := by
    intro t hne
    apply h.only_tasks
    intro h0
    apply hne
    apply List.eq_nil_of_length_eq_zero
    rw [← (ha t).len, h0]; rfl

theorem mem_getD_of_getElem? {p : Plan} {r : Nat} {ts : List Task} (h : p.regions[r]? = some ts) :
    p.regions.getD r [] = ts := by simp [List.getD, h]

theorem lastLive_false {as : List Attempt} (h : lastLive as = false) :
    as = [] ∨ ∃ s, lastState as = some s ∧ s.isTerminal = true := by
  unfold lastLive at h
  cases hs : lastState as with
  | none =>
    left
    cases as with
    | nil => rfl
    | cons a as => simp [lastState] at hs
  | some s => right; exact ⟨s, rfl, by simpa [hs] using h⟩

/-- One scheduling round keeps the invariant. -/
theorem inv_schedule {p : Plan} {j j' : Job} (hp : Planned p) (h : Inv p j)
    (hnf : ∀ r, r < p.regions.length → regionStateOf p j.attempts r ≠ .failed)
    (hj : j'.attempts = (schedule p (regionStateOf p j.attempts) p.regions.zipIdx j.attempts).1)
    (hrun : j'.status = .running) : Inv p j' := by
  have happ := fun t => schedule_apply p (regionStateOf p j.attempts) p.regions.zipIdx j.attempts
    (by rw [zipIdx_fst]; exact hp.nodup) t
  rw [← hj] at happ
  -- ready regions
  have hready : ∀ x ∈ p.regions.zipIdx, p.ready (regionStateOf p j.attempts) j.attempts x.2 x.1 = true →
      p.regions[x.2]? = some x.1 ∧ regionStateOf p j.attempts x.2 ≠ .succeeded ∧
      (∀ d ∈ p.deps x.2, regionStateOf p j.attempts d = .succeeded) ∧
      ∀ t ∈ x.1, lastLive (j.attempts t) = false := by
    intro x hx hr
    unfold Plan.ready at hr
    simp only [Bool.and_eq_true, bne_iff_ne, ne_eq, List.all_eq_true, beq_iff_eq,
      Bool.not_eq_true', List.any_eq_false, Bool.not_eq_true] at hr
    exact ⟨mem_zipIdx_iff.mp hx, hr.1.1, hr.1.2, hr.2⟩
  -- a region whose tasks have all succeeded gets no new attempts
  have hkeep : ∀ (d : Nat) (ts' : List Task), p.regions[d]? = some ts' →
      (∀ u ∈ ts', lastSucceeded (j.attempts u) = true) →
      ∀ u ∈ ts', lastSucceeded (j'.attempts u) = true := by
    intro d ts' hd hall u hu
    rcases happ u with ⟨⟨x, hx, hux, hxr⟩, _⟩ | ⟨_, heq⟩
    · obtain ⟨hx1, hx2, _⟩ := hready x hx hxr
      have : x.2 = d := region_unique hp.nodup hx1 hd hux hu
      subst this
      exact absurd (regionStateOf_succeeded.mpr (by rw [mem_getD_of_getElem? hd]; exact hall)) hx2
    · rw [heq]; exact hall u hu
  refine ⟨?_, ?_, ?_, ?_, ?_, ?_⟩
  · intro t i a ha hi
    rcases happ t with ⟨⟨x, hx, htx, hxr⟩, heq⟩ | ⟨_, heq⟩
    · rw [heq] at ha hi
      simp only [List.length_append, List.length_cons, List.length_nil] at hi
      have hil : i < (j.attempts t).length := by omega
      rw [List.getElem?_append_left hil] at ha
      by_cases hlast : i + 1 < (j.attempts t).length
      · exact h.old_done t i a ha hlast
      · obtain ⟨_, _, _, hl⟩ := hready x hx hxr
        rcases lastLive_false (hl t htx) with h0 | ⟨s, hs, hst⟩
        · rw [h0] at hil; simp at hil
        · unfold lastState at hs
          rw [getLast?_eq_getElem?', show (j.attempts t).length - 1 = i by omega, ha] at hs
          simp at hs; rw [hs]; exact hst
    · rw [heq] at ha hi
      exact h.old_done t i a ha hi
  · intro ts hts t ht u hu
    obtain ⟨r, hr⟩ := List.mem_iff_getElem?.mp hts
    have hl := h.lockstep ts hts t ht u hu
    rcases happ t with ⟨⟨x, hx, htx, hxr⟩, heq⟩ | ⟨hall, heq⟩
    · obtain ⟨hx1, _⟩ := hready x hx hxr
      have : x.2 = r := region_unique hp.nodup hx1 hr htx ht
      subst this
      have hxts : x.1 = ts := Option.some.inj (hx1.symm.trans hr)
      rcases happ u with ⟨_, heq'⟩ | ⟨hall', _⟩
      · rw [heq, heq']; simp [hl]
      · have := hall' x hx (by rw [hxts]; exact hu)
        simp [hxr] at this
    · rcases happ u with ⟨⟨x, hx, hux, hxr⟩, heq'⟩ | ⟨_, heq'⟩
      · obtain ⟨hx1, _⟩ := hready x hx hxr
        have : x.2 = r := region_unique hp.nodup hx1 hr hux hu
        subst this
        have hxts : x.1 = ts := Option.some.inj (hx1.symm.trans hr)
        have := hall x hx (by rw [hxts]; exact ht)
        simp [hxr] at this
      · rw [heq, heq']; exact hl
  · intro t
    rcases happ t with ⟨⟨x, hx, htx, hxr⟩, heq⟩ | ⟨_, heq⟩
    · obtain ⟨hx1, hx2, _, hx4⟩ := hready x hx hxr
      rw [heq]
      simp only [List.length_append, List.length_cons, List.length_nil]
      -- some task of the region has not succeeded
      have hex : ∃ u ∈ x.1, lastSucceeded (j.attempts u) ≠ true := by
        by_contra hno
        push Not at hno
        exact hx2 (regionStateOf_succeeded.mpr (by rw [mem_getD_of_getElem? hx1]; exact hno))
      obtain ⟨u, hu, hns⟩ := hex
      have hlen := h.lockstep x.1 (List.mem_of_getElem? hx1) t htx u hu
      have hnf' := hnf x.2 (List.getElem?_eq_some_iff.mp hx1).1
      have hne : exhausted p.maxAttempts (j.attempts u) ≠ true := by
        intro he
        exact hnf' (regionStateOf_failed.mpr ⟨u, by rw [mem_getD_of_getElem? hx1]; exact hu, he⟩)
      rcases lastLive_false (hx4 u hu) with h0 | ⟨s, hs, hst⟩
      · rw [hlen, h0]; exact Nat.le_max_right _ _
      · have : s = .failed ∨ s = .canceled := by
          rw [ne_eq, lastSucceeded_iff, hs] at hns
          cases s <;> simp_all [TaskState.isTerminal]
        have hlt : (j.attempts u).length < p.maxAttempts := by
          by_contra hge
          apply hne
          unfold exhausted
          rw [hs]
          rcases this with rfl | rfl <;> simp <;> omega
        omega
    · rw [heq]; exact h.bound t
  · intro r ts hr t ht hne d hd ts' hd' u hu
    rcases happ t with ⟨⟨x, hx, htx, hxr⟩, heq⟩ | ⟨_, heq⟩
    · obtain ⟨hx1, _, hx3, _⟩ := hready x hx hxr
      have : x.2 = r := region_unique hp.nodup hx1 hr htx ht
      subst this
      have hsucc := regionStateOf_succeeded.mp (hx3 d hd)
      rw [mem_getD_of_getElem? hd'] at hsucc
      exact hkeep d ts' hd' hsucc u hu
    · rw [heq] at hne
      exact hkeep d ts' hd' (h.deps r ts hr t ht hne d hd ts' hd') u hu
  · intro hs; simp [hrun] at hs
  · intro t hne
    rcases happ t with ⟨⟨x, hx, htx, hxr⟩, heq⟩ | ⟨_, heq⟩
    · exact List.mem_flatten.mpr ⟨x.1, List.mem_of_getElem? (mem_zipIdx_iff.mp hx), htx⟩
    · rw [heq] at hne; exact h.only_tasks t hne

theorem anyRegion_false {p : Plan} {rs : Nat → RegionState} {s : RegionState} :
    p.anyRegion rs s = false ↔ ∀ r, r < p.regions.length → rs r ≠ s := by
  unfold Plan.anyRegion
  simp [List.any_eq_false]

theorem anyRegion_true {p : Plan} {rs : Nat → RegionState} {s : RegionState} :
    p.anyRegion rs s = true ↔ ∃ r, r < p.regions.length ∧ rs r = s := by
  unfold Plan.anyRegion
  simp [List.any_eq_true]

theorem allRegions_true {p : Plan} {rs : Nat → RegionState} {s : RegionState} :
    p.allRegions rs s = true ↔ ∀ r, r < p.regions.length → rs r = s := by
  unfold Plan.allRegions
  simp [List.all_eq_true]

theorem inv_refresh {p : Plan} {j : Job} (hp : Planned p) (h : Inv p j) :
    Inv p (refresh p j).1 := by
  unfold refresh
  split
  · rename_i hrun
    have hbase : Inv p { j with attempts := refreshed p j } := by
      refine h.adv (fun t => refreshed_adv p j t) ?_
      intro hs; exact Or.inl hs
    split
    · refine h.adv (fun t => refreshed_adv p j t) ?_
      intro hs; simp at hs
    · rename_i hnf
      split
      · rename_i hall
        refine h.adv (fun t => refreshed_adv p j t) ?_
        intro _
        right
        intro ts hts t ht
        obtain ⟨r, hr⟩ := List.mem_iff_getElem?.mp hts
        have := regionStateOf_succeeded.mp
          (allRegions_true.mp hall r (List.getElem?_eq_some_iff.mp hr).1)
        rw [mem_getD_of_getElem? hr] at this
        exact this t ht
      · refine inv_schedule hp hbase ?_ rfl rfl
        exact anyRegion_false.mp (by simpa using hnf)
  · exact h

theorem inv_step {p : Plan} {j : Job} (hp : Planned p) (h : Inv p j) (o : Op) :
    Inv p (step p j o).1 := by
  cases o with
  | report k s c =>
    exact h.adv (fun t => updateTask_adv j k s c t) (fun hs => Or.inl hs)
  | refresh => exact inv_refresh hp h
  | cleanUp =>
    refine h.adv (fun t => Adv.refl _) (fun hs => Or.inl ?_)
    simp only [step, cleanUp] at hs
    left
    by_contra hne
    simp [hne] at hs
  | stop =>
    refine h.adv (fun t => stop_adv j t) (fun hs => Or.inl ?_)
    simp only [step, stop] at hs
    split at hs
    · simp at hs
    · exact hs

theorem inv_run {p : Plan} (hp : Planned p) (ops : List Op) {j : Job} (h : Inv p j) :
    Inv p (run p ops j) := by
  induction ops generalizing j with
  | nil => exact h
  | cons o ops ih => exact ih (inv_step hp h o)

end Verif.Exec
