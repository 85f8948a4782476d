import Verif.Celeborn.CoverLemmas

/-!
# Lemmas: shuffles that are being committed, applications that are not registered, stopping
-/

namespace Verif.Celeborn

open Verif.Catalog (find erase put Distinct find_put find_erase mem_of_find find_of_mem)

variable {ρ : Type}

/-- All requests but the end of a mapper leave the commits under way as they are. -/
theorem request_committing (s : State ρ) (q : Request ρ)
    (hq : ∀ sid map a n r, q ≠ .mapperEnd sid map a n r) :
    (request s q).st.committing = s.committing := by
  cases q with
  | getId job stage r =>
    simp only [request, getId]
    split
    · rfl
    · split <;> rfl
  | jobIds job r => rfl
  | register sid parts b m r =>
    simp only [request, register]
    split
    · rfl
    · split
      · rfl
      · split <;> rfl
  | revive sid pid old cause r =>
    simp only [request, revive]
    split
    · rfl
    · split
      · rfl
      · split
        · rfl
        · split
          · rfl
          · split
            · rfl
            · split <;> rfl
  | mapperEnd sid map attempt n r => exact absurd rfl (hq _ _ _ _ _)
  | unregister sid r =>
    simp only [request, unregister]
    split <;> rfl
  | report m r => rfl
  | heartbeat =>
    simp only [request, heartbeat]
    split <;> rfl
  | stop r => rfl

theorem mapperEnd_committing (s : State ρ) (sid map a n : Int) (r : ρ) :
    (mapperEnd s sid map a n r).st.committed = s.committed ∧
    (((mapperEnd s sid map a n r).tasks = [] ∧
      (mapperEnd s sid map a n r).st.committing = s.committing) ∨
    ∃ sl att, (mapperEnd s sid map a n r).tasks = [.commit sid sl att r] ∧
      (mapperEnd s sid map a n r).st.committing =
        sid :: s.committing.filter (fun i => decide (i ≠ sid))) := by
  unfold mapperEnd
  split
  · exact ⟨rfl, Or.inl ⟨rfl, rfl⟩⟩
  · split
    · exact ⟨rfl, Or.inl ⟨rfl, rfl⟩⟩
    · split
      · exact ⟨rfl, Or.inl ⟨rfl, rfl⟩⟩
      · split
        · exact ⟨rfl, Or.inl ⟨rfl, rfl⟩⟩
        · dsimp only
          split
          · exact ⟨rfl, Or.inl ⟨rfl, rfl⟩⟩
          · split
            · exact ⟨rfl, Or.inl ⟨rfl, rfl⟩⟩
            · split
              · exact ⟨rfl, Or.inl ⟨rfl, rfl⟩⟩
              · exact ⟨rfl, Or.inr ⟨_, _, rfl, rfl⟩⟩

theorem done_committing (s : State ρ) (d : Done ρ) (sid : Int)
    (hd : ∀ r, d ≠ .unregistered sid (.ok ()) r) :
    sid ∈ (done s d).st.committing ↔ sid ∈ s.committing ∧ ∀ res r, d ≠ .committed sid res r := by
  cases d with
  | registered sid' res =>
    simp only [done, registerDone]
    split <;> simp
  | revived sid' pid res =>
    simp only [done, reviveDone]
    split
    · simp
    · split
      · simp
      · split <;> simp
  | committed sid' res r =>
    simp only [done, mapperEndDone]
    split
    · by_cases e : sid = sid'
      · subst e
        simp [List.mem_filter]
      · simp [List.mem_filter, e, Ne.symm e]
    · by_cases e : sid = sid'
      · subst e
        simp [List.mem_filter]
      · simp [List.mem_filter, e, Ne.symm e]
  | unregistered sid' res r =>
    simp only [done, unregisterDone]
    split
    · have hne : sid' ≠ sid := by
        rintro rfl
        exact hd r rfl
      simp [List.mem_filter, Ne.symm hne]
    · simp
  | heartbeat res =>
    simp only [done, heartbeatDone]
    split
    · split <;> simp
    · simp
  | stopped r => simp [done]

theorem finish_commit {t : Task ρ} {a : Remote} {sid : Int} {res : Except Err Metrics} {r : ρ}
    (h : finish t a = some (some (.committed sid res r))) :
    (∃ sl att, t = .commit sid sl att r) := by
  cases t <;> cases a <;> simp [finish] at h
  · split at h <;> simp at h
  · exact ⟨_, _, by rw [h.1, h.2.2]⟩
  · exact ⟨_, _, by rw [h.1, h.2.2]⟩

/-- A commit of the shuffle is under way. -/
def Spec.InFlight (w : World ρ) (sid : Int) : Prop :=
  ∃ sl att r, Task.commit sid sl att r ∈ w.tasks

theorem inFlight_count {w : World ρ} {sid : Int} :
    Spec.InFlight w sid ↔ 0 < w.tasks.countP (Task.isCommit sid) := by
  rw [List.countP_pos_iff]
  constructor
  · rintro ⟨sl, att, r, h⟩
    exact ⟨_, h, by simp [Task.isCommit]⟩
  · rintro ⟨t, ht, hc⟩
    obtain ⟨sl, att, r, rfl⟩ := isCommit_iff hc
    exact ⟨sl, att, r, ht⟩

/-- The sets of shuffles are what they should be, as long as the actor runs. -/
structure Marks (sid : Int) (w : World ρ) : Prop where
  committing : w.stopped = false → (sid ∈ w.st.committing ↔ 0 < w.tasks.countP (Task.isCommit sid))
  committed : w.stopped = false → (sid ∈ w.st.committed ↔ Spec.Committed w sid)

theorem Marks.run (reg : Registration) (sid : Int) (evs : List (Event ρ))
    (keep : ∀ r, Event.ask (.unregister sid r) ∉ evs)
    (nonneg : ∀ m a n r, Event.ask (.mapperEnd sid m a n r) ∈ evs → 0 ≤ a) :
    Marks sid ((World.init ρ reg).run evs) ∧
    ∀ r, Task.unregister sid r ∉ ((World.init ρ reg).run evs).tasks := by
  induction evs using List.reverseRecOn with
  | nil =>
    refine ⟨⟨fun _ => ?_, fun _ => ?_⟩, ?_⟩ <;>
      simp [World.run, World.init, State.init, Spec.Committed]
  | append_singleton evs e ih =>
    have keep' : ∀ r, Event.ask (.unregister sid r) ∉ evs :=
      fun r hm => keep r (List.mem_append_left _ hm)
    have nonneg' : ∀ m a n r, Event.ask (.mapperEnd sid m a n r) ∈ evs → 0 ≤ a :=
      fun m a n r hm => nonneg m a n r (List.mem_append_left _ hm)
    obtain ⟨ih, hu⟩ := ih keep' nonneg'
    have le := commits_le reg sid evs keep' nonneg'
    rw [run_append]
    generalize (World.init ρ reg).run evs = w at ih hu le
    simp only [World.run]
    refine step_cases (P := fun w => Marks sid w ∧ ∀ r, Task.unregister sid r ∉ w.tasks) w e
      ⟨ih, hu⟩ ?_ ?_
    · intro q hq hs
      refine ⟨?_, ?_⟩
      · have same : Spec.Committed (w.apply (request w.st q)) sid ↔ Spec.Committed w sid := Iff.rfl
        have cnt : (w.apply (request w.st q)).tasks.countP (Task.isCommit sid) =
            w.tasks.countP (Task.isCommit sid) + (request w.st q).tasks.countP (Task.isCommit sid) := by
          simp only [World.apply, List.countP_append]
        by_cases hm : ∃ s m a n r, q = .mapperEnd s m a n r
        · obtain ⟨s, m, a, n, r, rfl⟩ := hm
          obtain ⟨h1, h2⟩ := mapperEnd_committing w.st s m a n r
          refine ⟨fun _ => ?_, fun _ => ?_⟩
          · rw [cnt]
            show sid ∈ (mapperEnd w.st s m a n r).st.committing ↔
              0 < _ + (mapperEnd w.st s m a n r).tasks.countP _
            rcases h2 with ⟨h2, h3⟩ | ⟨sl, att, h2, h3⟩
            · rw [h2, h3]
              simpa using ih.committing hs
            · rw [h2, h3]
              by_cases e : s = sid
              · subst e
                simp [Task.isCommit]
              · have : sid ≠ s := Ne.symm e
                simpa [Task.isCommit, e, this, List.mem_filter] using ih.committing hs
          · rw [same]
            show sid ∈ (mapperEnd w.st s m a n r).st.committed ↔ _
            rw [h1]
            exact ih.committed hs
        · have ne : ∀ s m a n r, q ≠ .mapperEnd s m a n r := fun s m a n r hh => hm ⟨s, m, a, n, r, hh⟩
          obtain ⟨_, _, h3, h4, _⟩ := request_frame w.st q ne
          have zero : (request w.st q).tasks.countP (Task.isCommit sid) = 0 := by
            rw [List.countP_eq_zero]
            intro t ht hc
            obtain ⟨sl, att, r, rfl⟩ := isCommit_iff hc
            exact h4 _ _ _ _ ht
          refine ⟨fun _ => ?_, fun _ => ?_⟩
          · rw [cnt, zero]
            show sid ∈ (request w.st q).st.committing ↔ _
            rw [request_committing w.st q ne]
            exact ih.committing hs
          · rw [same]
            show sid ∈ (request w.st q).st.committed ↔ _
            rw [h3]
            exact ih.committed hs
      · intro r hm
        rcases List.mem_append.1 hm with hm | hm
        · exact hu r hm
        · refine keep r ?_
          rw [← request_unregister w.st q sid r hm, ← hq]
          simp
    · intro i t a d _ ht hf
      have hmem := List.mem_of_getElem? ht
      have perm := (eraseIdx_perm ht).countP_eq (Task.isCommit sid)
      simp only [List.countP_cons] at perm
      have hu' : ∀ r, Task.unregister sid r ∉ w.tasks.eraseIdx i :=
        fun r hm => hu r (mem_of_eraseIdx hm)
      have one : w.tasks.countP (Task.isCommit sid) ≤ 1 := by
        rw [World.commits] at le
        omega
      rcases Bool.eq_false_or_eq_true w.stopped with hs | hs
      · have e : (({ w with tasks := w.tasks.eraseIdx i, ended := w.ended ++ [(t, a)] } : World ρ).handle d) =
            { w with tasks := w.tasks.eraseIdx i, ended := w.ended ++ [(t, a)] } := by
          cases d with
          | none => rfl
          | some x => simp [World.handle, hs]
        rw [e]
        have no : ¬w.stopped = false := by simp [hs]
        exact ⟨⟨fun h => absurd h no, fun h => absurd h no⟩, hu'⟩
      · cases d with
        | none =>
          -- a clean-up ended
          have nc : t.isCommit sid = false := by
            cases t <;> cases a <;> simp [finish, Task.isCommit] at hf ⊢
          rw [nc] at perm
          refine ⟨⟨fun _ => ?_, fun _ => ?_⟩, hu'⟩
          · show sid ∈ w.st.committing ↔ 0 < (w.tasks.eraseIdx i).countP _
            rw [ih.committing hs]
            simp only [Bool.false_eq_true, if_false] at perm
            omega
          · show sid ∈ w.st.committed ↔ ∃ sl att r m, _ ∈ w.ended ++ [(t, a)]
            rw [ih.committed hs]
            constructor
            · rintro ⟨sl, att, r, m, h⟩
              exact ⟨sl, att, r, m, List.mem_append_left _ h⟩
            · rintro ⟨sl, att, r, m, h⟩
              rcases List.mem_append.1 h with h | h
              · exact ⟨sl, att, r, m, h⟩
              · simp only [List.mem_singleton, Prod.mk.injEq] at h
                rw [← h.1] at nc
                simp [Task.isCommit] at nc
        | some x =>
          have nu : ∀ r, x ≠ .unregistered sid (.ok ()) r := by
            rintro r rfl
            obtain ⟨rfl, _⟩ := finish_unregistered hf
            exact hu r hmem
          have zero : (done w.st x).tasks.countP (Task.isCommit sid) = 0 := by
            rw [List.countP_eq_zero]
            intro t ht hc
            obtain ⟨sl, att, r, rfl⟩ := isCommit_iff hc
            obtain ⟨_, hc⟩ := done_tasks _ _ _ ht
            exact nomatch hc
          have isc : t.isCommit sid = true ↔ ∃ res r, x = .committed sid res r := by
            constructor
            · intro h
              obtain ⟨sl, att, r, rfl⟩ := isCommit_iff h
              cases a <;> simp [finish] at hf
              · exact ⟨_, _, hf.symm⟩
              · exact ⟨_, _, hf.symm⟩
            · rintro ⟨res, r, rfl⟩
              obtain ⟨sl, att, rfl⟩ := finish_commit hf
              simp [Task.isCommit]
          simp only [World.handle, hs, Bool.false_eq_true, if_false]
          refine ⟨⟨fun _ => ?_, fun _ => ?_⟩, ?_⟩
          · show sid ∈ (done w.st x).st.committing ↔
              0 < (w.tasks.eraseIdx i ++ (done w.st x).tasks).countP _
            rw [List.countP_append, zero, done_committing w.st x sid nu, ih.committing hs]
            by_cases h : t.isCommit sid = true
            · obtain ⟨res, r, hx⟩ := isc.1 h
              rw [if_pos h] at perm
              constructor
              · intro k
                exact absurd hx (k.2 res r)
              · intro k
                omega
            · rw [if_neg h] at perm
              constructor
              · intro k
                omega
              · intro k
                exact ⟨by omega, fun res r hx => h (isc.2 ⟨res, r, hx⟩)⟩
          · show sid ∈ (done w.st x).st.committed ↔ ∃ sl att r m, _ ∈ w.ended ++ [(t, a)]
            rw [(done_frame w.st x sid nu).2.1, ih.committed hs]
            constructor
            · rintro (⟨sl, att, r, m, h⟩ | ⟨m, r, rfl⟩)
              · exact ⟨sl, att, r, m, List.mem_append_left _ h⟩
              · obtain ⟨⟨sl, att, rfl⟩, rfl⟩ := finish_committed hf
                exact ⟨sl, att, r, m, by simp⟩
            · rintro ⟨sl, att, r, m, h⟩
              rcases List.mem_append.1 h with h | h
              · exact Or.inl ⟨sl, att, r, m, h⟩
              · simp only [List.mem_singleton, Prod.mk.injEq] at h
                obtain ⟨rfl, rfl⟩ := h
                simp only [finish, Option.some.injEq] at hf
                exact Or.inr ⟨m, r, hf.symm⟩
          · intro r hm
            rcases List.mem_append.1 hm with hm | hm
            · exact hu' r hm
            · obtain ⟨_, hc⟩ := done_tasks _ _ _ hm
              exact nomatch hc

/-! ## Applications that are not registered -/

/-- A heartbeat, or an end that releases nothing. -/
def Spec.Idle : Task ρ → Prop
  | .heartbeat _ => True
  | .stop sids _ => sids = []
  | _ => False

/-- The answer hands out slots or a location. -/
def Spec.HandsOut : Answer → Prop
  | .slots (.ok _) => True
  | .loc (.ok _) => True
  | _ => False

structure Shut (w : World ρ) : Prop where
  reg : w.st.registration.error = true
  registered : w.st.registered = []
  reservations : w.st.reservations = []
  slots : w.st.pendingSlots = []
  revives : w.st.pendingRevives = []
  committed : w.st.committed = []
  tasks : ∀ t ∈ w.tasks, Spec.Idle t
  ended : ∀ x ∈ w.ended, Spec.Idle x.1
  said : ∀ x ∈ w.said, ¬Spec.HandsOut x.2

theorem Shut.run (reg : Registration) (h : reg.error = true) (evs : List (Event ρ)) :
    Shut ((World.init ρ reg).run evs) := by
  refine run_inv (P := Shut) evs (World.init ρ reg)
    ⟨h, rfl, rfl, rfl, rfl, rfl, by simp [World.init], by simp [World.init], by simp [World.init]⟩ ?_
  intro w e _ k
  refine step_cases (P := Shut) w e k ?_ ?_
  · intro q _ _
    have frame : ∀ f : Effect ρ, f.st.registration = w.st.registration →
        f.st.registered = w.st.registered → f.st.reservations = w.st.reservations →
        f.st.pendingSlots = w.st.pendingSlots → f.st.pendingRevives = w.st.pendingRevives →
        f.st.committed = w.st.committed → (∀ t ∈ f.tasks, Spec.Idle t) →
        (∀ x ∈ f.said, ¬Spec.HandsOut x.2) → Shut (w.apply f) := by
      intro f h1 h2 h3 h4 h5 h6 h7 h8
      refine ⟨h1 ▸ k.reg, h2.trans k.registered, h3.trans k.reservations, h4.trans k.slots,
        h5.trans k.revives, h6.trans k.committed, ?_, k.ended, ?_⟩
      · intro t ht
        rcases List.mem_append.1 ht with ht | ht
        · exact k.tasks t ht
        · exact h7 t ht
      · intro t ht
        rcases List.mem_append.1 ht with ht | ht
        · exact k.said t ht
        · exact h8 t ht
    cases q with
    | getId job stage r =>
      simp only [request, getId]
      split
      · exact frame _ rfl rfl rfl rfl rfl rfl (by simp) (by simp [Spec.HandsOut])
      · split <;> exact frame _ rfl rfl rfl rfl rfl rfl (by simp) (by simp [Spec.HandsOut])
    | jobIds job r =>
      exact frame _ rfl rfl rfl rfl rfl rfl (by simp [request, jobIds]) (by simp [request, jobIds, Spec.HandsOut])
    | register sid parts b m r =>
      simp only [request, register, k.reservations, k.slots, find, k.reg, if_true]
      exact frame _ rfl rfl rfl rfl rfl rfl (by simp) (by simp [Spec.HandsOut])
    | revive sid pid old cause r =>
      simp only [request, revive, k.reg, if_true]
      exact frame _ rfl rfl rfl rfl rfl rfl (by simp) (by simp [Spec.HandsOut])
    | mapperEnd sid map attempt n r =>
      simp only [request, mapperEnd, k.committed, k.registered, find, List.not_mem_nil, if_false]
      split
      · exact frame _ rfl rfl rfl rfl rfl rfl (by simp) (by simp [Spec.HandsOut])
      · split <;> exact frame _ rfl rfl rfl rfl rfl rfl (by simp) (by simp [Spec.HandsOut])
    | unregister sid r =>
      simp only [request, unregister, k.reg, if_true]
      exact frame _ rfl rfl rfl rfl rfl rfl (by simp) (by simp [Spec.HandsOut])
    | report m r =>
      exact frame _ rfl rfl rfl rfl rfl rfl (by simp [request, report]) (by simp [request, report, Spec.HandsOut])
    | heartbeat =>
      simp only [request, heartbeat]
      split
      · exact frame _ rfl rfl rfl rfl rfl rfl (by simp) (by simp)
      · exact frame _ rfl rfl rfl rfl rfl rfl (by simp [Spec.Idle]) (by simp)
    | stop r =>
      exact frame _ rfl rfl rfl rfl rfl rfl
        (by simp [request, Celeborn.stop, Spec.Idle, k.registered]) (by simp [request, Celeborn.stop])
  · intro i t a d _ ht hf
    have hmem := List.mem_of_getElem? ht
    have it := k.tasks t hmem
    have moved : Shut { w with tasks := w.tasks.eraseIdx i, ended := w.ended ++ [(t, a)] } := by
      refine ⟨k.reg, k.registered, k.reservations, k.slots, k.revives, k.committed,
        fun t h => k.tasks t (mem_of_eraseIdx h), ?_, k.said⟩
      intro x hx
      rcases List.mem_append.1 hx with hx | hx
      · exact k.ended x hx
      · rw [List.mem_singleton.1 hx]
        exact it
    refine handle_cases (P := Shut) _ d moved ?_
    rintro x b rfl _
    have quiet : (done w.st x).tasks = [] ∧ (done w.st x).st.registration = w.st.registration ∧
        (done w.st x).st.registered = w.st.registered ∧ (done w.st x).st.reservations = w.st.reservations ∧
        (done w.st x).st.pendingSlots = w.st.pendingSlots ∧
        (done w.st x).st.pendingRevives = w.st.pendingRevives ∧
        (done w.st x).st.committed = w.st.committed ∧ ∀ y ∈ (done w.st x).said, ¬Spec.HandsOut y.2 := by
      cases t <;> simp only [Spec.Idle] at it
      · cases a <;> simp [finish] at hf
        · subst hf
          simp only [done, heartbeatDone]
          split <;> simp
        · subst hf
          simp [done, heartbeatDone]
      · cases a <;> simp [finish] at hf
        subst hf
        simp [done, Spec.HandsOut]
    obtain ⟨q0, q1, q2, q3, q4, q5, q6, q7⟩ := quiet
    refine ⟨?_, q2.trans k.registered, q3.trans k.reservations, q4.trans k.slots, q5.trans k.revives,
      q6.trans k.committed, ?_, moved.ended, ?_⟩
    · show (done w.st x).st.registration.error = true
      rw [q1]
      exact k.reg
    · intro t h
      have h : t ∈ w.tasks.eraseIdx i ++ (done w.st x).tasks := h
      rw [q0, List.append_nil] at h
      exact moved.tasks t h
    · intro y h
      rcases List.mem_append.1 h with h | h
      · exact k.said y h
      · exact q7 y h

/-! ## Applications that are registered -/

/-- The answer is the error of an application that is not registered. -/
def Spec.Refuses : Answer → Prop
  | .id (.error .application) => True
  | .slots (.error .application) => True
  | .loc (.error .application) => True
  | .done (.error .application) => True
  | _ => False

theorem request_serves (s : State ρ) (q : Request ρ) (h : s.registration.error = false) :
    (request s q).st.registration = s.registration ∧
    ∀ x ∈ (request s q).said, ¬Spec.Refuses x.2 := by
  cases q with
  | getId job stage r =>
    simp only [request, getId]
    split
    · simp [Spec.Refuses]
    · split <;> simp [Spec.Refuses]
  | jobIds job r => simp [request, jobIds, Spec.Refuses]
  | register sid parts b m r =>
    simp only [request, register]
    split
    · simp [Spec.Refuses]
    · split
      · simp
      · simp [h]
  | revive sid pid old cause r =>
    simp only [request, revive, h, Bool.false_eq_true, if_false]
    split
    · simp [Spec.Refuses]
    · split
      · simp [Spec.Refuses]
      · split
        · simp [Spec.Refuses]
        · split
          · simp [Spec.Refuses]
          · split <;> simp
  | mapperEnd sid map attempt n r =>
    simp only [request, mapperEnd]
    split
    · simp [Spec.Refuses]
    · split
      · simp [Spec.Refuses]
      · split
        · simp [Spec.Refuses]
        · split
          · simp [Spec.Refuses]
          · split
            · simp [Spec.Refuses]
            · split
              · simp [Spec.Refuses]
              · split
                · simp [Spec.Refuses]
                · simp
  | unregister sid r => simp [request, unregister, h]
  | report m r => simp [request, report, Spec.Refuses]
  | heartbeat =>
    simp only [request, heartbeat]
    split <;> simp
  | stop r => simp [request, Celeborn.stop]

/-- A message of a task that failed says so. -/
def Done.honest : Done ρ → Prop
  | .registered _ (.error e) => e = .remote
  | .revived _ _ (.error e) => e = .remote
  | .committed _ (.error e) _ => e = .remote
  | .unregistered _ (.error e) _ => e = .remote
  | _ => True

theorem finish_honest {t : Task ρ} {a : Remote} {d : Done ρ} (h : finish t a = some (some d)) :
    d.honest := by
  cases t <;> cases a <;> simp [finish] at h
  all_goals first
    | (subst h; simp [Done.honest]; done)
    | (split at h <;> (simp at h; subst h; simp [Done.honest]))

theorem done_serves (s : State ρ) (d : Done ρ) (h : d.honest) :
    (done s d).st.registration = s.registration ∧ ∀ x ∈ (done s d).said, ¬Spec.Refuses x.2 := by
  cases d with
  | registered sid res =>
    cases res with
    | error e =>
      simp only [Done.honest] at h
      subst h
      simp only [done, registerDone, List.mem_map, true_and]
      rintro x ⟨r, _, rfl⟩
      simp [Spec.Refuses]
    | ok res =>
      simp only [done, registerDone, List.mem_map, true_and]
      rintro x ⟨r, _, rfl⟩
      simp [Spec.Refuses]
  | revived sid pid res =>
    cases res with
    | error e =>
      simp only [Done.honest] at h
      subst h
      simp only [done, reviveDone, List.mem_map, true_and]
      rintro x ⟨r, _, rfl⟩
      simp [Spec.Refuses]
    | ok rep =>
      simp only [done, reviveDone]
      split
      · simp only [List.mem_map, true_and]
        rintro x ⟨r, _, rfl⟩
        simp [Spec.Refuses]
      · split
        · simp only [List.mem_map, true_and]
          rintro x ⟨r, _, rfl⟩
          simp [Spec.Refuses]
        · simp only [List.mem_map, true_and]
          rintro x ⟨r, _, rfl⟩
          simp [Spec.Refuses]
  | committed sid res r =>
    cases res with
    | error e =>
      simp only [Done.honest] at h
      subst h
      simp [done, mapperEndDone, Spec.Refuses]
    | ok res => simp [done, mapperEndDone, Spec.Refuses]
  | unregistered sid res r =>
    cases res with
    | error e =>
      simp only [Done.honest] at h
      subst h
      simp [done, unregisterDone, Spec.Refuses]
    | ok res => simp [done, unregisterDone, Spec.Refuses]
  | heartbeat res =>
    simp only [done, heartbeatDone]
    split
    · split <;> simp
    · simp
  | stopped r => simp [done, Spec.Refuses]

theorem serves_run (reg : Registration) (h : reg.error = false) (evs : List (Event ρ)) :
    ((World.init ρ reg).run evs).st.registration = reg ∧
    ∀ x ∈ ((World.init ρ reg).run evs).said, ¬Spec.Refuses x.2 := by
  refine run_inv (P := fun w => w.st.registration = reg ∧ ∀ x ∈ w.said, ¬Spec.Refuses x.2) evs
    (World.init ρ reg) ⟨rfl, by simp [World.init]⟩ ?_
  rintro w e _ ⟨k1, k2⟩
  refine step_cases (P := fun w => w.st.registration = reg ∧ ∀ x ∈ w.said, ¬Spec.Refuses x.2) w e
    ⟨k1, k2⟩ ?_ ?_
  · intro q _ _
    obtain ⟨h1, h2⟩ := request_serves w.st q (k1 ▸ h)
    refine ⟨h1.trans k1, fun x hx => ?_⟩
    rcases List.mem_append.1 hx with hx | hx
    · exact k2 x hx
    · exact h2 x hx
  · intro i t a d _ _ hf
    refine handle_cases (P := fun w => w.st.registration = reg ∧ ∀ x ∈ w.said, ¬Spec.Refuses x.2)
      { w with tasks := w.tasks.eraseIdx i, ended := w.ended ++ [(t, a)] } d ⟨k1, k2⟩ ?_
    rintro y b rfl _
    obtain ⟨h1, h2⟩ := done_serves w.st y (finish_honest hf)
    refine ⟨h1.trans k1, fun x hx => ?_⟩
    rcases List.mem_append.1 hx with hx | hx
    · exact k2 x hx
    · exact h2 x hx

/-! ## What is registered was granted -/

theorem request_registered (s : State ρ) (q : Request ρ) :
    (request s q).st.registered = s.registered := by
  by_cases hq : ∃ s m a n r, q = .mapperEnd s m a n r
  · obtain ⟨s', m, a, n, r, rfl⟩ := hq
    exact (mapperEnd_cases s s' m a n r).1
  · exact (request_frame s q fun s m a n r hh => hq ⟨s, m, a, n, r, hh⟩).2.1

theorem done_registered (s : State ρ) (d : Done ρ) (sid : Int)
    (h : sid ∈ (done s d).st.registered.map (·.1)) :
    sid ∈ s.registered.map (·.1) ∨ ∃ res, d = .registered sid (.ok res) := by
  have put' : ∀ (m : List (Int × List (Nat × Slots))) k v, sid ∈ (put m k v).map (·.1) →
      sid = k ∨ sid ∈ m.map (·.1) := by
    intro m k v h
    simp only [put, List.map_cons, List.mem_cons] at h
    rcases h with h | h
    · exact Or.inl h
    · obtain ⟨x, hx, rfl⟩ := List.mem_map.1 h
      exact Or.inr (List.mem_map.2 ⟨x, (List.mem_filter.1 hx).1, rfl⟩)
  cases d with
  | registered sid' res =>
    cases res with
    | error e => exact Or.inl h
    | ok res =>
      rcases put' _ _ _ h with rfl | h
      · exact Or.inr ⟨res, rfl⟩
      · exact Or.inl h
  | revived sid' pid res =>
    left
    cases res with
    | error e => exact h
    | ok rep =>
      simp only [done, reviveDone] at h
      split at h
      · exact h
      · split at h
        · exact h
        · revert h
          dsimp only
          split
          · rename_i t ht
            intro h
            rcases put' _ _ _ h with rfl | h
            · exact List.mem_map.2 ⟨_, mem_of_find ht, rfl⟩
            · exact h
          · exact id
  | committed sid' res r =>
    left
    simp only [done, mapperEndDone] at h
    split at h <;> exact h
  | unregistered sid' res r =>
    left
    simp only [done, unregisterDone] at h
    split at h
    · obtain ⟨x, hx, rfl⟩ := List.mem_map.1 h
      exact List.mem_map.2 ⟨x, (List.mem_filter.1 hx).1, rfl⟩
    · exact h
  | heartbeat res =>
    left
    simp only [done, heartbeatDone] at h
    split at h
    · split at h <;> exact h
    · exact h
  | stopped r => exact Or.inl h

theorem registered_granted (reg : Registration) (evs : List (Event ρ)) (sid : Int)
    (h : sid ∈ ((World.init ρ reg).run evs).st.registered.map (·.1)) :
    ∃ ps b m res, (Task.slots sid ps b m, Remote.reserved res) ∈ ((World.init ρ reg).run evs).ended := by
  revert h
  refine run_inv (P := fun w => sid ∈ w.st.registered.map (·.1) →
    ∃ ps b m res, (Task.slots sid ps b m, Remote.reserved res) ∈ w.ended) evs
    (World.init ρ reg) (by simp [World.init, State.init]) ?_
  intro w e _ k
  refine step_cases (P := fun w => sid ∈ w.st.registered.map (·.1) →
    ∃ ps b m res, (Task.slots sid ps b m, Remote.reserved res) ∈ w.ended) w e k ?_ ?_
  · intro q _ _ h
    have h : sid ∈ (request w.st q).st.registered.map (·.1) := h
    rw [request_registered] at h
    exact k h
  · intro i t a d _ _ hf
    have k' : sid ∈ w.st.registered.map (·.1) →
        ∃ ps b m res, (Task.slots sid ps b m, Remote.reserved res) ∈ w.ended ++ [(t, a)] := by
      intro h
      obtain ⟨ps, b, m, res, h⟩ := k h
      exact ⟨ps, b, m, res, List.mem_append_left _ h⟩
    refine handle_cases (P := fun w => sid ∈ w.st.registered.map (·.1) →
      ∃ ps b m res, (Task.slots sid ps b m, Remote.reserved res) ∈ w.ended)
      { w with tasks := w.tasks.eraseIdx i, ended := w.ended ++ [(t, a)] } d k' ?_
    rintro y b rfl _ h
    rcases done_registered w.st y sid h with h | ⟨res, rfl⟩
    · exact k' h
    · obtain ⟨⟨ps, b', m, rfl⟩, rfl⟩ := finish_registered hf
      exact ⟨ps, b', m, res, by simp [World.apply]⟩

end Verif.Celeborn
