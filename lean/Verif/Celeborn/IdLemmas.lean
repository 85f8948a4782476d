import Verif.Celeborn.Lifecycle

/-!
# Lemmas: runs of the lifecycle manager, and shuffle ids
-/

namespace Verif.Celeborn

open Verif.Catalog (find erase put Distinct find_put find_erase mem_of_find find_of_mem)

variable {ρ : Type}

/-! ## Runs -/

theorem run_append (w : World ρ) (a b : List (Event ρ)) : w.run (a ++ b) = (w.run a).run b := by
  induction a generalizing w with
  | nil => rfl
  | cons e a ih => exact ih _

/-- An invariant that every event in the list preserves holds after the run. -/
theorem run_inv {P : World ρ → Prop} (evs : List (Event ρ)) (w : World ρ) (h : P w)
    (hs : ∀ w e, e ∈ evs → P w → P (w.step e)) : P (w.run evs) := by
  induction evs generalizing w with
  | nil => exact h
  | cons e evs ih =>
    exact ih _ (hs w e List.mem_cons_self h) fun w e he => hs w e (List.mem_cons_of_mem _ he)

/-- What a step can be. -/
theorem step_cases {P : World ρ → Prop} (w : World ρ) (e : Event ρ) (same : P w)
    (ask : ∀ q, e = .ask q → w.stopped = false → P (w.apply (request w.st q)))
    (fin : ∀ i t a d, e = .finish i a → w.tasks[i]? = some t → finish t a = some d →
      P (({ w with tasks := w.tasks.eraseIdx i, ended := w.ended ++ [(t, a)] } : World ρ).handle d)) :
    P (w.step e) := by
  cases e with
  | ask q =>
    simp only [World.step]
    cases hs : w.stopped with
    | true => simpa using same
    | false => simpa using ask q rfl hs
  | finish i a =>
    simp only [World.step]
    cases ht : w.tasks[i]? with
    | none => exact same
    | some t =>
      cases hf : finish t a with
      | none => simpa only [hf] using same
      | some d => simpa only [hf] using fin i t a d rfl ht hf

/-- What `handle` can be. -/
theorem handle_cases {P : World ρ → Prop} (w : World ρ) (d : Option (Done ρ)) (same : P w)
    (app : ∀ x b, d = some x → w.stopped = false →
      P { w.apply (done w.st x) with stopped := b }) : P (w.handle d) := by
  cases d with
  | none => exact same
  | some x =>
    simp only [World.handle]
    cases hs : w.stopped with
    | true => simpa using same
    | false => simpa using app x _ rfl hs

/-! ## Which handlers touch the ids -/

theorem request_ids (s : State ρ) (q : Request ρ) :
    (∃ job stage r, q = .getId job stage r) ∨
    ((request s q).st.ids = s.ids ∧ (request s q).st.next = s.next ∧
      ∀ p ∈ (request s q).said, ∀ x, p.2 ≠ .id x) := by
  cases q with
  | getId job stage r => exact .inl ⟨_, _, _, rfl⟩
  | jobIds job r => right; simp [request, jobIds]
  | register sid parts b m r =>
    right
    simp only [request, register]
    split
    · simp
    · split
      · simp
      · split <;> simp
  | revive sid pid old cause r =>
    right
    simp only [request, revive]
    split
    · simp
    · split
      · simp
      · split
        · simp
        · split
          · simp
          · split
            · simp
            · split <;> simp
  | mapperEnd sid map attempt n r =>
    right
    simp only [request, mapperEnd]
    split
    · simp
    · split
      · simp
      · split
        · simp
        · split
          · simp
          · split
            · simp
            · split
              · simp
              · split <;> simp
  | unregister sid r => right; simp only [request, unregister]; split <;> simp
  | report m r => right; simp [request, report]
  | heartbeat => right; simp only [request, heartbeat]; split <;> simp
  | stop r => right; simp [request, stop]

theorem done_ids (s : State ρ) (d : Done ρ) :
    (done s d).st.next = s.next ∧ (∀ p ∈ (done s d).said, ∀ x, p.2 ≠ .id x) ∧
    ((done s d).st.ids = s.ids ∨ ∃ sid r, d = .unregistered sid (.ok ()) r ∧
      (done s d).st.ids = s.ids.filter fun e => decide (e.2 ≠ sid)) := by
  cases d with
  | registered sid res => simp only [done, registerDone]; split <;> simp
  | revived sid pid res =>
    simp only [done, reviveDone]
    split
    · simp
    · split
      · simp
      · split <;> simp
  | committed sid res r => simp only [done, mapperEndDone]; split <;> simp
  | unregistered sid res r =>
    simp only [done, unregisterDone]
    split
    · exact ⟨rfl, by simp, .inr ⟨sid, r, rfl, rfl⟩⟩
    · simp
  | heartbeat res =>
    simp only [done, heartbeatDone]
    split
    · split <;> simp
    · simp
  | stopped r => simp [done]

/-! ## The ids in use -/

/-- The ids in use belong to different stages, are different, and none is larger than the
last one handed out. -/
structure IdsOk (s : State ρ) : Prop where
  keys : Distinct s.ids
  vals : (s.ids.map (·.2)).Nodup
  rng : ∀ e ∈ s.ids, 1 ≤ e.2 ∧ e.2 ≤ s.next
  pos : 0 ≤ s.next
  max : s.next ≤ maxI32

theorem IdsOk.init (reg : Registration) : IdsOk (State.init ρ reg) :=
  ⟨List.nodup_nil, List.nodup_nil, by simp [State.init], Int.le_refl _, by simp [State.init, maxI32]⟩

theorem IdsOk.of_eq {s t : State ρ} (h : IdsOk s) (hi : t.ids = s.ids) (hn : t.next = s.next) :
    IdsOk t :=
  ⟨hi ▸ h.keys, hi ▸ h.vals, by rw [hi, hn]; exact h.rng, hn ▸ h.pos, hn ▸ h.max⟩

theorem IdsOk.filter {s t : State ρ} (h : IdsOk s) {p : (Nat × Nat) × Int → Bool}
    (hi : t.ids = s.ids.filter p) (hn : t.next = s.next) : IdsOk t := by
  refine ⟨?_, ?_, ?_, hn ▸ h.pos, hn ▸ h.max⟩
  · rw [hi]; exact List.Nodup.sublist (List.filter_sublist.map _) h.keys
  · rw [hi]; exact List.Nodup.sublist (List.filter_sublist.map _) h.vals
  · rw [hi, hn]; exact fun e he => h.rng e (List.mem_filter.1 he).1

theorem IdsOk.getId {s : State ρ} (h : IdsOk s) (job stage : Nat) (r : ρ) :
    IdsOk (getId s job stage r).st := by
  simp only [Celeborn.getId]
  split
  · exact h
  · rename_i hf
    split
    · exact h
    · rename_i hne
      have hlt : s.next < maxI32 := Int.lt_iff_le_and_ne.2 ⟨h.max, hne⟩
      have hp := h.pos
      refine ⟨Distinct.put h.keys _ _, ?_, ?_, by show 0 ≤ s.next + 1; omega,
        by show s.next + 1 ≤ maxI32; omega⟩
      · show ((put s.ids (job, stage) (s.next + 1)).map (·.2)).Nodup
        rw [put, List.map_cons, List.nodup_cons]
        refine ⟨?_, List.Nodup.sublist (List.filter_sublist.map _) h.vals⟩
        intro hm
        obtain ⟨e, he, hv⟩ := List.mem_map.1 hm
        have := (h.rng e (List.mem_filter.1 he).1).2
        omega
      · intro e he
        rcases List.mem_cons.1 he with rfl | he
        · exact ⟨by show 1 ≤ s.next + 1; omega, Int.le_refl _⟩
        · have := h.rng e (List.mem_filter.1 he).1
          exact ⟨this.1, by show e.2 ≤ s.next + 1; omega⟩

theorem IdsOk.request {s : State ρ} (h : IdsOk s) (q : Request ρ) : IdsOk (request s q).st := by
  rcases request_ids s q with ⟨job, stage, r, rfl⟩ | ⟨hi, hn, _⟩
  · exact h.getId job stage r
  · exact h.of_eq hi hn

theorem IdsOk.done {s : State ρ} (h : IdsOk s) (d : Done ρ) : IdsOk (done s d).st := by
  obtain ⟨hn, _, hi | ⟨sid, r, _, hi⟩⟩ := done_ids s d
  · exact h.of_eq hi hn
  · exact h.filter hi hn

theorem IdsOk.step {w : World ρ} (h : IdsOk w.st) (e : Event ρ) : IdsOk (w.step e).st := by
  refine step_cases (P := fun w => IdsOk w.st) w e h (fun q _ _ => h.request q) ?_
  intro i t a d _ _ _
  exact handle_cases (P := fun w => IdsOk w.st) _ d h fun x b _ _ => h.done x

theorem IdsOk.run {w : World ρ} (h : IdsOk w.st) (evs : List (Event ρ)) : IdsOk (w.run evs).st :=
  run_inv (P := fun w => IdsOk w.st) evs w h fun _ e _ h => IdsOk.step h e

/-! ## The ids that were handed out -/

theorem val_inj {l : List ((Nat × Nat) × Int)} (h : (l.map (·.2)).Nodup)
    {e e' : (Nat × Nat) × Int} (he : e ∈ l) (he' : e' ∈ l) (hv : e.2 = e'.2) : e = e' := by
  induction l with
  | nil => exact nomatch he
  | cons x l ih =>
    rw [List.map_cons, List.nodup_cons] at h
    rcases List.mem_cons.1 he with h1 | h1 <;> rcases List.mem_cons.1 he' with h2 | h2
    · rw [h1, h2]
    · exact absurd (List.mem_map.2 ⟨_, h2, by rw [← hv, h1]⟩) h.1
    · exact absurd (List.mem_map.2 ⟨_, h1, by rw [hv, h2]⟩) h.1
    · exact ih h.2 h1 h2

/-- What is known of the ids that were told to callers. `key` says which stage a caller asked
for; `U` holds of the ids that someone may ask to unregister. -/
structure Told (key : ρ → Nat × Nat) (U : Int → Prop) (w : World ρ) : Prop where
  rng : ∀ r i, (r, Answer.id (.ok i)) ∈ w.said → 1 ≤ i ∧ i ≤ w.st.next
  use : ∀ r i, (r, Answer.id (.ok i)) ∈ w.said → ∀ e ∈ w.st.ids, e.2 = i → e.1 = key r
  one : ∀ r r' i, (r, Answer.id (.ok i)) ∈ w.said → (r', Answer.id (.ok i)) ∈ w.said →
    key r = key r'
  keep : ∀ r i, (r, Answer.id (.ok i)) ∈ w.said → ¬U i → find w.st.ids (key r) = some i
  task : ∀ sid r, Task.unregister sid r ∈ w.tasks → U sid
  last : w.st.next = 0 ∨ ∃ r, (r, Answer.id (.ok w.st.next)) ∈ w.said
  full : ∀ r e, (r, Answer.id (.error e)) ∈ w.said → w.st.next = maxI32

theorem Told.init (key : ρ → Nat × Nat) (U : Int → Prop) (reg : Registration) :
    Told key U (World.init ρ reg) :=
  ⟨by simp [World.init], by simp [World.init], by simp [World.init], by simp [World.init],
    by simp [World.init], .inl rfl, by simp [World.init]⟩

/-- Only `unregister` spawns a task that unregisters. -/
theorem request_unregister (s : State ρ) (q : Request ρ) (sid : Int) (r : ρ)
    (h : Task.unregister sid r ∈ (request s q).tasks) : q = .unregister sid r := by
  cases q with
  | getId job stage r => 
    simp only [request, getId] at h
    split at h
    · simp at h
    · split at h <;> simp at h
  | jobIds job r => simp [request, jobIds] at h
  | register sid parts b m r =>
    simp only [request, register] at h
    split at h
    · simp at h
    · split at h
      · simp at h
      · split at h <;> simp at h
  | revive sid pid old cause r =>
    simp only [request, revive] at h
    split at h
    · simp at h
    · split at h
      · simp at h
      · split at h
        · simp at h
        · split at h
          · simp at h
          · split at h
            · simp at h
            · split at h <;> simp at h
  | mapperEnd sid map attempt n r =>
    simp only [request, mapperEnd] at h
    split at h
    · simp at h
    · split at h
      · simp at h
      · split at h
        · simp at h
        · split at h
          · simp at h
          · split at h
            · simp at h
            · split at h
              · simp at h
              · split at h <;> simp at h
  | unregister sid r =>
    simp only [request, unregister] at h
    split at h
    · simp at h
    · simp at h
      rw [h.1, h.2]
  | report m r => simp [request, report] at h
  | heartbeat => simp only [request, heartbeat] at h; split at h <;> simp at h
  | stop r => simp [request, stop] at h

theorem done_tasks (s : State ρ) (d : Done ρ) (t : Task ρ) (h : t ∈ (done s d).tasks) :
    ∃ sid, t = .cleanup sid := by
  cases d with
  | registered sid res => simp only [done, registerDone] at h; split at h <;> simp at h
  | revived sid pid res =>
    simp only [done, reviveDone] at h
    split at h
    · simp at h
    · split at h
      · simp at h
      · split at h
        · simp at h; exact ⟨_, h⟩
        · simp at h
  | committed sid res r => simp only [done, mapperEndDone] at h; split at h <;> simp at h
  | unregistered sid res r =>
    simp only [done, unregisterDone] at h
    split at h <;> simp at h
  | heartbeat res =>
    simp only [done, heartbeatDone] at h
    split at h
    · split at h <;> simp at h
    · simp at h
  | stopped r => simp [done] at h

/-- Which message says that a shuffle was unregistered. -/
theorem finish_unregistered {t : Task ρ} {a : Remote} {sid : Int} {r : ρ}
    (h : finish t a = some (some (.unregistered sid (.ok ()) r))) :
    t = .unregister sid r ∧ a = .fine := by
  cases t <;> cases a <;> simp [finish] at h
  · split at h <;> simp at h
  · simp [h]

theorem Told.ask {key : ρ → Nat × Nat} {U : Int → Prop} {w : World ρ} (h : Told key U w)
    (ok : IdsOk w.st) (q : Request ρ)
    (hk : ∀ job stage r, q = .getId job stage r → key r = (job, stage))
    (hu : ∀ sid r, q = .unregister sid r → U sid) :
    Told key U (w.apply (request w.st q)) := by
  have task : ∀ sid r, Task.unregister sid r ∈ (w.apply (request w.st q)).tasks → U sid := by
    intro sid r hm
    rcases List.mem_append.1 hm with hm | hm
    · exact h.task sid r hm
    · exact hu sid r (request_unregister _ _ _ _ hm)
  rcases request_ids w.st q with ⟨job, stage, r0, rfl⟩ | ⟨hi, hn, hs⟩
  · have hkey := hk job stage r0 rfl
    simp only [request, getId] at task ⊢
    cases hf : find w.st.ids (job, stage) with
    | some i0 =>
      simp only [hf] at task ⊢
      have hme := mem_of_find hf
      have key0 : ∀ r i, (r, Answer.id (.ok i)) ∈ w.said → i = i0 → key r = key r0 := by
        intro r i hm hii
        rw [hkey]
        exact (h.use r i hm _ hme hii.symm).symm
      have split : ∀ r i, (r, Answer.id (.ok i)) ∈ w.said ++ [(r0, Answer.id (.ok i0))] →
          (r, Answer.id (.ok i)) ∈ w.said ∨ (r = r0 ∧ i = i0) := by
        intro r i hm
        rcases List.mem_append.1 hm with hm | hm
        · exact .inl hm
        · simp at hm
          exact .inr hm
      refine ⟨?_, ?_, ?_, ?_, task, ?_, ?_⟩
      · intro r i hm
        rcases split r i hm with hm | ⟨rfl, rfl⟩
        · exact h.rng r i hm
        · exact ok.rng _ hme
      · intro r i hm e he hei
        rcases split r i hm with hm | ⟨rfl, rfl⟩
        · exact h.use r i hm e he hei
        · rw [hkey]
          have := val_inj ok.vals he hme hei
          rw [this]
      · intro r r' i hm hm'
        rcases split r i hm with hm | ⟨h1, h2⟩
        · rcases split r' i hm' with hm' | ⟨h3, h4⟩
          · exact h.one r r' i hm hm'
          · rw [h3]; exact key0 r _ hm h4
        · rcases split r' _ hm' with hm' | ⟨h3, _⟩
          · rw [h1]; exact (key0 r' _ hm' h2).symm
          · rw [h1, h3]
      · intro r i hm hU
        rcases split r i hm with hm | ⟨rfl, rfl⟩
        · exact h.keep r i hm hU
        · rw [hkey]; exact hf
      · rcases h.last with h0 | ⟨r, hr⟩
        · exact .inl h0
        · exact .inr ⟨r, List.mem_append_left _ hr⟩
      · intro r e hm
        rcases List.mem_append.1 hm with hm | hm
        · exact h.full r e hm
        · simp at hm
    | none =>
      simp only [hf] at task ⊢
      by_cases hmax : w.st.next = maxI32
      · simp only [hmax, if_true] at task ⊢
        have split : ∀ r i, (r, Answer.id (.ok i)) ∈ w.said ++ [(r0, Answer.id (.error .exhausted))] →
            (r, Answer.id (.ok i)) ∈ w.said := by
          intro r i hm
          rcases List.mem_append.1 hm with hm | hm
          · exact hm
          · simp at hm
        refine ⟨fun r i hm => h.rng r i (split r i hm), fun r i hm => h.use r i (split r i hm),
          fun r r' i hm hm' => h.one r r' i (split r i hm) (split r' i hm'),
          fun r i hm => h.keep r i (split r i hm), task, ?_, fun _ _ _ => hmax⟩
        rcases h.last with h0 | ⟨r, hr⟩
        · exact .inl h0
        · exact .inr ⟨r, List.mem_append_left _ hr⟩
      · simp only [hmax, if_false] at task ⊢
        have split : ∀ r i, (r, Answer.id (.ok i)) ∈ w.said ++ [(r0, Answer.id (.ok (w.st.next + 1)))] →
            (r, Answer.id (.ok i)) ∈ w.said ∨ (r = r0 ∧ i = w.st.next + 1) := by
          intro r i hm
          rcases List.mem_append.1 hm with hm | hm
          · exact .inl hm
          · simp at hm
            exact .inr hm
        refine ⟨?_, ?_, ?_, ?_, task, ?_, ?_⟩
        · intro r i hm
          show 1 ≤ i ∧ i ≤ w.st.next + 1
          have := ok.pos
          rcases split r i hm with hm | ⟨rfl, rfl⟩
          · have := h.rng r i hm
            omega
          · omega
        · intro r i hm e he hei
          rcases List.mem_cons.1 he with rfl | he
          · rcases split r i hm with hm | ⟨rfl, rfl⟩
            · have := (h.rng r i hm).2
              simp at hei
              omega
            · exact hkey.symm
          · have he' := (List.mem_filter.1 he).1
            rcases split r i hm with hm | ⟨rfl, rfl⟩
            · exact h.use r i hm e he' hei
            · have := (ok.rng e he').2
              omega
        · intro r r' i hm hm'
          rcases split r i hm with hm | ⟨h1, h2⟩
          · rcases split r' i hm' with hm' | ⟨h3, h4⟩
            · exact h.one r r' i hm hm'
            · have := (h.rng r _ hm).2
              omega
          · rcases split r' _ hm' with hm' | ⟨h3, _⟩
            · have := (h.rng r' _ hm').2
              omega
            · rw [h1, h3]
        · intro r i hm hU
          show find (put w.st.ids (job, stage) (w.st.next + 1)) (key r) = some i
          rw [find_put]
          rcases split r i hm with hm | ⟨rfl, rfl⟩
          · have hk' := h.keep r i hm hU
            by_cases hc : (job, stage) = key r
            · rw [← hc, hf] at hk'
              exact nomatch hk'
            · rw [if_neg hc]
              exact hk'
          · rw [if_pos hkey.symm]
        · exact .inr ⟨r0, List.mem_append_right _ List.mem_cons_self⟩
        · intro r e hm
          rcases List.mem_append.1 hm with hm | hm
          · exact absurd (h.full r e hm) hmax
          · simp at hm
  · have split : ∀ r x, (r, Answer.id x) ∈ (w.apply (request w.st q)).said →
        (r, Answer.id x) ∈ w.said := by
      intro r x hm
      rcases List.mem_append.1 hm with hm | hm
      · exact hm
      · exact absurd rfl (hs _ hm x)
    refine ⟨?_, ?_, ?_, ?_, task, ?_, ?_⟩
    · intro r i hm
      show 1 ≤ i ∧ i ≤ (request w.st q).st.next
      rw [hn]; exact h.rng r i (split r _ hm)
    · intro r i hm e he
      have he' : e ∈ (request w.st q).st.ids := he
      rw [hi] at he'
      exact h.use r i (split r _ hm) e he'
    · exact fun r r' i hm hm' => h.one r r' i (split r _ hm) (split r' _ hm')
    · intro r i hm hU
      show find (request w.st q).st.ids (key r) = some i
      rw [hi]; exact h.keep r i (split r _ hm) hU
    · show (request w.st q).st.next = 0 ∨ ∃ r, (r, Answer.id (.ok (request w.st q).st.next)) ∈ _
      rw [hn]
      rcases h.last with h0 | ⟨r, hr⟩
      · exact .inl h0
      · exact .inr ⟨r, List.mem_append_left _ hr⟩
    · intro r e hm
      show (request w.st q).st.next = maxI32
      rw [hn]; exact h.full r e (split r _ hm)

theorem mem_of_eraseIdx {α : Type} {l : List α} {i : Nat} {a : α} (h : a ∈ l.eraseIdx i) : a ∈ l :=
  List.mem_of_mem_eraseIdx h

theorem Told.handle {key : ρ → Nat × Nat} {U : Int → Prop} {w : World ρ} (h : Told key U w)
    (ok : IdsOk w.st) (d : Option (Done ρ))
    (hu : ∀ sid r, d = some (.unregistered sid (.ok ()) r) → U sid) : Told key U (w.handle d) := by
  refine handle_cases w d h ?_
  rintro x b rfl -
  obtain ⟨hn, hs, hi⟩ := done_ids w.st x
  have split : ∀ r y, (r, Answer.id y) ∈ (w.apply (done w.st x)).said →
      (r, Answer.id y) ∈ w.said := by
    intro r y hm
    rcases List.mem_append.1 hm with hm | hm
    · exact hm
    · exact absurd rfl (hs _ hm y)
  have sub : ∀ e ∈ (done w.st x).st.ids, e ∈ w.st.ids := by
    intro e he
    rcases hi with hi | ⟨sid, r, _, hi⟩
    · rwa [hi] at he
    · rw [hi] at he
      exact (List.mem_filter.1 he).1
  refine ⟨?_, ?_, ?_, ?_, ?_, ?_, ?_⟩
  · intro r i hm
    show 1 ≤ i ∧ i ≤ (done w.st x).st.next
    rw [hn]; exact h.rng r i (split r _ hm)
  · exact fun r i hm e he => h.use r i (split r _ hm) e (sub e he)
  · exact fun r r' i hm hm' => h.one r r' i (split r _ hm) (split r' _ hm')
  · intro r i hm hU
    show find (done w.st x).st.ids (key r) = some i
    have hf := h.keep r i (split r _ hm) hU
    rcases hi with hi | ⟨sid, r', hx, hi⟩
    · rw [hi]; exact hf
    · have hsid : i ≠ sid := by
        rintro rfl
        exact hU (hu _ r' (by rw [hx]))
      rw [hi]
      refine find_of_mem (List.Nodup.sublist (List.filter_sublist.map _) ok.keys) ?_
      exact List.mem_filter.2 ⟨mem_of_find hf, by simpa using hsid⟩
  · intro sid r hm
    rcases List.mem_append.1 hm with hm | hm
    · exact h.task sid r hm
    · obtain ⟨_, hc⟩ := done_tasks _ _ _ hm
      exact nomatch hc
  · show (done w.st x).st.next = 0 ∨ ∃ r, (r, Answer.id (.ok (done w.st x).st.next)) ∈ _
    rw [hn]
    rcases h.last with h0 | ⟨r, hr⟩
    · exact .inl h0
    · exact .inr ⟨r, List.mem_append_left _ hr⟩
  · intro r e hm
    show (done w.st x).st.next = maxI32
    rw [hn]; exact h.full r e (split r _ hm)

theorem Told.step {key : ρ → Nat × Nat} {U : Int → Prop} {w : World ρ} (h : Told key U w)
    (ok : IdsOk w.st) (e : Event ρ)
    (hk : ∀ job stage r, e = .ask (.getId job stage r) → key r = (job, stage))
    (hu : ∀ sid r, e = .ask (.unregister sid r) → U sid) : Told key U (w.step e) := by
  refine step_cases w e h ?_ ?_
  · intro q hq _
    exact h.ask ok q (fun j s r hh => hk j s r (by rw [hq, hh])) fun s r hh => hu s r (by rw [hq, hh])
  · intro i t a d _ ht hf
    refine Told.handle (w := { w with
      tasks := w.tasks.eraseIdx i, ended := w.ended ++ [(t, a)] })
      ⟨h.rng, h.use, h.one, h.keep, ?_, h.last, h.full⟩ ok d ?_
    · exact fun sid r hm => h.task sid r (mem_of_eraseIdx hm)
    · rintro sid r rfl
      obtain ⟨rfl, _⟩ := finish_unregistered hf
      exact h.task sid r (List.mem_of_getElem? ht)

theorem Told.run {key : ρ → Nat × Nat} {U : Int → Prop} (reg : Registration)
    (evs : List (Event ρ))
    (hk : ∀ job stage r, .ask (.getId job stage r) ∈ evs → key r = (job, stage))
    (hu : ∀ sid r, .ask (.unregister sid r) ∈ evs → U sid) :
    Told key U ((World.init ρ reg).run evs) ∧ IdsOk ((World.init ρ reg).run evs).st := by
  refine run_inv (P := fun w => Told key U w ∧ IdsOk w.st) evs _
    ⟨Told.init key U reg, IdsOk.init reg⟩ ?_
  rintro w e he ⟨h, ok⟩
  exact ⟨h.step ok e (fun j s r hh => hk j s r (hh ▸ he)) fun s r hh => hu s r (hh ▸ he),
    IdsOk.step ok e⟩

/-- Answers are only added. -/
theorem step_said (w : World ρ) (e : Event ρ) : ∃ new, (w.step e).said = w.said ++ new := by
  refine step_cases (P := fun v => ∃ new, v.said = w.said ++ new) w e ⟨[], by simp⟩
    (fun q _ _ => ⟨_, rfl⟩) ?_
  intro i t a d _ _ _
  exact handle_cases (P := fun v => ∃ new, v.said = w.said ++ new) _ d ⟨[], by simp⟩
    fun x b _ _ => ⟨_, rfl⟩

/-- An id that is not in use, and not larger than the last one, is not told any more. -/
theorem gone_step {i : Int} (w : World ρ) (e : Event ρ)
    (hno : ∀ x ∈ w.st.ids, x.2 ≠ i) (hle : i ≤ w.st.next) :
    (∀ x ∈ (w.step e).st.ids, x.2 ≠ i) ∧ i ≤ (w.step e).st.next ∧
    ∃ new, (w.step e).said = w.said ++ new ∧ ∀ p ∈ new, p.2 ≠ Answer.id (.ok i) := by
  refine step_cases (P := fun v => (∀ x ∈ v.st.ids, x.2 ≠ i) ∧ i ≤ v.st.next ∧
    ∃ new, v.said = w.said ++ new ∧ ∀ p ∈ new, p.2 ≠ Answer.id (.ok i)) w e
    ⟨hno, hle, [], by simp, by simp⟩ ?_ ?_
  · intro q _ _
    rcases request_ids w.st q with ⟨job, stage, r0, rfl⟩ | ⟨hi, hn, hs⟩
    · simp only [request, getId]
      split
      · rename_i j hf
        refine ⟨hno, hle, _, rfl, ?_⟩
        intro p hp
        simp at hp
        subst hp
        have := hno _ (mem_of_find hf)
        simpa using this
      · split
        · refine ⟨hno, hle, _, rfl, ?_⟩
          intro p hp
          simp at hp
          subst hp
          simp
        · refine ⟨?_, by show i ≤ w.st.next + 1; omega, _, rfl, ?_⟩
          · intro x hx
            rcases List.mem_cons.1 hx with rfl | hx
            · show w.st.next + 1 ≠ i
              omega
            · exact hno x (List.mem_filter.1 hx).1
          · intro p hp
            simp at hp
            subst hp
            simp
            omega
    · refine ⟨?_, ?_, _, rfl, fun p hp => hs p hp _⟩
      · intro x hx
        have hx' : x ∈ (request w.st q).st.ids := hx
        rw [hi] at hx'
        exact hno x hx'
      · show i ≤ (request w.st q).st.next
        rw [hn]; exact hle
  · intro j t a d _ _ _
    refine handle_cases (P := fun v => (∀ x ∈ v.st.ids, x.2 ≠ i) ∧ i ≤ v.st.next ∧
      ∃ new, v.said = w.said ++ new ∧ ∀ p ∈ new, p.2 ≠ Answer.id (.ok i))
      { w with tasks := w.tasks.eraseIdx j, ended := w.ended ++ [(t, a)] } d
      ⟨hno, hle, [], by simp, by simp⟩ ?_
    intro x b _ _
    obtain ⟨hn, hs, hi⟩ := done_ids w.st x
    refine ⟨?_, ?_, _, rfl, fun p hp => hs p hp _⟩
    · intro y hy
      have hy' : y ∈ (done w.st x).st.ids := hy
      rcases hi with hi | ⟨sid, r, _, hi⟩
      · rw [hi] at hy'
        exact hno y hy'
      · rw [hi] at hy'
        exact hno y (List.mem_filter.1 hy').1
    · show i ≤ (done w.st x).st.next
      rw [hn]; exact hle

theorem gone_run {i : Int} (evs : List (Event ρ)) (w : World ρ)
    (hno : ∀ x ∈ w.st.ids, x.2 ≠ i) (hle : i ≤ w.st.next) :
    ∃ new, (w.run evs).said = w.said ++ new ∧ ∀ p ∈ new, p.2 ≠ Answer.id (.ok i) := by
  induction evs generalizing w with
  | nil => exact ⟨[], by simp [World.run], by simp⟩
  | cons e evs ih =>
    obtain ⟨h1, h2, new, h3, h4⟩ := gone_step w e hno hle
    obtain ⟨new', h5, h6⟩ := ih (w.step e) h1 h2
    refine ⟨new ++ new', ?_, ?_⟩
    · show ((w.step e).run evs).said = _
      rw [h5, h3, List.append_assoc]
    · intro p hp
      rcases List.mem_append.1 hp with hp | hp
      · exact h4 p hp
      · exact h6 p hp

end Verif.Celeborn
