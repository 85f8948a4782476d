import Verif.Celeborn.ReviveLemmas
import Mathlib.Data.List.Induction

/-!
# Lemmas: the ends of mappers and commits
-/

namespace Verif.Celeborn

open Verif.Catalog (find erase put Distinct find_put find_erase mem_of_find find_of_mem)

variable {ρ : Type}

/-- All requests but the end of a mapper. -/
theorem request_frame (s : State ρ) (q : Request ρ)
    (hq : ∀ sid map a n r, q ≠ .mapperEnd sid map a n r) :
    (request s q).st.attempts = s.attempts ∧ (request s q).st.registered = s.registered ∧
    (request s q).st.committed = s.committed ∧
    (∀ sid sl att r, Task.commit sid sl att r ∉ (request s q).tasks) ∧
    (∀ r, (r, Answer.done (.ok ())) ∈ (request s q).said → ∃ m, q = .report m r) := by
  cases q with
  | getId job stage r =>
    simp only [request, getId]
    split
    · exact ⟨rfl, rfl, rfl, by simp, by simp⟩
    · split <;> exact ⟨rfl, rfl, rfl, by simp, by simp⟩
  | jobIds job r => exact ⟨rfl, rfl, rfl, by simp [request, jobIds], by simp [request, jobIds]⟩
  | register sid parts b m r =>
    simp only [request, register]
    split
    · exact ⟨rfl, rfl, rfl, by simp, by simp⟩
    · split
      · exact ⟨rfl, rfl, rfl, by simp, by simp⟩
      · split <;> exact ⟨rfl, rfl, rfl, by simp, by simp⟩
  | revive sid pid old cause r =>
    simp only [request, revive]
    split
    · exact ⟨rfl, rfl, rfl, by simp, by simp⟩
    · split
      · exact ⟨rfl, rfl, rfl, by simp, by simp⟩
      · split
        · exact ⟨rfl, rfl, rfl, by simp, by simp⟩
        · split
          · exact ⟨rfl, rfl, rfl, by simp, by simp⟩
          · split
            · exact ⟨rfl, rfl, rfl, by simp, by simp⟩
            · split <;> exact ⟨rfl, rfl, rfl, by simp, by simp⟩
  | mapperEnd sid map attempt n r => exact absurd rfl (hq _ _ _ _ _)
  | unregister sid r =>
    simp only [request, unregister]
    split <;> exact ⟨rfl, rfl, rfl, by simp, by simp⟩
  | report m r =>
    refine ⟨rfl, rfl, rfl, by simp [request, report], ?_⟩
    intro r' hr
    simp [request, report] at hr
    exact ⟨m, by rw [hr]⟩
  | heartbeat =>
    simp only [request, heartbeat]
    split <;> exact ⟨rfl, rfl, rfl, by simp, by simp⟩
  | stop r => exact ⟨rfl, rfl, rfl, by simp [request, stop], by simp [request, stop]⟩

/-- What happens when a mapper ends. -/
inductive Ends (s : State ρ) (sid map a n : Int) (r : ρ) (e : Effect ρ) : Prop
  | refused (er : Err) (her : er ≠ .remote) (hs : e.said = [(r, .done (.error er))])
      (ht : e.tasks = []) (ha : ∀ k, find e.st.attempts k = find s.attempts k)
      (hc : sid ∉ s.committed ∨ map < 0 ∨ n ≤ map)
  | known (hs : e.said = [(r, .done (.ok ()))]) (ht : e.tasks = [])
      (ha : ∀ k, find e.st.attempts k = find s.attempts k) (hm : 0 ≤ map) (hn : map < n)
      (hc : sid ∈ s.committed ∨ ∃ att v, find s.attempts sid = some att ∧
        att[map.toNat]? = some v ∧ v ≠ -1)
  | first (hm : 0 ≤ map) (hn : map < n) (hc : sid ∉ s.committed) (att : List Int)
      (slots : List (Nat × Slots))
      (ho : find s.attempts sid = some att ∨
        (find s.attempts sid = none ∧ att = List.replicate n.toNat (-1)))
      (hl : att.length = n.toNat) (hv : att[map.toNat]? = some (-1))
      (hr : find s.registered sid = some slots)
      (ha : ∀ k, find e.st.attempts k =
        if sid = k then some (att.set map.toNat a) else find s.attempts k)
      (hd : (-1 ∈ att.set map.toNat a ∧ e.said = [(r, .done (.ok ()))] ∧ e.tasks = []) ∨
        (-1 ∉ att.set map.toNat a ∧ e.said = [] ∧
          e.tasks = [.commit sid slots (att.set map.toNat a) r]))

theorem mapperEnd_cases (s : State ρ) (sid map a n : Int) (r : ρ) :
    (mapperEnd s sid map a n r).st.registered = s.registered ∧
    (mapperEnd s sid map a n r).st.committed = s.committed ∧
    Ends s sid map a n r (mapperEnd s sid map a n r) := by
  simp only [mapperEnd]
  split
  · rename_i hn
    refine ⟨rfl, rfl, .refused .mappers (by simp) rfl rfl (fun _ => rfl) (.inr ?_)⟩
    omega
  · rename_i hn
    split
    · rename_i hm
      exact ⟨rfl, rfl, .refused .range (by simp) rfl rfl (fun _ => rfl) (.inr hm)⟩
    · rename_i hm
      split
      · rename_i hc
        exact ⟨rfl, rfl, .known rfl rfl (fun _ => rfl) (by omega) (by omega) (.inl hc)⟩
      · rename_i hc
        split
        · exact ⟨rfl, rfl, .refused .unregistered (by simp) rfl rfl (fun _ => rfl) (.inl hc)⟩
        · rename_i slots hreg
          cases ho : find s.attempts sid with
          | none =>
            simp only [Option.getD_none, List.length_replicate, ne_eq, not_true_eq_false, if_false]
            have hv : (List.replicate n.toNat (-1 : Int))[map.toNat]? = some (-1) := by
              rw [List.getElem?_replicate, if_pos (by omega)]
            rw [if_neg (by simp [hv])]
            have put2 : ∀ (v1 v2 : List Int) (k : Int),
                find (put (put s.attempts sid v1) sid v2) k =
                if sid = k then some v2 else find s.attempts k := by
              intro v1 v2 k
              rw [find_put, find_put]
              split <;> rfl
            split
            · rename_i h1
              exact ⟨rfl, rfl, .first (by omega) (by omega) hc _ slots (.inr ⟨ho, rfl⟩) (by simp) hv hreg
                (put2 _ _) (.inl ⟨h1, rfl, rfl⟩)⟩
            · rename_i h1
              exact ⟨rfl, rfl, .first (by omega) (by omega) hc _ slots (.inr ⟨ho, rfl⟩) (by simp) hv hreg
                (put2 _ _) (.inr ⟨h1, rfl, rfl⟩)⟩
          | some att =>
            have put1 : ∀ k, find (put s.attempts sid att) k = find s.attempts k := by
              intro k
              rw [find_put]
              split
              · rename_i hk; rw [← hk, ho]
              · rfl
            have put2 : ∀ (v1 v2 : List Int) (k : Int),
                find (put (put s.attempts sid v1) sid v2) k =
                if sid = k then some v2 else find s.attempts k := by
              intro v1 v2 k
              rw [find_put, find_put]
              split <;> rfl
            simp only [Option.getD_some]
            split
            · exact ⟨rfl, rfl, .refused .count (by simp) rfl rfl put1 (.inl hc)⟩
            · rename_i hl
              have hl' : att.length = n.toNat := Decidable.byContradiction hl
              split
              · rename_i hv
                refine ⟨rfl, rfl, .known rfl rfl put1 (by omega) (by omega) (.inr ?_)⟩
                have hlt : map.toNat < att.length := by omega
                refine ⟨att, att[map.toNat], ho, List.getElem?_eq_getElem hlt, ?_⟩
                intro hh
                exact hv (by rw [List.getElem?_eq_getElem hlt, hh])
              · rename_i hv
                have hv' : att[map.toNat]? = some (-1) := Decidable.byContradiction hv
                split
                · rename_i h1
                  exact ⟨rfl, rfl, .first (by omega) (by omega) hc att slots (.inl ho) hl' hv' hreg
                    (put2 _ _) (.inl ⟨h1, rfl, rfl⟩)⟩
                · rename_i h1
                  exact ⟨rfl, rfl, .first (by omega) (by omega) hc att slots (.inl ho) hl' hv' hreg
                    (put2 _ _) (.inr ⟨h1, rfl, rfl⟩)⟩

/-- What the end of a task does to a shuffle that nobody unregisters. -/
theorem done_frame (s : State ρ) (d : Done ρ) (sid : Int)
    (hd : ∀ r, d ≠ .unregistered sid (.ok ()) r) :
    find (done s d).st.attempts sid = find s.attempts sid ∧
    (sid ∈ (done s d).st.committed ↔
      sid ∈ s.committed ∨ ∃ m r, d = .committed sid (.ok m) r) ∧
    (∀ r, (r, Answer.done (.ok ())) ∈ (done s d).said →
      (∃ s' m, d = .committed s' (.ok m) r) ∨ ∃ s', d = .unregistered s' (.ok ()) r) := by
  cases d with
  | registered sid' res =>
    simp only [done, registerDone]
    split <;> exact ⟨rfl, by simp, by simp⟩
  | revived sid' pid res =>
    simp only [done, reviveDone]
    split
    · exact ⟨rfl, by simp, by simp⟩
    · split
      · exact ⟨rfl, by simp, by simp⟩
      · split <;> exact ⟨rfl, by simp, by simp⟩
  | committed sid' res r =>
    simp only [done, mapperEndDone]
    split
    · rename_i m
      refine ⟨rfl, ?_, ?_⟩
      · simp only [List.mem_cons, List.mem_filter, decide_eq_true_eq, Done.committed.injEq]
        constructor
        · rintro (rfl | ⟨h, _⟩)
          · exact .inr ⟨m, r, rfl, rfl, rfl⟩
          · exact .inl h
        · rintro (h | ⟨_, _, rfl, _, _⟩)
          · by_cases hh : sid = sid'
            · exact .inl hh
            · exact .inr ⟨h, hh⟩
          · exact .inl rfl
      · intro r' hr'
        simp at hr'
        exact .inl ⟨sid', m, by rw [hr']⟩
    · exact ⟨rfl, by simp, by simp⟩
  | unregistered sid' res r =>
    simp only [done, unregisterDone]
    split
    · have hne : sid' ≠ sid := by
        rintro rfl
        exact hd r rfl
      refine ⟨?_, ?_, ?_⟩
      · simp only [find_erase, if_neg hne]
      · simp [List.mem_filter, Ne.symm hne]
      · intro r' hr'
        simp at hr'
        exact .inr ⟨sid', by rw [hr']⟩
    · exact ⟨rfl, by simp, by simp⟩
  | heartbeat res =>
    simp only [done, heartbeatDone]
    split
    · split <;> exact ⟨rfl, by simp, by simp⟩
    · exact ⟨rfl, by simp, by simp⟩
  | stopped r => exact ⟨rfl, by simp [done], by simp [done]⟩

theorem finish_committed {t : Task ρ} {a : Remote} {sid : Int} {m : Metrics} {r : ρ}
    (h : finish t a = some (some (.committed sid (.ok m) r))) :
    (∃ sl att, t = .commit sid sl att r) ∧ a = .committed m := by
  cases t <;> cases a <;> simp [finish] at h
  · split at h <;> simp at h
  · obtain ⟨rfl, rfl, rfl⟩ := h
    exact ⟨⟨_, _, rfl⟩, rfl⟩

/-- An invariant of the runs in which nobody unregisters a shuffle, by cases. -/
theorem keep_inv (reg : Registration) (sid : Int) {P : List (Event ρ) → World ρ → Prop}
    (init : P [] (World.init ρ reg))
    (more : ∀ evs e w, P evs w → (w.stopped = true ∨ ∃ i a, e = .finish i a) → P (evs ++ [e]) w)
    (ask : ∀ evs w q, P evs w → w.stopped = false → (∀ r, Event.ask (.unregister sid r) ∉ evs) →
      (∀ r, q ≠ .unregister sid r) → P (evs ++ [.ask q]) (w.apply (request w.st q)))
    (fin : ∀ evs w i t a, P evs w → (∀ r, Task.unregister sid r ∉ w.tasks) → w.tasks[i]? = some t →
      P evs { w with tasks := w.tasks.eraseIdx i, ended := w.ended ++ [(t, a)] })
    (msg : ∀ evs w t a x b, P evs w → w.stopped = false → (t, a) ∈ w.ended → finish t a = some (some x) →
      (∀ r, x ≠ .unregistered sid (.ok ()) r) →
      P evs { w.apply (done w.st x) with stopped := b })
    (evs : List (Event ρ)) (keep : ∀ r, Event.ask (.unregister sid r) ∉ evs) :
    P evs ((World.init ρ reg).run evs) := by
  have : ∀ (later : List (Event ρ)) (evs : List (Event ρ)) (w : World ρ),
      (∀ r, Event.ask (.unregister sid r) ∉ evs ++ later) →
      (∀ r, Task.unregister sid r ∉ w.tasks) → P evs w → P (evs ++ later) (w.run later) := by
    intro later
    induction later with
    | nil => intro evs w _ _ h; simpa [World.run] using h
    | cons e later ih =>
      intro evs w hk hu h
      have hk' : ∀ r, Event.ask (.unregister sid r) ∉ (evs ++ [e]) ++ later := by simpa using hk
      have := ih (evs ++ [e]) (w.step e) hk' ?_ ?_
      · simpa [World.run, List.append_assoc] using this
      · refine step_cases (P := fun w => ∀ r, Task.unregister sid r ∉ w.tasks) w e hu ?_ ?_
        · intro q hq _ r hm
          rcases List.mem_append.1 hm with hm | hm
          · exact hu r hm
          · refine hk r ?_
            rw [← request_unregister w.st q sid r hm, ← hq]
            simp
        · intro i t a d _ _ _
          refine handle_cases (P := fun w => ∀ r, Task.unregister sid r ∉ w.tasks)
            { w with tasks := w.tasks.eraseIdx i, ended := w.ended ++ [(t, a)] } d
            (fun r hm => hu r (mem_of_eraseIdx hm)) ?_
          intro x b _ _ r hm
          rcases List.mem_append.1 hm with hm | hm
          · exact hu r (mem_of_eraseIdx hm)
          · obtain ⟨_, hc⟩ := done_tasks _ _ _ hm
            exact nomatch hc
      · cases e with
        | ask q =>
          cases hs : w.stopped with
          | true =>
            simp only [World.step, hs, if_true]
            exact more _ _ _ h (.inl hs)
          | false =>
            simp only [World.step, hs]
            refine ask evs w q h hs (fun r hm => hk r (by simp [hm])) ?_
            rintro r rfl
            exact hk r (by simp)
        | finish i0 a0 =>
          have h1 := more _ (.finish i0 a0) _ h (.inr ⟨i0, a0, rfl⟩)
          refine step_cases (P := P (evs ++ [.finish i0 a0])) w (.finish i0 a0) h1 ?_ ?_
          · intro q hq; exact nomatch hq
          intro i t a d he ht hf
          have h2 := fin (evs ++ [.finish i0 a0]) w i t a h1 hu ht
          refine handle_cases (P := P (evs ++ [.finish i0 a0]))
            { w with tasks := w.tasks.eraseIdx i, ended := w.ended ++ [(t, a)] } d h2 ?_
          rintro x b rfl hs
          refine msg (evs ++ [.finish i0 a0]) _ t a x b h2 hs (by simp) hf ?_
          rintro r rfl
          obtain ⟨rfl, _⟩ := finish_unregistered hf
          exact hu r (List.mem_of_getElem? ht)
  have := this evs [] (World.init ρ reg) (by simpa using keep) (by simp [World.init]) init
  simpa using this

/-! ## Which attempts a commit names -/

/-- The end of this attempt was refused, for another reason than that the cluster failed. -/
def Spec.Refused (w : World ρ) (r : ρ) : Prop :=
  ∃ er, er ≠ .remote ∧ (r, Answer.done (.error er)) ∈ w.said

/-- Attempt `a` of mapper `m` is the first one whose end was not refused. -/
def Spec.First (evs : List (Event ρ)) (w : World ρ) (sid m a : Int) : Prop :=
  ∃ pre n r post, evs = pre ++ .ask (.mapperEnd sid m a n r) :: post ∧
    ∀ a' n' r', Event.ask (.mapperEnd sid m a' n' r') ∈ pre → Spec.Refused w r'

theorem Spec.First.mono {evs more : List (Event ρ)} {w w' : World ρ} {sid m a : Int}
    (h : Spec.First evs w sid m a) (hs : ∀ x ∈ w.said, x ∈ w'.said) :
    Spec.First (evs ++ more) w' sid m a := by
  obtain ⟨pre, n, r, post, rfl, h2⟩ := h
  refine ⟨pre, n, r, post ++ more, by simp, fun a' n' r' hm => ?_⟩
  obtain ⟨er, h3, h4⟩ := h2 a' n' r' hm
  exact ⟨er, h3, hs _ h4⟩

/-- A commit that was begun. -/
def World.begun (w : World ρ) (sid : Int) (sl : List (Nat × Slots)) (att : List Int) (r : ρ) : Prop :=
  Task.commit sid sl att r ∈ w.tasks ∨ ∃ a, (Task.commit sid sl att r, a) ∈ w.ended

structure Att (sid : Int) (evs : List (Event ρ)) (w : World ρ) : Prop where
  set : ∀ att, find w.st.attempts sid = some att → ∀ m : Nat, ∀ v, att[m]? = some v → v ≠ -1 →
    Spec.First evs w sid m v
  unset : w.stopped = false → ∀ att, find w.st.attempts sid = some att → ∀ m : Nat, att[m]? = some (-1) →
    ∀ a n r, Event.ask (.mapperEnd sid m a n r) ∈ evs → Spec.Refused w r
  none : w.stopped = false → find w.st.attempts sid = none →
    ∀ m a n r, Event.ask (.mapperEnd sid m a n r) ∈ evs → Spec.Refused w r
  begun : ∀ sl att r, w.begun sid sl att r → find w.st.attempts sid = some att ∧ -1 ∉ att
  committed : sid ∈ w.st.committed → ∃ att, find w.st.attempts sid = some att ∧ -1 ∉ att

theorem Att.init (reg : Registration) (sid : Int) : Att sid [] (World.init ρ reg) :=
  ⟨by simp [World.init, State.init, find], by simp [World.init, State.init, find], by simp,
    by simp [World.init, World.begun], by simp [World.init, State.init]⟩

/-- Nothing changes for the shuffle. -/
theorem Att.frame {sid : Int} {evs : List (Event ρ)} {w : World ρ} (h : Att sid evs w) (w' : World ρ)
    (hst : w'.stopped = false → w.stopped = false)
    (hs : ∀ x ∈ w.said, x ∈ w'.said) (ha : find w'.st.attempts sid = find w.st.attempts sid)
    (hb : ∀ sl att r, w'.begun sid sl att r → w.begun sid sl att r)
    (hc : sid ∈ w'.st.committed → sid ∈ w.st.committed ∨ ∃ sl att r, w.begun sid sl att r) :
    Att sid evs w' := by
  have rf : ∀ r, Spec.Refused w r → Spec.Refused w' r := by
    rintro r ⟨er, h1, h2⟩
    exact ⟨er, h1, hs _ h2⟩
  refine ⟨?_, ?_, ?_, ?_, ?_⟩
  · intro att hf m v hv hne
    rw [ha] at hf
    simpa using (h.set att hf m v hv hne).mono (more := []) hs
  · intro on att hf m hv a n r hm
    rw [ha] at hf
    exact rf r (h.unset (hst on) att hf m hv a n r hm)
  · intro on hf m a n r hm
    rw [ha] at hf
    exact rf r (h.none (hst on) hf m a n r hm)
  · intro sl att r hm
    rw [ha]
    exact h.begun sl att r (hb sl att r hm)
  · intro hm
    rw [ha]
    rcases hc hm with hm | ⟨sl, att, r, hm⟩
    · exact h.committed hm
    · exact ⟨att, h.begun sl att r hm⟩

/-- More requests were made, of other kinds. -/
theorem Att.other {sid : Int} {evs : List (Event ρ)} {w : World ρ} (h : Att sid evs w) (e : Event ρ)
    (he : w.stopped = false → ∀ m a n r, e = .ask (.mapperEnd sid m a n r) → Spec.Refused w r ∨
      ∃ att v, find w.st.attempts sid = some att ∧ ∀ v', att[m.toNat]? = some v' → 0 ≤ m ∧ v' = v ∧ v ≠ -1) :
    Att sid (evs ++ [e]) w := by
  refine ⟨?_, ?_, ?_, h.begun, h.committed⟩
  · intro att hf m v hv hne
    exact (h.set att hf m v hv hne).mono fun _ hx => hx
  · intro on att hf m hv a n r hm
    rcases List.mem_append.1 hm with hm | hm
    · exact h.unset on att hf m hv a n r hm
    · simp at hm
      rcases he on m a n r hm.symm with hr | ⟨att', v, hf', hv'⟩
      · exact hr
      · rw [hf] at hf'
        cases hf'
        obtain ⟨_, h1, h2⟩ := hv' (-1) (by simpa using hv)
        exact absurd h1.symm h2
  · intro on hf m a n r hm
    rcases List.mem_append.1 hm with hm | hm
    · exact h.none on hf m a n r hm
    · simp at hm
      rcases he on m a n r hm.symm with hr | ⟨att', v, hf', _⟩
      · exact hr
      · rw [hf] at hf'
        exact nomatch hf'

theorem Att.ask {sid : Int} {evs : List (Event ρ)} {w : World ρ} (h : Att sid evs w) (q : Request ρ)
    (on : w.stopped = false) (hq : ∀ m a n r, q = .mapperEnd sid m a n r → 0 ≤ a) :
    Att sid (evs ++ [.ask q]) (w.apply (request w.st q)) := by
  have said : ∀ x ∈ w.said, x ∈ (w.apply (request w.st q)).said :=
    fun x hx => List.mem_append_left _ hx
  by_cases hm : ∃ s m a n r, q = .mapperEnd s m a n r
  · obtain ⟨s, m, a, n, r, rfl⟩ := hm
    obtain ⟨hreg, hcom, hends⟩ := mapperEnd_cases w.st s m a n r
    have bg : (request w.st (.mapperEnd s m a n r)).tasks = [] →
        ∀ sl att r', (w.apply (request w.st (.mapperEnd s m a n r))).begun sid sl att r' →
          w.begun sid sl att r' := by
      intro ht sl att r' hb
      rcases hb with hb | hb
      · rcases List.mem_append.1 hb with hb | hb
        · exact .inl hb
        · rw [ht] at hb; exact nomatch hb
      · exact .inr hb
    have cm : sid ∈ (w.apply (request w.st (.mapperEnd s m a n r))).st.committed →
        sid ∈ w.st.committed ∨ ∃ sl att r, w.begun sid sl att r := by
      intro hx
      have hx' : sid ∈ (mapperEnd w.st s m a n r).st.committed := hx
      rw [hcom] at hx'
      exact .inl hx'
    cases hends with
    | refused er her hs ht ha hc =>
      have h1 := h.frame (w.apply (request w.st (.mapperEnd s m a n r))) (fun hh => hh) said (ha sid) (bg ht) cm
      refine h1.other _ ?_
      intro _ m' a' n' r' he
      cases he
      refine .inl ⟨er, her, List.mem_append_right _ ?_⟩
      show _ ∈ (mapperEnd w.st sid m a n r).said
      rw [hs]; simp
    | known hs ht ha hm0 hmn hc =>
      have h1 := h.frame (w.apply (request w.st (.mapperEnd s m a n r))) (fun hh => hh) said (ha sid) (bg ht) cm
      refine h1.other _ ?_
      intro _ m' a' n' r' he
      cases he
      right
      rcases hc with hc | ⟨att, v, hf, hv, hne⟩
      · obtain ⟨att, hf, hno⟩ := h.committed hc
        cases hv : att[m.toNat]? with
        | none => exact ⟨att, 0, (ha sid).trans hf, by simp [hv]⟩
        | some v =>
          refine ⟨att, v, (ha sid).trans hf, ?_⟩
          intro v' hv'
          rw [hv] at hv'
          cases hv'
          refine ⟨hm0, rfl, ?_⟩
          rintro rfl
          exact hno (List.mem_of_getElem? hv)
      · refine ⟨att, v, (ha sid).trans hf, ?_⟩
        intro v' hv'
        rw [hv] at hv'
        cases hv'
        exact ⟨hm0, rfl, hne⟩
    | first hm0 hmn hc att slots ho hl hv hr ha hd =>
      by_cases hsid : s = sid
      · subst hsid
        have ha' : find (w.apply (request w.st (.mapperEnd s m a n r))).st.attempts s =
            some (att.set m.toNat a) := (ha s).trans (if_pos rfl)
        have hlt : m.toNat < att.length := by omega
        have ha0 : 0 ≤ a := hq m a n r rfl
        have rf : ∀ r', Spec.Refused w r' →
            Spec.Refused (w.apply (request w.st (.mapperEnd s m a n r))) r' := by
          rintro r' ⟨er, g1, g2⟩
          exact ⟨er, g1, said _ g2⟩
        -- all earlier reports of mappers that are not recorded were refused
        have earlier : ∀ m' : Nat, att[m']? = some (-1) → ∀ a' n' r',
            Event.ask (.mapperEnd s m' a' n' r') ∈ evs → Spec.Refused w r' := by
          intro m' hv' a' n' r' hmem
          rcases ho with ho | ⟨ho, _⟩
          · exact h.unset on att ho m' hv' a' n' r' hmem
          · exact h.none on ho m' a' n' r' hmem
        refine ⟨?_, ?_, ?_, ?_, ?_⟩
        · intro att' hf m' v hv' hne
          rw [ha'] at hf
          cases hf
          rw [List.getElem?_set] at hv'
          by_cases hmm : m.toNat = m'
          · rw [if_pos hmm, if_pos (hmm ▸ hlt)] at hv'
            cases hv'
            have : (m' : Int) = m := by omega
            rw [this]
            refine ⟨evs, n, r, [], by simp, ?_⟩
            intro a' n' r' hmem
            rw [← this] at hmem
            exact rf r' (earlier m' (hmm ▸ hv) a' n' r' hmem)
          · rw [if_neg hmm] at hv'
            rcases ho with ho | ⟨_, ho⟩
            · exact (h.set att ho m' v hv' hne).mono said
            · rw [ho, List.getElem?_replicate] at hv'
              split at hv'
              · cases hv'; exact absurd rfl hne
              · exact nomatch hv'
        · intro _ att' hf m' hv' a' n' r' hmem
          rw [ha'] at hf
          cases hf
          rw [List.getElem?_set] at hv'
          by_cases hmm : m.toNat = m'
          · rw [if_pos hmm, if_pos (hmm ▸ hlt)] at hv'
            cases hv'
            omega
          · rw [if_neg hmm] at hv'
            rcases List.mem_append.1 hmem with hmem | hmem
            · exact rf r' (earlier m' hv' a' n' r' hmem)
            · simp at hmem
              omega
        · intro _ hf
          rw [ha'] at hf
          exact nomatch hf
        · intro sl att' r' hb
          have old : w.begun s sl att' r' → False := by
            intro hb
            obtain ⟨g1, g2⟩ := h.begun sl att' r' hb
            rcases ho with ho | ⟨ho, _⟩
            · rw [ho] at g1
              cases g1
              exact g2 (List.mem_of_getElem? hv)
            · rw [ho] at g1
              exact nomatch g1
          rcases hb with hb | hb
          · rcases List.mem_append.1 hb with hb | hb
            · exact absurd (.inl hb) old
            · rcases hd with ⟨_, _, ht⟩ | ⟨hfull, _, ht⟩
              · have hb' : _ ∈ (mapperEnd w.st s m a n r).tasks := hb
                rw [ht] at hb'; exact nomatch hb'
              · have hb' : _ ∈ (mapperEnd w.st s m a n r).tasks := hb
                rw [ht] at hb'
                simp at hb'
                rw [ha', hb'.2.1]
                exact ⟨rfl, hfull⟩
          · exact absurd (.inr hb) old
        · intro hx
          have hx' : s ∈ (mapperEnd w.st s m a n r).st.committed := hx
          rw [hcom] at hx'
          exact absurd hx' hc
      · have h1 := h.frame (w.apply (request w.st (.mapperEnd s m a n r))) (fun hh => hh) said
          ((ha sid).trans (if_neg hsid)) ?_ cm
        · refine h1.other _ ?_
          intro _ m' a' n' r' he
          cases he
          exact absurd rfl hsid
        · intro sl att' r' hb
          rcases hb with hb | hb
          · rcases List.mem_append.1 hb with hb | hb
            · exact .inl hb
            · have hb' : _ ∈ (mapperEnd w.st s m a n r).tasks := hb
              rcases hd with ⟨_, _, ht⟩ | ⟨_, _, ht⟩
              · rw [ht] at hb'; exact nomatch hb'
              · rw [ht] at hb'
                simp at hb'
                exact absurd hb'.1.symm hsid
          · exact .inr hb
  · have hm' : ∀ s m a n r, q ≠ .mapperEnd s m a n r :=
      fun s m a n r hh => hm ⟨s, m, a, n, r, hh⟩
    obtain ⟨h1, _, h3, h4, _⟩ := request_frame w.st q hm'
    have h5 := h.frame (w.apply (request w.st q)) (fun hh => hh) said
      (by show find (request w.st q).st.attempts sid = _; rw [h1]) ?_ ?_
    · refine h5.other _ ?_
      intro _ m a n r he
      cases he
      exact absurd rfl (hm' sid m a n r)
    · intro sl att r hb
      rcases hb with hb | hb
      · rcases List.mem_append.1 hb with hb | hb
        · exact .inl hb
        · exact absurd hb (h4 _ _ _ _)
      · exact .inr hb
    · intro hx
      have hx' : sid ∈ (request w.st q).st.committed := hx
      rw [h3] at hx'
      exact .inl hx'

theorem Att.run (reg : Registration) (sid : Int) (evs : List (Event ρ))
    (keep : ∀ r, Event.ask (.unregister sid r) ∉ evs)
    (nonneg : ∀ m a n r, Event.ask (.mapperEnd sid m a n r) ∈ evs → 0 ≤ a) :
    Att sid evs ((World.init ρ reg).run evs) := by
  have := keep_inv (ρ := ρ) reg sid
    (P := fun evs w => (∀ m a n r, Event.ask (.mapperEnd sid m a n r) ∈ evs → 0 ≤ a) →
      Att sid evs w) (fun _ => Att.init reg sid) ?_ ?_ ?_ ?_ evs keep
  · exact this nonneg
  · intro evs e w h he hn
    refine (h fun m a n r hm => hn m a n r (List.mem_append_left _ hm)).other e ?_
    rintro on m a n r rfl
    rcases he with he | ⟨_, _, he⟩
    · rw [on] at he; exact nomatch he
    · exact nomatch he
  · intro evs w q h on _ _ hn
    refine (h fun m a n r hm => hn m a n r (List.mem_append_left _ hm)).ask q on ?_
    rintro m a n r rfl
    exact hn m a n r (by simp)
  · intro evs w i t a h _ ht hn
    refine (h hn).frame _ (fun hh => hh) (fun _ hx => hx) rfl ?_ (fun hh => .inl hh)
    rintro sl att r (hb | ⟨a', hb⟩)
    · exact .inl (mem_of_eraseIdx hb)
    · rcases List.mem_append.1 hb with hb | hb
      · exact .inr ⟨a', hb⟩
      · simp at hb
        obtain ⟨rfl, _⟩ := hb
        exact .inl (List.mem_of_getElem? ht)
  · intro evs w t a x b h on hend hf hx hn
    obtain ⟨h1, h2, _⟩ := done_frame w.st x sid hx
    refine (h hn).frame _ (fun _ => on) (fun _ hx => List.mem_append_left _ hx) h1 ?_ ?_
    · rintro sl att r (hb | hb)
      · rcases List.mem_append.1 hb with hb | hb
        · exact .inl hb
        · obtain ⟨_, hc⟩ := done_tasks _ _ _ hb
          exact nomatch hc
      · exact .inr hb
    · intro hc
      rcases h2.1 hc with hc | ⟨m, r, rfl⟩
      · exact .inl hc
      · obtain ⟨⟨sl, att, rfl⟩, _⟩ := finish_committed hf
        exact .inr ⟨sl, att, r, .inr ⟨a, hend⟩⟩

/-! ## One commit -/

def Task.isCommit (sid : Int) : Task ρ → Bool
  | .commit s _ _ _ => decide (s = sid)
  | _ => false

theorem isCommit_iff {sid : Int} {t : Task ρ} (h : t.isCommit sid = true) :
    ∃ sl att r, t = .commit sid sl att r := by
  cases t <;> simp [Task.isCommit] at h
  subst h
  exact ⟨_, _, _, rfl⟩

/-- The commits of a shuffle that were begun. -/
def World.commits (w : World ρ) (sid : Int) : Nat :=
  w.tasks.countP (Task.isCommit sid) + w.ended.countP fun x => x.1.isCommit sid

theorem commits_zero {w : World ρ} {sid : Int} (h : ∀ sl att r, ¬ w.begun sid sl att r) :
    w.commits sid = 0 := by
  have h1 : w.tasks.countP (Task.isCommit sid) = 0 := by
    rw [List.countP_eq_zero]
    intro t ht hc
    obtain ⟨sl, att, r, rfl⟩ := isCommit_iff hc
    exact h sl att r (.inl ht)
  have h2 : (w.ended.countP fun x => x.1.isCommit sid) = 0 := by
    rw [List.countP_eq_zero]
    rintro ⟨t, a⟩ ht hc
    obtain ⟨sl, att, r, rfl⟩ := isCommit_iff hc
    exact h sl att r (.inr ⟨a, ht⟩)
  rw [World.commits, h1, h2]

theorem commits_le (reg : Registration) (sid : Int) (evs : List (Event ρ))
    (keep : ∀ r, Event.ask (.unregister sid r) ∉ evs)
    (nonneg : ∀ m a n r, Event.ask (.mapperEnd sid m a n r) ∈ evs → 0 ≤ a) :
    ((World.init ρ reg).run evs).commits sid ≤ 1 := by
  induction evs using List.reverseRecOn with
  | nil => simp [World.run, World.init, World.commits]
  | append_singleton evs e ih =>
    have keep' : ∀ r, Event.ask (.unregister sid r) ∉ evs :=
      fun r hm => keep r (List.mem_append_left _ hm)
    have nonneg' : ∀ m a n r, Event.ask (.mapperEnd sid m a n r) ∈ evs → 0 ≤ a :=
      fun m a n r hm => nonneg m a n r (List.mem_append_left _ hm)
    have ih := ih keep' nonneg'
    have at' := Att.run reg sid evs keep' nonneg'
    rw [run_append]
    generalize (World.init ρ reg).run evs = w at ih at'
    simp only [World.run]
    refine step_cases (P := fun w => w.commits sid ≤ 1) w e ih ?_ ?_
    · intro q hq _
      have cnt : (w.apply (request w.st q)).commits sid =
          w.commits sid + (request w.st q).tasks.countP (Task.isCommit sid) := by
        simp only [World.commits, World.apply, List.countP_append]
        omega
      rw [cnt]
      by_cases hm : ∃ s m a n r, q = .mapperEnd s m a n r
      · obtain ⟨s, m, a, n, r, rfl⟩ := hm
        obtain ⟨_, _, hends⟩ := mapperEnd_cases w.st s m a n r
        cases hends with
        | refused er her hs ht ha hc =>
          have ht' : (request w.st (.mapperEnd s m a n r)).tasks = [] := ht
          rw [ht']; simpa using ih
        | known hs ht ha hm0 hmn hc =>
          have ht' : (request w.st (.mapperEnd s m a n r)).tasks = [] := ht
          rw [ht']; simpa using ih
        | first hm0 hmn hc att slots ho hl hv hr ha hd =>
          rcases hd with ⟨_, _, ht⟩ | ⟨_, _, ht⟩
          · have ht' : (request w.st (.mapperEnd s m a n r)).tasks = [] := ht
            rw [ht']; simpa using ih
          · have ht' : (request w.st (.mapperEnd s m a n r)).tasks =
              [.commit s slots (att.set m.toNat a) r] := ht
            rw [ht']
            by_cases hsid : s = sid
            · subst hsid
              have : w.commits s = 0 := by
                apply commits_zero
                intro sl att' r' hb
                obtain ⟨g1, g2⟩ := at'.begun sl att' r' hb
                rcases ho with ho | ⟨ho, _⟩
                · rw [ho] at g1
                  cases g1
                  exact g2 (List.mem_of_getElem? hv)
                · rw [ho] at g1
                  exact nomatch g1
              rw [this]
              simp [Task.isCommit]
            · simpa [Task.isCommit, hsid] using ih
      · obtain ⟨_, _, _, h4, _⟩ := request_frame w.st q fun s m a n r hh => hm ⟨s, m, a, n, r, hh⟩
        have : (request w.st q).tasks.countP (Task.isCommit sid) = 0 := by
          rw [List.countP_eq_zero]
          intro t ht hc
          obtain ⟨sl, att, r, rfl⟩ := isCommit_iff hc
          exact h4 _ _ _ _ ht
        omega
    · intro i t a d _ ht _
      have move : ({ w with tasks := w.tasks.eraseIdx i, ended := w.ended ++ [(t, a)] } : World ρ).commits
          sid ≤ 1 := by
        have := (eraseIdx_perm ht).countP_eq (Task.isCommit sid)
        simp only [List.countP_cons] at this
        simp only [World.commits, List.countP_append, List.countP_cons, List.countP_nil] at ih ⊢
        omega
      refine handle_cases (P := fun w => w.commits sid ≤ 1)
        { w with tasks := w.tasks.eraseIdx i, ended := w.ended ++ [(t, a)] } d move ?_
      intro x b _ _
      have : (done w.st x).tasks.countP (Task.isCommit sid) = 0 := by
        rw [List.countP_eq_zero]
        intro t ht hc
        obtain ⟨sl, att, r, rfl⟩ := isCommit_iff hc
        obtain ⟨_, hc⟩ := done_tasks _ _ _ ht
        exact nomatch hc
      simp only [World.commits, World.apply, List.countP_append] at move ⊢
      omega

/-! ## Who was told that an end was recorded -/

/-- A commit of the shuffle succeeded. -/
def Spec.Committed (w : World ρ) (sid : Int) : Prop :=
  ∃ sl att r m, (Task.commit sid sl att r, Remote.committed m) ∈ w.ended

/-- A task that was begun. -/
def World.had (w : World ρ) (t : Task ρ) : Prop := t ∈ w.tasks ∨ ∃ a, (t, a) ∈ w.ended

/-- What every handle was used for: the end of a mapper of a shuffle, or something else. -/
def Spec.Owners (owner : ρ → Option (Int × Int)) (evs : List (Event ρ)) : Prop :=
  (∀ s m a n r, Event.ask (.mapperEnd s m a n r) ∈ evs → owner r = some (s, m)) ∧
  (∀ x r, Event.ask (.report x r) ∈ evs → owner r = none) ∧
  (∀ s r, Event.ask (.unregister s r) ∈ evs → owner r = none)

/-- The conditions under which a shuffle is committed when all mappers were told so. -/
structure Spec.Once (sid n : Int) (evs : List (Event ρ)) : Prop where
  pos : 0 < n
  num : ∀ m a n' r, Event.ask (.mapperEnd sid m a n' r) ∈ evs → n' = n
  nonneg : ∀ m a n' r, Event.ask (.mapperEnd sid m a n' r) ∈ evs → 0 ≤ a
  once : ∀ m, evs.countP (fun e => match e with
    | .ask (.mapperEnd s m' _ _ _) => decide (s = sid ∧ m' = m)
    | _ => false) ≤ 1

structure Acks (owner : ρ → Option (Int × Int)) (sid n : Int) (evs : List (Event ρ)) (w : World ρ) :
    Prop where
  committed : sid ∈ w.st.committed → Spec.Committed w sid
  len : ∀ att, find w.st.attempts sid = some att → att.length = n.toNat
  acked : ∀ r m, (r, Answer.done (.ok ())) ∈ w.said → owner r = some (sid, m) →
    Spec.Committed w sid ∨ 0 ≤ m ∧ ∃ att v, find w.st.attempts sid = some att ∧
      att[m.toNat]? = some v ∧ v ≠ -1
  full : ∀ att, find w.st.attempts sid = some att → -1 ∉ att → Spec.Committed w sid ∨
    ∃ m a n' r, 0 ≤ m ∧ m < n ∧ Event.ask (.mapperEnd sid m a n' r) ∈ evs ∧
      ∀ r', (r', Answer.done (.ok ())) ∈ w.said → owner r' ≠ some (sid, m)
  tasks : ∀ s sl att r, w.had (.commit s sl att r) → ∃ m, owner r = some (s, m)
  gone : ∀ s r, w.had (.unregister s r) → owner r = none

theorem Acks.init (owner : ρ → Option (Int × Int)) (sid n : Int) (reg : Registration) :
    Acks owner sid n [] (World.init ρ reg) :=
  ⟨by simp [World.init, State.init], by simp [World.init, State.init, find],
    by simp [World.init], by simp [World.init, State.init, find], by simp [World.init, World.had],
    by simp [World.init, World.had]⟩

theorem Acks.more {owner : ρ → Option (Int × Int)} {sid n : Int} {evs : List (Event ρ)} {w : World ρ}
    (h : Acks owner sid n evs w) (e : Event ρ) : Acks owner sid n (evs ++ [e]) w := by
  refine ⟨h.committed, h.len, h.acked, ?_, h.tasks, h.gone⟩
  intro att hf hno
  rcases h.full att hf hno with hc | ⟨m, a, n', r, h1, h2, h3, h4⟩
  · exact .inl hc
  · exact .inr ⟨m, a, n', r, h1, h2, List.mem_append_left _ h3, h4⟩

/-- Nothing happens to the shuffle, and nobody who asked about it is told anything new. -/
theorem Acks.frame {owner : ρ → Option (Int × Int)} {sid n : Int} {evs : List (Event ρ)} {w : World ρ}
    (h : Acks owner sid n evs w) (w' : World ρ)
    (hc : sid ∈ w'.st.committed → sid ∈ w.st.committed)
    (ha : find w'.st.attempts sid = find w.st.attempts sid)
    (he : ∀ x ∈ w.ended, x ∈ w'.ended)
    (hs : ∀ r m, (r, Answer.done (.ok ())) ∈ w'.said → owner r = some (sid, m) →
      (r, Answer.done (.ok ())) ∈ w.said)
    (ht : ∀ s sl att r, w'.had (.commit s sl att r) → ∃ m, owner r = some (s, m))
    (hg : ∀ s r, w'.had (.unregister s r) → owner r = none) :
    Acks owner sid n evs w' := by
  have cm : Spec.Committed w sid → Spec.Committed w' sid := by
    rintro ⟨sl, att, r, m, hx⟩
    exact ⟨sl, att, r, m, he _ hx⟩
  refine ⟨fun hx => cm (h.committed (hc hx)), ?_, ?_, ?_, ht, hg⟩
  · intro att hf
    rw [ha] at hf
    exact h.len att hf
  · intro r m hr ho
    rcases h.acked r m (hs r m hr ho) ho with hx | hx
    · exact .inl (cm hx)
    · rw [ha]; exact .inr hx
  · intro att hf hno
    rw [ha] at hf
    rcases h.full att hf hno with hx | ⟨m, a, n', r, h1, h2, h3, h4⟩
    · exact .inl (cm hx)
    · exact .inr ⟨m, a, n', r, h1, h2, h3, fun r' hr' ho => h4 r' (hs r' m hr' ho) ho⟩

/-- The shuffle is committed: everything holds. -/
theorem Acks.over {owner : ρ → Option (Int × Int)} {sid n : Int} {evs : List (Event ρ)} {w : World ρ}
    (h : Acks owner sid n evs w) (w' : World ρ) (hc : Spec.Committed w' sid)
    (ha : find w'.st.attempts sid = find w.st.attempts sid)
    (ht : ∀ s sl att r, w'.had (.commit s sl att r) → ∃ m, owner r = some (s, m))
    (hg : ∀ s r, w'.had (.unregister s r) → owner r = none) :
    Acks owner sid n evs w' :=
  ⟨fun _ => hc, fun att hf => h.len att (ha ▸ hf), fun _ _ _ _ => .inl hc, fun _ _ _ => .inl hc, ht, hg⟩

theorem Acks.ask {owner : ρ → Option (Int × Int)} {sid n : Int} {evs : List (Event ρ)} {w : World ρ}
    (h : Acks owner sid n evs w) (q : Request ρ)
    (own : Spec.Owners owner (evs ++ [.ask q])) (one : Spec.Once sid n (evs ++ [.ask q])) :
    Acks owner sid n (evs ++ [.ask q]) (w.apply (request w.st q)) := by
  have tk : ∀ s sl att r, (w.apply (request w.st q)).had (.commit s sl att r) →
      ∃ m, owner r = some (s, m) := by
    intro s sl att r hm
    rcases hm with hm | hm
    rotate_left
    · exact h.tasks s sl att r (.inr hm)
    rcases List.mem_append.1 hm with hm | hm
    · exact h.tasks s sl att r (.inl hm)
    · by_cases hq : ∃ s m a n r, q = .mapperEnd s m a n r
      · obtain ⟨s', m, a, n', r', rfl⟩ := hq
        have ho := own.1 s' m a n' r' (by simp)
        obtain ⟨_, _, hends⟩ := mapperEnd_cases w.st s' m a n' r'
        have hm' : Task.commit s sl att r ∈ (mapperEnd w.st s' m a n' r').tasks := hm
        cases hends with
        | refused er her hs ht ha hc => rw [ht] at hm'; exact nomatch hm'
        | known hs ht ha hm0 hmn hc => rw [ht] at hm'; exact nomatch hm'
        | first hm0 hmn hc att slots ho' hl hv hr ha hd =>
          rcases hd with ⟨_, _, ht⟩ | ⟨_, _, ht⟩
          · rw [ht] at hm'; exact nomatch hm'
          · rw [ht] at hm'
            simp at hm'
            obtain ⟨rfl, _, _, rfl⟩ := hm'
            exact ⟨m, ho⟩
      · obtain ⟨_, _, _, h4, _⟩ := request_frame w.st q fun s m a n r hh => hq ⟨s, m, a, n, r, hh⟩
        exact absurd hm (h4 _ _ _ _)
  have gn : ∀ s r, (w.apply (request w.st q)).had (.unregister s r) → owner r = none := by
    intro s r hm
    rcases hm with hm | hm
    rotate_left
    · exact h.gone s r (.inr hm)
    rcases List.mem_append.1 hm with hm | hm
    · exact h.gone s r (.inl hm)
    · have := request_unregister w.st q s r hm
      exact own.2.2 s r (by rw [← this]; simp)
  have h' := h.more (.ask q)
  by_cases hq : ∃ s m a n r, q = .mapperEnd s m a n r
  · obtain ⟨s, m, a, n', r, rfl⟩ := hq
    obtain ⟨_, hcom, hends⟩ := mapperEnd_cases w.st s m a n' r
    have hcm : sid ∈ (w.apply (request w.st (.mapperEnd s m a n' r))).st.committed →
        sid ∈ w.st.committed := by
      intro hx
      have hx' : sid ∈ (mapperEnd w.st s m a n' r).st.committed := hx
      rwa [hcom] at hx'
    have hown := own.1 s m a n' r (by simp)
    cases hends with
    | refused er her hs ht ha hc =>
      refine h'.frame _ hcm (ha sid) (fun _ hx => hx) ?_ tk gn
      intro r' m' hr' _
      rcases List.mem_append.1 hr' with hr' | hr'
      · exact hr'
      · have hr2 : _ ∈ (mapperEnd w.st s m a n' r).said := hr'
        rw [hs] at hr2
        simp at hr2
    | known hs ht ha hm0 hmn hc =>
      by_cases hsid : s = sid
      · subst hsid
        rcases hc with hc | ⟨att, v, hf, hv, hne⟩
        · exact h'.over _ (h.committed hc) (ha s) tk gn
        · refine ⟨fun hx => h.committed (hcm hx), fun att hf => h.len att ((ha s).symm.trans hf), ?_, ?_,
            tk, gn⟩
          · intro r' m' hr' ho'
            rcases List.mem_append.1 hr' with hr' | hr'
            · rcases h.acked r' m' hr' ho' with hx | ⟨h0, att', v', hf', hx⟩
              · exact .inl hx
              · exact .inr ⟨h0, att', v', (ha s).trans hf', hx⟩
            · have hr2 : _ ∈ (mapperEnd w.st s m a n' r).said := hr'
              rw [hs] at hr2
              simp at hr2
              subst hr2
              rw [hown] at ho'
              cases ho'
              exact .inr ⟨hm0, att, v, (ha s).trans hf, hv, hne⟩
          · intro att' hf' hno
            have hf2 : find w.st.attempts s = some att' := (ha s).symm.trans hf'
            rcases h.full att' hf2 hno with hx | ⟨m', a', n2, r2, h1, h2, h3, h4⟩
            · exact .inl hx
            · refine .inr ⟨m', a', n2, r2, h1, h2, List.mem_append_left _ h3, ?_⟩
              intro r' hr' ho'
              rcases List.mem_append.1 hr' with hr' | hr'
              · exact h4 r' hr' ho'
              · have hr2 : _ ∈ (mapperEnd w.st s m a n' r).said := hr'
                rw [hs] at hr2
                simp at hr2
                subst hr2
                rw [hown] at ho'
                cases ho'
                -- the mapper reported its end twice
                have := one.once m
                rw [List.countP_append] at this
                have h5 : 0 < evs.countP (fun e => match e with
                    | .ask (.mapperEnd s' m' _ _ _) => decide (s' = s ∧ m' = m)
                    | _ => false) := List.countP_pos_iff.2 ⟨_, h3, by simp⟩
                have h6 : [Event.ask (.mapperEnd s m a n' r')].countP (fun e => match e with
                    | .ask (.mapperEnd s' m' _ _ _) => decide (s' = s ∧ m' = m)
                    | _ => false) = 1 := by simp
                rw [h6] at this
                omega
      · refine h'.frame _ hcm (ha sid) (fun _ hx => hx) ?_ tk gn
        intro r' m' hr' ho'
        rcases List.mem_append.1 hr' with hr' | hr'
        · exact hr'
        · have hr2 : _ ∈ (mapperEnd w.st s m a n' r).said := hr'
          rw [hs] at hr2
          simp at hr2
          subst hr2
          rw [hown] at ho'
          cases ho'
          exact absurd rfl hsid
    | first hm0 hmn hc att slots ho hl hv hr ha hd =>
      by_cases hsid : s = sid
      · subst hsid
        have hn : n' = n := one.num m a n' r (by simp)
        subst hn
        have ha0 : 0 ≤ a := one.nonneg m a n' r (by simp)
        have ha' : find (w.apply (request w.st (.mapperEnd s m a n' r))).st.attempts s =
            some (att.set m.toNat a) := (ha s).trans (if_pos rfl)
        have hlt : m.toNat < att.length := by omega
        -- nobody was told that this mapper was recorded
        have fresh : Spec.Committed w s ∨ ∀ r', (r', Answer.done (.ok ())) ∈ w.said →
            owner r' ≠ some (s, m) := by
          by_cases hcm' : Spec.Committed w s
          · exact .inl hcm'
          · right
            intro r' hr' ho'
            rcases h.acked r' m hr' ho' with hx | ⟨_, att', v, hf', hv', hne⟩
            · exact hcm' hx
            · rcases ho with ho | ⟨ho, _⟩
              · rw [ho] at hf'
                cases hf'
                rw [hv] at hv'
                cases hv'
                exact hne rfl
              · rw [ho] at hf'
                exact nomatch hf'
        refine ⟨fun hx => h.committed (hcm hx), ?_, ?_, ?_, tk, gn⟩
        · intro att' hf
          rw [ha'] at hf
          cases hf
          simpa using hl
        · intro r' m' hr' ho'
          have new : m' = m → 0 ≤ m' ∧ ∃ att' v, find
              (w.apply (request w.st (.mapperEnd s m a n' r))).st.attempts s = some att' ∧
              att'[m'.toNat]? = some v ∧ v ≠ -1 := by
            rintro rfl
            refine ⟨hm0, _, a, ha', ?_, by omega⟩
            rw [List.getElem?_set, if_pos rfl, if_pos hlt]
          rcases List.mem_append.1 hr' with hr' | hr'
          · rcases h.acked r' m' hr' ho' with hx | ⟨h0, att', v, hf', hv', hne⟩
            · exact .inl hx
            · right
              by_cases hmm : m' = m
              · exact new hmm
              · refine ⟨h0, _, v, ha', ?_, hne⟩
                rcases ho with ho | ⟨ho, _⟩
                · rw [ho] at hf'
                  cases hf'
                  rw [List.getElem?_set, if_neg (fun hh => hmm (by
                    rw [← Int.toNat_of_nonneg h0, ← hh, Int.toNat_of_nonneg hm0]))]
                  exact hv'
                · rw [ho] at hf'
                  exact nomatch hf'
          · rcases hd with ⟨_, hs, _⟩ | ⟨_, hs, _⟩
            · have hr2 : _ ∈ (mapperEnd w.st s m a n' r).said := hr'
              rw [hs] at hr2
              simp at hr2
              subst hr2
              rw [hown] at ho'
              cases ho'
              exact .inr (new rfl)
            · have hr2 : _ ∈ (mapperEnd w.st s m a n' r).said := hr'
              rw [hs] at hr2
              exact nomatch hr2
        · intro att' hf hno
          rw [ha'] at hf
          cases hf
          rcases hd with ⟨hin, _, _⟩ | ⟨_, hs, _⟩
          · exact absurd hin hno
          · rcases fresh with hx | fresh
            · exact .inl hx
            · refine .inr ⟨m, a, n', r, hm0, hmn, by simp, ?_⟩
              intro r' hr'
              rcases List.mem_append.1 hr' with hr' | hr'
              · exact fresh r' hr'
              · have hr2 : _ ∈ (mapperEnd w.st s m a n' r).said := hr'
                rw [hs] at hr2
                exact nomatch hr2
      · refine h'.frame _ hcm ((ha sid).trans (if_neg hsid)) (fun _ hx => hx) ?_ tk gn
        intro r' m' hr' ho'
        rcases List.mem_append.1 hr' with hr' | hr'
        · exact hr'
        · have hr2 : _ ∈ (mapperEnd w.st s m a n' r).said := hr'
          rcases hd with ⟨_, hs, _⟩ | ⟨_, hs, _⟩
          · rw [hs] at hr2
            simp at hr2
            subst hr2
            rw [hown] at ho'
            cases ho'
            exact absurd rfl hsid
          · rw [hs] at hr2
            exact nomatch hr2
  · obtain ⟨h1, _, h3, _, h5⟩ := request_frame w.st q fun s m a n r hh => hq ⟨s, m, a, n, r, hh⟩
    refine h'.frame _ ?_ (by show find (request w.st q).st.attempts sid = _; rw [h1])
      (fun _ hx => hx) ?_ tk gn
    · intro hx
      have hx' : sid ∈ (request w.st q).st.committed := hx
      rwa [h3] at hx'
    · intro r m hr ho
      rcases List.mem_append.1 hr with hr | hr
      · exact hr
      · obtain ⟨x, rfl⟩ := h5 r hr
        rw [own.2.1 x r (by simp)] at ho
        exact nomatch ho

theorem Acks.run (owner : ρ → Option (Int × Int)) (reg : Registration) (sid n : Int)
    (evs : List (Event ρ)) (keep : ∀ r, Event.ask (.unregister sid r) ∉ evs)
    (own : Spec.Owners owner evs) (one : Spec.Once sid n evs) :
    Acks owner sid n evs ((World.init ρ reg).run evs) := by
  have down : ∀ (evs : List (Event ρ)) (e : Event ρ), Spec.Owners owner (evs ++ [e]) ∧
      Spec.Once sid n (evs ++ [e]) → Spec.Owners owner evs ∧ Spec.Once sid n evs := by
    rintro evs e ⟨⟨o1, o2, o3⟩, o4⟩
    refine ⟨⟨fun s m a n r hm => o1 s m a n r (List.mem_append_left _ hm),
      fun x r hm => o2 x r (List.mem_append_left _ hm), fun s r hm => o3 s r (List.mem_append_left _ hm)⟩,
      o4.pos, fun m a n r hm => o4.num m a n r (List.mem_append_left _ hm),
      fun m a n r hm => o4.nonneg m a n r (List.mem_append_left _ hm), fun m => ?_⟩
    have := o4.once m
    rw [List.countP_append] at this
    omega
  have := keep_inv (ρ := ρ) reg sid
    (P := fun evs w => Spec.Owners owner evs ∧ Spec.Once sid n evs → Acks owner sid n evs w)
    (fun _ => Acks.init owner sid n reg) ?_ ?_ ?_ ?_ evs keep
  · exact this ⟨own, one⟩
  · intro evs e w h _ hh
    exact (h (down _ _ hh)).more e
  · intro evs w q h _ _ _ hh
    exact (h (down _ _ hh)).ask q hh.1 hh.2
  · intro evs w i t a h _ ht hh
    have had : ∀ t', ({ w with tasks := w.tasks.eraseIdx i, ended := w.ended ++ [(t, a)] } : World ρ).had
        t' → w.had t' := by
      rintro t' (hm | ⟨a', hm⟩)
      · exact .inl (mem_of_eraseIdx hm)
      · rcases List.mem_append.1 hm with hm | hm
        · exact .inr ⟨a', hm⟩
        · simp at hm
          obtain ⟨rfl, _⟩ := hm
          exact .inl (List.mem_of_getElem? ht)
    refine (h hh).frame _ (fun hx => hx) rfl (fun _ hx => List.mem_append_left _ hx) (fun _ _ hx _ => hx)
      (fun s sl att r hm => (h hh).tasks s sl att r (had _ hm))
      (fun s r hm => (h hh).gone s r (had _ hm))
  · intro evs w t a x b h on hend hf hx hh
    have h := h hh
    obtain ⟨h1, h2, h3⟩ := done_frame w.st x sid hx
    have had : ∀ t', (∀ s, t' ≠ .cleanup s) →
        ({ w.apply (done w.st x) with stopped := b } : World ρ).had t' → w.had t' := by
      rintro t' hne (hm | hm)
      · rcases List.mem_append.1 hm with hm | hm
        · exact .inl hm
        · obtain ⟨_, hc⟩ := done_tasks _ _ _ hm
          exact absurd hc (hne _)
      · exact .inr hm
    have tk : ∀ s sl att r, ({ w.apply (done w.st x) with stopped := b } : World ρ).had
        (.commit s sl att r) → ∃ m, owner r = some (s, m) :=
      fun s sl att r hm => h.tasks s sl att r (had _ (by simp) hm)
    have gn : ∀ s r, ({ w.apply (done w.st x) with stopped := b } : World ρ).had
        (.unregister s r) → owner r = none :=
      fun s r hm => h.gone s r (had _ (by simp) hm)
    by_cases hc : ∃ m r, x = .committed sid (.ok m) r
    · obtain ⟨m, r, rfl⟩ := hc
      obtain ⟨⟨sl, att, rfl⟩, rfl⟩ := finish_committed hf
      exact h.over _ ⟨sl, att, r, m, hend⟩ h1 tk gn
    · refine h.frame _ ?_ h1 (fun _ hx => hx) ?_ tk gn
      · intro hx'
        rcases h2.1 hx' with hx' | hx'
        · exact hx'
        · exact absurd hx' hc
      · intro r m hr ho
        rcases List.mem_append.1 hr with hr | hr
        · exact hr
        · exfalso
          rcases h3 r hr with ⟨s', m', rfl⟩ | ⟨s', rfl⟩
          · obtain ⟨⟨sl, att, rfl⟩, _⟩ := finish_committed hf
            obtain ⟨m2, ho2⟩ := h.tasks s' sl att r (.inr ⟨a, hend⟩)
            rw [ho2] at ho
            cases ho
            exact hc ⟨m', r, rfl⟩
          · obtain ⟨rfl, _⟩ := finish_unregistered hf
            rw [h.gone s' r (.inr ⟨a, hend⟩)] at ho
            exact nomatch ho

/-- The number of mappers of a shuffle was named by a mapper of it. -/
theorem attempts_length (reg : Registration) (sid : Int) (evs : List (Event ρ))
    (keep : ∀ r, Event.ask (.unregister sid r) ∉ evs) :
    ∀ att, find ((World.init ρ reg).run evs).st.attempts sid = some att →
      ∃ m a n r, Event.ask (.mapperEnd sid m a n r) ∈ evs ∧ att.length = n.toNat := by
  have up : ∀ {evs : List (Event ρ)} {e : Event ρ} {att : List Int},
      (∃ m a n r, Event.ask (.mapperEnd sid m a n r) ∈ evs ∧ att.length = n.toNat) →
      ∃ m a n r, Event.ask (.mapperEnd sid m a n r) ∈ evs ++ [e] ∧ att.length = n.toNat := by
    rintro evs e att ⟨m, a, n, r, h1, h2⟩
    exact ⟨m, a, n, r, List.mem_append_left _ h1, h2⟩
  refine keep_inv (ρ := ρ) reg sid (P := fun evs w => ∀ att, find w.st.attempts sid = some att →
      ∃ m a n r, Event.ask (.mapperEnd sid m a n r) ∈ evs ∧ att.length = n.toNat)
    (by simp [World.init, State.init, find]) ?_ ?_ ?_ ?_ evs keep
  · intro evs e w h _ att hf
    exact up (h att hf)
  · intro evs w q h _ _ _ att hf
    have hf' : find (request w.st q).st.attempts sid = some att := hf
    by_cases hq : ∃ s m a n r, q = .mapperEnd s m a n r
    · obtain ⟨s, m, a, n, r, rfl⟩ := hq
      obtain ⟨_, _, hends⟩ := mapperEnd_cases w.st s m a n r
      cases hends with
      | refused er her hs ht ha hc => exact up (h att ((ha sid).symm.trans hf'))
      | known hs ht ha hm0 hmn hc => exact up (h att ((ha sid).symm.trans hf'))
      | first hm0 hmn hc att' slots ho hl hv hr ha hd =>
        by_cases hs : s = sid
        · subst hs
          have := (ha s).symm.trans hf'
          rw [if_pos rfl] at this
          cases this
          exact ⟨m, a, n, r, by simp, by simpa using hl⟩
        · have := (ha sid).symm.trans hf'
          rw [if_neg hs] at this
          exact up (h att this)
    · rw [(request_frame w.st q fun s m a n r hh => hq ⟨s, m, a, n, r, hh⟩).1] at hf'
      exact up (h att hf')
  · intro evs w i t a h _ _
    exact h
  · intro evs w t a x b h _ _ _ hx att hf
    exact h att ((done_frame w.st x sid hx).1.symm.trans hf)

end Verif.Celeborn
