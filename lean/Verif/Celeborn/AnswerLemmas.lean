import Verif.Celeborn.IdLemmas

/-!
# Lemmas: who asked, who was answered, who waits
-/

namespace Verif.Celeborn

open Verif.Catalog (find erase put Distinct find_put find_erase mem_of_find find_of_mem)

/-- The callers in a map of waiting callers. -/
def flat {κ ρ : Type} (m : List (κ × List ρ)) : List ρ := m.flatMap (·.2)

theorem erase_of_none {κ ν : Type} [DecidableEq κ] {m : List (κ × ν)} {k : κ} (h : find m k = none) :
    erase m k = m := by
  induction m with
  | nil => rfl
  | cons e m ih =>
    obtain ⟨a, v⟩ := e
    rw [find] at h
    by_cases ha : a = k
    · rw [if_pos ha] at h
      exact nomatch h
    · rw [if_neg ha] at h
      have := ih h
      simp only [erase, List.filter_cons] at this ⊢
      rw [this]
      simp [ha]

variable {ρ : Type} [DecidableEq ρ]

theorem flat_erase {κ : Type} [DecidableEq κ] {m : List (κ × List ρ)} (hd : Distinct m) (k : κ) (x : ρ) :
    (flat (erase m k)).count x + ((find m k).getD []).count x = (flat m).count x := by
  induction m with
  | nil => simp [flat, erase, find]
  | cons e m ih =>
    obtain ⟨a, v⟩ := e
    rw [Distinct, List.map_cons, List.nodup_cons] at hd
    have ih := ih hd.2
    by_cases ha : a = k
    · subst ha
      have hn : find m a = none := by
        cases hf : find m a with
        | none => rfl
        | some w => exact absurd (List.mem_map.2 ⟨_, mem_of_find hf, rfl⟩) hd.1
      have := erase_of_none hn
      simp only [erase, flat, find, List.filter_cons, List.flatMap_cons, List.count_append] at this ⊢
      rw [this]
      simp
      omega
    · simp only [erase, flat, find, List.filter_cons, List.flatMap_cons, List.count_append] at ih ⊢
      simp [ha] at ih ⊢
      omega

theorem flat_put {κ : Type} [DecidableEq κ] {m : List (κ × List ρ)} (hd : Distinct m) (k : κ)
    (v : List ρ) (x : ρ) :
    (flat (put m k v)).count x + ((find m k).getD []).count x = (flat m).count x + v.count x := by
  have := flat_erase hd k x
  simp only [put, flat, List.flatMap_cons, List.count_append] at this ⊢
  omega

/-- Who made a request. -/
def Request.callers : Request ρ → List ρ
  | .getId _ _ r => [r]
  | .jobIds _ r => [r]
  | .register _ _ _ _ r => [r]
  | .revive _ _ _ _ r => [r]
  | .mapperEnd _ _ _ _ r => [r]
  | .unregister _ r => [r]
  | .report _ r => [r]
  | .heartbeat => []
  | .stop r => [r]

/-- Who waits for a task that holds the way to answer. -/
def Task.callers : Task ρ → List ρ
  | .commit _ _ _ r => [r]
  | .unregister _ r => [r]
  | .stop _ r => [r]
  | _ => []

def Done.callers : Done ρ → List ρ
  | .committed _ _ r => [r]
  | .unregistered _ _ r => [r]
  | .stopped r => [r]
  | _ => []

def Task.isSlots (sid : Int) : Task ρ → Bool
  | .slots s _ _ _ => decide (s = sid)
  | _ => false

def Task.isRevive (sid pid : Int) : Task ρ → Bool
  | .revive s p _ _ _ => decide (s = sid ∧ p = pid)
  | _ => false

/-- Who waits in the actor. -/
def State.waiting (s : State ρ) : List ρ := flat s.pendingSlots ++ flat s.pendingRevives

omit [DecidableEq ρ] in
theorem finish_callers {t : Task ρ} {a : Remote} {d : Option (Done ρ)} (h : finish t a = some d) :
    t.callers = (d.map Done.callers).getD [] := by
  cases t <;> cases a <;> simp [finish] at h <;> first | (subst h; rfl) | (split at h <;> simp at h <;> subst h <;> rfl)

/-- 1 or 0. -/
def one (b : Bool) : Nat := if b then 1 else 0

structure PendOk (s : State ρ) : Prop where
  slots : Distinct s.pendingSlots
  revives : Distinct s.pendingRevives

/-- What a request does to the callers. -/
theorem request_balance (s : State ρ) (ok : PendOk s) (q : Request ρ) :
    PendOk (request s q).st ∧
    (∀ x, q.callers.count x + s.waiting.count x =
      ((request s q).said.map (·.1)).count x + (request s q).st.waiting.count x +
        ((request s q).tasks.flatMap Task.callers).count x) ∧
    (∀ sid, (request s q).tasks.countP (Task.isSlots sid) + one (find s.pendingSlots sid).isSome =
      one (find (request s q).st.pendingSlots sid).isSome) ∧
    (∀ sid pid, (request s q).tasks.countP (Task.isRevive sid pid) +
      one (find s.pendingRevives (sid, pid)).isSome =
      one (find (request s q).st.pendingRevives (sid, pid)).isSome) := by
  have same : ∀ e : Effect ρ, e.st.pendingSlots = s.pendingSlots →
      e.st.pendingRevives = s.pendingRevives →
      (∀ t ∈ e.tasks, ∀ sid pid, t.isSlots sid = false ∧ t.isRevive sid pid = false) →
      (∀ x, q.callers.count x = (e.said.map (·.1)).count x + (e.tasks.flatMap Task.callers).count x) →
      PendOk e.st ∧
      (∀ x, q.callers.count x + s.waiting.count x =
        (e.said.map (·.1)).count x + e.st.waiting.count x +
          (e.tasks.flatMap Task.callers).count x) ∧
      (∀ sid, e.tasks.countP (Task.isSlots sid) + one (find s.pendingSlots sid).isSome =
        one (find e.st.pendingSlots sid).isSome) ∧
      (∀ sid pid, e.tasks.countP (Task.isRevive sid pid) +
        one (find s.pendingRevives (sid, pid)).isSome =
        one (find e.st.pendingRevives (sid, pid)).isSome) := by
    intro e h1 h2 h3 h4
    refine ⟨⟨h1 ▸ ok.slots, h2 ▸ ok.revives⟩, ?_, ?_, ?_⟩
    · intro x
      rw [h4 x, State.waiting, State.waiting, h1, h2]
      omega
    · intro sid
      rw [h1, List.countP_eq_zero.2, Nat.zero_add]
      intro t ht
      simp [(h3 t ht sid 0).1]
    · intro sid pid
      rw [h2, List.countP_eq_zero.2, Nat.zero_add]
      intro t ht
      simp [(h3 t ht sid pid).2]
  cases q with
  | getId job stage r =>
    simp only [request, getId]
    split
    · exact same _ rfl rfl (by simp) (by simp [Request.callers])
    · split
      · exact same _ rfl rfl (by simp) (by simp [Request.callers])
      · exact same _ rfl rfl (by simp) (by simp [Request.callers])
  | jobIds job r =>
    exact same _ rfl rfl (by simp [request, jobIds]) (by simp [request, jobIds, Request.callers])
  | register sid parts b m r =>
    simp only [request, register]
    split
    · exact same _ rfl rfl (by simp) (by simp [Request.callers])
    · split
      · rename_i rs hf
        refine ⟨⟨ok.slots.put _ _, ok.revives⟩, ?_, ?_, ?_⟩
        · intro x
          have := flat_put ok.slots sid (rs ++ [r]) x
          rw [hf] at this
          simp only [Option.getD_some, List.count_append] at this
          simp only [Request.callers, State.waiting, List.count_append, List.map_nil,
            List.flatMap_nil, List.count_nil]
          omega
        · intro k
          simp only [List.countP_nil, find_put]
          split
          · rename_i hk
            subst hk
            simp [hf]
          · simp
        · intro k p
          simp
      · rename_i hf
        split
        · exact same _ rfl rfl (by simp) (by simp [Request.callers])
        · refine ⟨⟨ok.slots.put _ _, ok.revives⟩, ?_, ?_, ?_⟩
          · intro x
            have := flat_put ok.slots sid [r] x
            rw [hf] at this
            simp only [Option.getD_none, List.count_nil] at this
            simp only [Request.callers, State.waiting, List.count_append, List.map_nil,
              List.flatMap_cons, List.flatMap_nil, List.count_nil, Task.callers]
            omega
          · intro k
            simp only [find_put, List.countP_cons, List.countP_nil, Task.isSlots]
            by_cases hk : sid = k
            · subst hk
              simp [hf, one]
            · simp [hk]
          · intro k p
            simp [Task.isRevive]
  | revive sid pid old cause r =>
    simp only [request, revive]
    split
    · exact same _ rfl rfl (by simp) (by simp [Request.callers])
    · split
      · exact same _ rfl rfl (by simp) (by simp [Request.callers])
      · split
        · exact same _ rfl rfl (by simp) (by simp [Request.callers])
        · split
          · exact same _ rfl rfl (by simp) (by simp [Request.callers])
          · split
            · exact same _ rfl rfl (by simp) (by simp [Request.callers])
            · split
              · rename_i rs hf
                refine ⟨⟨ok.slots, ok.revives.put _ _⟩, ?_, ?_, ?_⟩
                · intro x
                  have := flat_put ok.revives (sid, pid) (rs ++ [r]) x
                  rw [hf] at this
                  simp only [Option.getD_some, List.count_append] at this
                  simp only [Request.callers, State.waiting, List.count_append, List.map_nil,
                    List.flatMap_nil, List.count_nil]
                  omega
                · intro k
                  simp
                · intro k p
                  simp only [List.countP_nil, find_put]
                  split
                  · rename_i hk
                    cases hk
                    simp [hf]
                  · simp
              · rename_i hf
                refine ⟨⟨ok.slots, ok.revives.put _ _⟩, ?_, ?_, ?_⟩
                · intro x
                  have := flat_put ok.revives (sid, pid) [r] x
                  rw [hf] at this
                  simp only [Option.getD_none, List.count_nil] at this
                  simp only [Request.callers, State.waiting, List.count_append, List.map_nil,
                    List.flatMap_cons, List.flatMap_nil, List.count_nil, Task.callers]
                  omega
                · intro k
                  simp [Task.isSlots]
                · intro k p
                  simp only [find_put, List.countP_cons, List.countP_nil, Task.isRevive]
                  by_cases hk : (sid, pid) = (k, p)
                  · cases hk
                    simp [hf, one]
                  · have : ¬(sid = k ∧ pid = p) := fun h => hk (by rw [h.1, h.2])
                    simp [this]
  | mapperEnd sid map attempt n r =>
    simp only [request, mapperEnd]
    split
    · exact same _ rfl rfl (by simp) (by simp [Request.callers])
    · split
      · exact same _ rfl rfl (by simp) (by simp [Request.callers])
      · split
        · exact same _ rfl rfl (by simp) (by simp [Request.callers])
        · split
          · exact same _ rfl rfl (by simp) (by simp [Request.callers])
          · split
            · exact same _ rfl rfl (by simp) (by simp [Request.callers])
            · split
              · exact same _ rfl rfl (by simp) (by simp [Request.callers])
              · split
                · exact same _ rfl rfl (by simp) (by simp [Request.callers])
                · exact same _ rfl rfl (by simp [Task.isSlots, Task.isRevive])
                    (by simp [Request.callers, Task.callers])
  | unregister sid r =>
    simp only [request, unregister]
    split
    · exact same _ rfl rfl (by simp) (by simp [Request.callers])
    · exact same _ rfl rfl (by simp [Task.isSlots, Task.isRevive])
        (by simp [Request.callers, Task.callers])
  | report m r =>
    exact same _ rfl rfl (by simp [request, report]) (by simp [request, report, Request.callers])
  | heartbeat =>
    simp only [request, heartbeat]
    split
    · exact same _ rfl rfl (by simp) (by simp [Request.callers])
    · exact same _ rfl rfl (by simp [Task.isSlots, Task.isRevive])
        (by simp [Request.callers, Task.callers])
  | stop r =>
    exact same _ rfl rfl (by simp [request, stop, Task.isSlots, Task.isRevive])
      (by simp [request, stop, Request.callers, Task.callers])

/-- The message is the end of a reservation of the shuffle. -/
def Done.isSlots (sid : Int) : Done ρ → Bool
  | .registered s _ => decide (s = sid)
  | _ => false

def Done.isRevive (sid pid : Int) : Done ρ → Bool
  | .revived s p _ => decide (s = sid ∧ p = pid)
  | _ => false

omit [DecidableEq ρ] in
theorem finish_isSlots {t : Task ρ} {a : Remote} {d : Option (Done ρ)} (h : finish t a = some d)
    (sid : Int) : t.isSlots sid = (d.map (Done.isSlots sid)).getD false := by
  cases t <;> cases a <;> simp [finish] at h <;>
    first | (subst h; rfl) | (split at h <;> simp at h <;> subst h <;> rfl)

omit [DecidableEq ρ] in
theorem finish_isRevive {t : Task ρ} {a : Remote} {d : Option (Done ρ)} (h : finish t a = some d)
    (sid pid : Int) : t.isRevive sid pid = (d.map (Done.isRevive sid pid)).getD false := by
  cases t <;> cases a <;> simp [finish] at h <;>
    first | (subst h; rfl) | (split at h <;> simp at h <;> subst h <;> rfl)

/-- What the end of a task does to the callers. -/
theorem done_balance (s : State ρ) (ok : PendOk s) (d : Done ρ) :
    PendOk (done s d).st ∧
    (∀ x, d.callers.count x + s.waiting.count x =
      ((done s d).said.map (·.1)).count x + (done s d).st.waiting.count x) ∧
    (∀ sid, find (done s d).st.pendingSlots sid =
      if d.isSlots sid then none else find s.pendingSlots sid) ∧
    (∀ sid pid, find (done s d).st.pendingRevives (sid, pid) =
      if d.isRevive sid pid then none else find s.pendingRevives (sid, pid)) := by
  have same : ∀ e : Effect ρ, e.st.pendingSlots = s.pendingSlots →
      e.st.pendingRevives = s.pendingRevives →
      (∀ sid, d.isSlots sid = false) → (∀ sid pid, d.isRevive sid pid = false) →
      (∀ x, d.callers.count x = (e.said.map (·.1)).count x) →
      PendOk e.st ∧
      (∀ x, d.callers.count x + s.waiting.count x =
        (e.said.map (·.1)).count x + e.st.waiting.count x) ∧
      (∀ sid, find e.st.pendingSlots sid =
        if d.isSlots sid then none else find s.pendingSlots sid) ∧
      (∀ sid pid, find e.st.pendingRevives (sid, pid) =
        if d.isRevive sid pid then none else find s.pendingRevives (sid, pid)) := by
    intro e h1 h2 h3 h4 h5
    refine ⟨⟨h1 ▸ ok.slots, h2 ▸ ok.revives⟩, ?_, ?_, ?_⟩
    · intro x
      rw [h5 x, State.waiting, State.waiting, h1, h2]
    · intro sid
      simp [h1, h3 sid]
    · intro sid pid
      simp [h2, h4 sid pid]
  have fst : ∀ (l : List ρ) (a : Answer), (l.map fun r => (r, a)).map (·.1) = l := by
    intro l a
    simp [Function.comp_def]
  have slots : ∀ (sid : Int) (res : Except Err Reservation) (e : Effect ρ) (a : Answer),
      e.st.pendingSlots = erase s.pendingSlots sid → e.st.pendingRevives = s.pendingRevives →
      e.said = ((find s.pendingSlots sid).getD []).map (fun r => (r, a)) →
      PendOk e.st ∧
      (∀ x, (Done.registered sid res : Done ρ).callers.count x + s.waiting.count x =
        (e.said.map (·.1)).count x + e.st.waiting.count x) ∧
      (∀ k, find e.st.pendingSlots k =
        if (Done.registered sid res : Done ρ).isSlots k then none else find s.pendingSlots k) ∧
      (∀ k p, find e.st.pendingRevives (k, p) =
        if (Done.registered sid res : Done ρ).isRevive k p then none else find s.pendingRevives (k, p)) := by
    intro sid res e a h1 h2 h3
    refine ⟨⟨h1 ▸ ok.slots.erase _, h2 ▸ ok.revives⟩, ?_, ?_, ?_⟩
    · intro x
      have := flat_erase ok.slots sid x
      rw [h3, fst, State.waiting, State.waiting, h1, h2]
      simp only [Done.callers, List.count_nil, List.count_append]
      omega
    · intro k
      simp [h1, find_erase, Done.isSlots]
    · intro k p
      simp [h2, Done.isRevive]
  have revives : ∀ (sid pid : Int) (res : Except Err Reservation) (e : Effect ρ) (a : Answer),
      e.st.pendingRevives = erase s.pendingRevives (sid, pid) → e.st.pendingSlots = s.pendingSlots →
      e.said = ((find s.pendingRevives (sid, pid)).getD []).map (fun r => (r, a)) →
      PendOk e.st ∧
      (∀ x, (Done.revived sid pid res : Done ρ).callers.count x + s.waiting.count x =
        (e.said.map (·.1)).count x + e.st.waiting.count x) ∧
      (∀ k, find e.st.pendingSlots k =
        if (Done.revived sid pid res : Done ρ).isSlots k then none else find s.pendingSlots k) ∧
      (∀ k p, find e.st.pendingRevives (k, p) =
        if (Done.revived sid pid res : Done ρ).isRevive k p then none else find s.pendingRevives (k, p)) := by
    intro sid pid res e a h1 h2 h3
    refine ⟨⟨h2 ▸ ok.slots, h1 ▸ ok.revives.erase _⟩, ?_, ?_, ?_⟩
    · intro x
      have := flat_erase ok.revives (sid, pid) x
      rw [h3, fst, State.waiting, State.waiting, h1, h2]
      simp only [Done.callers, List.count_nil, List.count_append]
      omega
    · intro k
      simp [h2, Done.isSlots]
    · intro k p
      simp [h1, find_erase, Done.isRevive]
  cases d with
  | registered sid res =>
    simp only [done, registerDone]
    split
    · exact slots sid _ _ _ rfl rfl rfl
    · exact slots sid _ _ _ rfl rfl rfl
  | revived sid pid res =>
    simp only [done, reviveDone]
    split
    · exact revives sid pid _ _ _ rfl rfl rfl
    · split
      · exact revives sid pid _ _ _ rfl rfl rfl
      · split
        · exact revives sid pid _ _ _ rfl rfl rfl
        · exact revives sid pid _ _ _ rfl rfl rfl
  | committed sid res r =>
    simp only [done, mapperEndDone]
    split
    · exact same _ rfl rfl (fun _ => rfl) (fun _ _ => rfl) (by simp [Done.callers])
    · exact same _ rfl rfl (fun _ => rfl) (fun _ _ => rfl) (by simp [Done.callers])
  | unregistered sid res r =>
    simp only [done, unregisterDone]
    split
    · exact same _ rfl rfl (fun _ => rfl) (fun _ _ => rfl) (by simp [Done.callers])
    · exact same _ rfl rfl (fun _ => rfl) (fun _ _ => rfl) (by simp [Done.callers])
  | heartbeat res =>
    simp only [done, heartbeatDone]
    split
    · split
      · exact same _ rfl rfl (fun _ => rfl) (fun _ _ => rfl) (by simp [Done.callers])
      · exact same _ rfl rfl (fun _ => rfl) (fun _ _ => rfl) (by simp [Done.callers])
    · exact same _ rfl rfl (fun _ => rfl) (fun _ _ => rfl) (by simp [Done.callers])
  | stopped r =>
    exact same _ rfl rfl (fun _ => rfl) (fun _ _ => rfl) (by simp [done, Done.callers])

/-! ## The balance of a run -/

omit [DecidableEq ρ] in
theorem eraseIdx_perm {α : Type} {l : List α} {i : Nat} {t : α} (h : l[i]? = some t) :
    (t :: l.eraseIdx i).Perm l := by
  induction l generalizing i with
  | nil => simp at h
  | cons a l ih =>
    cases i with
    | zero =>
      simp at h
      subst h
      exact List.Perm.refl _
    | succ i =>
      simp at h
      exact (List.Perm.swap a t _).trans ((ih h).cons a)

/-- Who asked in a list of events. -/
def Event.callers : Event ρ → List ρ
  | .ask q => q.callers
  | .finish _ _ => []

def asked (evs : List (Event ρ)) : List ρ := evs.flatMap Event.callers

/-- `A` asked; they were answered or wait, and who waits in the actor waits for a task. -/
structure Balance (A : List ρ) (w : World ρ) : Prop where
  pend : PendOk w.st
  bal : w.stopped = false → ∀ x, A.count x = (w.said.map (·.1)).count x + w.st.waiting.count x +
    (w.tasks.flatMap Task.callers).count x
  le : ∀ x, (w.said.map (·.1)).count x ≤ A.count x
  slots : w.stopped = false → ∀ sid, w.tasks.countP (Task.isSlots sid) =
    one (find w.st.pendingSlots sid).isSome
  revives : w.stopped = false → ∀ sid pid, w.tasks.countP (Task.isRevive sid pid) =
    one (find w.st.pendingRevives (sid, pid)).isSome

theorem Balance.init (reg : Registration) : Balance [] (World.init ρ reg) :=
  ⟨⟨List.nodup_nil, List.nodup_nil⟩, fun _ x => by simp [World.init, State.init, State.waiting, flat],
    by simp [World.init], fun _ sid => by simp [World.init, State.init, find, one],
    fun _ sid pid => by simp [World.init, State.init, find, one]⟩

theorem Balance.step {A : List ρ} {w : World ρ} (h : Balance A w) (e : Event ρ) :
    Balance (A ++ e.callers) (w.step e) := by
  cases e with
  | ask q =>
    simp only [World.step]
    cases hs : w.stopped with
    | true =>
      refine ⟨h.pend, fun hc => ?_, fun x => ?_, fun hc => ?_, fun hc => ?_⟩
      · simp [hs] at hc
      · have := h.le x
        simp only [List.count_append, if_true]
        omega
      · simp [hs] at hc
      · simp [hs] at hc
    | false =>
      simp only [Bool.false_eq_true, if_false]
      obtain ⟨p, b, sl, rv⟩ := request_balance w.st h.pend q
      have bal : ∀ x, (A ++ q.callers).count x =
          ((w.said ++ (request w.st q).said).map (·.1)).count x +
            (request w.st q).st.waiting.count x +
            ((w.tasks ++ (request w.st q).tasks).flatMap Task.callers).count x := by
        intro x
        have h1 := h.bal hs x
        have h2 := b x
        simp only [List.count_append, List.map_append, List.flatMap_append]
        omega
      refine ⟨p, fun _ => bal, fun x => ?_, fun _ sid => ?_, fun _ sid pid => ?_⟩
      · have := bal x
        simp only [World.apply, Event.callers]
        omega
      · have h1 := h.slots hs sid
        have h2 := sl sid
        simp only [World.apply, List.countP_append]
        omega
      · have h1 := h.revives hs sid pid
        have h2 := rv sid pid
        simp only [World.apply, List.countP_append]
        omega
  | finish i a =>
    simp only [Event.callers, List.append_nil]
    cases ht : w.tasks[i]? with
    | none => simpa only [World.step, ht] using h
    | some t =>
      cases hf : finish t a with
      | none => simpa only [World.step, ht, hf] using h
      | some d =>
        simp only [World.step, ht, hf]
        have perm : (t :: w.tasks.eraseIdx i).Perm w.tasks := by
          exact eraseIdx_perm ht
        have hcall : ∀ x, t.callers.count x + ((w.tasks.eraseIdx i).flatMap Task.callers).count x =
            (w.tasks.flatMap Task.callers).count x := by
          intro x
          have := (perm.flatMap_right Task.callers).count_eq x
          simpa [List.count_append] using this
        have hcnt : ∀ p : Task ρ → Bool, one (p t) + (w.tasks.eraseIdx i).countP p =
            w.tasks.countP p := by
          intro p
          have := perm.countP_eq p
          rw [List.countP_cons] at this
          simp only [one]
          omega
        have hcd := finish_callers hf
        cases d with
        | none =>
          simp only [World.handle]
          have hc0 : t.callers = [] := hcd
          refine ⟨h.pend, fun hs x => ?_, h.le, fun hs sid => ?_, fun hs sid pid => ?_⟩
          · have h1 := h.bal hs x
            have h2 := hcall x
            rw [hc0] at h2
            simp only [List.count_nil] at h2
            show A.count x = (w.said.map (·.1)).count x + w.st.waiting.count x +
              ((w.tasks.eraseIdx i).flatMap Task.callers).count x
            omega
          · have h1 := h.slots hs sid
            have h2 := hcnt (Task.isSlots sid)
            rw [finish_isSlots hf sid] at h2
            simp only [Option.map_none, Option.getD_none, one] at h2
            show (w.tasks.eraseIdx i).countP _ = _
            simp at h2
            rw [h2]; exact h1
          · have h1 := h.revives hs sid pid
            have h2 := hcnt (Task.isRevive sid pid)
            rw [finish_isRevive hf sid pid] at h2
            simp only [Option.map_none, Option.getD_none, one] at h2
            show (w.tasks.eraseIdx i).countP _ = _
            simp at h2
            rw [h2]; exact h1
        | some x0 =>
          simp only [World.handle]
          cases hs : w.stopped with
          | true =>
            simp only [if_true]
            exact ⟨h.pend, fun hc => (by simp at hc), h.le, fun hc => (by simp at hc),
              fun hc => (by simp at hc)⟩
          | false =>
            simp only [Bool.false_eq_true, if_false]
            obtain ⟨p, b, sl, rv⟩ := done_balance w.st h.pend x0
            have tk : ∀ t' ∈ (done w.st x0).tasks, t'.callers = [] ∧
                (∀ sid, t'.isSlots sid = false) ∧ (∀ sid pid, t'.isRevive sid pid = false) := by
              intro t' ht'
              obtain ⟨sid, rfl⟩ := done_tasks _ _ _ ht'
              exact ⟨rfl, fun _ => rfl, fun _ _ => rfl⟩
            have tk0 : (done w.st x0).tasks.flatMap Task.callers = [] := by
              rw [List.flatMap_eq_nil_iff]
              exact fun t' ht' => (tk t' ht').1
            have bal : ∀ x, A.count x = ((w.said ++ (done w.st x0).said).map (·.1)).count x +
                (done w.st x0).st.waiting.count x +
                ((w.tasks.eraseIdx i ++ (done w.st x0).tasks).flatMap Task.callers).count x := by
              intro x
              have h1 := h.bal hs x
              have h2 := b x
              have h3 := hcall x
              have hc0 : t.callers = x0.callers := hcd
              rw [hc0] at h3
              simp only [List.count_append, List.map_append, List.flatMap_append, tk0, List.count_nil]
              omega
            refine ⟨p, fun _ => bal, fun x => ?_, fun _ sid => ?_, fun _ sid pid => ?_⟩
            · have := bal x
              simp only [World.apply]
              omega
            · have h1 := h.slots hs sid
              have h2 := hcnt (Task.isSlots sid)
              rw [finish_isSlots hf sid] at h2
              simp only [Option.map_some, Option.getD_some] at h2
              have h0 : (done w.st x0).tasks.countP (Task.isSlots sid) = 0 :=
                List.countP_eq_zero.2 fun t' ht' => by simp [(tk t' ht').2.1 sid]
              simp only [World.apply, List.countP_append, h0, sl sid]
              cases hd : x0.isSlots sid with
              | true =>
                rw [hd] at h2
                have : one (find w.st.pendingSlots sid).isSome ≤ 1 := by
                  simp only [one]; split <;> omega
                have h3 : one true = 1 := rfl
                have h4 : one false = 0 := rfl
                rw [h3] at h2
                simp only [if_true, Option.isSome_none, h4]
                omega
              | false =>
                rw [hd] at h2
                have h3 : one false = 0 := rfl
                rw [h3] at h2
                simp only [Bool.false_eq_true, if_false]
                omega
            · have h1 := h.revives hs sid pid
              have h2 := hcnt (Task.isRevive sid pid)
              rw [finish_isRevive hf sid pid] at h2
              simp only [Option.map_some, Option.getD_some] at h2
              have h0 : (done w.st x0).tasks.countP (Task.isRevive sid pid) = 0 :=
                List.countP_eq_zero.2 fun t' ht' => by simp [(tk t' ht').2.2 sid pid]
              simp only [World.apply, List.countP_append, h0, rv sid pid]
              cases hd : x0.isRevive sid pid with
              | true =>
                rw [hd] at h2
                have : one (find w.st.pendingRevives (sid, pid)).isSome ≤ 1 := by
                  simp only [one]; split <;> omega
                have h3 : one true = 1 := rfl
                have h4 : one false = 0 := rfl
                rw [h3] at h2
                simp only [if_true, Option.isSome_none, h4]
                omega
              | false =>
                rw [hd] at h2
                have h3 : one false = 0 := rfl
                rw [h3] at h2
                simp only [Bool.false_eq_true, if_false]
                omega

theorem Balance.run {A : List ρ} {w : World ρ} (h : Balance A w) (evs : List (Event ρ)) :
    Balance (A ++ asked evs) (w.run evs) := by
  induction evs generalizing A w with
  | nil => simpa [asked, World.run] using h
  | cons e evs ih =>
    have := ih (h.step e)
    simpa [asked, World.run, List.append_assoc] using this

end Verif.Celeborn

namespace Verif.Celeborn

open Verif.Catalog (find erase put Distinct find_put find_erase mem_of_find find_of_mem)

variable {ρ : Type}

/-! ## Who waits for which shuffle -/

/-- Requests leave who waits waiting. -/
theorem request_pend (s : State ρ) (q : Request ρ) :
    (∀ sid rs, find s.pendingSlots sid = some rs →
      ∃ more, find (request s q).st.pendingSlots sid = some (rs ++ more)) ∧
    (∀ key rs, find s.pendingRevives key = some rs →
      ∃ more, find (request s q).st.pendingRevives key = some (rs ++ more)) := by
  have same : ∀ e : Effect ρ, e.st.pendingSlots = s.pendingSlots →
      e.st.pendingRevives = s.pendingRevives →
      (∀ sid rs, find s.pendingSlots sid = some rs →
        ∃ more, find e.st.pendingSlots sid = some (rs ++ more)) ∧
      (∀ key rs, find s.pendingRevives key = some rs →
        ∃ more, find e.st.pendingRevives key = some (rs ++ more)) := by
    intro e h1 h2
    exact ⟨fun sid rs h => ⟨[], by rw [h1, h]; simp⟩, fun key rs h => ⟨[], by rw [h2, h]; simp⟩⟩
  cases q with
  | getId job stage r =>
    simp only [request, getId]
    split
    · exact same _ rfl rfl
    · split <;> exact same _ rfl rfl
  | jobIds job r => exact same _ rfl rfl
  | register sid parts b m r =>
    simp only [request, register]
    split
    · exact same _ rfl rfl
    · split
      · rename_i rs0 hf
        refine ⟨?_, fun key rs h => ⟨[], by rw [h]; simp⟩⟩
        intro k rs h
        simp only [find_put]
        split
        · rename_i hk
          subst hk
          rw [hf] at h
          cases h
          exact ⟨[r], rfl⟩
        · exact ⟨[], by rw [h]; simp⟩
      · rename_i hf
        split
        · exact same _ rfl rfl
        · refine ⟨?_, fun key rs h => ⟨[], by rw [h]; simp⟩⟩
          intro k rs h
          simp only [find_put]
          split
          · rename_i hk
            subst hk
            rw [hf] at h
            exact nomatch h
          · exact ⟨[], by rw [h]; simp⟩
  | revive sid pid old cause r =>
    simp only [request, revive]
    split
    · exact same _ rfl rfl
    · split
      · exact same _ rfl rfl
      · split
        · exact same _ rfl rfl
        · split
          · exact same _ rfl rfl
          · split
            · exact same _ rfl rfl
            · split
              · rename_i rs0 hf
                refine ⟨fun key rs h => ⟨[], by rw [h]; simp⟩, ?_⟩
                intro k rs h
                simp only [find_put]
                split
                · rename_i hk
                  subst hk
                  rw [hf] at h
                  cases h
                  exact ⟨[r], rfl⟩
                · exact ⟨[], by rw [h]; simp⟩
              · rename_i hf
                refine ⟨fun key rs h => ⟨[], by rw [h]; simp⟩, ?_⟩
                intro k rs h
                simp only [find_put]
                split
                · rename_i hk
                  subst hk
                  rw [hf] at h
                  exact nomatch h
                · exact ⟨[], by rw [h]; simp⟩
  | mapperEnd sid map attempt n r =>
    simp only [request, mapperEnd]
    split
    · exact same _ rfl rfl
    · split
      · exact same _ rfl rfl
      · split
        · exact same _ rfl rfl
        · split
          · exact same _ rfl rfl
          · split
            · exact same _ rfl rfl
            · split
              · exact same _ rfl rfl
              · split <;> exact same _ rfl rfl
  | unregister sid r =>
    simp only [request, unregister]
    split <;> exact same _ rfl rfl
  | report m r => exact same _ rfl rfl
  | heartbeat =>
    simp only [request, heartbeat]
    split <;> exact same _ rfl rfl
  | stop r => exact same _ rfl rfl

/-- A registration is answered or waits for its shuffle. -/
theorem register_waits (s : State ρ) (sid : Int) (parts : List Int) (b : Bool) (m : Int) (r : ρ) :
    (∃ a, (r, a) ∈ (register s sid parts b m r).said) ∨
    ∃ rs, find (register s sid parts b m r).st.pendingSlots sid = some rs ∧ r ∈ rs := by
  simp only [register]
  split
  · exact .inl ⟨_, List.mem_cons_self⟩
  · split
    · exact .inr ⟨_, by rw [find_put, if_pos rfl], by simp⟩
    · split
      · exact .inl ⟨_, List.mem_cons_self⟩
      · exact .inr ⟨_, by rw [find_put, if_pos rfl], by simp⟩

/-- A report of a failed location is answered or waits for its partition. -/
theorem revive_waits (s : State ρ) (sid pid : Int) (old : Loc) (cause : Int) (r : ρ) :
    (∃ a, (r, a) ∈ (revive s sid pid old cause r).said) ∨
    ∃ rs, find (revive s sid pid old cause r).st.pendingRevives (sid, pid) = some rs ∧ r ∈ rs := by
  simp only [revive]
  split
  · exact .inl ⟨_, List.mem_cons_self⟩
  · split
    · exact .inl ⟨_, List.mem_cons_self⟩
    · split
      · exact .inl ⟨_, List.mem_cons_self⟩
      · split
        · exact .inl ⟨_, List.mem_cons_self⟩
        · split
          · exact .inl ⟨_, List.mem_cons_self⟩
          · split
            · exact .inr ⟨_, by rw [find_put, if_pos rfl], by simp⟩
            · exact .inr ⟨_, by rw [find_put, if_pos rfl], by simp⟩

/-- The end of a task answers those who waited for it and leaves the others waiting. -/
theorem done_pend (s : State ρ) (d : Done ρ) :
    (∀ sid rs, find s.pendingSlots sid = some rs →
      find (done s d).st.pendingSlots sid = some rs ∨ ∀ r ∈ rs, ∃ a, (r, a) ∈ (done s d).said) ∧
    (∀ key rs, find s.pendingRevives key = some rs →
      find (done s d).st.pendingRevives key = some rs ∨ ∀ r ∈ rs, ∃ a, (r, a) ∈ (done s d).said) := by
  have same : ∀ e : Effect ρ, e.st.pendingSlots = s.pendingSlots →
      e.st.pendingRevives = s.pendingRevives →
      (∀ sid rs, find s.pendingSlots sid = some rs →
        find e.st.pendingSlots sid = some rs ∨ ∀ r ∈ rs, ∃ a, (r, a) ∈ e.said) ∧
      (∀ key rs, find s.pendingRevives key = some rs →
        find e.st.pendingRevives key = some rs ∨ ∀ r ∈ rs, ∃ a, (r, a) ∈ e.said) := by
    intro e h1 h2
    exact ⟨fun sid rs h => .inl (by rw [h1, h]), fun key rs h => .inl (by rw [h2, h])⟩
  have slots : ∀ (sid : Int) (e : Effect ρ) (a : Answer),
      e.st.pendingSlots = erase s.pendingSlots sid → e.st.pendingRevives = s.pendingRevives →
      e.said = ((find s.pendingSlots sid).getD []).map (fun r => (r, a)) →
      (∀ sid rs, find s.pendingSlots sid = some rs →
        find e.st.pendingSlots sid = some rs ∨ ∀ r ∈ rs, ∃ a, (r, a) ∈ e.said) ∧
      (∀ key rs, find s.pendingRevives key = some rs →
        find e.st.pendingRevives key = some rs ∨ ∀ r ∈ rs, ∃ a, (r, a) ∈ e.said) := by
    intro sid e a h1 h2 h3
    refine ⟨fun k rs h => ?_, fun key rs h => .inl (by rw [h2, h])⟩
    by_cases hk : sid = k
    · subst hk
      refine .inr fun r hr => ⟨a, ?_⟩
      rw [h3, h]
      exact List.mem_map.2 ⟨r, hr, rfl⟩
    · exact .inl (by rw [h1, find_erase, if_neg hk, h])
  have revives : ∀ (kk : Int × Int) (e : Effect ρ) (a : Answer),
      e.st.pendingRevives = erase s.pendingRevives kk → e.st.pendingSlots = s.pendingSlots →
      e.said = ((find s.pendingRevives kk).getD []).map (fun r => (r, a)) →
      (∀ sid rs, find s.pendingSlots sid = some rs →
        find e.st.pendingSlots sid = some rs ∨ ∀ r ∈ rs, ∃ a, (r, a) ∈ e.said) ∧
      (∀ key rs, find s.pendingRevives key = some rs →
        find e.st.pendingRevives key = some rs ∨ ∀ r ∈ rs, ∃ a, (r, a) ∈ e.said) := by
    intro kk e a h1 h2 h3
    refine ⟨fun k rs h => .inl (by rw [h2, h]), fun k rs h => ?_⟩
    by_cases hk : kk = k
    · subst hk
      refine .inr fun r hr => ⟨a, ?_⟩
      rw [h3, h]
      exact List.mem_map.2 ⟨r, hr, rfl⟩
    · exact .inl (by rw [h1, find_erase, if_neg hk, h])
  cases d with
  | registered sid res =>
    simp only [done, registerDone]
    split <;> exact slots sid _ _ rfl rfl rfl
  | revived sid pid res =>
    simp only [done, reviveDone]
    split
    · exact revives (sid, pid) _ _ rfl rfl rfl
    · split
      · exact revives (sid, pid) _ _ rfl rfl rfl
      · split <;> exact revives (sid, pid) _ _ rfl rfl rfl
  | committed sid res r => simp only [done, mapperEndDone]; split <;> exact same _ rfl rfl
  | unregistered sid res r => simp only [done, unregisterDone]; split <;> exact same _ rfl rfl
  | heartbeat res =>
    simp only [done, heartbeatDone]
    split
    · split <;> exact same _ rfl rfl
    · exact same _ rfl rfl
  | stopped r => exact same _ rfl rfl

/-- Those who registered a shuffle, or reported a location, were answered or wait. -/
def Waits (evs : List (Event ρ)) (w : World ρ) : Prop :=
  w.stopped = false →
  (∀ sid parts b m r, Event.ask (.register sid parts b m r) ∈ evs →
    (∃ a, (r, a) ∈ w.said) ∨ ∃ rs, find w.st.pendingSlots sid = some rs ∧ r ∈ rs) ∧
  (∀ sid pid old cause r, Event.ask (.revive sid pid old cause r) ∈ evs →
    (∃ a, (r, a) ∈ w.said) ∨ ∃ rs, find w.st.pendingRevives (sid, pid) = some rs ∧ r ∈ rs)

theorem Waits.step {evs : List (Event ρ)} {w : World ρ} (h : Waits evs w) (e : Event ρ) :
    Waits (evs ++ [e]) (w.step e) := by
  cases e with
  | ask q =>
    intro hs
    simp only [World.step] at hs ⊢
    cases hw : w.stopped with
    | true => simp [hw] at hs
    | false =>
      obtain ⟨h1, h2⟩ := h hw
      obtain ⟨p1, p2⟩ := request_pend w.st q
      simp only [Bool.false_eq_true, if_false]
      constructor
      · intro sid parts b m r hm
        rcases List.mem_append.1 hm with hm | hm
        · rcases h1 sid parts b m r hm with ⟨a, ha⟩ | ⟨rs, hf, hr⟩
          · exact .inl ⟨a, List.mem_append_left _ ha⟩
          · obtain ⟨more, hmore⟩ := p1 sid rs hf
            exact .inr ⟨_, hmore, List.mem_append_left _ hr⟩
        · have hq : q = .register sid parts b m r := by simpa using (List.mem_singleton.1 hm).symm
          subst hq
          rcases register_waits w.st sid parts b m r with ⟨a, ha⟩ | ⟨rs, hf, hr⟩
          · exact .inl ⟨a, List.mem_append_right _ ha⟩
          · exact .inr ⟨rs, hf, hr⟩
      · intro sid pid old cause r hm
        rcases List.mem_append.1 hm with hm | hm
        · rcases h2 sid pid old cause r hm with ⟨a, ha⟩ | ⟨rs, hf, hr⟩
          · exact .inl ⟨a, List.mem_append_left _ ha⟩
          · obtain ⟨more, hmore⟩ := p2 _ rs hf
            exact .inr ⟨_, hmore, List.mem_append_left _ hr⟩
        · have hq : q = .revive sid pid old cause r := by simpa using (List.mem_singleton.1 hm).symm
          subst hq
          rcases revive_waits w.st sid pid old cause r with ⟨a, ha⟩ | ⟨rs, hf, hr⟩
          · exact .inl ⟨a, List.mem_append_right _ ha⟩
          · exact .inr ⟨rs, hf, hr⟩
  | finish i a =>
    have base : Waits (evs ++ [.finish i a]) w := by
      intro hw
      obtain ⟨h1, h2⟩ := h hw
      constructor
      · intro sid parts b m r hm
        rcases List.mem_append.1 hm with hm | hm
        · exact h1 sid parts b m r hm
        · simp at hm
      · intro sid pid old cause r hm
        rcases List.mem_append.1 hm with hm | hm
        · exact h2 sid pid old cause r hm
        · simp at hm
    refine step_cases (P := Waits (evs ++ [.finish i a])) w (.finish i a) base (fun q hq _ => nomatch hq) ?_
    intro i' t a' d _ _ _
    refine handle_cases (P := Waits (evs ++ [.finish i a]))
      ({ w with tasks := w.tasks.eraseIdx i', ended := w.ended ++ [(t, a')] }) d base ?_
    intro x b _ hw _
    obtain ⟨h1, h2⟩ := base hw
    obtain ⟨p1, p2⟩ := done_pend w.st x
    constructor
    · intro sid parts b m r hm
      rcases h1 sid parts b m r hm with ⟨a, ha⟩ | ⟨rs, hf, hr⟩
      · exact .inl ⟨a, List.mem_append_left _ ha⟩
      · rcases p1 sid rs hf with hf' | hall
        · exact .inr ⟨rs, hf', hr⟩
        · obtain ⟨a, ha⟩ := hall r hr
          exact .inl ⟨a, List.mem_append_right _ ha⟩
    · intro sid pid old cause r hm
      rcases h2 sid pid old cause r hm with ⟨a, ha⟩ | ⟨rs, hf, hr⟩
      · exact .inl ⟨a, List.mem_append_left _ ha⟩
      · rcases p2 _ rs hf with hf' | hall
        · exact .inr ⟨rs, hf', hr⟩
        · obtain ⟨a, ha⟩ := hall r hr
          exact .inl ⟨a, List.mem_append_right _ ha⟩

theorem Waits.run {evs : List (Event ρ)} {w : World ρ} (h : Waits evs w) (more : List (Event ρ)) :
    Waits (evs ++ more) (w.run more) := by
  induction more generalizing evs w with
  | nil => simpa [World.run] using h
  | cons e more ih =>
    have := ih (h.step e)
    simpa [World.run, List.append_assoc] using this

theorem Waits.init (reg : Registration) : Waits [] (World.init ρ reg) :=
  fun _ => ⟨by simp, by simp⟩

end Verif.Celeborn
