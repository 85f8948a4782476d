import Verif.Celeborn.AnswerLemmas

/-!
# Lemmas: replacements of partition locations
-/

namespace Verif.Celeborn

open Verif.Catalog (find erase put Distinct find_put find_erase mem_of_find find_of_mem)

variable {ρ : Type}

/-- What the cluster grants: for every partition a location of that partition, of epoch
zero. -/
def Spec.Grants (res : Reservation) : Prop := ∀ p ∈ res.primary, p.2.id = p.1 ∧ p.2.epoch = 0

/-- All reservations in a list of events are of that kind. -/
def Spec.AllGrant (evs : List (Event ρ)) : Prop :=
  ∀ i res, Event.finish i (.reserved res) ∈ evs → Spec.Grants res

/-- The location of a partition that the actor hands out at present. -/
def State.current (s : State ρ) (sid pid : Int) : Option Loc :=
  (find s.reservations sid).bind fun res => find res.primary pid

structure Rev (key : ρ → Int × Int) (old : ρ → Int) (w : World ρ) : Prop where
  cur : ∀ sid pid l, w.st.current sid pid = some l → l.id = pid ∧ 0 ≤ l.epoch
  task : ∀ sid pid b ex e, Task.revive sid pid b ex e ∈ w.tasks →
    0 ≤ e ∧ ∀ l, w.st.current sid pid = some l → l.epoch ≤ e
  wait : ∀ k rs, find w.st.pendingRevives k = some rs → ∀ r ∈ rs, key r = k ∧
    ∀ b ex e, Task.revive k.1 k.2 b ex e ∈ w.tasks → old r ≤ e
  said : ∀ r l, (r, Answer.loc (.ok l)) ∈ w.said → old r < l.epoch ∧ l.id = (key r).2

theorem Rev.init (key : ρ → Int × Int) (old : ρ → Int) (reg : Registration) :
    Rev key old (World.init ρ reg) :=
  ⟨by simp [World.init, State.init, State.current, find], by simp [World.init],
    by simp [World.init, State.init, find], by simp [World.init]⟩

/-- Nothing that matters here changes. -/
theorem Rev.frame {key : ρ → Int × Int} {old : ρ → Int} {w : World ρ} (h : Rev key old w)
    (e : Effect ρ) (hr : ∀ sid pid, e.st.current sid pid = w.st.current sid pid)
    (hp : e.st.pendingRevives = w.st.pendingRevives)
    (ht : ∀ sid pid b ex ep, Task.revive sid pid b ex ep ∉ e.tasks)
    (hs : ∀ r l, (r, Answer.loc (.ok l)) ∉ e.said) : Rev key old (w.apply e) := by
  have tk : ∀ sid pid b ex ep, Task.revive sid pid b ex ep ∈ (w.apply e).tasks →
      Task.revive sid pid b ex ep ∈ w.tasks := by
    intro sid pid b ex ep hm
    rcases List.mem_append.1 hm with hm | hm
    · exact hm
    · exact absurd hm (ht _ _ _ _ _)
  refine ⟨?_, ?_, ?_, ?_⟩
  · intro sid pid l hl
    exact h.cur sid pid l (by rw [← hr]; exact hl)
  · intro sid pid b ex ep hm
    obtain ⟨h1, h2⟩ := h.task sid pid b ex ep (tk _ _ _ _ _ hm)
    exact ⟨h1, fun l hl => h2 l (by rw [← hr]; exact hl)⟩
  · intro k rs hf r hr'
    have hf' : find e.st.pendingRevives k = some rs := hf
    rw [hp] at hf'
    obtain ⟨h1, h2⟩ := h.wait k rs hf' r hr'
    exact ⟨h1, fun b ex ep hm => h2 b ex ep (tk _ _ _ _ _ hm)⟩
  · intro r l hm
    rcases List.mem_append.1 hm with hm | hm
    · exact h.said r l hm
    · exact absurd hm (hs r l)

theorem Rev.ask {key : ρ → Int × Int} {old : ρ → Int} {w : World ρ} (h : Rev key old w)
    (q : Request ρ)
    (hk : ∀ sid pid o c r, q = .revive sid pid o c r → key r = (sid, pid) ∧ old r = o.epoch) :
    Rev key old (w.apply (request w.st q)) := by
  cases q with
  | getId job stage r =>
    simp only [request, getId]
    split
    · exact h.frame _ (fun _ _ => rfl) rfl (by simp) (by simp)
    · split <;> exact h.frame _ (fun _ _ => rfl) rfl (by simp) (by simp)
  | jobIds job r => exact h.frame _ (fun _ _ => rfl) rfl (by simp [request, jobIds]) (by simp [request, jobIds])
  | register sid parts b m r =>
    simp only [request, register]
    split
    · exact h.frame _ (fun _ _ => rfl) rfl (by simp) (by simp)
    · split
      · exact h.frame _ (fun _ _ => rfl) rfl (by simp) (by simp)
      · split <;> exact h.frame _ (fun _ _ => rfl) rfl (by simp) (by simp)
  | revive sid pid o c r =>
    obtain ⟨hkey, hold⟩ := hk sid pid o c r rfl
    simp only [request, revive]
    split
    · exact h.frame _ (fun _ _ => rfl) rfl (by simp) (by simp)
    · split
      · exact h.frame _ (fun _ _ => rfl) rfl (by simp) (by simp)
      · split
        · exact h.frame _ (fun _ _ => rfl) rfl (by simp) (by simp)
        · rename_i cur hcur
          have hc : w.st.current sid pid = some cur := hcur
          split
          · rename_i hgt
            refine ⟨h.cur, fun sid pid b ex e hm => h.task sid pid b ex e (by simpa [World.apply] using hm),
              ?_, ?_⟩
            · intro k rs hf r' hr'
              obtain ⟨h1, h2⟩ := h.wait k rs hf r' hr'
              exact ⟨h1, fun b ex ep hm => h2 b ex ep (by simpa [World.apply] using hm)⟩
            · intro r' l hm
              rcases List.mem_append.1 hm with hm | hm
              · exact h.said r' l hm
              · simp at hm
                obtain ⟨rfl, rfl⟩ := hm
                rw [hkey, hold]
                exact ⟨hgt, (h.cur sid pid l hc).1⟩
          · split
            · exact h.frame _ (fun _ _ => rfl) rfl (by simp) (by simp)
            · rename_i hne
              have heq : cur.epoch = o.epoch := Decidable.byContradiction hne
              split
              · rename_i rs hf
                refine ⟨h.cur, fun sid pid b ex e hm => h.task sid pid b ex e (by simpa [World.apply] using hm),
                  ?_, fun r' l hm => h.said r' l (by simpa [World.apply] using hm)⟩
                intro k rs' hf' r' hr'
                have hf2 : find (put w.st.pendingRevives (sid, pid) (rs ++ [r])) k = some rs' := hf'
                rw [find_put] at hf2
                split at hf2
                · rename_i hkk
                  subst hkk
                  cases hf2
                  rcases List.mem_append.1 hr' with hr' | hr'
                  · obtain ⟨h1, h2⟩ := h.wait _ rs hf r' hr'
                    exact ⟨h1, fun b ex ep hm => h2 b ex ep (by simpa [World.apply] using hm)⟩
                  · simp at hr'
                    subst hr'
                    refine ⟨hkey, fun b ex ep hm => ?_⟩
                    have := (h.task sid pid b ex ep (by simpa [World.apply] using hm)).2 cur hc
                    omega
                · obtain ⟨h1, h2⟩ := h.wait k rs' hf2 r' hr'
                  exact ⟨h1, fun b ex ep hm => h2 b ex ep (by simpa [World.apply] using hm)⟩
              · rename_i hf
                have tk : ∀ sid' pid' b ex ep, Task.revive sid' pid' b ex ep ∈
                    w.tasks ++ [Task.revive sid pid cur.peer.isSome
                      ((exclude w.st.excluded o c).map (·.2)) cur.epoch] →
                    Task.revive sid' pid' b ex ep ∈ w.tasks ∨
                      (sid' = sid ∧ pid' = pid ∧ ep = cur.epoch) := by
                  intro sid' pid' b ex ep hm
                  rcases List.mem_append.1 hm with hm | hm
                  · exact .inl hm
                  · simp at hm
                    exact .inr ⟨hm.1, hm.2.1, hm.2.2.2.2⟩
                refine ⟨h.cur, ?_, ?_, fun r' l hm => h.said r' l (by simpa [World.apply] using hm)⟩
                · intro sid' pid' b ex ep hm
                  rcases tk _ _ _ _ _ hm with hm | ⟨rfl, rfl, rfl⟩
                  · exact h.task sid' pid' b ex ep hm
                  · refine ⟨(h.cur _ _ cur hc).2, fun l hl => ?_⟩
                    have hl' : w.st.current sid' pid' = some l := hl
                    rw [hc] at hl'
                    cases hl'
                    exact Int.le_refl _
                · intro k rs' hf' r' hr'
                  have hf2 : find (put w.st.pendingRevives (sid, pid) [r]) k = some rs' := hf'
                  rw [find_put] at hf2
                  split at hf2
                  · rename_i hkk
                    subst hkk
                    cases hf2
                    simp at hr'
                    subst hr'
                    refine ⟨hkey, fun b ex ep hm => ?_⟩
                    rcases tk _ _ _ _ _ hm with hm | ⟨_, _, rfl⟩
                    · have := (h.task sid pid b ex ep hm).2 cur hc
                      omega
                    · omega
                  · rename_i hkk
                    obtain ⟨h1, h2⟩ := h.wait k rs' hf2 r' hr'
                    refine ⟨h1, fun b ex ep hm => ?_⟩
                    rcases tk _ _ _ _ _ hm with hm | ⟨h3, h4, _⟩
                    · exact h2 b ex ep hm
                    · exact absurd (by rw [← h3, ← h4]) hkk
  | mapperEnd sid map attempt n r =>
    simp only [request, mapperEnd]
    split
    · exact h.frame _ (fun _ _ => rfl) rfl (by simp) (by simp)
    · split
      · exact h.frame _ (fun _ _ => rfl) rfl (by simp) (by simp)
      · split
        · exact h.frame _ (fun _ _ => rfl) rfl (by simp) (by simp)
        · split
          · exact h.frame _ (fun _ _ => rfl) rfl (by simp) (by simp)
          · split
            · exact h.frame _ (fun _ _ => rfl) rfl (by simp) (by simp)
            · split
              · exact h.frame _ (fun _ _ => rfl) rfl (by simp) (by simp)
              · split <;> exact h.frame _ (fun _ _ => rfl) rfl (by simp) (by simp)
  | unregister sid r =>
    simp only [request, unregister]
    split <;> exact h.frame _ (fun _ _ => rfl) rfl (by simp) (by simp)
  | report m r => exact h.frame _ (fun _ _ => rfl) rfl (by simp [request, report]) (by simp [request, report])
  | heartbeat =>
    simp only [request, heartbeat]
    split <;> exact h.frame _ (fun _ _ => rfl) rfl (by simp) (by simp)
  | stop r => exact h.frame _ (fun _ _ => rfl) rfl (by simp [request, stop]) (by simp [request, stop])

/-- Where a message that a partition was revived comes from. -/
theorem finish_revived {t : Task ρ} {a : Remote} {sid pid : Int} {x : Except Err Reservation}
    (h : finish t a = some (some (.revived sid pid x))) :
    ∃ b ex e, t = .revive sid pid b ex e ∧
      (x = .error .remote ∨ ∃ res, a = .reserved res ∧ e ≠ maxI32 ∧ x = .ok (res.withEpoch (e + 1))) := by
  cases t <;> cases a <;> simp [finish] at h
  · obtain ⟨rfl, rfl, rfl⟩ := h
    exact ⟨_, _, _, rfl, .inl rfl⟩
  · split at h
    · simp at h
      obtain ⟨rfl, rfl, rfl⟩ := h
      exact ⟨_, _, _, rfl, .inl rfl⟩
    · rename_i hne
      simp at h
      obtain ⟨rfl, rfl, rfl⟩ := h
      exact ⟨_, _, _, rfl, .inr ⟨_, rfl, hne, rfl⟩⟩

theorem finish_registered {t : Task ρ} {a : Remote} {sid : Int} {res : Reservation}
    (h : finish t a = some (some (.registered sid (.ok res)))) :
    (∃ ps b m, t = .slots sid ps b m) ∧ a = .reserved res := by
  cases t <;> cases a <;> simp [finish] at h
  · obtain ⟨rfl, rfl⟩ := h
    exact ⟨⟨_, _, _, rfl⟩, rfl⟩
  · split at h <;> simp at h

theorem find_map_epoch (m : List (Int × Loc)) (e : Int) (k : Int) :
    find (m.map fun p => (p.1, p.2.setEpoch e)) k = (find m k).map (·.setEpoch e) := by
  induction m with
  | nil => rfl
  | cons x m ih =>
    obtain ⟨a, v⟩ := x
    simp only [List.map_cons, find]
    split
    · rfl
    · exact ih

theorem Rev.handle {key : ρ → Int × Int} {old : ρ → Int} {w : World ρ} (h : Rev key old w)
    (x : Done ρ) (b0 : Bool)
    (none' : ∀ sid pid y, x = .revived sid pid y → ∀ b ex e, Task.revive sid pid b ex e ∉ w.tasks)
    (ep : ∀ sid pid rep, x = .revived sid pid (.ok rep) → ∃ e,
      (∀ p ∈ rep.primary, p.2.id = p.1 ∧ p.2.epoch = e + 1) ∧ 0 ≤ e ∧
      ∀ rs, find w.st.pendingRevives (sid, pid) = some rs → ∀ r ∈ rs, old r ≤ e)
    (gr : ∀ sid res, x = .registered sid (.ok res) → Spec.Grants res) :
    Rev key old { w.apply (done w.st x) with stopped := b0 } := by
  suffices hh : Rev key old (w.apply (done w.st x)) from ⟨hh.cur, hh.task, hh.wait, hh.said⟩
  cases x with
  | registered sid res =>
    simp only [done, registerDone]
    split
    · rename_i res
      have hg := gr sid res rfl
      have hcur : ∀ sid' pid' l, (find (put w.st.reservations sid res) sid').bind
          (fun res => find res.primary pid') = some l →
          (l.id = pid' ∧ l.epoch = 0) ∨ w.st.current sid' pid' = some l := by
        intro sid' pid' l hl
        rw [find_put] at hl
        split at hl
        · exact .inl (hg _ (mem_of_find hl))
        · exact .inr hl
      have tk : ∀ t, t ∈ w.tasks ++ [] → t ∈ w.tasks := by simp
      refine ⟨?_, ?_, ?_, ?_⟩
      · intro sid' pid' l hl
        rcases hcur sid' pid' l hl with ⟨h1, h2⟩ | hl
        · exact ⟨h1, by omega⟩
        · exact h.cur sid' pid' l hl
      · intro sid' pid' b ex e hm
        obtain ⟨h1, h2⟩ := h.task sid' pid' b ex e (tk _ hm)
        refine ⟨h1, fun l hl => ?_⟩
        rcases hcur sid' pid' l hl with ⟨_, h3⟩ | hl
        · omega
        · exact h2 l hl
      · intro k rs hf r hr
        obtain ⟨h1, h2⟩ := h.wait k rs hf r hr
        exact ⟨h1, fun b ex e hm => h2 b ex e (tk _ hm)⟩
      · intro r l hm
        rcases List.mem_append.1 hm with hm | hm
        · exact h.said r l hm
        · simp at hm
    · exact h.frame _ (fun _ _ => rfl) rfl (by simp) (by simp)
  | revived sid pid res =>
    have no := none' sid pid res rfl
    -- callers who still wait
    have wt : ∀ k rs, find (erase w.st.pendingRevives (sid, pid)) k = some rs →
        find w.st.pendingRevives k = some rs := by
      intro k rs hf
      rw [find_erase] at hf
      split at hf
      · exact nomatch hf
      · exact hf
    have quiet : ∀ (e : Effect ρ), (∀ s p, e.st.current s p = w.st.current s p) →
        e.st.pendingRevives = erase w.st.pendingRevives (sid, pid) →
        (∀ s p b ex ep, Task.revive s p b ex ep ∉ e.tasks) →
        (∀ r l, (r, Answer.loc (.ok l)) ∉ e.said) → Rev key old (w.apply e) := by
      intro e h1 h2 h3 h4
      have tk : ∀ s p b ex ep, Task.revive s p b ex ep ∈ (w.apply e).tasks →
          Task.revive s p b ex ep ∈ w.tasks := by
        intro s p b ex ep hm
        rcases List.mem_append.1 hm with hm | hm
        · exact hm
        · exact absurd hm (h3 _ _ _ _ _)
      refine ⟨fun s p l hl => h.cur s p l (by rw [← h1]; exact hl), ?_, ?_, ?_⟩
      · intro s p b ex ep hm
        obtain ⟨g1, g2⟩ := h.task s p b ex ep (tk _ _ _ _ _ hm)
        exact ⟨g1, fun l hl => g2 l (by rw [← h1]; exact hl)⟩
      · intro k rs hf r hr
        have hf' : find e.st.pendingRevives k = some rs := hf
        rw [h2] at hf'
        obtain ⟨g1, g2⟩ := h.wait k rs (wt k rs hf') r hr
        exact ⟨g1, fun b ex ep hm => g2 b ex ep (tk _ _ _ _ _ hm)⟩
      · intro r l hm
        rcases List.mem_append.1 hm with hm | hm
        · exact h.said r l hm
        · exact absurd hm (h4 r l)
    simp only [done, reviveDone]
    split
    · exact quiet _ (fun _ _ => rfl) rfl (by simp) (by simp)
    · rename_i rep
      split
      · exact quiet _ (fun _ _ => rfl) rfl (by simp) (by simp)
      · rename_i l hl
        split
        · exact quiet _ (fun _ _ => rfl) rfl (by simp) (by simp)
        · rename_i res0 hres
          obtain ⟨e, he, he0, hold⟩ := ep sid pid rep rfl
          obtain ⟨hid, hep⟩ := he _ (mem_of_find hl)
          simp only at hid hep
          have hcur : ∀ s p l', (find (put w.st.reservations sid
              { res0 with
                primary := put res0.primary pid l
                slots := mergeSlots res0.slots rep.slots
                workers := (res0.workers ++ rep.workers).eraseDups }) s).bind
              (fun res => find res.primary p) = some l' →
              (s = sid ∧ p = pid ∧ l' = l) ∨ w.st.current s p = some l' := by
            intro s p l' hl'
            rw [find_put] at hl'
            split at hl'
            · rename_i hs
              subst hs
              simp only [Option.bind_some, find_put] at hl'
              split at hl'
              · rename_i hp
                cases hl'
                exact .inl ⟨rfl, hp.symm, rfl⟩
              · right
                simp only [State.current, hres, Option.bind_some]
                exact hl'
            · exact .inr hl'
          have tk : ∀ t, t ∈ w.tasks ++ [] → t ∈ w.tasks := by simp
          refine ⟨?_, ?_, ?_, ?_⟩
          · intro s p l' hl'
            rcases hcur s p l' hl' with ⟨_, rfl, rfl⟩ | hl'
            · exact ⟨hid, by omega⟩
            · exact h.cur s p l' hl'
          · intro s p b ex ep' hm
            obtain ⟨g1, g2⟩ := h.task s p b ex ep' (tk _ hm)
            refine ⟨g1, fun l' hl' => ?_⟩
            rcases hcur s p l' hl' with ⟨rfl, rfl, _⟩ | hl'
            · exact absurd (tk _ hm) (no b ex ep')
            · exact g2 l' hl'
          · intro k rs hf r hr
            obtain ⟨g1, g2⟩ := h.wait k rs (wt k rs hf) r hr
            exact ⟨g1, fun b ex ep' hm => g2 b ex ep' (tk _ hm)⟩
          · intro r l' hm
            rcases List.mem_append.1 hm with hm | hm
            · exact h.said r l' hm
            · obtain ⟨r', hr', heq⟩ := List.mem_map.1 hm
              cases heq
              cases hf : find w.st.pendingRevives (sid, pid) with
              | none => rw [hf] at hr'; simp at hr'
              | some rs =>
                rw [hf] at hr'
                have hr2 : r ∈ rs := hr'
                have h1 := hold rs hf r hr2
                have h2 := (h.wait _ rs hf r hr2).1
                rw [h2]
                exact ⟨by omega, hid⟩
  | committed sid res r =>
    simp only [done, mapperEndDone]
    split <;> exact h.frame _ (fun _ _ => rfl) rfl (by simp) (by simp)
  | unregistered sid res r =>
    simp only [done, unregisterDone]
    split
    · have hcur : ∀ s p l, (find (erase w.st.reservations sid) s).bind
          (fun res => find res.primary p) = some l → w.st.current s p = some l := by
        intro s p l hl
        rw [find_erase] at hl
        split at hl
        · exact nomatch hl
        · exact hl
      refine ⟨fun s p l hl => h.cur s p l (hcur s p l hl), ?_, ?_, ?_⟩
      · intro s p b ex e hm
        obtain ⟨g1, g2⟩ := h.task s p b ex e (by simpa [World.apply] using hm)
        exact ⟨g1, fun l hl => g2 l (hcur s p l hl)⟩
      · intro k rs hf r hr
        obtain ⟨g1, g2⟩ := h.wait k rs hf r hr
        exact ⟨g1, fun b ex e hm => g2 b ex e (by simpa [World.apply] using hm)⟩
      · intro r l hm
        rcases List.mem_append.1 hm with hm | hm
        · exact h.said r l hm
        · simp at hm
    · exact h.frame _ (fun _ _ => rfl) rfl (by simp) (by simp)
  | heartbeat res =>
    simp only [done, heartbeatDone]
    split
    · split <;> exact h.frame _ (fun _ _ => rfl) rfl (by simp) (by simp)
    · exact h.frame _ (fun _ _ => rfl) rfl (by simp) (by simp)
  | stopped r => exact h.frame _ (fun _ _ => rfl) rfl (by simp [done]) (by simp [done])

/-- The invariants together, for the induction. -/
theorem Rev.step {A : List ρ} [DecidableEq ρ] {key : ρ → Int × Int} {old : ρ → Int} {w : World ρ}
    (h : Rev key old w) (bal : Balance A w) (e : Event ρ)
    (hk : ∀ sid pid o c r, e = .ask (.revive sid pid o c r) → key r = (sid, pid) ∧ old r = o.epoch)
    (hg : ∀ i res, e = .finish i (.reserved res) → Spec.Grants res) : Rev key old (w.step e) := by
  refine step_cases w e h ?_ ?_
  · intro q hq _
    exact h.ask q fun sid pid o c r hh => hk sid pid o c r (by rw [hq, hh])
  · intro i t a d he ht hf
    have h' : Rev key old { w with tasks := w.tasks.eraseIdx i, ended := w.ended ++ [(t, a)] } := by
      refine ⟨h.cur, fun s p b ex ep hm => h.task s p b ex ep (mem_of_eraseIdx hm), ?_, h.said⟩
      intro k rs hf r hr
      obtain ⟨g1, g2⟩ := h.wait k rs hf r hr
      exact ⟨g1, fun b ex ep hm => g2 b ex ep (mem_of_eraseIdx hm)⟩
    refine handle_cases _ d h' ?_
    rintro x b0 rfl hs
    have hs' : w.stopped = false := hs
    refine Rev.handle h' x b0 ?_ ?_ ?_
    · rintro sid pid y rfl b ex e' hm
      obtain ⟨b1, ex1, e1, rfl, _⟩ := finish_revived hf
      have hc := (eraseIdx_perm ht).countP_eq (Task.isRevive sid pid)
      rw [List.countP_cons, bal.revives hs' sid pid] at hc
      have h1 : 0 < (w.tasks.eraseIdx i).countP (Task.isRevive sid pid) :=
        List.countP_pos_iff.2 ⟨_, hm, by simp [Task.isRevive]⟩
      have h2 : one (find w.st.pendingRevives (sid, pid)).isSome ≤ 1 := by
        simp only [one]; split <;> omega
      have h3 : Task.isRevive sid pid (Task.revive sid pid b1 ex1 e1 : Task ρ) = true := by
        simp [Task.isRevive]
      rw [h3, if_pos rfl] at hc
      omega
    · rintro sid pid rep rfl
      obtain ⟨b1, ex1, e1, rfl, hx | ⟨res, rfl, hne, hx⟩⟩ := finish_revived hf
      · exact nomatch hx
      · cases hx
        have hgr := hg i res he
        have htk := List.mem_of_getElem? ht
        refine ⟨e1, ?_, (h.task sid pid b1 ex1 e1 htk).1, ?_⟩
        · intro p hp
          obtain ⟨p0, hp0, rfl⟩ := List.mem_map.1 hp
          exact ⟨(hgr p0 hp0).1, rfl⟩
        · intro rs hfi r hr
          exact (h.wait _ rs hfi r hr).2 b1 ex1 e1 htk
    · rintro sid res rfl
      obtain ⟨_, rfl⟩ := finish_registered hf
      exact hg i res he

theorem Rev.run [DecidableEq ρ] {key : ρ → Int × Int} {old : ρ → Int} (reg : Registration)
    (evs : List (Event ρ))
    (hk : ∀ sid pid o c r, .ask (.revive sid pid o c r) ∈ evs → key r = (sid, pid) ∧ old r = o.epoch)
    (hg : Spec.AllGrant evs) : Rev key old ((World.init ρ reg).run evs) := by
  have := run_inv (P := fun w => Rev key old w ∧ ∃ A, Balance A w) evs (World.init ρ reg)
    ⟨Rev.init key old reg, [], Balance.init reg⟩ ?_
  · exact this.1
  · rintro w e he ⟨h, A, bal⟩
    exact ⟨h.step bal e (fun s p o c r hh => hk s p o c r (hh ▸ he)) (fun i res hh => hg i res (hh ▸ he)),
      _, bal.step e⟩

/-! ## Excluded workers -/

/-- A worker that was reported as failing by a list of events. -/
def Spec.Reported (evs : List (Event ρ)) (worker : Nat) : Prop :=
  ∃ sid pid old cause r, Event.ask (.revive sid pid old cause r) ∈ evs ∧
    ((cause ∈ primaryCauses ∧ old.worker = worker) ∨ (cause ∈ replicaCauses ∧ old.peer = some worker))

theorem exclude_mem {ex : List (Nat × Loc)} {old : Loc} {cause : Int} {p : Nat × Loc}
    (h : p ∈ exclude ex old cause) :
    p ∈ ex ∨ (p.2.worker = p.1 ∧ ((cause ∈ primaryCauses ∧ old.worker = p.2.worker) ∨
      (cause ∈ replicaCauses ∧ old.peer = some p.2.worker))) := by
  simp only [exclude] at h
  split at h
  · rename_i hc
    split at h
    · exact .inl h
    · rcases List.mem_cons.1 h with rfl | h
      · exact .inr ⟨rfl, .inl ⟨hc, rfl⟩⟩
      · exact .inl (List.mem_filter.1 h).1
  · split at h
    · rename_i hc
      split at h
      · exact .inl h
      · rename_i w hw
        split at h
        · exact .inl h
        · rcases List.mem_cons.1 h with rfl | h
          · exact .inr ⟨rfl, .inr ⟨hc, hw⟩⟩
          · exact .inl (List.mem_filter.1 h).1
    · exact .inl h

theorem exclude_keep {ex : List (Nat × Loc)} (old : Loc) (cause : Int) {p : Nat × Loc} (h : p ∈ ex) :
    p ∈ exclude ex old cause := by
  have aux : ∀ (k : Nat) (v : Loc), (find ex k).isSome = false → p ∈ put ex k v := by
    intro k v hn
    have hf : find ex k = none := by simpa using hn
    rw [put, erase_of_none hf]
    exact List.mem_cons_of_mem _ h
  simp only [exclude]
  split
  · split
    · exact h
    · rename_i hn
      exact aux _ _ (by simpa using hn)
  · split
    · split
      · exact h
      · split
        · exact h
        · rename_i hn
          exact aux _ _ (by simpa using hn)
    · exact h

theorem exclude_self {ex : List (Nat × Loc)} {old : Loc} {cause : Int} (hex : ∀ p ∈ ex, p.2.worker = p.1)
    {w : Nat} (h : (cause ∈ primaryCauses ∧ old.worker = w) ∨ (cause ∈ replicaCauses ∧ old.peer = some w)) :
    ∃ p ∈ exclude ex old cause, p.2.worker = w := by
  have dis : ∀ c ∈ replicaCauses, c ∉ primaryCauses := by decide
  rcases h with ⟨hc, rfl⟩ | ⟨hc, hw⟩
  · simp only [exclude, if_pos hc]
    split
    · rename_i hs
      obtain ⟨v, hv⟩ := Option.isSome_iff_exists.1 hs
      exact ⟨_, mem_of_find hv, hex _ (mem_of_find hv)⟩
    · exact ⟨_, List.mem_cons_self, rfl⟩
  · simp only [exclude, if_neg (dis _ hc), if_pos hc, hw]
    split
    · rename_i hs
      obtain ⟨v, hv⟩ := Option.isSome_iff_exists.1 hs
      exact ⟨_, mem_of_find hv, hex _ (mem_of_find hv)⟩
    · exact ⟨_, List.mem_cons_self, rfl⟩

/-- Requests change the excluded workers only when a location is reported. -/
theorem request_excluded (s : State ρ) (q : Request ρ) :
    ((request s q).st.excluded = s.excluded ∧
      ∀ sid pid b ex e, Task.revive sid pid b ex e ∉ (request s q).tasks) ∨
    ∃ sid pid old cause r, q = .revive sid pid old cause r ∧
      (request s q).st.excluded = exclude s.excluded old cause ∧
      ∀ sid pid b ex e, Task.revive sid pid b ex e ∈ (request s q).tasks →
        ex = (exclude s.excluded old cause).map (·.2) := by
  cases q with
  | getId job stage r =>
    simp only [request, getId]
    split
    · simp
    · split <;> simp
  | jobIds job r => simp [request, jobIds]
  | register sid parts b m r =>
    simp only [request, register]
    split
    · simp
    · split
      · simp
      · split <;> simp
  | revive sid pid old cause r =>
    simp only [request, revive]
    split
    · simp
    · split
      · simp
      · split
        · simp
        · split
          · simp
          · split
            · simp
            · split
              · exact .inr ⟨_, _, _, _, _, rfl, rfl, by simp⟩
              · refine .inr ⟨_, _, _, _, _, rfl, rfl, ?_⟩
                intro s' p' b ex e hm
                simp only [List.mem_singleton, Task.revive.injEq] at hm
                exact hm.2.2.2.1
  | mapperEnd sid map attempt n r =>
    left
    simp only [request, mapperEnd]
    split
    · exact ⟨rfl, by simp⟩
    · split
      · exact ⟨rfl, by simp⟩
      · split
        · exact ⟨rfl, by simp⟩
        · split
          · exact ⟨rfl, by simp⟩
          · split
            · exact ⟨rfl, by simp⟩
            · split
              · exact ⟨rfl, by simp⟩
              · split <;> exact ⟨rfl, by simp⟩
  | unregister sid r => simp only [request, unregister]; split <;> simp
  | report m r => simp [request, report]
  | heartbeat => simp only [request, heartbeat]; split <;> simp
  | stop r => simp [request, stop]

theorem done_excluded (s : State ρ) (d : Done ρ) : (done s d).st.excluded = s.excluded := by
  cases d with
  | registered sid res => simp only [done, registerDone]; split <;> rfl
  | revived sid pid res =>
    simp only [done, reviveDone]
    split
    · rfl
    · split
      · rfl
      · split <;> rfl
  | committed sid res r => simp only [done, mapperEndDone]; split <;> rfl
  | unregistered sid res r => simp only [done, unregisterDone]; split <;> rfl
  | heartbeat res =>
    simp only [done, heartbeatDone]
    split
    · split <;> rfl
    · rfl
  | stopped r => rfl

structure Excl (evs : List (Event ρ)) (w : World ρ) : Prop where
  self : ∀ p ∈ w.st.excluded, p.2.worker = p.1
  rep : ∀ p ∈ w.st.excluded, Spec.Reported evs p.2.worker
  task : ∀ sid pid b ex e, Task.revive sid pid b ex e ∈ w.tasks →
    ∀ l ∈ ex, Spec.Reported evs l.worker ∧ ∃ p ∈ w.st.excluded, p.2 = l

theorem Excl.init (reg : Registration) : Excl [] (World.init ρ reg) :=
  ⟨by simp [World.init, State.init], by simp [World.init, State.init], by simp [World.init]⟩

theorem Spec.Reported.mono {evs evs' : List (Event ρ)} {n : Nat} (h : Spec.Reported evs n)
    (hsub : ∀ e ∈ evs, e ∈ evs') : Spec.Reported evs' n := by
  obtain ⟨s, p, o, c, r, hm, hh⟩ := h
  exact ⟨s, p, o, c, r, hsub _ hm, hh⟩

theorem Excl.step {evs : List (Event ρ)} {w : World ρ} (h : Excl evs w) (e : Event ρ) :
    Excl (evs ++ [e]) (w.step e) := by
  have sub : ∀ x ∈ evs, x ∈ evs ++ [e] := fun x hx => List.mem_append_left _ hx
  have base : Excl (evs ++ [e]) w := ⟨h.self, fun p hp => (h.rep p hp).mono sub,
    fun s p b ex ep hm l hl => ⟨(h.task s p b ex ep hm l hl).1.mono sub, (h.task s p b ex ep hm l hl).2⟩⟩
  refine step_cases w e base ?_ ?_
  · intro q hq _
    rcases request_excluded w.st q with ⟨he, ht⟩ | ⟨sid, pid, old, cause, r, hqq, he, ht⟩
    · refine ⟨?_, ?_, ?_⟩
      · show ∀ p ∈ (request w.st q).st.excluded, _
        rw [he]; exact base.self
      · show ∀ p ∈ (request w.st q).st.excluded, _
        rw [he]; exact base.rep
      · intro s p b ex ep hm l hl
        rcases List.mem_append.1 hm with hm | hm
        · show _ ∧ ∃ p ∈ (request w.st q).st.excluded, _
          rw [he]; exact base.task s p b ex ep hm l hl
        · exact absurd hm (ht _ _ _ _ _)
    · subst hqq
      have rep : ∀ p ∈ exclude w.st.excluded old cause, p.2.worker = p.1 ∧
          Spec.Reported (evs ++ [e]) p.2.worker := by
        intro p hp
        rcases exclude_mem hp with hp | ⟨h1, h2⟩
        · exact ⟨base.self p hp, base.rep p hp⟩
        · exact ⟨h1, sid, pid, old, cause, r, by rw [← hq]; simp, h2⟩
      refine ⟨?_, ?_, ?_⟩
      · intro p hp
        have hp' : p ∈ (request w.st (.revive sid pid old cause r)).st.excluded := hp
        rw [he] at hp'
        exact (rep p hp').1
      · intro p hp
        have hp' : p ∈ (request w.st (.revive sid pid old cause r)).st.excluded := hp
        rw [he] at hp'
        exact (rep p hp').2
      · intro s p b ex ep hm l hl
        show _ ∧ ∃ p ∈ (request w.st (.revive sid pid old cause r)).st.excluded, _
        rw [he]
        rcases List.mem_append.1 hm with hm | hm
        · obtain ⟨h1, p', hp', h2⟩ := base.task s p b ex ep hm l hl
          exact ⟨h1, p', exclude_keep old cause hp', h2⟩
        · rw [ht _ _ _ _ _ hm] at hl
          obtain ⟨p', hp', rfl⟩ := List.mem_map.1 hl
          exact ⟨(rep p' hp').2, p', hp', rfl⟩
  · intro i t a d _ _ _
    refine handle_cases (P := Excl (evs ++ [e]))
      { w with tasks := w.tasks.eraseIdx i, ended := w.ended ++ [(t, a)] } d
      ⟨base.self, base.rep, fun s p b ex ep hm => base.task s p b ex ep (mem_of_eraseIdx hm)⟩ ?_
    intro x b0 _ _
    have he := done_excluded w.st x
    refine ⟨?_, ?_, ?_⟩
    · show ∀ p ∈ (done w.st x).st.excluded, _
      rw [he]; exact base.self
    · show ∀ p ∈ (done w.st x).st.excluded, _
      rw [he]; exact base.rep
    · intro s p b ex ep hm l hl
      show _ ∧ ∃ p ∈ (done w.st x).st.excluded, _
      rw [he]
      rcases List.mem_append.1 hm with hm | hm
      · exact base.task s p b ex ep (mem_of_eraseIdx hm) l hl
      · obtain ⟨_, hc⟩ := done_tasks _ _ _ hm
        exact nomatch hc

theorem Excl.run {evs : List (Event ρ)} {w : World ρ} (h : Excl evs w) (more : List (Event ρ)) :
    Excl (evs ++ more) (w.run more) := by
  induction more generalizing evs w with
  | nil => simpa [World.run] using h
  | cons e more ih =>
    have := ih (h.step e)
    simpa [World.run, List.append_assoc] using this

theorem excluded_mono (w : World ρ) (more : List (Event ρ)) :
    ∀ p ∈ w.st.excluded, p ∈ (w.run more).st.excluded := by
  intro p hp
  refine run_inv (P := fun v => p ∈ v.st.excluded) more w hp ?_
  intro w e _ h
  refine step_cases (P := fun v => p ∈ v.st.excluded) w e h ?_ ?_
  · intro q _ _
    show p ∈ (request w.st q).st.excluded
    rcases request_excluded w.st q with ⟨he, _⟩ | ⟨_, _, _, _, _, _, he, _⟩
    · rw [he]; exact h
    · rw [he]; exact exclude_keep _ _ h
  · intro i t a d _ _ _
    refine handle_cases (P := fun v => p ∈ v.st.excluded)
      { w with tasks := w.tasks.eraseIdx i, ended := w.ended ++ [(t, a)] } d h ?_
    intro x b _ _
    show p ∈ (done w.st x).st.excluded
    rw [done_excluded]; exact h

/-! ## Shuffles that nobody unregisters -/

theorem request_reservations (s : State ρ) (q : Request ρ) :
    (request s q).st.reservations = s.reservations ∧
    ∀ sid pid b ex e, Task.revive sid pid b ex e ∈ (request s q).tasks →
      (find s.reservations sid).isSome := by
  cases q with
  | getId job stage r =>
    simp only [request, getId]
    split
    · exact ⟨rfl, by simp⟩
    · split <;> exact ⟨rfl, by simp⟩
  | jobIds job r => exact ⟨rfl, by simp [request, jobIds]⟩
  | register sid parts b m r =>
    simp only [request, register]
    split
    · exact ⟨rfl, by simp⟩
    · split
      · exact ⟨rfl, by simp⟩
      · split <;> exact ⟨rfl, by simp⟩
  | revive sid pid old cause r =>
    simp only [request, revive]
    split
    · exact ⟨rfl, by simp⟩
    · split
      · exact ⟨rfl, by simp⟩
      · split
        · exact ⟨rfl, by simp⟩
        · rename_i cur hcur
          split
          · exact ⟨rfl, by simp⟩
          · split
            · exact ⟨rfl, by simp⟩
            · split
              · exact ⟨rfl, by simp⟩
              · refine ⟨rfl, fun s' p' b ex e hm => ?_⟩
                simp only [List.mem_singleton, Task.revive.injEq] at hm
                rw [hm.1]
                cases hf : find s.reservations sid with
                | none => rw [hf] at hcur; exact nomatch hcur
                | some _ => rfl
  | mapperEnd sid map attempt n r =>
    simp only [request, mapperEnd]
    split
    · exact ⟨rfl, by simp⟩
    · split
      · exact ⟨rfl, by simp⟩
      · split
        · exact ⟨rfl, by simp⟩
        · split
          · exact ⟨rfl, by simp⟩
          · split
            · exact ⟨rfl, by simp⟩
            · split
              · exact ⟨rfl, by simp⟩
              · split <;> exact ⟨rfl, by simp⟩
  | unregister sid r => simp only [request, unregister]; split <;> exact ⟨rfl, by simp⟩
  | report m r => exact ⟨rfl, by simp [request, report]⟩
  | heartbeat => simp only [request, heartbeat]; split <;> exact ⟨rfl, by simp⟩
  | stop r => exact ⟨rfl, by simp [request, stop]⟩

theorem done_reservations (s : State ρ) (d : Done ρ) (sid : Int)
    (h : (find s.reservations sid).isSome) (hd : ∀ r, d ≠ .unregistered sid (.ok ()) r) :
    (find (done s d).st.reservations sid).isSome := by
  cases d with
  | registered sid' res =>
    simp only [done, registerDone]
    split
    · simp only [find_put]; split <;> simp [h]
    · exact h
  | revived sid' pid res =>
    simp only [done, reviveDone]
    split
    · exact h
    · split
      · exact h
      · split
        · exact h
        · simp only [find_put]; split <;> simp [h]
  | committed sid' res r => simp only [done, mapperEndDone]; split <;> exact h
  | unregistered sid' res r =>
    simp only [done, unregisterDone]
    split
    · simp only [find_erase]
      split
      · rename_i hh
        subst hh
        exact absurd rfl (hd r)
      · exact h
    · exact h
  | heartbeat res =>
    simp only [done, heartbeatDone]
    split
    · split <;> exact h
    · exact h
  | stopped r => exact h

theorem reserved_run (reg : Registration) (evs : List (Event ρ)) (sid : Int)
    (keep : ∀ r, Event.ask (.unregister sid r) ∉ evs) :
    (∀ r, Task.unregister sid r ∉ ((World.init ρ reg).run evs).tasks) ∧
    ∀ pid b ex e, Task.revive sid pid b ex e ∈ ((World.init ρ reg).run evs).tasks →
      (find ((World.init ρ reg).run evs).st.reservations sid).isSome := by
  refine run_inv (P := fun w => (∀ r, Task.unregister sid r ∉ w.tasks) ∧
    ∀ pid b ex e, Task.revive sid pid b ex e ∈ w.tasks → (find w.st.reservations sid).isSome)
    evs _ ⟨by simp [World.init], by simp [World.init]⟩ ?_
  rintro w e he ⟨h1, h2⟩
  refine step_cases (P := fun w => (∀ r, Task.unregister sid r ∉ w.tasks) ∧
    ∀ pid b ex e, Task.revive sid pid b ex e ∈ w.tasks → (find w.st.reservations sid).isSome)
    w e ⟨h1, h2⟩ ?_ ?_
  · intro q hq _
    obtain ⟨g1, g2⟩ := request_reservations w.st q
    constructor
    · intro r hm
      rcases List.mem_append.1 hm with hm | hm
      · exact h1 r hm
      · exact keep r (by rw [← request_unregister w.st q sid r hm, ← hq]; exact he)
    · intro pid b ex e' hm
      show (find (request w.st q).st.reservations sid).isSome
      rw [g1]
      rcases List.mem_append.1 hm with hm | hm
      · exact h2 pid b ex e' hm
      · exact g2 sid pid b ex e' hm
  · intro i t a d _ ht hf
    refine handle_cases (P := fun w => (∀ r, Task.unregister sid r ∉ w.tasks) ∧
      ∀ pid b ex e, Task.revive sid pid b ex e ∈ w.tasks → (find w.st.reservations sid).isSome)
      { w with tasks := w.tasks.eraseIdx i, ended := w.ended ++ [(t, a)] } d
      ⟨fun r hm => h1 r (mem_of_eraseIdx hm), fun p b ex e' hm => h2 p b ex e' (mem_of_eraseIdx hm)⟩ ?_
    rintro x b0 rfl _
    constructor
    · intro r hm
      rcases List.mem_append.1 hm with hm | hm
      · exact h1 r (mem_of_eraseIdx hm)
      · obtain ⟨_, hc⟩ := done_tasks _ _ _ hm
        exact nomatch hc
    · intro p b ex e' hm
      rcases List.mem_append.1 hm with hm | hm
      · refine done_reservations w.st x sid (h2 p b ex e' (mem_of_eraseIdx hm)) ?_
        rintro r rfl
        obtain ⟨rfl, _⟩ := finish_unregistered hf
        exact h1 r (List.mem_of_getElem? ht)
      · obtain ⟨_, hc⟩ := done_tasks _ _ _ hm
        exact nomatch hc

end Verif.Celeborn
