import Verif.Celeborn.CommitLemmas

/-!
# Lemmas: which locations a commit covers
-/

namespace Verif.Celeborn

open Verif.Catalog (find erase put Distinct find_put find_erase mem_of_find find_of_mem)

variable {ρ : Type}

/-- The slots name, under the worker of a location, its unique id. -/
def Spec.Primary (slots : List (Nat × Slots)) (l : Loc) : Prop :=
  ∃ s, find slots l.worker = some s ∧ ∃ l' ∈ s.primary, l'.id = l.id ∧ l'.epoch = l.epoch

/-- The slots name, under the worker of the replica of a location if it has one, the unique id. -/
def Spec.Replica (slots : List (Nat × Slots)) (l : Loc) : Prop :=
  ∀ w, l.peer = some w →
    ∃ s, find slots w = some s ∧ ∃ l' ∈ s.replica, l'.id = l.id ∧ l'.epoch = l.epoch

/-- The slots name a location and its replica. -/
def Spec.Covers (slots : List (Nat × Slots)) (l : Loc) : Prop :=
  Spec.Primary slots l ∧ Spec.Replica slots l

/-- A reservation lists its primary locations and their replicas under their workers. -/
def Spec.Lists (res : Reservation) : Prop := ∀ p ∈ res.primary, Spec.Covers res.slots p.2

def Spec.AllList (evs : List (Event ρ)) : Prop :=
  ∀ i res, Event.finish i (.reserved res) ∈ evs → Spec.Lists res

theorem mem_appendLocs (target source : List Loc) :
    (∀ l ∈ target, l ∈ appendLocs target source) ∧
    ∀ l ∈ source, ∃ l' ∈ appendLocs target source, l'.id = l.id ∧ l'.epoch = l.epoch := by
  induction source generalizing target with
  | nil => exact ⟨fun l h => h, by simp⟩
  | cons x source ih =>
    simp only [appendLocs]
    obtain ⟨h1, h2⟩ := ih (if target.any (fun y => decide (y.uid = x.uid)) then target else target ++ [x])
    refine ⟨fun l hl => h1 l ?_, fun l hl => ?_⟩
    · split
      · exact hl
      · exact List.mem_append_left _ hl
    · rcases List.mem_cons.1 hl with rfl | hl
      · split at h1
        · rename_i ha
          rw [List.any_eq_true] at ha
          obtain ⟨y, hy, hyu⟩ := ha
          simp only [decide_eq_true_eq, Loc.uid, Prod.mk.injEq] at hyu
          rw [if_pos (List.any_eq_true.2 ⟨y, hy, by simp [Loc.uid, hyu]⟩)]
          exact ⟨y, h1 y hy, hyu⟩
        · rename_i ha
          rw [if_neg ha]
          exact ⟨l, h1 l (by simp), rfl, rfl⟩
      · exact h2 l hl

theorem mergeSlots_left_primary (target source : List (Nat × Slots)) (l : Loc) (h : Spec.Primary target l) :
    Spec.Primary (mergeSlots target source) l := by
  induction source generalizing target with
  | nil => exact h
  | cons x source ih =>
    obtain ⟨w, s⟩ := x
    simp only [mergeSlots]
    apply ih
    obtain ⟨s0, hf, l', hl', hu⟩ := h
    by_cases hw : w = l.worker
    · subst hw
      rw [hf]
      exact ⟨_, by rw [find_put, if_pos rfl], l', (mem_appendLocs _ _).1 l' hl', hu⟩
    · exact ⟨s0, by rw [find_put, if_neg hw]; exact hf, l', hl', hu⟩

theorem mergeSlots_right_primary (target source : List (Nat × Slots)) (l : Loc) (h : Spec.Primary source l) :
    Spec.Primary (mergeSlots target source) l := by
  induction source generalizing target with
  | nil => obtain ⟨s, hf, _⟩ := h; exact nomatch hf
  | cons x source ih =>
    obtain ⟨w, s⟩ := x
    simp only [mergeSlots]
    obtain ⟨s0, hf, l', hl', hu⟩ := h
    simp only [find] at hf
    split at hf
    · rename_i hw
      cases hf
      apply mergeSlots_left_primary
      obtain ⟨l2, h1, h2, h3⟩ := (mem_appendLocs ((find target w).getD ⟨[], []⟩).primary s.primary).2 l' hl'
      exact ⟨_, by rw [find_put, if_pos hw], l2, h1, h2.trans hu.1, h3.trans hu.2⟩
    · exact ih _ ⟨s0, hf, l', hl', hu⟩

theorem mergeSlots_left_replica (target source : List (Nat × Slots)) (l : Loc)
    (h : Spec.Replica target l) : Spec.Replica (mergeSlots target source) l := by
  induction source generalizing target with
  | nil => exact h
  | cons x source ih =>
    obtain ⟨w, s⟩ := x
    simp only [mergeSlots]
    apply ih
    intro p hp
    obtain ⟨s0, hf, l', hl', hu⟩ := h p hp
    by_cases hw : w = p
    · subst hw
      rw [hf]
      exact ⟨_, by rw [find_put, if_pos rfl], l', (mem_appendLocs _ _).1 l' hl', hu⟩
    · exact ⟨s0, by rw [find_put, if_neg hw]; exact hf, l', hl', hu⟩

theorem mergeSlots_right_replica (target source : List (Nat × Slots)) (l : Loc)
    (h : Spec.Replica source l) : Spec.Replica (mergeSlots target source) l := by
  cases hp : l.peer with
  | none =>
    intro p h'
    rw [hp] at h'
    cases h'
  | some p =>
    obtain ⟨s0, hf, l', hl', hu⟩ := h p hp
    induction source generalizing target with
    | nil => exact nomatch hf
    | cons x source ih =>
      obtain ⟨w, s⟩ := x
      simp only [mergeSlots]
      simp only [find] at hf
      split at hf
      · rename_i hw
        cases hf
        apply mergeSlots_left_replica
        intro p' hp'
        rw [hp] at hp'
        cases hp'
        obtain ⟨l2, h1, h2, h3⟩ :=
          (mem_appendLocs ((find target w).getD ⟨[], []⟩).replica s0.replica).2 l' hl'
        exact ⟨_, by rw [find_put, if_pos hw], l2, h1, h2.trans hu.1, h3.trans hu.2⟩
      · refine ih _ ?_ hf
        intro p' hp'
        rw [hp] at hp'
        cases hp'
        exact ⟨s0, hf, l', hl', hu⟩

theorem mergeSlots_left (target source : List (Nat × Slots)) (l : Loc) (h : Spec.Covers target l) :
    Spec.Covers (mergeSlots target source) l :=
  ⟨mergeSlots_left_primary target source l h.1, mergeSlots_left_replica target source l h.2⟩

theorem mergeSlots_right (target source : List (Nat × Slots)) (l : Loc) (h : Spec.Covers source l) :
    Spec.Covers (mergeSlots target source) l :=
  ⟨mergeSlots_right_primary target source l h.1, mergeSlots_right_replica target source l h.2⟩

theorem find_slots_epoch (m : List (Nat × Slots)) (e : Int) (k : Nat) :
    find (m.map fun p => (p.1, (⟨p.2.primary.map (·.setEpoch e), p.2.replica.map (·.setEpoch e)⟩ : Slots))) k =
    (find m k).map fun s => ⟨s.primary.map (·.setEpoch e), s.replica.map (·.setEpoch e)⟩ := by
  induction m with
  | nil => rfl
  | cons x m ih =>
    obtain ⟨a, v⟩ := x
    simp only [List.map_cons, find]
    split
    · rfl
    · exact ih

theorem Spec.Lists.withEpoch {res : Reservation} (h : Spec.Lists res) (e : Int) :
    Spec.Lists (res.withEpoch e) := by
  intro p hp
  obtain ⟨p0, hp0, rfl⟩ := List.mem_map.1 hp
  constructor
  · obtain ⟨s, hf, l', hl', hu⟩ := (h p0 hp0).1
    refine ⟨⟨s.primary.map (·.setEpoch e), s.replica.map (·.setEpoch e)⟩, ?_, l'.setEpoch e,
      List.mem_map.2 ⟨l', hl', rfl⟩, hu.1, rfl⟩
    rw [Reservation.withEpoch, find_slots_epoch]
    show (find res.slots p0.2.worker).map _ = _
    rw [hf]
    rfl
  · intro w hw
    obtain ⟨s, hf, l', hl', hu⟩ := (h p0 hp0).2 w hw
    refine ⟨⟨s.primary.map (·.setEpoch e), s.replica.map (·.setEpoch e)⟩, ?_, l'.setEpoch e,
      List.mem_map.2 ⟨l', hl', rfl⟩, hu.1, rfl⟩
    rw [Reservation.withEpoch, find_slots_epoch, hf]
    rfl

theorem mem_foldl_put (ls : List Loc) (m : List (Int × Loc)) :
    ∀ p ∈ ls.foldl (fun m l => put m l.id l) m, p ∈ m ∨ (p.2 ∈ ls ∧ p.1 = p.2.id) := by
  induction ls generalizing m with
  | nil => exact fun p hp => .inl hp
  | cons l ls ih =>
    intro p hp
    rcases ih _ p hp with hp | ⟨h1, h2⟩
    · rcases List.mem_cons.1 hp with rfl | hp
      · exact .inr ⟨List.mem_cons_self, rfl⟩
      · exact .inl (List.mem_filter.1 hp).1
    · exact .inr ⟨List.mem_cons_of_mem _ h1, h2⟩

theorem addAll_ok (resp : List (Nat × Slots)) (r : Reservation) (hd : Distinct resp)
    (hw : ∀ e ∈ resp, ∀ l ∈ e.2.primary, l.worker = e.1)
    (hn : ∀ e ∈ resp, find r.slots e.1 = none)
    (hr : ∀ p ∈ r.primary, p.2.id = p.1 ∧ Spec.Primary r.slots p.2) :
    ∀ p ∈ (r.addAll resp).primary, p.2.id = p.1 ∧ Spec.Primary (r.addAll resp).slots p.2 := by
  induction resp generalizing r with
  | nil => exact hr
  | cons x resp ih =>
    obtain ⟨w, s⟩ := x
    rw [Distinct, List.map_cons, List.nodup_cons] at hd
    have hne : ∀ e ∈ resp, e.1 ≠ w := by
      intro e he hh
      exact hd.1 (List.mem_map.2 ⟨e, he, hh⟩)
    simp only [Reservation.addAll]
    split
    · exact ih _ hd.2 (fun e he => hw e (List.mem_cons_of_mem _ he))
        (fun e he => hn e (List.mem_cons_of_mem _ he)) hr
    · refine ih _ hd.2 (fun e he => hw e (List.mem_cons_of_mem _ he)) ?_ ?_
      · intro e he
        show find (put r.slots w s) e.1 = none
        rw [find_put, if_neg (fun hh => hne e he hh.symm)]
        exact hn e (List.mem_cons_of_mem _ he)
      · intro p hp
        rcases mem_foldl_put _ _ p hp with hp | ⟨h1, h2⟩
        · obtain ⟨g1, s0, hf, hl⟩ := hr p hp
          refine ⟨g1, s0, ?_, hl⟩
          show find (put r.slots w s) p.2.worker = _
          rw [find_put, if_neg]
          · exact hf
          · intro hh
            have := hn (w, s) List.mem_cons_self
            rw [hh, hf] at this
            exact nomatch this
        · refine ⟨h2.symm, s, ?_, p.2, h1, rfl, rfl⟩
          show find (put r.slots w s) p.2.worker = _
          rw [find_put, if_pos (hw (w, s) List.mem_cons_self p.2 h1).symm]

theorem addAll_slots (resp : List (Nat × Slots)) (r : Reservation) (hd : Distinct resp) :
    ∀ w s, (find r.slots w = some s ∧ w ∉ resp.map (·.1)) ∨ ((w, s) ∈ resp ∧ s.replica ≠ []) →
      find (r.addAll resp).slots w = some s := by
  induction resp generalizing r with
  | nil =>
    rintro w s (h | h)
    · exact h.1
    · exact nomatch h.1
  | cons x resp ih =>
    obtain ⟨w, s⟩ := x
    rw [Distinct, List.map_cons, List.nodup_cons] at hd
    intro w' s' h
    simp only [Reservation.addAll]
    apply ih _ hd.2
    rcases h with ⟨h1, h2⟩ | ⟨h1, h2⟩
    · simp only [List.map_cons, List.mem_cons, not_or] at h2
      left
      refine ⟨?_, h2.2⟩
      split
      · exact h1
      · show find (put r.slots w s) w' = _
        rw [find_put, if_neg (Ne.symm h2.1)]
        exact h1
    · rcases List.mem_cons.1 h1 with e | h1
      · cases e
        left
        refine ⟨?_, hd.1⟩
        rw [if_neg (fun h => h2 h.2)]
        show find (put r.slots w s) w = _
        rw [find_put, if_pos rfl]
      · exact Or.inr ⟨h1, h2⟩

theorem addAll_from (resp : List (Nat × Slots)) (r : Reservation) :
    ∀ p ∈ (r.addAll resp).primary, p ∈ r.primary ∨ ∃ e ∈ resp, p.2 ∈ e.2.primary := by
  induction resp generalizing r with
  | nil => exact fun p hp => Or.inl hp
  | cons x resp ih =>
    obtain ⟨w, s⟩ := x
    intro p hp
    simp only [Reservation.addAll] at hp
    rcases ih _ p hp with h | ⟨e, he, h⟩
    · split at h
      · exact Or.inl h
      · rcases mem_foldl_put _ _ p h with h | ⟨h, _⟩
        · exact Or.inl h
        · exact Or.inr ⟨_, List.mem_cons_self, h⟩
    · exact Or.inr ⟨e, List.mem_cons_of_mem _ he, h⟩

/-- The shuffle is registered and its slots cover these locations. -/
def State.covers (s : State ρ) (sid : Int) (ls : List Loc) : Prop :=
  ∃ t, find s.registered sid = some t ∧ ∀ l ∈ ls, Spec.Covers t l

structure Cov (key : ρ → Int) (sid : Int) (w : World ρ) : Prop where
  res : ∀ res, find w.st.reservations sid = some res → w.st.covers sid (res.primary.map (·.2))
  slots : ∀ r res, (r, Answer.slots (.ok res)) ∈ w.said → key r = sid →
    w.st.covers sid (res.primary.map (·.2))
  loc : ∀ r l, (r, Answer.loc (.ok l)) ∈ w.said → key r = sid → w.st.covers sid [l]
  pend : ∀ s rs, find w.st.pendingSlots s = some rs → ∀ r ∈ rs, key r = s
  pend' : ∀ k rs, find w.st.pendingRevives k = some rs → ∀ r ∈ rs, key r = k.1
  excl : (find w.st.pendingSlots sid).isSome → find w.st.registered sid = none

theorem Cov.init (key : ρ → Int) (sid : Int) (reg : Registration) : Cov key sid (World.init ρ reg) :=
  ⟨by simp [World.init, State.init, find], by simp [World.init], by simp [World.init],
    by simp [World.init, State.init, find], by simp [World.init, State.init, find],
    by simp [World.init, State.init, find]⟩

/-- More was said, all of it covered; what is registered covers what it covered. -/
theorem Cov.frame {key : ρ → Int} {sid : Int} {w : World ρ} (h : Cov key sid w) (e : Effect ρ)
    (hc : ∀ ls, w.st.covers sid ls → e.st.covers sid ls)
    (hr : ∀ res, find e.st.reservations sid = some res → e.st.covers sid (res.primary.map (·.2)))
    (hs : ∀ r res, (r, Answer.slots (.ok res)) ∈ e.said → key r = sid →
      e.st.covers sid (res.primary.map (·.2)))
    (hl : ∀ r l, (r, Answer.loc (.ok l)) ∈ e.said → key r = sid → e.st.covers sid [l])
    (hp : ∀ s rs, find e.st.pendingSlots s = some rs → ∀ r ∈ rs, key r = s)
    (hp' : ∀ k rs, find e.st.pendingRevives k = some rs → ∀ r ∈ rs, key r = k.1)
    (hx : (find e.st.pendingSlots sid).isSome → find e.st.registered sid = none) :
    Cov key sid (w.apply e) := by
  refine ⟨hr, ?_, ?_, hp, hp', hx⟩
  · intro r res hm hk
    rcases List.mem_append.1 hm with hm | hm
    · exact hc _ (h.slots r res hm hk)
    · exact hs r res hm hk
  · intro r l hm hk
    rcases List.mem_append.1 hm with hm | hm
    · exact hc _ (h.loc r l hm hk)
    · exact hl r l hm hk

/-- Nothing that matters changes. -/
theorem Cov.quiet {key : ρ → Int} {sid : Int} {w : World ρ} (h : Cov key sid w) (e : Effect ρ)
    (hr : e.st.reservations = w.st.reservations) (hg : e.st.registered = w.st.registered)
    (hp : e.st.pendingSlots = w.st.pendingSlots) (hp' : e.st.pendingRevives = w.st.pendingRevives)
    (hs : ∀ r res, (r, Answer.slots (.ok res)) ∉ e.said) (hl : ∀ r l, (r, Answer.loc (.ok l)) ∉ e.said) :
    Cov key sid (w.apply e) := by
  have hc : ∀ ls, w.st.covers sid ls → e.st.covers sid ls := by
    rintro ls ⟨t, h1, h2⟩
    exact ⟨t, by rw [hg]; exact h1, h2⟩
  refine h.frame e hc (fun res hf => hc _ (h.res res (by rw [← hr]; exact hf)))
    (fun r res hm => absurd hm (hs r res)) (fun r l hm => absurd hm (hl r l)) ?_ ?_ ?_
  · rw [hp]; exact h.pend
  · rw [hp']; exact h.pend'
  · rw [hp, hg]; exact h.excl

theorem Cov.ask {key : ρ → Int} {sid : Int} {w : World ρ} (h : Cov key sid w) (q : Request ρ)
    (resreg : ∀ s, (find w.st.registered s).isSome → (find w.st.reservations s).isSome)
    (hk : ∀ s ps b m r, q = .register s ps b m r → key r = s)
    (hk' : ∀ s p o c r, q = .revive s p o c r → key r = s) : Cov key sid (w.apply (request w.st q)) := by
  cases q with
  | getId job stage r =>
    simp only [request, getId]
    split
    · exact h.quiet _ rfl rfl rfl rfl (by simp) (by simp)
    · split <;> exact h.quiet _ rfl rfl rfl rfl (by simp) (by simp)
  | jobIds job r => exact h.quiet _ rfl rfl rfl rfl (by simp [request, jobIds]) (by simp [request, jobIds])
  | register s parts b m r =>
    have hkr := hk s parts b m r rfl
    simp only [request, register]
    split
    · rename_i res hf
      refine h.frame _ (fun _ hc => hc) h.res ?_ (by simp) h.pend h.pend' h.excl
      intro r' res' hm hkey
      simp at hm
      obtain ⟨rfl, rfl⟩ := hm
      have : s = sid := hkr.symm.trans hkey
      subst this
      exact h.res _ hf
    · rename_i hnone
      split
      · rename_i rs hf
        refine h.frame _ (fun _ hc => hc) h.res (by simp) (by simp) ?_ h.pend' ?_
        · intro s' rs' hf' r' hr'
          simp only [find_put] at hf'
          split at hf'
          · rename_i hs
            cases hf'
            rcases List.mem_append.1 hr' with hr' | hr'
            · rw [h.pend s rs hf r' hr', hs]
            · simp at hr'
              rw [hr', hkr, hs]
          · exact h.pend s' rs' hf' r' hr'
        · intro hsome
          simp only [find_put] at hsome
          split at hsome
          · rename_i hs
            subst hs
            exact h.excl (by rw [hf]; rfl)
          · exact h.excl hsome
      · split
        · exact h.quiet _ rfl rfl rfl rfl (by simp) (by simp)
        · refine h.frame _ (fun _ hc => hc) h.res (by simp) (by simp) ?_ h.pend' ?_
          · intro s' rs' hf' r' hr'
            simp only [find_put] at hf'
            split at hf'
            · rename_i hs
              cases hf'
              simp at hr'
              rw [hr', hkr, hs]
            · exact h.pend s' rs' hf' r' hr'
          · intro hsome
            simp only [find_put] at hsome
            split at hsome
            · rename_i hs
              subst hs
              cases hreg : find w.st.registered s with
              | none => rfl
              | some _ =>
                have := resreg s (by rw [hreg]; rfl)
                rw [hnone] at this
                exact nomatch this
            · exact h.excl hsome
  | revive s pid old cause r =>
    have hkr := hk' s pid old cause r rfl
    simp only [request, revive]
    split
    · exact h.quiet _ rfl rfl rfl rfl (by simp) (by simp)
    · split
      · exact h.quiet _ rfl rfl rfl rfl (by simp) (by simp)
      · split
        · exact h.quiet _ rfl rfl rfl rfl (by simp) (by simp)
        · rename_i cur hcur
          split
          · refine h.frame _ (fun _ hc => hc) h.res (by simp) ?_ h.pend h.pend' h.excl
            intro r' l hm hkey
            simp at hm
            obtain ⟨rfl, rfl⟩ := hm
            have : s = sid := hkr.symm.trans hkey
            subst this
            cases hres : find w.st.reservations s with
            | none => rw [hres] at hcur; exact nomatch hcur
            | some res =>
              rw [hres] at hcur
              obtain ⟨t, h1, h2⟩ := h.res res hres
              refine ⟨t, h1, fun l' hl' => h2 l' ?_⟩
              simp at hl'
              rw [hl']
              exact List.mem_map.2 ⟨(pid, _), mem_of_find hcur, rfl⟩
          · split
            · exact h.quiet _ rfl rfl rfl rfl (by simp) (by simp)
            · split
              · rename_i rs hf
                refine h.frame _ (fun _ hc => hc) h.res (by simp) (by simp) h.pend ?_ h.excl
                intro k rs' hf' r' hr'
                simp only [find_put] at hf'
                split at hf'
                · rename_i hs
                  cases hf'
                  rcases List.mem_append.1 hr' with hr' | hr'
                  · rw [h.pend' _ rs hf r' hr', ← hs]
                  · simp at hr'
                    rw [hr', hkr, ← hs]
                · exact h.pend' k rs' hf' r' hr'
              · refine h.frame _ (fun _ hc => hc) h.res (by simp) (by simp) h.pend ?_ h.excl
                intro k rs' hf' r' hr'
                simp only [find_put] at hf'
                split at hf'
                · rename_i hs
                  cases hf'
                  simp at hr'
                  rw [hr', hkr, ← hs]
                · exact h.pend' k rs' hf' r' hr'
  | mapperEnd s map attempt n r =>
    simp only [request, mapperEnd]
    split
    · exact h.quiet _ rfl rfl rfl rfl (by simp) (by simp)
    · split
      · exact h.quiet _ rfl rfl rfl rfl (by simp) (by simp)
      · split
        · exact h.quiet _ rfl rfl rfl rfl (by simp) (by simp)
        · split
          · exact h.quiet _ rfl rfl rfl rfl (by simp) (by simp)
          · split
            · exact h.quiet _ rfl rfl rfl rfl (by simp) (by simp)
            · split
              · exact h.quiet _ rfl rfl rfl rfl (by simp) (by simp)
              · split <;> exact h.quiet _ rfl rfl rfl rfl (by simp) (by simp)
  | unregister s r =>
    simp only [request, unregister]
    split <;> exact h.quiet _ rfl rfl rfl rfl (by simp) (by simp)
  | report m r => exact h.quiet _ rfl rfl rfl rfl (by simp [request, report]) (by simp [request, report])
  | heartbeat =>
    simp only [request, heartbeat]
    split <;> exact h.quiet _ rfl rfl rfl rfl (by simp) (by simp)
  | stop r => exact h.quiet _ rfl rfl rfl rfl (by simp [request, stop]) (by simp [request, stop])

theorem Cov.handle {key : ρ → Int} {sid : Int} {w : World ρ} (h : Cov key sid w) (x : Done ρ) (b : Bool)
    (hu : ∀ r, x ≠ .unregistered sid (.ok ()) r)
    (hp : ∀ y, x = .registered sid y → (find w.st.pendingSlots sid).isSome)
    (hl : ∀ s res, x = .registered s (.ok res) → Spec.Lists res)
    (hl' : ∀ s p res, x = .revived s p (.ok res) → Spec.Lists res) :
    Cov key sid { w.apply (done w.st x) with stopped := b } := by
  suffices hh : Cov key sid (w.apply (done w.st x)) from
    ⟨hh.res, hh.slots, hh.loc, hh.pend, hh.pend', hh.excl⟩
  cases x with
  | registered s res =>
    have pend : ∀ s' rs, find (erase w.st.pendingSlots s) s' = some rs → ∀ r ∈ rs, key r = s' := by
      intro s' rs hf
      rw [find_erase] at hf
      split at hf
      · exact nomatch hf
      · exact h.pend s' rs hf
    simp only [done, registerDone]
    split
    · rename_i res
      have lst := hl s res rfl
      by_cases hs : s = sid
      · subst hs
        have hnone : find w.st.registered s = none := h.excl (hp _ rfl)
        have new : ∃ t, find (put w.st.registered s res.slots) s = some t ∧
            ∀ l ∈ res.primary.map (·.2), Spec.Covers t l := by
          refine ⟨res.slots, by rw [find_put, if_pos rfl], ?_⟩
          intro l hl
          obtain ⟨p, hp, rfl⟩ := List.mem_map.1 hl
          exact lst p hp
        refine h.frame _ ?_ ?_ ?_ (by simp) pend h.pend' ?_
        · rintro ls ⟨t, h1, _⟩
          rw [hnone] at h1
          exact nomatch h1
        · intro res' hf
          simp only [find_put, if_true] at hf
          cases hf
          exact new
        · intro r res' hm _
          simp at hm
          rw [← hm.2]
          exact new
        · simp [find_erase]
      · have cov : ∀ ls, w.st.covers sid ls → ∃ t, find (put w.st.registered s res.slots) sid = some t ∧
            ∀ l ∈ ls, Spec.Covers t l := by
          rintro ls ⟨t, h1, h2⟩
          exact ⟨t, by rw [find_put, if_neg hs]; exact h1, h2⟩
        refine h.frame _ cov ?_ ?_ (by simp) pend h.pend' ?_
        · intro res' hf
          simp only [find_put, if_neg hs] at hf
          exact cov _ (h.res res' hf)
        · intro r res' hm hkey
          simp at hm
          cases hf : find w.st.pendingSlots s with
          | none => rw [hf] at hm; simp at hm
          | some rs =>
            rw [hf] at hm
            exact absurd ((h.pend s rs hf r hm.1).symm.trans hkey) hs
        · simp only [find_erase, if_neg hs, find_put]
          exact h.excl
    · refine h.frame _ (fun _ hc => hc) h.res (by simp) (by simp) pend h.pend' ?_
      simp only [find_erase]
      split
      · simp
      · exact h.excl
  | revived s pid res =>
    have pend : ∀ k rs, find (erase w.st.pendingRevives (s, pid)) k = some rs → ∀ r ∈ rs, key r = k.1 := by
      intro k rs hf
      rw [find_erase] at hf
      split at hf
      · exact nomatch hf
      · exact h.pend' k rs hf
    simp only [done, reviveDone]
    split
    · exact h.frame _ (fun _ hc => hc) h.res (by simp) (by simp) h.pend pend h.excl
    · rename_i rep
      split
      · exact h.frame _ (fun _ hc => hc) h.res (by simp) (by simp) h.pend pend h.excl
      · rename_i l hfl
        split
        · exact h.frame _ (fun _ hc => hc) h.res (by simp) (by simp) h.pend pend h.excl
        · rename_i res0 hres
          have lst := hl' s pid rep rfl
          by_cases hs : s = sid
          · subst hs
            obtain ⟨t, ht, hcov⟩ := h.res res0 hres
            simp only [ht]
            have cov : ∀ ls, w.st.covers s ls →
                ∃ t', find (put w.st.registered s (mergeSlots t rep.slots)) s = some t' ∧
                  ∀ l ∈ ls, Spec.Covers t' l := by
              rintro ls ⟨t1, h1, h2⟩
              rw [ht] at h1
              cases h1
              exact ⟨_, by rw [find_put, if_pos rfl], fun l hl => mergeSlots_left _ _ l (h2 l hl)⟩
            have newl : Spec.Covers (mergeSlots t rep.slots) l :=
              mergeSlots_right _ _ l (lst _ (mem_of_find hfl))
            refine h.frame _ cov ?_ (by simp) ?_ h.pend pend ?_
            · intro res' hf
              simp only [find_put, if_true] at hf
              cases hf
              refine ⟨_, by rw [find_put, if_pos rfl], ?_⟩
              intro l' hl'
              obtain ⟨p, hp, rfl⟩ := List.mem_map.1 hl'
              rcases List.mem_cons.1 hp with rfl | hp
              · exact newl
              · exact mergeSlots_left _ _ _ (hcov _ (List.mem_map.2 ⟨p, (List.mem_filter.1 hp).1, rfl⟩))
            · intro r l' hm _
              simp at hm
              refine ⟨_, by rw [find_put, if_pos rfl], ?_⟩
              intro l2 hl2
              simp at hl2
              rw [hl2, ← hm.2]
              exact newl
            · intro hsome
              have := h.excl hsome
              rw [ht] at this
              exact nomatch this
          · have reg : ∀ (v : List (Int × List (Nat × Slots))), v = (match find w.st.registered s with
                | some t => put w.st.registered s (mergeSlots t rep.slots)
                | none => w.st.registered) → find v sid = find w.st.registered sid := by
              rintro v rfl
              split
              · rw [find_put, if_neg hs]
              · rfl
            have reg := reg _ rfl
            have cov : ∀ ls, w.st.covers sid ls →
                ∃ t', find (match find w.st.registered s with
                  | some t => put w.st.registered s (mergeSlots t rep.slots)
                  | none => w.st.registered) sid = some t' ∧ ∀ l ∈ ls, Spec.Covers t' l := by
              rintro ls ⟨t1, h1, h2⟩
              exact ⟨t1, reg.trans h1, h2⟩
            refine h.frame _ cov ?_ (by simp) ?_ h.pend pend ?_
            · intro res' hf
              simp only [find_put, if_neg hs] at hf
              exact cov _ (h.res res' hf)
            · intro r l' hm hkey
              simp at hm
              cases hf : find w.st.pendingRevives (s, pid) with
              | none => rw [hf] at hm; simp at hm
              | some rs =>
                rw [hf] at hm
                exact absurd ((h.pend' _ rs hf r hm.1).symm.trans hkey) hs
            · intro hsome
              exact reg.trans (h.excl hsome)
  | committed s res r =>
    simp only [done, mapperEndDone]
    split <;> exact h.quiet _ rfl rfl rfl rfl (by simp) (by simp)
  | unregistered s res r =>
    simp only [done, unregisterDone]
    split
    · have hs : s ≠ sid := by
        rintro rfl
        exact hu r rfl
      have cov : ∀ ls, w.st.covers sid ls →
          ∃ t, find (erase w.st.registered s) sid = some t ∧ ∀ l ∈ ls, Spec.Covers t l := by
        rintro ls ⟨t, h1, h2⟩
        exact ⟨t, by rw [find_erase, if_neg hs]; exact h1, h2⟩
      refine h.frame _ cov ?_ (by simp) (by simp) h.pend h.pend' ?_
      · intro res' hf
        simp only [find_erase, if_neg hs] at hf
        exact cov _ (h.res res' hf)
      · simp only [find_erase, if_neg hs]
        exact h.excl
    · exact h.quiet _ rfl rfl rfl rfl (by simp) (by simp)
  | heartbeat res =>
    simp only [done, heartbeatDone]
    split
    · split <;> exact h.quiet _ rfl rfl rfl rfl (by simp) (by simp)
    · exact h.quiet _ rfl rfl rfl rfl (by simp) (by simp)
  | stopped r => exact h.quiet _ rfl rfl rfl rfl (by simp [done]) (by simp [done])

/-- A registered shuffle has a reservation. -/
theorem registered_reserved_step (w : World ρ)
    (h : ∀ s, (find w.st.registered s).isSome → (find w.st.reservations s).isSome) (e : Event ρ) :
    ∀ s, (find (w.step e).st.registered s).isSome → (find (w.step e).st.reservations s).isSome := by
  refine step_cases (P := fun w => ∀ s, (find w.st.registered s).isSome →
    (find w.st.reservations s).isSome) w e h ?_ ?_
  · intro q _ _ s hs
    show (find (request w.st q).st.reservations s).isSome
    rw [(request_reservations w.st q).1]
    apply h
    have hs' : (find (request w.st q).st.registered s).isSome := hs
    by_cases hq : ∃ s m a n r, q = .mapperEnd s m a n r
    · obtain ⟨s', m, a, n, r, rfl⟩ := hq
      have : (request w.st (.mapperEnd s' m a n r)).st.registered = w.st.registered :=
        (mapperEnd_cases w.st s' m a n r).1
      rwa [this] at hs'
    · rwa [(request_frame w.st q fun s m a n r hh => hq ⟨s, m, a, n, r, hh⟩).2.1] at hs'
  · intro i t a d _ _ _
    refine handle_cases (P := fun w => ∀ s, (find w.st.registered s).isSome →
      (find w.st.reservations s).isSome)
      { w with tasks := w.tasks.eraseIdx i, ended := w.ended ++ [(t, a)] } d h ?_
    intro x b _ _ s hs
    have hs' : (find (done w.st x).st.registered s).isSome := hs
    show (find (done w.st x).st.reservations s).isSome
    cases x with
    | registered s0 res =>
      simp only [done, registerDone] at hs' ⊢
      split at hs'
      · simp only [find_put] at hs' ⊢
        split
        · rfl
        · rename_i hne
          rw [if_neg hne] at hs'
          exact h s hs'
      · exact h s hs'
    | revived s0 pid res =>
      cases res with
      | error er => exact h s hs'
      | ok rep =>
        cases hl : find rep.primary pid with
        | none =>
          simp only [done, reviveDone, hl] at hs' ⊢
          exact h s hs'
        | some l =>
          cases hr : find w.st.reservations s0 with
          | none =>
            simp only [done, reviveDone, hl, hr] at hs' ⊢
            exact h s hs'
          | some res0 =>
            simp only [done, reviveDone, hl, hr, find_put] at hs' ⊢
            split
            · rfl
            · rename_i hne
              apply h
              split at hs'
              · rwa [find_put, if_neg hne] at hs'
              · exact hs'
    | committed s0 res r =>
      simp only [done, mapperEndDone] at hs' ⊢
      split at hs' <;> exact h s hs'
    | unregistered s0 res r =>
      simp only [done, unregisterDone] at hs' ⊢
      split at hs'
      · simp only [find_erase] at hs' ⊢
        split
        · rename_i hne
          rw [if_pos hne] at hs'
          exact hs'
        · rename_i hne
          rw [if_neg hne] at hs'
          exact h s hs'
      · exact h s hs'
    | heartbeat res =>
      cases res with
      | ok u => exact h s hs'
      | error er =>
        cases hb : w.st.heartbeat with
        | none =>
          simp only [done, heartbeatDone, hb] at hs' ⊢
          exact h s hs'
        | some m =>
          simp only [done, heartbeatDone, hb] at hs' ⊢
          exact h s hs'
    | stopped r => exact h s hs'

theorem Cov.run [DecidableEq ρ] (key : ρ → Int) (sid : Int) (reg : Registration) (evs : List (Event ρ))
    (keep : ∀ r, Event.ask (.unregister sid r) ∉ evs) (list : Spec.AllList evs)
    (hk : ∀ s ps b m r, Event.ask (.register s ps b m r) ∈ evs → key r = s)
    (hk' : ∀ s p o c r, Event.ask (.revive s p o c r) ∈ evs → key r = s) :
    Cov key sid ((World.init ρ reg).run evs) := by
  have := run_inv (P := fun w => Cov key sid w ∧ (∃ A, Balance A w) ∧
    (∀ r, Task.unregister sid r ∉ w.tasks) ∧
    ∀ s, (find w.st.registered s).isSome → (find w.st.reservations s).isSome) evs (World.init ρ reg)
    ⟨Cov.init key sid reg, ⟨[], Balance.init reg⟩, by simp [World.init], by simp [World.init, State.init, find]⟩ ?_
  · exact this.1
  · rintro w e he ⟨h, ⟨A, bal⟩, un, rr⟩
    refine ⟨?_, ⟨_, bal.step e⟩, ?_, registered_reserved_step w rr e⟩
    · refine step_cases w e h ?_ ?_
      · rintro q rfl _
        exact h.ask q rr (fun s ps b m r hh => hk s ps b m r (hh ▸ he))
          (fun s p o c r hh => hk' s p o c r (hh ▸ he))
      · rintro i t a d rfl ht hf
        have h' : Cov key sid { w with tasks := w.tasks.eraseIdx i, ended := w.ended ++ [(t, a)] } :=
          ⟨h.res, h.slots, h.loc, h.pend, h.pend', h.excl⟩
        refine handle_cases _ d h' ?_
        rintro x b0 rfl hs
        have hs' : w.stopped = false := hs
        refine Cov.handle h' x b0 ?_ ?_ ?_ ?_
        · rintro r rfl
          obtain ⟨rfl, _⟩ := finish_unregistered hf
          exact un r (List.mem_of_getElem? ht)
        · rintro y rfl
          have hsl := finish_isSlots hf sid
          have h1 := bal.slots hs' sid
          have h2 : 0 < w.tasks.countP (Task.isSlots sid) := by
            refine List.countP_pos_iff.2 ⟨t, List.mem_of_getElem? ht, ?_⟩
            rw [hsl]
            simp [Done.isSlots]
          show (find w.st.pendingSlots sid).isSome = true
          cases hh : (find w.st.pendingSlots sid).isSome with
          | true => rfl
          | false =>
            rw [h1, hh] at h2
            simp [one] at h2
        · rintro s res rfl
          obtain ⟨_, rfl⟩ := finish_registered hf
          exact list i res he
        · rintro s p res rfl
          obtain ⟨b1, ex1, e1, rfl, hx | ⟨res0, rfl, _, hx⟩⟩ := finish_revived hf
          · exact nomatch hx
          · cases hx
            exact (list i res0 he).withEpoch _
    · refine step_cases (P := fun w => ∀ r, Task.unregister sid r ∉ w.tasks) w e un ?_ ?_
      · rintro q rfl _ r hm
        rcases List.mem_append.1 hm with hm | hm
        · exact un r hm
        · exact keep r (by rw [← request_unregister w.st q sid r hm]; exact he)
      · intro i t a d _ _ _
        refine handle_cases (P := fun w => ∀ r, Task.unregister sid r ∉ w.tasks)
          { w with tasks := w.tasks.eraseIdx i, ended := w.ended ++ [(t, a)] } d
          (fun r hm => un r (mem_of_eraseIdx hm)) ?_
        intro x b _ _ r hm
        rcases List.mem_append.1 hm with hm | hm
        · exact un r (mem_of_eraseIdx hm)
        · obtain ⟨_, hc⟩ := done_tasks _ _ _ hm
          exact nomatch hc

end Verif.Celeborn
