import Verif.Connect.Sessions

/-!
# C63: sessions live as long as they are used and are never silently replaced
-/

namespace Verif.Connect.Sess

theorem lookup_put (id id' : String) (st : SState) (l : List (String × SState)) :
    lookup id' (put id st l) = if id' = id then some st else lookup id' l := by
  unfold lookup put
  by_cases h : id' = id
  · subst h
    simp
  · have hne : (id == id') = false := by simp [Ne.symm h]
    rw [List.find?_cons, hne, if_neg h]
    simp only
    congr 1
    induction l with
    | nil => rfl
    | cons e l ih =>
      by_cases he : e.1 = id
      · have h1 : (e.1 == id') = false := by simp [he, Ne.symm h]
        rw [List.filter_cons_of_neg (by simp [he]), List.find?_cons, h1]
        exact ih
      · rw [List.filter_cons_of_pos (by simp [he]), List.find?_cons, List.find?_cons, ih]

/-- The timers and activity times fit together: a probe is due the timeout after the instant it
carries, the last activity of a running session has its probe outstanding, and no probe of the session
carries a later instant. -/
structure Inv (s : State) : Prop where
  due : ∀ p ∈ s.probes, p.due = p.instant + s.timeout
  last : ∀ id ctx u a, lookup id s.sessions = some (.running ctx u a) →
    a ≤ s.now ∧ ⟨id, a, a + s.timeout⟩ ∈ s.probes
  fresh : ∀ id ctx u a, lookup id s.sessions = some (.running ctx u a) → ctx < s.nextCtx
  apart : ∀ id id' ctx u u' a a', lookup id s.sessions = some (.running ctx u a) →
    lookup id' s.sessions = some (.running ctx u' a') → id = id'

theorem inv_init (t : Nat) : Inv (init t) :=
  ⟨by simp [init], by simp [init, lookup], by simp [init, lookup], by simp [init, lookup]⟩

/-- Ending a session keeps the invariant. -/
theorem inv_end {s : State} (h : Inv s) (id : String) (st : SState)
    (hst : ∀ ctx u a, st ≠ .running ctx u a) : Inv { s with sessions := put id st s.sessions } := by
  refine ⟨h.due, ?_, ?_, ?_⟩
  · intro id' ctx u a hl
    simp only [lookup_put] at hl
    split at hl
    · exact absurd (Option.some.inj hl) (hst ctx u a)
    · exact h.last id' ctx u a hl
  · intro id' ctx u a hl
    simp only [lookup_put] at hl
    split at hl
    · exact absurd (Option.some.inj hl) (hst ctx u a)
    · exact h.fresh id' ctx u a hl
  · intro i j ctx u u' a a' hl hl'
    simp only [lookup_put] at hl hl'
    split at hl
    · exact absurd (Option.some.inj hl) (hst ctx u a)
    · split at hl'
      · exact absurd (Option.some.inj hl') (hst ctx u' a')
      · exact h.apart i j ctx u u' a a' hl hl'

theorem inv_touch {s : State} (h : Inv s) (id : String) (ctx : Nat) (user : String)
    (hc : ctx < s.nextCtx)
    (hap : ∀ id' u' a', lookup id' s.sessions = some (.running ctx u' a') → id' = id) :
    Inv (touch s id ctx user) := by
  refine ⟨?_, ?_, ?_, ?_⟩
  · intro p hp
    simp only [touch, List.mem_cons] at hp
    rcases hp with rfl | hp
    · rfl
    · exact h.due p hp
  · intro id' c u a hl
    simp only [touch, lookup_put] at hl
    split at hl
    · rename_i hid
      simp only [Option.some.injEq, SState.running.injEq] at hl
      obtain ⟨-, -, rfl⟩ := hl
      subst hid
      exact ⟨Nat.le_refl _, List.mem_cons_self⟩
    · obtain ⟨h1, h2⟩ := h.last id' c u a hl
      exact ⟨h1, List.mem_cons_of_mem _ h2⟩
  · intro id' c u a hl
    simp only [touch, lookup_put] at hl
    split at hl
    · simp only [Option.some.injEq, SState.running.injEq] at hl
      exact hl.1 ▸ hc
    · exact h.fresh id' c u a hl
  · intro i j c u u' a a' hl hl'
    simp only [touch, lookup_put] at hl hl'
    split at hl
    · rename_i hi
      simp only [Option.some.injEq, SState.running.injEq] at hl
      split at hl'
      · rename_i hj
        rw [hi, hj]
      · rw [hi]
        rw [← hl.1] at hl'
        exact (hap j u' a' hl').symm
    · split at hl'
      · rename_i hj
        simp only [Option.some.injEq, SState.running.injEq] at hl'
        rw [hj]
        rw [← hl'.1] at hl
        exact hap i u a hl
      · exact h.apart i j c u u' a a' hl hl'

theorem inv_step {s : State} (h : Inv s) (e : Event) : Inv (step s e).1 := by
  cases e with
  | tick d =>
    exact ⟨h.due, fun id c u a hl => ⟨Nat.le_trans (h.last id c u a hl).1 (Nat.le_add_right _ _),
      (h.last id c u a hl).2⟩, h.fresh, h.apart⟩
  | request id user c =>
    simp only [step, request]
    split
    · rename_i ctx u a hl
      exact inv_touch h id ctx u (h.fresh _ _ _ _ hl) fun id' u' a' hl' => h.apart _ _ _ _ _ _ _ hl' hl
    · exact h
    · exact h
    · split
      · have h' : Inv { s with nextCtx := s.nextCtx + 1 } :=
          ⟨h.due, h.last, fun id c u a hl => Nat.lt_succ_of_lt (h.fresh id c u a hl), h.apart⟩
        refine inv_touch h' id _ user (Nat.lt_succ_self _) ?_
        intro id' u' a' hl
        exact absurd (h.fresh _ _ _ _ hl) (Nat.lt_irrefl _)
      · exact h
      · exact inv_end h id _ (by simp)
  | fire p =>
    simp only [step, fire]
    split
    case isFalse => exact h
    case isTrue hp =>
      unfold probe
      simp only
      have hdue : ∀ q ∈ s.probes.erase p, q.due = q.instant + s.timeout :=
        fun q hq => h.due q (List.mem_of_mem_erase hq)
      have other : ∀ id ctx u a, lookup id s.sessions = some (.running ctx u a) →
          (id = p.id → ¬ a ≤ p.instant) → a ≤ s.now ∧ ⟨id, a, a + s.timeout⟩ ∈ s.probes.erase p := by
        intro id ctx u a hl hne
        obtain ⟨h1, h2⟩ := h.last id ctx u a hl
        refine ⟨h1, (List.mem_erase_of_ne ?_).2 h2⟩
        intro heq
        rw [← heq] at hne
        exact hne rfl (Nat.le_refl _)
      split
      · rename_i ctx u a hl
        split
        · refine ⟨hdue, ?_, ?_, ?_⟩
          · intro id c u a hl
            simp only [lookup_put] at hl
            split at hl
            · exact absurd hl (by simp)
            · rename_i hne
              exact other id c u a hl fun hx => absurd hx hne
          · intro id c u a hl
            simp only [lookup_put] at hl
            split at hl
            · exact absurd hl (by simp)
            · exact h.fresh id c u a hl
          · intro i j c u u' a a' hl hl'
            simp only [lookup_put] at hl hl'
            split at hl
            · exact absurd hl (by simp)
            · split at hl'
              · exact absurd hl' (by simp)
              · exact h.apart i j c u u' a a' hl hl'
        · rename_i hna
          refine ⟨hdue, ?_, h.fresh, h.apart⟩
          intro id c u' a' hl'
          refine other id c u' a' hl' fun hx => ?_
          simp only at hl'
          rw [hx, hl] at hl'
          simp only [Option.some.injEq, SState.running.injEq] at hl'
          rw [← hl'.2.2]
          exact hna
      · rename_i hnr
        refine ⟨hdue, ?_, h.fresh, h.apart⟩
        intro id c u' a' hl'
        refine other id c u' a' hl' fun hx => ?_
        simp only at hl'
        rw [hx] at hl'
        exact absurd hl' (hnr c u' a')
  | delete id =>
    simp only [step, delete]
    split
    · exact inv_end h id _ (by simp)
    · exact h
  | fail id =>
    simp only [step, fail]
    split
    · exact inv_end h id _ (by simp)
    · exact h

theorem inv_run (es : List Event) : ∀ s, Inv s → Inv (run s es) := by
  induction es with
  | nil => exact fun s h => h
  | cons e es ih => exact fun s h => ih _ (inv_step h e)

theorem timeout_step (s : State) (e : Event) : (step s e).1.timeout = s.timeout := by
  cases e with
  | tick d => rfl
  | request id user c =>
    simp only [step, request]
    split
    · rfl
    · rfl
    · rfl
    · split <;> rfl
  | fire p =>
    simp only [step, fire]
    split
    · unfold probe
      split
      · split <;> rfl
      · rfl
    · rfl
  | delete id =>
    simp only [step, delete]
    split <;> rfl
  | fail id =>
    simp only [step, fail]
    split <;> rfl

theorem now_step (s : State) (e : Event) : s.now ≤ (step s e).1.now := by
  cases e with
  | tick d => exact Nat.le_add_right _ _
  | request id user c =>
    simp only [step, request]
    split
    · exact Nat.le_refl _
    · exact Nat.le_refl _
    · exact Nat.le_refl _
    · split <;> exact Nat.le_refl _
  | fire p =>
    simp only [step, fire]
    split
    · unfold probe
      split
      · split <;> exact Nat.le_refl _
      · exact Nat.le_refl _
    · exact Nat.le_refl _
  | delete id =>
    simp only [step, delete]
    split <;> exact Nat.le_refl _
  | fail id =>
    simp only [step, fail]
    split <;> exact Nat.le_refl _

theorem now_run (es : List Event) : ∀ s, s.now ≤ (run s es).now := by
  induction es with
  | nil => exact fun s => Nat.le_refl _
  | cons e es ih => exact fun s => Nat.le_trans (now_step s e) (ih _)

/-- What one event does to a session that is not the target of its own ending. -/
theorem running_step {s : State} {id : String} {ctx : Nat} {u : String} {a : Nat} (e : Event)
    (hl : lookup id s.sessions = some (.running ctx u a)) (h1 : e ≠ .delete id) (h2 : e ≠ .fail id)
    (h3 : ∀ p, e = .fire p → p.id = id → p ∈ s.probes → p.due ≤ s.now → ¬ a ≤ p.instant) :
    ∃ a', lookup id (step s e).1.sessions = some (.running ctx u a') ∧
      (a' = a ∨ a' = s.now ∧ ∃ v c, e = .request id v c) := by
  cases e with
  | tick d => exact ⟨a, hl, .inl rfl⟩
  | request id' user c =>
    by_cases hid : id' = id
    · subst hid
      simp only [step, request, hl, touch, lookup_put, if_true]
      exact ⟨s.now, rfl, .inr ⟨rfl, user, c, rfl⟩⟩
    · refine ⟨a, ?_, .inl rfl⟩
      simp only [step, request]
      have hne : ¬ id = id' := fun h => hid h.symm
      split
      · simp only [touch, lookup_put, if_neg hne]; exact hl
      · exact hl
      · exact hl
      · split
        · simp only [touch, lookup_put, if_neg hne]; exact hl
        · exact hl
        · simp only [lookup_put, if_neg hne]; exact hl
  | fire p =>
    refine ⟨a, ?_, .inl rfl⟩
    simp only [step, fire]
    split
    case isFalse => exact hl
    case isTrue hp =>
      unfold probe
      simp only
      by_cases hid : p.id = id
      · rw [hid, hl]
        simp only
        rw [if_neg (h3 p rfl hid hp.1 hp.2)]
        exact hl
      · have hne : ¬ id = p.id := fun h => hid h.symm
        split
        · split
          · simp only [lookup_put, if_neg hne]; exact hl
          · exact hl
        · exact hl
  | delete id' =>
    have hne : ¬ id = id' := fun h => h1 (by rw [h])
    refine ⟨a, ?_, .inl rfl⟩
    simp only [step, delete]
    split
    · simp only [lookup_put, if_neg hne]; exact hl
    · exact hl
  | fail id' =>
    have hne : ¬ id = id' := fun h => h2 (by rw [h])
    refine ⟨a, ?_, .inl rfl⟩
    simp only [step, fail]
    split
    · simp only [lookup_put, if_neg hne]; exact hl
    · exact hl

/-- The state of a session after a request that succeeded. -/
theorem request_ok {s : State} {id user : String} {c : Creation} {ctx : Nat}
    (h : (step s (.request id user c)).2 = .context ctx) :
    ∃ u, lookup id (step s (.request id user c)).1.sessions = some (.running ctx u s.now) ∧
      (step s (.request id user c)).1.now = s.now := by
  simp only [step, request] at h ⊢
  split at h
  · rename_i ctx' u a hl
    simp only [Reply.context.injEq] at h
    subst h
    exact ⟨u, by simp [touch, lookup_put], rfl⟩
  · exact absurd h (by simp)
  · exact absurd h (by simp)
  · split at h
    · simp only [Reply.context.injEq] at h
      subst h
      exact ⟨user, by simp [touch, lookup_put], rfl⟩
    · exact absurd h (by simp)
    · exact absurd h (by simp)

/-- The histories after which nothing ended a session by request. -/
def Undisturbed (id : String) (es : List Event) : Prop := Event.delete id ∉ es ∧ Event.fail id ∉ es

theorem stays (es : List Event) : ∀ (s : State) (id : String) (ctx : Nat) (u : String) (a t0 : Nat),
    Inv s → lookup id s.sessions = some (.running ctx u a) → t0 ≤ a → Undisturbed id es →
    (run s es).now < t0 + s.timeout →
    ∃ a', lookup id (run s es).sessions = some (.running ctx u a') ∧ t0 ≤ a' := by
  induction es with
  | nil => exact fun s id ctx u a t0 _ hl ha _ _ => ⟨a, hl, ha⟩
  | cons e es ih =>
    intro s id ctx u a t0 hi hl ha hu hn
    simp only [Undisturbed, List.mem_cons, not_or] at hu
    have hnow : s.now < t0 + s.timeout :=
      Nat.lt_of_le_of_lt (now_run (e :: es) s) hn
    obtain ⟨a', hl', ha'⟩ := running_step (s := s) e hl (fun h => hu.1.1 h.symm)
      (fun h => hu.2.1 h.symm) (by
        intro p _ _ hp hd
        have := hi.due p hp
        omega)
    have hle : t0 ≤ a' := by
      rcases ha' with rfl | ⟨rfl, -⟩
      · exact ha
      · exact Nat.le_trans ha (hi.last _ _ _ _ hl).1
    exact ih _ id ctx u a' t0 (inv_step hi e) hl' hle ⟨hu.1.2, hu.2.2⟩
      (by rw [timeout_step]; exact hn)

/-- C63: a session that has had a request within the timeout is still there: whatever happens after a
successful request, other than a request to delete the session or a failure of it, the same session is
running as long as less than the timeout has passed. -/
theorem C63_used_sessions_stay (t : Nat) (before after : List Event) (id user : String) (c : Creation)
    (ctx : Nat) :
    let s := run (init t) before
    (step s (.request id user c)).2 = .context ctx → Undisturbed id after →
    (run s (.request id user c :: after)).now < s.now + t →
    ∃ u a, lookup id (run s (.request id user c :: after)).sessions = some (.running ctx u a) := by
  intro s hr hu hn
  have hi : Inv s := inv_run before _ (inv_init t)
  obtain ⟨u, hl, -⟩ := request_ok hr
  have ht : ∀ (es : List Event) (s : State), (run s es).timeout = s.timeout := by
    intro es
    induction es with
    | nil => exact fun _ => rfl
    | cons e es ih => exact fun s => (ih _).trans (timeout_step s e)
  have htt : (step s (.request id user c)).1.timeout = t := by
    rw [timeout_step]
    exact ht before (init t)
  obtain ⟨a', hl', -⟩ := stays after _ id ctx u s.now s.now (inv_step hi _) hl (Nat.le_refl _) hu
    (by rw [htt]; exact hn)
  exact ⟨u, a', hl'⟩

theorem idle_kept (es : List Event) : ∀ (s : State) (id : String) (a : Nat),
    (∀ ctx u a', lookup id s.sessions = some (.running ctx u a') → a' = a) →
    lookup id s.sessions ≠ none →
    (∀ u c, Event.request id u c ∉ es) →
    (∀ ctx u a', lookup id (run s es).sessions = some (.running ctx u a') → a' = a) := by
  induction es with
  | nil => exact fun s id a h _ _ => h
  | cons e es ih =>
    intro s id a h hne hr
    have hr' : ∀ u c, Event.request id u c ∉ es := fun u c hm => hr u c (List.mem_cons_of_mem _ hm)
    have hre : ∀ u c, e ≠ .request id u c := fun u c he => hr u c (by rw [he]; exact List.mem_cons_self)
    have key : ∀ s' : State,
        (lookup id s'.sessions = lookup id s.sessions ∨ lookup id s'.sessions = some .deleted ∨
          lookup id s'.sessions = some .failed) →
        (∀ ctx u a', lookup id s'.sessions = some (.running ctx u a') → a' = a) ∧
          lookup id s'.sessions ≠ none := by
      intro s' hs'
      rcases hs' with h1 | h1 | h1 <;> rw [h1]
      · exact ⟨h, hne⟩
      · exact ⟨by simp, by simp⟩
      · exact ⟨by simp, by simp⟩
    have hstep : lookup id (step s e).1.sessions = lookup id s.sessions ∨
        lookup id (step s e).1.sessions = some .deleted ∨
        lookup id (step s e).1.sessions = some .failed := by
      cases e with
      | tick d => exact .inl rfl
      | request id' user c =>
        have hid : ¬ id = id' := by
          rintro rfl
          exact hre user c rfl
        left
        simp only [step, request]
        split
        · simp [touch, lookup_put, hid]
        · rfl
        · rfl
        · split
          · simp [touch, lookup_put, hid]
          · rfl
          · simp [lookup_put, hid]
      | fire p =>
        simp only [step, fire]
        split
        · unfold probe
          split
          · split
            · by_cases hid : id = p.id
              · right; left; simp [lookup_put, hid]
              · left; simp [lookup_put, hid]
            · exact .inl rfl
          · exact .inl rfl
        · exact .inl rfl
      | delete id' =>
        simp only [step, delete]
        split
        · by_cases hid : id = id'
          · right; left; simp [lookup_put, hid]
          · left; simp [lookup_put, hid]
        · exact .inl rfl
      | fail id' =>
        simp only [step, fail]
        split
        · by_cases hid : id = id'
          · right; right; simp [lookup_put, hid]
          · left; simp [lookup_put, hid]
        · exact .inl rfl
    obtain ⟨h1, h2⟩ := key _ hstep
    exact ih _ id a h1 h2 hr'

/-- C63: a session without a request for the timeout is gone once the timers that are due have
fired. -/
theorem C63_idle_sessions_go (t : Nat) (before after : List Event) (id user : String) (c : Creation)
    (ctx : Nat) :
    let s := run (init t) before
    let s' := run s (.request id user c :: after)
    (step s (.request id user c)).2 = .context ctx → (∀ u c, Event.request id u c ∉ after) →
    s.now + t ≤ s'.now → (∀ p ∈ s'.probes, p.id = id → s'.now < p.due) →
    ∀ ctx u a, lookup id s'.sessions ≠ some (.running ctx u a) := by
  intro s s' hr hno hn hfired ctx' u' a' hl'
  have hi : Inv s := inv_run before _ (inv_init t)
  obtain ⟨u, hl, -⟩ := request_ok hr
  have ha : a' = s.now := by
    refine idle_kept after (step s (.request id user c)).1 id s.now ?_ ?_ hno ctx' u' a' hl'
    · intro c1 u1 a1 h1
      rw [hl] at h1
      simp only [Option.some.injEq, SState.running.injEq] at h1
      exact h1.2.2.symm
    · rw [hl]; simp
  have hi' : Inv s' := inv_run (.request id user c :: after) s hi
  obtain ⟨-, hp⟩ := hi'.last id ctx' u' a' hl'
  have hd := hfired _ hp rfl
  have ht : ∀ (es : List Event) (s : State), (run s es).timeout = s.timeout := by
    intro es
    induction es with
    | nil => exact fun _ => rfl
    | cons e es ih => exact fun s => (ih _).trans (timeout_step s e)
  have htt : s'.timeout = t := by
    show (run (run (init t) before) (.request id user c :: after)).timeout = t
    rw [ht, ht]
    rfl
  rw [htt, ha] at hd
  simp only at hd
  omega

/-- C63: the timer of a session whose timeout has passed is outstanding, so that there is something to
fire, and its firing removes the session. -/
theorem C63_timer_removes_idle_session (t : Nat) (es : List Event) (id u : String) (ctx a : Nat) :
    let s := run (init t) es
    lookup id s.sessions = some (.running ctx u a) → a + s.timeout ≤ s.now →
    ∃ p ∈ s.probes, p.id = id ∧ lookup id (step s (.fire p)).1.sessions = some .deleted := by
  intro s hl hn
  have hi : Inv s := inv_run es _ (inv_init t)
  obtain ⟨-, hp⟩ := hi.last id ctx u a hl
  refine ⟨_, hp, rfl, ?_⟩
  simp only [step, fire]
  rw [if_pos ⟨hp, hn⟩]
  simp [probe, hl, lookup_put]

theorem ended_step {s : State} {id : String} (e : Event)
    (h : lookup id s.sessions = some .deleted ∨ lookup id s.sessions = some .failed) :
    lookup id (step s e).1.sessions = some .deleted ∨
      lookup id (step s e).1.sessions = some .failed := by
  cases e with
  | tick d => exact h
  | request id' user c =>
    simp only [step, request]
    by_cases hid : id = id'
    · subst hid
      rcases h with h | h
      · rw [h]; exact .inl h
      · rw [h]; exact .inr h
    · split
      · simp only [touch, lookup_put, if_neg hid]; exact h
      · exact h
      · exact h
      · split
        · simp only [touch, lookup_put, if_neg hid]; exact h
        · exact h
        · simp only [lookup_put, if_neg hid]; exact h
  | fire p =>
    simp only [step, fire]
    split
    · unfold probe
      split
      · split
        · by_cases hid : id = p.id
          · left; simp [lookup_put, hid]
          · simp only [lookup_put, if_neg hid]; exact h
        · exact h
      · exact h
    · exact h
  | delete id' =>
    simp only [step, delete]
    split
    · by_cases hid : id = id'
      · left; simp [lookup_put, hid]
      · simp only [lookup_put, if_neg hid]; exact h
    · exact h
  | fail id' =>
    simp only [step, fail]
    split
    · by_cases hid : id = id'
      · right; simp [lookup_put, hid]
      · simp only [lookup_put, if_neg hid]; exact h
    · exact h

/-- C63: once a session was deleted, expired or failed, every request naming it is refused, by whatever
user and whatever happens in between. -/
theorem C63_ended_sessions_stay_ended (s : State) (id : String)
    (h : lookup id s.sessions = some .deleted ∨ lookup id s.sessions = some .failed)
    (es : List Event) (user : String) (c : Creation) :
    (step (run s es) (.request id user c)).2 = .error := by
  have key : ∀ (es : List Event) (s : State),
      (lookup id s.sessions = some .deleted ∨ lookup id s.sessions = some .failed) →
      (lookup id (run s es).sessions = some .deleted ∨
        lookup id (run s es).sessions = some .failed) := by
    intro es
    induction es with
    | nil => exact fun s h => h
    | cons e es ih => exact fun s h => ih _ (ended_step e h)
  simp only [step, request]
  rcases key es s h with h | h <;> rw [h]

/-- C63: a delete request and a failure end the session; a delete request for a session that does not
run is refused and changes nothing. -/
theorem C63_delete_ends (s : State) (id : String) :
    ((∃ ctx u a, lookup id s.sessions = some (.running ctx u a)) →
      (step s (.delete id)).2 = .none ∧
      lookup id (step s (.delete id)).1.sessions = some .deleted) ∧
    ((∀ ctx u a, lookup id s.sessions ≠ some (.running ctx u a)) →
      step s (.delete id) = (s, .error)) ∧
    (lookup id s.sessions ≠ none →
      lookup id (step s (.fail id)).1.sessions = some .failed) := by
  refine ⟨?_, ?_, ?_⟩
  · rintro ⟨ctx, u, a, h⟩
    simp [step, delete, h, lookup_put]
  · intro h
    simp only [step, delete]
  · intro h
    simp only [step, fail]
    split
    · simp [lookup_put]
    · rename_i hn
      exact absurd hn h

theorem context_kept (es : List Event) : ∀ (s : State) (id : String) (ctx : Nat),
    lookup id s.sessions ≠ none →
    (∀ c u a, lookup id s.sessions = some (.running c u a) → c = ctx) →
    (∀ c u a, lookup id (run s es).sessions = some (.running c u a) → c = ctx) ∧
      lookup id (run s es).sessions ≠ none := by
  induction es with
  | nil => exact fun s id ctx h1 h2 => ⟨h2, h1⟩
  | cons e es ih =>
    intro s id ctx h1 h2
    refine ih _ id ctx ?_ ?_
    · cases hl : lookup id s.sessions with
      | none => exact absurd hl h1
      | some st =>
        cases st with
        | deleted => rcases ended_step e (.inl hl) with h | h <;> rw [h] <;> simp
        | failed => rcases ended_step e (.inr hl) with h | h <;> rw [h] <;> simp
        | running c u a =>
          cases e with
          | delete id' =>
            simp only [step, delete]
            split
            · simp only [lookup_put]
              split
              · simp
              · exact h1
            · exact h1
          | fail id' =>
            simp only [step, fail]
            split
            · simp only [lookup_put]
              split
              · simp
              · exact h1
            · exact h1
          | fire p =>
            simp only [step, fire]
            split
            · unfold probe
              split
              · split
                · simp only [lookup_put]
                  split
                  · simp
                  · exact h1
                · exact h1
              · exact h1
            · exact h1
          | tick d => exact h1
          | request id' v c' =>
            obtain ⟨a', ha, -⟩ := running_step (.request id' v c') hl (by simp) (by simp) (by simp)
            rw [ha]
            simp
    · intro c u a hl
      cases hl0 : lookup id s.sessions with
      | none => exact absurd hl0 h1
      | some st =>
        cases st with
        | deleted => rcases ended_step e (.inl hl0) with h | h <;> rw [h] at hl <;> exact absurd hl (by simp)
        | failed => rcases ended_step e (.inr hl0) with h | h <;> rw [h] at hl <;> exact absurd hl (by simp)
        | running c0 u0 a0 =>
          have hc0 := h2 c0 u0 a0 hl0
          have fin : lookup id (step s e).1.sessions = some (.running c u a) →
              (∃ u1 a1, lookup id (step s e).1.sessions = some (.running c0 u1 a1)) ∨
              lookup id (step s e).1.sessions = some .deleted ∨
              lookup id (step s e).1.sessions = some .failed := by
            intro _
            cases e with
            | tick d => exact .inl ⟨u0, a0, hl0⟩
            | request id' v c' =>
              obtain ⟨a', ha, -⟩ := running_step (.request id' v c') hl0 (by simp) (by simp) (by simp)
              exact .inl ⟨u0, a', ha⟩
            | delete id' =>
              simp only [step, delete]
              split
              · simp only [lookup_put]
                split
                · exact .inr (.inl rfl)
                · exact .inl ⟨u0, a0, hl0⟩
              · exact .inl ⟨u0, a0, hl0⟩
            | fail id' =>
              simp only [step, fail]
              split
              · simp only [lookup_put]
                split
                · exact .inr (.inr rfl)
                · exact .inl ⟨u0, a0, hl0⟩
              · exact .inl ⟨u0, a0, hl0⟩
            | fire p =>
              simp only [step, fire]
              split
              · unfold probe
                split
                · split
                  · simp only [lookup_put]
                    split
                    · exact .inr (.inl rfl)
                    · exact .inl ⟨u0, a0, hl0⟩
                  · exact .inl ⟨u0, a0, hl0⟩
                · exact .inl ⟨u0, a0, hl0⟩
              · exact .inl ⟨u0, a0, hl0⟩
          rcases fin hl with ⟨u1, a1, h⟩ | h | h <;> rw [h] at hl
          · simp only [Option.some.injEq, SState.running.injEq] at hl
            rw [← hl.1]
            exact hc0
          · exact absurd hl (by simp)
          · exact absurd hl (by simp)

/-- C63: all successful requests that name a session get the same session, never a fresh one. -/
theorem C63_same_session (s : State) (id u u' : String) (c c' : Creation) (ctx ctx' : Nat)
    (es : List Event) (h : (step s (.request id u c)).2 = .context ctx)
    (h' : (step (run s (.request id u c :: es)) (.request id u' c')).2 = .context ctx') :
    ctx' = ctx := by
  obtain ⟨v, hl, -⟩ := request_ok h
  obtain ⟨h1, h2⟩ := context_kept es (step s (.request id u c)).1 id ctx (by rw [hl]; simp) (by
    intro c1 u1 a1 hx
    rw [hl] at hx
    simp only [Option.some.injEq, SState.running.injEq] at hx
    exact hx.1.symm)
  change (step (run (step s (.request id u c)).1 es) (.request id u' c')).2 = _ at h'
  simp only [step, request] at h'
  split at h'
  · rename_i c1 u1 a1 hr
    simp only [Reply.context.injEq] at h'
    rw [← h']
    exact h1 c1 u1 a1 hr
  · exact absurd h' (by simp)
  · exact absurd h' (by simp)
  · rename_i hn
    exact absurd hn h2

/-- C63: sessions with different ids are different sessions, at any time. -/
theorem C63_sessions_are_apart (t : Nat) (es : List Event) (id id' u u' : String) (ctx a a' : Nat)
    (h : lookup id (run (init t) es).sessions = some (.running ctx u a))
    (h' : lookup id' (run (init t) es).sessions = some (.running ctx u' a')) : id = id' :=
  (inv_run es _ (inv_init t)).apart _ _ _ _ _ _ _ h h'

/-- Timeout 10; requests at 0 and 6; the timer of the first fires at 10 and does nothing, the timer of
the second fires at 16 and removes the session; a later request is refused. -/
example :
    let s := run (init 10) [.request "a" "u" .ok, .tick 6, .request "a" "u" .ok, .tick 4,
      .fire ⟨"a", 0, 10⟩]
    lookup "a" s.sessions = some (.running 0 "u" 6) ∧
    lookup "a" (run s [.tick 6, .fire ⟨"a", 6, 16⟩]).sessions = some .deleted ∧
    (step (run s [.tick 6, .fire ⟨"a", 6, 16⟩]) (.request "a" "u" .ok)).2 = .error := by decide

/-- C63, the negation of the last sentence: a request of one user that names the session of another gets
that session. -/
theorem C63_other_user_gets_the_session (s : State) (id u v : String) (ctx a : Nat) (c : Creation)
    (h : lookup id s.sessions = some (.running ctx u a)) :
    (step s (.request id v c)).2 = .context ctx ∧
      lookup id (step s (.request id v c)).1.sessions = some (.running ctx u s.now) := by
  simp [step, request, h, touch, lookup_put]

/-- Two users and one session id. -/
example :
    let s := run (init 10) [.request "a" "alice" .ok]
    (step s (.request "a" "bob" .ok)).2 = .context 0 := by decide

/-- C63: a session whose creation failed in the session factory is refused for ever; if there was no
job runner, nothing is recorded and the next request may create it. -/
theorem C63_failed_creation (s : State) (id u : String) (h : lookup id s.sessions = none) :
    (step s (.request id u .noRunner)) = (s, .error) ∧
    ∀ (es : List Event) (v : String) (c : Creation),
      (step (run (step s (.request id u .noContext)).1 es) (.request id v c)).2 = .error := by
  refine ⟨by simp [step, request, h], fun es v c => ?_⟩
  refine C63_ended_sessions_stay_ended _ id (.inr ?_) es v c
  simp [step, request, h, lookup_put]

/-- A creation that fails late and a later request. -/
example : (step (run (init 5) [.request "a" "u" .noContext]) (.request "a" "u" .ok)).2 = .error ∧
    (step (run (init 5) [.request "a" "u" .noRunner]) (.request "a" "u" .ok)).2 = .context 0 := by
  decide

end Verif.Connect.Sess
