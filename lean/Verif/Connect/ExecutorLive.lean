import Verif.Connect.ExecutorData

/-!
# Progress of reattachable execution
-/

namespace Verif.Connect

variable {α ρ : Type}

/-- The plan does not fail and the completion step succeeds. -/
def Succeeds (c : Cfg α ρ) (all : List (List α)) (bad : Bool) : Prop :=
  bad = false ∧ ∀ f, c.mode = .command f → f all ≠ none

/-- What the states of the handlers and of the task have to do with each other. -/
structure Ctl (c : Cfg α ρ) (s : Sys α ρ) : Prop where
  idle : s.exec = .idle → s.pc = .returned .completed
  nofail : s.pc ≠ .error ∧ s.pc ≠ .returned .failed
  nofailed : s.exec ≠ .failed
  done : s.pc = .returned .completed → c.reattachable = true → HasComplete s.emitted
  kdone : ∀ o, s.pc = .put o .done → HasComplete s.emitted

theorem Ctl.emit {c : Cfg α ρ} {s : Sys α ρ} (hi : s.exec ≠ .idle) (hf : s.exec ≠ .failed)
    (b : Body α ρ) (k : Kont) (hk : k = .done → b = .complete) : Ctl c (emit c s b k) := by
  refine ⟨fun h => absurd h hi, ⟨by simp [Connect.emit], by simp [Connect.emit]⟩, hf,
    fun h => absurd h (by simp [Connect.emit]), fun o ho => ?_⟩
  simp only [Connect.emit, Pc.put.injEq] at ho
  exact ⟨⟨s.nextId, b⟩, by simp [Connect.emit], hk ho.2⟩

theorem Ctl.next {c : Cfg α ρ} {s : Sys α ρ} (hi : s.exec ≠ .idle) (hf : s.exec ≠ .failed)
    (e : Bool) : Ctl c { s with pc := .next e } :=
  ⟨fun h => absurd h hi, ⟨by simp, by simp⟩, hf, fun h => absurd h (by simp),
    fun o ho => absurd ho (by simp)⟩

theorem Ctl.continueWith {c : Cfg α ρ} {s : Sys α ρ} (hi : s.exec ≠ .idle) (hf : s.exec ≠ .failed)
    (k : Kont) (hk : k = .done → HasComplete s.emitted) : Ctl c (continueWith c s k) := by
  cases k with
  | next e => exact Ctl.next hi hf e
  | finish =>
    simp only [Connect.continueWith]
    cases hre : c.reattachable with
    | true => exact Ctl.emit hi hf _ _ (fun _ => rfl)
    | false =>
      exact ⟨fun h => absurd h hi, ⟨by simp, by simp⟩, hf, fun _ h => by simp [hre] at h,
        fun o ho => absurd ho (by simp)⟩
  | done =>
    exact ⟨fun h => absurd h hi, ⟨by simp [Connect.continueWith], by simp [Connect.continueWith]⟩, hf,
      fun _ _ => hk rfl, fun o ho => absurd ho (by simp [Connect.continueWith])⟩

theorem Ctl.begin {c : Cfg α ρ} {s : Sys α ρ} (hi : s.exec ≠ .idle) (hf : s.exec ≠ .failed) :
    Ctl c (begin c s) := by
  unfold Connect.begin
  split
  · exact Ctl.emit hi hf _ _ (by simp)
  · exact Ctl.next hi hf true

theorem Ctl.startTask {c : Cfg α ρ} {s : Sys α ρ} (hi : s.exec ≠ .idle) (hf : s.exec ≠ .failed) :
    Ctl c (startTask c s) := by
  unfold Connect.startTask
  split
  · exact Ctl.begin hi hf
  · exact ⟨fun h => absurd h hi, ⟨by simp, by simp⟩, hf, fun h => absurd h (by simp),
      fun o ho => absurd ho (by simp)⟩

theorem Ctl.streamNext {c : Cfg α ρ} {all : List (List α)} {bad : Bool} {s : Sys α ρ}
    (hs : Succeeds c all bad) (hd : Data0 c all bad s) (hi : s.exec ≠ .idle)
    (hf : s.exec ≠ .failed) (e : Bool) (hpc : s.pc = .next e) : Ctl c (streamNext c s e) := by
  unfold Connect.streamNext
  split
  · rename_i b rest hsrc
    split
    · exact Ctl.emit (s := { s with src := rest }) hi hf (.batch b) (.next false) (by simp)
    · have : Ctl c { s with pc := .next e } := Ctl.next hi hf e
      refine ⟨fun h => absurd h hi, ⟨by simp [hpc], by simp [hpc]⟩, hf, fun h => ?_, fun o ho => ?_⟩
      · simp [hpc] at h
      · simp [hpc] at ho
  · rename_i hsrc
    split
    · rename_i hbad
      rw [hd.bad, hs.1] at hbad
      exact absurd hbad (by simp)
    · unfold Connect.streamEnd
      split
      · split
        · exact Ctl.emit hi hf _ _ (by simp)
        · exact Ctl.continueWith hi hf _ (by simp)
      · rename_i f hm
        split
        · exact Ctl.continueWith hi hf _ (by simp)
        · rename_i ht
          have ht : s.taken = false := by simpa using ht
          have hheld : s.held = all := by
            have := hd.held (by rw [hm]; rfl) ht
            simpa [hsrc] using this
          split
          · rename_i hnone
            rw [hheld] at hnone
            exact absurd hnone (hs.2 f hm)
          · exact Ctl.continueWith (s := { s with taken := true, held := [], runs := s.runs + 1 })
              hi hf _ (by simp)
          · exact Ctl.emit (s := { s with taken := true, held := [], runs := s.runs + 1 })
              hi hf _ _ (by simp)

theorem ctl_init (c : Cfg α ρ) (batches : List (List α)) (bad : Bool) :
    Ctl c (init c batches bad) := by
  unfold init
  exact Ctl.startTask (by simp) (by simp)

theorem ctl_work {c : Cfg α ρ} {all : List (List α)} {bad : Bool} {s : Sys α ρ}
    (hs : Succeeds c all bad) (hd : Data c all bad s) (h : Ctl c s) : Ctl c (work c s) := by
  have hidle : ∀ p, s.pc = p → p ≠ .returned .completed → s.exec ≠ .idle := by
    intro p hp hne hx
    rw [h.idle hx] at hp
    exact hne hp.symm
  unfold work
  split
  · rename_i o rest hpc
    have hi := hidle _ hpc (by simp)
    split
    · exact ⟨fun hx => absurd hx hi, ⟨by simp, by simp⟩, h.nofailed, fun hx => absurd hx (by simp),
        fun o ho => absurd ho (by simp)⟩
    · split
      · split
        · exact Ctl.begin (s := { s with chan := [.out o] }) hi h.nofailed
        · exact ⟨fun hx => absurd hx hi, ⟨by simp, by simp⟩, h.nofailed,
            fun hx => absurd hx (by simp), fun o ho => absurd ho (by simp)⟩
      · exact h
  · rename_i o k hpc
    have hi := hidle _ hpc (by simp)
    split
    · exact ⟨fun hx => absurd hx hi, ⟨by simp, by simp⟩, h.nofailed, fun hx => absurd hx (by simp),
        fun o ho => absurd ho (by simp)⟩
    · split
      · refine Ctl.continueWith (s := { s with chan := [.out o] }) hi h.nofailed k fun hk => ?_
        subst hk
        exact h.kdone o hpc
      · exact h
  · rename_i e hpc
    exact Ctl.streamNext hs hd.toData0 (hidle _ hpc (by simp)) h.nofailed e hpc
  · rename_i hpc
    exact absurd hpc h.nofail.1
  · exact h

theorem ctl_step {c : Cfg α ρ} {all : List (List α)} {bad : Bool} {s : Sys α ρ}
    (hs : Succeeds c all bad) (hd : Data c all bad s) (h : Ctl c s) (e : Event) :
    Ctl c (step c s e) := by
  have keep : ∀ s' : Sys α ρ, s'.exec = s.exec → s'.pc = s.pc → s'.emitted = s.emitted →
      Ctl c s' := by
    intro s' h1 h2 h3
    exact ⟨by rw [h1, h2]; exact h.idle, by rw [h2]; exact h.nofail, by rw [h1]; exact h.nofailed,
      by rw [h2, h3]; exact h.done, by rw [h2, h3]; exact h.kdone⟩
  cases e with
  | work => exact ctl_work hs hd h
  | beat =>
    simp only [step, beat]
    split
    · rename_i e hpc
      refine Ctl.emit (fun hx => ?_) h.nofailed _ _ (by simp)
      have := h.idle hx
      rw [hpc] at this
      exact absurd this (by simp)
    · exact h
  | stop =>
    simp only [step, stop]
    split
    all_goals first
      | exact h
      | (rename_i he hpc
         exact ⟨fun hx => by simp [he] at hx, ⟨by simp, by simp⟩, h.nofailed,
          fun hx => absurd hx (by simp), fun o ho => absurd ho (by simp)⟩)
  | resume =>
    simp only [step, resume]
    split
    · exact Ctl.startTask (by simp) (by simp)
    · rename_i he hpc
      exact ⟨fun _ => hpc, h.nofail, by simp, h.done, h.kdone⟩
    · rename_i he hpc
      exact absurd hpc h.nofail.2
    · exact h
  | reattach =>
    simp only [step, reattach]
    split
    · exact keep _ rfl rfl rfl
    · split
      · exact ⟨fun hx => absurd hx (by simp), h.nofail, by simp, h.done, h.kdone⟩
      · exact h
      · rename_i he
        exact keep _ rfl rfl rfl
      · rename_i he
        exact absurd he h.nofailed
  | release i =>
    simp only [step, release]
    split
    · split
      · exact keep _ rfl rfl rfl
      · exact h
    · exact h
  | pull =>
    simp only [step, pull]
    split
    · exact keep _ rfl rfl rfl
    · exact h
  | deliver =>
    simp only [step, deliver]
    split
    · split
      · exact h
      · exact keep _ rfl rfl rfl
      · exact keep _ rfl rfl rfl
    · exact h
  | lose => exact keep _ rfl rfl rfl
  | drop => exact keep _ rfl rfl rfl

theorem ctl_run {c : Cfg α ρ} {all : List (List α)} {bad : Bool} (hs : Succeeds c all bad)
    (es : List Event) : ∀ s : Sys α ρ, Data c all bad s → Ctl c s → Ctl c (run c s es) := by
  induction es with
  | nil => exact fun s _ h => h
  | cons e es ih => exact fun s hd h => ih _ (data_step hd e) (ctl_step hs hd h e)

/-! ## A command whose completion step fails -/

/-- The invariant of a command whose completion step fails on its batches. -/
structure Errs (s : Sys α ρ) : Prop where
  noC : ¬ HasComplete s.emitted
  tk : s.taken = true → s.pc = .error ∨ s.pc = .returned .failed
  fin : ∀ o, s.pc ≠ .put o .finish ∧ s.pc ≠ .put o .done
  comp : s.pc ≠ .returned .completed

theorem hasComplete_emit {c : Cfg α ρ} {s : Sys α ρ} {b : Body α ρ} {k : Kont}
    (h : ¬ HasComplete s.emitted) (hb : b ≠ .complete) : ¬ HasComplete (emit c s b k).emitted := by
  intro hc
  rcases hasComplete_append.1 hc with hc | ⟨o, ho, hob⟩
  · exact h hc
  · simp only [List.mem_singleton] at ho
    subst ho
    exact hb hob

theorem errs_work {c : Cfg α ρ} {all : List (List α)} {bad : Bool} {s : Sys α ρ}
    {f : List (List α) → Option (Option ρ)} (hm : c.mode = .command f) (hf : f all = none)
    (hd : Data c all bad s) (h : Errs s) : Errs (work c s) := by
  have hnt : ∀ p, s.pc = p → p ≠ .error → p ≠ .returned .failed → s.taken = false := by
    intro p hp h1 h2
    cases ht : s.taken with
    | false => rfl
    | true =>
      rcases h.tk ht with hx | hx
      · exact absurd (hp.symm.trans hx) h1
      · exact absurd (hp.symm.trans hx) h2
  unfold work
  split
  · rename_i o rest hpc
    have ht := hnt _ hpc (by simp) (by simp)
    split
    · exact ⟨h.noC, fun hx => by simp [ht] at hx, by simp, by simp⟩
    · split
      · split
        · simp only [begin, hm]
          exact ⟨h.noC, fun hx => by simp [ht] at hx, by simp, by simp⟩
        · exact ⟨h.noC, fun hx => by simp [ht] at hx, by simp, by simp⟩
      · exact h
  · rename_i o k hpc
    have ht := hnt _ hpc (by simp) (by simp)
    split
    · exact ⟨h.noC, fun hx => by simp [ht] at hx, by simp, by simp⟩
    · split
      · cases k with
        | next e => exact ⟨h.noC, fun hx => by simp [continueWith, ht] at hx, by simp [continueWith],
            by simp [continueWith]⟩
        | finish => exact absurd hpc (h.fin o).1
        | done => exact absurd hpc (h.fin o).2
      · exact h
  · rename_i e hpc
    have ht := hnt _ hpc (by simp) (by simp)
    unfold streamNext
    split
    · simp only [hm]
      exact ⟨h.noC, fun hx => by simp [ht] at hx, h.fin, h.comp⟩
    · rename_i hsrc
      split
      · exact ⟨h.noC, fun hx => .inl rfl, by simp, by simp⟩
      · have hheld : s.held = all := by
          have := hd.held (by rw [hm]; rfl) ht
          simpa [hsrc] using this
        simp only [streamEnd, hm, ht, hheld, hf]
        exact ⟨h.noC, fun _ => .inl rfl, by simp, by simp⟩
  · split
    · exact ⟨h.noC, fun _ => .inr rfl, by simp, by simp⟩
    · split
      · exact ⟨h.noC, fun _ => .inr rfl, by simp, by simp⟩
      · exact h
  · exact h

theorem errs_step {c : Cfg α ρ} {all : List (List α)} {bad : Bool} {s : Sys α ρ}
    {f : List (List α) → Option (Option ρ)} (hm : c.mode = .command f) (hf : f all = none)
    (hd : Data c all bad s) (h : Errs s) (e : Event) : Errs (step c s e) := by
  have keep : ∀ s' : Sys α ρ, s'.emitted = s.emitted → s'.taken = s.taken → s'.pc = s.pc →
      Errs s' := by
    intro s' h1 h2 h3
    exact ⟨by rw [h1]; exact h.noC, by rw [h2, h3]; exact h.tk, by rw [h3]; exact h.fin,
      by rw [h3]; exact h.comp⟩
  have hnt : ∀ p, s.pc = p → p ≠ .error → p ≠ .returned .failed → s.taken = false := by
    intro p hp h1 h2
    cases ht : s.taken with
    | false => rfl
    | true =>
      rcases h.tk ht with hx | hx
      · exact absurd (hp.symm.trans hx) h1
      · exact absurd (hp.symm.trans hx) h2
  cases e with
  | work => exact errs_work hm hf hd h
  | beat =>
    simp only [step, beat]
    split
    · rename_i e hpc
      have ht := hnt _ hpc (by simp) (by simp)
      exact ⟨hasComplete_emit h.noC (by simp), fun hx => by simp [emit, ht] at hx, by simp [emit],
        by simp [emit]⟩
    · exact h
  | stop =>
    simp only [step, stop]
    split
    all_goals first
      | exact h
      | (rename_i he hpc
         have ht := hnt _ hpc (by simp) (by simp)
         exact ⟨h.noC, fun hx => by simp [ht] at hx, by simp, by simp⟩)
  | resume =>
    simp only [step, resume]
    split
    · rename_i he hpc
      have ht := hnt _ hpc (by simp) (by simp)
      unfold startTask
      split
      · simp only [begin, hm]
        exact ⟨h.noC, fun hx => by simp [ht] at hx, by simp, by simp⟩
      · exact ⟨h.noC, fun hx => by simp [ht] at hx, by simp, by simp⟩
    · exact keep _ rfl rfl rfl
    · exact keep _ rfl rfl rfl
    · exact h
  | reattach =>
    simp only [step, reattach]
    split
    · exact keep _ rfl rfl rfl
    · split
      · exact keep _ rfl rfl rfl
      · exact h
      · exact keep _ rfl rfl rfl
      · exact keep _ rfl rfl rfl
  | release i =>
    simp only [step, release]
    split
    · split
      · exact keep _ rfl rfl rfl
      · exact h
    · exact h
  | pull =>
    simp only [step, pull]
    split
    · exact keep _ rfl rfl rfl
    · exact h
  | deliver =>
    simp only [step, deliver]
    split
    · split
      · exact h
      · exact keep _ rfl rfl rfl
      · exact keep _ rfl rfl rfl
    · exact h
  | lose => exact keep _ rfl rfl rfl
  | drop => exact keep _ rfl rfl rfl

theorem errs_run {c : Cfg α ρ} {all : List (List α)} {bad : Bool}
    {f : List (List α) → Option (Option ρ)} (hm : c.mode = .command f) (hf : f all = none)
    (es : List Event) : ∀ s : Sys α ρ, Data c all bad s → Errs s → Errs (run c s es) := by
  induction es with
  | nil => exact fun s _ h => h
  | cons e es ih => exact fun s hd h => ih _ (data_step hd e) (errs_step hm hf hd h e)

theorem errs_init {c : Cfg α ρ} {f : List (List α) → Option (Option ρ)}
    (hm : c.mode = .command f) (batches : List (List α)) (bad : Bool) :
    Errs (init c batches bad) := by
  simp only [init, startTask, begin, hm]
  exact ⟨fun ⟨o, ho, _⟩ => absurd ho (by simp), by simp, by simp, by simp⟩

/-! ## A connected client receives everything -/

/-- A task with a client that reads its stream. -/
structure Live (s : Sys α ρ) : Prop where
  rx : s.rxOpen = true
  att : s.attached = true
  lost : s.lost = []
  pc : s.pc ≠ .returned .paused
  run : s.exec = .running

def Kont.weight : Kont → Nat
  | .next _ => 0
  | .finish => 2
  | .done => 1

/-- A bound on the number of turns the task still needs. -/
def weight (s : Sys α ρ) : Nat :=
  match s.pc with
  | .replay _ rest => rest.length + 2 * s.src.length + 9
  | .put _ (.next _) => 2 * s.src.length + 7
  | .next _ => 2 * s.src.length + 6
  | .put _ .finish => 4
  | .put _ .done => 2
  | .error => 1
  | .returned _ => 0

def phi (s : Sys α ρ) : Nat := 2 * weight s + s.chan.length + s.wire.length

theorem weight_emit (c : Cfg α ρ) (s : Sys α ρ) (b : Body α ρ) (k : Kont) :
    weight (emit c s b k) = match k with
      | .next _ => 2 * s.src.length + 7
      | .finish => 4
      | .done => 2 := by
  cases k <;> rfl

theorem weight_continue (c : Cfg α ρ) (s : Sys α ρ) (k : Kont) :
    weight (continueWith c s k) ≤ match k with
      | .next _ => 2 * s.src.length + 6
      | .finish => 2
      | .done => 0 := by
  cases k with
  | next e => exact Nat.le_refl _
  | finish =>
    simp only [continueWith]
    split
    · exact Nat.le_refl _
    · simp [weight]
  | done => exact Nat.le_refl _

theorem weight_begin (c : Cfg α ρ) (s : Sys α ρ) : weight (begin c s) ≤ 2 * s.src.length + 7 := by
  unfold begin
  split
  · exact Nat.le_refl _
  · simp [weight]

theorem weight_streamEnd (c : Cfg α ρ) (s : Sys α ρ) (e : Bool) :
    weight (streamEnd c s e) ≤ 4 := by
  unfold streamEnd
  split
  · split
    · exact Nat.le_refl _
    · exact Nat.le_trans (weight_continue c s .finish) (by simp)
  · split
    · exact Nat.le_trans (weight_continue c s .finish) (by simp)
    · split
      · simp [weight]
      · exact Nat.le_trans (weight_continue c _ .finish) (by simp)
      · exact Nat.le_refl _

theorem weight_streamNext (c : Cfg α ρ) (s : Sys α ρ) (e : Bool) (hpc : s.pc = .next e) :
    weight (streamNext c s e) < 2 * s.src.length + 6 := by
  unfold streamNext
  split
  · rename_i b rest hsrc
    rw [hsrc]
    split
    · rw [weight_emit]
      simp
      omega
    · simp [weight, hpc]
  · rename_i hsrc
    rw [hsrc]
    split
    · simp [weight]
    · have := weight_streamEnd c s e
      simp
      omega

/-- The turns of the task leave the transport alone. -/
theorem work_keeps (c : Cfg α ρ) (s : Sys α ρ) (h : Live s) :
    Live (work c s) ∧ (work c s).wire = s.wire ∧ (work c s).got = s.got := by
  obtain ⟨h1, h2, h3, h4, h5⟩ := h
  have hc : ∀ (s' : Sys α ρ) (k : Kont), s'.rxOpen = true → s'.attached = true → s'.lost = [] →
      s'.exec = .running →
      Live (continueWith c s' k) ∧ (continueWith c s' k).wire = s'.wire ∧
        (continueWith c s' k).got = s'.got := by
    intro s' k a1 a2 a3 a4
    cases k with
    | next e => exact ⟨⟨a1, a2, a3, by simp [continueWith], a4⟩, rfl, rfl⟩
    | finish =>
      simp only [continueWith]
      split
      · exact ⟨⟨a1, a2, a3, by simp [emit], a4⟩, rfl, rfl⟩
      · exact ⟨⟨a1, a2, a3, by simp, a4⟩, rfl, rfl⟩
    | done => exact ⟨⟨a1, a2, a3, by simp [continueWith], a4⟩, rfl, rfl⟩
  have hb : ∀ (s' : Sys α ρ), s'.rxOpen = true → s'.attached = true → s'.lost = [] →
      s'.exec = .running →
      Live (begin c s') ∧ (begin c s').wire = s'.wire ∧ (begin c s').got = s'.got := by
    intro s' a1 a2 a3 a4
    unfold begin
    split
    · exact ⟨⟨a1, a2, a3, by simp [emit], a4⟩, rfl, rfl⟩
    · exact ⟨⟨a1, a2, a3, by simp, a4⟩, rfl, rfl⟩
  unfold work
  split
  · rename_i o rest hpc
    rw [if_neg (by simp [h1])]
    split
    · split
      · exact hb { s with chan := [.out o] } h1 h2 h3 h5
      · exact ⟨⟨h1, h2, h3, by simp, h5⟩, rfl, rfl⟩
    · exact ⟨⟨h1, h2, h3, h4, h5⟩, rfl, rfl⟩
  · rename_i o k hpc
    rw [if_neg (by simp [h1])]
    split
    · exact hc { s with chan := [.out o] } k h1 h2 h3 h5
    · exact ⟨⟨h1, h2, h3, h4, h5⟩, rfl, rfl⟩
  · rename_i e hpc
    unfold streamNext
    split
    · split
      · exact ⟨⟨h1, h2, h3, by simp [emit], h5⟩, rfl, rfl⟩
      · exact ⟨⟨h1, h2, h3, h4, h5⟩, rfl, rfl⟩
    · split
      · exact ⟨⟨h1, h2, h3, by simp, h5⟩, rfl, rfl⟩
      · unfold streamEnd
        split
        · split
          · exact ⟨⟨h1, h2, h3, by simp [emit], h5⟩, rfl, rfl⟩
          · exact hc s .finish h1 h2 h3 h5
        · split
          · exact hc s .finish h1 h2 h3 h5
          · split
            · exact ⟨⟨h1, h2, h3, by simp, h5⟩, rfl, rfl⟩
            · exact hc { s with taken := true, held := [], runs := s.runs + 1 } .finish h1 h2 h3 h5
            · exact ⟨⟨h1, h2, h3, by simp [emit], h5⟩, rfl, rfl⟩
  · rw [if_neg (by simp [h1])]
    split
    · exact ⟨⟨h1, h2, h3, by simp, h5⟩, rfl, rfl⟩
    · exact ⟨⟨h1, h2, h3, h4, h5⟩, rfl, rfl⟩
  · exact ⟨⟨h1, h2, h3, h4, h5⟩, rfl, rfl⟩

/-- The channel after a turn of the task. -/
theorem streamNext_chan (c : Cfg α ρ) (s : Sys α ρ) (e : Bool) : (streamNext c s e).chan = s.chan := by
  unfold streamNext
  split
  · split <;> rfl
  · split
    · rfl
    · unfold streamEnd
      split
      · split
        · rfl
        · simp only [continueWith]; split <;> rfl
      · split
        · simp only [continueWith]; split <;> rfl
        · split
          · rfl
          · simp only [continueWith]; split <;> rfl
          · rfl

theorem continueWith_chan (c : Cfg α ρ) (s : Sys α ρ) (k : Kont) :
    (continueWith c s k).chan = s.chan := by
  cases k with
  | next e => rfl
  | finish => simp only [continueWith]; split <;> rfl
  | done => rfl

theorem begin_chan (c : Cfg α ρ) (s : Sys α ρ) : (begin c s).chan = s.chan := by
  unfold begin
  split <;> rfl

/-- A turn of the task makes progress unless the channel is full or the task is over. -/
theorem work_phi (c : Cfg α ρ) (s : Sys α ρ) (h : Live s) :
    phi (work c s) < phi s ∨ (work c s = s ∧ (s.chan ≠ [] ∨ ∃ r, s.pc = .returned r)) := by
  have hw := (work_keeps c s h).2.1
  unfold phi
  rw [hw]
  unfold work
  split
  · rename_i o rest hpc
    rw [if_neg (by simp [h.rx])]
    split
    · rename_i hch
      left
      split
      · have h1 := weight_begin c { s with chan := [.out o] }
        have h2 : weight s = 2 * s.src.length + 9 := by simp [weight, hpc]
        rw [begin_chan, h2, hch]
        simp only [List.length_cons, List.length_nil] at h1 ⊢
        omega
      · simp only [weight, hpc, hch, List.length_nil, List.length_cons]
        omega
    · rename_i hch
      exact .inr ⟨rfl, .inl hch⟩
  · rename_i o k hpc
    rw [if_neg (by simp [h.rx])]
    split
    · rename_i hch
      left
      have h1 := weight_continue c { s with chan := [.out o] } k
      rw [continueWith_chan, hch]
      cases k with
      | next e =>
        have h2 : weight s = 2 * s.src.length + 7 := by simp [weight, hpc]
        rw [h2]
        simp only [List.length_cons, List.length_nil] at h1 ⊢
        omega
      | finish =>
        have h2 : weight s = 4 := by simp [weight, hpc]
        rw [h2]
        simp only [List.length_cons, List.length_nil] at h1 ⊢
        omega
      | done =>
        have h2 : weight s = 2 := by simp [weight, hpc]
        rw [h2]
        simp only [List.length_cons, List.length_nil] at h1 ⊢
        omega
    · rename_i hch
      exact .inr ⟨rfl, .inl hch⟩
  · rename_i e hpc
    left
    have h1 := weight_streamNext c s e hpc
    rw [streamNext_chan]
    have h2 : weight s = 2 * s.src.length + 6 := by simp only [weight, hpc]
    omega
  · rename_i hpc
    rw [if_neg (by simp [h.rx])]
    split
    · rename_i hch
      left
      simp only [weight, hpc, hch, List.length_nil, List.length_cons]
      omega
    · rename_i hch
      exact .inr ⟨rfl, .inl hch⟩
  · rename_i r hpc
    exact .inr ⟨rfl, .inr ⟨r, hpc⟩⟩

/-- One turn of everyone: the task, the transport, the client. -/
def turn : List Event := [.work, .pull, .deliver]

theorem pull_keeps (c : Cfg α ρ) (s : Sys α ρ) (h : Live s) :
    Live (pull c s) ∧ phi (pull c s) = phi s ∧ (pull c s).pc = s.pc := by
  unfold pull
  split
  · refine ⟨⟨h.rx, h.att, h.lost, h.pc, h.run⟩, ?_, rfl⟩
    simp only [phi, weight, List.length_append, List.length_nil]
    omega
  · exact ⟨h, rfl, rfl⟩

theorem deliver_keeps (s : Sys α ρ) (h : Live s) :
    Live (deliver s) ∧ (deliver s).pc = s.pc ∧
      ((s.wire = [] ∧ deliver s = s) ∨ phi (deliver s) < phi s) := by
  unfold deliver
  rw [if_pos h.att]
  split
  · rename_i hw
    exact ⟨h, rfl, .inl ⟨hw, rfl⟩⟩
  · rename_i o rest hw
    refine ⟨⟨h.rx, h.att, h.lost, h.pc, h.run⟩, rfl, .inr ?_⟩
    simp [phi, weight, hw]
  · rename_i rest hw
    refine ⟨⟨h.rx, h.att, h.lost, h.pc, h.run⟩, rfl, .inr ?_⟩
    simp [phi, weight, hw]

theorem turn_phi (c : Cfg α ρ) (hcap : 1 ≤ c.wireCap) (s : Sys α ρ) (h : Live s) :
    Live (run c s turn) ∧
      (phi (run c s turn) < phi s ∨
        (run c s turn = s ∧ (∃ r, s.pc = .returned r) ∧ s.wire = [] ∧ s.chan = [])) := by
  obtain ⟨l1, -, -⟩ := work_keeps c s h
  obtain ⟨l2, p2, -⟩ := pull_keeps c (work c s) l1
  obtain ⟨l3, -, p3⟩ := deliver_keeps (pull c (work c s)) l2
  have hrun : run c s turn = deliver (pull c (work c s)) := rfl
  refine ⟨l3, ?_⟩
  rw [hrun]
  have hle : phi (deliver (pull c (work c s))) ≤ phi (work c s) := by
    rcases p3 with ⟨-, h3⟩ | h3
    · rw [h3, p2]
      exact Nat.le_refl _
    · omega
  rcases work_phi c s h with hlt | ⟨heq, hwhy⟩
  · left
    omega
  · rw [heq] at p2 p3 hle ⊢
    rcases p3 with ⟨hw, h3⟩ | h3
    · right
      rw [h3]
      have hpull : s.wire = [] ∧ s.chan = [] := by
        unfold pull at hw
        split at hw
        · simp only [List.append_eq_nil_iff] at hw
          exact hw
        · rename_i hc
          rw [h.rx] at hc
          rw [hw] at hc
          simp only [true_and, List.length_nil] at hc
          omega
      refine ⟨?_, ?_, hpull.1, hpull.2⟩
      · unfold pull
        split
        · cases s
          simp_all
        · rfl
      · rcases hwhy with hne | hr
        · exact absurd hpull.2 hne
        · exact hr
    · left
      omega

def turns (n : Nat) : List Event := (List.replicate n turn).flatten

theorem run_append (c : Cfg α ρ) (s : Sys α ρ) (es fs : List Event) :
    run c s (es ++ fs) = run c (run c s es) fs := by
  simp [run]

theorem run_turns_succ (c : Cfg α ρ) (s : Sys α ρ) (n : Nat) :
    run c s (turns (n + 1)) = run c (run c s turn) (turns n) := by
  simp only [turns, List.replicate_succ, List.flatten_cons]
  rw [run_append]

/-- A client that stays connected ends up with the task over and the transport empty. -/
theorem drains (c : Cfg α ρ) (hcap : 1 ≤ c.wireCap) (n : Nat) :
    ∀ s : Sys α ρ, Live s → phi s ≤ n →
      Live (run c s (turns n)) ∧ (∃ r, (run c s (turns n)).pc = .returned r) ∧
        (run c s (turns n)).wire = [] ∧ (run c s (turns n)).chan = [] := by
  induction n with
  | zero =>
    intro s h hphi
    refine ⟨h, ?_, ?_, ?_⟩
    · have hw : weight s = 0 := by
        unfold phi at hphi
        omega
      show ∃ r, s.pc = .returned r
      unfold weight at hw
      split at hw <;> first | (rename_i r hpc; exact ⟨r, hpc⟩) | (exfalso; omega)
    · have : s.wire.length = 0 := by
        unfold phi at hphi
        omega
      exact List.length_eq_zero_iff.1 this
    · have : s.chan.length = 0 := by
        unfold phi at hphi
        omega
      exact List.length_eq_zero_iff.1 this
  | succ n ih =>
    intro s h hphi
    obtain ⟨hl, hor⟩ := turn_phi c hcap s h
    rw [run_turns_succ]
    rcases hor with hlt | ⟨heq, hr, hw, hch⟩
    · exact ih _ hl (by omega)
    · have hstay : ∀ m, run c s (turns m) = s := by
        intro m
        induction m with
        | zero => rfl
        | succ m ihm => rw [run_turns_succ, heq, ihm]
      rw [heq, hstay]
      exact ⟨h, hr, hw, hch⟩

end Verif.Connect
