import Verif.Exec.TaskState

/-! # C01: task status never moves backwards -/

namespace Verif.Exec

namespace Spec

/-- The documented order of the statuses: created, scheduled, running, finished. -/
def phase : TaskState → Nat
  | .created => 0
  | .scheduled => 1
  | .running => 2
  | .succeeded | .failed | .canceled => 3

/-- The three final statuses. -/
def Finished (s : TaskState) : Prop :=
  s = .succeeded ∨ s = .failed ∨ s = .canceled

end Spec

/-- C01: the phase never decreases, whatever reports arrive in whatever order. -/
theorem C01_status_monotone (s : TaskState) (reports : List TaskState) :
    Spec.phase s ≤ Spec.phase (s.after reports) := by
  induction reports generalizing s with
  | nil => exact Nat.le_refl _
  | cons r rs ih =>
    refine Nat.le_trans ?_ (ih (s.consolidate r))
    cases s <;> cases r <;> decide

/-- C01: a finished attempt keeps its exact status for ever. -/
theorem C01_finished_is_final (s : TaskState) (h : Spec.Finished s)
    (reports : List TaskState) : s.after reports = s := by
  induction reports with
  | nil => rfl
  | cons r rs ih =>
    have hc : s.consolidate r = s := by
      rcases h with h | h | h <;> subst h <;> rfl
    show (s.consolidate r).after rs = s
    rw [hc]; exact ih

/-- C01: the code's own terminal test is exactly "finished". -/
theorem C01_terminal_iff_finished (s : TaskState) :
    s.isTerminal = true ↔ Spec.Finished s := by
  cases s <;> simp [TaskState.isTerminal, Spec.Finished]

/-- C01: reports are not lost: the first final report of an unfinished attempt decides the
status, no matter what unfinished reports precede it and what follows. -/
theorem C01_first_final_report_wins (s f : TaskState) (before later : List TaskState)
    (hs : ¬ Spec.Finished s) (hb : ∀ r ∈ before, ¬ Spec.Finished r) (hf : Spec.Finished f) :
    s.after (before ++ f :: later) = f := by
  induction before generalizing s with
  | nil =>
    have hc : s.consolidate f = f := by
      rcases hf with h | h | h <;> subst h <;> cases s <;> simp_all [Spec.Finished, TaskState.consolidate]
    show (s.consolidate f).after later = f
    rw [hc]; exact C01_finished_is_final f hf later
  | cons r rs ih =>
    have hr := hb r (by simp)
    apply ih (s.consolidate r)
    · cases s <;> cases r <;> simp_all [Spec.Finished, TaskState.consolidate]
    · intro r' hr'; exact hb r' (by simp [hr'])

/-- C01: without a final report an attempt shows the most advanced report received. -/
theorem C01_unfinished_shows_most_advanced (s : TaskState) (reports : List TaskState)
    (hs : ¬ Spec.Finished s) (hb : ∀ r ∈ reports, ¬ Spec.Finished r) :
    Spec.phase (s.after reports) = (reports.map Spec.phase).foldl max (Spec.phase s) := by
  induction reports generalizing s with
  | nil => rfl
  | cons r rs ih =>
    have hr := hb r (by simp)
    have h1 : ¬ Spec.Finished (s.consolidate r) := by
      cases s <;> cases r <;> simp_all [Spec.Finished, TaskState.consolidate]
    have h2 : Spec.phase (s.consolidate r) = max (Spec.phase s) (Spec.phase r) := by
      cases s <;> cases r <;>
        simp_all [Spec.Finished, TaskState.consolidate, Spec.phase]
    have := ih (s.consolidate r) h1 (fun r' hr' => hb r' (by simp [hr']))
    simpa [TaskState.after, h2] using this

-- A late `running` and a duplicate `failed` after success change nothing.
example : TaskState.created.after [.running, .scheduled, .succeeded, .running, .failed]
    = .succeeded := by decide
example : Spec.Finished .failed ∧ TaskState.failed.after [.succeeded, .running] = .failed := by
  exact ⟨Or.inr (Or.inl rfl), rfl⟩
end Verif.Exec
