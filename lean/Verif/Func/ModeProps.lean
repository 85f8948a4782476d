import Verif.Func.Mode
/-! # `mode`: theorems -/
namespace Verif.Func.Mode

open Counts Accumulator

variable {α : Type} [DecidableEq α]

/-- A strict total order. -/
structure Spec.Total (lt : α → α → Bool) : Prop where
  irrefl : ∀ a, lt a a = false
  trans : ∀ a b c, lt a b = true → lt b c = true → lt a c = true
  total : ∀ a b, lt a b = true ∨ a = b ∨ lt b a = true

/-- What `mode` promises for the values `l` (without NULLs): no value for no rows, otherwise one that
is as frequent as any other, and the lowest or highest of those when `low` says so. -/
def Spec.IsMode (low : Bool) (lt : α → α → Bool) (l : List α) (r : Option α) : Prop :=
  match r with
  | none => l = []
  | some v => v ∈ l ∧ (∀ w, l.count w ≤ l.count v) ∧
      ∀ w, l.count w = l.count v → if low then lt w v = false else lt v w = false

open Spec

theorem IsMode.unique {low : Bool} {lt : α → α → Bool} (ht : Total lt) {l l' : List α} (hp : l.Perm l')
    {r r' : Option α} (h : IsMode low lt l r) (h' : IsMode low lt l' r') : r = r' := by
  cases r with
  | none =>
    cases r' with
    | none => rfl
    | some v =>
      simp only [IsMode] at h h'
      subst h
      exact absurd (hp.mem_iff.mpr h'.1) (by simp)
  | some v =>
    cases r' with
    | none =>
      simp only [IsMode] at h h'
      subst h'
      exact absurd (hp.mem_iff.mp h.1) (by simp)
    | some w =>
      obtain ⟨h1, h2, h3⟩ := h
      obtain ⟨h4, h5, h6⟩ := h'
      have hc := fun x => hp.count_eq x
      have e1 : l.count w = l.count v := by
        have := h2 w
        have := h5 v
        rw [← hc, ← hc] at this
        omega
      have h7 := h3 w e1
      have h8 := h6 v (by rw [← hc, ← hc]; omega)
      rcases ht.total v w with h | h | h
      · cases low <;> simp_all
      · rw [h]
      · cases low <;> simp_all

theorem rows_rep (m : List (α × Nat)) (l : List α) (h : Rep m l) (rows : List (Option α)) :
    Rep (update m rows) (l ++ rows.filterMap id) := by
  induction rows generalizing m l with
  | nil => simpa [update] using h
  | cons r rows ih =>
    cases r with
    | none => simpa [update] using ih m l h
    | some v =>
      have h1 := h.bump v (n := 1) (by decide)
      have h2 := ih _ _ h1
      simpa [update] using h2

omit [DecidableEq α] in
theorem zip_fst_snd (m : List (α × Nat)) : (m.map Prod.fst).zip (m.map Prod.snd) = m := by
  induction m with
  | nil => rfl
  | cons e m ih => simp [ih]

theorem rep_of {A : Accumulator Err (List (α × Nat)) (Option α) (State α) (Option α)}
    (hi : A.init = []) (hu : ∀ m rows, A.update m rows = .ok (update m rows))
    (hs : ∀ m, A.state m = state m)
    (hm : ∀ m states, A.merge m states = .ok (states.foldl mergeOne m))
    (ha : ∀ m m', A.alike m m' → m.Perm m')
    {m : List (α × Nat)} {l : List (Option α)} (h : A.Reaches m l) : Rep m (l.filterMap id) := by
  refine Reaches.induct (P := fun m l => Rep m (l.filterMap id)) (fun m s => .ok (mergeOne m s))
    (fun s b => by rw [hm, foldlM_ok]) ?_ ?_ ?_ ?_ ?_ h
  · rw [hi]
    exact Rep.empty
  · intro s s' l b hP he
    rw [hu] at he
    cases he
    simpa using rows_rep s _ hP b
  · intro s s' l hP he
    exact hP.perm (ha _ _ he)
  · intro s l s' hP he
    cases he
    exact hP
  · intro s t l l' s' h1 h2 he
    rw [hs] at he
    cases he
    simp only [mergeOne, state, zip_fst_snd, List.filterMap_append]
    refine (h1.fold t h2.pos).perm_rows ?_
    exact h2.expand_perm.append_left _

/-! ## The loop of `evaluate` -/

/-- What the loop has found in the entries it has seen. -/
def Best (low : Bool) (lt : α → α → Bool) (seen : List (α × Nat)) (acc : Option α × Nat) : Prop :=
  (∀ e ∈ seen, e.2 ≤ acc.2) ∧
  match acc.1 with
  | none => seen = [] ∧ acc.2 = 0
  | some v => (v, acc.2) ∈ seen ∧
      ∀ e ∈ seen, e.2 = acc.2 → if low then lt e.1 v = false else lt v e.1 = false

omit [DecidableEq α] in
theorem step_best {tb : TieBreak} {lt : α → α → Bool} (ht : Total lt) {seen : List (α × Nat)}
    {acc : Option α × Nat} (h : Best (tb == .lowest) lt seen acc) {e : α × Nat} (he : 0 < e.2) :
    Best (tb == .lowest) lt (seen ++ [e]) (step tb lt acc e) := by
  obtain ⟨cur, n⟩ := acc
  obtain ⟨h1, h2⟩ := h
  have hirr := ht.irrefl
  have htr := ht.trans
  have htot := ht.total
  unfold step
  simp only at h1 h2 ⊢
  split
  · rename_i hgt
    refine ⟨?_, ?_⟩
    · intro x hx
      rw [List.mem_append, List.mem_singleton] at hx
      rcases hx with hx | rfl
      · have := h1 x hx
        simp only
        omega
      · exact Nat.le_refl _
    · refine ⟨by simp, ?_⟩
      intro x hx hxe
      rw [List.mem_append, List.mem_singleton] at hx
      rcases hx with hx | rfl
      · have := h1 x hx
        simp only at hxe
        omega
      · split <;> exact hirr _
  · split
    · rename_i hne heq
      cases cur with
      | none => simp only at h2; omega
      | some v =>
        simp only at h2
        have hmem : ∀ x ∈ seen ++ [e], x.2 ≤ n := by
          intro x hx
          rw [List.mem_append, List.mem_singleton] at hx
          rcases hx with hx | rfl
          · exact h1 x hx
          · omega
        refine ⟨hmem, ?_⟩
        by_cases hlow : tb = .lowest
        · subst hlow
          simp only [beq_self_eq_true, if_true] at h2
          by_cases hl : lt e.1 v = true
          · simp only [hl, and_self, if_true, beq_self_eq_true]
            refine ⟨by simp [← heq], ?_⟩
            intro x hx hxe
            rw [List.mem_append, List.mem_singleton] at hx
            rcases hx with hx | rfl
            · have h4 := h2.2 x hx hxe
              cases hxl : lt x.1 e.1 with
              | false => rfl
              | true => rw [htr _ _ _ hxl hl] at h4; cases h4
            · exact hirr _
          · have hl' : lt e.1 v = false := by simpa using hl
            simp only [hl', Bool.false_eq_true, and_false, if_false, ne_eq, not_true, false_and,
              beq_self_eq_true, if_true]
            refine ⟨List.mem_append_left _ h2.1, ?_⟩
            intro x hx hxe
            rw [List.mem_append, List.mem_singleton] at hx
            rcases hx with hx | rfl
            · exact h2.2 x hx hxe
            · exact hl'
        · have hb : (tb == TieBreak.lowest) = false := by simpa using hlow
          simp only [hb, Bool.false_eq_true, if_false] at h2
          by_cases hl : lt v e.1 = true
          · simp only [hlow, hl, false_and, if_false, ne_eq, not_false_iff, true_and, if_true, hb,
              Bool.false_eq_true]
            refine ⟨by simp [← heq], ?_⟩
            intro x hx hxe
            rw [List.mem_append, List.mem_singleton] at hx
            rcases hx with hx | rfl
            · have h4 := h2.2 x hx hxe
              cases hxl : lt e.1 x.1 with
              | false => rfl
              | true => rw [htr _ _ _ hl hxl] at h4; cases h4
            · exact hirr _
          · have hl' : lt v e.1 = false := by simpa using hl
            simp only [hlow, hl', false_and, if_false, ne_eq, not_false_iff, and_false,
              Bool.false_eq_true, hb]
            refine ⟨List.mem_append_left _ h2.1, ?_⟩
            intro x hx hxe
            rw [List.mem_append, List.mem_singleton] at hx
            rcases hx with hx | rfl
            · exact h2.2 x hx hxe
            · exact hl'
    · rename_i hne hne'
      cases cur with
      | none => simp only at h2; omega
      | some v =>
        simp only at h2
        refine ⟨?_, List.mem_append_left _ h2.1, ?_⟩
        · intro x hx
          rw [List.mem_append, List.mem_singleton] at hx
          rcases hx with hx | rfl
          · exact h1 x hx
          · simp only; omega
        · intro x hx hxe
          rw [List.mem_append, List.mem_singleton] at hx
          rcases hx with hx | rfl
          · exact h2.2 x hx hxe
          · simp only at hxe; omega

omit [DecidableEq α] in
theorem fold_best {tb : TieBreak} {lt : α → α → Bool} (ht : Total lt) (m seen : List (α × Nat))
    (acc : Option α × Nat) (h : Best (tb == .lowest) lt seen acc) (hpos : ∀ e ∈ m, 0 < e.2) :
    Best (tb == .lowest) lt (seen ++ m) (m.foldl (step tb lt) acc) := by
  induction m generalizing seen acc with
  | nil => simpa using h
  | cons e m ih =>
    have h1 := step_best ht h (hpos e (.head _))
    have h2 := ih _ _ h1 (fun x hx => hpos x (.tail _ hx))
    simpa using h2

theorem Best.isMode {low : Bool} {lt : α → α → Bool} {m : List (α × Nat)} {acc : Option α × Nat}
    (h : Best low lt m acc) {l : List α} (hr : Rep m l) : IsMode low lt l acc.1 := by
  obtain ⟨cur, n⟩ := acc
  obtain ⟨h1, h2⟩ := h
  cases cur with
  | none =>
    simp only at h2
    simp only [IsMode]
    rw [List.eq_nil_iff_forall_not_mem]
    intro x hx
    have := (hr.mem_iff x _).mpr ⟨rfl, List.count_pos_iff.mpr hx⟩
    rw [h2.1] at this
    cases this
  | some v =>
    simp only at h2
    obtain ⟨h3, h4⟩ := h2
    have h5 := (hr.mem_iff _ _).mp h3
    refine ⟨List.count_pos_iff.mp (by omega), fun w => ?_, fun w hw => ?_⟩
    · rcases Nat.eq_zero_or_pos (l.count w) with h0 | h0
      · omega
      · have := h1 _ ((hr.mem_iff w _).mpr ⟨rfl, h0⟩)
        simp only at this
        omega
    · have := h4 (w, l.count w) ((hr.mem_iff w _).mpr ⟨rfl, by omega⟩) (by simp only; omega)
      exact this

/-- C73: `mode` over integers, dates and times is NULL without values and otherwise a most frequent
value, the lowest of them when this is asked for and the highest of them otherwise, whatever the
partitions, batches, merges and the iteration order of the hash map are. -/
theorem C73_mode {tb : TieBreak} {lt : α → α → Bool} (ht : Total lt) {m : List (α × Nat)}
    {l : List (Option α)} (h : (mode tb lt).Reaches m l) :
    IsMode (tb == .lowest) lt (l.filterMap id) ((mode tb lt).eval m) := by
  have hr := rep_of (A := mode tb lt) rfl (fun _ _ => rfl) (fun _ => rfl) (fun _ _ => rfl)
    (fun _ _ h => h) h
  have := fold_best (tb := tb) ht m [] (none, 0) ⟨by simp, rfl, rfl⟩ hr.pos
  exact this.isMode hr

/-- C72: `mode` over integers, dates and times does not depend on how the rows are spread, nor on the
iteration order of the hash map, even when no tie break is asked for. -/
theorem C72_mode {tb : TieBreak} {lt : α → α → Bool} (ht : Total lt) {m m' : List (α × Nat)}
    {l l' : List (Option α)} (h : (mode tb lt).Reaches m l) (h' : (mode tb lt).Reaches m' l')
    (hp : l.Perm l') : (mode tb lt).eval m = (mode tb lt).eval m' :=
  IsMode.unique ht (hp.filterMap id) (C73_mode ht h) (C73_mode ht h')

/-! ## Strings -/

omit [DecidableEq α] in
theorem fold_greater {tb : TieBreak} {lt : α → α → Bool} (ht : Total lt) (m seen : List (α × Nat))
    (acc : α × Nat)
    (h : acc ∈ seen ∧ ∀ e ∈ seen, e.2 ≤ acc.2 ∧
      (e.2 = acc.2 → if tb != .highest then lt e.1 acc.1 = false else lt acc.1 e.1 = false)) :
    let r := m.foldl (fun acc x => if greater tb lt acc x then acc else x) acc
    r ∈ seen ++ m ∧ ∀ e ∈ seen ++ m, e.2 ≤ r.2 ∧
      (e.2 = r.2 → if tb != .highest then lt e.1 r.1 = false else lt r.1 e.1 = false) := by
  induction m generalizing seen acc with
  | nil => simpa using h
  | cons x m ih =>
    obtain ⟨h1, h2⟩ := h
    have hirr := ht.irrefl
    have htr := ht.trans
    have htot := ht.total
    have key : (if greater tb lt acc x then acc else x) ∈ seen ++ [x] ∧ ∀ e ∈ seen ++ [x],
        e.2 ≤ (if greater tb lt acc x then acc else x).2 ∧
        (e.2 = (if greater tb lt acc x then acc else x).2 →
          if tb != .highest then lt e.1 (if greater tb lt acc x then acc else x).1 = false
          else lt (if greater tb lt acc x then acc else x).1 e.1 = false) := by
      have himp : ∀ a b : α, lt a b = false → a ≠ b → lt b a = true := by
        intro a b hab hne
        rcases htot a b with h | h | h
        · rw [h] at hab; cases hab
        · exact absurd h hne
        · exact h
      have hasym : ∀ a b : α, lt a b = true → lt b a = false := by
        intro a b hab
        cases hba : lt b a with
        | false => rfl
        | true =>
          have := htr a b a hab hba
          rw [hirr] at this
          cases this
      have hneg : ∀ a b c : α, lt a b = false → lt b c = false → lt a c = false := by
        intro a b c hab hbc
        cases hac : lt a c with
        | false => rfl
        | true =>
          rcases htot a b with h | h | h
          · rw [h] at hab; cases hab
          · subst h; rw [hac] at hbc; cases hbc
          · have := htr b a c h hac
            rw [this] at hbc; cases hbc
      cases hg : greater tb lt acc x with
      | true =>
        simp only [if_true]
        refine ⟨List.mem_append_left _ h1, ?_⟩
        intro e he
        rw [List.mem_append, List.mem_singleton] at he
        rcases he with he | rfl
        · exact h2 e he
        · unfold greater at hg
          split at hg
          · rename_i heq
            refine ⟨by omega, fun _ => ?_⟩
            cases tb <;> simp at hg ⊢ <;> exact hasym _ _ hg
          · rename_i hne
            have : e.2 < acc.2 := by simpa using hg
            exact ⟨by omega, fun h => by omega⟩
      | false =>
        simp only [Bool.false_eq_true, if_false]
        refine ⟨by simp, ?_⟩
        intro e he
        rw [List.mem_append, List.mem_singleton] at he
        rcases he with he | rfl
        · have h3 := h2 e he
          unfold greater at hg
          split at hg
          · rename_i heq
            refine ⟨by omega, fun h => ?_⟩
            have h4 := h3.2 (by omega)
            cases tb <;> simp at hg h4 ⊢
            · exact hneg _ _ _ h4 hg
            · exact hneg _ _ _ h4 hg
            · exact hneg _ _ _ hg h4
          · rename_i hne
            have : acc.2 ≤ e.2 ∨ acc.2 ≤ x.2 := by right; simpa using hg
            have h5 : acc.2 ≤ x.2 := by simpa using hg
            exact ⟨by omega, fun h => by omega⟩
        · exact ⟨Nat.le_refl _, fun _ => by split <;> exact hirr _⟩
    have := ih (seen ++ [x]) _ key
    simpa using this

/-- C73: `mode` over strings is NULL without values and otherwise a most frequent value, the highest
of them when this is asked for and the lowest of them otherwise. -/
theorem C73_mode_string {tb : TieBreak} {lt : α → α → Bool} (ht : Total lt) {m : List (α × Nat)}
    {l : List (Option α)} (h : (modeString tb lt).Reaches m l) :
    IsMode (tb != .highest) lt (l.filterMap id) ((modeString tb lt).eval m) := by
  have hr := rep_of (A := modeString tb lt) rfl (fun _ _ => rfl) (fun _ => rfl) (fun _ _ => rfl)
    (fun _ _ h => h) h
  have hb : Best (tb != .highest) lt m
      ((modeString tb lt).eval m, match m with | [] => 0 | e :: m => (m.foldl (fun acc x =>
        if greater tb lt acc x then acc else x) e).2) := by
    cases m with
    | nil => exact ⟨by simp, rfl, rfl⟩
    | cons e m =>
      have := fold_greater (tb := tb) ht m [e] e
        ⟨by simp, by simp only [List.mem_singleton]; rintro x rfl; exact ⟨Nat.le_refl _, fun _ => by
          split <;> exact ht.irrefl _⟩⟩
      simp only at this
      exact ⟨fun x hx => (this.2 x hx).1, this.1, fun x hx => (this.2 x hx).2⟩
  exact hb.isMode hr

/-- C72: `mode` over strings does not depend on how the rows are spread. -/
theorem C72_mode_string {tb : TieBreak} {lt : α → α → Bool} (ht : Total lt) {m m' : List (α × Nat)}
    {l l' : List (Option α)} (h : (modeString tb lt).Reaches m l)
    (h' : (modeString tb lt).Reaches m' l') (hp : l.Perm l') :
    (modeString tb lt).eval m = (modeString tb lt).eval m' :=
  IsMode.unique ht (hp.filterMap id) (C73_mode_string ht h) (C73_mode_string ht h')

/-- C72, a negation: over floats the order is not total, and a tie between NaN and a number is
decided by the iteration order of the hash map, even when the lowest value is asked for.  (`none`
stands for NaN, `some i` for the number `i`.) -/
theorem C72_mode_nan :
    let lt : Option Int → Option Int → Bool := fun a b =>
      match a, b with | some a, some b => decide (a < b) | _, _ => false
    let A := mode .lowest lt
    A.Reaches [(none, 1), (some 1, 1)] [some none, some (some 1)] ∧
    A.Reaches [(some 1, 1), (none, 1)] [some none, some (some 1)] ∧
    A.eval [(none, 1), (some 1, 1)] = some none ∧ A.eval [(some 1, 1), (none, 1)] = some (some 1) := by
  intro lt A
  have h : A.Reaches [(none, 1), (some 1, 1)] ([] ++ [some none, some (some 1)]) :=
    .rows .fresh rfl
  exact ⟨h, .alike h (List.Perm.swap _ _ _), by decide, by decide⟩

/-- C73: the second argument of `mode`: without it, or with false, any most frequent value; with true
or the sentinel of an ascending order the lowest; with that of a descending order the highest. -/
theorem C73_tie_break (a : Option (Option Literal)) :
    (resolveTieBreak a = .ok .any ↔ a = none ∨ a = some (some (.bool (some false)))) ∧
    (resolveTieBreak a = .ok .lowest ↔
      a = some (some (.bool (some true))) ∨ a = some (some (.string (some "lowest")))) ∧
    (resolveTieBreak a = .ok .highest ↔ a = some (some (.string (some "highest")))) := by
  unfold resolveTieBreak
  split <;> simp_all

example : Spec.Total (fun a b : Int => decide (a < b)) :=
  ⟨by simp, by simp; omega, by simp; omega⟩

/-- Two partitions with a tie. -/
example : ((mode .lowest (fun a b : Int => decide (a < b))).run
      [[[some 3, none], [some 5]], [[some 5, some 3, some 9]]]).map
      (mode .lowest (fun a b : Int => decide (a < b))).eval = .ok (some 3) ∧
    ((modeString .highest (fun a b : Int => decide (a < b))).run
      [[[some 3, none], [some 5]], [[some 5, some 3, some 9]]]).map
      (modeString .highest (fun a b : Int => decide (a < b))).eval = .ok (some 5) := by
  decide +kernel

end Verif.Func.Mode
