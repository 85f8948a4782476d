import Verif.Merge.Spec
import Mathlib.Tactic.SplitIfs

/-! # Lemmas on the expansion of MERGE: predicates, CASE expressions and projected rows -/

namespace Verif.Merge

open Verif.Opt (Row and3 eq3)

variable {α : Type} [DecidableEq α]

theorem and3_true {a b : Option Bool} : and3 a b = some true ↔ a = some true ∧ b = some true := by
  rcases a with _ | (_ | _) <;> rcases b with _ | (_ | _) <;> simp [and3]

theorem or3_true {a b : Option Bool} : or3 a b = some true ↔ a = some true ∨ b = some true := by
  rcases a with _ | (_ | _) <;> rcases b with _ | (_ | _) <;> simp [or3]

theorem foldl_or3_true : ∀ (l : List (Option Bool)) (a : Option Bool),
    l.foldl or3 a = some true ↔ a = some true ∨ some true ∈ l
  | [], a => by simp
  | b :: l, a => by
    rw [List.foldl_cons, foldl_or3_true l, or3_true, List.mem_cons]
    constructor
    · rintro ((h | h) | h)
      · exact .inl h
      · exact .inr (.inl h.symm)
      · exact .inr (.inr h)
    · rintro (h | h | h)
      · exact .inl (.inl h)
      · exact .inl (.inr h.symm)
      · exact .inr h

theorem disj_true {l : List (Option Bool)} : disj l = some true ↔ some true ∈ l := by
  cases l with
  | nil => simp [disj]
  | cons a l =>
    rw [disj, foldl_or3_true, List.mem_cons]
    constructor
    · rintro (h | h)
      · exact .inl h.symm
      · exact .inr h
    · rintro (h | h)
      · exact .inl h.symm
      · exact .inr h

theorem foldl_and3_true (t s : Row α) : ∀ (l : List (On α)) (a : Option Bool),
    l.foldl (fun acc q => and3 acc (q.eval t s)) a = some true ↔
      a = some true ∧ ∀ q ∈ l, q.eval t s = some true
  | [], a => by simp
  | b :: l, a => by
    rw [List.foldl_cons, foldl_and3_true t s l, and3_true]
    simp [and_assoc]

theorem eq3_comm (a b : Option α) : eq3 a b = eq3 b a := by
  cases a <;> cases b <;> simp [eq3, Bool.beq_comm]

/-- A conjunction is true iff all its conjuncts are. -/
theorem On.eval_conjuncts (t s : Row α) : ∀ on : On α,
    on.eval t s = some true ↔ ∀ p ∈ on.conjuncts, p.eval t s = some true
  | .and l r => by
    have hl := On.eval_conjuncts t s l
    have hr := On.eval_conjuncts t s r
    simp only [On.eval, On.conjuncts, and3_true, List.mem_append, hl, hr]
    constructor
    · rintro ⟨h1, h2⟩ p (hp | hp)
      · exact h1 p hp
      · exact h2 p hp
    · intro h
      exact ⟨fun p hp => h p (.inl hp), fun p hp => h p (.inr hp)⟩
  | .eq l r => by simp [On.conjuncts]
  | .other f => by simp [On.conjuncts]

/-- The truth of a conjunct is that of what it was made into. -/
theorem On.classify_eval (t s : Row α) (p : On α) :
    p.eval t s = some true ↔
      (∀ k, p.classify = .inl k → eq3 (k.1.eval t s) (k.2.eval t s) = some true) ∧
        ∀ q, p.classify = .inr q → q.eval t s = some true := by
  cases p with
  | and l r => simp [On.classify]
  | other f => simp [On.classify]
  | eq l r =>
    simp only [On.classify, On.eval]
    cases l.domain <;> cases r.domain <;> simp [On.eval, eq3_comm]

/-- The join condition built from the parts of the ON condition is the ON condition. -/
theorem joins_iff (on : On α) (t s : Row α) : joins on t s = true ↔ on.eval t s = some true := by
  have hkeys : (∀ k ∈ (analyzeJoin on).1, eq3 (k.1.eval t s) (k.2.eval t s) = some true) ↔
      ∀ p ∈ on.conjuncts, ∀ k, p.classify = .inl k → eq3 (k.1.eval t s) (k.2.eval t s) = some true := by
    simp only [analyzeJoin, List.mem_filterMap]
    constructor
    · intro h p hp k hk
      exact h k ⟨p, hp, by rw [hk]; rfl⟩
    · rintro h k ⟨p, hp, hk⟩
      cases hc : p.classify with
      | inl k' =>
        rw [hc] at hk
        cases hk
        exact h p hp _ hc
      | inr q =>
        rw [hc] at hk
        exact nomatch hk
  have hres : (∀ q ∈ (analyzeJoin on).2, q.eval t s = some true) ↔
      ∀ p ∈ on.conjuncts, ∀ q, p.classify = .inr q → q.eval t s = some true := by
    simp only [analyzeJoin, List.mem_filterMap]
    constructor
    · intro h p hp k hk
      exact h k ⟨p, hp, by rw [hk]; rfl⟩
    · rintro h k ⟨p, hp, hk⟩
      cases hc : p.classify with
      | inr k' =>
        rw [hc] at hk
        cases hk
        exact h p hp _ hc
      | inl q =>
        rw [hc] at hk
        exact nomatch hk
  have hfold : residualHolds t s (analyzeJoin on).2 = true ↔
      ∀ q ∈ (analyzeJoin on).2, q.eval t s = some true := by
    cases (analyzeJoin on).2 with
    | nil => simp [residualHolds]
    | cons p ps => simp [residualHolds, foldl_and3_true]
  rw [joins, Bool.and_eq_true, hfold, List.all_eq_true, hres]
  simp only [beq_iff_eq, hkeys]
  rw [On.eval_conjuncts]
  constructor
  · rintro ⟨h1, h2⟩ p hp
    exact (On.classify_eval t s p).2 ⟨h1 p hp, h2 p hp⟩
  · intro h
    exact ⟨fun p hp => ((On.classify_eval t s p).1 (h p hp)).1, fun p hp => ((On.classify_eval t s p).1 (h p hp)).2⟩

theorem joins_eq (on : On α) (t s : Row α) : joins on t s = (on.eval t s == some true) := by
  rw [Bool.eq_iff_iff, joins_iff, beq_iff_eq]

/-! ## CASE over exclusive clause predicates -/

theorem caseWhen_append {β : Type} (d : β) : ∀ l₁ l₂ : List (Option Bool × β),
    caseWhen (l₁ ++ l₂) d = caseWhen l₁ (caseWhen l₂ d)
  | [], _ => rfl
  | (p, v) :: l₁, l₂ => by
    simp only [List.cons_append, caseWhen]
    rw [caseWhen_append d l₁ l₂]

theorem caseWhen_none {β : Type} (d : β) : ∀ l : List (Option Bool × β),
    (∀ q ∈ l, q.1 ≠ some true) → caseWhen l d = d
  | [], _ => rfl
  | (p, v) :: l, h => by
    rw [caseWhen, if_neg (h (p, v) (by simp))]
    exact caseWhen_none d l (fun q hq => h q (by simp [hq]))

theorem firstMatching_false : ∀ (cs : List (Option (Option Bool))) (prior : Option (Option Bool)) (p : Option Bool),
    p ∈ firstMatching (some false) prior cs → p ≠ some true
  | [], _, _, h => by simp [firstMatching] at h
  | c :: cs, prior, p, h => by
    have hm : isTrue (and3 (some false) (c.getD (some true))) = some false := by
      simp [isTrue, and3]
    simp only [firstMatching, hm, List.mem_cons] at h
    rcases h with h | h
    · subst h
      cases prior <;> simp [and3]
    · exact firstMatching_false cs _ p h

/-- With a false base, no branch is taken. -/
theorem case_false {C β : Type} (val : C → Option (Option Bool)) (br : C → List β) (cs : List C) (d : β) :
    caseWhen ((cs.zip (firstMatching (some false) none (cs.map val))).flatMap
      (fun q => (br q.1).map (fun v => (q.2, v)))) d = d := by
  apply caseWhen_none
  intro q hq
  simp only [List.mem_flatMap, List.mem_map] at hq
  obtain ⟨⟨c, p⟩, hmem, v, _, rfl⟩ := hq
  exact firstMatching_false _ _ _ (List.of_mem_zip hmem).2

theorem case_true_go {C β : Type} (val : C → Option (Option Bool)) (br : C → List β) (d : β) :
    ∀ (cs : List C) (prior : Option (Option Bool)), (prior = none ∨ ∃ b, prior = some (some b)) →
    caseWhen ((cs.zip (firstMatching (some true) prior (cs.map val))).flatMap
      (fun q => (br q.1).map (fun v => (q.2, v)))) d =
    if prior = some (some true) then d
    else match cs.find? (fun c => (val c).getD (some true) == some true) with
      | none => d
      | some c => (br c).headD d
  | [], prior, _ => by simp [firstMatching, caseWhen]
  | c :: cs, prior, hp => by
    have hand : and3 (some true) ((val c).getD (some true)) = (val c).getD (some true) := by
      rcases (val c).getD (some true) with _ | (_ | _) <;> rfl
    simp only [List.map_cons, firstMatching, hand, List.zip_cons_cons, List.flatMap_cons, caseWhen_append]
    have hrest : ∀ prior', (prior' = none ∨ ∃ b, prior' = some (some b)) → _ :=
      fun prior' h => case_true_go val br d cs prior' h
    rcases hp with rfl | ⟨b, rfl⟩
    · simp only [reduceCtorEq, if_false]
      rw [hrest (some (isTrue ((val c).getD (some true)))) (.inr ⟨_, rfl⟩)]
      by_cases hc : (val c).getD (some true) = some true
      · simp only [hc, isTrue, beq_self_eq_true, if_true, List.find?_cons_of_pos]
        cases br c with
        | nil => rfl
        | cons v vs => simp [caseWhen]
      · have : ((val c).getD (some true) == some true) = false := by simpa using hc
        simp only [isTrue, this, Option.some.injEq, Bool.false_eq_true, if_false, List.find?_cons]
        rw [caseWhen_none]
        intro q hq
        simp only [List.mem_map] at hq
        obtain ⟨v, _, rfl⟩ := hq
        simp
    · cases b with
      | true =>
        simp only [if_true]
        rw [hrest _ (.inr ⟨true, by simp [or3]⟩)]
        have h1 : or3 (some true) (isTrue ((val c).getD (some true))) = some true := by simp [or3]
        rw [h1, if_pos rfl, caseWhen_none]
        intro q hq
        simp only [List.mem_map] at hq
        obtain ⟨v, _, rfl⟩ := hq
        simp only [not3, ne_eq, and3_true]
        simp
      | false =>
        have h1 : or3 (some false) (isTrue ((val c).getD (some true))) = isTrue ((val c).getD (some true)) := by
          simp only [isTrue]
          cases ((val c).getD (some true) == some true) <;> rfl
        have h2 : and3 (isTrue ((val c).getD (some true))) (not3 (some false)) =
            isTrue ((val c).getD (some true)) := by
          simp only [isTrue]
          cases ((val c).getD (some true) == some true) <;> rfl
        dsimp only
        rw [h1, h2, hrest (some (isTrue ((val c).getD (some true)))) (.inr ⟨_, rfl⟩)]
        by_cases hc : (val c).getD (some true) = some true
        · simp only [hc, isTrue, beq_self_eq_true, if_true, List.find?_cons_of_pos, Option.some.injEq,
            Bool.false_eq_true, if_false]
          cases br c with
          | nil => rfl
          | cons v vs => simp [caseWhen]
        · have : ((val c).getD (some true) == some true) = false := by simpa using hc
          simp only [isTrue, this, Option.some.injEq, Bool.false_eq_true, if_false, List.find?_cons]
          rw [caseWhen_none]
          intro q hq
          simp only [List.mem_map] at hq
          obtain ⟨v, _, rfl⟩ := hq
          simp

/-- With a true base, the first branch of the first clause whose condition is true is taken. -/
theorem case_true {C β : Type} (val : C → Option (Option Bool)) (br : C → List β) (cs : List C) (d : β) :
    caseWhen ((cs.zip (firstMatching (some true) none (cs.map val))).flatMap
      (fun q => (br q.1).map (fun v => (q.2, v)))) d =
    match cs.find? (fun c => (val c).getD (some true) == some true) with
      | none => d
      | some c => (br c).headD d := by
  rw [case_true_go val br d cs none (.inl rfl)]
  simp

theorem map_flatMap_singleton {C β : Type} (l : List (C × Option Bool)) (f : C → β) :
    l.map (fun q => (q.2, f q.1)) = l.flatMap (fun q => ([f q.1]).map (fun v => (q.2, v))) := by
  induction l with
  | nil => rfl
  | cons a l ih => simp [ih]

/-- The clause that the CASE finds is the one of the specification. -/
theorem pick_eq {C A : Type} (holds : C → Option Bool) (cs : List (Clause C A)) :
    Spec.pick holds cs =
      (cs.find? (fun c => (c.cond.map holds).getD (some true) == some true)).map (·.action) := by
  rw [Spec.pick]
  congr 2
  funext c
  cases c.cond <;> simp

end Verif.Merge
