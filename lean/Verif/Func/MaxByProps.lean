import Verif.Func.MaxBy
/-!
# What `max_by` and `min_by` answer (C73)
-/
namespace Verif.Func.MaxBy

variable {V W : Type}

namespace Spec

/-- `lt` is a strict weak order and `cmp` reports it. -/
structure Order (cmp : W → W → Option Ordering) (lt : W → W → Prop) : Prop where
  lt_iff : ∀ a b, cmp a b = some .lt ↔ lt a b
  gt_iff : ∀ a b, cmp a b = some .gt ↔ lt b a
  irrefl : ∀ a, ¬ lt a a
  trans : ∀ a b c, ¬ lt b a → ¬ lt c b → ¬ lt c a

/-- `a` is at least as extreme as `b`. -/
def Beats (lt : W → W → Prop) (isMax : Bool) (a b : W) : Prop :=
  if isMax then ¬ lt a b else ¬ lt b a

/-- `v` is an answer: NULL when every ordering is NULL, otherwise the value on a row whose ordering
no other row's exceeds. -/
def Answer (lt : W → W → Prop) (isMax : Bool) (rows : List (Pair V W)) (v : Option V) : Prop :=
  (v = none ∧ ∀ r ∈ rows, r.2 = none) ∨
  ∃ w, (v, some w) ∈ rows ∧ ∀ r ∈ rows, ∀ w', r.2 = some w' → Beats lt isMax w w'

end Spec

open Spec

variable {cmp : W → W → Option Ordering} {lt : W → W → Prop} {isMax : Bool}

theorem beats_refl (h : Order cmp lt) (a : W) : Beats lt isMax a a := by
  unfold Beats; split <;> exact h.irrefl a

theorem beats_trans (h : Order cmp lt) {a b c : W} (h1 : Beats lt isMax a b)
    (h2 : Beats lt isMax b c) : Beats lt isMax a c := by
  unfold Beats at *
  cases isMax
  · simp only [Bool.false_eq_true, if_false] at *
    exact h.trans a b c h1 h2
  · simp only [if_true] at *
    exact h.trans c b a h2 h1

theorem beats_of_lt (h : Order cmp lt) {a b : W} (hab : lt a b) : ¬ lt b a := fun hba => by
  have h1 := (h.lt_iff a b).2 hab
  have h2 := (h.gt_iff a b).2 hba
  rw [h1] at h2
  cases h2

theorem better_beats (h : Order cmp lt) {a b : W} (hb : better cmp isMax a (some b)) :
    Beats lt isMax a b := by
  unfold better at hb
  unfold Beats
  cases hc : cmp a b with
  | none => simp [hc] at hb
  | some o =>
    cases o <;> simp only [hc] at hb
    · have := (h.lt_iff a b).1 hc
      simp at hb; subst hb
      simpa using beats_of_lt h this
    · cases hb
    · have := (h.gt_iff a b).1 hc
      subst hb
      simpa using beats_of_lt h this

theorem not_better_beats (h : Order cmp lt) {a b : W} (hb : ¬ better cmp isMax a (some b)) :
    Beats lt isMax b a := by
  unfold better at hb
  unfold Beats
  cases isMax
  · simp only [Bool.false_eq_true, if_false]
    intro hlt
    have := (h.lt_iff a b).2 hlt
    simp [this] at hb
  · simp only [if_true]
    intro hlt
    have := (h.gt_iff a b).2 hlt
    simp [this] at hb

/-- What an accumulator holds: nothing, or a row that beats all others. -/
def Holds (lt : W → W → Prop) (isMax : Bool) (s : Pair V W) (rows : List (Pair V W)) : Prop :=
  (s = (none, none) ∧ ∀ r ∈ rows, r.2 = none) ∨
  ∃ v w, s = (v, some w) ∧ (v, some w) ∈ rows ∧
    ∀ r ∈ rows, ∀ w', r.2 = some w' → Beats lt isMax w w'

/-- Taking in a row that stands for some rows it beats. -/
theorem step_holds (h : Order cmp lt) {s t : Pair V W} {l l' : List (Pair V W)}
    (hs : Holds lt isMax s l) (ht : Holds lt isMax t l') :
    Holds lt isMax (step cmp isMax s t) (l ++ l') := by
  rcases ht with ⟨rfl, hn'⟩ | ⟨v', w', rfl, hm', hb'⟩
  · simp only [step]
    rcases hs with ⟨rfl, hn⟩ | ⟨v, w, rfl, hm, hb⟩
    · exact .inl ⟨rfl, fun r hr => (List.mem_append.1 hr).elim (hn r) (hn' r)⟩
    · refine .inr ⟨v, w, rfl, List.mem_append_left _ hm, fun r hr w' hw => ?_⟩
      rcases List.mem_append.1 hr with hr | hr
      · exact hb r hr w' hw
      · rw [hn' r hr] at hw; cases hw
  · simp only [step]
    rcases hs with ⟨rfl, hn⟩ | ⟨v, w, rfl, hm, hb⟩
    · refine .inr ⟨v', w', by simp [better], List.mem_append_right _ hm', fun r hr u hu => ?_⟩
      rcases List.mem_append.1 hr with hr | hr
      · rw [hn r hr] at hu; cases hu
      · exact hb' r hr u hu
    · by_cases hbet : better cmp isMax w' (some w)
      · refine .inr ⟨v', w', by simp [hbet], List.mem_append_right _ hm', fun r hr u hu => ?_⟩
        rcases List.mem_append.1 hr with hr | hr
        · exact beats_trans h (better_beats h hbet) (hb r hr u hu)
        · exact hb' r hr u hu
      · refine .inr ⟨v, w, by simp [hbet], List.mem_append_left _ hm, fun r hr u hu => ?_⟩
        rcases List.mem_append.1 hr with hr | hr
        · exact hb r hr u hu
        · exact beats_trans h (not_better_beats h hbet) (hb' r hr u hu)

theorem row_holds (h : Order cmp lt) (r : Pair V W) (hr : r.2 ≠ none) : Holds lt isMax r [r] := by
  obtain ⟨v, w⟩ := r
  cases w with
  | none => exact absurd rfl hr
  | some w =>
    refine .inr ⟨v, w, rfl, by simp, fun r hr w' hw => ?_⟩
    simp only [List.mem_singleton] at hr
    subst hr
    cases hw
    exact beats_refl h w

theorem step_row (h : Order cmp lt) {s : Pair V W} {l : List (Pair V W)}
    (hs : Holds lt isMax s l) (r : Pair V W) : Holds lt isMax (step cmp isMax s r) (l ++ [r]) := by
  by_cases hr : r.2 = none
  · have e : step cmp isMax s r = step cmp isMax s (none, none) := by simp [step, hr]
    rw [e]
    refine step_holds h hs (.inl ⟨rfl, fun r' hr' => ?_⟩)
    simp only [List.mem_singleton] at hr'
    rw [hr', hr]
  · exact step_holds h hs (row_holds h r hr)

theorem reaches_holds (h : Order cmp lt) {s : Pair V W} {l : List (Pair V W)}
    (hr : (agg cmp isMax).Reaches s l) : Holds lt isMax s l := by
  refine hr.induct (P := Holds lt isMax) (fun s t => .ok (mergeOne cmp isMax s t))
    (fun _ _ => rfl) ?_ ?_ ?_ ?_ ?_
  · exact .inl ⟨rfl, by simp⟩
  · intro s s' l b hs hu
    simp only [agg, Except.ok.injEq] at hu
    subst hu
    clear hr
    induction b generalizing s l with
    | nil => simpa using hs
    | cons r b ih => simpa using ih (step cmp isMax s r) (l ++ [r]) (step_row h hs r)
  · intro s s' l hs ha; cases ha; exact hs
  · intro s l s' hs he
    simp only [Except.ok.injEq] at he
    subst he
    have := step_holds h hs (t := (none, none)) (l' := []) (.inl ⟨rfl, by simp⟩)
    simpa [mergeOne] using this
  · intro s t l l' s' hs ht he
    simp only [Except.ok.injEq] at he
    subst he
    exact step_holds h hs ht

/-- **C73**, `max_by` and `min_by`: NULL when every ordering is NULL, otherwise the value on a row
whose ordering is the greatest (least), however the rows are spread and merged. -/
theorem C73_max_by (h : Order cmp lt) {s : Pair V W} {l : List (Pair V W)}
    (hr : (agg cmp isMax).Reaches s l) : Answer lt isMax l ((agg cmp isMax).eval s) := by
  rcases reaches_holds h hr with ⟨rfl, hn⟩ | ⟨v, w, rfl, hm, hb⟩
  · exact .inl ⟨rfl, hn⟩
  · exact .inr ⟨w, hm, hb⟩

/-- **C73**, the plan the optimizer puts in its place: an answer over the rows the aggregate's own
filter keeps. -/
theorem C73_max_by_simplified (h : Order cmp lt) {keep : Pair V W → Bool}
    {rows : List (Pair V W)} {v : Option V} (hs : Simplified cmp isMax keep rows v) :
    Answer lt isMax (rows.filter keep) v := by
  obtain ⟨sorted, hp, hpw, hv⟩ := hs.ofSorted
  have hmem : ∀ r, r ∈ sorted ↔ r ∈ rows.filter keep ∧ r.2.isSome := by
    intro r
    rw [hp.mem_iff]
    simp [and_assoc]
  rcases List.eq_nil_or_concat sorted with rfl | ⟨init, last, rfl⟩
  · left
    refine ⟨by simpa using hv, fun r hr => ?_⟩
    have : ¬ (r ∈ rows.filter keep ∧ r.2.isSome) := fun hh => by
      have := (hmem r).2 hh
      simp at this
    cases hr2 : r.2 with
    | none => rfl
    | some w => exact absurd ⟨hr, by simp [hr2]⟩ this
  · right
    obtain ⟨hl, hl2⟩ := (hmem last).1 (by simp)
    obtain ⟨v', w'⟩ := last
    cases w' with
    | none => cases hl2
    | some w =>
      simp only [List.concat_eq_append, List.getLast?_append, List.getLast?_singleton,
        Option.some_or, Option.bind_some] at hv
      subst hv
      refine ⟨w, hl, fun r hr u hu => ?_⟩
      have hr' : r ∈ init.concat (v, some w) := (hmem r).2 ⟨hr, by simp [hu]⟩
      rw [List.concat_eq_append] at hr' hpw
      rcases List.mem_append.1 hr' with hi | hi
      · have := (List.pairwise_append.1 hpw).2.2 r hi (v, some w) (by simp)
        rw [hu] at this
        unfold Beats
        cases isMax
        · simp only [mayPrecede, Bool.false_eq_true, if_false, bne_iff_ne, ne_eq] at this ⊢
          exact fun hlt => this ((h.lt_iff u w).2 hlt)
        · simp only [mayPrecede, if_true, bne_iff_ne, ne_eq] at this ⊢
          exact fun hlt => this ((h.gt_iff u w).2 hlt)
      · simp only [List.mem_singleton] at hi
        subst hi
        cases hu
        exact beats_refl h w

/-- **C73**: where the rows with the extreme ordering agree on the value, there is one answer, so
neither the spread of the rows nor the optimizer's rewriting can change it. -/
theorem C73_max_by_unique {rows rows' : List (Pair V W)} (hp : rows.Perm rows') {v v' : Option V}
    (hu : ∀ r ∈ rows, ∀ r' ∈ rows, ∀ w w', r.2 = some w → r'.2 = some w' →
      Beats lt isMax w w' → Beats lt isMax w' w → r.1 = r'.1)
    (h1 : Answer lt isMax rows v) (h2 : Answer lt isMax rows' v') : v = v' := by
  rcases h1 with ⟨rfl, hn⟩ | ⟨w, hm, hb⟩ <;> rcases h2 with ⟨rfl, hn'⟩ | ⟨w', hm', hb'⟩
  · rfl
  · have := hn _ (hp.mem_iff.2 hm'); cases this
  · have := hn' _ (hp.mem_iff.1 hm); cases this
  · exact hu (v, some w) hm (v', some w') (hp.mem_iff.2 hm') w w' rfl rfl
      (hb _ (hp.mem_iff.2 hm') w' rfl) (hb' _ (hp.mem_iff.1 hm) w rfl)

/-- The comparison of integers. -/
def cmpInt (a b : Int) : Option Ordering := some (compare a b)

theorem cmpInt_order : Order cmpInt (fun a b : Int => a < b) where
  lt_iff a b := by simp [cmpInt, Int.compare_eq_lt]
  gt_iff a b := by simp [cmpInt, Int.compare_eq_gt]
  irrefl a := by omega
  trans a b c := by omega

/-- With a tie the order of the rows decides: of the rows `(1, 5)` and `(2, 5)` the accumulator
answers the value of the first it meets. -/
theorem C73_max_by_tie : ∃ (l l' : List (Pair Int Int)) (s s' : Pair Int Int), l.Perm l' ∧
    (agg cmpInt true).Reaches s l ∧ (agg cmpInt true).Reaches s' l' ∧
    (agg cmpInt true).eval s = some 1 ∧ (agg cmpInt true).eval s' = some 2 := by
  refine ⟨[(some 1, some 5), (some 2, some 5)], [(some 2, some 5), (some 1, some 5)], _, _,
    List.Perm.swap _ _ _, Accumulator.Reaches.rows .fresh rfl, Accumulator.Reaches.rows .fresh rfl,
    ?_, ?_⟩ <;> decide +kernel

/-- Two partitions: a NULL ordering is not the greatest, a NULL value can be the answer. -/
example : ∃ s, (agg cmpInt true).run
      [[[(some 1, some 3), (some 2, none)]], [[(none, some 9)], [(some 4, some 8)]]] = .ok s ∧
    (agg cmpInt true).eval s = (none : Option Int) ∧ s.2 = some 9 := ⟨_, rfl, by decide +kernel⟩

example : ∃ s, (agg cmpInt false).run
      [[[(some 1, some 3), (some 2, none)]], [[(none, some 9)], [(some 4, some 8)]]] = .ok s ∧
    (agg cmpInt false).eval s = (some 1 : Option Int) := ⟨_, rfl, by decide +kernel⟩

/-- The rewritten plan on the same rows. -/
example : Simplified cmpInt false (fun _ => true)
    [(some 1, some 3), (some 2, none), (none, some 9), (some 4, some 8)] (some 1 : Option Int) :=
  ⟨[(none, some 9), (some 4, some 8), (some 1, some 3)], by
    refine ⟨?_, by decide, rfl⟩
    show List.Perm _ [(some 1, some 3), (none, some 9), (some 4, some 8)]
    exact (List.perm_append_comm (l₁ := [(none, some 9), (some 4, some 8)])
      (l₂ := [(some 1, some 3)]))⟩

end Verif.Func.MaxBy
