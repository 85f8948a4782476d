import Verif.Func.TryAvg
import Mathlib.Tactic.SplitIfs
import Mathlib.Tactic.Ring
/-!
# What `try_avg` answers (C72, C73)
-/
namespace Verif.Func.TryAvg

namespace Spec

/-- The values of the rows, without NULLs. -/
def values (l : List (Option Int)) : List Int := l.filterMap id

/-- No sum of any selection of the rows leaves the range of the result type, and the rows can be
counted in 64 bits. -/
def Safe (k : Kind) (l : List (Option Int)) : Prop :=
  (∀ m rest : List Int, (values l).Perm (m ++ rest) → fits k m.sum) ∧ (values l).length < 2 ^ 63

/-- `q` is `a / n` with the digits after the point cut off. -/
def Truncated (a : Int) (n : Nat) (q : Int) : Prop :=
  (0 ≤ a → q * n ≤ a ∧ a < (q + 1) * n) ∧ (a < 0 → a ≤ q * n ∧ (q - 1) * n < a)

/-- `q` is the integer nearest to `a / n`; of two, the one away from zero. -/
def Rounded (a : Int) (n : Nat) (q : Int) : Prop :=
  (0 ≤ a → 2 * (q * n) ≤ 2 * a + n ∧ 2 * a < 2 * (q * n) + n) ∧
  (a < 0 → 2 * a - n ≤ 2 * (q * n) ∧ 2 * (q * n) - n < 2 * a)

end Spec

open Spec

theorem values_append (l m : List (Option Int)) : values (l ++ m) = values l ++ values m := by
  simp [values]

theorem sum_perm {l m : List Int} (h : l.Perm m) : l.sum = m.sum := by
  induction h with
  | nil => rfl
  | cons _ _ ih => simp [ih]
  | swap _ _ _ => simp only [List.sum_cons]; omega
  | trans _ _ h1 h2 => exact h1.trans h2

/-- The sum a correct accumulator holds. -/
def sumOf (l : List (Option Int)) : Option Int :=
  if values l = [] then none else some (values l).sum

/-- What an accumulator that has not failed holds. -/
def Holds (s : State) (l : List (Option Int)) : Prop :=
  s.failed = false → s.sum = sumOf l ∧ s.count = (values l).length

theorem add_eq {k : Kind} {acc : Option Int} {v n : Int} (h : add k acc v = some n) :
    n = acc.getD 0 + v := by
  unfold add at h
  split at h <;> split_ifs at h <;> simp_all

theorem fits_inWord {k : Kind} {x : Int} (hk : ∀ p, k = .decimal p → p ≤ 38) (h : fits k x) :
    inWord k x := by
  cases k with
  | months => simp only [fits, inWord, Bool.and_eq_true, decide_eq_true_eq] at h ⊢; omega
  | decimal p =>
    have hp := hk p rfl
    have : (10 : Int) ^ p ≤ 10 ^ 38 := by
      have h := Nat.pow_le_pow_right (n := 10) (by omega) hp
      exact_mod_cast h
    have h38 : (10 : Int) ^ 38 ≤ 2 ^ 127 := by decide
    simp only [fits, inWord, Bool.and_eq_true, decide_eq_true_eq] at h ⊢
    omega

theorem sumOf_snoc (l : List (Option Int)) (v : Int) :
    sumOf (l ++ [some v]) = some ((sumOf l).getD 0 + v) := by
  unfold sumOf
  have : values (l ++ [some v]) = values l ++ [v] := by simp [values]
  rw [this]
  by_cases h : values l = [] <;> simp [h]

theorem step_holds {k : Kind} {s : State} {l : List (Option Int)} (v : Option Int)
    (h : Holds s l) : Holds (step k s v) (l ++ [v]) := by
  intro hf
  unfold step at hf ⊢
  by_cases hs : s.failed
  · simp [hs] at hf
  · rw [if_neg hs] at hf ⊢
    have hs' : s.failed = false := by simpa using hs
    obtain ⟨h1, h2⟩ := h hs'
    cases v with
    | none => simpa [values_append, values, sumOf, h1] using h2
    | some v =>
      simp only at hf ⊢
      cases ha : add k s.sum v with
      | none => simp [ha] at hf
      | some n =>
        simp only [ha] at hf ⊢
        cases hc : addCount s.count 1 with
        | none => simp [hc] at hf
        | some c =>
          simp only
          constructor
          · rw [sumOf_snoc, ← h1, add_eq ha]
          · unfold addCount at hc
            split_ifs at hc
            simp only [Option.some.injEq] at hc
            rw [← hc, h2]; simp [values]

theorem update_holds {k : Kind} (b : List (Option Int)) : ∀ {s : State} {l : List (Option Int)},
    Holds s l → Holds (b.foldl (step k) s) (l ++ b) := by
  induction b with
  | nil => intro s l h; simpa using h
  | cons v b ih =>
    intro s l h
    simpa using ih (step_holds v h)

abbrev Parts := List (Option (State × List (Option Int)))

/-- The states sent by a batch of parts. -/
def sent (parts : Parts) : List (Option Sent) := parts.map (Option.map fun p => send p.1)

theorem addCounts_parts : ∀ (parts : Parts) (c c' : Int),
    (∀ t l, some (t, l) ∈ parts → t.failed = false ∧ t.count = (values l).length) →
    addCounts c (countColumn (sent parts)) = some c' →
    c' = c + (values (Accumulator.partRows parts)).length := by
  intro parts
  induction parts with
  | nil => intro c c' _ h; simp [sent, countColumn, addCounts] at h; simp [Accumulator.partRows, values, h]
  | cons o parts ih =>
    intro c c' hp h
    have hp' : ∀ t l, some (t, l) ∈ parts → t.failed = false ∧ t.count = (values l).length :=
      fun t l ht => hp t l (.tail _ ht)
    cases o with
    | none => exact ih c c' hp' h
    | some p =>
      obtain ⟨hf, hc⟩ := hp p.1 p.2 (.head _)
      simp only [sent, countColumn, List.map_cons, Option.map_some, Option.bind_some, send, hf,
        Bool.false_eq_true, if_false, addCounts] at h
      unfold addCount at h
      split_ifs at h
      have := ih _ _ hp' h
      simp only [Accumulator.partRows, values_append, List.length_append] at this ⊢
      omega

theorem sumOf_append (l m : List (Option Int)) :
    sumOf (l ++ m) = match sumOf m with
      | none => sumOf l
      | some v => some ((sumOf l).getD 0 + v) := by
  unfold sumOf
  rw [values_append]
  by_cases h : values m = [] <;> by_cases h' : values l = [] <;> simp [h, h']

theorem addSums_parts {k : Kind} : ∀ (parts : Parts) (l : List (Option Int)) (r : Option Int),
    (∀ t l, some (t, l) ∈ parts → t.failed = false ∧ t.sum = sumOf l) →
    addSums k (sumOf l) (sumColumn (sent parts)) = some r →
    r = sumOf (l ++ Accumulator.partRows parts) := by
  intro parts
  induction parts with
  | nil =>
    intro l r _ h
    simp [sent, sumColumn, addSums] at h
    simp [Accumulator.partRows, h]
  | cons o parts ih =>
    intro l r hp h
    have hp' : ∀ t l, some (t, l) ∈ parts → t.failed = false ∧ t.sum = sumOf l :=
      fun t l ht => hp t l (.tail _ ht)
    cases o with
    | none => exact ih l r hp' h
    | some p =>
      obtain ⟨hf, hc⟩ := hp p.1 p.2 (.head _)
      simp only [sent, sumColumn, List.map_cons, Option.map_some, Option.bind_some, send, hf,
        Bool.false_eq_true, if_false, hc] at h
      have e := sumOf_append l p.2
      simp only [Accumulator.partRows, ← List.append_assoc]
      cases hm : sumOf p.2 with
      | none =>
        rw [hm] at e h
        simp only [addSums] at e h
        rw [← e] at h
        exact ih _ r hp' h
      | some v =>
        rw [hm] at e h
        simp only [addSums] at h
        cases ha : add k (sumOf l) v with
        | none => simp [ha] at h
        | some n =>
          simp only [ha] at h
          have : some n = sumOf (l ++ p.2) := by rw [e, add_eq ha]
          rw [this] at h
          exact ih _ r hp' h

theorem flagged_none {parts : Parts} (h : ¬ (sent parts).any flagged) :
    ∀ t l, some (t, l) ∈ parts → t.failed = false := by
  intro t l ht
  apply Classical.byContradiction
  intro hf
  apply h
  refine List.any_eq_true.2 ⟨some (send t), List.mem_map.2 ⟨_, ht, rfl⟩, ?_⟩
  have : t.failed = true := by simpa using hf
  simp [send, this, flagged]

theorem merge_failed {k : Kind} {s : State} {b : List (Option Sent)} (h : s.failed = true) :
    (merge k s b).failed = true := by
  unfold merge
  split_ifs
  · rfl
  · split
    · rfl
    · split
      · rfl
      · exact h

theorem reaches_holds {k : Kind} {s : State} {l : List (Option Int)} (h : (agg k).Reaches s l) :
    Holds s l := by
  induction h with
  | fresh => intro _; exact ⟨rfl, rfl⟩
  | rows _ hu ih =>
    simp only [agg, Except.ok.injEq] at hu
    subst hu
    exact update_holds _ ih
  | alike _ ha ih => cases ha; exact ih
  | @merged s s' l parts _ _ hm ih ihp =>
    simp only [agg, Except.ok.injEq] at hm
    have hm' : merge k s (sent parts) = s' := hm
    subst hm'
    intro hf
    have hs : s.failed = false := by
      apply Classical.byContradiction
      intro hs
      rw [merge_failed (by simpa using hs)] at hf
      cases hf
    obtain ⟨h1, h2⟩ := ih hs
    unfold merge at hf ⊢
    by_cases hfl : (sent parts).any flagged
    · simp [hfl] at hf
    · rw [if_neg hfl] at hf ⊢
      have hpf := flagged_none hfl
      cases hc : addCounts s.count (countColumn (sent parts)) with
      | none => simp [hc] at hf
      | some c =>
        simp only [hc] at hf ⊢
        rw [h1] at hf ⊢
        cases hsum : addSums k (sumOf l) (sumColumn (sent parts)) with
        | none => simp [hsum] at hf
        | some r =>
          refine ⟨addSums_parts parts l r (fun t l' ht => ⟨hpf t l' ht, (ihp t l' ht (hpf t l' ht)).1⟩) hsum, ?_⟩
          have := addCounts_parts parts s.count c (fun t l' ht => ⟨hpf t l' ht, (ihp t l' ht (hpf t l' ht)).2⟩) hc
          simp only [values_append, List.length_append]
          omega

/-! ## What a non-NULL answer is -/

theorem eval_some {k : Kind} {s : State} {l : List (Option Int)} (h : Holds s l) {q : Int}
    (hq : eval k s = some q) :
    values l ≠ [] ∧ fits k q ∧ s.sum = some (values l).sum ∧ s.count = (values l).length := by
  unfold eval at hq
  split_ifs at hq with hc
  simp only [Bool.or_eq_true, beq_iff_eq, not_or, Bool.not_eq_true] at hc
  obtain ⟨h1, h2⟩ := h hc.1
  have hne : values l ≠ [] := by
    intro he; rw [he] at h2; exact hc.2 (by simpa using h2)
  have hs : s.sum = some (values l).sum := by rw [h1]; simp [sumOf, hne]
  refine ⟨hne, ?_, hs, h2⟩
  rw [hs] at hq
  cases k <;> simp only at hq <;> split_ifs at hq <;> simp_all

theorem tdiv_truncated (a : Int) {n : Nat} (hn : 0 < n) : Truncated a n (a.tdiv n) := by
  have h := Int.tmod_add_tdiv_mul a n
  have hn' : (0 : Int) < n := by omega
  constructor
  · intro ha
    have h1 := Int.tmod_nonneg (b := (n : Int)) (a := a) ha
    have h2 := Int.tmod_lt_of_pos a hn'
    have : (a.tdiv n + 1) * n = a.tdiv n * n + n := by ring
    omega
  · intro ha
    have h1 := Int.tmod_nonneg (b := (n : Int)) (a := -a) (by omega)
    have h2 := Int.tmod_lt_of_pos (-a) hn'
    rw [Int.neg_tmod] at h1 h2
    have : (a.tdiv n - 1) * n = a.tdiv n * n - n := by ring
    omega

/-- **C73**, decimals: a non-NULL answer is the exact sum of the non-NULL values divided by their
number, cut off at the scale of the input, and fits the result type; there is at least one value. -/
theorem C73_try_avg {p : Nat} {s : State} {l : List (Option Int)}
    (h : (agg (.decimal p)).Reaches s l) {q : Int} (hq : (agg (.decimal p)).eval s = some q) :
    values l ≠ [] ∧ Truncated (values l).sum (values l).length q ∧ |q| < 10 ^ p := by
  have hq' : eval (.decimal p) s = some q := hq
  obtain ⟨h1, h2, h3, h4⟩ := eval_some (reaches_holds h) hq'
  refine ⟨h1, ?_, ?_⟩
  · have : q = (values l).sum.tdiv (values l).length := by
      unfold eval at hq'
      split_ifs at hq'
      simp only [h3, h4] at hq'
      split_ifs at hq'
      simpa using hq'.symm
    rw [this]
    exact tdiv_truncated _ (List.length_pos_iff.2 h1)
  · simp only [fits, Bool.and_eq_true, decide_eq_true_eq] at h2
    rw [abs_lt]; omega

/-- **C73**, months: a non-NULL answer is the exact sum divided by the number of values, rounded to
the nearest month, halves away from zero. -/
theorem C73_try_avg_months {s : State} {l : List (Option Int)}
    (h : (agg .months).Reaches s l) {q : Int} (hq : (agg .months).eval s = some q) :
    values l ≠ [] ∧ Rounded (values l).sum (values l).length q := by
  have hq' : eval .months s = some q := hq
  obtain ⟨h1, h2, h3, h4⟩ := eval_some (reaches_holds h) hq'
  refine ⟨h1, ?_⟩
  have hn : 0 < (values l).length := List.length_pos_iff.2 h1
  generalize hN : (values l).length = n at *
  generalize (values l).sum = a at *
  have hq2 : q = (if 0 ≤ a then a + (n : Int).tdiv 2 else a - (n : Int).tdiv 2).tdiv n := by
    unfold eval at hq'
    split_ifs at hq'
    simp only [h3, h4] at hq'
    split_ifs at hq' ⊢ <;> simp_all
  have hh : (n : Int).tdiv 2 = (n / 2 : Nat) := by
    have := Int.ofNat_tdiv n 2
    exact this.symm
  rw [hh] at hq2
  constructor
  · intro ha
    rw [if_pos ha] at hq2
    have := (tdiv_truncated (a + (n / 2 : Nat)) hn).1 (by omega)
    rw [← hq2] at this
    have e : (q + 1) * n = q * n + n := by ring
    generalize q * n = z at *
    omega
  · intro ha
    rw [if_neg (by omega)] at hq2
    have := (tdiv_truncated (a - (n / 2 : Nat)) hn).2 (by omega)
    rw [← hq2] at this
    have e : (q - 1) * n = q * n - n := by ring
    generalize q * n = z at *
    omega

/-! ## When NULL is answered -/

theorem Spec.Safe.mono {k : Kind} {l m : List (Option Int)} {r : List Int} (h : Safe k l)
    (hp : (values l).Perm (values m ++ r)) : Safe k m := by
  refine ⟨fun a b hab => h.1 a (b ++ r) ?_, ?_⟩
  · rw [← List.append_assoc]
    exact hp.trans (hab.append_right r)
  · have := hp.length_eq; simp at this; have := h.2; omega

theorem add_safe {k : Kind} (hk : ∀ p, k = .decimal p → p ≤ 38) {l : List (Option Int)} {v : Int}
    (h : fits k ((sumOf l).getD 0 + v)) : add k (sumOf l) v = some ((sumOf l).getD 0 + v) := by
  unfold add
  cases hs : sumOf l with
  | none => simp only [hs, Option.getD_none, Int.zero_add] at h ⊢; rw [if_pos h]
  | some a =>
    simp only [hs, Option.getD_some] at h ⊢
    rw [if_pos (by simp [h, fits_inWord hk h])]

theorem sumOf_getD (l : List (Option Int)) : (sumOf l).getD 0 = (values l).sum := by
  unfold sumOf
  by_cases h : values l = [] <;> simp [h]

theorem safe_sum {k : Kind} {l : List (Option Int)} (h : Safe k l) : fits k (values l).sum :=
  h.1 (values l) [] (by simp)

theorem update_ok {k : Kind} (hk : ∀ p, k = .decimal p → p ≤ 38) (b : List (Option Int)) :
    ∀ {s : State} {l : List (Option Int)}, Holds s l → s.failed = false → Safe k (l ++ b) →
      (b.foldl (step k) s).failed = false := by
  induction b with
  | nil => intro s l _ h _; exact h
  | cons v b ih =>
    intro s l h hf hs
    have hs1 : Safe k (l ++ [v]) := hs.mono (r := values b) (by
      rw [← values_append]; simp)
    have h1 : (step k s v).failed = false := by
      obtain ⟨h1, h2⟩ := h hf
      unfold step
      simp only [hf, Bool.false_eq_true, if_false]
      cases v with
      | none => exact hf
      | some v =>
        have hfit := safe_sum hs1
        have hv : values (l ++ [some v]) = values l ++ [v] := by simp [values]
        rw [hv] at hfit
        have hadd : add k s.sum v = some ((sumOf l).getD 0 + v) := by
          rw [h1]; exact add_safe hk (by rw [sumOf_getD]; simpa using hfit)
        have hcount : addCount s.count 1 = some (s.count + 1) := by
          unfold addCount
          have := hs1.2
          rw [hv] at this
          simp at this
          rw [if_pos (by omega)]
        simp [hadd, hcount]
    have := ih (step_holds v h) h1 (by simpa using hs)
    simpa using this

theorem addCounts_ok : ∀ (parts : Parts) (c : Int), 0 ≤ c →
    (∀ t l, some (t, l) ∈ parts → t.failed = false ∧ t.count = (values l).length) →
    c + (values (Accumulator.partRows parts)).length < 2 ^ 63 →
    ∃ c', addCounts c (countColumn (sent parts)) = some c' := by
  intro parts
  induction parts with
  | nil => intro c _ _ _; exact ⟨c, rfl⟩
  | cons o parts ih =>
    intro c h0 hp hlt
    have hp' : ∀ t l, some (t, l) ∈ parts → t.failed = false ∧ t.count = (values l).length :=
      fun t l ht => hp t l (.tail _ ht)
    cases o with
    | none => exact ih c h0 hp' hlt
    | some p =>
      obtain ⟨hf, hc⟩ := hp p.1 p.2 (.head _)
      simp only [Accumulator.partRows, values_append, List.length_append] at hlt
      simp only [sent, countColumn, List.map_cons, Option.map_some, Option.bind_some, send, hf,
        Bool.false_eq_true, if_false, addCounts]
      have : addCount c p.1.count = some (c + p.1.count) := by
        unfold addCount; rw [if_pos (by omega)]
      rw [this]
      exact ih _ (by omega) hp' (by omega)

theorem addSums_ok {k : Kind} (hk : ∀ p, k = .decimal p → p ≤ 38) :
    ∀ (parts : Parts) (l : List (Option Int)),
    (∀ t l, some (t, l) ∈ parts → t.failed = false ∧ t.sum = sumOf l) →
    Safe k (l ++ Accumulator.partRows parts) →
    ∃ r, addSums k (sumOf l) (sumColumn (sent parts)) = some r := by
  intro parts
  induction parts with
  | nil => intro l _ _; exact ⟨_, rfl⟩
  | cons o parts ih =>
    intro l hp hs
    have hp' : ∀ t l, some (t, l) ∈ parts → t.failed = false ∧ t.sum = sumOf l :=
      fun t l ht => hp t l (.tail _ ht)
    cases o with
    | none => exact ih l hp' hs
    | some p =>
      obtain ⟨hf, hc⟩ := hp p.1 p.2 (.head _)
      simp only [Accumulator.partRows, ← List.append_assoc] at hs
      have e := sumOf_append l p.2
      simp only [sent, sumColumn, List.map_cons, Option.map_some, Option.bind_some, send, hf,
        Bool.false_eq_true, if_false, hc]
      cases hm : sumOf p.2 with
      | none =>
        rw [hm] at e
        simp only [addSums] at e ⊢
        rw [← e]
        exact ih _ hp' hs
      | some v =>
        rw [hm] at e
        simp only [addSums]
        have hs1 : Safe k (l ++ p.2) := hs.mono (r := values (Accumulator.partRows parts)) (by
          rw [← values_append])
        have hfit := safe_sum hs1
        rw [← sumOf_getD, e] at hfit
        rw [add_safe hk hfit]
        simp only
        have := ih (l ++ p.2) hp' hs
        rw [e] at this
        exact this

theorem safe_parts {k : Kind} : ∀ {parts : Parts} {l : List (Option Int)},
    Safe k (l ++ Accumulator.partRows parts) → ∀ t l', some (t, l') ∈ parts → Safe k l' := by
  intro parts
  induction parts with
  | nil => intro l _ t l' h; cases h
  | cons o parts ih =>
    intro l hs t l' h
    cases o with
    | none =>
      rcases List.mem_cons.1 h with h | h
      · cases h
      · exact ih (l := l) hs t l' h
    | some p =>
      simp only [Accumulator.partRows, ← List.append_assoc] at hs
      rcases List.mem_cons.1 h with h | h
      · cases h
        refine hs.mono (r := values l ++ values (Accumulator.partRows parts)) ?_
        rw [values_append, values_append, ← List.append_assoc]
        exact (List.perm_append_comm).append_right _
      · exact ih (l := l ++ p.2) hs t l' h

/-- Nothing fails while every partial sum that can arise fits. -/
theorem reaches_ok {k : Kind} (hk : ∀ p, k = .decimal p → p ≤ 38) {s : State}
    {l : List (Option Int)} (h : (agg k).Reaches s l) : Safe k l → s.failed = false := by
  induction h with
  | fresh => intro _; rfl
  | @rows s s' l b hr hu ih =>
    intro hs
    simp only [agg, Except.ok.injEq] at hu
    subst hu
    have hs1 : Safe k l := hs.mono (r := values b) (by rw [← values_append])
    exact update_ok hk b (reaches_holds hr) (ih hs1) hs
  | alike _ ha ih => cases ha; exact ih
  | @merged s s' l parts hr hrp hm ih ihp =>
    intro hs
    simp only [agg, Except.ok.injEq] at hm
    have hm' : merge k s (sent parts) = s' := hm
    subst hm'
    have hs1 : Safe k l := hs.mono (r := values (Accumulator.partRows parts)) (by rw [← values_append])
    have hf := ih hs1
    obtain ⟨h1, h2⟩ := reaches_holds hr hf
    have hpf : ∀ t l', some (t, l') ∈ parts → t.failed = false := fun t l' ht =>
      ihp t l' ht (safe_parts hs t l' ht)
    have hph : ∀ t l', some (t, l') ∈ parts → t.sum = sumOf l' ∧ t.count = (values l').length :=
      fun t l' ht => reaches_holds (hrp t l' ht) (hpf t l' ht)
    have hfl : ¬ (sent parts).any flagged := by
      intro hfl
      obtain ⟨x, hx, hx'⟩ := List.any_eq_true.1 hfl
      obtain ⟨o, ho, rfl⟩ := List.mem_map.1 hx
      cases o with
      | none => simp [flagged] at hx'
      | some p => simp [flagged, send, hpf p.1 p.2 ho] at hx'
    have hlen := hs.2
    simp only [values_append, List.length_append] at hlen
    obtain ⟨c, hc⟩ := addCounts_ok parts s.count (by omega)
      (fun t l' ht => ⟨hpf t l' ht, (hph t l' ht).2⟩) (by omega)
    obtain ⟨r, hsum⟩ := addSums_ok hk parts l (fun t l' ht => ⟨hpf t l' ht, (hph t l' ht).1⟩) hs
    unfold merge
    rw [if_neg hfl, hc]
    simp only [h1, hsum]
    exact hf

theorem Spec.Safe.perm {k : Kind} {l l' : List (Option Int)} (h : Safe k l) (hp : l.Perm l') :
    Safe k l' :=
  h.mono (r := []) (by simpa [values] using hp.filterMap id)

/-- **C72**, the part that holds of every group: two runs over the same rows, however they are
spread, batched and merged, cannot answer different numbers.  What is missing from the full claim is
that one may answer NULL where the other does not (`C72_try_avg_null`). -/
theorem C72_try_avg_partial {k : Kind} {s s' : State} {l l' : List (Option Int)}
    (h : (agg k).Reaches s l) (h' : (agg k).Reaches s' l') (hp : l.Perm l') {q q' : Int}
    (hq : (agg k).eval s = some q) (hq' : (agg k).eval s' = some q') : q = q' := by
  have hf : s.failed = false := by
    have hq : eval k s = some q := hq
    unfold eval at hq; split_ifs at hq with hc; simp_all
  have hf' : s'.failed = false := by
    have hq' : eval k s' = some q' := hq'
    unfold eval at hq'; split_ifs at hq' with hc; simp_all
  obtain ⟨-, -, h1, h2⟩ := eval_some (reaches_holds h) hq
  obtain ⟨-, -, h1', h2'⟩ := eval_some (reaches_holds h') hq'
  have hv : (values l).Perm (values l') := hp.filterMap id
  have : s = s' := by
    cases s; cases s'
    simp_all [hv.length_eq, sum_perm hv]
  subst this
  exact Option.some.inj (hq.symm.trans hq')

/-- **C72**, the part that holds of groups far from overflow: when no selection of the rows sums to
something outside the result type, the answer is the same for every spread, and it is NULL only when
there are no values. -/
theorem C72_try_avg_safe_partial {k : Kind} (hk : ∀ p, k = .decimal p → p ≤ 38) {s s' : State}
    {l l' : List (Option Int)} (h : (agg k).Reaches s l) (h' : (agg k).Reaches s' l')
    (hp : l.Perm l') (hs : Safe k l) :
    (agg k).eval s = (agg k).eval s' := by
  have hf := reaches_ok hk h hs
  have hf' := reaches_ok hk h' (hs.perm hp)
  obtain ⟨h1, h2⟩ := reaches_holds h hf
  obtain ⟨h1', h2'⟩ := reaches_holds h' hf'
  have hv : (values l).Perm (values l') := hp.filterMap id
  have hsum : sumOf l = sumOf l' := by
    unfold sumOf
    rw [sum_perm hv]
    have : values l = [] ↔ values l' = [] := by
      constructor
      · intro h; rw [h] at hv; exact hv.nil_eq.symm
      · intro h; rw [h] at hv; exact hv.eq_nil
    simp only [this]
  have : s = s' := by
    cases s; cases s'
    simp_all [hv.length_eq]
  rw [this]

/-- A decimal average of rows far from overflow is NULL only when there are no values. -/
theorem C73_try_avg_null {p : Nat} (hp : p ≤ 38) {s : State} {l : List (Option Int)}
    (h : (agg (.decimal p)).Reaches s l) (hs : Safe (.decimal p) l) :
    (agg (.decimal p)).eval s = none ↔ values l = [] := by
  have hf := reaches_ok (by rintro p' ⟨⟩; exact hp) h hs
  obtain ⟨h1, h2⟩ := reaches_holds h hf
  change eval (.decimal p) s = none ↔ values l = []
  constructor
  · intro he
    apply Classical.byContradiction
    intro hne
    have hn : 0 < (values l).length := List.length_pos_iff.2 hne
    have hsum := safe_sum hs
    have hfit : fits (.decimal p) ((values l).sum.tdiv (values l).length) := by
      simp only [fits, Bool.and_eq_true, decide_eq_true_eq] at hsum ⊢
      have := Int.natAbs_tdiv (values l).sum (values l).length
      have hle := Nat.div_le_self (values l).sum.natAbs (values l).length
      have e : ((values l).length : Int).natAbs = (values l).length := rfl
      rw [e] at this
      have hle' : ((values l).sum.tdiv (values l).length).natAbs ≤ (values l).sum.natAbs := by
        rw [this]; exact hle
      generalize (values l).sum.tdiv (values l).length = q at *
      generalize (10 : Int) ^ p = t at *
      omega
    unfold eval at he
    have hc : ¬ (s.count = 0) := by omega
    simp [hf, h1, h2, sumOf, hne, hfit] at he
  · intro he
    unfold eval
    simp [h2, he]

/-- **C72 fails**: three decimals of 38 digits whose average is answered in one order of the rows and
NULL in another, because an intermediate sum has 39 digits.  (The precision of a decimal result is
the input's plus ten, up to 38, so this needs an input of 29 digits and more, or very many rows.) -/
theorem C72_try_avg_null :
    ∃ (l l' : List (Option Int)) (s s' : State), l.Perm l' ∧ (agg (.decimal 38)).Reaches s l ∧
      (agg (.decimal 38)).Reaches s' l' ∧
      (agg (.decimal 38)).eval s = none ∧ (agg (.decimal 38)).eval s' = some ((10 ^ 38 - 1) / 3) := by
  refine ⟨[some (10 ^ 38 - 1), some 1, some (-1)], [some (10 ^ 38 - 1), some (-1), some 1], _, _,
    ?_, Accumulator.Reaches.rows .fresh rfl, Accumulator.Reaches.rows .fresh rfl, ?_, ?_⟩
  · exact (List.Perm.swap _ _ _).cons _
  · decide +kernel
  · decide +kernel

/-- And the spread over partitions matters even when the rows keep their order: two partitions, one
of them overflowing on its own. -/
theorem C72_try_avg_spread :
    ∃ s s', (agg .months).run [[[some (-1)], [some (2 ^ 31 - 1), some 1]]] = .ok s ∧
      (agg .months).run [[[some (-1)]], [[some (2 ^ 31 - 1), some 1]]] = .ok s' ∧
      (agg .months).eval s = some ((2 ^ 31 - 1) / 3) ∧ (agg .months).eval s' = none :=
  ⟨_, _, rfl, rfl, by decide +kernel, by decide +kernel⟩

/-- The average of the decimals 1 and 2 without digits after the point is 1: the result type keeps
the scale of the input (`try_avg.rs` 467-470), where Spark adds four digits and answers 1.5000. -/
theorem C73_try_avg_scale : ∃ s, (agg (.decimal 11)).Reaches s [some 1, some 2] ∧
    (agg (.decimal 11)).eval s = some 1 :=
  ⟨_, Accumulator.Reaches.rows .fresh rfl, by decide +kernel⟩

/-- Two partitions with NULLs, one of them without any value: 7 over 3 values is 2. -/
example : ∃ s, (agg (.decimal 12)).run [[[some 4, none], [some 1]], [[none]], [[some 2]]] = .ok s ∧
    (agg (.decimal 12)).eval s = some 2 := ⟨_, rfl, by decide +kernel⟩

/-- Months: -7 over 2 values is -4, away from zero. -/
example : ∃ s, (agg .months).run [[[some (-3), none]], [[some (-4)]]] = .ok s ∧
    (agg .months).eval s = some (-4) := ⟨_, rfl, by decide +kernel⟩

/-- Small rows are safe. -/
example : Safe .months [some 5, none, some (-3)] := by
  refine ⟨fun m rest h => ?_, by decide⟩
  have h' : ([5, -3] : List Int).Perm (m ++ rest) := h
  have hsub : ∀ x ∈ m, -3 ≤ x ∧ x ≤ 5 := fun x hx => by
    have := h'.mem_iff.2 (List.mem_append_left rest hx)
    simp at this; omega
  have hlen : m.length ≤ 2 := by have := h'.length_eq; simp at this; omega
  match m, hlen with
  | [], _ => decide
  | [a], _ => have := hsub a (by simp); simp [fits]; omega
  | [a, b], _ =>
    have := hsub a (by simp); have := hsub b (by simp); simp [fits]; omega

end Verif.Func.TryAvg
