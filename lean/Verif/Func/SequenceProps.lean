import Verif.Func.Sequence
import Mathlib.Tactic.SplitIfs
/-!
# C67: `sequence` over integers is the arithmetic progression
-/
namespace Verif.Func.Sequence

namespace Spec

/-- Counting in steps of `step`, `v` has not gone past `stop`. -/
def NotPast (stop step v : Int) : Prop := (0 < step → v ≤ stop) ∧ (step < 0 → stop ≤ v)

/-- The `k`-th number counting from `start` belongs to the sequence; with a step of zero only the
first does. -/
def Belongs (start stop step : Int) (k : Nat) : Prop :=
  NotPast stop step (start + k * step) ∧ (step = 0 → k = 0)

/-- `l` is the progression from `start` by `step`, ended before the first number past `stop`. -/
def IsProgression (start stop step : Int) (l : List Int) : Prop :=
  ∀ (k : Nat) (v : Int), l[k]? = some v ↔ v = start + k * step ∧ Belongs start stop step k

/-- The step points to `stop`; a zero step is fine only if there is nowhere to go. -/
def Legal (start stop step : Int) : Prop :=
  NotPast stop step start ∧ (step = 0 → start = stop)

/-- The row succeeds: legal, at most the limit of elements (the one after that many is past the
end), and a span that fits 64 bits. -/
def Fine (start stop step : Int) : Prop :=
  Legal start stop step ∧ ¬ Belongs start stop step 2147483632 ∧
    -2 ^ 63 ≤ stop - start ∧ stop - start < 2 ^ 63

end Spec

open Spec

theorem valid_iff {start stop step : Int} :
    validBoundaries start stop step = true ↔ Legal start stop step := by
  unfold validBoundaries Legal NotPast
  simp only [Bool.or_eq_true, Bool.and_eq_true, decide_eq_true_eq, beq_iff_eq]
  omega

/-- The number of elements of a legal sequence whose ends differ. -/
theorem belongs_iff {start stop step : Int} (h : Legal start stop step) (hne : start ≠ stop)
    (k : Nat) : Belongs start stop step k ↔ (k : Int) < 1 + (stop - start).tdiv step := by
  obtain ⟨⟨h1, h2⟩, h0⟩ := h
  unfold Belongs NotPast
  rcases Int.lt_trichotomy step 0 with hs | hs | hs
  · have e : (stop - start).tdiv step = (start - stop) / (-step) := by
      rw [← Int.tdiv_eq_ediv_of_nonneg (by have := h2 hs; omega)]
      rw [show start - stop = -(stop - start) by omega, Int.neg_tdiv_neg]
    rw [e]
    have : (k : Int) < 1 + (start - stop) / (-step) ↔ (k : Int) ≤ (start - stop) / (-step) := by omega
    rw [this, Int.le_ediv_iff_mul_le (by omega), Int.mul_neg]
    constructor
    · rintro ⟨⟨-, h4⟩, -⟩
      have := h4 hs
      omega
    · intro h4
      exact ⟨⟨by omega, by omega⟩, by omega⟩
  · exact absurd (h0 hs) hne
  · rw [Int.tdiv_eq_ediv_of_nonneg (by have := h1 hs; omega)]
    have : (k : Int) < 1 + (stop - start) / step ↔ (k : Int) ≤ (stop - start) / step := by omega
    rw [this, Int.le_ediv_iff_mul_le hs]
    constructor
    · rintro ⟨⟨h3, -⟩, -⟩
      have := h3 hs
      omega
    · intro h4
      exact ⟨⟨by omega, by omega⟩, by omega⟩

theorem tdiv_nonneg {start stop step : Int} (h : Legal start stop step) (hne : start ≠ stop) :
    0 ≤ (stop - start).tdiv step := by
  have h0 : Belongs start stop step 0 := by
    obtain ⟨h1, h0⟩ := h
    exact ⟨by simpa using h1, fun _ => rfl⟩
  have := (belongs_iff h hne 0).1 h0
  simp at this
  omega

theorem belongs_same {start step : Int} (k : Nat) : Belongs start start step k ↔ k < 1 := by
  unfold Belongs NotPast
  constructor
  · rintro ⟨⟨h1, h2⟩, h3⟩
    rcases Int.lt_trichotomy step 0 with hs | hs | hs
    · have := h2 hs
      rcases Nat.eq_zero_or_pos k with hk | hk
      · omega
      · have : 1 * (-step) ≤ (k : Int) * (-step) := Int.mul_le_mul_of_nonneg_right (by omega) (by omega)
        simp only [Int.mul_neg] at this
        omega
    · have := h3 hs; omega
    · have := h1 hs
      rcases Nat.eq_zero_or_pos k with hk | hk
      · omega
      · have : 1 * step ≤ (k : Int) * step := Int.mul_le_mul_of_nonneg_right (by omega) (by omega)
        omega
  · intro hk
    have : k = 0 := by omega
    subst this
    simp

/-- What the length computation answers. -/
theorem length_iff {start stop step : Int} (_hs : inTy 64 start = true)
    (_he : inTy 64 stop = true) (n : Nat) :
    sequenceLength start stop step = .ok n ↔
      Fine start stop step ∧ ∀ k : Nat, k < n ↔ Belongs start stop step k := by
  unfold sequenceLength Fine
  by_cases hv : Legal start stop step
  · rw [valid_iff.2 hv]
    simp only [Bool.not_true, Bool.false_eq_true, if_false]
    by_cases hne : start = stop
    · subst hne
      simp only [if_pos, belongs_same, Except.ok.injEq, hv, true_and]
      constructor
      · rintro rfl
        exact ⟨⟨by omega, by omega, by omega⟩, fun _ => Iff.rfl⟩
      · rintro ⟨-, h⟩
        have h1 := h 0
        have h2 := h 1
        omega
    · rw [if_neg hne]
      have hb := belongs_iff hv hne
      have hn := tdiv_nonneg hv hne
      simp only [hb, hv, true_and]
      generalize hq : (stop - start).tdiv step = q at *
      have hbig : stop - start = -2 ^ 63 → step = -1 → q = 2 ^ 63 := by
        intro h1 h2
        rw [← hq, h1, h2]
        decide
      simp only [inTy, decide_eq_true_eq]
      split
      · rename_i hc
        simp only [maxLength]
        split
        · constructor
          · intro h; cases h
          · rintro ⟨⟨h, -, -⟩, -⟩; omega
        · simp only [Bool.false_eq_true, if_false, Except.ok.injEq]
          constructor
          · rintro rfl
            exact ⟨⟨by omega, by omega, by omega⟩, fun k => by omega⟩
          · rintro ⟨-, h⟩
            have h1 := h (1 + q).toNat
            have h2 := h ((1 + q).toNat - 1)
            omega
      · rename_i hc
        simp only [maxLength]
        split
        · constructor
          · intro h; cases h
          · rintro ⟨⟨h, -, -⟩, -⟩; omega
        · simp only [if_true]
          constructor
          · intro h; cases h
          · rintro ⟨⟨h, h1, h2⟩, -⟩
            have : stop - start = -2 ^ 63 ∧ step = -1 := by
              apply Classical.byContradiction
              intro hh
              exact hc ⟨⟨h1, h2⟩, hh⟩
            have := hbig this.1 this.2
            omega
  · have : validBoundaries start stop step = false := by
      cases h : validBoundaries start stop step
      · rfl
      · exact absurd (valid_iff.1 h) hv
    rw [this]
    simp only [Bool.not_false, if_true, hv, false_and]
    constructor
    · intro h; cases h
    · intro h; exact h.elim

theorem extend_ok {bits : Nat} {start step : Int} :
    ∀ (n index : Nat) (acc l : List Int), extendFrom bits start step index n acc = .ok l →
      l = acc ++ (List.range n).map fun k => start + (index + k : Nat) * step := by
  intro n
  induction n with
  | zero =>
    intro index acc l h
    simp only [extendFrom, Except.ok.injEq] at h
    simp [h]
  | succ n ih =>
    intro index acc l h
    simp only [extendFrom] at h
    split at h
    · rw [ih _ _ _ h, List.range_succ_eq_map]
      simp only [List.append_assoc, List.singleton_append, List.map_cons, List.map_map, Nat.add_zero]
      rw [Int.mul_comm step]
      congr 2
      apply List.map_congr_left
      intro k _
      simp only [Function.comp, Nat.succ_eq_add_one]
      rw [show index + 1 + k = index + (k + 1) by omega]
    · cases h

theorem extend_succeeds {bits : Nat} {start step : Int} :
    ∀ (n index : Nat) (acc : List Int),
      (∀ k, k < n → inTy bits (start + (index + k : Nat) * step) = true) →
      ∃ l, extendFrom bits start step index n acc = .ok l := by
  intro n
  induction n with
  | zero => exact fun _ acc _ => ⟨acc, rfl⟩
  | succ n ih =>
    intro index acc h
    simp only [extendFrom]
    have h0 := h 0 (by omega)
    simp only [Nat.add_zero] at h0
    rw [Int.mul_comm step, if_pos h0]
    apply ih
    intro k hk
    have := h (k + 1) (by omega)
    rw [show index + 1 + k = index + (k + 1) by omega]
    exact this

/-- Members of the progression lie between the ends. -/
theorem between {start stop step : Int} {k : Nat} (h : Belongs start stop step k) :
    (start ≤ start + k * step ∧ start + k * step ≤ stop) ∨
      (stop ≤ start + k * step ∧ start + k * step ≤ start) ∨ start + k * step = start := by
  obtain ⟨⟨h1, h2⟩, h3⟩ := h
  rcases Int.lt_trichotomy step 0 with hs | hs | hs
  · have : 0 ≤ (k : Int) * (-step) := Int.mul_nonneg (by omega) (by omega)
    rw [Int.mul_neg] at this
    have := h2 hs
    omega
  · subst hs; simp
  · have : 0 ≤ (k : Int) * step := Int.mul_nonneg (by omega) (by omega)
    have := h1 hs
    omega

theorem inTy_between {bits : Nat} {start stop step : Int} {k : Nat}
    (h : Belongs start stop step k) (hs : inTy bits start = true) (he : inTy bits stop = true) :
    inTy bits (start + k * step) = true := by
  have := between h
  simp only [inTy, decide_eq_true_eq] at *
  omega

theorem inTy_64 {bits : Nat} (hb : bits ≤ 64) {v : Int} (h : inTy bits v = true) :
    inTy 64 v = true := by
  simp only [inTy, decide_eq_true_eq] at *
  have : (2 : Nat) ^ (bits - 1) ≤ 2 ^ (64 - 1) := Nat.pow_le_pow_right (by omega) (by omega)
  have : (2 : Int) ^ (bits - 1) ≤ 2 ^ (64 - 1) := by exact_mod_cast this
  omega

/-- A row that is fine is filled with its progression; the type is never left. -/
theorem fill_row {bits : Nat} (hb : bits ≤ 64) {start stop step : Int} {n : Nat}
    (hs : inTy bits start = true) (he : inTy bits stop = true)
    (h : sequenceLength start stop step = .ok n) :
    ∃ l, extendFrom bits start step 0 n [] = .ok l ∧ l.length = n ∧
      IsProgression start stop step l := by
  obtain ⟨hf, hk⟩ := (length_iff (inTy_64 hb hs) (inTy_64 hb he) n).1 h
  obtain ⟨l, hl⟩ := extend_succeeds (bits := bits) (start := start) (step := step) n 0 [] (by
    intro k hkn
    rw [Nat.zero_add]
    exact inTy_between ((hk k).1 hkn) hs he)
  have := extend_ok _ _ _ _ hl
  simp only [List.nil_append, Nat.zero_add] at this
  subst this
  refine ⟨_, hl, by simp, ?_⟩
  intro k v
  rw [← hk k]
  by_cases hkn : k < n
  · simp [hkn, eq_comm]
  · simp [hkn]

/-- C67: a single sequence succeeds exactly when it is legal, small enough and its span fits 64
bits, and then it is the progression. -/
theorem C67_sequence_is_progression (bits : Nat) (hb : bits ≤ 64) (start stop step : Int)
    (maxValues : Nat) (hs : inTy bits start = true) (he : inTy bits stop = true) (l : List Int) :
    integralRow bits start stop step maxValues = .ok l ↔
      Fine start stop step ∧ IsProgression start stop step l ∧ l.length ≤ maxValues := by
  unfold integralRow
  constructor
  · intro h
    split at h
    · cases h
    · rename_i n hn
      split at h
      · cases h
      · rename_i hm
        obtain ⟨l', h1, h2, h3⟩ := fill_row hb hs he hn
        rw [h1] at h
        cases h
        exact ⟨((length_iff (inTy_64 hb hs) (inTy_64 hb he) n).1 hn).1, h3, by omega⟩
  · rintro ⟨hf, hp, hm⟩
    have hlen : ∀ k, k < l.length ↔ Belongs start stop step k := by
      intro k
      constructor
      · intro hk
        exact ((hp k l[k]).1 (by simp)).2
      · intro hk
        have := (hp k (start + k * step)).2 ⟨rfl, hk⟩
        exact (List.getElem?_eq_some_iff.1 this).1
    have hn := (length_iff (inTy_64 hb hs) (inTy_64 hb he) l.length).2 ⟨hf, hlen⟩
    rw [hn]
    simp only [gt_iff_lt]
    rw [if_neg (by omega)]
    obtain ⟨l', h1, h2, h3⟩ := fill_row hb hs he hn
    rw [h1]
    congr 1
    apply List.ext_getElem?
    intro k
    apply Option.ext
    intro v
    rw [h3 k v, hp k v]

/-- Counting down in threes; a step that does not divide the span. -/
example : integralRow 8 10 (-1) (-3) 100 = .ok [10, 7, 4, 1] ∧
    integralRow 8 100 127 20 100 = .ok [100, 120] ∧
    integralRow 64 5 5 0 100 = .ok [5] := by decide

/-- Why a sequence may fail. -/
example : integralRow 32 1 5 (-1) 100 = .error .boundaries ∧
    integralRow 32 1 5 0 100 = .error .boundaries ∧
    integralRow 64 (-1) (2 ^ 63 - 1) (2 ^ 62) 100 = .error .internal ∧
    integralRow 64 0 (2 ^ 40) 1 100 = .error .size := by decide

/-- C67: without overflow, failing rows are exactly those which are not fine, and the reason given
is the first that applies. -/
theorem C67_reasons (start stop step : Int) (hs : inTy 64 start = true) (he : inTy 64 stop = true) :
    (sequenceLength start stop step = .error .boundaries ↔ ¬ Legal start stop step) ∧
    (sequenceLength start stop step = .error .size ↔
      Legal start stop step ∧ Belongs start stop step 2147483632) ∧
    (sequenceLength start stop step = .error .internal ↔
      Legal start stop step ∧ ¬ Belongs start stop step 2147483632 ∧
        ¬ (-2 ^ 63 ≤ stop - start ∧ stop - start < 2 ^ 63)) := by
  by_cases hv : Legal start stop step
  · by_cases hb : Belongs start stop step 2147483632
    · -- too long
      have hne : start ≠ stop := by
        rintro rfl
        have := (belongs_same _).1 hb
        omega
      have hb' := (belongs_iff hv hne _).1 hb
      have : sequenceLength start stop step = .error .size := by
        unfold sequenceLength
        rw [valid_iff.2 hv]
        simp only [Bool.not_true, Bool.false_eq_true, if_false, if_neg hne, maxLength]
        split <;> rw [if_pos (by simp only; omega)]
      rw [this]
      simp [hv, hb]
    · by_cases hr : -2 ^ 63 ≤ stop - start ∧ stop - start < 2 ^ 63
      · obtain ⟨n, hn⟩ : ∃ n, sequenceLength start stop step = .ok n := by
          by_cases hne : start = stop
          · subst hne
            exact ⟨1, (length_iff hs he 1).2 ⟨⟨hv, hb, hr⟩, fun k => (belongs_same k).symm⟩⟩
          · refine ⟨(1 + (stop - start).tdiv step).toNat, (length_iff hs he _).2 ⟨⟨hv, hb, hr⟩, ?_⟩⟩
            intro k
            rw [belongs_iff hv hne]
            have := tdiv_nonneg hv hne
            omega
        rw [hn]
        simp [hv, hb]
        omega
      · have hne : start ≠ stop := by
          rintro rfl
          omega
        have hb' := mt (belongs_iff hv hne _).2 hb
        have : sequenceLength start stop step = .error .internal := by
          unfold sequenceLength
          rw [valid_iff.2 hv]
          simp only [Bool.not_true, Bool.false_eq_true, if_false, if_neg hne, maxLength, inTy]
          have hc : ¬ (decide (-2 ^ (64 - 1) ≤ stop - start ∧ stop - start < 2 ^ (64 - 1)) = true ∧
              ¬ (stop - start = -2 ^ 63 ∧ step = -1)) := by
            rw [decide_eq_true_eq]
            rintro ⟨h, -⟩
            exact hr h
          simp only [hc, if_false]
          rw [if_neg (by omega)]
          rfl
        rw [this]
        simp [hv, hb]
        omega
  · have : sequenceLength start stop step = .error .boundaries := by
      unfold sequenceLength
      rw [if_pos]
      cases h : validBoundaries start stop step
      · rfl
      · exact absurd (valid_iff.1 h) hv
    rw [this]
    simp [hv]

example : Legal (-1) (2 ^ 63 - 1) (2 ^ 62) ∧ ¬ Belongs (-1) (2 ^ 63 - 1) (2 ^ 62) 2147483632 := by
  refine ⟨⟨⟨by omega, by omega⟩, by omega⟩, ?_⟩
  rintro ⟨⟨h, -⟩, -⟩
  have := h (by omega)
  omega

/-! ## Batches -/

namespace Spec

/-- What the cell of a row must hold: NULL if an argument is NULL, otherwise the progression, by the
given step or by one towards the stop. -/
def IsCell (three : Bool) (r : Args) (c : Option (List Int)) : Prop :=
  match r.start, r.stop with
  | some start, some stop =>
    if three then
      match r.step with
      | some step => ∃ l, c = some l ∧ Fine start stop step ∧ IsProgression start stop step l
      | none => c = none
    else
      ∃ l, c = some l ∧ Fine start stop (if start ≤ stop then 1 else -1) ∧
        IsProgression start stop (if start ≤ stop then 1 else -1) l
  | _, _ => c = none

/-- All arguments of the row are values of the type. -/
def Typed (bits : Nat) (r : Args) : Prop :=
  (∀ v, r.start = some v → inTy bits v = true) ∧ (∀ v, r.stop = some v → inTy bits v = true)

/-- The number of elements of a column. -/
def total (cs : List (Option (List Int))) : Nat := (cs.map fun c => (c.getD []).length).sum

end Spec

theorem progression_unique {start stop step : Int} {l l' : List Int}
    (h : IsProgression start stop step l) (h' : IsProgression start stop step l') : l = l' := by
  apply List.ext_getElem?
  intro k
  apply Option.ext
  intro v
  rw [h k v, h' k v]

theorem progression_of_row {bits : Nat} (hb : bits ≤ 64) {start stop step : Int} {l : List Int}
    (hs : inTy bits start = true) (he : inTy bits stop = true)
    (hf : Fine start stop step) (hp : IsProgression start stop step l) :
    sequenceLength start stop step = .ok l.length ∧
      extendFrom bits start step 0 l.length [] = .ok l := by
  have := (C67_sequence_is_progression bits hb start stop step l.length hs he l).2
    ⟨hf, hp, Nat.le_refl _⟩
  unfold integralRow at this
  split at this
  · cases this
  · rename_i n hn
    split at this
    · cases this
    · obtain ⟨l', h1, h2, h3⟩ := fill_row hb hs he hn
      have e := progression_unique hp h3
      subst e
      subst h2
      exact ⟨hn, h1⟩

/-- One row of the first pass. -/
theorem plan_cons {bits : Nat} (hb : bits ≤ 64) {three : Bool} {t : Nat} {r : Args} {rs : List Args}
    (ht : Typed bits r) :
    (∀ ps, plan three t (r :: rs) = .ok ps →
      ∃ c p ps', ps = p :: ps' ∧ IsCell three r c ∧ (∀ l, c = some l → t + l.length ≤ 2147483647) ∧
        plan three (t + (c.getD []).length) rs = .ok ps' ∧
        (p = none ∧ c = none ∨ ∃ s d l, p = some (s, d, l.length) ∧ c = some l ∧
          extendFrom bits s d 0 l.length [] = .ok l)) ∧
    (∀ c ps', IsCell three r c → t + (c.getD []).length ≤ 2147483647 →
      plan three (t + (c.getD []).length) rs = .ok ps' →
      ∃ p, plan three t (r :: rs) = .ok (p :: ps') ∧
        (p = none ∧ c = none ∨ ∃ s d l, p = some (s, d, l.length) ∧ c = some l ∧
          extendFrom bits s d 0 l.length [] = .ok l)) := by
  obtain ⟨t1, t2⟩ := ht
  match hs : r.start, he : r.stop with
  | none, _ =>
    constructor
    · intro ps h
      simp only [plan, hs] at h
      split at h
      · cases h
      · rename_i ps' hp
        cases h
        exact ⟨none, none, ps', rfl, by simp [IsCell, hs], by simp, by simpa using hp, .inl ⟨rfl, rfl⟩⟩
    · intro c ps' hc hl hp
      simp only [IsCell, hs] at hc
      subst hc
      refine ⟨none, ?_, .inl ⟨rfl, rfl⟩⟩
      simp only [plan, hs]
      simp only [Option.getD_none, List.length_nil, Nat.add_zero] at hp
      rw [hp]
  | some start, none =>
    constructor
    · intro ps h
      simp only [plan, hs, he] at h
      split at h
      · cases h
      · rename_i ps' hp
        cases h
        exact ⟨none, none, ps', rfl, by simp [IsCell, hs, he], by simp, by simpa using hp, .inl ⟨rfl, rfl⟩⟩
    · intro c ps' hc hl hp
      simp only [IsCell, hs, he] at hc
      subst hc
      refine ⟨none, ?_, .inl ⟨rfl, rfl⟩⟩
      simp only [plan, hs, he]
      simp only [Option.getD_none, List.length_nil, Nat.add_zero] at hp
      rw [hp]
  | some start, some stop =>
    have hs' := t1 start hs
    have he' := t2 stop he
    -- the step and the meaning of the cell
    have hcell : ∀ c, IsCell three r c ↔
        match stepOf three start stop r.step with
        | some step => ∃ l, c = some l ∧ Fine start stop step ∧ IsProgression start stop step l
        | none => c = none := by
      intro c
      simp only [IsCell, hs, he, stepOf]
      cases three
      · simp
      · simp only [if_true]
    match hst : stepOf three start stop r.step with
    | none =>
      constructor
      · intro ps h
        simp only [plan, hs, he, hst] at h
        split at h
        · cases h
        · rename_i ps' hp
          cases h
          exact ⟨none, none, ps', rfl, by rw [hcell, hst], by simp, by simpa using hp, .inl ⟨rfl, rfl⟩⟩
      · intro c ps' hc hl hp
        rw [hcell, hst] at hc
        subst hc
        refine ⟨none, ?_, .inl ⟨rfl, rfl⟩⟩
        simp only [plan, hs, he, hst]
        simp only [Option.getD_none, List.length_nil, Nat.add_zero] at hp
        rw [hp]
    | some step =>
      constructor
      · intro ps h
        simp only [plan, hs, he, hst] at h
        split at h
        · cases h
        · rename_i n hn
          split at h
          · cases h
          · rename_i hcap
            split at h
            · cases h
            · rename_i ps' hp
              cases h
              obtain ⟨l, h1, h2, h3⟩ := fill_row hb hs' he' hn
              subst h2
              refine ⟨some l, _, ps', rfl, ?_, by intro l' h; cases h; omega, by simpa using hp, .inr ⟨start, step, l, rfl, rfl, h1⟩⟩
              rw [hcell, hst]
              exact ⟨l, rfl, ((length_iff (inTy_64 hb hs') (inTy_64 hb he') _).1 hn).1, h3⟩
      · intro c ps' hc hl hp
        rw [hcell, hst] at hc
        obtain ⟨l, rfl, hf, hpr⟩ := hc
        obtain ⟨h1, h2⟩ := progression_of_row hb hs' he' hf hpr
        simp only [Option.getD_some] at hl hp
        refine ⟨some (start, step, l.length), ?_, .inr ⟨start, step, l, rfl, rfl, h2⟩⟩
        simp only [plan, hs, he, hst, h1, hp]
        rw [if_neg (by omega)]

/-- A planned row stands for a cell. -/
def Stands (bits : Nat) (p : Option (Int × Int × Nat)) (c : Option (List Int)) : Prop :=
  p = none ∧ c = none ∨ ∃ s d l, p = some (s, d, l.length) ∧ c = some l ∧
    extendFrom bits s d 0 l.length [] = .ok l

/-- Two lists of the same length with related members. -/
inductive Rel {α β : Type} (R : α → β → Prop) : List α → List β → Prop
  | nil : Rel R [] []
  | cons {a b as bs} : R a b → Rel R as bs → Rel R (a :: as) (b :: bs)

theorem Rel.get {α β : Type} {R : α → β → Prop} {as : List α} {bs : List β} (h : Rel R as bs) :
    as.length = bs.length ∧ ∀ (i : Nat) (a : α), as[i]? = some a → ∃ b, bs[i]? = some b ∧ R a b := by
  induction h with
  | nil => simp
  | cons h1 _ ih =>
    refine ⟨by simp [ih.1], fun i a ha => ?_⟩
    cases i with
    | zero => simp at ha; subst ha; exact ⟨_, rfl, h1⟩
    | succ i => simp at ha; simpa using ih.2 i a ha

theorem Rel.of_get {α β : Type} {R : α → β → Prop} :
    ∀ {as : List α} {bs : List β}, as.length = bs.length →
      (∀ (i : Nat) (a : α), as[i]? = some a → ∃ b, bs[i]? = some b ∧ R a b) → Rel R as bs
  | [], [], _, _ => .nil
  | [], _ :: _, h, _ => by simp at h
  | _ :: _, [], h, _ => by simp at h
  | a :: as, b :: bs, h, hr => by
    refine .cons ?_ (Rel.of_get (by simpa using h) fun i x hx => ?_)
    · obtain ⟨b', h1, h2⟩ := hr 0 a rfl
      simp at h1
      exact h1 ▸ h2
    · simpa using hr (i + 1) x (by simpa using hx)

theorem plan_iff {bits : Nat} (hb : bits ≤ 64) {three : Bool} :
    ∀ (rs : List Args) (t : Nat), (∀ r ∈ rs, Typed bits r) → t ≤ 2147483647 →
      (∀ ps, plan three t rs = .ok ps → ∃ cs, Rel (IsCell three) rs cs ∧ Rel (Stands bits) ps cs ∧
        t + total cs ≤ 2147483647) ∧
      (∀ cs, Rel (IsCell three) rs cs → t + total cs ≤ 2147483647 →
        ∃ ps, plan three t rs = .ok ps ∧ Rel (Stands bits) ps cs) := by
  intro rs
  induction rs with
  | nil =>
    intro t _ ht
    constructor
    · intro ps h
      simp only [plan, Except.ok.injEq] at h
      subst h
      exact ⟨[], .nil, .nil, by simpa [total] using ht⟩
    · intro cs h _
      cases h
      exact ⟨[], rfl, .nil⟩
  | cons r rs ih =>
    intro t hty ht
    obtain ⟨c1, c2⟩ := plan_cons (rs := rs) (three := three) (t := t) hb (hty r (by simp))
    constructor
    · intro ps h
      obtain ⟨c, p, ps', rfl, hc, hcap, hp, hst⟩ := c1 ps h
      have hcap' : t + (c.getD []).length ≤ 2147483647 := by
        cases c with
        | none => simpa using ht
        | some l => simpa using hcap l rfl
      obtain ⟨cs, h1, h2, h3⟩ := (ih _ (fun r hr => hty r (by simp [hr])) hcap').1 ps' hp
      refine ⟨c :: cs, .cons hc h1, .cons hst h2, ?_⟩
      simp only [total, List.map_cons, List.sum_cons] at h3 ⊢
      omega
    · intro cs h hcap
      cases h with
      | cons hc hr =>
        rename_i c cs
        simp only [total, List.map_cons, List.sum_cons] at hcap
        obtain ⟨ps', hp, h2⟩ := (ih (t + (c.getD []).length) (fun r hr => hty r (by simp [hr])) (by omega)).2 cs hr
          (by simp only [total]; omega)
        obtain ⟨p, h3, h4⟩ := c2 c ps' hc (by omega) hp
        exact ⟨p :: ps', h3, .cons h4 h2⟩

theorem fill_iff {bits : Nat} :
    ∀ (ps : List (Option (Int × Int × Nat))) (cs : List (Option (List Int))) (a : ListArr Int),
      Rel (Stands bits) ps cs → a.values.length + total cs ≤ 2147483647 →
      fill bits ps a = .ok (cs.foldl ListArr.push a) := by
  intro ps
  induction ps with
  | nil =>
    intro cs a h _
    cases h
    rfl
  | cons p ps ih =>
    intro cs a h hcap
    cases h with
    | cons hst hr =>
      rename_i c cs
      simp only [total, List.map_cons, List.sum_cons] at hcap
      rcases hst with ⟨rfl, rfl⟩ | ⟨s, d, l, rfl, rfl, he⟩
      · simp only [fill, List.foldl_cons]
        exact ih cs _ hr (by simp [ListArr.pushNull, total] at hcap ⊢; omega)
      · simp only [fill, he, List.foldl_cons]
        simp only [Option.getD_some] at hcap
        rw [if_neg (by omega)]
        exact ih cs _ hr (by simp [ListArr.pushRow, total] at hcap ⊢; omega)

/-- C67: a batch succeeds exactly when every row has its sequence and all of them fit one column;
each row then reads as its own sequence, and as NULL if one of its arguments is NULL. -/
theorem C67_batches (bits : Nat) (hb : bits ≤ 64) (three : Bool) (rows : List Args)
    (ht : ∀ r ∈ rows, Typed bits r) (cs : List (Option (List Int))) :
    (∃ a, genSequence bits three rows = .ok a ∧ a.valid.length = rows.length ∧
        ∀ i, a.row i = cs[i]?) ↔
      cs.length = rows.length ∧ total cs ≤ 2147483647 ∧
        ∀ (i : Nat) (r : Args), rows[i]? = some r → ∃ c, cs[i]? = some c ∧ IsCell three r c := by
  have hp := plan_iff (bits := bits) hb (three := three) rows 0 ht (by omega)
  have hvalid : ∀ cs : List (Option (List Int)), ∀ a : ListArr Int,
      (cs.foldl ListArr.push a).valid.length = a.valid.length + cs.length := by
    intro cs
    induction cs with
    | nil => intro a; rfl
    | cons c cs ih =>
      intro a
      rw [List.foldl_cons, ih]
      cases c <;> simp [ListArr.push, ListArr.pushNull, ListArr.pushRow] <;> omega
  constructor
  · rintro ⟨a, ha, -, hr⟩
    unfold genSequence at ha
    split at ha
    · cases ha
    · rename_i ps hps
      obtain ⟨cs', h1, h2, h3⟩ := hp.1 ps hps
      rw [fill_iff ps cs' .empty h2 (by simpa [ListArr.empty] using h3)] at ha
      cases ha
      have : cs' = cs := by
        apply List.ext_getElem?
        intro i
        rw [← hr i, ListArr.row_foldl]
      subst this
      exact ⟨h1.get.1.symm, by omega, h1.get.2⟩
  · rintro ⟨hlen, hcap, hr⟩
    have hrel : Rel (IsCell three) rows cs := Rel.of_get hlen.symm hr
    obtain ⟨ps, h1, h2⟩ := hp.2 cs hrel (by omega)
    refine ⟨cs.foldl ListArr.push .empty, ?_, ?_, ListArr.row_foldl cs⟩
    · unfold genSequence
      rw [h1]
      exact fill_iff ps cs .empty h2 (by simpa [ListArr.empty] using hcap)
    · rw [hvalid]
      simp [ListArr.empty, hlen]

/-- Three rows, the second with a NULL argument, and without a step. -/
example :
    let a := genSequence 16 true [⟨some 1, some 10, some 4⟩, ⟨some 1, none, some 1⟩, ⟨some 3, some 1, some (-1)⟩]
    (a.toOption.map fun a => [a.row 0, a.row 1, a.row 2, a.row 3]) =
      some [some (some [1, 5, 9]), some none, some (some [3, 2, 1]), none] := by decide

example :
    let a := genSequence 16 false [⟨some 1, some 3, none⟩, ⟨some 3, some 1, none⟩, ⟨none, some 1, none⟩]
    (a.toOption.map fun a => [a.row 0, a.row 1, a.row 2]) =
      some [some (some [1, 2, 3]), some (some [3, 2, 1]), some none] := by decide

end Verif.Func.Sequence
