import Verif.Func.Preimage

/-!
# C66: Filters on year, last_day and floor keep their rows when rewritten
-/
namespace Verif.Func.Preimage

open Verif.Calendar

theorem rewritten_eq {op : Op} {v n : Int} {a b : Bool} (ha : a = true ↔ v < n) (hb : b = true ↔ v ≤ n) :
    rewritten op a b = op.test v n := by
  have ea : a = decide (v < n) := by
    rw [Bool.eq_iff_iff, ha, decide_eq_true_iff]
  have eb : b = decide (v ≤ n) := by
    rw [Bool.eq_iff_iff, hb, decide_eq_true_iff]
  subst ea eb
  cases op <;> simp only [rewritten, Op.test] <;> rw [Bool.eq_iff_iff] <;> simp <;> omega

theorem firstOf_jan (y lo : Int) (h : firstOf y 1 = some lo) : lo = jan1 y ∧ chronoYear y = true := by
  unfold firstOf at h
  split at h
  · rename_i hy
    cases h
    refine ⟨?_, hy⟩
    rw [show (y - 1970) * 12 + (1 - 1) = (y - 1970) * 12 + 0 by omega, monthFirst_of y 0 (by omega) (by omega),
      monthStart_0]
    omega
  · cases h

/-- C66: a filter on the year of a date keeps the same rows when it is rewritten into one on the
date, for every row whose year can be computed. -/
theorem C66_year (op : Op) (lit d y lo hi : Int) (hr : yearRange lit = some (lo, hi))
    (hy : year d = some y) :
    rewritten op (decide (d < lo)) (decide (d < hi)) = op.test y lit := by
  unfold year at hy
  split at hy
  · cases hy
    unfold yearRange at hr
    split at hr
    · cases hr
    · split at hr
      · cases hr
      · rename_i lo' h1
        split at hr
        · cases hr
        · rename_i hi' h2
          cases hr
          obtain ⟨rfl, -⟩ := firstOf_jan _ _ h1
          obtain ⟨rfl, -⟩ := firstOf_jan _ _ h2
          have hs := yearOf_spec d
          apply rewritten_eq
          · simp only [decide_eq_true_eq]
            constructor
            · intro h
              apply Classical.byContradiction
              intro hc
              have := jan1_mono (show lit ≤ yearOf d by omega)
              omega
            · intro h
              have := jan1_mono (show yearOf d + 1 ≤ lit by omega)
              omega
          · simp only [decide_eq_true_eq]
            constructor
            · intro h
              apply Classical.byContradiction
              intro hc
              have := jan1_mono (show lit + 1 ≤ yearOf d by omega)
              omega
            · intro h
              have := jan1_mono (show yearOf d + 1 ≤ lit + 1 by omega)
              omega
  · cases hy

/-- The year of a date is the one it lies in. -/
theorem C66_year_is_the_year (d y : Int) (h : year d = some y) : jan1 y ≤ d ∧ d < jan1 (y + 1) := by
  unfold year at h
  split at h
  · cases h; exact yearOf_spec d
  · cases h

theorem month0_range (d : Int) : 0 ≤ month0 d ∧ month0 d ≤ 11 := by
  have hs := yearOf_spec d
  have hj := jan1_succ (yearOf d)
  have := month0Of_spec (leapDay (yearOf d)) (d - jan1 (yearOf d)) (leapDay_range _) (by omega) (by omega)
  unfold month0
  exact ⟨this.1, this.2.1⟩

theorem lastDay_spec {d l : Int} (h : lastDay d = some l) : l = monthFirst (monthOf d + 1) - 1 := by
  unfold lastDay at h
  split at h
  · cases h
  · simp only at h
    have hm := month0_range d
    split at h
    · obtain ⟨f, hf, rfl⟩ := Option.map_eq_some_iff.1 h
      unfold firstOf at hf
      split at hf
      · cases hf
        congr 2
        unfold monthOf
        simp only
        omega
      · cases hf
    · obtain ⟨f, hf, rfl⟩ := Option.map_eq_some_iff.1 h
      unfold firstOf at hf
      split at hf
      · cases hf
        congr 2
        unfold monthOf
        simp only
        omega
      · cases hf

theorem monthOf_eq {d m : Int} (h1 : monthFirst m ≤ d) (h2 : d < monthFirst (m + 1)) : monthOf d = m := by
  have hs := monthOf_spec d
  apply Classical.byContradiction
  intro hc
  rcases Int.lt_or_lt_of_ne hc with h | h
  · have := monthFirst_mono (show monthOf d + 1 ≤ m by omega); omega
  · have := monthFirst_mono (show m + 1 ≤ monthOf d by omega); omega

/-- C66: a filter on the last day of the month of a date keeps the same rows when it is rewritten
into one on the date. -/
theorem C66_last_day (op : Op) (lit d l lo hi : Int) (hr : lastDayRange lit = some (lo, hi))
    (hl : lastDay d = some l) :
    rewritten op (decide (d < lo)) (decide (d < hi)) = op.test l lit := by
  have hl := lastDay_spec hl
  unfold lastDayRange at hr
  split at hr
  · cases hr
  · split at hr
    · cases hr
    · split at hr
      · cases hr
      · rename_i hday
        split at hr
        · cases hr
        · rename_i lo' hlo
          simp only [Option.some.injEq, Prod.mk.injEq] at hr
          obtain ⟨rfl, rfl⟩ := hr
          have elo : lo' = monthFirst (monthOf lit) := by
            unfold firstOf at hlo
            split at hlo
            · cases hlo
              congr 1
              unfold monthOf
              omega
            · cases hlo
          have hs := monthOf_spec lit
          have hs' := monthOf_spec (lit + 1)
          -- the day after the constant is the first of the next month
          have ehi : lit + 1 = monthFirst (monthOf lit + 1) := by
            have e : lit + 1 = monthFirst (monthOf (lit + 1)) := by omega
            rcases Int.lt_trichotomy (monthOf (lit + 1)) (monthOf lit + 1) with h | h | h
            · have := monthFirst_mono (show monthOf (lit + 1) ≤ monthOf lit by omega)
              omega
            · rw [← h]; exact e
            · have := monthFirst_mono (show monthOf lit + 1 + 1 ≤ monthOf (lit + 1) by omega)
              have := monthFirst_lt (monthOf lit + 1)
              omega
          subst hl
          have hd := monthOf_spec d
          have hmono : ∀ a b : Int, monthFirst (a + 1) < monthFirst (b + 1) ↔ a < b := by
            intro a b
            constructor
            · intro h
              apply Classical.byContradiction
              intro hc
              have := monthFirst_mono (show b + 1 ≤ a + 1 by omega)
              omega
            · intro h
              have := monthFirst_lt (a + 1)
              have := monthFirst_mono (show a + 1 + 1 ≤ b + 1 by omega)
              omega
          apply rewritten_eq
          · simp only [decide_eq_true_eq]
            rw [elo]
            have := hmono (monthOf d) (monthOf lit)
            constructor
            · intro h
              have : monthOf d < monthOf lit := by
                apply Classical.byContradiction
                intro hc
                have := monthFirst_mono (show monthOf lit ≤ monthOf d by omega)
                omega
              have := (hmono _ _).2 this
              omega
            · intro h
              have := (hmono (monthOf d) (monthOf lit)).1 (by omega)
              have := monthFirst_mono (show monthOf d + 1 ≤ monthOf lit by omega)
              omega
          · simp only [decide_eq_true_eq]
            rw [ehi]
            constructor
            · intro h
              have : monthOf d ≤ monthOf lit := by
                apply Classical.byContradiction
                intro hc
                have := monthFirst_mono (show monthOf lit + 1 ≤ monthOf d by omega)
                omega
              have := monthFirst_mono (show monthOf d + 1 ≤ monthOf lit + 1 by omega)
              omega
            · intro h
              omega

/-- The last day of the month of a date is in its month and the next day is not. -/
theorem C66_last_day_is_the_last_day (d l : Int) (h : lastDay d = some l) :
    monthOf l = monthOf d ∧ monthOf (l + 1) = monthOf d + 1 ∧ d ≤ l := by
  have h := lastDay_spec h
  have hs := monthOf_spec d
  have h1 := monthFirst_lt (monthOf d)
  have h2 := monthFirst_lt (monthOf d + 1)
  refine ⟨monthOf_eq (by omega) (by omega), monthOf_eq (by omega) (by omega), by omega⟩

/-- The range is announced for every last day of a month, so that no such filter is left alone. -/
theorem C66_last_day_announced (lit : Int) (h : chronoYear (yearOf lit) = true)
    (h' : chronoYear (yearOf (lit + 1)) = true) (hl : monthOf (lit + 1) = monthOf lit + 1) :
    ∃ r, lastDayRange lit = some r := by
  have hs := monthOf_spec lit
  have hs' := monthOf_spec (lit + 1)
  rw [hl] at hs'
  unfold lastDayRange
  rw [if_neg (by simp [h]), if_neg (by simp [h']), if_neg (by rw [hl]; omega)]
  unfold firstOf
  rw [if_pos h]
  exact ⟨_, rfl⟩

/-- 2024, the last day of February 2024, and dates around them. -/
example : yearRange 2024 = some (19723, 20089) ∧ year 19722 = some 2023 ∧ year 20088 = some 2024 ∧
    lastDayRange 19782 = some (19754, 19783) ∧ lastDay 19754 = some 19782 ∧ lastDay 19753 = some 19753 ∧
    lastDayRange 19781 = none ∧ yearRange 262142 = none ∧
    rewritten .le (decide ((19753 : Int) < 19754)) (decide ((19753 : Int) < 19783)) = true := by decide +kernel

/-! ## floor -/

/-- C66: a filter on the floor of an integer (the integer itself) keeps the same rows. -/
theorem C66_floor_integer (op : Op) (bits : Nat) (n x lo hi : Int) (hr : intRange bits n = some (lo, hi)) :
    rewritten op (decide (x < lo)) (decide (x < hi)) = op.test x n := by
  unfold intRange at hr
  split at hr
  · split at hr
    · cases hr
      apply rewritten_eq <;> simp only [decide_eq_true_eq] <;> omega
    · cases hr
  · cases hr

theorem decimalLit_spec {u n : Int} {s : Nat} (h : decimalLit u s = some n) : u = n * 10 ^ s := by
  unfold decimalLit at h
  split at h
  · rename_i hs
    cases h
    subst hs
    simp
  · split at h
    · cases h
    · split at h
      · rename_i hm
        cases h
        have := Int.mul_tdiv_add_tmod u (10 ^ s)
        rw [hm, Int.add_zero, Int.mul_comm] at this
        exact this.symm
      · cases h

/-- C66: a filter on the floor of a decimal keeps the same rows; the constant may be a decimal of
any scale that writes a whole number. -/
theorem C66_floor_decimal (op : Op) (precision scale litScale : Nat) (lit n x lo hi : Int)
    (hl : decimalLit lit litScale = some n) (hr : decimalRange n precision scale = some (lo, hi)) :
    lit = n * 10 ^ litScale ∧
    rewritten op (decide (x < lo)) (decide (x < hi)) = op.test (floorDecimal x scale) n := by
  refine ⟨decimalLit_spec hl, ?_⟩
  unfold decimalRange at hr
  split at hr
  · cases hr
  · split at hr
    · cases hr
    · split at hr
      · cases hr
      · split at hr
        · cases hr
        · simp only [Option.some.injEq, Prod.mk.injEq] at hr
          obtain ⟨rfl, rfl⟩ := hr
          have hp : (0 : Int) < 10 ^ scale := Int.pow_pos (by omega)
          have hf : floorDecimal x scale = x / 10 ^ scale := by
            unfold floorDecimal
            split
            · rename_i h0; subst h0; simp
            · rfl
          rw [hf]
          apply rewritten_eq
          · simp only [decide_eq_true_eq]
            exact (Int.ediv_lt_iff_lt_mul hp).symm
          · simp only [decide_eq_true_eq]
            rw [← Int.lt_add_one_iff, Int.ediv_lt_iff_lt_mul hp, Int.add_mul, Int.one_mul]

example : decimalRange (-3) 10 2 = some (-300, -200) ∧ floorDecimal (-201) 2 = -3 ∧
    floorDecimal (-200) 2 = -2 ∧ decimalLit (-30) 1 = some (-3) ∧ decimalLit 31 1 = none ∧
    decimalRange 99 4 2 = none := by decide +kernel

/-- A column value: a fraction the column can hold. -/
def Ordinary (f : Format) : Flt → Prop
  | .fin p d => 0 < d ∧ f.rep64 p d
  | .inf _ => True
  | _ => False

theorem floatRange_spec {f : Format} {n lo hi : Int} (h : floatRange f n = some (lo, hi))
    (hn : -2 ^ 127 < n) : lo = n ∧ n + 1 ≤ hi ∧ hi = f.round (n + 1) := by
  unfold floatRange at h
  split at h
  · cases h
  · rename_i hi128
    split at h
    · cases h
    · rename_i hc
      simp only [Option.some.injEq, Prod.mk.injEq] at h
      obtain ⟨rfl, rfl⟩ := h
      simp only [inI128, Bool.and_eq_true, decide_eq_true_eq, Classical.not_not] at hi128
      have h1 : asI128 (f.round n) = n := by omega
      have h2 : f.round n < f.round (n + 1) := by omega
      have h3 : f.round n = n := by
        unfold asI128 at h1
        split at h1
        · omega
        · split at h1 <;> omega
      omega

theorem natAbs_sub_mul {h m d : Int} (hd : 0 < d) (hh : m ≤ h) :
    (((h - m).natAbs * d.natAbs : Nat) : Int) = h * d - m * d := by
  rw [← Int.natAbs_mul, Int.sub_mul]
  have := Int.mul_le_mul_of_nonneg_right hh (Int.le_of_lt hd)
  omega

/-- For a value the format can hold, the rounded upper bound is as good as the exact one. -/
theorem below_hi {f : Format} {n p : Int} {d : Nat} (hd : 0 < d) (hx : f.rep64 p d)
    (hhi : n + 1 ≤ f.round (n + 1)) : p < f.round (n + 1) * d ↔ p < (n + 1) * d := by
  constructor
  · intro h
    apply Classical.byContradiction
    intro hc
    have hn := f.nearest (n + 1) p d hd hx
    have e := natAbs_sub_mul (h := f.round (n + 1)) (m := n + 1) (d := (d : Int)) (by omega) hhi
    rw [Int.natAbs_natCast] at e
    omega
  · intro h
    have := Int.mul_le_mul_of_nonneg_right hhi (show (0 : Int) ≤ (d : Int) by omega)
    omega

theorem floor_flt {f : Format} {n hi : Int} {x : Flt} (hx : Ordinary f x) (hn : -2 ^ 63 ≤ n ∧ n < 2 ^ 63 - 1)
    (h1 : n + 1 ≤ hi) (h2 : hi = f.round (n + 1)) :
    (below n x = true ↔ floorFlt x < n ∨ (x = .inf true ∧ n = -2 ^ 63) ∨
      (n = -2 ^ 63 ∧ ∃ p d, x = .fin p d ∧ p / d < n)) ∧
    (below hi x = true ↔ floorFlt x ≤ n) := by
  cases x with
  | negZero => exact hx.elim
  | nan s => exact hx.elim
  | inf s =>
    cases s
    · simp [below, floorFlt]; omega
    · simp [below, floorFlt]; omega
  | fin p d =>
    obtain ⟨hd, hrep⟩ := hx
    have hd' : (0 : Int) < d := by omega
    have e1 : p < n * d ↔ p / d < n := (Int.ediv_lt_iff_lt_mul hd').symm
    have e2 : p < (n + 1) * d ↔ p / d < n + 1 := (Int.ediv_lt_iff_lt_mul hd').symm
    simp only [below, floorFlt, decide_eq_true_eq, Flt.fin.injEq, reduceCtorEq, false_and, false_or]
    constructor
    · rw [e1]
      constructor
      · intro h
        by_cases hm : n = -2 ^ 63
        · exact .inr ⟨hm, p, d, ⟨rfl, rfl⟩, h⟩
        · left
          unfold saturate
          split
          · omega
          · split <;> omega
      · rintro (h | ⟨-, p', d', ⟨rfl, rfl⟩, h⟩)
        · unfold saturate at h
          split at h
          · omega
          · split at h <;> omega
        · exact h
    · subst h2
      rw [below_hi hd hrep h1, e2]
      unfold saturate
      split
      · omega
      · split <;> omega

/-- C66 (partial): a filter on the floor of a 64-bit float keeps the same rows, for every fraction
and every infinity.  Missing: NaN and the negative zero, for which the claim is refuted by
`C66_floor_nan` and `C66_floor_negative_zero`, and a constant at the very edge of the 64-bit
integers, which IEEE formats do not announce. -/
theorem C66_floor_double_partial (f : Format) (op : Op) (n lo hi : Int) (x : Flt)
    (hr : floatRange f n = some (lo, hi)) (hn : -2 ^ 63 < n ∧ n < 2 ^ 63 - 1) (hx : Ordinary f x) :
    rewritten op (below lo x) (below hi x) = op.test (floorFlt x) n := by
  obtain ⟨rfl, h1, h2⟩ := floatRange_spec hr (by omega)
  obtain ⟨a, b⟩ := floor_flt hx ⟨by omega, hn.2⟩ h1 h2
  refine rewritten_eq ?_ b
  rw [a]
  constructor
  · rintro (h | h | h)
    · exact h
    · omega
    · omega
  · exact .inl

/-- C66 (partial): the same for a 32-bit float. -/
theorem C66_floor_float_partial (f : Format) (op : Op) (n lo hi : Int) (x : Flt)
    (hr : floatRange32 f n = some (lo, hi)) (hn : -2 ^ 63 < n ∧ n < 2 ^ 63 - 1)
    (hx : match x with
      | .fin p d => 0 < d ∧ f.rep32 p d
      | .inf _ => True
      | _ => False) :
    rewritten op (below lo x) (below hi x) = op.test (floorFlt x) n := by
  unfold floatRange32 at hr
  split at hr
  · cases hr
  · rename_i lo' hi' h64
    split at hr
    · cases hr
    · rename_i hc
      simp only [Option.some.injEq, Prod.mk.injEq] at hr
      obtain ⟨rfl, rfl⟩ := hr
      rw [show f.round32 lo' = lo' by omega, show f.round32 hi' = hi' by omega]
      refine C66_floor_double_partial f op n lo' hi' x h64 hn ?_
      cases x with
      | fin p d => exact ⟨hx.1, f.widen _ _ hx.2⟩
      | inf _ => trivial
      | negZero => exact hx
      | nan _ => exact hx

/-- Fractions and infinities. -/
example : rewritten .eq (below 3 (.fin 7 2)) (below 4 (.fin 7 2)) = true ∧ floorFlt (.fin 7 2) = 3 ∧
    rewritten .gt (below (-4) (.fin (-7) 2)) (below (-3) (.fin (-7) 2)) = false ∧
    floorFlt (.fin (-7) 2) = -4 ∧ floorFlt (.inf true) = -2 ^ 63 := by decide +kernel

/-- Every integer and no other number: a format in which all ranges are announced. -/
def integers : Format where
  rep64 p d := ∃ k, p = k * d
  rep32 p d := ∃ k, p = k * d
  widen _ _ h := h
  round n := n
  nearest n p d _ _ := by simp
  round32 n := n

example : floatRange integers 7 = some (7, 8) ∧ Ordinary integers (.fin 14 2) := by
  exact ⟨by decide +kernel, by decide, 7, by decide⟩

/-- C66, a negation: the rewritten filter `floor(x) = 0` loses NaN, whose floor is 0, and the
rewritten filter `floor(x) > 5` lets it pass. -/
theorem C66_floor_nan :
    floatRange integers 0 = some (0, 1) ∧ floatRange integers 5 = some (5, 6) ∧
    rewritten .eq (below 0 (.nan false)) (below 1 (.nan false)) = false ∧
      Op.eq.test (floorFlt (.nan false)) 0 = true ∧
    rewritten .gt (below 5 (.nan false)) (below 6 (.nan false)) = true ∧
      Op.gt.test (floorFlt (.nan false)) 5 = false := by
  decide +kernel

/-- C66, a negation: the rewritten filter `floor(x) = 0` loses the negative zero, and the rewritten
filter `floor(x) = -1` lets it pass. -/
theorem C66_floor_negative_zero :
    floatRange integers 0 = some (0, 1) ∧ floatRange integers (-1) = some (-1, 0) ∧
    rewritten .eq (below 0 .negZero) (below 1 .negZero) = false ∧ Op.eq.test (floorFlt .negZero) 0 = true ∧
    rewritten .eq (below (-1) .negZero) (below 0 .negZero) = true ∧
      Op.eq.test (floorFlt .negZero) (-1) = false := by
  decide +kernel

/-- C66, a negation: a date whose year cannot be computed makes the query fail, but not when the
filter is rewritten. -/
theorem C66_year_out_of_range :
    year (2 ^ 31 - 1) = none ∧ yearRange 2024 = some (19723, 20089) ∧
    rewritten .gt (decide ((2 ^ 31 - 1 : Int) < 19723)) (decide ((2 ^ 31 - 1 : Int) < 20089)) = true := by
  decide +kernel

/-- The ends of the range of an integer column are values of the column's type, and a range is announced for every
value of the type but the largest. -/
theorem C66_floor_integer_fits (bits : Nat) (n : Int) :
    (∀ lo hi, intRange bits n = some (lo, hi) → -2 ^ (bits - 1) ≤ lo ∧ hi < 2 ^ (bits - 1)) ∧
    ((intRange bits n).isSome ↔ -2 ^ (bits - 1) ≤ n ∧ n < 2 ^ (bits - 1) - 1) := by
  unfold intRange
  constructor
  · intro lo hi h
    split at h
    · split at h
      · cases h
        omega
      · cases h
    · cases h
  · split
    · split <;> simp <;> omega
    · simp
      omega

example : (intRange 8 127).isSome = false ∧ intRange 8 126 = some (126, 127) := by decide

end Verif.Func.Preimage
