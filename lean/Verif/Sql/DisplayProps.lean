import Verif.Sql.Display
import Verif.Sql.DatetimeProps
import Verif.Sql.IntervalProps

/-!
# C96: a literal that is shown is read back as the same value
-/

namespace Verif.Sql

open Verif.Calendar
open Spec

/-! ## Numbers -/

theorem toDigits_digits (n : Nat) : Digits (Nat.toDigits 10 n) := fun _ h =>
  Nat.isDigit_of_mem_toDigits (by decide) (by decide) h

theorem toDigits_val (n : Nat) : digitsVal (Nat.toDigits 10 n) = n := Nat.ofDigitChars_ten_toDigits

theorem zeros_digits (k : Nat) : Digits (List.replicate k '0') := fun c h => by
  rw [(List.mem_replicate.mp h).2]; decide

theorem digits_append {a b : Text} (ha : Digits a) (hb : Digits b) : Digits (a ++ b) := fun c h => by
  rcases List.mem_append.mp h with h | h
  · exact ha c h
  · exact hb c h

theorem digitsVal_zeros (k : Nat) (s : Text) : digitsVal (List.replicate k '0' ++ s) = digitsVal s := by
  rw [digitsVal, Nat.ofDigitChars_append, Nat.ofDigitChars_replicate_zero, Nat.mul_zero]

theorem digitsVal_append_zeros (k : Nat) (s : Text) : digitsVal (s ++ List.replicate k '0') = 10 ^ k * digitsVal s := by
  rw [digitsVal, Nat.ofDigitChars_append, Nat.ofDigitChars_replicate_zero]

theorem padText_digits (k n : Nat) : Digits (padText k n) := digits_append (zeros_digits _) (toDigits_digits n)

theorem padText_val (k n : Nat) : digitsVal (padText k n) = n := by
  rw [padText, digitsVal_zeros, toDigits_val]

theorem padText_num {k m n : Nat} (hm : 0 < m) (hk : k ≤ m) (hn : n < 10 ^ m) : Num k m n (padText k n) := by
  have hl := (Nat.length_toDigits_le_iff (b := 10) (n := n) (k := m) (by decide) hm).mpr hn
  refine ⟨padText_digits k n, ?_, ?_, (padText_val k n).symm⟩
  · rw [padText, List.length_append, List.length_replicate]; omega
  · rw [padText, List.length_append, List.length_replicate]; omega

theorem padText_two {n : Nat} (hn : n < 100) : Num 1 2 n (padText 2 n) := by
  have := padText_num (k := 2) (m := 2) (n := n) (by decide) (by decide) (by omega)
  exact ⟨this.1, by have := this.2.1; omega, this.2.2⟩

/-- A fraction is shown as a point and digits that stand for it. -/
theorem fractionText_value {k v : Nat} (h : v < 10 ^ k) :
    (v = 0 ∧ fractionText k v = []) ∨
    ∃ f, fractionText k v = '.' :: f ∧ Digits f ∧ f ≠ [] ∧ f.length ≤ k ∧ digitsVal f * 10 ^ (k - f.length) = v := by
  by_cases hv : v = 0
  · exact .inl ⟨hv, by rw [fractionText, if_neg (by omega)]⟩
  right
  have hk : 0 < k := by
    cases k with
    | zero => simp at h; omega
    | succ k => omega
  have hl := (Nat.length_toDigits_le_iff (b := 10) (n := v) (k := k) (by decide) hk).mpr h
  have hsplit : Nat.toDigits 10 v = trimZeros (Nat.toDigits 10 v) ++
      List.replicate ((Nat.toDigits 10 v).reverse.takeWhile (· == '0')).length '0' := by
    have e := congrArg List.reverse
      (List.takeWhile_append_dropWhile (p := (· == '0')) (l := (Nat.toDigits 10 v).reverse)).symm
    rw [List.reverse_reverse, List.reverse_append] at e
    have z : ((Nat.toDigits 10 v).reverse.takeWhile (· == '0')).reverse =
        List.replicate ((Nat.toDigits 10 v).reverse.takeWhile (· == '0')).length '0' := by
      rw [List.eq_replicate_iff]
      refine ⟨List.length_reverse, ?_⟩
      intro c hc
      exact eq_of_beq (takeWhile_all (p := (· == '0')) (List.mem_reverse.mp hc))
    rw [← z]
    exact e
  generalize ((Nat.toDigits 10 v).reverse.takeWhile (· == '0')).length = j at hsplit
  have hval := toDigits_val v
  have hlen : (trimZeros (Nat.toDigits 10 v)).length + j = (Nat.toDigits 10 v).length := by
    have := congrArg List.length hsplit
    rw [List.length_append, List.length_replicate] at this
    exact this.symm
  have hd : Digits (trimZeros (Nat.toDigits 10 v)) := by
    intro c hc
    refine toDigits_digits v c ?_
    rw [hsplit]
    exact List.mem_append_left _ hc
  have hv2 : 10 ^ j * digitsVal (trimZeros (Nat.toDigits 10 v)) = v := by
    rw [← digitsVal_append_zeros, ← hsplit, hval]
  refine ⟨List.replicate (k - (Nat.toDigits 10 v).length) '0' ++ trimZeros (Nat.toDigits 10 v), ?_, ?_, ?_, ?_, ?_⟩
  · rw [fractionText, if_pos (by omega)]
  · exact digits_append (zeros_digits _) hd
  · intro e
    have e2 := (List.append_eq_nil_iff.mp e).2
    rw [e2] at hv2
    rw [← hv2] at hv
    exact hv (by simp)
  · rw [List.length_append, List.length_replicate]; omega
  · rw [digitsVal_zeros, List.length_append, List.length_replicate]
    have : k - (k - (Nat.toDigits 10 v).length + (trimZeros (Nat.toDigits 10 v)).length) = j := by omega
    rw [this, Nat.mul_comm, hv2]

theorem fractionText_nanos {k v : Nat} (hk : k ≤ 9) (h : v < 10 ^ k) : NanosText (v * 10 ^ (9 - k)) (fractionText k v) := by
  rcases fractionText_value h with ⟨rfl, e⟩ | ⟨f, e, h1, _, h3, h4⟩
  · rw [e, Nat.zero_mul]; exact .none
  · rw [e, ← h4, Nat.mul_assoc, ← Nat.pow_add]
    have : k - f.length + (9 - k) = 9 - f.length := by omega
    rw [this]
    exact .some h1 (by omega)

/-! ## Dates and times -/

theorem yearText_text {y : Int} (h1 : -262143 ≤ y) (h2 : y ≤ 262142) : YearText y (yearText y) := by
  have hn : Num 4 7 y.natAbs (padText 4 y.natAbs) := padText_num (by decide) (by decide) (by omega)
  rw [yearText]
  by_cases h : 0 ≤ y ∧ y ≤ 9999
  · rw [if_pos h]
    have := YearText.plain hn
    rwa [Int.natAbs_of_nonneg h.1] at this
  · rw [if_neg h]
    by_cases hy : y < 0
    · rw [if_pos hy]
      have := YearText.minus hn
      have e : -(y.natAbs : Int) = y := by omega
      rwa [e] at this
    · rw [if_neg hy]
      have := YearText.plus hn
      rwa [Int.natAbs_of_nonneg (by omega)] at this

theorem month0_range (d : Int) : 0 ≤ month0 d ∧ month0 d ≤ 11 := by
  have hy := yearOf_spec d
  have hs := jan1_succ (yearOf d)
  have hl := leapDay_range (yearOf d)
  have := month0Of_spec (leapDay (yearOf d)) (d - jan1 (yearOf d)) hl (by omega) (by omega)
  exact ⟨this.1, this.2.1⟩

theorem day_range (d : Int) : 0 ≤ d - monthFirst (monthOf d) ∧ d - monthFirst (monthOf d) < 31 := by
  obtain ⟨m0, m1⟩ := month0_range d
  obtain ⟨d0, d1⟩ := monthOf_spec d
  have hl := leapDay_range (yearOf d)
  have e1 := monthFirst_of (yearOf d) (month0 d) m0 m1
  have e2 := monthFirst_next (yearOf d) (month0 d) m0 m1
  have : monthStart (leapDay (yearOf d)) (month0 d + 1) ≤ monthStart (leapDay (yearOf d)) (month0 d) + 31 := by
    generalize leapDay (yearOf d) = l at *
    generalize month0 d = m at *
    rcases (by omega : m = 0 ∨ m = 1 ∨ m = 2 ∨ m = 3 ∨ m = 4 ∨ m = 5 ∨ m = 6 ∨ m = 7 ∨ m = 8 ∨ m = 9 ∨ m = 10 ∨ m = 11)
      with rfl | rfl | rfl | rfl | rfl | rfl | rfl | rfl | rfl | rfl | rfl | rfl <;>
      simp only [Int.reduceAdd, monthStart_0, monthStart_1, monthStart_2, monthStart_3, monthStart_4, monthStart_5,
        monthStart_6, monthStart_7, monthStart_8, monthStart_9, monthStart_10, monthStart_11, monthStart_12] <;> omega
  rw [monthOf] at *
  omega

theorem dateItems_text {days : Int} (h1 : -262143 ≤ yearOf days) (h2 : yearOf days ≤ 262142) :
    ∃ m d : Nat, DateText (yearOf days) (some m) (some d) (dateItems days) ∧ IsDay (yearOf days) m d days := by
  obtain ⟨m0, m1⟩ := month0_range days
  obtain ⟨d0, dl⟩ := day_range days
  refine ⟨(month0 days + 1).toNat, (days - monthFirst (monthOf days) + 1).toNat, ?_, ?_⟩
  · rw [dateItems]
    exact .mk (yearText_text h1 h2) (.some (padText_two (by omega))) (.some (padText_two (by omega))) (by simp)
  · exact ⟨h1, h2, by omega, by omega, rfl, by omega, by omega⟩

theorem jan1_lt_iff {a b : Int} : jan1 a < jan1 b ↔ a < b := by
  constructor
  · intro h
    have : ¬ b ≤ a := fun hb => by have := jan1_mono hb; omega
    omega
  · intro h
    have := jan1_mono (a := a + 1) (b := b) (by omega)
    have := jan1_lt a
    omega

theorem range_years (days : Int) : (firstDay ≤ days ∧ days ≤ lastDay) ↔ (-262143 ≤ yearOf days ∧ yearOf days ≤ 262142) := by
  have e1 : firstDay = jan1 (-262143) := by decide +kernel
  have e2 : lastDay = jan1 262143 - 1 := by decide +kernel
  obtain ⟨h1, h2⟩ := yearOf_spec days
  rw [e1, e2]
  generalize hL : (-262143 : Int) = L
  generalize hH : (262143 : Int) = H
  have hH' : (262142 : Int) = H - 1 := by omega
  rw [hH']
  clear hL hH hH' e1 e2
  constructor
  · intro h
    have g1 : jan1 L < jan1 (yearOf days + 1) := by omega
    have g2 : jan1 (yearOf days) < jan1 H := by omega
    rw [jan1_lt_iff] at g1 g2
    omega
  · intro h
    have g1 := jan1_mono h.1
    have g2 := jan1_mono (a := yearOf days + 1) (b := H) (by omega)
    omega

/-- The days that the date library has are shown as a date that is read back. -/
theorem C96_date {days : Int} (h1 : -262143 ≤ yearOf days) (h2 : yearOf days ≤ 262142) :
    dateLiteral (showDate days) = some days := by
  obtain ⟨m, d, hd, hi⟩ := dateItems_text h1 h2
  rw [showDate, if_pos ((range_years days).mpr ⟨h1, h2⟩), dateLiteral,
    (C94_date _ _).mpr ⟨_, _, _, _, [], (List.append_nil _).symm, hd, rfl, .inl rfl⟩]
  exact (C94_date_value _ _).mpr hi

/-- Other days are shown as an error, which is no date. -/
theorem C96_date_error {days : Int} (h : yearOf days < -262143 ∨ 262142 < yearOf days) :
    showDate days = "ERROR".toList ∧ dateLiteral (showDate days) = none := by
  have e : showDate days = errorText := by
    rw [showDate, if_neg]
    rw [range_years]
    omega
  rw [e]
  exact ⟨rfl, by decide +kernel⟩

theorem timeItems_text {s n : Nat} {f : Text} (h : s < 86400) (hf : NanosText n f) :
    TimeText ⟨s / 3600, s / 60 % 60, s % 60, n⟩ (timeItems s ++ f) := by
  rw [timeItems]
  exact .mk (m := some (s / 60 % 60)) (x := some (s % 60)) (padText_two (by omega)) (.some (padText_two (by omega)))
    (.some (padText_two (by omega))) (by simp) hf

/-- A time of the day is read back. -/
theorem C96_time {us : Nat} (h : us < 86400000000) : timeLiteral (showTime us) = some us := by
  have hf := fractionText_nanos (k := 6) (v := us % 1000000) (by decide) (by omega)
  have ht := timeItems_text (s := us / 1000000) (by omega) hf
  rw [showTime, if_pos h, timeLiteral, (C94_time _ _).mpr ht]
  simp only
  rw [C94_time_value ht, if_pos ⟨by simp only; omega, by simp only; omega, by simp only; omega⟩]
  refine congrArg some ?_
  simp only
  omega

/-- A timestamp without a time zone is read back. -/
theorem C96_timestamp {us : Int} (h1 : -262143 ≤ yearOf (us / 86400000000)) (h2 : yearOf (us / 86400000000) ≤ 262142) :
    timestampLiteral (showTimestamp us) = .ok (us, []) := by
  have ed : us / 1000000 / 86400 = us / 86400000000 := by omega
  obtain ⟨m, d, hd, hi⟩ := dateItems_text h1 h2
  have hf := fractionText_nanos (k := 9) (v := (us % 1000000).toNat * 1000) (by decide) (by omega)
  have ht := timeItems_text (s := (us / 1000000 % 86400).toNat) (by omega) hf
  rw [Nat.sub_self, Nat.pow_zero, Nat.mul_one] at ht
  have hsep : SepText94 [' '] := .spaces (by intro c hc; simpa using hc) (by simp)
  have hz : ZoneText [] [] := .other ⟨[], [], rfl, by simp [Spaces], by simp [Spaces], by simp, by simp⟩
    (by simp) (by simp) (by simp)
  have hp := C94_timestamp hd hsep ht (by intro c hc; cases hc) hz
  have e : showTimestamp us = dateItems (us / 86400000000) ++
      ([' '] ++ ((timeItems (us / 1000000 % 86400).toNat ++ fractionText 9 ((us % 1000000).toNat * 1000)) ++ [])) := by
    simp only [showTimestamp]
    rw [ed, if_pos ((range_years _).mpr ⟨h1, h2⟩)]
    simp only [List.append_assoc, List.cons_append, List.nil_append, List.append_nil]
  rw [e, timestampLiteral, hp]
  simp only [Option.getD_some]
  rw [((C94_timestamp_value (v := ⟨⟨yearOf (us / 86400000000), m, d⟩, _, []⟩) ht).1
    ((us / 86400000000) * 86400000000000 + (us % 86400000000) * 1000)).mpr
    ⟨us / 86400000000, hi, .inl ⟨by simp only; omega, by simp only; omega, by simp only; omega, by simp only; omega⟩⟩]
  simp only
  refine congrArg Outcome.ok (congrArg (·, []) ?_)
  omega

example : showDate (-719529) = "-0001-12-31".toList ∧ showDate 19782 = "2024-02-29".toList ∧
    showDate 2932897 = "+10000-01-01".toList := by decide +kernel
example : showTime 1500000 = "00:00:01.5".toList ∧ showTimestamp (-1) = "1969-12-31 23:59:59.999999".toList := by
  decide +kernel

/-! ## Intervals -/

theorem sign_text {n : Int} {u : Nat} (hu : 0 < u) :
    (if n.tdiv u = 0 ∧ n < 0 then ['-'] else []) ++ intText (n.tdiv u) =
      (if n < 0 then ['-'] else []) ++ Nat.toDigits 10 (n.natAbs / u) := by
  have ha : (n.tdiv u).natAbs = n.natAbs / u := by rw [Int.natAbs_tdiv]; rfl
  rw [intText, ha]
  by_cases hn : n < 0
  · rw [if_pos hn]
    have hle : n.tdiv u ≤ 0 := by
      have : 0 ≤ (-n).tdiv u := Int.tdiv_nonneg (by omega) (by omega)
      rw [Int.neg_tdiv] at this
      omega
    by_cases h0 : n.tdiv u = 0
    · rw [if_pos ⟨h0, hn⟩, if_neg (by omega)]
    · rw [if_neg (fun h => h0 h.1), if_pos (by omega)]
      rfl
  · rw [if_neg hn, if_neg (fun h => hn h.2)]
    have : 0 ≤ n.tdiv u := Int.tdiv_nonneg (by omega) (by omega)
    rw [if_neg (by omega)]

theorem sign_of {n : Int} : sign (0 + minuses false + minuses (decide (n < 0))) * (n.natAbs : Int) = n := by
  by_cases h : n < 0
  · simp only [h, decide_true, minuses, sign]
    simp
    omega
  · simp only [h, decide_false, minuses, sign]
    simp
    omega

/-- A number of months is read back, but for the smallest. -/
theorem C96_months {n : Int} (h1 : -(2 ^ 31) ≤ n) (h2 : n < 2 ^ 31) :
    standardInterval (.lit (showMonths n)) .yearToMonth false = if n = -(2 ^ 31) then none else some (.months n) := by
  have hm : (n.tmod 12).natAbs = n.natAbs % 12 := by rw [Int.natAbs_tmod]; rfl
  have e : showMonths n = [] ++ (if n < 0 then ['-'] else []) ++ Nat.toDigits 10 (n.natAbs / 12) ++
      (['-'] ++ Nat.toDigits 10 (n.natAbs % 12) ++ []) ++ [] ++ [] := by
    have := sign_text (n := n) (u := 12) (by decide)
    simp only [showMonths]
    rw [show (n.tdiv 12) = n.tdiv ((12 : Nat) : Int) from rfl, this, hm]
    simp only [List.nil_append, List.append_nil, List.append_assoc, List.cons_append]
  have ht : StdText .yearToMonth (decide (n < 0)) (Nat.toDigits 10 (n.natAbs / 12)) [Nat.toDigits 10 (n.natAbs % 12)] none
      (showMonths n) := by
    refine ⟨⟨_, _, _, _, _, e, by simp [Blanks], by simp [Blanks], ?_, ?_, .none, fun h => absurd rfl h⟩,
      toDigits_digits _, Nat.toDigits_ne_nil⟩
    · by_cases hn : n < 0
      · exact .inr ⟨by simp [hn], if_pos hn⟩
      · exact .inl ⟨by simp [hn], .inl (if_neg hn)⟩
    · exact .cons (rfl : SepText .dash ['-']) (toDigits_digits _) Nat.toDigits_ne_nil .nil
  have := C93_standard ht 0 false
  have ha : amount .yearToMonth (Nat.toDigits 10 (n.natAbs / 12)) [Nat.toDigits 10 (n.natAbs % 12)] none = n.natAbs := by
    simp only [amount, IKind.fields, List.zip_cons_cons, List.zip_nil_right, List.map_cons, List.map_nil, List.sum_cons,
      List.sum_nil, toDigits_val, size, fracMicros]
    omega
  rw [ha, sign_of] at this
  rw [show negs 0 (.lit (showMonths n)) = .lit (showMonths n) from rfl] at this
  rw [this, if_pos (by decide)]
  by_cases hmin : n = -(2 ^ 31)
  · rw [if_pos hmin, if_neg (by omega)]
  · rw [if_neg hmin, if_pos (by omega)]

theorem fracMicros_text {k v : Nat} (hk : k ≤ 6) (h : v < 10 ^ k) :
    ∃ f, FracText f (fractionText k v) ∧ fracMicros f = v * 10 ^ (6 - k) := by
  rcases fractionText_value h with ⟨rfl, e⟩ | ⟨f, e, h1, h2, h3, h4⟩
  · exact ⟨none, by rw [e]; exact .none, by simp [fracMicros]⟩
  · refine ⟨some f, by rw [e]; exact .digits h1 h2, ?_⟩
    rw [fracMicros, ← h4, Nat.mul_assoc, ← Nat.pow_add]
    have e1 : k - f.length + (6 - k) = 6 - f.length := by omega
    have e2 : (1000000 : Nat) = 10 ^ (6 - f.length) * 10 ^ f.length := by
      rw [← Nat.pow_add, Nat.sub_add_cancel (by omega)]
    rw [e1, e2, ← Nat.mul_assoc, Nat.mul_div_cancel _ (Nat.pow_pos (by decide))]

theorem duration_split (a u : Nat) (hu : 0 < u) :
    a = ((a / (86400 * u) * 24 + a % (86400 * u) / (3600 * u)) * 60 + a % (3600 * u) / (60 * u)) * 60 * u +
      a % (60 * u) / u * u + a % u := by
  have e0 := Nat.div_add_mod a u
  have e1 : a / (86400 * u) = a / u / 86400 := by rw [Nat.mul_comm, Nat.div_div_eq_div_mul]
  have e2 : a % (86400 * u) / (3600 * u) = a / u % 86400 / 3600 := by
    rw [Nat.mul_comm 86400, Nat.mul_comm 3600, ← Nat.div_div_eq_div_mul, Nat.mod_mul_right_div_self]
  have e3 : a % (3600 * u) / (60 * u) = a / u % 3600 / 60 := by
    rw [Nat.mul_comm 3600, Nat.mul_comm 60, ← Nat.div_div_eq_div_mul, Nat.mod_mul_right_div_self]
  have e4 : a % (60 * u) / u = a / u % 60 := by
    rw [Nat.mul_comm 60, Nat.mod_mul_right_div_self]
  rw [e1, e2, e3, e4]
  generalize a / u = q at *
  generalize a % u = r at *
  rw [← e0, Nat.mul_comm u q, ← Nat.add_mul]
  congr 2
  omega

theorem duration_sum {k u : Nat} (hk : k ≤ 6) (hu : 10 ^ k = u) (a : Nat) :
    size .day * (a / (86400 * u)) + (size .hour * (a % (86400 * u) / (3600 * u)) +
      (size .minute * (a % (3600 * u) / (60 * u)) + (size .second * (a % (60 * u) / u) + 0))) +
      a % u * 10 ^ (6 - k) = a * 10 ^ (6 - k) := by
  have hu0 : 0 < u := by rw [← hu]; exact Nat.pow_pos (by decide)
  have hs := duration_split a u hu0
  have hw : u * 10 ^ (6 - k) = 1000000 := by rw [← hu, ← Nat.pow_add, Nat.add_sub_cancel' hk]
  generalize 10 ^ (6 - k) = w at *
  generalize a / (86400 * u) = D at *
  generalize a % (86400 * u) / (3600 * u) = H at *
  generalize a % (3600 * u) / (60 * u) = M at *
  generalize a % (60 * u) / u = S at *
  generalize a % u = F at *
  rw [hs, Nat.add_mul, Nat.add_mul, Nat.mul_assoc _ u w, Nat.mul_assoc _ u w, hw]
  simp only [size]
  omega

/-- A duration counted in seconds, milliseconds or microseconds is read back as its microseconds, as long as
they fit. -/
theorem C96_duration {k : Nat} (hk : k ≤ 6) (n : Int) :
    standardInterval (.lit (showDuration k n)) .dayToSecond false =
      if n.natAbs * 10 ^ (6 - k) < 2 ^ 63 then some (.micros (n * 10 ^ (6 - k))) else none := by
  generalize hu : 10 ^ k = u
  have hu0 : 0 < u := by rw [← hu]; exact Nat.pow_pos (by decide)
  have hui : ((10 : Int) ^ k) = (u : Int) := by rw [← hu]; exact (Int.natCast_pow 10 k).symm
  obtain ⟨f, hf, hfv⟩ := fracMicros_text hk (v := n.natAbs % u) (by rw [hu]; exact Nat.mod_lt _ hu0)
  have a1 : ((n.tmod (86400 * (u : Int))).tdiv (3600 * u)).natAbs = n.natAbs % (86400 * u) / (3600 * u) := by
    rw [Int.natAbs_tdiv, Int.natAbs_tmod, Int.natAbs_mul, Int.natAbs_mul]; rfl
  have a2 : ((n.tmod (3600 * (u : Int))).tdiv (60 * u)).natAbs = n.natAbs % (3600 * u) / (60 * u) := by
    rw [Int.natAbs_tdiv, Int.natAbs_tmod, Int.natAbs_mul, Int.natAbs_mul]; rfl
  have a3 : ((n.tmod (60 * (u : Int))).tdiv u).natAbs = n.natAbs % (60 * u) / u := by
    rw [Int.natAbs_tdiv, Int.natAbs_tmod, Int.natAbs_mul]; rfl
  have a4 : (n.tmod u).natAbs = n.natAbs % u := by rw [Int.natAbs_tmod]; rfl
  have hs := sign_text (n := n) (u := 86400 * u) (by omega)
  rw [Int.natCast_mul] at hs
  have b1 : n.natAbs % (86400 * u) / (3600 * u) < 100 := by
    have : n.natAbs % (86400 * u) < 86400 * u := Nat.mod_lt _ (by omega)
    exact Nat.div_lt_of_lt_mul (by omega)
  have b2 : n.natAbs % (3600 * u) / (60 * u) < 100 := by
    have : n.natAbs % (3600 * u) < 3600 * u := Nat.mod_lt _ (by omega)
    exact Nat.div_lt_of_lt_mul (by omega)
  have b3 : n.natAbs % (60 * u) / u < 100 := by
    have : n.natAbs % (60 * u) < 60 * u := Nat.mod_lt _ (by omega)
    exact Nat.div_lt_of_lt_mul (by omega)
  have e : showDuration k n = [] ++ (if n < 0 then ['-'] else []) ++ Nat.toDigits 10 (n.natAbs / (86400 * u)) ++
      ([' '] ++ padText 2 (n.natAbs % (86400 * u) / (3600 * u)) ++ ([':'] ++ padText 2 (n.natAbs % (3600 * u) / (60 * u)) ++
        ([':'] ++ padText 2 (n.natAbs % (60 * u) / u) ++ []))) ++ fractionText k (n.natAbs % u) ++ [] := by
    simp only [showDuration]
    rw [hui, a1, a2, a3, a4]
    have hs' : (if n.tdiv (86400 * (u : Int)) = 0 ∧ n < 0 then ['-'] else []) ++ intText (n.tdiv (86400 * (u : Int))) =
      (if n < 0 then ['-'] else []) ++ Nat.toDigits 10 (n.natAbs / (86400 * u)) := hs
    rw [hs']
    simp only [List.nil_append, List.append_nil, List.append_assoc, List.cons_append]
  have nn : ∀ {x : Nat}, x < 100 → Digits (padText 2 x) ∧ padText 2 x ≠ [] := fun {x} hx => by
    have := padText_two hx
    refine ⟨this.1, fun h => ?_⟩
    have h1 := this.2.1
    rw [h] at h1
    simp at h1
  have ht : StdText .dayToSecond (decide (n < 0)) (Nat.toDigits 10 (n.natAbs / (86400 * u)))
      [padText 2 (n.natAbs % (86400 * u) / (3600 * u)), padText 2 (n.natAbs % (3600 * u) / (60 * u)),
        padText 2 (n.natAbs % (60 * u) / u)] f (showDuration k n) := by
    refine ⟨⟨_, _, _, _, _, e, by simp [Blanks], by simp [Blanks], ?_, ?_, hf, fun _ => by decide⟩,
      toDigits_digits _, Nat.toDigits_ne_nil⟩
    · by_cases hn : n < 0
      · exact .inr ⟨by simp [hn], if_pos hn⟩
      · exact .inl ⟨by simp [hn], .inl (if_neg hn)⟩
    · exact .cons (⟨by simp, by intro c hc; rw [List.mem_singleton.mp hc]; rfl⟩ : SepText .space [' ']) (nn b1).1 (nn b1).2
        (.cons (rfl : SepText .colon [':']) (nn b2).1 (nn b2).2
          (.cons (rfl : SepText .colon [':']) (nn b3).1 (nn b3).2 .nil))
  have h93 := C93_standard ht 0 false
  have ha : amount .dayToSecond (Nat.toDigits 10 (n.natAbs / (86400 * u)))
      [padText 2 (n.natAbs % (86400 * u) / (3600 * u)), padText 2 (n.natAbs % (3600 * u) / (60 * u)),
        padText 2 (n.natAbs % (60 * u) / u)] f = n.natAbs * 10 ^ (6 - k) := by
    rw [amount, hfv]
    simp only [IKind.fields, List.zip_cons_cons, List.zip_nil_right, List.map_cons, List.map_nil, List.sum_cons,
      List.sum_nil, toDigits_val, padText_val]
    exact duration_sum hk hu n.natAbs
  rw [ha] at h93
  rw [show negs 0 (.lit (showDuration k n)) = .lit (showDuration k n) from rfl] at h93
  rw [h93, if_neg (by decide)]
  have hsgn : sign (0 + minuses false + minuses (decide (n < 0))) * ((n.natAbs * 10 ^ (6 - k) : Nat) : Int) =
      n * 10 ^ (6 - k) := by
    rw [Int.natCast_mul, ← Int.mul_assoc, sign_of, Int.natCast_pow]
    rfl
  rw [hsgn]

example : showMonths (-5) = "-0-5".toList ∧ showMonths (-14) = "-1-2".toList ∧
    showDuration 6 (-1) = "-0 00:00:00.000001".toList := by decide +kernel
example : standardInterval (.lit (showDuration 3 (-86400001))) .dayToSecond false = some (.micros (-86400001000)) := by
  decide +kernel

/-- Nanoseconds are shown, but not read. -/
theorem C96_nanoseconds_cut :
    showDuration 9 1999 = "0 00:00:00.000001999".toList ∧
    standardInterval (.lit (showDuration 9 1999)) .dayToSecond false = some (.micros 1) := by decide +kernel

/-- The property fails for an interval of days and milliseconds: a day less a millisecond and a day and a
millisecond are shown alike. -/
theorem C96_mixed_signs_shown_alike :
    showDayTime 1 (-1) = showDayTime 1 1 ∧ showDayTime 1 (-1) = "1 00:00:00.001".toList := by decide +kernel

/-- With both parts of one sign, days and milliseconds are shown as their total. -/
theorem C96_day_time_one_sign {d ms : Int} (h : (0 ≤ d ∧ 0 ≤ ms) ∨ (d ≤ 0 ∧ ms ≤ 0)) :
    showDayTime d ms = showDuration 3 (d * 86400000 + ms) := by
  have e : ∀ a b c : Nat, a * 86400000 + b = c → c / 86400000 = a + b / 86400000 ∧
      c % 86400000 / 3600000 = b % 86400000 / 3600000 ∧ c % 3600000 / 60000 = b % 86400000 % 3600000 / 60000 ∧
      c % 60000 / 1000 = b % 86400000 % 60000 / 1000 ∧ c % 1000 = b % 86400000 % 1000 := by
    intro a b c h; omega
  generalize hn : d * 86400000 + ms = n
  obtain ⟨e1, e2, e3, e4, e5⟩ := e d.natAbs ms.natAbs n.natAbs (by omega)
  have hms : (ms.tdiv 86400000).natAbs = ms.natAbs / 86400000 := by rw [Int.natAbs_tdiv]; rfl
  have hnd : (n.tdiv 86400000).natAbs = n.natAbs / 86400000 := by rw [Int.natAbs_tdiv]; rfl
  have hmm : (ms.tmod 86400000).natAbs = ms.natAbs % 86400000 := by rw [Int.natAbs_tmod]; rfl
  have hsign : (0 ≤ ms ∧ 0 ≤ n ∧ 0 ≤ ms.tdiv 86400000 ∧ 0 ≤ n.tdiv 86400000 ∧ 0 ≤ ms.tmod 86400000) ∨
      (ms ≤ 0 ∧ n ≤ 0 ∧ ms.tdiv 86400000 ≤ 0 ∧ n.tdiv 86400000 ≤ 0 ∧ ms.tmod 86400000 ≤ 0) := by
    rcases h with h | h
    · exact .inl ⟨h.2, by omega, Int.tdiv_nonneg h.2 (by decide), Int.tdiv_nonneg (by omega) (by decide),
        Int.tmod_nonneg _ h.2⟩
    · refine .inr ⟨h.2, by omega, ?_, ?_, ?_⟩
      · have := Int.tdiv_nonneg (a := -ms) (b := 86400000) (by omega) (by decide)
        rw [Int.neg_tdiv] at this
        omega
      · have := Int.tdiv_nonneg (a := -n) (b := 86400000) (by omega) (by decide)
        rw [Int.neg_tdiv] at this
        omega
      · have := Int.tmod_nonneg (a := -ms) 86400000 (by omega)
        rw [Int.neg_tmod] at this
        omega
  have hdays : d + ms.tdiv 86400000 = n.tdiv 86400000 := by omega
  have hneg : (d + ms.tdiv 86400000 = 0 ∧ ms.tmod 86400000 < 0) ↔ (n.tdiv 86400000 = 0 ∧ n < 0) := by omega
  have f1 : ((ms.tmod 86400000).tdiv 3600000).natAbs = ((n.tmod (86400 * 10 ^ 3)).tdiv (3600 * 10 ^ 3)).natAbs := by
    simp only [Int.natAbs_tdiv, Int.natAbs_tmod]; exact e2.symm
  have f2 : (((ms.tmod 86400000).tmod 3600000).tdiv 60000).natAbs = ((n.tmod (3600 * 10 ^ 3)).tdiv (60 * 10 ^ 3)).natAbs := by
    simp only [Int.natAbs_tdiv, Int.natAbs_tmod]; exact e3.symm
  have f3 : (((ms.tmod 86400000).tmod 60000).tdiv 1000).natAbs = ((n.tmod (60 * 10 ^ 3)).tdiv (10 ^ 3)).natAbs := by
    simp only [Int.natAbs_tdiv, Int.natAbs_tmod]; exact e4.symm
  have f4 : ((ms.tmod 86400000).tmod 1000).natAbs = (n.tmod (10 ^ 3)).natAbs := by
    simp only [Int.natAbs_tmod]; exact e5.symm
  simp only [showDayTime, showDuration]
  have hp : (if d + ms.tdiv 86400000 = 0 ∧ ms.tmod 86400000 < 0 then ['-'] else ([] : Text)) =
      if n.tdiv 86400000 = 0 ∧ n < 0 then ['-'] else [] := by
    by_cases hh : n.tdiv 86400000 = 0 ∧ n < 0
    · rw [if_pos hh, if_pos (hneg.mpr hh)]
    · rw [if_neg hh, if_neg (fun g => hh (hneg.mp g))]
  rw [f1, f2, f3, f4, hp, hdays]
  rfl

example : showDayTime (-1) (-90000000) = "-2 01:00:00".toList ∧ showDuration 3 (-176400000) = "-2 01:00:00".toList := by
  decide +kernel

end Verif.Sql
