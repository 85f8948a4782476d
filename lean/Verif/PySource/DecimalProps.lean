import Verif.PySource.Decimal
import Verif.Delta.PartValueProps

/-!
# C126: decimals reach Python writers exactly

A numeral is read by `readDecimal` of `Verif.Delta.PartValue`, which gives the number of units of
`10 ^ -scale` if that is whole.
-/

namespace Verif.PySource.Decimal

open Verif.Delta.PartValue

theorem wrap_small (i : Int) (h : -(2 ^ 127) ≤ i) (h2 : i < 2 ^ 127) : wrap128 i = i := by
  unfold wrap128
  rw [Int.bmod_eq_of_le_mul_two] <;> omega

theorem pow_small (s : Nat) (h : s ≤ 38) : wrap128 (10 ^ s) = 10 ^ s := by
  have h1 : 10 ^ s ≤ 10 ^ 38 := Nat.pow_le_pow_right (by decide) h
  have h2 : 0 < 10 ^ s := Nat.pow_pos (by decide)
  have hc : ((10 : Int) ^ s) = ((10 ^ s : Nat) : Int) := by simp
  have h3 : (10 : Nat) ^ 38 < 2 ^ 127 := by decide
  rw [hc]
  apply wrap_small <;> omega

theorem read_int_units (i : Int) (k : Nat) (n : Int) (h : i = n * 10 ^ k) :
    readDecimal (-(k : Int)) (intText i) = some n := by
  have hp : 0 < 10 ^ k := Nat.pow_pos (by decide)
  have hn : i.natAbs = n.natAbs * 10 ^ k := by
    rw [h, Int.natAbs_mul, Int.natAbs_pow]; rfl
  have hu : readUnsigned (-(k : Int)) (Nat.toDigits 10 i.natAbs) = some n.natAbs := by
    rw [readUnsigned_whole _ _ (digits_toDigits _) Nat.toDigits_ne_nil, Nat.ofDigitChars_ten_toDigits, hn]
    by_cases h0 : k = 0
    · subst h0; simp [atScale]
    · rw [atScale, if_neg (by omega), show (((0 : Nat) : Int) - -(k : Int)).toNat = k by omega, Nat.mul_mod_left, if_pos rfl,
        Nat.mul_div_cancel _ hp]
  have hpow : (0 : Int) < 10 ^ k := Int.pow_pos (by decide)
  by_cases hb : i < 0
  · have hneg : n < 0 := by
      rcases Int.lt_or_le n 0 with h' | h'
      · exact h'
      · have := Int.mul_nonneg h' (Int.le_of_lt hpow); omega
    simp only [intText, hb, if_true, List.cons_append, List.nil_append, readDecimal, hu, Option.map_some]
    congr 1; omega
  · have hpos : 0 ≤ n := by
      rcases Int.lt_or_le n 0 with h' | h'
      · have := Int.mul_neg_of_neg_of_pos h' hpow; omega
      · exact h'
    simp only [intText, hb, if_false, List.nil_append]
    have hh := head_digits (Nat.toDigits 10 i.natAbs) [] (digits_toDigits _) Nat.toDigits_ne_nil
    rw [List.append_nil] at hh
    rw [readDecimal_pos _ _ hh, hu, Option.map_some]
    congr 1; omega

/-- C126. Python gets the number `raw / 10 ^ scale`, for every scale a decimal column can have and
every value that fits. -/
theorem C126_exact (raw scale : Int) (hs : scale ≤ 38) (hk : -38 ≤ scale)
    (hf : scale ≤ 0 → -(2 ^ 127) ≤ raw * 10 ^ (-scale).toNat ∧ raw * 10 ^ (-scale).toNat < 2 ^ 127) :
    readDecimal scale (pyText raw scale) = some raw := by
  by_cases h0 : scale ≤ 0
  · obtain ⟨k, hk'⟩ : ∃ k : Nat, scale = -(k : Int) := ⟨(-scale).toNat, by omega⟩
    subst hk'
    have hkt : (- -(k : Int)).toNat = k := by omega
    rw [pyText, if_pos h0]
    rw [hkt] at hf ⊢
    rw [pow_small k (by omega), wrap_small _ (hf h0).1 (hf h0).2]
    exact read_int_units _ k raw rfl
  · obtain ⟨s, rfl⟩ : ∃ s : Nat, scale = s := ⟨scale.toNat, by omega⟩
    have hs0 : 0 < s := by omega
    rw [pyText, if_neg h0, Int.toNat_natCast, pow_small s (by omega)]
    have hpow : ((10 : Int) ^ s) = ((10 ^ s : Nat) : Int) := by simp
    rw [hpow]
    have hq : (raw.tdiv ((10 ^ s : Nat) : Int)).natAbs = raw.natAbs / 10 ^ s := by
      rw [Int.natAbs_tdiv]; rfl
    have hr : (raw.tmod ((10 ^ s : Nat) : Int)).natAbs = raw.natAbs % 10 ^ s := by
      rw [Int.natAbs_tmod]; rfl
    have hu := readUnsigned_digits s raw.natAbs hs0
    rw [hr]
    have hP : 0 < 10 ^ s := Nat.pow_pos (by decide)
    by_cases hb : raw < 0
    · have htext : (if raw < 0 ∧ raw.tdiv ((10 ^ s : Nat) : Int) = 0 then ['-'] else []) ++ intText (raw.tdiv ((10 ^ s : Nat) : Int))
          = '-' :: Nat.toDigits 10 (raw.natAbs / 10 ^ s) := by
        by_cases hz : raw.tdiv ((10 ^ s : Nat) : Int) = 0
        · rw [if_pos ⟨hb, hz⟩, ← hq, hz]; rfl
        · have hle : raw.tdiv ((10 ^ s : Nat) : Int) ≤ 0 := by
            have := Int.tdiv_nonneg (a := -raw) (b := ((10 ^ s : Nat) : Int)) (by omega) (by omega)
            rw [Int.neg_tdiv] at this
            omega
          rw [if_neg (fun h => hz h.2), intText, if_pos (by omega), hq]
          rfl
      rw [htext, List.cons_append]
      simp only [readDecimal, hu, Option.map_some]
      congr 1; omega
    · have hnn : 0 ≤ raw.tdiv ((10 ^ s : Nat) : Int) := Int.tdiv_nonneg (by omega) (by omega)
      rw [if_neg (fun h => hb h.1), List.nil_append, intText, if_neg (by omega), List.nil_append, hq,
        readDecimal_pos _ _ (head_digits _ _ (digits_toDigits _) Nat.toDigits_ne_nil), hu, Option.map_some]
      congr 1; omega

/-- C126. Different decimals of one scale give different numerals. -/
theorem C126_injective (a b scale : Int) (hs : scale ≤ 38) (h0 : 0 < scale) (h : pyText a scale = pyText b scale) : a = b := by
  have ha := C126_exact a scale hs (by omega) (by omega)
  have hb := C126_exact b scale hs (by omega) (by omega)
  rw [h, hb] at ha
  exact (Option.some.inj ha).symm

/-- The bound is needed: a value with a negative scale that does not fit 128 bits wraps around. -/
theorem C126_overflow : readDecimal (-38) (pyText 2 (-38)) ≠ some 2 := by decide +kernel

/-! ## Examples -/

example : String.ofList (pyText (-5) 2) = "-0.05" ∧ String.ofList (pyText (-150) 2) = "-1.50" ∧
    String.ofList (pyText 7 (-2)) = "700" ∧ String.ofList (pyText (-7) 0) = "-7" := by decide +kernel

example : readDecimal 2 (pyText (-5) 2) = some (-5) := C126_exact _ _ (by decide) (by decide) (by decide)

example : readDecimal (-2) (pyText (-7) (-2)) = some (-7) := C126_exact _ _ (by decide) (by decide) (by decide)

end Verif.PySource.Decimal
