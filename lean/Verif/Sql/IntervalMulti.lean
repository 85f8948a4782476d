import Verif.Sql.IntervalProps

/-!
# C93: intervals with several units
-/

namespace Verif.Sql

namespace Spec

/-- The text of an integer with an optional sign. -/
inductive IntText : Text → Int → Prop
  | plain {d : Text} : Digits d → d ≠ [] → IntText d (digitsVal d)
  | plus {d : Text} : Digits d → d ≠ [] → IntText ('+' :: d) (digitsVal d)
  | minus {d : Text} : Digits d → d ≠ [] → IntText ('-' :: d) (-(digitsVal d : Int))

/-- The months of a unit. -/
def monthsOf : IUnit → Int
  | .year => 12
  | .month => 1
  | _ => 0

/-- The microseconds of a unit. -/
def microsOf : IUnit → Int
  | .year => 0
  | .month => 0
  | .week => 604800000000
  | .day => 86400000000
  | .hour => 3600000000
  | .minute => 60000000
  | .second => 1000000
  | .millisecond => 1000
  | .microsecond => 1

/-- The smallest integer that is read for a unit. -/
def smallest : IUnit → Int
  | .year => -2147483648
  | .month => -2147483648
  | _ => -9223372036854775808

/-- A value with its unit, and the months and microseconds that are written. Negated smallest integers
are left out. -/
inductive Entry : IExpr → IUnit → Int → Int → Prop
  | int {u : IUnit} {k : Nat} {s : Text} {n : Int} : u ≠ .second → IntText s n → (k = 0 ∨ n ≠ smallest u) →
    Entry (negs k (.lit s)) u (sign k * n * monthsOf u) (sign k * n * microsOf u)
  | second {k : Nat} {minus : Bool} {d : Text} {f : Option Text} {s : Text} : StdText .second minus d [] f s →
    Entry (negs k (.lit s)) .second 0 (sign (k + minuses minus) * amount .second d [] f)

/-- Several values with units: the sums, and the sums of the absolute values. -/
inductive Entries : List (IExpr × IUnit) → Int → Int → Nat → Nat → Prop
  | nil : Entries [] 0 0 0 0
  | cons {e : IExpr} {u : IUnit} {l : List (IExpr × IUnit)} {m d m' d' : Int} {a b : Nat} :
    Entry e u m d → Entries l m' d' a b →
    Entries ((e, u) :: l) (m + m') (d + d') (m.natAbs + a) (d.natAbs + b)

/-- A value is some months and some microseconds. -/
def Is : IValue → Int → Int → Prop
  | .months m, M, D => M = m ∧ m ≠ 0 ∧ D = 0
  | .micros d, M, D => M = 0 ∧ D = d
  | .mixed m days nanos, M, D => M = m ∧ m ≠ 0 ∧ D ≠ 0 ∧ D * 1000 = days * 86400000000000 + nanos ∧
    (0 ≤ D → 0 ≤ days ∧ 0 ≤ nanos ∧ nanos < 86400000000000) ∧
    (D ≤ 0 → days ≤ 0 ∧ nanos ≤ 0 ∧ -86400000000000 < nanos)

end Spec

open Spec

/-! ## Integers -/

theorem parseInt_text {bits B : Nat} (hB : 2 ^ (bits - 1) = B) {s : Text} {n : Int} (h : IntText s n) :
    parseInt bits s = if -(B : Int) ≤ n ∧ n < B then some n else none := by
  have hB' : (2 ^ (bits - 1) : Int) = (B : Int) := by rw [← hB]; simp
  have key : ∀ d : Text, Digits d → d ≠ [] → parseDigits d = some (digitsVal d) := fun d h1 h2 => by
    rw [parseDigits, if_pos ⟨h2, List.all_eq_true.mpr h1⟩]
  cases h with
  | plain h1 h2 =>
    rw [parseInt_digits h1 h2, hB']
    split
    · rw [if_pos ⟨by omega, by assumption⟩]
    · rw [if_neg (fun h => by omega)]
  | @plus d h1 h2 =>
    simp only [parseInt]
    rw [key d h1 h2, hB']
    rfl
  | @minus d h1 h2 =>
    simp only [parseInt]
    rw [key d h1 h2, hB']
    rfl

theorem bmod_self {B : Nat} {x : Int} (h1 : -(B : Int) ≤ x) (h2 : x < B) : Int.bmod x (2 * B) = x := by
  apply Int.bmod_eq_of_le <;> omega

theorem bmod_edge {B : Nat} (hB : 0 < B) : Int.bmod (-(-(B : Int))) (2 * B) = -(B : Int) := by
  have h : Int.bmod (-(B : Int)) (2 * B) = -(B : Int) := bmod_self (by omega) (by omega)
  have e : -(-(B : Int)) = -(B : Int) + 1 * ((2 * B : Nat) : Int) := by omega
  rw [e, Int.add_mul_bmod_self_right]
  exact h

theorem pow_double {bits B : Nat} (hb : 0 < bits) (hB : 2 ^ (bits - 1) = B) : 2 ^ bits = 2 * B := by
  rw [← hB]
  cases bits with
  | zero => omega
  | succ n => rw [Nat.pow_succ, Nat.mul_comm]; rfl

theorem sign_succ (k : Nat) : sign (k + 1) = -sign k := by
  rw [sign, sign]
  by_cases h : k % 2 = 0
  · rw [if_pos h, if_neg (by omega)]
  · rw [if_neg h, if_pos (by omega)]; rfl

theorem sign_cases (k : Nat) : sign k = 1 ∨ sign k = -1 := by
  rw [sign]
  split
  · exact .inl rfl
  · exact .inr rfl

theorem sign_mul_cases (k : Nat) (n : Int) : sign k * n = n ∨ sign k * n = -n := by
  rcases sign_cases k with h | h <;> rw [h]
  · exact .inl (by omega)
  · exact .inr (by omega)

/-- A text with minus signs in front is the integer with that sign, if it fits and is not the negated
smallest. -/
theorem signedInt_negs {bits B : Nat} (hb : 0 < bits) (hB : 2 ^ (bits - 1) = B) {s : Text} {n : Int}
    (h : IntText s n) (k : Nat) (hk : k = 0 ∨ n ≠ -(B : Int)) :
    signedInt bits (negs k (.lit s)) = if -(B : Int) ≤ n ∧ n < B then some (sign k * n) else none := by
  induction k with
  | zero =>
    simp only [negs, signedInt]
    rw [parseInt_text hB h]
    split
    · rw [show sign 0 = 1 from rfl, Int.one_mul]
    · rfl
  | succ k ih =>
    have hn : n ≠ -(B : Int) := by omega
    simp only [negs, signedInt]
    rw [ih (.inr hn), pow_double hb hB]
    by_cases hr : -(B : Int) ≤ n ∧ n < B
    · rw [if_pos hr, if_pos hr]
      simp only
      rw [sign_succ, Int.neg_mul]
      congr 1
      rcases sign_mul_cases k n with h1 | h1 <;> rw [h1] <;> exact bmod_self (by omega) (by omega)
    · rw [if_neg hr, if_neg hr]

/-- The smallest integer stays as it is whatever the number of minus signs. -/
theorem signedInt_smallest {bits B : Nat} (hb : 0 < bits) (hB : 2 ^ (bits - 1) = B) {s : Text}
    (h : IntText s (-(B : Int))) (k : Nat) : signedInt bits (negs k (.lit s)) = some (-(B : Int)) := by
  have hpos : 0 < B := by rw [← hB]; exact Nat.pow_pos (by decide)
  induction k with
  | zero =>
    simp only [negs, signedInt]
    rw [parseInt_text hB h, if_pos ⟨by omega, by omega⟩]
  | succ k ih =>
    simp only [negs, signedInt]
    rw [ih, pow_double hb hB]
    simp only
    rw [bmod_edge hpos]

/-! ## Seconds -/

theorem decimalSecond_text {minus : Bool} {d : Text} {f : Option Text} {s : Text}
    (h : StdText .second minus d [] f s) :
    decimalSecond s = if digitsVal d < 2 ^ 32 then some (minus, digitsVal d, fracMicros f) else none := by
  have hf : ∀ x, f = some x → Digits x := by
    intro x hx
    obtain ⟨_, _, _, fr, _, _, _, _, _, _, hft, _⟩ := h.parts
    subst hx
    cases hft
    assumption
  rw [decimalSecond, intervalCaps_text h]
  simp only
  have e : (capsOf .second minus d [] f).get .second = some (digitsVal d) := rfl
  rw [e]
  simp only [capsOf, fractionMicros_eq f hf]

theorem signedSecond_negs {minus : Bool} {d : Text} {f : Option Text} {s : Text}
    (h : StdText .second minus d [] f s) (k : Nat) :
    signedSecond (negs k (.lit s)) =
      if digitsVal d < 2 ^ 32 then some ((k % 2 == 1) != minus, digitsVal d, fracMicros f) else none := by
  induction k with
  | zero =>
    simp only [negs, signedSecond]
    rw [decimalSecond_text h]
    split
    · cases minus <;> rfl
    · rfl
  | succ k ih =>
    simp only [negs, signedSecond]
    rw [ih]
    by_cases hd : digitsVal d < 2 ^ 32
    · rw [if_pos hd, if_pos hd]
      simp only
      have : k % 2 = 0 ∨ k % 2 = 1 := by omega
      rcases this with h | h
      · rw [h, show (k + 1) % 2 = 1 by omega]; cases minus <;> rfl
      · rw [h, show (k + 1) % 2 = 0 by omega]; cases minus <;> rfl
    · rw [if_neg hd, if_neg hd]

/-! ## The sums -/

theorem checked_some {bits : Nat} {n m : Int} (h : checked bits n = some m) : m = n := by
  rw [checked] at h
  split at h
  · cases h; rfl
  · cases h

theorem delta_some {n m : Int} (h : delta n = some m) : m = n := by
  rw [delta] at h
  split at h
  · cases h; rfl
  · cases h

theorem addDelta_some {d n u m : Int} (h : addDelta d n u = some m) : m = d + n * u := by
  rw [addDelta] at h
  split at h
  · cases h
  · rename_i x hx
    rw [delta_some h, delta_some hx]

theorem amount_second (d : Text) (f : Option Text) :
    amount .second d [] f = digitsVal d * 1000000 + fracMicros f := by
  show size .second * digitsVal d + 0 + fracMicros f = _
  rw [Nat.add_zero, Nat.mul_comm, show size .second = 1000000 from rfl]

theorem bits_unit (u : IUnit) (hu : u ≠ .second) : ∃ bits B : Nat, 0 < bits ∧ 2 ^ (bits - 1) = B ∧
    smallest u = -(B : Int) ∧ ((monthsOf u ≠ 0 ∧ bits = 32) ∨ (monthsOf u = 0 ∧ bits = 64)) := by
  cases u
  case year => exact ⟨32, 2147483648, by decide, rfl, rfl, .inl ⟨by decide, rfl⟩⟩
  case month => exact ⟨32, 2147483648, by decide, rfl, rfl, .inl ⟨by decide, rfl⟩⟩
  case second => exact absurd rfl hu
  all_goals exact ⟨64, 9223372036854775808, by decide, rfl, rfl, .inr ⟨rfl, rfl⟩⟩

theorem addUnit_int {m d m' d' : Int} {e : IExpr} {u : IUnit} (hu : u ≠ .second) {bits : Nat} {v : Int}
    (hb : (monthsOf u ≠ 0 ∧ bits = 32) ∨ (monthsOf u = 0 ∧ bits = 64)) (hv : signedInt bits e = some v)
    (h : addUnit m d e u = some (m', d')) : m' = m + v * monthsOf u ∧ d' = d + v * microsOf u := by
  have day : ∀ {U : Int}, ((signedInt 64 e).bind (addDelta d · U)).map (m, ·) = some (m', d') →
      signedInt 64 e = some v → m' = m ∧ d' = d + v * U := by
    intro U h hv
    rw [hv] at h
    simp only [Option.bind_some] at h
    cases ha : addDelta d v U with
    | none => rw [ha] at h; cases h
    | some x =>
      rw [ha] at h
      cases h
      exact ⟨rfl, addDelta_some ha⟩
  cases u
  case second => exact absurd rfl hu
  case year =>
    rcases hb with ⟨_, rfl⟩ | ⟨h0, _⟩
    · simp only [addUnit, hv] at h
      split at h
      · cases h
      · rename_i x hx
        cases hc : checked 32 (m + x) with
        | none => rw [hc] at h; cases h
        | some y =>
          rw [hc] at h
          cases h
          rw [checked_some hc, checked_some hx]
          simp only [monthsOf, microsOf, Int.mul_zero, Int.add_zero, and_self]
    · exact absurd h0 (by decide)
  case month =>
    rcases hb with ⟨_, rfl⟩ | ⟨h0, _⟩
    · simp only [addUnit, hv] at h
      cases hc : checked 32 (m + v) with
      | none => rw [hc] at h; cases h
      | some y =>
        rw [hc] at h
        cases h
        rw [checked_some hc]
        simp only [monthsOf, microsOf, Int.mul_zero, Int.add_zero, Int.mul_one, and_self]
    · exact absurd h0 (by decide)
  all_goals
    rcases hb with ⟨h0, _⟩ | ⟨_, rfl⟩
    · exact absurd rfl h0
    · obtain ⟨h1, h2⟩ := day h hv
      exact ⟨by rw [h1]; simp only [monthsOf, Int.mul_zero, Int.add_zero], h2⟩

theorem addUnit_second {m d : Int} {e : IExpr} {b : Bool} {s us : Nat} (hv : signedSecond e = some (b, s, us))
    {m' d' : Int} (h : addUnit m d e .second = some (m', d')) :
    m' = m ∧ d' = if b then d - (s * 1000000 + us : Nat) else d + (s * 1000000 + us : Nat) := by
  simp only [addUnit, hv] at h
  split at h
  · cases h
  · rename_i x hx
    have hx := delta_some hx
    cases hc : delta (if b = true then x - us else x + us) with
    | none => rw [hc] at h; cases h
    | some y =>
      rw [hc] at h
      have hy := delta_some hc
      cases h
      refine ⟨rfl, ?_⟩
      cases b
      · simp only [Bool.false_eq_true, if_false] at *; omega
      · simp only [if_true] at *; omega

theorem addUnit_entry {m d a b m' d' : Int} {e : IExpr} {u : IUnit} (he : Entry e u a b)
    (h : addUnit m d e u = some (m', d')) : m' = m + a ∧ d' = d + b := by
  cases he with
  | @int _ k s n hu ht hk =>
    obtain ⟨bits, B, h1, h2, h3, h4⟩ := bits_unit u hu
    have hs := signedInt_negs h1 h2 ht k (by rw [← h3]; exact hk)
    split at hs
    · exact addUnit_int hu h4 hs h
    · exfalso
      have : addUnit m d (negs k (.lit s)) u = none := by
        cases u <;> first | exact absurd rfl hu | skip
        all_goals
          rcases h4 with ⟨h5, rfl⟩ | ⟨h5, rfl⟩
          all_goals first | (exact absurd rfl h5) | (exact absurd h5 (by decide)) | (simp only [addUnit, hs]; rfl) | simp only [addUnit, hs]
      rw [this] at h
      cases h
  | @second k minus dd f s ht =>
    have hs := signedSecond_negs ht k
    split at hs
    · obtain ⟨h1, h2⟩ := addUnit_second hs h
      refine ⟨by rw [h1, Int.add_zero], ?_⟩
      rw [h2, amount_second]
      have hsv := sign_value k false minus ((digitsVal dd * 1000000 + fracMicros f : Nat) : Int)
      simp only [minuses, Bool.false_eq_true, if_false, Nat.add_zero, Bool.bne_false] at hsv
      simp only [minuses]
      rw [← hsv]
      split <;> omega
    · exfalso
      simp only [addUnit, hs] at h
      cases h

theorem addUnits_entries {l : List (IExpr × IUnit)} {M D : Int} {a b : Nat} (he : Entries l M D a b)
    {m d m' d' : Int} (h : addUnits l m d = some (m', d')) : m' = m + M ∧ d' = d + D := by
  induction he generalizing m d with
  | nil => cases h; exact ⟨by omega, by omega⟩
  | cons h1 _ ih =>
    simp only [addUnits] at h
    split at h
    · cases h
    · rename_i x y hx
      obtain ⟨e1, e2⟩ := addUnit_entry h1 hx
      obtain ⟨e3, e4⟩ := ih h
      exact ⟨by omega, by omega⟩

/-! ## The value -/

theorem negIf_some {bits : Nat} {neg : Bool} {n m : Int} (h : negIf bits neg n = some m) :
    m = if neg then -n else n := by
  cases neg with
  | false => cases h; rfl
  | true => exact checked_some h

theorem tdiv_split (d : Int) : ∃ r, d = d.tdiv 86400000000 * 86400000000 + r ∧
    (0 ≤ d → 0 ≤ d.tdiv 86400000000 ∧ 0 ≤ r ∧ r < 86400000000) ∧
    (d ≤ 0 → d.tdiv 86400000000 ≤ 0 ∧ r ≤ 0 ∧ -86400000000 < r) := by
  by_cases h : 0 ≤ d
  · rw [Int.tdiv_eq_ediv_of_nonneg h]
    exact ⟨d % 86400000000, by omega, by omega, by omega⟩
  · have e : d.tdiv 86400000000 = -((-d) / 86400000000) := by
      rw [← Int.tdiv_eq_ediv_of_nonneg (by omega), Int.neg_tdiv, Int.neg_neg]
    rw [e]
    exact ⟨-((-d) % 86400000000), by omega, by omega, by omega⟩

theorem multiUnitValue_is {M D : Int} {neg : Bool} {v : IValue} (h : multiUnitValue M D neg = some v) :
    Is v (if neg then -M else M) (if neg then -D else D) := by
  rw [multiUnitValue] at h
  by_cases hM : M = 0
  · rw [if_neg (by simp [hM])] at h
    split at h
    · cases h
    · rename_i us hus
      have hus := checked_some hus
      cases hn : negIf 64 neg us with
      | none => rw [hn] at h; cases h
      | some x =>
        rw [hn] at h
        cases h
        have := negIf_some hn
        subst hus hM this
        exact ⟨by cases neg <;> rfl, rfl⟩
  · rw [if_pos hM] at h
    by_cases hD : D = 0
    · rw [if_pos hD] at h
      cases hn : negIf 32 neg M with
      | none => rw [hn] at h; cases h
      | some x =>
        rw [hn] at h
        cases h
        have := negIf_some hn
        subst hD this
        exact ⟨rfl, by cases neg <;> simp [hM], by cases neg <;> rfl⟩
    · rw [if_neg hD] at h
      simp only at h
      split at h
      · cases h
      · rename_i us hus
        split at h
        · cases h
        · rename_i m hm
          split at h
          · cases h
          · rename_i days hd
            split at h
            · cases h
            · rename_i days' hd'
              split at h
              · cases h
              · rename_i us' hus'
                cases h
                have e1 := checked_some hus
                have e2 := negIf_some hm
                have e3 := negIf_some hd
                have e4 := checked_some hd'
                have e5 := negIf_some hus'
                obtain ⟨r, hr1, hr2, hr3⟩ := tdiv_split D
                generalize D.tdiv 86400000000 = q at *
                have e6 : us = r := by omega
                have hb : Int.bmod (us' * 1000) (2 ^ 64) = us' * 1000 := by
                  apply Int.bmod_eq_of_le <;> cases neg <;>
                    simp only [Bool.false_eq_true, if_false, if_true] at e5 <;> omega
                rw [hb]
                cases neg <;> simp only [Bool.false_eq_true, if_false, if_true] at * <;>
                  exact ⟨by omega, by omega, by omega, by omega, by omega, by omega⟩

/-- Intervals with several units: if there is a value, then it is the exact sum of what is written. -/
theorem C93_multi {head : IExpr × IUnit} {tail : List (IExpr × IUnit)} {M D : Int} {a b : Nat}
    (he : Entries (head :: tail) M D a b) (h1 : tail ≠ [] ∨ head.2.kind = none) {neg : Bool} {v : IValue}
    (h : signedInterval neg (.multi head tail) = some v) :
    Is v (sign (minuses neg) * M) (sign (minuses neg) * D) := by
  have hm : multiUnitInterval (head :: tail) neg = some v := by
    cases tail with
    | nil =>
      rcases h1 with h1 | h1
      · exact absurd rfl h1
      · simpa only [signedInterval, h1] using h
    | cons x t => exact h
  rw [multiUnitInterval] at hm
  split at hm
  · cases hm
  · rename_i m d hmd
    obtain ⟨e1, e2⟩ := addUnits_entries he hmd
    have := multiUnitValue_is hm
    rw [e1, e2, Int.zero_add, Int.zero_add] at this
    cases neg
    · simpa [minuses, sign] using this
    · simpa [minuses, sign] using this

/-! ## When there is a value -/

theorem checked_ok {bits B : Nat} (hB : 2 ^ (bits - 1) = B) {n : Int} (h : n.natAbs < B) :
    checked bits n = some n := by
  have hB' : (2 ^ (bits - 1) : Int) = (B : Int) := by rw [← hB]; simp
  rw [checked, hB', if_pos ⟨by omega, by omega⟩]

theorem delta_ok {n : Int} (h : n.natAbs < 2 ^ 63) : delta n = some n := by
  rw [delta, if_pos ⟨by omega, by omega⟩]

theorem addDelta_ok {d n u : Int} (h1 : (n * u).natAbs < 2 ^ 63) (h2 : (d + n * u).natAbs < 2 ^ 63) :
    addDelta d n u = some (d + n * u) := by
  rw [addDelta, delta_ok h1]
  exact delta_ok h2

theorem natAbs_le_mul {n u : Int} (hu : u ≠ 0) : n.natAbs ≤ (n * u).natAbs := by
  rw [Int.natAbs_mul]
  exact Nat.le_mul_of_pos_right _ (by omega)

theorem natAbs_sign (k : Nat) (n : Int) : (sign k * n).natAbs = n.natAbs := by
  rcases sign_mul_cases k n with h | h <;> rw [h]
  omega

theorem microsOf_ne {u : IUnit} (h : monthsOf u = 0) : microsOf u ≠ 0 := by
  cases u <;> first | decide | exact absurd h (by decide)

theorem addUnit_fits {m d a b : Int} {e : IExpr} {u : IUnit} (he : Entry e u a b)
    (hsec : u = .second → ∃ k minus dd f s, e = negs k (.lit s) ∧ StdText .second minus dd [] f s ∧ digitsVal dd < 2 ^ 32)
    (h1 : m.natAbs + a.natAbs < 2 ^ 31) (h2 : d.natAbs + b.natAbs < 2 ^ 63) :
    ∃ x, addUnit m d e u = some x := by
  cases he with
  | @int _ k s n hu ht hk =>
    obtain ⟨bits, B, g1, g2, g3, g4⟩ := bits_unit u hu
    have hs := signedInt_negs g1 g2 ht k (by rw [← g3]; exact hk)
    have hn : -(B : Int) ≤ n ∧ n < B := by
      rcases g4 with ⟨g4, rfl⟩ | ⟨g4, rfl⟩
      · have := natAbs_le_mul (n := sign k * n) g4
        rw [natAbs_sign] at this
        have : B = 2 ^ 31 := g2.symm
        omega
      · have := natAbs_le_mul (n := sign k * n) (microsOf_ne g4)
        rw [natAbs_sign] at this
        have : B = 2 ^ 63 := g2.symm
        omega
    rw [if_pos hn] at hs
    generalize hV : sign k * n = V at *
    have day : ∀ {U : Int}, signedInt 64 (negs k (.lit s)) = some V → d.natAbs + (V * U).natAbs < 2 ^ 63 →
        ∃ x, ((signedInt 64 (negs k (.lit s))).bind (addDelta d · U)).map (m, ·) = some x := by
      intro U hs hb
      rw [hs]
      simp only [Option.bind_some]
      rw [addDelta_ok (by omega) (by omega)]
      exact ⟨_, rfl⟩
    cases u
    case second => exact absurd rfl hu
    case year =>
      rcases g4 with ⟨_, rfl⟩ | ⟨g4, _⟩
      · simp only [addUnit, hs]
        rw [checked_ok (bits := 32) (B := 2 ^ 31) rfl (by simp only [monthsOf] at h1; omega)]
        simp only
        rw [checked_ok (bits := 32) (B := 2 ^ 31) rfl (by simp only [monthsOf] at h1; omega)]
        exact ⟨_, rfl⟩
      · exact absurd g4 (by decide)
    case month =>
      rcases g4 with ⟨_, rfl⟩ | ⟨g4, _⟩
      · simp only [addUnit, hs]
        rw [checked_ok (bits := 32) (B := 2 ^ 31) rfl (by simp only [monthsOf] at h1; omega)]
        exact ⟨_, rfl⟩
      · exact absurd g4 (by decide)
    all_goals
      rcases g4 with ⟨g4, _⟩ | ⟨_, rfl⟩
      · exact absurd rfl g4
      · exact day hs h2
  | @second k minus dd f s ht =>
    obtain ⟨k', minus', dd', f', s', e1, ht', hlt⟩ := hsec rfl
    have hs := signedSecond_negs ht' k'
    rw [← e1, if_pos hlt] at hs
    have hs2 := signedSecond_negs ht k
    by_cases hd : digitsVal dd < 2 ^ 32
    · rw [if_pos hd] at hs2
      rw [natAbs_sign, amount_second] at h2
      simp only [addUnit, hs2]
      generalize ((k % 2 == 1) != minus) = bb
      generalize digitsVal dd = x at *
      generalize fracMicros f = y at *
      rw [delta_ok (by split <;> omega)]
      simp only
      rw [delta_ok (by split <;> omega)]
      exact ⟨_, rfl⟩
    · rw [if_neg hd, hs] at hs2
      cases hs2

theorem addUnits_fits {l : List (IExpr × IUnit)} {M D : Int} {a b : Nat} (he : Entries l M D a b)
    (hsec : ∀ e, (e, IUnit.second) ∈ l →
      ∃ k minus dd f s, e = negs k (.lit s) ∧ StdText .second minus dd [] f s ∧ digitsVal dd < 2 ^ 32)
    {m d : Int} (h1 : m.natAbs + a < 2 ^ 31) (h2 : d.natAbs + b < 2 ^ 63) :
    ∃ x, addUnits l m d = some x := by
  induction he generalizing m d with
  | nil => exact ⟨_, rfl⟩
  | @cons e u l m1 d1 m' d' a b h3 _ ih =>
    obtain ⟨⟨x, y⟩, hx⟩ := addUnit_fits (m := m) (d := d) h3 (fun hu => hsec e (by rw [hu]; simp)) (by omega) (by omega)
    obtain ⟨e1, e2⟩ := addUnit_entry h3 hx
    simp only [addUnits, hx]
    exact ih (fun e he => hsec e (by simp [he])) (by omega) (by omega)

theorem entries_abs {l : List (IExpr × IUnit)} {M D : Int} {a b : Nat} (he : Entries l M D a b) :
    M.natAbs ≤ a ∧ D.natAbs ≤ b := by
  induction he with
  | nil => exact ⟨by omega, by omega⟩
  | cons _ _ ih => exact ⟨by omega, by omega⟩

theorem negIf_ok {bits B : Nat} (hB : 2 ^ (bits - 1) = B) {neg : Bool} {n : Int} (h : n.natAbs < B) :
    negIf bits neg n = some (if neg then -n else n) := by
  cases neg with
  | false => rfl
  | true => exact checked_ok hB (by omega)

theorem multiUnitValue_fits {M D : Int} (hM : M.natAbs < 2 ^ 31) (hD : D.natAbs < 2 ^ 63) (neg : Bool) :
    ∃ v, multiUnitValue M D neg = some v := by
  rw [multiUnitValue]
  split
  · split
    · rw [negIf_ok (B := 2 ^ 31) rfl hM]
      exact ⟨_, rfl⟩
    · obtain ⟨r, hr1, hr2, hr3⟩ := tdiv_split D
      simp only
      generalize D.tdiv 86400000000 = q at *
      rw [checked_ok (bits := 64) (B := 2 ^ 63) rfl (by omega), negIf_ok (B := 2 ^ 31) rfl hM,
        negIf_ok (bits := 64) (B := 2 ^ 63) rfl (by omega)]
      simp only
      rw [checked_ok (bits := 32) (B := 2 ^ 31) rfl (by split <;> omega),
        negIf_ok (bits := 64) (B := 2 ^ 63) rfl (by omega)]
      exact ⟨_, rfl⟩
  · rw [checked_ok (bits := 64) (B := 2 ^ 63) rfl hD]
    simp only
    rw [negIf_ok (bits := 64) (B := 2 ^ 63) rfl hD]
    exact ⟨_, rfl⟩

/-- Intervals with several units have a value if the absolute values add up to what fits, and no number
of seconds is above 32 bits. -/
theorem C93_multi_fits {head : IExpr × IUnit} {tail : List (IExpr × IUnit)} {M D : Int} {a b : Nat}
    (he : Entries (head :: tail) M D a b) (h1 : tail ≠ [] ∨ head.2.kind = none)
    (hsec : ∀ e, (e, IUnit.second) ∈ head :: tail →
      ∃ k minus dd f s, e = negs k (.lit s) ∧ StdText .second minus dd [] f s ∧ digitsVal dd < 2 ^ 32)
    (ha : a < 2 ^ 31) (hb : b < 2 ^ 63) (neg : Bool) :
    ∃ v, signedInterval neg (.multi head tail) = some v ∧
      Is v (sign (minuses neg) * M) (sign (minuses neg) * D) := by
  obtain ⟨⟨m, d⟩, hmd⟩ := addUnits_fits (m := 0) (d := 0) he hsec (by omega) (by omega)
  obtain ⟨e1, e2⟩ := addUnits_entries he hmd
  obtain ⟨g1, g2⟩ := entries_abs he
  obtain ⟨v, hv⟩ := multiUnitValue_fits (M := m) (D := d) (by omega) (by omega) neg
  have hm : multiUnitInterval (head :: tail) neg = some v := by
    rw [multiUnitInterval, hmd]; exact hv
  have hs : signedInterval neg (.multi head tail) = some v := by
    cases tail with
    | nil =>
      rcases h1 with h1 | h1
      · exact absurd rfl h1
      · simpa only [signedInterval, h1] using hm
    | cons x t => exact hm
  exact ⟨v, hs, C93_multi he h1 hs⟩

/-- One unit of the standard ones is the standard interval of that kind. -/
theorem C93_single {e : IExpr} {u : IUnit} {k : IKind} (h : u.kind = some k) (neg : Bool) :
    signedInterval neg (.multi (e, u) []) = signedInterval neg (.standard e k) := by
  simp only [signedInterval, h]

/-! ## Negation -/

namespace Spec

/-- The interval of the opposite direction. -/
def opposite : IValue → IValue
  | .months n => .months (-n)
  | .micros n => .micros (-n)
  | .mixed m d n => .mixed (-m) (-d) (-n)

end Spec

theorem multiUnitValue_opposite {M D : Int} {v w : IValue} (h : multiUnitValue M D false = some v)
    (h' : multiUnitValue M D true = some w) : w = opposite v := by
  have h1 := multiUnitValue_is h
  have h2 := multiUnitValue_is h'
  simp only [Bool.false_eq_true, if_false, if_true] at h1 h2
  cases v <;> cases w <;> simp only [Is] at h1 h2 <;> simp only [opposite, IValue.months.injEq,
    IValue.micros.injEq, IValue.mixed.injEq, reduceCtorEq] <;> omega

theorem multiUnitInterval_opposite {l : List (IExpr × IUnit)} {v w : IValue}
    (h : multiUnitInterval l false = some v) (h' : multiUnitInterval l true = some w) : w = opposite v := by
  rw [multiUnitInterval] at h h'
  cases ha : addUnits l 0 0 with
  | none => rw [ha] at h; cases h
  | some x =>
    rw [ha] at h h'
    exact multiUnitValue_opposite h h'

theorem standardInterval_opposite {e : IExpr} {k : IKind} {v : IValue}
    (h : standardInterval e k false = some v) : standardInterval e k true = some (opposite v) := by
  obtain ⟨n, s, minus, d, ds, f, rfl, ht⟩ := C93_standard_only h
  rw [C93_standard ht] at h ⊢
  have hs : sign (n + minuses true + minuses minus) = -sign (n + minuses false + minuses minus) := by
    rw [show n + minuses true + minuses minus = (n + minuses false + minuses minus) + 1 by
      simp only [minuses, if_true, Bool.false_eq_true, if_false]; omega, sign_succ]
  rw [hs]
  split at h
  · rename_i hk
    rw [if_pos hk]
    split at h
    · rename_i hlt
      rw [if_pos hlt]
      cases h
      simp only [opposite, Int.neg_mul]
    · cases h
  · rename_i hk
    rw [if_neg hk]
    split at h
    · rename_i hlt
      rw [if_pos hlt]
      cases h
      simp only [opposite, Int.neg_mul]
    · cases h

/-- A minus sign in front of the interval gives the opposite interval. -/
theorem C93_opposite {x : Interval} {v w : IValue} (h : signedInterval false x = some v)
    (h' : signedInterval true x = some w) : w = opposite v := by
  cases x with
  | standard e k =>
    simp only [signedInterval] at h h'
    rw [standardInterval_opposite h] at h'
    cases h'; rfl
  | multi head tail =>
    cases tail with
    | nil =>
      simp only [signedInterval] at h h'
      cases hk : head.2.kind with
      | some k =>
        rw [hk] at h h'
        simp only at h h'
        rw [standardInterval_opposite h] at h'
        cases h'; rfl
      | none =>
        rw [hk] at h h'
        exact multiUnitInterval_opposite h h'
    | cons y t => exact multiUnitInterval_opposite h h'

/-- A standard interval in front of which a minus sign is written always has a value if it has one
without. -/
theorem C93_standard_opposite {e : IExpr} {k : IKind} {v : IValue}
    (h : signedInterval false (.standard e k) = some v) :
    signedInterval true (.standard e k) = some (opposite v) := standardInterval_opposite h

/-! ## Where it differs -/

/-- Minus signs in front of the smallest number do nothing. -/
theorem C93_negated_minimum (k : Nat) :
    signedInt 32 (negs k (.lit "-2147483648".toList)) = some (-2147483648) ∧
    signedInt 64 (negs k (.lit "-9223372036854775808".toList)) = some (-9223372036854775808) := by
  refine ⟨signedInt_smallest (B := 2147483648) (by decide) rfl ?_ k,
    signedInt_smallest (B := 9223372036854775808) (by decide) rfl ?_ k⟩
  · have h : IntText ('-' :: "2147483648".toList) (-(digitsVal "2147483648".toList : Int)) :=
      .minus (by intro c hc; revert c; decide) (by decide)
    have e : digitsVal "2147483648".toList = 2147483648 := by decide +kernel
    rw [e] at h
    exact h
  · have h : IntText ('-' :: "9223372036854775808".toList) (-(digitsVal "9223372036854775808".toList : Int)) :=
      .minus (by intro c hc; revert c; decide) (by decide)
    have e : digitsVal "9223372036854775808".toList = 9223372036854775808 := by decide +kernel
    rw [e] at h
    exact h

example : signedInterval false (.multi (.neg (.lit "-2147483648".toList), .month) [(.lit ['1'], .day)]) =
    some (.mixed (-2147483648) 1 0) := by decide +kernel

/-- The smallest number of months and of microseconds cannot be written as a standard interval. -/
theorem C93_smallest_refused {e : IExpr} {k : IKind} {neg : Bool} {v : IValue}
    (h : signedInterval neg (.standard e k) = some v) :
    v ≠ .months (-2147483648) ∧ v ≠ .micros (-9223372036854775808) := by
  obtain ⟨n, s, minus, d, ds, f, rfl, ht⟩ := C93_standard_only h
  simp only [signedInterval] at h
  rw [C93_standard ht] at h
  have hc := sign_mul_cases (n + minuses neg + minuses minus) (amount k d ds f)
  split at h <;> split at h
  · cases h
    exact ⟨(fun h => by injection h with h; omega), (fun h => by cases h)⟩
  · cases h
  · cases h
    exact ⟨(fun h => by cases h), (fun h => by injection h with h; omega)⟩
  · cases h

example : signedInterval true (.multi (.lit ['1'], .month) [(.lit ['3', '6'], .hour), (.lit "-.5".toList, .second)]) =
    none := by decide +kernel

example : signedInterval true (.multi (.lit ['1'], .month) [(.lit ['3', '6'], .hour), (.lit "-0.5".toList, .second)]) =
    some (.mixed (-1) (-1) (-43199500000000)) := by decide +kernel

example : Entries [(.lit ['3', '6'], .hour), (.neg (.lit ['7']), .day)] 0 (-475200000000) 0 734400000000 := by
  have h1 : Entry (negs 0 (.lit ['3', '6'])) .hour (sign 0 * 36 * 0) (sign 0 * 36 * 3600000000) :=
    .int (by decide) (.plain (d := ['3', '6']) (by intro c hc; revert c; decide) (by decide)) (.inl rfl)
  have h2 : Entry (negs 1 (.lit ['7'])) .day (sign 1 * 7 * 0) (sign 1 * 7 * 86400000000) :=
    .int (by decide) (.plain (d := ['7']) (by intro c hc; revert c; decide) (by decide)) (.inr (by decide))
  exact .cons h1 (.cons h2 .nil)

end Verif.Sql
