import Verif.Sql.NumberLemmas

/-!
# Lemmas on the values of digits and on the decimal parser
-/

namespace Verif.Sql

/-- Only decimal digits. -/
def Digits (s : Text) : Prop := ∀ c ∈ s, c.isDigit = true

/-- The number that digits stand for. -/
abbrev digitsVal (s : Text) : Nat := Nat.ofDigitChars 10 s 0

theorem Digits.all {s : Text} (h : Digits s) : s.all Char.isDigit = true := by
  rw [List.all_eq_true]; exact h

theorem Digits.tail {c : Char} {s : Text} (h : Digits (c :: s)) : Digits s :=
  fun x hx => h x (List.mem_cons_of_mem _ hx)

theorem Digits.append {a b : Text} (ha : Digits a) (hb : Digits b) : Digits (a ++ b) := by
  intro c hc
  rcases List.mem_append.mp hc with h | h
  · exact ha c h
  · exact hb c h

theorem Digits.left {a b : Text} (h : Digits (a ++ b)) : Digits a :=
  fun c hc => h c (List.mem_append_left _ hc)

theorem Digits.right {a b : Text} (h : Digits (a ++ b)) : Digits b :=
  fun c hc => h c (List.mem_append_right _ hc)

theorem digit_bounds {c : Char} (h : c.isDigit = true) : 48 ≤ c.toNat ∧ c.toNat ≤ 57 := by
  simp only [Char.isDigit, Bool.and_eq_true, decide_eq_true_eq] at h
  exact ⟨h.1, h.2⟩

theorem ofDigitChars_init (s : Text) (i : Nat) :
    Nat.ofDigitChars 10 s i = 10 ^ s.length * i + digitsVal s := by
  induction s generalizing i with
  | nil => simp
  | cons c s ih =>
    rw [digitsVal, Nat.ofDigitChars_cons, Nat.ofDigitChars_cons, ih, ih (10 * 0 + _)]
    rw [List.length_cons, Nat.pow_succ, Nat.mul_add, Nat.mul_add]
    have : 10 ^ s.length * (10 * i) = 10 ^ s.length * 10 * i := by rw [Nat.mul_assoc]
    rw [this]
    simp only [Nat.mul_zero]
    omega

theorem digitsVal_cons (c : Char) (s : Text) :
    digitsVal (c :: s) = 10 ^ s.length * (c.toNat - 48) + digitsVal s := by
  rw [digitsVal, Nat.ofDigitChars_cons, ofDigitChars_init]
  simp

theorem digitsVal_append (a b : Text) : digitsVal (a ++ b) = 10 ^ b.length * digitsVal a + digitsVal b := by
  rw [digitsVal, Nat.ofDigitChars_append, ofDigitChars_init]

theorem digitsVal_lt {s : Text} (h : Digits s) : digitsVal s < 10 ^ s.length := by
  induction s with
  | nil => simp
  | cons c s ih =>
    rw [digitsVal_cons, List.length_cons, Nat.pow_succ]
    have h1 := ih h.tail
    have h2 := digit_bounds (h c (by simp))
    have h3 : 10 ^ s.length * (c.toNat - 48) ≤ 10 ^ s.length * 9 := Nat.mul_le_mul_left _ (by omega)
    omega

/-- Leading zeros do not count. -/
theorem digitsVal_strip (s : Text) : digitsVal (s.dropWhile (· == '0')) = digitsVal s := by
  induction s with
  | nil => rfl
  | cons c s ih =>
    by_cases hc : (c == '0') = true
    · rw [List.dropWhile_cons_of_pos (p := (· == '0')) hc, ih, digitsVal_cons]
      have : c = '0' := by simpa using hc
      subst this
      simp
    · rw [List.dropWhile_cons_of_neg (p := (· == '0')) hc]

theorem strip_digits {s : Text} (h : Digits s) : Digits (s.dropWhile (· == '0')) :=
  fun c hc => h c ((List.dropWhile_suffix _).subset hc)

theorem strip_length (s : Text) : (s.dropWhile (· == '0')).length ≤ s.length :=
  (List.dropWhile_suffix _).length_le

/-- Without leading zeros, the number of digits is exact. -/
theorem strip_lower {s : Text} (h : Digits s) (hne : s.dropWhile (· == '0') ≠ []) :
    10 ^ ((s.dropWhile (· == '0')).length - 1) ≤ digitsVal s := by
  rw [← digitsVal_strip s]
  cases hs : s.dropWhile (· == '0') with
  | nil => exact absurd hs hne
  | cons c r =>
    have hc : (c == '0') = false := dropWhile_head (p := (· == '0')) (r := s) (c := c) (by rw [hs]; rfl)
    have hd : c.isDigit = true := strip_digits h c (by rw [hs]; simp)
    have hb := digit_bounds hd
    have hne : c.toNat ≠ 48 := by
      intro h
      have : c = '0' := by
        apply Char.ext
        apply UInt32.toNat_inj.mp
        exact h
      rw [this] at hc
      cases hc
    rw [digitsVal_cons, List.length_cons, Nat.add_sub_cancel]
    have : 10 ^ r.length * 1 ≤ 10 ^ r.length * (c.toNat - 48) := Nat.mul_le_mul_left _ (by omega)
    omega

/-! ## Signed integers -/

theorem parseDigits_eq {s : Text} (h : Digits s) (hne : s ≠ []) : parseDigits s = some (digitsVal s) := by
  rw [parseDigits, if_pos ⟨hne, h.all⟩]

theorem digit_ne {c d : Char} (h : c.isDigit = true) (hd : d.isDigit = false) : c ≠ d := by
  intro he; rw [he, hd] at h; cases h

theorem parseInt_digits {bits : Nat} {s : Text} (h : Digits s) (hne : s ≠ []) :
    parseInt bits s = if (digitsVal s : Int) < 2 ^ (bits - 1) then some (digitsVal s : Int) else none := by
  cases s with
  | nil => exact absurd rfl hne
  | cons c r =>
    have hc := h c (by simp)
    have h1 : (c == '-') = false := by simpa using digit_ne hc (d := '-') (by decide)
    have h2 : (c == '+') = false := by simpa using digit_ne hc (d := '+') (by decide)
    simp only [parseInt, h1, h2, parseDigits_eq h hne, Option.map_some]
    have : -(2 ^ (bits - 1) : Int) ≤ (digitsVal (c :: r) : Int) := by
      have : (0 : Int) ≤ 2 ^ (bits - 1) := Int.le_of_lt (Int.pow_pos (by decide))
      omega
    simp only [this, true_and, Bool.false_eq_true, if_false]

theorem parseInt_point {bits : Nat} {s : Text} (hp : '.' ∈ s) : parseInt bits s = none := by
  have key : ∀ r : Text, '.' ∈ r → parseDigits r = none := by
    intro r hr
    rw [parseDigits, if_neg]
    intro h
    have := (List.all_eq_true.mp h.2) '.' hr
    revert this; decide
  cases s with
  | nil => rfl
  | cons c r =>
    simp only [parseInt]
    by_cases h1 : (c == '-') = true
    · have : c = '-' := by simpa using h1
      subst this
      have : '.' ∈ r := by simpa using hp
      simp [key r this]
    · by_cases h2 : (c == '+') = true
      · have : c = '+' := by simpa using h2
        subst this
        have : '.' ∈ r := by simpa using hp
        simp [key r this]
      · simp only [Bool.not_eq_true] at h1 h2
        simp [h1, h2, key _ hp]

/-! ## The decimal parser -/

theorem takeSign_digit {c : Char} {r : Text} (h : c.isDigit = true ∨ c = '.') :
    takeSign (c :: r) = ([], c :: r) := by
  have h1 : (c == '+' || c == '-') = false := by
    rcases h with h | h
    · simp [digit_ne h (d := '+') (by decide), digit_ne h (d := '-') (by decide)]
    · subst h; decide
  simp [takeSign, h1]

theorem takeWhile_digits {a b : Text} (h : Digits a)
    (hb : ∀ c, b.head? = some c → c.isDigit = false) : (a ++ b).takeWhile Char.isDigit = a :=
  takeWhile_append_stop h hb

theorem dropWhile_digits {a b : Text} (h : Digits a)
    (hb : ∀ c, b.head? = some c → c.isDigit = false) : (a ++ b).dropWhile Char.isDigit = b :=
  dropWhile_append_stop h hb

/-- What can come after the digits: nothing, or an exponent. -/
def EndOf (t : Text) (e : Option Text) : Prop :=
  decimalEnd t = some e ∧ ∀ c, t.head? = some c → c = 'e' ∨ c = 'E'

theorem EndOf.head {t : Text} {e : Option Text} (h : EndOf t e) (c : Char) (hc : t.head? = some c) :
    c.isDigit = false ∧ c ≠ '.' := by
  rcases h.2 c hc with h | h <;> subst h <;> decide

theorem EndOf.dropPoint {t : Text} {e : Option Text} (h : EndOf t e) : dropPoint t = t := by
  cases t with
  | nil => rfl
  | cons c r =>
    have := (h.head c rfl).2
    simp [Verif.Sql.dropPoint, this]

theorem takeWhile_none {t : Text} (h : ∀ c, t.head? = some c → c.isDigit = false) :
    t.takeWhile Char.isDigit = [] ∧ t.dropWhile Char.isDigit = t := by
  cases t with
  | nil => exact ⟨rfl, rfl⟩
  | cons c r =>
    have := h c rfl
    exact ⟨List.takeWhile_cons_of_neg (by simp [this]), List.dropWhile_cons_of_neg (by simp [this])⟩

/-- Captures of digits without a point: everything after the first 38 digits is a fraction. -/
theorem decimalCaps_whole {ds t : Text} {e : Option Text} (h : Digits ds) (hne : ds ≠ [])
    (ht : EndOf t e) : decimalCaps (ds ++ t) =
      if ds.length ≤ 76 then some ⟨[], ds.take 38, ds.drop 38, e⟩ else none := by
  obtain ⟨c, r, hcr⟩ := List.exists_cons_of_ne_nil hne
  have hs : takeSign (ds ++ t) = ([], ds ++ t) := by
    rw [hcr]; exact takeSign_digit (.inl (h c (by rw [hcr]; simp)))
  have htw : (ds ++ t).takeWhile Char.isDigit = ds := takeWhile_digits h (fun c hc => (ht.head c hc).1)
  have hne' : ds.take 38 ≠ [] := by rw [hcr]; simp
  have hdrop : (ds ++ t).drop (ds.take 38).length = ds.drop 38 ++ t := by
    rw [List.length_take]
    by_cases hl : 38 ≤ ds.length
    · rw [Nat.min_eq_left hl, List.drop_append_of_le_length hl]
    · rw [Nat.min_eq_right (by omega), List.drop_left, List.drop_eq_nil_of_le (by omega)]; rfl
  have hdd : Digits (ds.drop 38) := fun c hc => h c (List.mem_of_mem_drop hc)
  have hdp : dropPoint (ds.drop 38 ++ t) = ds.drop 38 ++ t := by
    cases hd : ds.drop 38 with
    | nil => exact ht.dropPoint
    | cons c r =>
      have := digit_ne (hdd c (by rw [hd]; simp)) (d := '.') (by decide)
      simp [dropPoint, this]
  simp only [decimalCaps, hs, htw, if_pos hne', hdrop, hdp,
    takeWhile_digits hdd (fun c hc => (ht.head c hc).1),
    dropWhile_digits hdd (fun c hc => (ht.head c hc).1), ht.1, List.length_drop, ne_eq, hne',
    not_false_eq_true]
  by_cases hl : ds.length ≤ 76
  · rw [if_pos hl, if_pos trivial, if_pos (show ds.length - 38 ≤ 38 by omega)]
  · rw [if_neg hl, if_pos trivial, if_neg (show ¬ ds.length - 38 ≤ 38 by omega)]

/-- Captures of digits around a point. -/
theorem decimalCaps_point {whole frac t : Text} {e : Option Text} (h : Digits whole) (hf : Digits frac)
    (hne : whole ≠ [] ∨ frac ≠ []) (hw : whole.length ≤ 38) (hfl : frac.length ≤ 38)
    (ht : EndOf t e) : decimalCaps (whole ++ '.' :: (frac ++ t)) = some ⟨[], whole, frac, e⟩ := by
  have hs : takeSign (whole ++ '.' :: (frac ++ t)) = ([], whole ++ '.' :: (frac ++ t)) := by
    cases whole with
    | nil => exact takeSign_digit (.inr rfl)
    | cons c r => exact takeSign_digit (.inl (h c (by simp)))
  have htw : (whole ++ '.' :: (frac ++ t)).takeWhile Char.isDigit = whole :=
    takeWhile_digits h (fun c hc => by cases hc; decide)
  have h1 := takeWhile_digits hf (fun c hc => (ht.head c hc).1)
  have h2 := dropWhile_digits hf (fun c hc => (ht.head c hc).1)
  by_cases hw0 : whole = []
  · subst hw0
    have hf0 : frac ≠ [] := by simpa using hne
    simp only [decimalCaps, hs, htw]
    simp [h1, h2, hf0, hfl, ht.1]
  · have htake : whole.take 38 = whole := List.take_of_length_le hw
    simp only [decimalCaps, hs, htw, htake, ne_eq, hw0, not_false_eq_true, if_true, List.drop_left]
    simp [dropPoint, h1, h2, hfl, ht.1]

/-- The number of digits of the whole part that count. -/
def countedDigits (whole frac : Text) : Nat :=
  if whole.dropWhile (· == '0') = [] ∧ frac = [] then 1 else (whole.dropWhile (· == '0')).length

/-- The type by the precision. -/
def decimalLit {F32 F64 : Type} (p : Nat) (sc v : Int) : NumLit F32 F64 :=
  if 38 < p then .dec256 p sc v else .dec128 p sc v

/-- The outcome of the decimal parser on captures without a sign, with unbounded numbers. -/
theorem decimalOf_eq {F32 F64 : Type} {whole frac : Text} {ex : Option Text} {e : Int}
    (he : capsExp ex = some e) (hr : -128 ≤ e ∧ e ≤ 127) (h : Digits whole) (hf : Digits frac)
    (hw : whole.length ≤ 38) (hfl : frac.length ≤ 38) (hne : whole ≠ [] ∨ frac ≠ []) :
    (decimalOf ⟨[], whole, frac, ex⟩ : Conv (NumLit F32 F64)) =
      if (frac.length : Int) - e < -76 ∨ 76 < (frac.length : Int) - e then .error
      else if 127 < (countedDigits whole frac : Int) + max (frac.length : Int) e then .crash
      else if 76 < max ((countedDigits whole frac : Int) + max (frac.length : Int) e) (frac.length - e) then
        .error
      else .ok (decimalLit (max ((countedDigits whole frac : Int) + max (frac.length : Int) e)
          ((frac.length : Int) - e)).toNat (max 0 ((frac.length : Int) - e))
        (digitsVal (whole ++ frac) * 10 ^ (e - frac.length).toNat)) := by
  have hws := strip_length whole
  have hcd : countedDigits whole frac ≤ 38 ∧ 1 ≤ countedDigits whole frac + frac.length := by
    rw [countedDigits]
    split
    · omega
    · rename_i hz
      refine ⟨by omega, ?_⟩
      by_cases h1 : frac = []
      · have : whole.dropWhile (· == '0') ≠ [] := fun h => hz ⟨h, h1⟩
        have := List.length_pos_iff.mpr this
        omega
      · have := List.length_pos_iff.mpr h1
        omega
  have hnum : ∃ num : Text, num = (if whole.dropWhile (· == '0') = [] ∧ frac = [] then ['0'] else
      whole.dropWhile (· == '0')) ++ frac ∧ num.length = countedDigits whole frac + frac.length ∧
      digitsVal num = digitsVal (whole ++ frac) := by
    refine ⟨_, rfl, ?_, ?_⟩
    · rw [countedDigits]
      split <;> simp [Nat.add_comm]
    · split
      · rename_i hz
        rw [hz.2, List.append_nil, List.append_nil, ← digitsVal_strip whole, hz.1]
        rfl
      · rw [digitsVal_append, digitsVal_append, digitsVal_strip]
  obtain ⟨num, hnum1, hnum2, hnum3⟩ := hnum
  have hwi : (if whole.dropWhile (· == '0') = [] ∧ frac = [] then (1 : Int) else
      ((if whole.dropWhile (· == '0') = [] ∧ frac = [] then ['0'] else
        whole.dropWhile (· == '0')).length : Int)) = (countedDigits whole frac : Int) := by
    rw [countedDigits]
    split
    · rfl
    · rfl
  have hfi : (if whole.dropWhile (· == '0') = [] ∧ frac = [] then (0 : Int) else (frac.length : Int)) =
      (frac.length : Int) := by
    split
    · rename_i hz; rw [hz.2]; rfl
    · rfl
  simp only [decimalOf, he, hwi, hfi, ← hnum1]
  generalize hk : countedDigits whole frac = k at *
  generalize hn : frac.length = f at *
  by_cases h76 : (f : Int) - e < -76 ∨ 76 < (f : Int) - e
  · rw [if_pos h76, if_pos h76]
    split <;> rfl
  · rw [if_neg h76, if_neg h76, if_neg (by omega)]
    have hpad : (k : Int) + f + (if (f : Int) - e < 0 then -((f : Int) - e) else 0) = k + max (f : Int) e := by
      split <;> omega
    have hsc : (if (f : Int) - e < 0 then 0 else (f : Int) - e) = max 0 ((f : Int) - e) := by
      split <;> omega
    rw [hpad, hsc]
    by_cases hcr : 127 < (k : Int) + max (f : Int) e
    · rw [if_pos hcr, if_pos]
      rw [Int.bmod]
      omega
    · rw [if_neg hcr]
      have hb : Int.bmod ((k : Int) + max (f : Int) e) 256 = (k : Int) + max (f : Int) e := by
        rw [Int.bmod]; omega
      rw [hb, if_neg (by omega)]
      have hmax : max ((k : Int) + max (f : Int) e) (max 0 ((f : Int) - e)) =
          max ((k : Int) + max (f : Int) e) ((f : Int) - e) := by omega
      rw [hmax]
      by_cases hp : 76 < max ((k : Int) + max (f : Int) e) ((f : Int) - e)
      · rw [if_pos hp, if_pos (by omega)]
      · rw [if_neg hp, if_neg (by omega)]
        have hv : signedDigits [] (num ++ List.replicate (((k : Int) + max (f : Int) e).toNat - num.length)
            '0') = (digitsVal (whole ++ frac) : Int) * 10 ^ (e - f).toNat := by
          have : ((k : Int) + max (f : Int) e).toNat - num.length = (e - f).toNat := by omega
          rw [this, signedDigits, if_neg (by decide)]
          show ((digitsVal (num ++ _) : Nat) : Int) = _
          have hz : digitsVal (List.replicate (e - (f : Int)).toNat '0') = 0 := by
            rw [digitsVal, Nat.ofDigitChars_replicate_zero, Nat.mul_zero]
          rw [digitsVal_append, hnum3, hz, List.length_replicate, Nat.add_zero]
          rw [Int.natCast_mul, Int.natCast_pow, Int.mul_comm]
          rfl
        rw [hv, decimalLit]
        split <;> rfl

end Verif.Sql
