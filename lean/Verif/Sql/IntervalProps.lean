import Verif.Sql.Interval
import Verif.Sql.NumberValue

/-!
# C93: interval literals
-/

namespace Verif.Sql

namespace Spec

/-- Only white space. -/
def Blanks (s : Text) : Prop := ∀ c ∈ s, isSp c = true

/-- How a separator can be written. -/
def SepText : ISep → Text → Prop
  | .dash, t => t = ['-']
  | .colon, t => t = [':']
  | .space, t => t ≠ [] ∧ Blanks t

/-- The fields after the first, with any number of digits each, and their separators. -/
inductive FieldsText : List (ISep × IField) → List Text → Text → Prop
  | nil : FieldsText [] [] []
  | cons {sep : ISep} {f : IField} {l : List (ISep × IField)} {d : Text} {ds : List Text} {t u : Text} :
    SepText sep t → Digits d → d ≠ [] → FieldsText l ds u → FieldsText ((sep, f) :: l) (d :: ds) (t ++ d ++ u)

/-- The fraction: nothing, a point, or a point and digits. -/
inductive FracText : Option Text → Text → Prop
  | none : FracText none []
  | point : FracText none ['.']
  | digits {f : Text} : Digits f → f ≠ [] → FracText (some f) ('.' :: f)

/-- The text of an interval: blanks, a sign, the fields, a fraction for the kinds that end with
seconds, blanks. -/
structure StdText (k : IKind) (minus : Bool) (d : Text) (ds : List Text) (f : Option Text) (s : Text) : Prop where
  parts : ∃ b1 sg t fr b2, s = b1 ++ sg ++ d ++ t ++ fr ++ b2 ∧ Blanks b1 ∧ Blanks b2 ∧
    ((minus = false ∧ (sg = [] ∨ sg = ['+'])) ∨ (minus = true ∧ sg = ['-'])) ∧
    FieldsText k.fields.2 ds t ∧ FracText f fr ∧ (fr ≠ [] → k ∈ [.dayToSecond, .hourToSecond, .minuteToSecond, .second])
  first : Digits d ∧ d ≠ []

/-- Months of the fields of the one family, microseconds of those of the other. -/
def size : IField → Nat
  | .year => 12
  | .month => 1
  | .day => 24 * 60 * 60 * 1000000
  | .hour => 60 * 60 * 1000000
  | .minute => 60 * 1000000
  | .second => 1000000

/-- The microseconds of a fraction of a second, cut. -/
def fracMicros : Option Text → Nat
  | none => 0
  | some f => digitsVal f * 1000000 / 10 ^ f.length

/-- The length that is written. -/
def amount (k : IKind) (d : Text) (ds : List Text) (f : Option Text) : Nat :=
  size k.fields.1 * digitsVal d +
    ((k.fields.2.zip ds).map (fun x => size x.1.2 * digitsVal x.2)).sum + fracMicros f

/-- An expression with `n` minus signs in front. -/
def negs : Nat → IExpr → IExpr
  | 0, e => e
  | n + 1, e => .neg (negs n e)

/-- The sign of several signs. -/
def sign (n : Nat) : Int := if n % 2 = 0 then 1 else -1

/-- A truth value as a number of minus signs. -/
def minuses (b : Bool) : Nat := if b then 1 else 0

end Spec

open Spec

/-! ## Reading the fields -/

theorem isSp_not_digit {c : Char} (h : isSp c = true) : c.isDigit = false := by
  simp only [isSp, Bool.or_eq_true, beq_iff_eq] at h
  rcases h with ((((h | h) | h) | h) | h) | h <;> subst h <;> decide

theorem digit_not_sp {c : Char} (h : c.isDigit = true) : isSp c = false := by
  cases hs : isSp c with
  | false => rfl
  | true => rw [isSp_not_digit hs] at h; cases h

theorem takeField_digits {d r : Text} (h : Digits d) (hne : d ≠ [])
    (hr : ∀ c, r.head? = some c → c.isDigit = false) : takeField (d ++ r) = some (digitsVal d, r) := by
  rw [takeField, takeWhile_digits h hr, dropWhile_digits h hr, if_neg hne]

theorem sepText_head {sep : ISep} {t r : Text} (h : SepText sep t) :
    ∀ c, (t ++ r).head? = some c → c.isDigit = false := by
  intro c hc
  cases sep with
  | dash => cases h; cases hc; decide
  | colon => cases h; cases hc; decide
  | space =>
    obtain ⟨x, y, hxy⟩ := List.exists_cons_of_ne_nil h.1
    subst hxy
    cases hc
    exact isSp_not_digit (h.2 c (by simp))

theorem takeSep_text {sep : ISep} {t d r : Text} (h : SepText sep t) (hd : Digits d) (hne : d ≠ []) :
    takeSep sep (t ++ (d ++ r)) = some (d ++ r) := by
  cases sep with
  | dash => cases h; rfl
  | colon => cases h; rfl
  | space =>
    obtain ⟨x, y, hxy⟩ := List.exists_cons_of_ne_nil hne
    have hh : ∀ c, (d ++ r).head? = some c → isSp c = false := by
      intro c hc
      rw [hxy] at hc
      cases hc
      exact digit_not_sp (hd x (by rw [hxy]; simp))
    simp only [takeSep]
    rw [takeWhile_append_stop h.2 hh, dropWhile_append_stop h.2 hh, if_neg h.1]

theorem fieldsText_head {l : List (ISep × IField)} {ds : List Text} {t r : Text} (h : FieldsText l ds t)
    (hr : ∀ c, r.head? = some c → c.isDigit = false) : ∀ c, (t ++ r).head? = some c → c.isDigit = false := by
  cases h with
  | nil => exact hr
  | cons h1 _ _ _ =>
    rw [List.append_assoc, List.append_assoc]
    exact sepText_head h1

theorem takeFields_text {l : List (ISep × IField)} {ds : List Text} {t r : Text} (h : FieldsText l ds t)
    (hr : ∀ c, r.head? = some c → c.isDigit = false) :
    takeFields l (t ++ r) = some ((l.zip ds).map (fun x => (x.1.2, digitsVal x.2)), r) := by
  induction h with
  | nil => rfl
  | @cons sep f l d ds t u h1 h2 h3 h4 ih =>
    have hhead := fieldsText_head h4 hr
    rw [List.append_assoc, List.append_assoc]
    simp only [takeFields, takeSep_text h1 h2 h3, takeField_digits h2 h3 hhead, ih]
    rfl

theorem takeFraction_text {f : Option Text} {fr b : Text} (h : FracText f fr) (hb : Blanks b) :
    takeFraction (fr ++ b) = (f, b) := by
  have hb0 : b.takeWhile Char.isDigit = [] := by
    cases b with
    | nil => rfl
    | cons c r =>
      exact List.takeWhile_cons_of_neg (by rw [isSp_not_digit (hb c (by simp))]; simp)
  have hdp : dropPoint b = b := by
    cases b with
    | nil => rfl
    | cons c r =>
      have : c ≠ '.' := by
        intro h; have := hb c (by simp); rw [h] at this; revert this; decide
      simp [dropPoint, this]
  cases h with
  | none => simp [takeFraction, hdp, hb0]
  | point => simp [takeFraction, dropPoint, hb0]
  | digits h1 h2 =>
    have hh : ∀ c, b.head? = some c → c.isDigit = false := by
      intro c hc
      cases b with
      | nil => cases hc
      | cons x r => cases hc; exact isSp_not_digit (hb c (by simp))
    simp only [takeFraction, List.cons_append, dropPoint, beq_self_eq_true, if_true]
    rw [takeWhile_digits h1 hh, dropWhile_digits h1 hh, if_neg h2]

theorem takeSign_text {minus : Bool} {sg r : Text}
    (h : (minus = false ∧ (sg = [] ∨ sg = ['+'])) ∨ (minus = true ∧ sg = ['-']))
    (hr : ∃ c r', r = c :: r' ∧ c.isDigit = true) :
    ((takeSign (sg ++ r)).1 == ['-']) = minus ∧ (takeSign (sg ++ r)).2 = r := by
  obtain ⟨c, r', rfl, hc⟩ := hr
  rcases h with ⟨h1, h2 | h2⟩ | ⟨h1, h2⟩ <;> subst h1 <;> subst h2
  · rw [List.nil_append, takeSign_digit (.inl hc)]
    exact ⟨rfl, rfl⟩
  · exact ⟨rfl, rfl⟩
  · exact ⟨rfl, rfl⟩

/-- The captures of the fields. -/
def capsOf (k : IKind) (minus : Bool) (d : Text) (ds : List Text) (f : Option Text) : ICaps :=
  ⟨minus, (k.fields.1, digitsVal d) :: (k.fields.2.zip ds).map (fun x => (x.1.2, digitsVal x.2)), f⟩

theorem intervalCaps_text {k : IKind} {minus : Bool} {d : Text} {ds : List Text} {f : Option Text} {s : Text}
    (h : StdText k minus d ds f s) :
    intervalCaps k s = some (capsOf k minus d ds f) := by
  rw [capsOf]
  obtain ⟨b1, sg, t, fr, b2, rfl, hb1, hb2, hsg, hw, hf, hnf⟩ := h.parts
  obtain ⟨hd, hne⟩ := h.first
  obtain ⟨x, y, hxy⟩ := List.exists_cons_of_ne_nil hne
  have hx : x.isDigit = true := hd x (by rw [hxy]; simp)
  have hassoc : b1 ++ sg ++ d ++ t ++ fr ++ b2 = b1 ++ (sg ++ (d ++ (t ++ (fr ++ b2)))) := by
    simp only [List.append_assoc]
  have hstop : ∀ c, (sg ++ (d ++ (t ++ (fr ++ b2)))).head? = some c → isSp c = false := by
    intro c hc
    rcases hsg with ⟨_, h2 | h2⟩ | ⟨_, h2⟩ <;> subst h2
    · rw [hxy] at hc; cases hc; exact digit_not_sp hx
    · cases hc; decide
    · cases hc; decide
  have hfb : ∀ c, (fr ++ b2).head? = some c → c.isDigit = false := by
    intro c hc
    cases hf with
    | none =>
      cases b2 with
      | nil => cases hc
      | cons z b2 => cases hc; exact isSp_not_digit (hb2 c (by simp))
    | point => cases hc; decide
    | digits _ _ => cases hc; decide
  obtain ⟨hs1, hs2⟩ := takeSign_text (r := d ++ (t ++ (fr ++ b2))) hsg ⟨x, y ++ (t ++ (fr ++ b2)), by rw [hxy]; rfl, hx⟩
  have hall : b2.all isSp = true := by rw [List.all_eq_true]; exact hb2
  simp only [intervalCaps]
  rw [hassoc, dropWhile_append_stop hb1 hstop, hs1, hs2, takeField_digits hd hne (fieldsText_head hw hfb)]
  simp only
  rw [takeFields_text hw hfb]
  simp only
  cases hk : k.hasFraction with
  | true => simp only [if_true, takeFraction_text hf hb2, hall]
  | false =>
    have : fr = [] := Decidable.byContradiction fun hne => by
      have := hnf hne
      revert hk
      simp only [List.mem_cons, List.not_mem_nil, or_false] at this
      rcases this with rfl | rfl | rfl | rfl <;> decide
    subst this
    have hfn : f = none := by cases hf; rfl
    subst hfn
    simp only [Bool.false_eq_true, if_false, List.nil_append, hall, if_true]

/-! ## The fraction -/

theorem fractionMicros_eq (f : Option Text) (hf : ∀ x, f = some x → Digits x) :
    fractionMicros f = fracMicros f := by
  cases f with
  | none => rfl
  | some x =>
    have hx := hf x rfl
    simp only [fractionMicros, fracMicros]
    by_cases hl : x.length ≤ 6
    · have : (x ++ List.replicate 6 '0').take 6 = x ++ List.replicate (6 - x.length) '0' := by
        rw [List.take_append, List.take_of_length_le hl, List.take_replicate]
        congr 2
        omega
      have hz : digitsVal (List.replicate (6 - x.length) '0') = 0 := by
        rw [digitsVal, Nat.ofDigitChars_replicate_zero, Nat.mul_zero]
      rw [this]
      show digitsVal _ = _
      rw [digitsVal_append, hz, List.length_replicate, Nat.add_zero]
      have h6 : (1000000 : Nat) = 10 ^ (6 - x.length) * 10 ^ x.length := by
        rw [← Nat.pow_add, Nat.sub_add_cancel hl]
      rw [h6, ← Nat.mul_assoc, Nat.mul_div_cancel _ (Nat.pow_pos (by decide)), Nat.mul_comm]
    · have h1 : (x ++ List.replicate 6 '0').take 6 = x.take 6 := List.take_append_of_le_length (by omega)
      rw [h1]
      show digitsVal _ = _
      have h2 := digitsVal_append (x.take 6) (x.drop 6)
      rw [List.take_append_drop] at h2
      have h3 : digitsVal (x.drop 6) < 10 ^ (x.drop 6).length :=
        digitsVal_lt (fun c hc => hx c (List.mem_of_mem_drop hc))
      have h4 : 10 ^ x.length = 10 ^ (x.drop 6).length * 1000000 := by
        have : (1000000 : Nat) = 10 ^ 6 := by decide
        rw [this, ← Nat.pow_add, List.length_drop, Nat.sub_add_cancel (by omega)]
      rw [h4, Nat.mul_div_mul_right _ _ (by decide), h2, Nat.add_comm,
        Nat.add_mul_div_left _ _ (Nat.pow_pos (by decide)), Nat.div_eq_of_lt h3, Nat.zero_add]

/-! ## The arithmetic -/

theorem checked_nat {bits B n : Nat} (hB : 2 ^ (bits - 1) = B) :
    checked bits (n : Int) = if n < B then some (n : Int) else none := by
  have hB' : (2 ^ (bits - 1) : Int) = (B : Int) := by rw [← hB]; simp
  rw [checked, hB']
  by_cases h : n < B
  · rw [if_pos ⟨by omega, by omega⟩, if_pos h]
  · rw [if_neg (fun hh => h (by omega)), if_neg h]

theorem negIf_nat {bits B : Nat} {neg : Bool} {n : Nat} (hB : 2 ^ (bits - 1) = B) (h : n < B) :
    negIf bits neg (n : Int) = some (if neg then -(n : Int) else n) := by
  have hB' : (2 ^ (bits - 1) : Int) = (B : Int) := by rw [← hB]; simp
  cases neg with
  | false => rfl
  | true =>
    simp only [negIf, if_true, checked]
    rw [hB', if_pos ⟨by omega, by omega⟩]

theorem ICaps.int_getD (c : ICaps) {bits B : Nat} (f : IField) (hB : 2 ^ (bits - 1) = B) :
    c.int bits f = if (c.get f).getD 0 < B then some (((c.get f).getD 0 : Nat) : Int) else none := by
  have h0 : 0 < B := by rw [← hB]; exact Nat.pow_pos (by decide)
  rw [ICaps.int, hB]
  cases c.get f with
  | none => simp [h0]
  | some n => rfl

theorem yearMonth_value {k : IKind} {neg : Bool} {s : Text} {c : ICaps} (h : intervalCaps k s = some c)
    {bits B : Nat} (hb : bits = 32) (hB : 2 ^ (bits - 1) = B) :
    yearMonthString k neg s =
      if 12 * (c.get .year).getD 0 + (c.get .month).getD 0 < B then
        some (.months (if (neg != c.minus) then -((12 * (c.get .year).getD 0 + (c.get .month).getD 0 : Nat) : Int)
          else ((12 * (c.get .year).getD 0 + (c.get .month).getD 0 : Nat) : Int)))
      else none := by
  have ck : ∀ n : Nat, checked bits (n : Int) = if n < B then some (n : Int) else none := fun n => checked_nat hB
  have ng : ∀ (b : Bool) (n : Nat), n < B → negIf bits b (n : Int) = some (if b then -(n : Int) else n) :=
    fun b n hn => negIf_nat hB hn
  have ci : ∀ f, c.int bits f = if (c.get f).getD 0 < B then some (((c.get f).getD 0 : Nat) : Int) else none :=
    fun f => c.int_getD f hB
  clear hB
  simp only [yearMonthString, ← hb, h, ci]
  clear ci hb
  generalize (c.get .year).getD 0 = y
  generalize (c.get .month).getD 0 = m
  by_cases hy : y < B
  · rw [if_pos hy]
    simp only
    by_cases hm : m < B
    · rw [if_pos hm]
      simp only
      have e1 : (y : Int) * 12 = ((12 * y : Nat) : Int) := by omega
      rw [e1, ck]
      by_cases h12 : 12 * y < B
      · rw [if_pos h12]
        simp only
        have e2 : ((12 * y : Nat) : Int) + (m : Int) = ((12 * y + m : Nat) : Int) := by omega
        rw [e2, ck]
        by_cases hs : 12 * y + m < B
        · rw [if_pos hs, if_pos hs]
          simp only
          rw [ng _ _ hs]
        · rw [if_neg hs, if_neg hs]
      · rw [if_neg h12]
        simp only
        rw [if_neg (by omega)]
    · rw [if_neg hm]
      simp only
      rw [if_neg (by omega)]
  · rw [if_neg hy]
    simp only
    rw [if_neg (by omega)]

theorem delta_nat {n L : Nat} (hL : (2 ^ 63 - 1) * 1000 = L) :
    delta (n : Int) = if n ≤ L then some (n : Int) else none := by
  have hL' : ((2 ^ 63 - 1) * 1000 : Int) = (L : Int) := by omega
  rw [delta, hL']
  by_cases h : n ≤ L
  · rw [if_pos ⟨by omega, by omega⟩, if_pos h]
  · rw [if_neg (fun hh => h (by omega)), if_neg h]

theorem addDelta_nat {d n u L : Nat} (hL : (2 ^ 63 - 1) * 1000 = L) :
    addDelta (d : Int) (n : Int) (u : Int) = if d + n * u ≤ L then some ((d + n * u : Nat) : Int) else none := by
  have e1 : (n : Int) * (u : Int) = ((n * u : Nat) : Int) := by simp
  rw [addDelta, e1, delta_nat hL]
  by_cases h1 : n * u ≤ L
  · rw [if_pos h1]
    simp only
    have e2 : (d : Int) + ((n * u : Nat) : Int) = ((d + n * u : Nat) : Int) := by simp
    rw [e2, delta_nat hL]
  · rw [if_neg h1, if_neg (by omega)]

theorem dayTime_value {k : IKind} {neg : Bool} {s : Text} {c : ICaps} (h : intervalCaps k s = some c)
    {bits B L : Nat} (hb : bits = 64) (hB : 2 ^ (bits - 1) = B) (hL : (2 ^ 63 - 1) * 1000 = L) (hBL : B ≤ L) {t : Nat}
    (ht : t = (c.get .day).getD 0 * 86400000000 + (c.get .hour).getD 0 * 3600000000 +
        (c.get .minute).getD 0 * 60000000 + (c.get .second).getD 0 * 1000000 + fractionMicros c.fraction) :
    dayTimeString k neg s =
      if t < B then some (.micros (if (neg != c.minus) then -(t : Int) else t)) else none := by
  have ck : ∀ n : Nat, checked bits (n : Int) = if n < B then some (n : Int) else none := fun n => checked_nat hB
  have ng : ∀ (b : Bool) (n : Nat), n < B → negIf bits b (n : Int) = some (if b then -(n : Int) else n) :=
    fun b n hn => negIf_nat hB hn
  have dl : ∀ n : Nat, delta (n : Int) = if n ≤ L then some (n : Int) else none := fun n => delta_nat hL
  have ad : ∀ d n u : Nat, addDelta (d : Int) (n : Int) (u : Int) =
      if d + n * u ≤ L then some ((d + n * u : Nat) : Int) else none := fun d n u => addDelta_nat hL
  have ci : ∀ f, c.int bits f = if (c.get f).getD 0 < B then some (((c.get f).getD 0 : Nat) : Int) else none :=
    fun f => c.int_getD f hB
  clear hB hL
  simp only [dayTimeString, ← hb, h, ci]
  clear ci hb
  revert ht
  generalize (c.get .day).getD 0 = a
  generalize (c.get .hour).getD 0 = b
  generalize (c.get .minute).getD 0 = m
  generalize (c.get .second).getD 0 = x
  generalize fractionMicros c.fraction = u
  obtain ⟨U, hU⟩ : ∃ U : Nat, U = 86400000000 := ⟨_, rfl⟩
  obtain ⟨V, hV⟩ : ∃ V : Nat, V = 3600000000 := ⟨_, rfl⟩
  obtain ⟨W, hW⟩ : ∃ W : Nat, W = 60000000 := ⟨_, rfl⟩
  obtain ⟨X, hX⟩ : ∃ X : Nat, X = 1000000 := ⟨_, rfl⟩
  have hU' : (86400000000 : Int) = (U : Int) := by rw [hU]; rfl
  have hV' : (3600000000 : Int) = (V : Int) := by rw [hV]; rfl
  have hW' : (60000000 : Int) = (W : Int) := by rw [hW]; rfl
  have hX' : (1000000 : Int) = (X : Int) := by rw [hX]; rfl
  rw [← hU, ← hV, ← hW, ← hX, hU', hV', hW', hX', show (1 : Int) = ((1 : Nat) : Int) from rfl]
  have ha := Nat.le_mul_of_pos_right a (show 0 < U by omega)
  have hb := Nat.le_mul_of_pos_right b (show 0 < V by omega)
  have hm := Nat.le_mul_of_pos_right m (show 0 < W by omega)
  have hx := Nat.le_mul_of_pos_right x (show 0 < X by omega)
  clear hU hV hW hX hU' hV' hW' hX'
  intro ht
  have e1 : (a : Int) * (U : Int) = ((a * U : Nat) : Int) := by simp
  generalize hA : a * U = A at *
  by_cases h1 : a < B
  case neg =>
    rw [if_neg h1]
    simp only
    rw [if_neg (by omega)]
  rw [if_pos h1]
  simp only
  by_cases h2 : b < B
  case neg =>
    rw [if_neg h2]
    simp only
    rw [if_neg (by omega)]
  rw [if_pos h2]
  simp only
  by_cases h3 : m < B
  case neg =>
    rw [if_neg h3]
    simp only
    rw [if_neg (by omega)]
  rw [if_pos h3]
  simp only
  by_cases h4 : x < B
  case neg =>
    rw [if_neg h4]
    simp only
    rw [if_neg (by omega)]
  rw [if_pos h4]
  simp only
  rw [e1, dl]
  by_cases h5 : A ≤ L
  case neg =>
    rw [if_neg h5]
    simp only
    rw [if_neg (by omega)]
  rw [if_pos h5]
  simp only
  rw [ad]
  by_cases h6 : A + b * V ≤ L
  case neg =>
    rw [if_neg h6]
    simp only
    rw [if_neg (by omega)]
  rw [if_pos h6]
  simp only
  rw [ad]
  by_cases h7 : A + b * V + m * W ≤ L
  case neg =>
    rw [if_neg h7]
    simp only
    rw [if_neg (by omega)]
  rw [if_pos h7]
  simp only
  rw [ad]
  by_cases h8 : A + b * V + m * W + x * X ≤ L
  case neg =>
    rw [if_neg h8]
    simp only
    rw [if_neg (by omega)]
  rw [if_pos h8]
  simp only
  rw [ad, Nat.mul_one, ← ht]
  by_cases h9 : t ≤ L
  case neg =>
    rw [if_neg h9]
    simp only
    rw [if_neg (by omega)]
  rw [if_pos h9]
  simp only
  rw [ck]
  by_cases h10 : t < B
  case neg => rw [if_neg h10, if_neg h10]
  rw [if_pos h10, if_pos h10]
  simp only
  rw [ng _ _ h10]

theorem signedText_negs (n : Nat) (s : Text) : signedText (negs n (.lit s)) = some (n % 2 == 1, s) := by
  induction n with
  | zero => rfl
  | succ n ih =>
    simp only [negs, signedText, ih]
    have : n % 2 = 0 ∨ n % 2 = 1 := by omega
    rcases this with h | h
    · rw [h, show (n + 1) % 2 = 1 by omega]; rfl
    · rw [h, show (n + 1) % 2 = 0 by omega]; rfl

theorem sign_value (n : Nat) (neg minus : Bool) (t : Int) :
    (if (((n % 2 == 1) != neg) != minus) then -t else t) = sign (n + minuses neg + minuses minus) * t := by
  have hn : n % 2 = 0 ∨ n % 2 = 1 := by omega
  have key : ∀ m : Nat, (sign m * t = t ∧ m % 2 = 0) ∨ (sign m * t = -t ∧ m % 2 = 1) := by
    intro m
    rw [sign]
    by_cases hm : m % 2 = 0
    · rw [if_pos hm]; exact .inl ⟨by omega, hm⟩
    · rw [if_neg hm]; exact .inr ⟨by omega, by omega⟩
  rcases key (n + minuses neg + minuses minus) with ⟨h1, h2⟩ | ⟨h1, h2⟩ <;> rw [h1] <;>
    cases neg <;> cases minus <;> simp only [minuses, Bool.false_eq_true, if_false, if_true] at h2 <;>
    rcases hn with h | h <;> first | (exfalso; omega) | (rw [h]; rfl)

theorem fieldsText_length {l : List (ISep × IField)} {ds : List Text} {t : Text} (h : FieldsText l ds t) :
    ds.length = l.length := by
  induction h with
  | nil => rfl
  | cons _ _ _ _ ih => simp [ih]

theorem list_len1 {α : Type} {l : List α} (h : l.length = 1) : ∃ a, l = [a] := by
  match l, h with
  | [a], _ => exact ⟨a, rfl⟩

theorem list_len2 {α : Type} {l : List α} (h : l.length = 2) : ∃ a b, l = [a, b] := by
  match l, h with
  | [a, b], _ => exact ⟨a, b, rfl⟩

theorem list_len3 {α : Type} {l : List α} (h : l.length = 3) : ∃ a b c, l = [a, b, c] := by
  match l, h with
  | [a, b, c], _ => exact ⟨a, b, c, rfl⟩

theorem amount_months {k : IKind} {d : Text} {ds : List Text} (hk : k.isMonths = true)
    (hlen : ds.length = k.fields.2.length) (minus : Bool) (f : Option Text) :
    12 * ((capsOf k minus d ds f).get .year).getD 0 + ((capsOf k minus d ds f).get .month).getD 0 =
      amount k d ds none := by
  cases k <;> first | cases hk | skip
  · simp [capsOf, IKind.fields, ICaps.get, amount, size, fracMicros]
  · obtain ⟨a, rfl⟩ := list_len1 hlen
    simp [capsOf, IKind.fields, ICaps.get, amount, size, fracMicros]
  · simp [capsOf, IKind.fields, ICaps.get, amount, size, fracMicros]

theorem amount_micros {k : IKind} {d : Text} {ds : List Text} (hk : k.isMonths = false)
    (hlen : ds.length = k.fields.2.length) (minus : Bool) (f : Option Text) {D H M S : Nat}
    (hD : size .day = D) (hH : size .hour = H) (hM : size .minute = M) (hS : size .second = S) :
    ((capsOf k minus d ds f).get .day).getD 0 * D +
      ((capsOf k minus d ds f).get .hour).getD 0 * H +
      ((capsOf k minus d ds f).get .minute).getD 0 * M +
      ((capsOf k minus d ds f).get .second).getD 0 * S + fracMicros f = amount k d ds f := by
  cases k
  case year => cases hk
  case yearToMonth => cases hk
  case month => cases hk
  case day =>
    show digitsVal d * D + 0 * H + 0 * M + 0 * S + fracMicros f =
      size .day * digitsVal d + (0) + fracMicros f
    simp only [hD, Nat.zero_mul, Nat.mul_zero, Nat.add_zero, Nat.zero_add, Nat.mul_comm, Nat.add_assoc]
  case hour =>
    show 0 * D + digitsVal d * H + 0 * M + 0 * S + fracMicros f =
      size .hour * digitsVal d + (0) + fracMicros f
    simp only [hH, Nat.zero_mul, Nat.mul_zero, Nat.add_zero, Nat.zero_add, Nat.mul_comm, Nat.add_assoc]
  case minute =>
    show 0 * D + 0 * H + digitsVal d * M + 0 * S + fracMicros f =
      size .minute * digitsVal d + (0) + fracMicros f
    simp only [hM, Nat.zero_mul, Nat.mul_zero, Nat.add_zero, Nat.zero_add, Nat.mul_comm, Nat.add_assoc]
  case second =>
    show 0 * D + 0 * H + 0 * M + digitsVal d * S + fracMicros f =
      size .second * digitsVal d + (0) + fracMicros f
    simp only [hS, Nat.zero_mul, Nat.mul_zero, Nat.add_zero, Nat.zero_add, Nat.mul_comm, Nat.add_assoc]
  case dayToHour =>
    obtain ⟨a, rfl⟩ := list_len1 hlen
    show digitsVal d * D + digitsVal a * H + 0 * M + 0 * S + fracMicros f =
      size .day * digitsVal d + (size .hour * digitsVal a + 0) + fracMicros f
    simp only [hD, hH, Nat.zero_mul, Nat.mul_zero, Nat.add_zero, Nat.zero_add, Nat.mul_comm, Nat.add_assoc]
  case hourToMinute =>
    obtain ⟨a, rfl⟩ := list_len1 hlen
    show 0 * D + digitsVal d * H + digitsVal a * M + 0 * S + fracMicros f =
      size .hour * digitsVal d + (size .minute * digitsVal a + 0) + fracMicros f
    simp only [hH, hM, Nat.zero_mul, Nat.mul_zero, Nat.add_zero, Nat.zero_add, Nat.mul_comm, Nat.add_assoc]
  case minuteToSecond =>
    obtain ⟨a, rfl⟩ := list_len1 hlen
    show 0 * D + 0 * H + digitsVal d * M + digitsVal a * S + fracMicros f =
      size .minute * digitsVal d + (size .second * digitsVal a + 0) + fracMicros f
    simp only [hM, hS, Nat.zero_mul, Nat.mul_zero, Nat.add_zero, Nat.zero_add, Nat.mul_comm, Nat.add_assoc]
  case dayToMinute =>
    obtain ⟨a, b, rfl⟩ := list_len2 hlen
    show digitsVal d * D + digitsVal a * H + digitsVal b * M + 0 * S + fracMicros f =
      size .day * digitsVal d + (size .hour * digitsVal a + (size .minute * digitsVal b + 0)) + fracMicros f
    simp only [hD, hH, hM, Nat.zero_mul, Nat.mul_zero, Nat.add_zero, Nat.zero_add, Nat.mul_comm, Nat.add_assoc]
  case hourToSecond =>
    obtain ⟨a, b, rfl⟩ := list_len2 hlen
    show 0 * D + digitsVal d * H + digitsVal a * M + digitsVal b * S + fracMicros f =
      size .hour * digitsVal d + (size .minute * digitsVal a + (size .second * digitsVal b + 0)) + fracMicros f
    simp only [hH, hM, hS, Nat.zero_mul, Nat.mul_zero, Nat.add_zero, Nat.zero_add, Nat.mul_comm, Nat.add_assoc]
  case dayToSecond =>
    obtain ⟨a, b, c, rfl⟩ := list_len3 hlen
    show digitsVal d * D + digitsVal a * H + digitsVal b * M + digitsVal c * S + fracMicros f =
      size .day * digitsVal d + (size .hour * digitsVal a + (size .minute * digitsVal b + (size .second * digitsVal c + 0))) + fracMicros f
    simp only [hD, hH, hM, hS, Nat.zero_mul, Nat.mul_zero, Nat.add_zero, Nat.zero_add, Nat.mul_comm, Nat.add_assoc]

/-- Every standard interval is the exact length that is written, with the product of all signs, and an
error exactly if the length does not fit. -/
theorem C93_standard {k : IKind} {minus : Bool} {d : Text} {ds : List Text} {f : Option Text} {s : Text}
    (h : StdText k minus d ds f s) (n : Nat) (neg : Bool) :
    standardInterval (negs n (.lit s)) k neg =
      if k.isMonths then
        if amount k d ds f < 2 ^ 31 then
          some (.months (sign (n + minuses neg + minuses minus) * amount k d ds f)) else none
      else
        if amount k d ds f < 2 ^ 63 then
          some (.micros (sign (n + minuses neg + minuses minus) * amount k d ds f)) else none := by
  have hcaps := intervalCaps_text h
  have hf : ∀ x, f = some x → Digits x := by
    intro x hx
    obtain ⟨_, _, _, fr, _, _, _, _, _, _, hft, _⟩ := h.parts
    subst hx
    cases hft
    assumption
  obtain ⟨_, _, t, fr, _, _, _, _, _, hw, hft, hnf⟩ := h.parts
  have hnone : k.hasFraction = false → f = none := by
    intro hk
    have : fr = [] := Decidable.byContradiction fun hne => by
      have := hnf hne
      revert hk
      simp only [List.mem_cons, List.not_mem_nil, or_false] at this
      rcases this with rfl | rfl | rfl | rfl <;> decide
    subst this
    cases hft
    rfl
  have hlen := fieldsText_length hw
  clear hw hft hnf h
  rw [standardInterval, signedText_negs]
  simp only
  cases hk : k.isMonths with
  | true =>
    have hnf : f = none := hnone (by cases k <;> first | rfl | cases hk)
    simp only [if_true]
    have hB : 2 ^ (32 - 1) = 2 ^ 31 := rfl
    rw [yearMonth_value hcaps rfl hB, amount_months hk hlen minus f, sign_value, hnf]
    rfl
  | false =>
    simp only [Bool.false_eq_true, if_false]
    have hB : 2 ^ (64 - 1) = 2 ^ 63 := rfl
    obtain ⟨L, hL⟩ : ∃ L : Nat, (2 ^ 63 - 1) * 1000 = L := ⟨_, rfl⟩
    have hBL : 2 ^ 63 ≤ L := by omega
    have hsum := amount_micros (d := d) hk hlen minus f (D := 86400000000) (H := 3600000000) (M := 60000000)
      (S := 1000000) rfl rfl rfl rfl
    rw [← fractionMicros_eq f hf] at hsum
    rw [dayTime_value (t := amount k d ds f) hcaps rfl hB hL hBL hsum.symm, sign_value]
    rfl

/-! ## Only such texts -/

theorem takeField_some {s r : Text} {n : Nat} (h : takeField s = some (n, r)) :
    ∃ d, s = d ++ r ∧ Digits d ∧ d ≠ [] := by
  rw [takeField] at h
  split at h
  · cases h
  · rename_i hne
    cases h
    exact ⟨_, (List.takeWhile_append_dropWhile).symm, fun c hc => takeWhile_all hc, hne⟩

theorem takeSep_some {sep : ISep} {s r : Text} (h : takeSep sep s = some r) :
    ∃ t, s = t ++ r ∧ SepText sep t := by
  cases sep with
  | dash =>
    cases s with
    | nil => cases h
    | cons c s' =>
      simp only [takeSep] at h
      split at h
      · rename_i hc
        cases h
        exact ⟨['-'], by rw [eq_of_beq hc]; rfl, rfl⟩
      · cases h
  | colon =>
    cases s with
    | nil => cases h
    | cons c s' =>
      simp only [takeSep] at h
      split at h
      · rename_i hc
        cases h
        exact ⟨[':'], by rw [eq_of_beq hc]; rfl, rfl⟩
      · cases h
  | space =>
    simp only [takeSep] at h
    split at h
    · cases h
    · rename_i hne
      cases h
      exact ⟨_, (List.takeWhile_append_dropWhile).symm, hne, fun c hc => takeWhile_all hc⟩

theorem takeFields_some {l : List (ISep × IField)} {s r : Text} {fs : List (IField × Nat)}
    (h : takeFields l s = some (fs, r)) : ∃ ds t, s = t ++ r ∧ FieldsText l ds t := by
  induction l generalizing s fs with
  | nil => cases h; exact ⟨[], [], rfl, .nil⟩
  | cons x l ih =>
    obtain ⟨sep, f⟩ := x
    simp only [takeFields] at h
    split at h
    · cases h
    · rename_i r1 h1
      split at h
      · cases h
      · rename_i n r2 h2
        split at h
        · cases h
        · rename_i fs' r3 h3
          cases h
          obtain ⟨t1, e1, g1⟩ := takeSep_some h1
          obtain ⟨d, e2, g2, g3⟩ := takeField_some h2
          obtain ⟨ds, u, e3, g4⟩ := ih h3
          exact ⟨d :: ds, t1 ++ d ++ u, by rw [e1, e2, e3]; simp only [List.append_assoc],
            .cons g1 g2 g3 g4⟩

theorem takeFraction_some {s r : Text} {f : Option Text} (h : takeFraction s = (f, r)) :
    ∃ fr, s = fr ++ r ∧ FracText f fr ∨ ∃ d, s = d ++ r ∧ Digits d ∧ d ≠ [] ∧ f = some d := by
  simp only [takeFraction] at h
  have hp : (∃ s', s = '.' :: s' ∧ dropPoint s = s') ∨ dropPoint s = s := by
    cases s with
    | nil => exact .inr rfl
    | cons c s' =>
      by_cases hc : c = '.'
      · subst hc; exact .inl ⟨s', rfl, rfl⟩
      · exact .inr (by simp [dropPoint, hc])
  rcases hp with ⟨s', rfl, hp⟩ | hp
  · rw [hp] at h
    split at h
    · cases h; exact ⟨['.'], .inl ⟨rfl, .point⟩⟩
    · rename_i hne
      cases h
      refine ⟨'.' :: s'.takeWhile Char.isDigit, .inl ⟨?_, .digits (fun c hc => takeWhile_all hc) hne⟩⟩
      rw [List.cons_append, List.takeWhile_append_dropWhile]
  · rw [hp] at h
    split at h
    · cases h; exact ⟨[], .inl ⟨rfl, .none⟩⟩
    · rename_i hne
      cases h
      exact ⟨[], .inr ⟨_, (List.takeWhile_append_dropWhile).symm, fun c hc => takeWhile_all hc, hne, rfl⟩⟩

theorem takeField_stop {s r : Text} {n : Nat} (h : takeField s = some (n, r)) :
    ∀ c, r.head? = some c → c.isDigit = false := by
  rw [takeField] at h
  split at h
  · cases h
  · cases h
    intro c hc
    exact dropWhile_head hc

theorem takeFields_stop {l : List (ISep × IField)} {s r : Text} {fs : List (IField × Nat)}
    (h : takeFields l s = some (fs, r)) (hs : ∀ c, s.head? = some c → c.isDigit = false) :
    ∀ c, r.head? = some c → c.isDigit = false := by
  induction l generalizing s fs with
  | nil => cases h; exact hs
  | cons x l ih =>
    obtain ⟨sep, f⟩ := x
    simp only [takeFields] at h
    split at h
    · cases h
    · split at h
      · cases h
      · rename_i n r2 h2
        split at h
        · cases h
        · rename_i fs' r3 h3
          cases h
          exact ih h3 (takeField_stop h2)

theorem intervalCaps_some {k : IKind} {s : Text} {c : ICaps} (h : intervalCaps k s = some c) :
    ∃ minus d ds f, StdText k minus d ds f s := by
  simp only [intervalCaps] at h
  split at h
  · cases h
  · rename_i n r h1
    split at h
    · cases h
    · rename_i fs r' h2
      by_cases hall : (if k.hasFraction then takeFraction r' else (none, r')).2.all isSp = true
      · clear h
        obtain ⟨d, e1, g1, g2⟩ := takeField_some h1
        obtain ⟨ds, t, e2, g3⟩ := takeFields_some h2
        have hstop := takeFields_stop h2 (takeField_stop h1)
        obtain ⟨minus, sg, e0, hsg⟩ : ∃ minus sg, s.dropWhile isSp = sg ++ (takeSign (s.dropWhile isSp)).2 ∧
            ((minus = false ∧ (sg = [] ∨ sg = ['+'])) ∨ (minus = true ∧ sg = ['-'])) := by
          cases s.dropWhile isSp with
          | nil => exact ⟨false, [], rfl, .inl ⟨rfl, .inl rfl⟩⟩
          | cons c s' =>
            simp only [takeSign]
            split
            · rename_i hc
              rcases Bool.or_eq_true _ _ ▸ hc with hc | hc
              · exact ⟨false, ['+'], by rw [eq_of_beq hc]; rfl, .inl ⟨rfl, .inr rfl⟩⟩
              · exact ⟨true, ['-'], by rw [eq_of_beq hc]; rfl, .inr ⟨rfl, rfl⟩⟩
            · exact ⟨false, [], rfl, .inl ⟨rfl, .inl rfl⟩⟩
        obtain ⟨f, fr, b2, e3, hb2, hfr, hnf⟩ : ∃ f fr b2, r' = fr ++ b2 ∧ Blanks b2 ∧ FracText f fr ∧
            (fr ≠ [] → k ∈ [.dayToSecond, .hourToSecond, .minuteToSecond, .second]) := by
          cases hk : k.hasFraction with
          | false =>
            rw [hk] at hall
            exact ⟨none, [], r', rfl, List.all_eq_true.mp hall, .none, fun h => absurd rfl h⟩
          | true =>
            rw [hk] at hall
            obtain ⟨fr, hh⟩ := takeFraction_some (s := r') (f := (takeFraction r').1) (r := (takeFraction r').2) rfl
            rcases hh with ⟨e, g⟩ | ⟨d', e, g1, g2, _⟩
            · exact ⟨_, fr, _, e, List.all_eq_true.mp hall, g, (fun _ => by revert hk; cases k <;> decide)⟩
            · exfalso
              obtain ⟨x, y, hxy⟩ := List.exists_cons_of_ne_nil g2
              have := hstop x (by rw [e, hxy]; rfl)
              rw [g1 x (by rw [hxy]; simp)] at this
              cases this
        refine ⟨minus, d, ds, f, ⟨s.takeWhile isSp, sg, t, fr, b2, ?_, fun c hc => takeWhile_all hc, hb2, hsg, g3,
          hfr, hnf⟩, g1, g2⟩
        have e4 : s = s.takeWhile isSp ++ s.dropWhile isSp := (List.takeWhile_append_dropWhile).symm
        rw [e0, e1, e2, e3] at e4
        simp only [List.append_assoc]
        exact e4
      · rw [if_neg hall] at h; cases h

theorem signedText_some {e : IExpr} {b : Bool} {s : Text} (h : signedText e = some (b, s)) :
    ∃ n, e = negs n (.lit s) := by
  induction e generalizing b with
  | neg e ih =>
    simp only [signedText] at h
    split at h
    · cases h
    · rename_i b' s' h1
      cases h
      obtain ⟨n, hn⟩ := ih h1
      exact ⟨n + 1, by rw [hn]; rfl⟩
  | lit t => cases h; exact ⟨0, rfl⟩
  | other => cases h

/-- Only texts of the form of the kind are standard intervals. -/
theorem C93_standard_only {e : IExpr} {k : IKind} {neg : Bool} {v : IValue}
    (h : standardInterval e k neg = some v) :
    ∃ n s minus d ds f, e = negs n (.lit s) ∧ StdText k minus d ds f s := by
  rw [standardInterval] at h
  split at h
  · cases h
  · rename_i b s h1
    obtain ⟨n, hn⟩ := signedText_some h1
    have hc : ∃ c, intervalCaps k s = some c := by
      cases hc : intervalCaps k s with
      | some c => exact ⟨c, rfl⟩
      | none =>
        simp only [yearMonthString, dayTimeString, hc] at h
        split at h <;> cases h
    obtain ⟨c, hc⟩ := hc
    obtain ⟨minus, d, ds, f, g⟩ := intervalCaps_some hc
    exact ⟨n, s, minus, d, ds, f, hn, g⟩

example : standardInterval (negs 1 (.lit " -1  2:03:4.5678901 ".toList)) .dayToSecond false =
    some (.micros 93784567890) := by decide +kernel

example : StdText .dayToSecond true ['1'] [['2'], ['0', '3'], ['4']] (some ['5', '6', '7', '8', '9', '0', '1'])
    " -1  2:03:4.5678901 ".toList where
  parts := by
    refine ⟨[' '], ['-'], "  2:03:4".toList, ".5678901".toList, [' '], by decide, ?_, ?_, .inr ⟨rfl, rfl⟩, ?_,
      .digits (f := "5678901".toList) ?_ (by decide), (fun _ => by decide)⟩
    · intro c hc; revert c; decide
    · intro c hc; revert c; decide
    · refine .cons (t := [' ', ' ']) ⟨by decide, ?_⟩ ?_ (by decide) (.cons (t := [':']) rfl ?_ (by decide)
        (.cons (t := [':']) rfl ?_ (by decide) .nil))
      all_goals (intro c hc; revert c; decide)
    · intro c hc; revert c; decide
  first := ⟨by intro c hc; revert c; decide, by decide⟩

end Verif.Sql
