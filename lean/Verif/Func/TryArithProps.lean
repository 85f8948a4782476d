import Verif.Func.TryArith

/-! C137: try_add, try_subtract, try_multiply and try_mod are exact or NULL. C138: div of intervals. -/

namespace Verif.Func.TryArith

/-- A signed integer of `w` bits. -/
def Spec.Int' (w : Nat) (x : Int) : Prop := -2 ^ (w - 1) ≤ x ∧ x < 2 ^ (w - 1)

theorem fits_iff {w : Nat} {x : Int} : fits w x = true ↔ Spec.Int' w x := by
  simp [fits, Spec.Int']

theorem checked_some {w : Nat} {x z : Int} : checked w x = some z ↔ z = x ∧ Spec.Int' w x := by
  unfold checked
  by_cases h : fits w x = true
  · rw [if_pos h]
    simp [fits_iff.1 h, eq_comm]
  · rw [if_neg h]
    constructor
    · intro hn; cases hn
    · rintro ⟨-, hx⟩; exact absurd (fits_iff.2 hx) h

/-! ### Columns -/

theorem tryOp_get {α β γ : Type} (op : α → β → Option γ) : ∀ (l : List (Option α)) (r : List (Option β)),
    l.length = r.length → ∀ i : Nat, (tryOp op l r)[i]? = (l[i]?).bind fun x : Option α =>
      (r[i]?).map fun y : Option β => x.bind fun a => y.bind fun b => op a b := by
  intro l
  induction l with
  | nil => intro r _ i; cases r <;> simp [tryOp]
  | cons x l ih =>
    intro r hr i
    cases r with
    | nil => simp at hr
    | cons y r =>
      have hr' : l.length = r.length := by simpa using hr
      cases i with
      | zero => cases x <;> cases y <;> simp [tryOp]
      | succ i => cases x <;> cases y <;> simpa [tryOp] using ih r hr' i

/-- The result has a row for every row. -/
theorem C137_rows {α β γ : Type} (op : α → β → Option γ) (l : List (Option α)) (r : List (Option β))
    (same : l.length = r.length) : (tryOp op l r).length = l.length := by
  induction l generalizing r with
  | nil => cases r <;> rfl
  | cons x l ih =>
    cases r with
    | nil => simp at same
    | cons y r =>
      have := ih r (by simpa using same)
      cases x <;> cases y <;> simpa [tryOp] using this

/-- NULL in either argument gives NULL. -/
theorem C137_null {α β γ : Type} (op : α → β → Option γ) {l : List (Option α)} {r : List (Option β)}
    (same : l.length = r.length) {i : Nat} (inside : i < l.length)
    (null : l[i]? = some none ∨ r[i]? = some none) : (tryOp op l r)[i]? = some none := by
  rw [tryOp_get op l r same]
  have hi' : i < r.length := by omega
  rcases null with h | h
  · rw [h, List.getElem?_eq_getElem hi']; rfl
  · rw [h, List.getElem?_eq_getElem inside]
    cases l[i] <;> rfl

theorem row {α β γ : Type} (op : α → β → Option γ) {l : List (Option α)} {r : List (Option β)}
    (same : l.length = r.length) {i : Nat} {a : α} {b : β} (ha : l[i]? = some (some a))
    (hb : r[i]? = some (some b)) : (tryOp op l r)[i]? = some (op a b) := by
  rw [tryOp_get op l r same, ha, hb]; rfl

/-- try_add: a row is the sum exactly if it is in the range of the type. -/
theorem C137_add (w : Nat) {l r : List (Option Int)} (same : l.length = r.length) {i : Nat} {a b : Int}
    (ha : l[i]? = some (some a)) (hb : r[i]? = some (some b)) (z : Int) :
    (tryOp (checkedAdd w) l r)[i]? = some (some z) ↔ z = a + b ∧ Spec.Int' w (a + b) := by
  rw [row _ same ha hb, Option.some.injEq]
  exact checked_some

/-- try_subtract: a row is the difference exactly if it is in the range of the type. -/
theorem C137_subtract (w : Nat) {l r : List (Option Int)} (same : l.length = r.length) {i : Nat} {a b : Int}
    (ha : l[i]? = some (some a)) (hb : r[i]? = some (some b)) (z : Int) :
    (tryOp (checkedSub w) l r)[i]? = some (some z) ↔ z = a - b ∧ Spec.Int' w (a - b) := by
  rw [row _ same ha hb, Option.some.injEq]
  exact checked_some

/-- try_multiply: a row is the product exactly if it is in the range of the type. -/
theorem C137_multiply (w : Nat) {l r : List (Option Int)} (same : l.length = r.length) {i : Nat} {a b : Int}
    (ha : l[i]? = some (some a)) (hb : r[i]? = some (some b)) (z : Int) :
    (tryOp (checkedMul w) l r)[i]? = some (some z) ↔ z = a * b ∧ Spec.Int' w (a * b) := by
  rw [row _ same ha hb, Option.some.injEq]
  exact checked_some

example : tryOp (checkedAdd 32) [some 2147483647, some 5, none] [some 1, some (-7), some 1]
    = [none, some (-2), none] := by decide
example : tryOp (checkedSub 64) [some (-9223372036854775808)] [some 1] = [none] := by decide
example : tryOp (checkedMul 32) [some 65536, some 65536] [some 32768, some (-32768)]
    = [none, some (-2147483648)] := by decide

/-! ### try_mod -/

/-- `z` is the remainder of `a` by `b`: the rest of a division that has the sign of `a` (or is zero). -/
def Spec.Rem (a b z : Int) : Prop :=
  (∃ q, a = q * b + z) ∧ z.natAbs < b.natAbs ∧ (0 ≤ a → 0 ≤ z) ∧ (a ≤ 0 → z ≤ 0)

theorem tmod_rem {a b : Int} (hb : b ≠ 0) : Spec.Rem a b (Int.tmod a b) := by
  refine ⟨⟨Int.tdiv a b, ?_⟩, ?_, ?_, ?_⟩
  · have := Int.tmod_add_mul_tdiv a b
    rw [Int.mul_comm (Int.tdiv a b) b]
    omega
  · rw [Int.natAbs_tmod]
    exact Nat.mod_lt _ (by omega)
  · intro h; exact Int.tmod_nonneg b h
  · intro h
    have h1 := Int.tmod_nonneg b (a := -a) (by omega)
    rw [Int.neg_tmod] at h1
    omega

theorem rem_unique {a b y z : Int} (hy : Spec.Rem a b y) (hz : Spec.Rem a b z) : y = z := by
  obtain ⟨⟨q, hq⟩, hy1, hy2, hy3⟩ := hy
  obtain ⟨⟨p, hp⟩, hz1, hz2, hz3⟩ := hz
  have hd : y - z = (p - q) * b := by
    rw [Int.sub_mul]; omega
  have hlt : (y - z).natAbs < b.natAbs := by
    rcases Int.le_total 0 a with h | h
    · have := hy2 h; have := hz2 h; omega
    · have := hy3 h; have := hz3 h; omega
  by_cases hpq : p - q = 0
  · rw [hpq, Int.zero_mul] at hd; omega
  · rw [hd, Int.natAbs_mul] at hlt
    have : 1 ≤ (p - q).natAbs := by omega
    have := Nat.mul_le_mul_right b.natAbs this
    omega

/-- try_mod by zero is NULL. -/
theorem C137_mod_zero (w : Nat) {l r : List (Option Int)} (same : l.length = r.length) {i : Nat} {a : Int}
    (ha : l[i]? = some (some a)) (hb : r[i]? = some (some 0)) :
    (tryOp (checkedRem w) l r)[i]? = some none := by
  rw [row _ same ha hb]; rfl

/-- try_mod: a row is the remainder, which always has the type of the arguments. Missing for the full
statement: the least number by -1, whose remainder 0 is not returned (`C137_mod_least`). -/
theorem C137_mod_partial (w : Nat) {l r : List (Option Int)} (same : l.length = r.length) {i : Nat} {a b : Int}
    (ha : l[i]? = some (some a)) (hb : r[i]? = some (some b)) (divisor : b ≠ 0)
    (not_least : ¬ (a = -2 ^ (w - 1) ∧ b = -1)) (z : Int) :
    (tryOp (checkedRem w) l r)[i]? = some (some z) ↔ Spec.Rem a b z := by
  rw [row _ same ha hb, Option.some.injEq]
  unfold checkedRem
  rw [if_neg divisor, if_neg not_least, Option.some.injEq]
  exact ⟨fun h => h ▸ tmod_rem divisor, fun h => rem_unique (tmod_rem divisor) h⟩

/-- The least number by -1 gives NULL, although the remainder is 0. -/
theorem C137_mod_least (w : Nat) :
    checkedRem w (-2 ^ (w - 1)) (-1) = none ∧ Spec.Rem (-2 ^ (w - 1)) (-1) 0 := by
  refine ⟨by simp [checkedRem], ⟨2 ^ (w - 1), by omega⟩, by decide, fun _ => Int.le_refl _, fun _ => Int.le_refl _⟩

example : tryOp (checkedRem 32) [some 7, some (-7), some 7, some 1, some (-2147483648)]
    [some 3, some 3, some (-3), some 0, some (-1)] = [some 1, some (-1), some 1, none, none] := by decide

/-- try_mod of decimals with unscaled values of `w` bits (the code has 128): if both values fit at the larger
scale, the result is the remainder at that scale. Missing for the full statement: values that do not fit,
for which the result is NULL (`C137_mod_decimal_null`). -/
theorem C137_mod_decimal_partial {w s₁ s₂ : Nat} {a b : Int}
    (powers : Spec.Int' w (10 ^ max s₁ s₂))
    (fa : Spec.Int' w (a * 10 ^ (max s₁ s₂ - s₁))) (fb : Spec.Int' w (b * 10 ^ (max s₁ s₂ - s₂)))
    (divisor : b ≠ 0)
    (not_least : ¬ (a * 10 ^ (max s₁ s₂ - s₁) = -2 ^ (w - 1) ∧ b * 10 ^ (max s₁ s₂ - s₂) = -1))
    (z : Int) :
    modDecimal w s₁ s₂ a b = some z
      ↔ Spec.Rem (a * 10 ^ (max s₁ s₂ - s₁)) (b * 10 ^ (max s₁ s₂ - s₂)) z := by
  have hp : ∀ n : Nat, n ≤ max s₁ s₂ → fits w (10 ^ n) = true := by
    intro n hn
    rw [fits_iff]
    have h1 : (10 : Int) ^ n ≤ 10 ^ max s₁ s₂ := by exact_mod_cast Nat.pow_le_pow_right (by decide) hn
    have h2 : (0 : Int) ≤ 10 ^ n := Int.pow_nonneg (by decide)
    have h3 : (0 : Int) ≤ 2 ^ (w - 1) := Int.pow_nonneg (by decide)
    exact ⟨by omega, Int.lt_of_le_of_lt h1 powers.2⟩
  unfold modDecimal rescaleUp
  rw [if_pos (hp _ (by omega)), if_pos (hp _ (by omega))]
  have h1 : checkedMul w a (10 ^ (max s₁ s₂ - s₁)) = some (a * 10 ^ (max s₁ s₂ - s₁)) :=
    checked_some.2 ⟨rfl, fa⟩
  have h2 : checkedMul w b (10 ^ (max s₁ s₂ - s₂)) = some (b * 10 ^ (max s₁ s₂ - s₂)) :=
    checked_some.2 ⟨rfl, fb⟩
  rw [h1, h2]
  have hne : b * 10 ^ (max s₁ s₂ - s₂) ≠ 0 :=
    Int.mul_ne_zero divisor (Int.pow_ne_zero (by decide))
  dsimp only
  unfold checkedRem
  rw [if_neg hne, if_neg not_least, Option.some.injEq]
  exact ⟨fun h => h ▸ tmod_rem hne, fun h => rem_unique (tmod_rem hne) h⟩

/-- The hypothesis on the powers of ten holds for every scale a decimal can have. -/
example : ∀ s : Fin 39, (10 : Int) ^ s.val < 2 ^ 127 := by decide

/-- If a value does not fit at the larger scale, the result is NULL, whatever the remainder. -/
theorem C137_mod_decimal_null {w s₁ s₂ : Nat} {a b : Int}
    (large : ¬ Spec.Int' w (a * 10 ^ (max s₁ s₂ - s₁)) ∨ ¬ Spec.Int' w (b * 10 ^ (max s₁ s₂ - s₂))) :
    modDecimal w s₁ s₂ a b = none := by
  have key : ∀ (n : Nat) (v : Int), ¬ Spec.Int' w (v * 10 ^ n) → rescaleUp w n v = none := by
    intro n v hv
    unfold rescaleUp
    by_cases h : fits w (10 ^ n) = true
    · rw [if_pos h]
      unfold checkedMul checked
      rw [if_neg (fun hf => hv (fits_iff.1 hf))]
    · rw [if_neg h]
  unfold modDecimal
  rcases large with h | h
  · rw [key _ _ h]
  · rw [key _ _ h]
    cases rescaleUp w (max s₁ s₂ - s₁) a <;> rfl

/-- 7.5 by 2.25 is 0.75; and 5 (scale 0) by 3e-38 (scale 38), whose remainder is 2e-38, is NULL. -/
example : modDecimal 128 1 2 75 225 = some 75 := by decide
example : modDecimal 128 0 38 5 3 = none ∧ Spec.Rem (5 * 10 ^ 38) 3 2 :=
  ⟨by decide, ⟨166666666666666666666666666666666666666, by decide⟩, by decide, by decide, by decide⟩

/-! ### Intervals -/

/-- The parts of an interval are in their ranges. -/
def Spec.IsInterval (a : Interval) : Prop :=
  Spec.Int' 32 a.months ∧ Spec.Int' 32 a.days ∧ Spec.Int' 64 a.nanos

theorem parts_some {m d n : Option Int} {z : Interval} :
    parts m d n = some z ↔ m = some z.months ∧ d = some z.days ∧ n = some z.nanos := by
  cases m <;> cases d <;> cases n <;> cases z <;> simp [parts]

/-- try_add of two intervals adds the parts, and is NULL exactly if a sum is out of range. -/
theorem C137_add_interval (a b z : Interval) :
    addInterval a b = some z
      ↔ z = ⟨a.months + b.months, a.days + b.days, a.nanos + b.nanos⟩ ∧ Spec.IsInterval z := by
  unfold addInterval checkedAdd
  rw [parts_some, checked_some, checked_some, checked_some]
  cases z
  simp only [Interval.mk.injEq, Spec.IsInterval]
  constructor
  · rintro ⟨⟨rfl, h1⟩, ⟨rfl, h2⟩, ⟨rfl, h3⟩⟩; exact ⟨⟨rfl, rfl, rfl⟩, h1, h2, h3⟩
  · rintro ⟨⟨rfl, rfl, rfl⟩, h1, h2, h3⟩; exact ⟨⟨rfl, h1⟩, ⟨rfl, h2⟩, ⟨rfl, h3⟩⟩

/-- try_subtract of two intervals subtracts the parts, and is NULL exactly if a difference is out of range.
Missing for the full statement: a subtrahend of which a part is the least number of its type
(`C137_subtract_least_month`). -/
theorem C137_subtract_interval_partial (a b z : Interval)
    (not_least : b.months ≠ -2 ^ 31 ∧ b.days ≠ -2 ^ 31 ∧ b.nanos ≠ -2 ^ 63) :
    subInterval a b = some z
      ↔ z = ⟨a.months - b.months, a.days - b.days, a.nanos - b.nanos⟩ ∧ Spec.IsInterval z := by
  unfold subInterval
  rw [C137_add_interval]
  have h : negInterval b = ⟨-b.months, -b.days, -b.nanos⟩ := by
    unfold negInterval wrapNeg
    rw [if_neg not_least.1, if_neg not_least.2.1, if_neg not_least.2.2]
  rw [h]
  simp only [Int.sub_eq_add_neg]

/-- Subtracting the least number of months: from any number that is not negative the result is not NULL and
has the wrong sign, and from any other the result is NULL although the difference is in range. -/
theorem C137_subtract_least_month {m : Int} (range : Spec.Int' 32 m) :
    (0 ≤ m → subInterval ⟨m, 0, 0⟩ ⟨-2 ^ 31, 0, 0⟩ = some ⟨m - 2 ^ 31, 0, 0⟩)
    ∧ (m < 0 → subInterval ⟨m, 0, 0⟩ ⟨-2 ^ 31, 0, 0⟩ = none ∧ Spec.Int' 32 (m - -2 ^ 31)) := by
  have hn : negInterval ⟨-2 ^ 31, 0, 0⟩ = ⟨-2 ^ 31, 0, 0⟩ := by decide
  unfold Spec.Int' at range ⊢
  constructor
  · intro h
    unfold subInterval
    rw [hn, C137_add_interval]
    refine ⟨by simp only [Interval.mk.injEq]; omega, ?_⟩
    simp only [Spec.IsInterval, Spec.Int']
    omega
  · intro h
    refine ⟨?_, by omega⟩
    cases hs : subInterval ⟨m, 0, 0⟩ ⟨-2 ^ 31, 0, 0⟩ with
    | none => rfl
    | some z =>
      unfold subInterval at hs
      rw [hn, C137_add_interval] at hs
      obtain ⟨rfl, h1, -, -⟩ := hs
      simp only [Spec.Int'] at h1
      omega

example : subInterval ⟨0, 0, 0⟩ ⟨-2147483648, 0, 0⟩ = some ⟨-2147483648, 0, 0⟩ := by decide
example : subInterval ⟨5, -3, 7⟩ ⟨2, 4, 9⟩ = some ⟨3, -7, -2⟩ := by decide

/-- try_multiply of an interval and a number multiplies the parts, and is NULL exactly if a product is out
of range. -/
theorem C137_multiply_interval (a z : Interval) (k : Int) :
    mulInterval a k = some z ↔ z = ⟨a.months * k, a.days * k, a.nanos * k⟩ ∧ Spec.IsInterval z := by
  have key : ∀ x y : Int, (checkedMul 64 x k).bind (checked 32) = some y ↔ y = x * k ∧ Spec.Int' 32 (x * k) := by
    intro x y
    rw [Option.bind_eq_some_iff]
    constructor
    · rintro ⟨v, hv, hy⟩
      obtain ⟨rfl, -⟩ := checked_some.1 hv
      exact checked_some.1 hy
    · rintro ⟨rfl, h⟩
      refine ⟨x * k, checked_some.2 ⟨rfl, ?_⟩, checked_some.2 ⟨rfl, h⟩⟩
      unfold Spec.Int' at h ⊢
      omega
  unfold mulInterval
  rw [parts_some, key, key, show (checkedMul 64 a.nanos k = some z.nanos) ↔ _ from checked_some]
  cases z
  simp only [Interval.mk.injEq, Spec.IsInterval]
  constructor
  · rintro ⟨⟨rfl, h1⟩, ⟨rfl, h2⟩, ⟨rfl, h3⟩⟩; exact ⟨⟨rfl, rfl, rfl⟩, h1, h2, h3⟩
  · rintro ⟨⟨rfl, rfl, rfl⟩, h1, h2, h3⟩; exact ⟨⟨rfl, h1⟩, ⟨rfl, h2⟩, ⟨rfl, h3⟩⟩

example : mulInterval ⟨3, -2, 5⟩ (-4) = some ⟨-12, 8, -20⟩
    ∧ mulInterval ⟨1073741824, 0, 0⟩ 2 = none := by decide

/-- try_multiply of a year-month interval. Missing for the full statement: factors out of the range of 32
bits, for which the result is NULL even if it would be 0 (`C137_multiply_months_large`). -/
theorem C137_multiply_months_partial (m k z : Int) (factor : Spec.Int' 32 k) :
    mulYearMonth m k = some z ↔ z = m * k ∧ Spec.Int' 32 (m * k) := by
  unfold mulYearMonth
  rw [checked_some.2 ⟨rfl, factor⟩]
  exact checked_some

/-- Zero months by a large number is NULL; and for other months NULL is right. -/
theorem C137_multiply_months_large (m k : Int) (large : ¬ Spec.Int' 32 k) :
    mulYearMonth m k = none ∧ (Spec.Int' 32 (m * k) → m = 0 ∨ m = -1 ∧ k = 2 ^ 31) := by
  refine ⟨?_, fun h => ?_⟩
  · unfold mulYearMonth checked
    rw [if_neg (fun hf => large (fits_iff.1 hf))]
    rfl
  · by_cases hm : m = 0
    · exact Or.inl hm
    · right
      unfold Spec.Int' at h large
      have hk : (2 : Int) ^ 31 ≤ k.natAbs := by omega
      have hab : ((m * k).natAbs : Int) ≤ 2 ^ 31 := by omega
      rw [Int.natAbs_mul] at hab
      have hab' : m.natAbs * k.natAbs ≤ 2 ^ 31 := by exact_mod_cast hab
      have hk' : 2 ^ 31 ≤ k.natAbs := by omega
      have h2 : m.natAbs * 2 ^ 31 ≤ 2 ^ 31 := Nat.le_trans (Nat.mul_le_mul_left _ hk') hab'
      have hm2 : m.natAbs = 1 := by omega
      rw [hm2, Nat.one_mul] at hab'
      rcases Int.natAbs_eq m with e | e <;> rw [hm2] at e <;> subst e <;> omega

example : mulYearMonth 0 2147483648 = none ∧ mulYearMonth 14 (-3) = some (-42) := by decide

/-! ### div -/

theorem wrap64_fits {x : Int} (h : Spec.Int' 64 x) : wrap64 x = x := by
  unfold Spec.Int' at h
  unfold wrap64
  omega

/-- `z` is the quotient of `d` by `s`, rounded towards zero. -/
def Spec.Quot (d s z : Int) : Prop := Spec.Rem d s (d - z * s)

theorem tdiv_quot {d s : Int} (hs : s ≠ 0) (z : Int) : z = Int.tdiv d s ↔ Spec.Quot d s z := by
  have hm : d - Int.tdiv d s * s = Int.tmod d s := by
    have := Int.tmod_add_mul_tdiv d s
    rw [Int.mul_comm (Int.tdiv d s) s]
    omega
  constructor
  · rintro rfl
    unfold Spec.Quot
    rw [hm]
    exact tmod_rem hs
  · intro h
    have := rem_unique h (tmod_rem hs)
    have e : z * s = Int.tdiv d s * s := by omega
    exact Int.eq_of_mul_eq_mul_right hs e

/-- div of year-month intervals is the quotient, and NULL if the divisor is zero; it never fails. -/
theorem C138_year_month {d s : Int} (hd : Spec.Int' 32 d) (_hs : Spec.Int' 32 s) :
    (s = 0 → divYearMonth d s = some none)
    ∧ (s ≠ 0 → ∃ z, divYearMonth d s = some (some z) ∧ Spec.Quot d s z) := by
  unfold divYearMonth divI64
  refine ⟨fun h => if_pos h, fun h => ?_⟩
  unfold Spec.Int' at hd
  rw [if_neg h, if_neg (by omega)]
  exact ⟨_, rfl, (tdiv_quot h _).1 rfl⟩

example : divYearMonth (-2147483648) (-1) = some (some 2147483648) ∧ divYearMonth (-13) 5 = some (some (-2))
    ∧ divYearMonth 4 0 = some none := by decide

/-- div of day-time intervals is the quotient of the milliseconds, and NULL if the divisor is zero; it
never fails. -/
theorem C138_day_time {d s : Int × Int} (hd : Spec.Int' 32 d.1 ∧ Spec.Int' 32 d.2)
    (hs : Spec.Int' 32 s.1 ∧ Spec.Int' 32 s.2) :
    (s.1 * 86400000 + s.2 = 0 → divDayTime d s = some none)
    ∧ (s.1 * 86400000 + s.2 ≠ 0 → ∃ z, divDayTime d s = some (some z)
        ∧ Spec.Quot (d.1 * 86400000 + d.2) (s.1 * 86400000 + s.2) z) := by
  have key : ∀ x : Int × Int, Spec.Int' 32 x.1 ∧ Spec.Int' 32 x.2 →
      wrap64 (wrap64 (x.1 * 86400000) + x.2) = x.1 * 86400000 + x.2 := by
    intro x hx
    unfold Spec.Int' at hx
    rw [wrap64_fits (x := x.1 * 86400000) (by unfold Spec.Int'; omega),
      wrap64_fits (by unfold Spec.Int'; omega)]
  unfold divDayTime
  rw [key d hd, key s hs]
  unfold divI64
  refine ⟨fun h => if_pos h, fun h => ?_⟩
  unfold Spec.Int' at hd
  rw [if_neg h, if_neg (by omega)]
  exact ⟨_, rfl, (tdiv_quot h _).1 rfl⟩

example : divDayTime (10, 5) (0, 3600000) = some (some 240) := by decide

/-- The nanoseconds of an interval, a month having 30 days. -/
def Spec.nanos (a : Interval) : Int := (a.months * 30 + a.days) * 86400000000000 + a.nanos

theorem nanosOf_mod (a : Interval) : nanosOf a = wrap64 (Spec.nanos a) := by
  unfold nanosOf wrap64 Spec.nanos
  omega

/-- div of calendar intervals is the quotient of the nanoseconds if they fit 64 bits. Missing for the full
statement: intervals of more than 292 years, for which the sums wrap around (`C138_calendar_wraps`), and
the least number by -1, which panics. -/
theorem C138_calendar_partial {d s : Interval} (hd : Spec.Int' 64 (Spec.nanos d))
    (hs : Spec.Int' 64 (Spec.nanos s)) (not_least : ¬ (Spec.nanos d = -2 ^ 63 ∧ Spec.nanos s = -1)) :
    (Spec.nanos s = 0 → divInterval d s = some none)
    ∧ (Spec.nanos s ≠ 0 → ∃ z, divInterval d s = some (some z) ∧ Spec.Quot (Spec.nanos d) (Spec.nanos s) z) := by
  unfold divInterval
  rw [nanosOf_mod, nanosOf_mod, wrap64_fits hd, wrap64_fits hs]
  unfold divI64
  refine ⟨fun h => if_pos h, fun h => ?_⟩
  rw [if_neg h, if_neg not_least]
  exact ⟨_, rfl, (tdiv_quot h _).1 rfl⟩

/-- From 3559 months up to 7116 months, the interval divided by one nanosecond has the wrong sign. -/
theorem C138_calendar_wraps {m : Int} (low : 3559 ≤ m) (high : m ≤ 7116) :
    ∃ z, divInterval ⟨m, 0, 0⟩ ⟨0, 0, 1⟩ = some (some z) ∧ z < 0 := by
  have h1 : nanosOf ⟨m, 0, 0⟩ = m * 2592000000000000 - 2 ^ 64 := by
    rw [nanosOf_mod]
    unfold Spec.nanos wrap64
    dsimp only
    omega
  have h2 : nanosOf ⟨0, 0, 1⟩ = 1 := by decide
  unfold divInterval
  rw [h1, h2]
  unfold divI64
  rw [if_neg (by decide), if_neg (by omega)]
  exact ⟨_, rfl, by rw [Int.tdiv_one]; omega⟩

example : divInterval ⟨3559, 0, 0⟩ ⟨1, 0, 0⟩ = some (some (-3557)) := by decide
example : divInterval ⟨2, 3, 0⟩ ⟨0, 7, 0⟩ = some (some 9) := by decide
example : divInterval ⟨0, 0, -9223372036854775808⟩ ⟨0, 0, -1⟩ = none := by decide

end Verif.Func.TryArith
