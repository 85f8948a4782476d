import Verif.Merge.StoreAssign
import Mathlib.Algebra.Order.Field.Rat
import Mathlib.Algebra.Order.Field.Power
import Mathlib.Tactic.Positivity
import Mathlib.Tactic.Linarith
import Mathlib.Tactic.NormNum
import Mathlib.Tactic.Ring
import Mathlib.Tactic.FieldSimp

/-! C139: what MERGE may store. C140: the order of the clauses. -/

namespace Verif.Merge.Store

/-! ### NULLs and shapes -/

/-- A value: NULL, a value without parts (of which only the presence matters here), a list, a map, a
struct. -/
inductive Spec.Val where
  | null
  | leaf
  | list (vs : List Spec.Val)
  | map (entries : List (Spec.Val × Spec.Val))
  | struct (vs : List Spec.Val)

open Spec (Val)

mutual
/-- A value of a type; the flag says whether it may be NULL. -/
inductive Spec.Holds : Bool → Ty → Val → Prop where
  | null (t : Ty) : Spec.Holds true t .null
  | leaf (n : Bool) (l : Leaf) : l ≠ .null → Spec.Holds n (.leaf l) .leaf
  | dict (n : Bool) (t : Ty) (v : Val) : Spec.Holds n t v → Spec.Holds n (.dict t) v
  | list (n : Bool) (k : Nat) (en : Bool) (e : Ty) (vs : List Val) :
      (∀ v ∈ vs, Spec.Holds en e v) → Spec.Holds n (.list k en e) (.list vs)
  | map (n : Bool) (kt vt : Ty) (vn : Bool) (es : List (Val × Val)) :
      (∀ p ∈ es, Spec.Holds false kt p.1) → (∀ p ∈ es, Spec.Holds vn vt p.2) →
      Spec.Holds n (.map kt vt vn) (.map es)
  | struct (n : Bool) (fs : Fields) (vs : List Val) :
      Spec.HoldsFields fs vs → Spec.Holds n (.struct fs) (.struct vs)
/-- The values of the fields of a struct. -/
inductive Spec.HoldsFields : Fields → List Val → Prop where
  | nil : Spec.HoldsFields .nil []
  | cons (name : String) (n : Bool) (t : Ty) (fs : Fields) (v : Val) (vs : List Val) :
      Spec.Holds n t v → Spec.HoldsFields fs vs → Spec.HoldsFields (.cons name n t fs) (v :: vs)
end

open Spec (Holds HoldsFields)

theorem holds_unDict {n : Bool} {v : Val} : ∀ (t : Ty), Holds n (unDict t) v → Holds n t v
  | .dict t, h => .dict n t v (holds_unDict t (by simpa [unDict] using h))
  | .leaf _, h => by simpa [unDict] using h
  | .list _ _ _, h => by simpa [unDict] using h
  | .map _ _ _, h => by simpa [unDict] using h
  | .struct _, h => by simpa [unDict] using h
  | .union _, h => by simpa [unDict] using h

theorem nullability_le {a b : Bool} (h : nullability a b = true) : a = true → b = true := by
  cases a <;> cases b <;> simp_all [nullability]

theorem leafRule_null {policy : Policy} {w t : Leaf} (hw : w ≠ .null) (h : leafRule policy w t = true) :
    t ≠ .null := by
  rintro rfl
  cases policy
  · cases w <;> simp_all [leafRule, ansi, isNumeric, isString, isDatetime, isDate, isTimestamp]
  · cases h
  · cases w <;> simp_all [leafRule, strict, widerThan, tighterThan, decimalParts, integralPrecision,
      precedence, rank, unsignedPrecedence, isString, isTimestamp, isTimestampLtz, intervalFamily]
    all_goals try (rename_i w; cases w <;> simp_all)

mutual
theorem compatible_holds (policy : Policy) (cs : Bool) : ∀ (w t : Ty),
    compatible policy cs w t = true → ∀ (n n' : Bool) (v : Val), (n = true → n' = true) →
    Holds n w v → Holds n' t v
  | .dict w, t, h, n, n', v, hn, hv => by
    rw [compatible] at h
    cases hv with
    | null _ => rw [hn rfl]; exact .null t
    | dict _ _ _ hv => exact compatible_holds policy cs w t h n n' v hn hv
  | .leaf w, t, h, n, n', v, hn, hv => by
    rw [compatible] at h
    cases hv with
    | null _ => rw [hn rfl]; exact .null t
    | leaf _ _ hw =>
      apply holds_unDict
      generalize unDict t = u at h
      cases u with
      | leaf l => exact .leaf n' l (leafRule_null hw h)
      | _ => cases h
  | .list _ wn w, t, h, n, n', v, hn, hv => by
    rw [compatible] at h
    cases hv with
    | null _ => rw [hn rfl]; exact .null t
    | list _ _ _ _ vs hvs =>
      apply holds_unDict
      generalize unDict t = u at h
      cases u with
      | list k tn e =>
        simp only [Bool.and_eq_true] at h
        exact .list n' k tn e vs fun v hv =>
          compatible_holds policy cs w e h.2 wn tn v (nullability_le h.1) (hvs v hv)
      | _ => cases h
  | .map wk wv wn, t, h, n, n', v, hn, hv => by
    rw [compatible] at h
    cases hv with
    | null _ => rw [hn rfl]; exact .null t
    | map _ _ _ _ es hk hvs =>
      apply holds_unDict
      generalize unDict t = u at h
      cases u with
      | map tk tv tn =>
        simp only [Bool.and_eq_true] at h
        exact .map n' tk tv tn es
          (fun p hp => compatible_holds policy cs wk tk h.2.1 false false p.1 id (hk p hp))
          (fun p hp => compatible_holds policy cs wv tv h.2.2 wn tn p.2 (nullability_le h.1) (hvs p hp))
      | _ => cases h
  | .struct ws, t, h, n, n', v, hn, hv => by
    rw [compatible] at h
    cases hv with
    | null _ => rw [hn rfl]; exact .null t
    | struct _ _ vs hvs =>
      apply holds_unDict
      generalize unDict t = u at h
      cases u with
      | struct ts => exact .struct n' ts vs (compatible_holdsFields policy cs ws ts h vs hvs)
      | _ => cases h
  | .union _, _, h, _, _, _, _, _ => by rw [compatible] at h; cases h
theorem compatible_holdsFields (policy : Policy) (cs : Bool) : ∀ (ws ts : Fields),
    compatibleFields policy cs ws ts = true → ∀ vs : List Val, HoldsFields ws vs → HoldsFields ts vs
  | .nil, .nil, _, vs, hvs => by cases hvs; exact .nil
  | .nil, .cons _ _ _ _, h, _, _ => by simp [compatibleFields] at h
  | .cons _ _ _ _, .nil, h, _, _ => by simp [compatibleFields] at h
  | .cons wname wn w ws, .cons tname tn t ts, h, vs, hvs => by
    rw [compatibleFields] at h
    simp only [Bool.and_eq_true] at h
    cases hvs with
    | cons _ _ _ _ v vs hv hvs =>
      exact .cons tname tn t ts v vs
        (compatible_holds policy cs w t h.2.2.1 wn tn v (nullability_le h.2.1) hv)
        (compatible_holdsFields policy cs ws ts h.2.2.2 vs hvs)
end

/-- If MERGE accepts the assignment, every value of the source type has a place in the target type: lists,
maps and structs arrive at lists, maps and structs of as many fields, and no NULL arrives where the target
type forbids it. -/
theorem C139_no_forbidden_null {policy : Policy} {cs : Bool} {write target : Ty}
    (accepted : compatible policy cs write target = true) {nullable : Bool} {v : Val}
    (value : Holds nullable write v) : Holds nullable target v :=
  compatible_holds policy cs write target accepted nullable nullable v id value

/-- An array of a struct, and the same with a wider number. -/
def Spec.arrayOf (en : Bool) (a : Bool) (w : Width) : Ty :=
  .list 0 en (.struct (.cons "a" a (.leaf (.sint w)) (.cons "b" true (.leaf (.string 0)) .nil)))

example : compatible .strict false (Spec.arrayOf false false .w32) (Spec.arrayOf true false .w64) = true
    ∧ compatible .ansi false (Spec.arrayOf true false .w32) (Spec.arrayOf false false .w64) = false
    ∧ compatible .ansi false (Spec.arrayOf false true .w32) (Spec.arrayOf true false .w64) = false
    ∧ compatible .strict false (Spec.arrayOf false false .w64) (Spec.arrayOf true false .w32) = false := by
  decide

/-- The names of the fields of a struct. -/
def Spec.names : Fields → List String
  | .nil => []
  | .cons name _ _ rest => name :: Spec.names rest

/-- Structs have the same field names in the same order, exactly if names are case-sensitive. -/
theorem C139_names {policy : Policy} : ∀ {ws ts : Fields},
    compatible policy true (.struct ws) (.struct ts) = true → Spec.names ws = Spec.names ts := by
  intro ws ts h
  rw [compatible] at h
  simp only [unDict] at h
  revert ts
  induction ws using Fields.rec (motive_1 := fun _ => True) with
  | nil => intro ts h; cases ts <;> simp_all [compatibleFields, Spec.names]
  | cons name n t rest _ ih =>
    intro ts h
    cases ts with
    | nil => simp [compatibleFields] at h
    | cons name' n' t' rest' =>
      rw [compatibleFields] at h
      simp only [Bool.and_eq_true] at h
      have h1 : name = name' := by simpa [namesMatch] using h.1
      rw [Spec.names, Spec.names, h1, ih h.2.2.2]
  | _ => trivial

/-- Otherwise they agree up to the case of ASCII letters. -/
theorem C139_names_insensitive {policy : Policy} : ∀ {ws ts : Fields},
    compatible policy false (.struct ws) (.struct ts) = true →
    (Spec.names ws).map (fun s : String => s.toList.map Char.toLower)
      = (Spec.names ts).map (fun s : String => s.toList.map Char.toLower) := by
  intro ws ts h
  rw [compatible] at h
  simp only [unDict] at h
  revert ts
  induction ws using Fields.rec (motive_1 := fun _ => True) with
  | nil => intro ts h; cases ts <;> simp_all [compatibleFields, Spec.names]
  | cons name n t rest _ ih =>
    intro ts h
    cases ts with
    | nil => simp [compatibleFields] at h
    | cons name' n' t' rest' =>
      rw [compatibleFields] at h
      simp only [Bool.and_eq_true] at h
      have h1 : name.toList.map Char.toLower = name'.toList.map Char.toLower := by
        simpa [namesMatch] using h.1
      rw [Spec.names, Spec.names, List.map_cons, List.map_cons, h1, ih h.2.2.2]
  | _ => trivial

example : compatible .ansi true (.struct (.cons "A" true (.leaf (.other 0)) .nil))
      (.struct (.cons "a" true (.leaf (.other 0)) .nil)) = false
    ∧ compatible .ansi false (.struct (.cons "A" true (.leaf (.other 0)) .nil))
      (.struct (.cons "a" true (.leaf (.other 0)) .nil)) = true := by decide

mutual
/-- The type has no union inside. -/
def Spec.plain : Ty → Bool
  | .leaf _ => true
  | .list _ _ e => Spec.plain e
  | .map k v _ => Spec.plain k && Spec.plain v
  | .struct fs => Spec.plainFields fs
  | .union _ => false
  | .dict t => Spec.plain t
def Spec.plainFields : Fields → Bool
  | .nil => true
  | .cons _ _ t rest => Spec.plain t && Spec.plainFields rest
end

theorem leafRule_refl {policy : Policy} (hp : policy ≠ .legacy) (l : Leaf) : leafRule policy l l = true := by
  cases policy
  · simp [leafRule, ansi]
  · exact absurd rfl hp
  · simp [leafRule, strict]

theorem nullability_refl (b : Bool) : nullability b b = true := by cases b <;> rfl

theorem namesMatch_refl (cs : Bool) (s : String) : namesMatch cs s s = true := by
  cases cs <;> simp [namesMatch]

theorem compatible_dict (policy : Policy) (cs : Bool) : ∀ (w t : Ty),
    compatible policy cs w (.dict t) = compatible policy cs w t
  | .dict w, t => by rw [compatible, compatible, compatible_dict policy cs w t]
  | .leaf _, t => by rw [compatible, compatible, unDict]
  | .list _ _ _, t => by rw [compatible, compatible, unDict]
  | .map _ _ _, t => by rw [compatible, compatible, unDict]
  | .struct _, t => by rw [compatible, compatible, unDict]
  | .union _, t => by rw [compatible, compatible]

mutual
theorem compatible_refl {policy : Policy} (hp : policy ≠ .legacy) (cs : Bool) : ∀ t : Ty,
    Spec.plain t = true → compatible policy cs t t = true
  | .dict t, h => by
    rw [compatible, compatible_dict]
    exact compatible_refl hp cs t (by simpa [Spec.plain] using h)
  | .leaf l, _ => by rw [compatible]; exact leafRule_refl hp l
  | .list _ n e, h => by
    rw [compatible]
    simp only [unDict, Bool.and_eq_true]
    exact ⟨nullability_refl n, compatible_refl hp cs e (by simpa [Spec.plain] using h)⟩
  | .map k v n, h => by
    rw [compatible]
    simp only [unDict, Bool.and_eq_true]
    simp only [Spec.plain, Bool.and_eq_true] at h
    exact ⟨nullability_refl n, compatible_refl hp cs k h.1, compatible_refl hp cs v h.2⟩
  | .struct fs, h => by
    rw [compatible]
    simp only [unDict]
    exact compatibleFields_refl hp cs fs (by simpa [Spec.plain] using h)
  | .union _, h => by simp [Spec.plain] at h
theorem compatibleFields_refl {policy : Policy} (hp : policy ≠ .legacy) (cs : Bool) : ∀ fs : Fields,
    Spec.plainFields fs = true → compatibleFields policy cs fs fs = true
  | .nil, _ => by rw [compatibleFields]
  | .cons name n t rest, h => by
    rw [compatibleFields]
    simp only [Spec.plainFields, Bool.and_eq_true] at h
    simp only [Bool.and_eq_true]
    exact ⟨namesMatch_refl cs name, nullability_refl n, compatible_refl hp cs t h.1,
      compatibleFields_refl hp cs rest h.2⟩
end

/-- A value of the type of the column is accepted (unless there is a union inside, which no table has). -/
theorem C139_same_type {policy : Policy} (supported : policy ≠ .legacy) (cs : Bool) {t : Ty}
    (no_union : Spec.plain t = true) : compatible policy cs t t = true :=
  compatible_refl supported cs t no_union

/-- Dictionaries do not matter on either side. -/
theorem C139_dictionary (policy : Policy) (cs : Bool) (w t : Ty) :
    compatible policy cs (.dict w) t = compatible policy cs w t
    ∧ compatible policy cs w (.dict t) = compatible policy cs w t :=
  ⟨by rw [compatible], compatible_dict policy cs w t⟩

example : Spec.plain (.map (.leaf (.string 0)) (Spec.arrayOf true true .w8) true) = true := by decide

/-! ### Numbers -/

/-- The numbers of the integer and decimal types. -/
def Spec.IsNumber : Leaf → ℚ → Prop
  | .sint w, q => ∃ z : ℤ, q = z ∧ -2 ^ (bits w - 1) ≤ z ∧ z < 2 ^ (bits w - 1)
  | .uint w, q => ∃ z : ℤ, q = z ∧ 0 ≤ z ∧ z < 2 ^ bits w
  | .decimal _ p s, q => ∃ m : ℤ, q = m * (10 : ℚ) ^ (-s) ∧ -10 ^ p < m ∧ m < 10 ^ p
  | _, _ => False

/-- The integer and decimal types. -/
def Spec.exact : Leaf → Bool
  | .sint _ | .uint _ | .decimal _ _ _ => true
  | _ => false

theorem dec_dec {wp tp : Nat} {ws ts : ℤ} (h1 : (wp : ℤ) - ws ≤ tp - ts) (h2 : ws ≤ ts) {a b : Nat} {q : ℚ}
    (h : Spec.IsNumber (.decimal a wp ws) q) : Spec.IsNumber (.decimal b tp ts) q := by
  obtain ⟨m, rfl, hlo, hhi⟩ := h
  obtain ⟨d, hd⟩ := Int.eq_ofNat_of_zero_le (show 0 ≤ ts - ws by omega)
  have hpos : (0 : ℤ) < 10 ^ d := by positivity
  have hle : (10 : ℤ) ^ (wp + d) ≤ 10 ^ tp := by
    exact_mod_cast Nat.pow_le_pow_right (by decide) (show wp + d ≤ tp by omega)
  rw [pow_add] at hle
  refine ⟨m * 10 ^ d, ?_, ?_, ?_⟩
  · have e : -ws = (d : ℤ) + -ts := by omega
    rw [e, zpow_add₀ (by norm_num : (10 : ℚ) ≠ 0), zpow_natCast]
    push_cast
    ring
  · nlinarith
  · nlinarith

theorem int_dec {w : Width} {q : ℚ} (h : Spec.IsNumber (.sint w) q ∨ Spec.IsNumber (.uint w) q) :
    Spec.IsNumber (.decimal 0 (digits w) 0) q := by
  have key : ∃ z : ℤ, q = z ∧ -10 ^ digits w < z ∧ z < 10 ^ digits w := by
    rcases h with ⟨z, hz, h1, h2⟩ | ⟨z, hz, h1, h2⟩ <;>
      cases w <;> exact ⟨z, hz, by simp only [bits, digits] at *; omega⟩
  obtain ⟨z, hz, h1, h2⟩ := key
  exact ⟨z, by simpa using hz, h1, h2⟩

/-- STRICT loses nothing between integer and decimal types: every number of the source type is one of the
target type. Missing for the full statement: decimals of 19 digits to bigint, and decimals to unsigned
integers (`C139_strict_decimal_bigint`, `C139_strict_decimal_unsigned`). -/
theorem C139_strict_numbers_partial {w t : Leaf} (accepted : strict w t = true)
    (numbers : Spec.exact w = true ∧ Spec.exact t = true)
    (not_unsigned : ∀ k p s u, ¬ (w = .decimal k p s ∧ t = .uint u))
    (not_bigint : ∀ k s, ¬ (w = .decimal k 19 s ∧ t = .sint .w64)) {q : ℚ}
    (value : Spec.IsNumber w q) : Spec.IsNumber t q := by
  cases w <;> simp only [Spec.exact, Bool.false_eq_true, false_and] at numbers <;>
    cases t <;> simp only [Spec.exact, Bool.false_eq_true, and_false] at numbers
  case sint.sint a b =>
    obtain ⟨z, hz, h1, h2⟩ := value
    refine ⟨z, hz, ?_⟩
    cases a <;> cases b <;> first
      | (simp only [bits] at *; omega)
      | exact absurd accepted (by decide)
  case sint.uint a b => cases a <;> cases b <;> exact absurd accepted (by decide)
  case uint.sint a b =>
    obtain ⟨z, hz, h1, h2⟩ := value
    refine ⟨z, hz, ?_⟩
    cases a <;> cases b <;> first
      | (simp only [bits] at *; omega)
      | exact absurd accepted (by decide)
  case uint.uint a b =>
    obtain ⟨z, hz, h1, h2⟩ := value
    refine ⟨z, hz, ?_⟩
    cases a <;> cases b <;> first
      | (simp only [bits] at *; omega)
      | exact absurd accepted (by decide)
  case sint.decimal a k p s =>
    have h : widerThan (.decimal k p s) (.sint a) = true := by
      simpa [strict, tighterThan, decimalParts, precedence, rank, unsignedPrecedence, isDate, isTimestamp,
        isString, isInterval, isTimestampLtz, intervalFamily] using accepted
    simp only [widerThan, decimalParts, integralPrecision, Option.none_or, Option.map_some,
      Bool.and_eq_true, decide_eq_true_eq] at h
    exact dec_dec (by omega) (by omega) (int_dec (Or.inl value))
  case uint.decimal a k p s =>
    have h : widerThan (.decimal k p s) (.uint a) = true := by
      simpa [strict, tighterThan, decimalParts, precedence, rank, unsignedPrecedence, isDate, isTimestamp,
        isString, isInterval, isTimestampLtz, intervalFamily] using accepted
    simp only [widerThan, decimalParts, integralPrecision, Option.none_or, Option.map_some,
      Bool.and_eq_true, decide_eq_true_eq] at h
    exact dec_dec (by omega) (by omega) (int_dec (Or.inr value))
  case decimal.uint k p s u => exact absurd ⟨rfl, rfl⟩ (not_unsigned k p s u)
  case decimal.sint k p s b =>
    have h : tighterThan (.decimal k p s) (.sint b) = true := by
      simpa [strict, widerThan, decimalParts, precedence, rank, unsignedPrecedence, isDate, isTimestamp,
        isString, isInterval, isTimestampLtz, intervalFamily] using accepted
    simp only [tighterThan, decimalParts, integralPrecision, Bool.and_eq_true, decide_eq_true_eq] at h
    obtain ⟨hp, rfl⟩ := h
    obtain ⟨m, hm, h1, h2⟩ := value
    refine ⟨m, by simpa using hm, ?_⟩
    have hb : p ≤ digits b - 1 ∧ (b = .w64 → p ≤ 18) := by
      refine ⟨by omega, fun e => ?_⟩
      have : p ≠ 19 := by
        rintro rfl
        exact not_bigint k 0 ⟨rfl, by rw [e]⟩
      subst e
      simp only [digits] at hp
      omega
    have hpow : ∀ n, p ≤ n → (10 : ℤ) ^ p ≤ 10 ^ n := fun n hn => by
      exact_mod_cast Nat.pow_le_pow_right (by decide) hn
    cases b <;> simp only [digits, bits] at hb ⊢
    · have := hpow 2 (by omega); omega
    · have := hpow 4 (by omega); omega
    · have := hpow 9 (by omega); omega
    · have := hpow 18 (by simpa using hb.2); omega
  case decimal.decimal k p s k' p' s' =>
    have h : (p : ℤ) - s ≤ p' - s' ∧ s ≤ s' := by
      by_cases e : (Leaf.decimal k p s) = .decimal k' p' s'
      · cases e; omega
      · simp [strict, e, widerThan, tighterThan, decimalParts, precedence, rank, unsignedPrecedence, isDate,
          isTimestamp, isString, isInterval, isTimestampLtz, intervalFamily] at accepted
        omega
    exact dec_dec h.1 h.2 value

example : strict (.decimal 128 5 2) (.decimal 128 7 3) = true ∧ strict (.decimal 128 5 2) (.decimal 128 5 3) = false
    ∧ strict (.decimal 128 18 0) (.sint .w64) = true ∧ strict (.uint .w32) (.sint .w64) = true
    ∧ strict (.sint .w64) (.decimal 128 20 0) = true ∧ strict (.sint .w64) (.decimal 128 19 0) = false
    ∧ strict (.sint .w64) (.sint .w32) = false := by decide

/-- STRICT accepts a decimal of 19 digits for a bigint, which cannot hold all of them. -/
theorem C139_strict_decimal_bigint (k : Nat) :
    strict (.decimal k 19 0) (.sint .w64) = true
    ∧ Spec.IsNumber (.decimal k 19 0) 9999999999999999999 ∧ ¬ Spec.IsNumber (.sint .w64) 9999999999999999999 := by
  refine ⟨by simp [strict, tighterThan, decimalParts, integralPrecision, digits], ?_, ?_⟩
  · exact ⟨9999999999999999999, by norm_num, by norm_num, by norm_num⟩
  · rintro ⟨z, hz, h1, h2⟩
    have : z = 9999999999999999999 := by exact_mod_cast hz.symm
    subst this
    simp only [bits] at h2
    omega

/-- STRICT accepts a decimal for an unsigned integer, which has no negative numbers. -/
theorem C139_strict_decimal_unsigned (k : Nat) (w : Width) :
    strict (.decimal k 1 0) (.uint w) = true
    ∧ Spec.IsNumber (.decimal k 1 0) (-1) ∧ ¬ Spec.IsNumber (.uint w) (-1) := by
  refine ⟨by cases w <;> simp [strict, tighterThan, decimalParts, integralPrecision, digits], ?_, ?_⟩
  · exact ⟨-1, by norm_num, by norm_num, by norm_num⟩
  · rintro ⟨z, hz, h1, h2⟩
    have : z = -1 := by exact_mod_cast hz.symm
    omega

/-- What STRICT accepts ANSI accepts, except between timestamps with time zone and bigint, and between
intervals of days and calendar intervals. -/
theorem C139_strict_within_ansi {w t : Leaf} (accepted : strict w t = true) :
    ansi w t = true
    ∨ (∃ z, w = .timestamp 2 (some z)) ∧ t = .sint .w64
    ∨ w = .sint .w64 ∧ (∃ z, t = .timestamp 2 (some z))
    ∨ w = .interval .dayTime ∧ t = .interval .monthDayNano
    ∨ w = .interval .monthDayNano ∧ t = .interval .dayTime := by
  have ltz : ∀ l : Leaf, isTimestampLtz l = true → ∃ z, l = .timestamp 2 (some z) := by
    intro l h
    unfold isTimestampLtz at h
    split at h
    · exact ⟨_, rfl⟩
    · cases h
  unfold strict at accepted
  simp only [Bool.or_eq_true, Bool.and_eq_true, decide_eq_true_eq] at accepted
  unfold ansi
  simp only [Bool.or_eq_true, Bool.and_eq_true, decide_eq_true_eq]
  rcases accepted with ((((((((((h | h) | h) | h) | h) | h) | h) | h) | h) | h) | h) | h
  · simp [h]
  · simp [h]
  · left; left; left; left; right
    cases t <;> simp [widerThan, decimalParts] at h
    cases w <;> simp [integralPrecision] at h <;> simp [isNumeric]
  · left; left; left; left; right
    cases w <;> simp [tighterThan, decimalParts] at h
    cases t <;> simp [integralPrecision] at h <;> simp [isNumeric]
  · left; left; left; left; right
    cases w <;> cases t <;> simp_all [precedence, rank, unsignedPrecedence, isNumeric]
    all_goals (rename_i a b; cases a <;> simp_all)
  · left; right; simp [isDatetime, h]
  · left; right; simp [isDatetime, h]
  · simp [h]
  · simp [h]
  · exact Or.inr (Or.inl ⟨ltz w h.1, h.2⟩)
  · exact Or.inr (Or.inr (Or.inl ⟨h.1, ltz t h.2⟩))
  · cases w with
    | interval a =>
      cases t with
      | interval b => cases a <;> cases b <;> simp_all [intervalFamily]
      | _ => cases a <;> simp [intervalFamily] at h
    | _ => simp [intervalFamily] at h

/-- The exceptions are real. -/
theorem C139_strict_not_ansi (z : Nat) :
    (strict (.timestamp 2 (some z)) (.sint .w64) = true ∧ ansi (.timestamp 2 (some z)) (.sint .w64) = false)
    ∧ (strict (.interval .dayTime) (.interval .monthDayNano) = true
      ∧ ansi (.interval .dayTime) (.interval .monthDayNano) = false) := by
  refine ⟨⟨?_, ?_⟩, by decide⟩
  · simp [strict, isTimestampLtz]
  · simp [ansi, isNumeric, isAtomic, isString, isInterval, isDatetime, isDate, isTimestamp]

/-- ANSI accepts no string for another type, and no number for a date or a timestamp or the other way
round. -/
theorem C139_ansi_refuses {w t : Leaf} (accepted : ansi w t = true) :
    (isString w = true → isString t = true)
    ∧ (isNumeric w = true → isNumeric t = true ∨ isString t = true)
    ∧ (isDatetime w = true → isDatetime t = true ∨ isString t = true) := by
  cases w <;> cases t <;>
    simp_all [ansi, isNumeric, isAtomic, isString, isInterval, isDatetime, isDate, isTimestamp]

example : ansi (.string 0) (.sint .w32) = false ∧ ansi (.sint .w64) (.sint .w8) = true
    ∧ ansi (.date 0) (.timestamp 2 none) = true ∧ ansi (.sint .w32) (.date 0) = false := by decide

/-- A column of a type that is no number, string, date, timestamp or interval takes only its own type and
NULL, under both policies. -/
theorem C139_other_types {w : Leaf} {n : Nat} (accepted : ansi w (.other n) = true ∨ strict w (.other n) = true) :
    w = .other n ∨ w = .null := by
  rcases accepted with h | h <;> cases w <;>
    simp_all [ansi, strict, isNumeric, isAtomic, isString, isInterval, isDatetime, isDate, isTimestamp,
      isTimestampLtz, widerThan, tighterThan, decimalParts, integralPrecision, precedence, rank, unsignedPrecedence]
  all_goals
    unfold intervalFamily at h
    split at h <;> simp_all

example : ansi .null (.other 3) = true ∧ strict (.other 3) (.other 3) = true ∧ ansi (.string 0) (.other 3) = false := by
  decide

/-- STRICT stores no floating point number in a decimal or integer column and no decimal in a floating
point column. -/
theorem C139_strict_float {l : Leaf} {f : Flt} :
    (strict (.float f) l = true → Spec.exact l = false)
    ∧ (∀ k p s, strict (.decimal k p s) (.float f) = false) := by
  refine ⟨fun h => ?_, fun k p s => ?_⟩
  · cases l with
    | sint w => cases f <;> cases w <;> revert h <;> decide
    | uint w => cases f <;> cases w <;> revert h <;> decide
    | decimal k p s =>
      cases f <;> simp [strict, isDate, isTimestamp, isString, isTimestampLtz, widerThan, tighterThan, decimalParts,
        integralPrecision, precedence, rank, unsignedPrecedence, intervalFamily, isInterval] at h
    | _ => rfl
  · cases f <;> simp [strict, isDate, isTimestamp, isString, isTimestampLtz, widerThan, tighterThan, decimalParts,
      integralPrecision, precedence, rank, unsignedPrecedence, intervalFamily, isInterval]

example : strict (.float .f32) (.float .f64) = true ∧ Spec.exact (.float .f64) = false
    ∧ ansi (.float .f32) (.decimal 0 5 2) = true := by decide

/-! ### Clause order -/

/-- Whether the last clause of the kind was unconditional. -/
def flagOf (f : Flags) : Kind → Bool
  | .matched => f.matched
  | .notMatchedBySource => f.bySource
  | .notMatchedByTarget => f.byTarget

theorem clauseOrder_iff : ∀ (cs : List Clause) (f : Flags), clauseOrder f cs = true ↔
    (∀ c ∈ cs, flagOf f c.kind = false) ∧
    cs.Pairwise (fun c d : Clause => c.kind = d.kind → c.condition = true)
  | [], f => by simp [clauseOrder]
  | ⟨k, b⟩ :: cs, f => by
    have ih := clauseOrder_iff cs
    cases k <;> cases f with
    | mk x y z =>
      cases x <;> cases y <;> cases z <;>
        simp [clauseOrder, ih, flagOf, List.pairwise_cons]
      all_goals
        constructor
        · rintro ⟨h, hp⟩
          refine ⟨fun c hc => ?_, fun c hc hk => ?_, hp⟩
          · have := h c hc
            cases hck : c.kind <;> simp_all
          · have := h c hc
            rw [← hk] at this
            simpa using this
        · rintro ⟨h1, h2, h3⟩
          refine ⟨fun c hc => ?_, h3⟩
          have := h1 c hc
          have := h2 c hc
          cases hck : c.kind <;> simp_all

/-- The clauses are accepted exactly if no clause follows an unconditional clause of the same kind. -/
theorem C140_clause_order (clauses : List Clause) :
    clauseOrder {} clauses = true
      ↔ ∀ i j (hi : i < clauses.length) (hj : j < clauses.length), i < j →
          clauses[i].kind = clauses[j].kind → clauses[i].condition = true := by
  rw [clauseOrder_iff, List.pairwise_iff_getElem]
  constructor
  · rintro ⟨-, h⟩ i j hi hj hij
    exact h i j hi hj hij
  · intro h
    refine ⟨fun c _ => by cases c.kind <;> rfl, fun i j hi hj hij => h i j hi hj hij⟩

/-- The first clause of a kind that applies to a row, given which conditions are true. -/
def Spec.fires (k : Kind) (truth : Nat → Bool) (clauses : List Clause) (i : Nat) : Prop :=
  ∃ h : i < clauses.length, clauses[i].kind = k ∧ (clauses[i].condition = true → truth i = true)
    ∧ ∀ j (hj : j < i), clauses[j].kind = k → clauses[j].condition = true ∧ truth j = false

/-- So each clause of an accepted list can be the one that applies. -/
theorem C140_every_clause_can_fire {clauses : List Clause} (accepted : clauseOrder {} clauses = true) {i : Nat}
    (inside : i < clauses.length) : ∃ truth, Spec.fires clauses[i].kind truth clauses i := by
  refine ⟨fun j => decide (j = i), inside, rfl, by simp, fun j hj hk => ?_⟩
  have := (C140_clause_order clauses).1 accepted j i (by omega) inside hj hk
  exact ⟨this, by simp; omega⟩

/-- And in a list that is refused there is a clause that never applies. -/
theorem C140_refused_has_dead_clause {clauses : List Clause} (refused : clauseOrder {} clauses = false) :
    ∃ i, ∃ h : i < clauses.length, ∀ truth, ¬ Spec.fires clauses[i].kind truth clauses i := by
  have : ¬ ∀ i j (hi : i < clauses.length) (hj : j < clauses.length), i < j →
      clauses[i].kind = clauses[j].kind → clauses[i].condition = true := by
    rw [← C140_clause_order, refused]
    decide
  simp only [Classical.not_forall] at this
  obtain ⟨i, j, hi, hj, hij, hk, hc⟩ := this
  exact ⟨j, hj, fun truth ⟨_, _, _, h⟩ => hc (h i hij hk).1⟩

example : clauseOrder {} [⟨.matched, true⟩, ⟨.notMatchedByTarget, false⟩, ⟨.matched, false⟩,
      ⟨.notMatchedBySource, false⟩] = true
    ∧ clauseOrder {} [⟨.matched, false⟩, ⟨.notMatchedByTarget, true⟩, ⟨.matched, true⟩] = false := by decide

end Verif.Merge.Store
