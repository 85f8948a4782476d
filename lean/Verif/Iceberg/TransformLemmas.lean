import Verif.Iceberg.Transform

/-!
# Facts about partition transforms

The transforms of the specification are functions and preserve the order, and the code
agrees with them on the values `Spec.Sane` describes.
-/

namespace Verif.Iceberg

open Verif.Calendar

namespace Spec

/-- Combinations of transform and type the specification allows, other than `void`. -/
def Allowed : Transform → Scalar → Prop
  | .identity, s => litOf s ≠ none
  | .bucket n, s => 0 < n ∧ match s with
    | .int32 _ => True | .int64 _ => True | .date32 _ => True | .time _ => True
    | .tsUs _ => True | .tsNs _ => True | .dec _ _ => True | .utf8 _ => True
    | .uuid _ => True | .fixed _ => True | .binary _ => True | _ => False
  | .truncate w, s => 0 < w ∧ match s with
    | .int32 _ => True | .int64 _ => True | .dec _ _ => True | .utf8 _ => True
    | .binary _ => True | _ => False
  | .hour, s => match s with
    | .tsUs _ => True | .tsNs _ => True | _ => False
  | .void, _ => False
  | .unknown, _ => False
  | _, s => match s with
    | .date32 _ => True | .tsUs _ => True | .tsNs _ => True | _ => False

/-- Comparison of two SQL values of one type; `none` if one is NULL or the types differ. -/
def cmp : Scalar → Scalar → Option Ordering
  | .bool a, .bool b => some (cmpBool a b)
  | .int8 a, .int8 b => some (cmpInt a b)
  | .int16 a, .int16 b => some (cmpInt a b)
  | .int32 a, .int32 b => some (cmpInt a b)
  | .int64 a, .int64 b => some (cmpInt a b)
  | .f32 a, .f32 b => some (cmpInt a b)
  | .f64 a, .f64 b => some (cmpInt a b)
  | .utf8 a, .utf8 b => some (cmpList a b)
  | .binary a, .binary b => some (cmpList a b)
  | .date32 a, .date32 b => some (cmpInt a b)
  | .time a, .time b => some (cmpInt a b)
  | .tsS a, .tsS b => some (cmpInt a b)
  | .tsMs a, .tsMs b => some (cmpInt a b)
  | .tsUs a, .tsUs b => some (cmpInt a b)
  | .tsNs a, .tsNs b => some (cmpInt a b)
  | .dec a s, .dec b s' => if s = s' then some (cmpInt a b) else none
  | .uuid a, .uuid b => some (cmpInt a b)
  | .fixed a, .fixed b => some (cmpList a b)
  | _, _ => none

end Spec

open Spec

theorem cmpInt_eq {a b : Int} : cmpInt a b = .eq ↔ a = b := by
  unfold cmpInt; split
  · simp; omega
  · split <;> simp <;> omega

theorem cmpInt_le {a b : Int} : cmpInt a b ≠ .gt ↔ a ≤ b := by
  unfold cmpInt; split
  · simp; omega
  · split <;> simp <;> omega

theorem cmpInt_lt {a b : Int} : cmpInt a b = .lt ↔ a < b := by
  unfold cmpInt; split
  · simp; omega
  · split <;> simp <;> omega

theorem cmpInt_gt {a b : Int} : cmpInt a b = .gt ↔ b < a := by
  unfold cmpInt; split
  · simp; omega
  · split <;> simp <;> omega

theorem cmpList_eq : ∀ {a b : List Nat}, cmpList a b = .eq ↔ a = b
  | [], [] => by simp [cmpList]
  | [], _ :: _ => by simp [cmpList]
  | _ :: _, [] => by simp [cmpList]
  | a :: as, b :: bs => by
    have ih := @cmpList_eq as bs
    simp only [cmpList]
    split
    · simp; omega
    · split
      · simp; omega
      · have : a = b := by omega
        simp [this, ih]

theorem cmpList_swap : ∀ {a b : List Nat}, cmpList a b = .gt ↔ cmpList b a = .lt
  | [], [] => by simp [cmpList]
  | [], _ :: _ => by simp [cmpList]
  | _ :: _, [] => by simp [cmpList]
  | a :: as, b :: bs => by
    have ih := @cmpList_swap as bs
    simp only [cmpList]
    by_cases h1 : a < b
    · have : ¬ b < a := by omega
      simp [h1, this]
    · by_cases h2 : b < a
      · simp [h1, h2]
      · simp [h1, h2, ih]

theorem cmpList_trans : ∀ {a b c : List Nat},
    cmpList a b ≠ .gt → cmpList b c ≠ .gt → cmpList a c ≠ .gt
  | [], _, [] => by simp [cmpList]
  | [], _, _ :: _ => by simp [cmpList]
  | _ :: _, [], _ => by simp [cmpList]
  | _ :: _, _ :: _, [] => by simp [cmpList]
  | a :: as, b :: bs, c :: cs => by
    have ih := @cmpList_trans as bs cs
    simp only [cmpList]
    intro h1 h2
    split at h1
    · split at h2
      · rw [if_pos (by omega)]; simp
      · split at h2
        · simp at h2
        · rw [if_pos (by omega)]; simp
    · split at h1
      · simp at h1
      · split at h2
        · rw [if_pos (by omega)]; simp
        · split at h2
          · simp at h2
          · rw [if_neg (by omega), if_neg (by omega)]; exact ih h1 h2

theorem cmpList_take : ∀ (w : Nat) {a b : List Nat},
    cmpList a b ≠ .gt → cmpList (a.take w) (b.take w) ≠ .gt
  | 0, _, _ => by simp [cmpList]
  | _ + 1, [], [] => by simp [cmpList]
  | _ + 1, [], _ :: _ => by simp [cmpList]
  | _ + 1, _ :: _, [] => by simp [cmpList]
  | w + 1, a :: as, b :: bs => by
    have ih := @cmpList_take w as bs
    simp only [cmpList, List.take_succ_cons]
    split
    · simp
    · split
      · simp
      · exact ih

theorem cmpBool_eq {a b : Bool} : cmpBool a b = .eq ↔ a = b := by
  cases a <;> cases b <;> simp [cmpBool]

theorem cmpBool_trans {a b c : Bool} :
    cmpBool a b ≠ .gt → cmpBool b c ≠ .gt → cmpBool a c ≠ .gt := by
  cases a <;> cases b <;> cases c <;> simp [cmpBool]

theorem Lit.cmp_tag {a b : Lit} (h : a.tag ≠ b.tag) : a.cmp b = cmpInt a.tag b.tag := by
  cases a <;> cases b <;> first | rfl | exact absurd rfl h

theorem Lit.cmp_le_tag {a b : Lit} (h : a.cmp b ≠ .gt) : a.tag ≤ b.tag := by
  by_cases e : a.tag = b.tag
  · omega
  · rw [Lit.cmp_tag e, cmpInt_le] at h; exact h

theorem Lit.cmp_trans {a b c : Lit} (h1 : a.cmp b ≠ .gt) (h2 : b.cmp c ≠ .gt) :
    a.cmp c ≠ .gt := by
  have t1 := Lit.cmp_le_tag h1
  have t2 := Lit.cmp_le_tag h2
  by_cases e : a.tag = c.tag
  · have e1 : a.tag = b.tag := by omega
    cases a <;> cases c <;> (first | (simp [Lit.tag] at e; done) | skip) <;> cases b <;>
      (first | (simp [Lit.tag] at e1; done) | skip) <;> simp only [Lit.cmp] at *
    · exact cmpBool_trans h1 h2
    all_goals first
      | exact cmpList_trans h1 h2
      | (rw [cmpInt_le] at *; omega)
  · rw [Lit.cmp_tag e, cmpInt_le]; omega

theorem Lit.cmp_eq {a b : Lit} : a.cmp b = .eq ↔ a = b := by
  by_cases e : a.tag = b.tag
  · cases a <;> cases b <;> (first | (simp [Lit.tag] at e; done) | skip) <;>
      simp only [Lit.cmp, Lit.bool.injEq, Lit.int.injEq, Lit.long.injEq, Lit.float.injEq,
        Lit.double.injEq, Lit.i128.injEq, Lit.str.injEq, Lit.u128.injEq, Lit.bin.injEq]
    · exact cmpBool_eq
    all_goals first
      | exact cmpList_eq
      | (rw [cmpInt_eq]; try omega)
  · rw [Lit.cmp_tag e, cmpInt_eq]
    exact ⟨fun h => absurd h e, fun h => absurd (congrArg _ h) e⟩

theorem Lit.cmp_swap {a b : Lit} : a.cmp b = .gt ↔ b.cmp a = .lt := by
  by_cases e : a.tag = b.tag
  · cases a <;> cases b <;> (first | (simp [Lit.tag] at e; done) | skip) <;>
      simp only [Lit.cmp]
    · rename_i x y; cases x <;> cases y <;> simp [cmpBool]
    all_goals first
      | exact cmpList_swap
      | rw [cmpInt_lt, cmpInt_gt]
  · rw [Lit.cmp_tag e, Lit.cmp_tag (Ne.symm e), cmpInt_lt, cmpInt_gt]

theorem allowed_of_isPart {h : List Nat → Int} {tr : Transform} {a : Scalar} {p : Option Lit}
    (hp : IsPart h tr a p) (hn : a ≠ .null) (hv : tr ≠ .void) : Allowed tr a := by
  cases tr
  case void => exact absurd rfl hv
  case identity =>
    have : p ≠ none ∧ p = litOf a := by cases a <;> first | exact absurd rfl hn | exact hp
    exact fun e => this.1 (this.2.trans e)
  case bucket n =>
    cases a <;> first
      | exact absurd rfl hn
      | exact ⟨hp.1, trivial⟩
      | (obtain ⟨_, _, hb, _⟩ := hp; exact hb.elim)
  case truncate n =>
    cases a <;> first
      | exact absurd rfl hn
      | exact ⟨hp.1, trivial⟩
      | exact hp.elim
  all_goals cases a <;> first
      | exact absurd rfl hn
      | exact trivial
      | exact hp.elim

theorem allowed_cmp {tr : Transform} {a b : Scalar} {o : Ordering} (hc : Spec.cmp a b = some o)
    (ha : Allowed tr a) : Allowed tr b := by
  cases a <;> cases b <;> first
    | (simp [Spec.cmp] at hc; done)
    | (cases tr <;> first | exact ha | simp [Allowed, litOf] at ha ⊢)

/-! ### The transforms of the specification are functions -/

theorem isFloor_unique {w v p q : Int} (hw : 0 < w) (hp : IsFloor w v p) (hq : IsFloor w v q) :
    p = q := by
  obtain ⟨⟨k, rfl⟩, h1, h2⟩ := hp
  obtain ⟨⟨j, rfl⟩, h3, h4⟩ := hq
  have e1 : k < j + 1 := by
    refine Classical.byContradiction fun hk => ?_
    have : (j + 1) * w ≤ k * w := Int.mul_le_mul_of_nonneg_right (by omega) (by omega)
    rw [Int.add_mul] at this; omega
  have e2 : j < k + 1 := by
    refine Classical.byContradiction fun hk => ?_
    have : (k + 1) * w ≤ j * w := Int.mul_le_mul_of_nonneg_right (by omega) (by omega)
    rw [Int.add_mul] at this; omega
  have : k = j := by omega
  rw [this]

theorem isFloor_mono {w v v' p q : Int} (hw : 0 < w) (hp : IsFloor w v p) (hq : IsFloor w v' q)
    (h : v ≤ v') : p ≤ q := by
  obtain ⟨⟨k, rfl⟩, h1, h2⟩ := hp
  obtain ⟨⟨j, rfl⟩, h3, h4⟩ := hq
  have e1 : k < j + 1 := by
    refine Classical.byContradiction fun hk => ?_
    have : (j + 1) * w ≤ k * w := Int.mul_le_mul_of_nonneg_right (by omega) (by omega)
    rw [Int.add_mul] at this; omega
  exact Int.mul_le_mul_of_nonneg_right (by omega) (by omega)

theorem isYear_mono {u v v' y y' : Int} (hu : 0 < u) (hp : IsYear u v y) (hq : IsYear u v' y')
    (h : v ≤ v') : y ≤ y' := by
  refine Classical.byContradiction fun hy => ?_
  have h1 : jan1 (1970 + y' + 1) ≤ jan1 (1970 + y) := jan1_mono (by omega)
  have h2 : jan1 (1970 + y' + 1) * u ≤ jan1 (1970 + y) * u :=
    Int.mul_le_mul_of_nonneg_right h1 (by omega)
  have h3 := hp.1
  have h4 := hq.2
  omega

theorem isMonth_mono {u v v' y y' : Int} (hu : 0 < u) (hp : IsMonth u v y)
    (hq : IsMonth u v' y') (h : v ≤ v') : y ≤ y' := by
  refine Classical.byContradiction fun hy => ?_
  have h1 : monthFirst (y' + 1) ≤ monthFirst y := monthFirst_mono (by omega)
  have h2 : monthFirst (y' + 1) * u ≤ monthFirst y * u :=
    Int.mul_le_mul_of_nonneg_right h1 (by omega)
  have h3 := hp.1
  have h4 := hq.2
  omega

theorem isSpan_mono {u v v' y y' : Int} (hu : 0 < u) (hp : IsSpan u v y)
    (hq : IsSpan u v' y') (h : v ≤ v') : y ≤ y' := by
  refine Classical.byContradiction fun hy => ?_
  have h2 : (y' + 1) * u ≤ y * u :=
    Int.mul_le_mul_of_nonneg_right (by omega) (by omega)
  have h3 := hp.1
  have h4 := hq.2
  omega

/-- Order-preserving transforms: a smaller value has no larger partition value. -/
theorem isPart_mono {h : List Nat → Int} {tr : Transform} {a b : Scalar} {p q : Lit}
    {o : Ordering} (ht : tr.preservesOrder = true) (hp : IsPart h tr a (some p))
    (hq : IsPart h tr b (some q)) (hc : Spec.cmp a b = some o) (ho : o ≠ .gt) :
    p.cmp q ≠ .gt := by
  cases tr
  case void => simp [Transform.preservesOrder] at ht
  case bucket => simp [Transform.preservesOrder] at ht
  case unknown => simp [Transform.preservesOrder] at ht
  case identity =>
    cases a <;> cases b <;> first
      | (simp [Spec.cmp] at hc; done)
      | (simp only [Spec.cmp, Option.some.injEq] at hc
         simp only [IsPart, litOf, Option.some.injEq] at hp hq
         obtain ⟨_, rfl⟩ := hp
         obtain ⟨_, rfl⟩ := hq
         subst hc
         exact ho)
      | (simp [IsPart, litOf] at hp; done)
      | (simp only [Spec.cmp] at hc
         split at hc
         · simp only [Option.some.injEq] at hc
           simp only [IsPart, litOf, Option.some.injEq] at hp hq
           obtain ⟨_, rfl⟩ := hp
           obtain ⟨_, rfl⟩ := hq
           subst hc
           exact ho
         · simp at hc)
  case truncate w =>
    cases a <;> cases b <;> first
      | (simp [Spec.cmp] at hc; done)
      | exact hp.elim
      | (simp only [IsPart, Option.some.injEq] at hp hq
         obtain ⟨_, rfl⟩ := hp
         obtain ⟨_, rfl⟩ := hq
         simp only [Spec.cmp, Option.some.injEq] at hc
         subst hc
         exact cmpList_take w ho)
      | (simp only [IsPart, Option.some.injEq] at hp hq
         obtain ⟨hw, x, hx, rfl⟩ := hp
         obtain ⟨_, y, hy, rfl⟩ := hq
         simp only [Spec.cmp, Option.some.injEq] at hc
         subst hc
         simp only [Lit.cmp]
         rw [cmpInt_le] at ho ⊢
         exact isFloor_mono (by omega) hx hy ho)
      | (simp only [IsPart, Option.some.injEq] at hp hq
         obtain ⟨hw, x, hx, rfl⟩ := hp
         obtain ⟨_, y, hy, rfl⟩ := hq
         simp only [Spec.cmp] at hc
         split at hc
         · simp only [Option.some.injEq] at hc
           subst hc
           simp only [Lit.cmp]
           rw [cmpInt_le] at ho ⊢
           exact isFloor_mono (by omega) hx hy ho
         · simp at hc)
  all_goals
    cases a <;> cases b <;> first
      | (simp [Spec.cmp] at hc; done)
      | exact hp.elim
      | (simp only [IsPart, Option.some.injEq] at hp hq
         subst hp; subst hq
         simp only [Spec.cmp, Option.some.injEq] at hc
         subst hc
         exact ho)
      | (simp only [IsPart, Option.some.injEq] at hp hq
         obtain ⟨x, hx, rfl⟩ := hp
         obtain ⟨y, hy, rfl⟩ := hq
         simp only [Spec.cmp, Option.some.injEq] at hc
         subst hc
         simp only [Lit.cmp]
         rw [cmpInt_le] at ho ⊢
         first
           | exact isYear_mono (by omega) hx hy ho
           | exact isMonth_mono (by omega) hx hy ho
           | exact isSpan_mono (by omega) hx hy ho)

theorem isMinimalBE_unique {v : Int} {b c : List Nat} (hb : IsMinimalBE v b)
    (hc : IsMinimalBE v c) : b = c := by
  obtain ⟨n, hn, rfl, h1, h2, h3⟩ := hb
  obtain ⟨m, hm, rfl, g1, g2, g3⟩ := hc
  have key : ∀ n m : Nat, 0 < n → -(2 : Int) ^ (8 * n - 1) ≤ v → v < (2 : Int) ^ (8 * n - 1) →
      (m = 1 ∨ ¬ (-(2 : Int) ^ (8 * m - 9) ≤ v ∧ v < (2 : Int) ^ (8 * m - 9))) → m ≤ n := by
    intro n m hn h1 h2 g
    refine Classical.byContradiction fun hlt => ?_
    rcases g with g | g
    · omega
    · refine g ?_
      have : (2 : Int) ^ (8 * n - 1) ≤ (2 : Int) ^ (8 * m - 9) := by
        have := Nat.pow_le_pow_right (n := 2) (by omega) (by omega : 8 * n - 1 ≤ 8 * m - 9)
        exact_mod_cast this
      omega
  have e : n = m := Nat.le_antisymm (key m n hm g1 g2 h3) (key n m hn h1 h2 g3)
  rw [e]

theorem hashInput_unique {s : Scalar} {b c : List Nat} (hb : HashInput s b)
    (hc : HashInput s c) : b = c := by
  cases s <;> first
    | exact hb.elim
    | exact hb.trans hc.symm
    | exact isMinimalBE_unique hb hc

/-- The specification gives at most one partition value. -/
theorem isPart_unique {h : List Nat → Int} {tr : Transform} {a : Scalar} {p q : Option Lit}
    (hp : IsPart h tr a p) (hq : IsPart h tr a q) : p = q := by
  cases tr
  case void => cases a <;> exact hp.trans hq.symm
  case identity => cases a <;> first | exact hp.trans hq.symm | exact hp.2.trans hq.2.symm
  case unknown => cases a <;> first | exact hp.trans hq.symm | exact hp.elim
  case bucket n =>
    cases a <;> first
      | exact hp.trans hq.symm
      | (obtain ⟨_, b, hb, rfl⟩ := hp
         obtain ⟨_, c, hc, rfl⟩ := hq
         rw [hashInput_unique hb hc])
  case truncate w =>
    cases a <;> first
      | exact hp.trans hq.symm
      | exact hp.elim
      | exact hp.2.trans hq.2.symm
      | (obtain ⟨hw, x, hx, rfl⟩ := hp
         obtain ⟨_, y, hy, rfl⟩ := hq
         rw [isFloor_unique (by omega) hx hy])
  all_goals
    cases a <;> first
      | exact hp.trans hq.symm
      | exact hp.elim
      | (obtain ⟨x, hx, rfl⟩ := hp
         obtain ⟨y, hy, rfl⟩ := hq
         have e : x = y := by
           first
             | exact Int.le_antisymm (isYear_mono (by omega) hx hy (Int.le_refl _))
                 (isYear_mono (by omega) hy hx (Int.le_refl _))
             | exact Int.le_antisymm (isMonth_mono (by omega) hx hy (Int.le_refl _))
                 (isMonth_mono (by omega) hy hx (Int.le_refl _))
             | exact Int.le_antisymm (isSpan_mono (by omega) hx hy (Int.le_refl _))
                 (isSpan_mono (by omega) hy hx (Int.le_refl _))
         rw [e])

/-! ### The code follows the specification -/

theorem wrap32_id {x : Int} (h1 : -2147483648 ≤ x) (h2 : x ≤ 2147483647) : wrap32 x = x := by
  unfold wrap32; omega

theorem wrap64_id {x : Int} (h1 : -9223372036854775808 ≤ x) (h2 : x ≤ 9223372036854775807) :
    wrap64 x = x := by
  unfold wrap64; omega

theorem isFloor_emod (w v : Int) (hw : 0 < w) : IsFloor w v (v - v % w) := by
  have h := Int.mul_ediv_add_emod v w
  have h1 := Int.emod_nonneg v (by omega : w ≠ 0)
  have h2 := Int.emod_lt_of_pos v hw
  refine ⟨⟨v / w, ?_⟩, by omega, by omega⟩
  rw [Int.mul_comm] at h; omega

theorem bucketN_eq {n : Nat} {x : Int} (h0 : 0 < n) (h1 : n ≤ 2147483647) :
    bucketN x n = some (.int (x % 2147483648 % n)) := by
  have e : wrap32 n = n := wrap32_id (by omega) (by omega)
  unfold bucketN
  rw [e, if_neg (by omega), Int.tmod_eq_emod_of_nonneg (Int.emod_nonneg _ (by omega))]

theorem chronoMax_eq : chronoMax = 95026236 := by decide

theorem chronoMin_eq : chronoMin = -96465292 := by decide

theorem addDays_eq {d : Int} (h : 0 ≤ d ∧ d ≤ 95026236) : addDays d = some d := by
  have := chronoMax_eq
  unfold addDays
  rw [if_pos (by omega)]

theorem chrono_bounds {d : Int} (h1 : -69444446 ≤ d) (h2 : d ≤ 69444446) :
    chronoMin ≤ d ∧ d ≤ chronoMax := by
  have e1 := chronoMin_eq
  have e2 := chronoMax_eq
  omega

theorem fromMicros_eq {m : Int} (h1 : -6000000000000000000 ≤ m) (h2 : m ≤ 6000000000000000000) :
    fromMicros m = some (m / 86400000000) := by
  unfold fromMicros
  rw [if_pos (chrono_bounds (by omega) (by omega))]

theorem microsToYear_eq {m : Int} (h1 : -6000000000000000000 ≤ m)
    (h2 : m ≤ 6000000000000000000) : microsToYear m = yearOf (m / 86400000000) - 1970 := by
  unfold microsToYear; rw [fromMicros_eq h1 h2]

theorem microsToMonths_eq {m : Int} (h1 : -6000000000000000000 ≤ m)
    (h2 : m ≤ 6000000000000000000) : microsToMonths m = monthOf (m / 86400000000) := by
  unfold microsToMonths; rw [fromMicros_eq h1 h2]
  simp only [monthOf]
  split <;> omega

theorem isYear_of (d : Int) : IsYear 1 d (yearOf d - 1970) := by
  have := yearOf_spec d
  unfold IsYear
  have e : 1970 + (yearOf d - 1970) = yearOf d := by omega
  rw [e]; omega

theorem isYear_us (v : Int) : IsYear 86400000000 v (yearOf (v / 86400000000) - 1970) := by
  have := isYear_of (v / 86400000000)
  unfold IsYear at *
  omega

theorem isYear_ns (v : Int) :
    IsYear 86400000000000 v (yearOf (v / 1000 / 86400000000) - 1970) := by
  have := isYear_of (v / 1000 / 86400000000)
  unfold IsYear at *
  omega

theorem isMonth_of (d : Int) : IsMonth 1 d (monthOf d) := by
  have := monthOf_spec d
  unfold IsMonth
  omega

theorem isMonth_us (v : Int) : IsMonth 86400000000 v (monthOf (v / 86400000000)) := by
  have := isMonth_of (v / 86400000000)
  unfold IsMonth at *
  omega

theorem isMonth_ns (v : Int) :
    IsMonth 86400000000000 v (monthOf (v / 1000 / 86400000000)) := by
  have := isMonth_of (v / 1000 / 86400000000)
  unfold IsMonth at *
  omega

theorem toI32_id {x : Int} (h1 : -2147483648 ≤ x) (h2 : x ≤ 2147483647) : toI32 x = x := by
  unfold toI32; rw [if_pos ⟨h1, h2⟩]

/-- The code follows the specification on sane values, or panics. -/
theorem applyTransform_isPart {h : List Nat → Int} {tr : Transform} {ty : PType} {s : Scalar}
    {l q : Lit} (hs : Sane tr s) (ha : Allowed tr s) (ht : HasType ty s)
    (hl : toLit s = some l) (hq : applyTransform h tr ty l = some q) :
    IsPart h tr s (some q) := by
  cases tr
  case void => exact ha.elim
  case unknown => exact ha.elim
  case identity =>
    have e : l = q := by simpa [applyTransform] using hq
    subst e
    cases s <;> first
      | (simp [toLit] at hl; done)
      | exact absurd rfl ha
      | (refine ⟨by simp, ?_⟩; simpa [toLit, litOf] using hl.symm)
  case bucket n =>
    cases s <;> first
      | exact ha.2.elim
      | exact hs.elim
      | (simp [toLit] at hl; done)
      | (simp only [toLit, Option.some.injEq] at hl
         subst hl
         simp only [applyTransform, bucketLit] at hq
         rw [bucketN_eq ha.1 hs] at hq
         exact ⟨ha.1, _, rfl, hq.symm⟩)
  case truncate w =>
    cases s <;> first
      | exact ha.2.elim
      | exact hs.elim
      | (simp [toLit] at hl; done)
      | (simp only [toLit, Option.some.injEq] at hl
         subst hl
         simp only [applyTransform, truncateLit] at hq
         exact ⟨ha.1, hq.symm⟩)
      | skip
    case int32 v =>
      simp only [toLit, Option.some.injEq] at hl
      subst hl
      have hw := ha.1
      have h1 : w ≤ 2147483647 := hs.1
      have h2 : -2147483648 + (w : Int) - 1 ≤ v := hs.2
      cases ty <;> try exact ht.elim
      have h3 : v ≤ 2147483647 := ht.2
      have hf := isFloor_emod w v (by omega)
      have e : wrap32 w = w := wrap32_id (by omega) (by omega)
      simp only [applyTransform, truncateLit, e] at hq
      rw [if_neg (by omega), wrap32_id (by have := hf.2.2; omega) (by have := hf.2.1; omega)] at hq
      exact ⟨hw, _, hf, hq.symm⟩
    case int64 v =>
      simp only [toLit, Option.some.injEq] at hl
      subst hl
      have hw := ha.1
      have h1 : w ≤ 4294967295 := hs.1
      have h2 : -9223372036854775808 + (w : Int) - 1 ≤ v := hs.2
      cases ty <;> try exact ht.elim
      have h3 : v ≤ 9223372036854775807 := ht.2
      have hf := isFloor_emod w v (by omega)
      simp only [applyTransform, truncateLit] at hq
      rw [if_neg (by omega), wrap64_id (by have := hf.2.2; omega) (by have := hf.2.1; omega)] at hq
      exact ⟨hw, _, hf, hq.symm⟩
  case year =>
    cases s <;> try exact ha.elim
    all_goals (cases ty <;> try exact ht.elim)
    all_goals simp only [toLit, Option.some.injEq] at hl
    all_goals subst hl
    all_goals simp only [applyTransform, yearLit, PType.isTs, toMicros, if_true,
      Option.some.injEq] at hq
    · rw [Option.map_eq_some_iff] at hq
      obtain ⟨y, hy, rfl⟩ := hq
      unfold daysToYear addDays at hy
      split at hy
      · simp only [Option.map_some, Option.some.injEq] at hy
        subst hy
        exact ⟨_, isYear_of _, rfl⟩
      · simp at hy
    · rw [microsToYear_eq hs.1 hs.2] at hq
      exact ⟨_, isYear_us _, congrArg _ hq.symm⟩
    · have h1 := ht.1
      have h2 := ht.2
      rw [microsToYear_eq (by omega) (by omega)] at hq
      exact ⟨_, isYear_ns _, congrArg _ hq.symm⟩
  case month =>
    cases s <;> try exact ha.elim
    all_goals (cases ty <;> try exact ht.elim)
    all_goals simp only [toLit, Option.some.injEq] at hl
    all_goals subst hl
    all_goals simp only [applyTransform, monthLit, PType.isTs, toMicros, if_true,
      Option.some.injEq] at hq
    · rw [Option.map_eq_some_iff] at hq
      obtain ⟨y, hy, rfl⟩ := hq
      unfold daysToMonths addDays at hy
      split at hy
      · simp only [Option.map_some, Option.some.injEq] at hy
        subst hy
        exact ⟨_, isMonth_of _, rfl⟩
      · simp at hy
    · rw [microsToMonths_eq hs.1 hs.2] at hq
      exact ⟨_, isMonth_us _, congrArg _ hq.symm⟩
    · have h1 := ht.1
      have h2 := ht.2
      rw [microsToMonths_eq (by omega) (by omega)] at hq
      exact ⟨_, isMonth_ns _, congrArg _ hq.symm⟩
  case day =>
    cases s <;> try exact ha.elim
    all_goals (cases ty <;> try exact ht.elim)
    all_goals simp only [toLit, Option.some.injEq] at hl
    all_goals subst hl
    all_goals simp only [applyTransform, dayLit, PType.isTs, toMicros, if_true,
      Option.some.injEq] at hq
    · exact congrArg _ hq.symm
    all_goals
      have h1 := ht.1
      have h2 := ht.2
      rw [toI32_id (by omega) (by omega)] at hq
      exact ⟨_, by unfold IsSpan; omega, congrArg _ hq.symm⟩
  case hour =>
    cases s <;> try exact ha.elim
    all_goals (cases ty <;> try exact ht.elim)
    all_goals simp only [toLit, Option.some.injEq] at hl
    all_goals subst hl
    all_goals simp only [applyTransform, hourLit, PType.isTs, toMicros, if_true,
      Option.some.injEq] at hq
    · have h1 := hs.1
      have h2 := hs.2
      rw [toI32_id (by omega) (by omega)] at hq
      exact ⟨_, by unfold IsSpan; omega, congrArg _ hq.symm⟩
    · have h1 := ht.1
      have h2 := ht.2
      rw [toI32_id (by omega) (by omega)] at hq
      exact ⟨_, by unfold IsSpan; omega, congrArg _ hq.symm⟩

/-- On sane values the code panics only for dates before 1970 or past the last day of chrono
under `year` and `month`. -/
theorem applyTransform_total (h : List Nat → Int) {tr : Transform} {ty : PType} {s : Scalar}
    {l : Lit} (hs : Sane tr s) (ha : Allowed tr s)
    (hl : toLit s = some l)
    (hd : (tr = .year ∨ tr = .month) → ∀ v, s = .date32 v → 0 ≤ v ∧ v ≤ 95026236) :
    ∃ q, applyTransform h tr ty l = some q := by
  cases tr
  case void => exact ha.elim
  case unknown => exact ha.elim
  case identity => exact ⟨_, rfl⟩
  case bucket n =>
    cases s <;> first
      | exact ha.2.elim
      | exact hs.elim
      | (simp [toLit] at hl; done)
      | (simp only [toLit, Option.some.injEq] at hl
         subst hl
         simp only [applyTransform, bucketLit]
         rw [bucketN_eq ha.1 hs]
         exact ⟨_, rfl⟩)
  case truncate w =>
    have hw := ha.1
    cases s <;> first
      | exact ha.2.elim
      | exact hs.elim
      | (simp [toLit] at hl; done)
      | skip
    all_goals simp only [toLit, Option.some.injEq] at hl
    all_goals subst hl
    · have h1 : w ≤ 2147483647 := hs.1
      have e : wrap32 w = w := wrap32_id (by omega) (by omega)
      simp only [applyTransform, truncateLit, e]
      exact ⟨_, if_neg (by omega)⟩
    · exact ⟨_, if_neg (by omega)⟩
    · exact ⟨_, rfl⟩
  case year =>
    cases s <;> try exact ha.elim
    all_goals simp only [toLit, Option.some.injEq] at hl
    all_goals subst hl
    · rename_i v
      have := hd (Or.inl rfl) v rfl
      simp only [applyTransform, yearLit, daysToYear, addDays_eq this]
      split <;> exact ⟨_, rfl⟩
    all_goals exact ⟨_, rfl⟩
  case month =>
    cases s <;> try exact ha.elim
    all_goals simp only [toLit, Option.some.injEq] at hl
    all_goals subst hl
    · rename_i v
      have := hd (Or.inr rfl) v rfl
      simp only [applyTransform, monthLit, daysToMonths, addDays_eq this]
      split <;> exact ⟨_, rfl⟩
    all_goals exact ⟨_, rfl⟩
  all_goals exact ⟨_, rfl⟩

end Verif.Iceberg
