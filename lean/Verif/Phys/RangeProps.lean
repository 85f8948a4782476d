import Verif.Phys.Range
import Mathlib.Tactic.Ring
import Mathlib.Tactic.Linarith
import Mathlib.Data.List.Basic
import Mathlib.Data.Nat.Basic

/-!
# Properties of `range()`: C24
-/

namespace Verif.Phys.Range

/-- `k` elements of the progression lie before `stop`. -/
def Spec.Before (r : Range) (k : Nat) : Prop :=
  (0 < r.step ∧ r.start + k * r.step < r.stop) ∨ (r.step < 0 ∧ r.start + k * r.step > r.stop)

/-- `l` is the progression from `start` by `step` up to but excluding `stop`. -/
def Spec.IsProgression (r : Range) (l : List Int) : Prop :=
  ∃ n : Nat, l = (List.range n).map (fun k : Nat => r.start + k * r.step) ∧
    ∀ k : Nat, k < n ↔ Spec.Before r k

/-- Fuel given in `Range.values` exhausts the iterator: more makes no difference. -/
theorem iterate_exhausted (r : Range) (fuel extra : Nat) (current : Int)
    (h : (r.stop - current).natAbs ≤ fuel) :
    iterate r (fuel + extra) current = iterate r fuel current := by
  induction fuel generalizing current with
  | zero =>
    have : current = r.stop := by omega
    subst this
    cases extra with
    | zero => rfl
    | succ e => simp [iterate]
  | succ fuel ih =>
    rw [show fuel + 1 + extra = (fuel + extra) + 1 by omega]
    unfold iterate
    split
    · rename_i hc
      congr 1
      by_cases hstep : (r.stop - (checkedAdd current r.step).getD r.stop).natAbs ≤ fuel
      · exact ih _ hstep
      · -- the step jumped over the end: nothing more is produced
        have hn : ¬ ((r.step > 0 ∧ (checkedAdd current r.step).getD r.stop < r.stop) ∨
            (r.step < 0 ∧ (checkedAdd current r.step).getD r.stop > r.stop)) := by
          unfold checkedAdd at hstep ⊢
          split at hstep
          · rename_i h64
            rw [if_pos h64]
            simp only [Option.getD_some] at hstep ⊢
            omega
          · simp at hstep
        have hz : ∀ f, iterate r f ((checkedAdd current r.step).getD r.stop) = [] := by
          intro f
          cases f with
          | zero => rfl
          | succ f => unfold iterate; rw [if_neg hn]
        rw [hz, hz]
    · rfl

theorem wrap64_of_is64 {x : Int} (h : Is64 x) : wrap64 x = x := by
  unfold Is64 i64Min i64Max at h
  unfold wrap64
  omega

/-- The iterator on an exact multiple of the step. -/
theorem iterate_exact (r : Range) (hs : r.step ≠ 0) (k : Nat) (a : Int)
    (he : r.stop = a + k * r.step) (ha : Is64 a) (hstop : Is64 r.stop) (fuel : Nat) (hf : k ≤ fuel) :
    iterate r fuel a = (List.range k).map fun j : Nat => a + j * r.step := by
  induction k generalizing a fuel with
  | zero =>
    simp only [List.range_zero, List.map_nil]
    have : r.stop = a := by simpa using he
    cases fuel with
    | zero => rfl
    | succ f => unfold iterate; rw [if_neg (by omega)]
  | succ k ih =>
    obtain ⟨f, rfl⟩ : ∃ f, fuel = f + 1 := ⟨fuel - 1, by omega⟩
    have he' : r.stop = (a + r.step) + k * r.step := by rw [he]; push_cast; ring
    have hmid : Is64 (a + r.step) ∧
        ((r.step > 0 ∧ a < r.stop) ∨ (r.step < 0 ∧ a > r.stop)) := by
      unfold Is64 at *
      rcases lt_or_gt_of_ne hs with hneg | hpos
      · have : (k : Int) * r.step ≤ 0 := mul_nonpos_of_nonneg_of_nonpos (by omega) (by omega)
        omega
      · have : 0 ≤ (k : Int) * r.step := mul_nonneg (by omega) (by omega)
        omega
    unfold iterate
    rw [if_pos hmid.2]
    have hc : (checkedAdd a r.step).getD r.stop = a + r.step := by
      unfold checkedAdd; rw [if_pos hmid.1]; rfl
    rw [hc, ih (a + r.step) he' hmid.1 f (by omega), List.range_succ_eq_map]
    simp only [List.map_cons, List.map_map]
    congr 1
    · simp
    · apply List.map_congr_left
      intro j _
      simp only [Function.comp, Nat.succ_eq_add_one]
      push_cast
      ring

/-- The count of elements as a natural number, characterised. -/
theorem numElements_spec (r : Range) (hs : r.step ≠ 0) :
    ∃ n : Nat, r.numElements = n ∧ ∀ k : Nat, k < n ↔ Spec.Before r k := by
  unfold Range.numElements
  by_cases hdir : decide (r.stop > r.start) ≠ decide (r.step > 0)
  · rw [if_pos hdir]
    refine ⟨0, rfl, fun k => ?_⟩
    have hd : ¬ ((r.stop > r.start) ↔ (r.step > 0)) := by
      intro hiff; exact hdir (by rw [decide_eq_decide]; exact hiff)
    unfold Spec.Before
    constructor
    · omega
    · intro hb
      exfalso
      rcases hb with ⟨h1, h2⟩ | ⟨h1, h2⟩
      · have : 0 ≤ (k : Int) * r.step := mul_nonneg (by omega) (by omega)
        omega
      · have : (k : Int) * r.step ≤ 0 := mul_nonpos_of_nonneg_of_nonpos (by omega) (by omega)
        omega
  · rw [if_neg hdir]
    have hd : ((r.stop > r.start) ↔ (r.step > 0)) := by
      push Not at hdir
      exact decide_eq_decide.mp hdir
    simp only
    generalize hD : (r.stop - r.start).natAbs = D
    generalize hS : r.step.natAbs = S
    have hSpos : 0 < S := by omega
    refine ⟨D / S + if D % S = 0 then 0 else 1, ?_, fun k => ?_⟩
    · push_cast
      congr 1
      have : ((D : Int) % (S : Int) = 0) ↔ D % S = 0 := by
        rw [← Int.natCast_mod]; omega
      simp [this]
    · -- k < ceil (D / S) ↔ k * S < D
      have hceil : (k < D / S + if D % S = 0 then 0 else 1) ↔ k * S < D := by
        have hdm := Nat.div_add_mod D S
        have hml := Nat.mod_lt D hSpos
        have hcomm : S * (D / S) = D / S * S := Nat.mul_comm _ _
        split
        · rename_i h0
          constructor
          · intro hk
            have : (k + 1) * S ≤ D / S * S := Nat.mul_le_mul_right S hk
            have : (k + 1) * S = k * S + S := by ring
            omega
          · intro hk
            by_contra hcon
            have : D / S * S ≤ k * S := Nat.mul_le_mul_right S (by omega)
            omega
        · rename_i h0
          constructor
          · intro hk
            have : k * S ≤ D / S * S := Nat.mul_le_mul_right S (by omega)
            omega
          · intro hk
            by_contra hcon
            have : (D / S + 1) * S ≤ k * S := Nat.mul_le_mul_right S (by omega)
            have : (D / S + 1) * S = D / S * S + S := by ring
            omega
      rw [hceil]
      unfold Spec.Before
      rcases lt_or_gt_of_ne hs with hneg | hpos
      · have hS' : r.step = -(S : Int) := by omega
        have hD' : r.start - r.stop = (D : Int) := by omega
        rw [hS']
        have e : ((k * S : Nat) : Int) = (k : Int) * S := by push_cast; ring
        constructor
        · intro h
          right
          refine ⟨by omega, ?_⟩
          have : ((k * S : Nat) : Int) < D := by exact_mod_cast h
          rw [e] at this
          have : (k : Int) * -(S : Int) = -((k : Int) * S) := by ring
          omega
        · rintro (⟨h, _⟩ | ⟨_, h⟩)
          · omega
          · have h1 : (k : Int) * -(S : Int) = -((k : Int) * S) := by ring
            have : ((k * S : Nat) : Int) < D := by rw [e]; omega
            exact_mod_cast this
      · have hS' : r.step = (S : Int) := by omega
        have hD' : r.stop - r.start = (D : Int) := by
          have : r.stop > r.start := hd.mpr hpos
          omega
        rw [hS']
        have e : ((k * S : Nat) : Int) = (k : Int) * S := by push_cast; ring
        constructor
        · intro h
          left
          refine ⟨by omega, ?_⟩
          have : ((k * S : Nat) : Int) < D := by exact_mod_cast h
          rw [e] at this
          omega
        · rintro (⟨_, h⟩ | ⟨h, _⟩)
          · have : ((k * S : Nat) : Int) < D := by rw [e]; omega
            exact_mod_cast this
          · omega

/-- Start of the share of partition `p` in `n` elements. -/
def lo (n np p : Nat) : Nat := p * n / np

theorem lo_mono (n np p : Nat) : lo n np p ≤ lo n np (p + 1) :=
  Nat.div_le_div_right (Nat.mul_le_mul_right n (by omega))

theorem lo_le (n np p : Nat) (hp : p ≤ np) : lo n np p ≤ n := by
  unfold lo
  by_cases h0 : np = 0
  · subst h0; simp
  · calc p * n / np ≤ np * n / np := Nat.div_le_div_right (Nat.mul_le_mul_right n hp)
      _ = n := Nat.mul_div_cancel_left n (by omega)

theorem shares (f : Nat → Int) (n np : Nat) (m : Nat) :
    (List.range m).flatMap (fun p => (List.range (lo n np (p + 1) - lo n np p)).map
      fun j => f (lo n np p + j)) = (List.range (lo n np m)).map f := by
  induction m with
  | zero => simp [lo]
  | succ m ih =>
    rw [List.range_succ, List.flatMap_append, ih]
    simp only [List.flatMap_cons, List.flatMap_nil, List.append_nil]
    obtain ⟨d, hd⟩ := Nat.exists_eq_add_of_le (lo_mono n np m)
    rw [hd, Nat.add_sub_cancel_left, List.range_add, List.map_append, List.map_map]
    rfl

theorem partition_bounds (r : Range) (n np p : Nat) (hn : r.numElements = n) :
    r.partition p np = ⟨wrap64 (r.start + lo n np p * r.step),
      wrap64 (r.start + lo n np (p + 1) * r.step), r.step⟩ := by
  unfold Range.partition lo
  rw [hn]
  simp only [Range.mk.injEq, and_true]
  constructor
  · congr 1
    push_cast
    rw [Int.add_comm]
  · congr 1
    push_cast
    rw [Int.add_comm]

theorem between {a s : Int} {m n : Nat} (hmn : m ≤ n) (ha : Is64 a) (hn : Is64 (a + n * s)) :
    Is64 (a + m * s) := by
  unfold Is64 at *
  rcases le_or_gt 0 s with h | h
  · have h1 : (m : Int) * s ≤ n * s := mul_le_mul_of_nonneg_right (by exact_mod_cast hmn) h
    have h2 : 0 ≤ (m : Int) * s := mul_nonneg (by omega) h
    omega
  · have h1 : (n : Int) * s ≤ m * s := mul_le_mul_of_nonpos_right (by exact_mod_cast hmn) (by omega)
    have h2 : (m : Int) * s ≤ 0 := mul_nonpos_of_nonneg_of_nonpos (by omega) (by omega)
    omega

theorem values_partition (r : Range) (hs : r.step ≠ 0) (n np p : Nat) (hn : r.numElements = n)
    (hp : lo n np (p + 1) ≤ n) (h0 : Is64 r.start) (hend : Is64 (r.start + lo n np (p + 1) * r.step)) :
    (r.partition p np).values = (List.range (lo n np (p + 1) - lo n np p)).map
      fun j : Nat => r.start + ((lo n np p + j : Nat) : Int) * r.step := by
  have hlo := lo_mono n np p
  have hstart : Is64 (r.start + lo n np p * r.step) := between hlo h0 hend
  rw [partition_bounds r n np p hn, wrap64_of_is64 hstart, wrap64_of_is64 hend]
  unfold Range.values
  simp only
  obtain ⟨d, hd⟩ := Nat.exists_eq_add_of_le hlo
  have hd' : lo n np (p + 1) - lo n np p = d := by omega
  rw [hd']
  rw [iterate_exact ⟨r.start + lo n np p * r.step, r.start + lo n np (p + 1) * r.step, r.step⟩
    hs d _ _ hstart hend]
  · apply List.map_congr_left
    intro j _
    push_cast
    ring
  · -- enough fuel
    have e : r.start + (lo n np (p + 1) : Int) * r.step - (r.start + lo n np p * r.step) = d * r.step := by
      rw [hd]; push_cast; ring
    rw [e, Int.natAbs_mul, Int.natAbs_natCast]
    have : 1 ≤ r.step.natAbs := by omega
    exact Nat.le_mul_of_pos_right d this
  · simp only
    rw [hd]
    push_cast
    ring

/-- C24: for any number of partitions, the partitions in order make up exactly the progression.
Partial: assumes that the first number of the progression not before `end` is representable in
64 bits (`C24_unrepresentable_end_loses_rows` shows that this is necessary). -/
theorem C24_partitions_make_up_the_progression_partial (r : Range) (np : Nat) (hnp : 0 < np)
    (hs : r.step ≠ 0) (h0 : Is64 r.start)
    (hend : ∃ n : Nat, ¬ Spec.Before r n ∧ (∀ k < n, Spec.Before r k) ∧ Is64 (r.start + n * r.step)) :
    Spec.IsProgression r (r.allValues np) := by
  obtain ⟨n, hn, hspec⟩ := numElements_spec r hs
  obtain ⟨m, hm1, hm2, hm3⟩ := hend
  have hmn : m = n := by
    apply Nat.le_antisymm
    · by_contra hcon
      exact absurd ((hspec n).mpr (hm2 n (by omega))) (by omega)
    · by_contra hcon
      exact hm1 ((hspec m).mp (by omega))
  subst hmn
  refine ⟨m, ?_, hspec⟩
  unfold Range.allValues
  have hstep : ∀ p ∈ List.range np, (r.partition p np).values =
      (List.range (lo m np (p + 1) - lo m np p)).map
        fun j : Nat => r.start + ((lo m np p + j : Nat) : Int) * r.step := by
    intro p hp
    have hp' : p < np := List.mem_range.mp hp
    have hle := lo_le m np (p + 1) (by omega)
    exact values_partition r hs m np p hn hle h0 (between hle h0 hm3)
  rw [List.flatMap_congr hstep, shares (fun k : Nat => r.start + (k : Int) * r.step) m np np]
  congr 2
  unfold lo
  exact Nat.mul_div_cancel_left m hnp

example : (⟨3, 20, 4⟩ : Range).allValues 3 = [3, 7, 11, 15, 19] := by decide
example : (⟨5, -6, -3⟩ : Range).allValues 2 = [5, 2, -1, -4] := by decide
/-- The hypothesis is met, for example, when `end` is not within a step of the bound. -/
example : ∃ n : Nat, ¬ Spec.Before ⟨3, 20, 4⟩ n ∧ (∀ k < n, Spec.Before ⟨3, 20, 4⟩ k) ∧
    Is64 ((3 : Int) + n * 4) :=
  ⟨5, by unfold Spec.Before; simp, by intro k hk; unfold Spec.Before; simp; omega, by decide⟩

/-- Values produced by the iterator are on the near side of its end. -/
theorem iterate_near (r : Range) (fuel : Nat) (c x : Int) (h : x ∈ iterate r fuel c) :
    (r.step > 0 ∧ x < r.stop) ∨ (r.step < 0 ∧ x > r.stop) := by
  induction fuel generalizing c with
  | zero => simp [iterate] at h
  | succ fuel ih =>
    unfold iterate at h
    split at h
    · rename_i hc
      rcases List.mem_cons.mp h with rfl | h
      · exact hc
      · exact ih _ h
    · cases h

/-- C24 is violated near the 64-bit limits: whenever the first number of the progression beyond `end`
is not representable, the last row of the result is lost, for every number of partitions. -/
theorem C24_unrepresentable_end_loses_rows (r : Range) (np : Nat) (hs : r.step ≠ 0)
    (h0 : Is64 r.start) (h1 : Is64 r.stop) (h2 : Is64 r.step) (n : Nat)
    (hlast : Spec.Before r n) (hnext : ¬ Spec.Before r (n + 1))
    (hover : ¬ Is64 (r.start + (n + 1 : Nat) * r.step)) :
    r.start + n * r.step ∉ r.allValues np ∧ ¬ Spec.IsProgression r (r.allValues np) := by
  obtain ⟨m, hm, hspec⟩ := numElements_spec r hs
  have hmn : m = n + 1 := by
    have a1 := (hspec n).mpr hlast
    have a2 : ¬ n + 1 < m := fun h => hnext ((hspec _).mp h)
    omega
  subst hmn
  have hnot : r.start + n * r.step ∉ r.allValues np := by
    intro hmem
    unfold Range.allValues at hmem
    obtain ⟨p, hp, hx⟩ := List.mem_flatMap.mp hmem
    have hp' : p < np := List.mem_range.mp hp
    have hle := lo_le (n + 1) np (p + 1) (by omega)
    have hlast64 : Is64 (r.start + n * r.step) := by
      unfold Is64 i64Min i64Max Spec.Before at *
      rcases hlast with ⟨a, b⟩ | ⟨a, b⟩
      · have : 0 ≤ (n : Int) * r.step := mul_nonneg (by omega) (by omega)
        omega
      · have : (n : Int) * r.step ≤ 0 := mul_nonpos_of_nonneg_of_nonpos (by omega) (by omega)
        omega
    by_cases hcase : lo (n + 1) np (p + 1) ≤ n
    · -- an earlier partition: its values are before the last one
      rw [values_partition r hs (n + 1) np p hm hle h0 (between hcase h0 hlast64)] at hx
      obtain ⟨j, hj, he⟩ := List.mem_map.mp hx
      have hj' : j < lo (n + 1) np (p + 1) - lo (n + 1) np p := List.mem_range.mp hj
      have hlt : lo (n + 1) np p + j < n := by omega
      have : ((lo (n + 1) np p + j : Nat) : Int) * r.step = (n : Int) * r.step := by linarith
      have := mul_right_cancel₀ hs this
      have : lo (n + 1) np p + j = n := by exact_mod_cast this
      omega
    · -- the last one: its end wraps around
      have hl : lo (n + 1) np (p + 1) = n + 1 := by omega
      unfold Range.values at hx
      have hnear := iterate_near _ _ _ _ hx
      rw [partition_bounds r (n + 1) np p hm, hl] at hnear
      simp only at hnear
      have hexp : r.start + ((n + 1 : Nat) : Int) * r.step = r.start + n * r.step + r.step := by
        push_cast; ring
      rw [hexp] at hnear hover
      generalize r.start + (n : Int) * r.step = y at *
      unfold Is64 i64Min i64Max at *
      unfold wrap64 at hnear
      omega
  refine ⟨hnot, ?_⟩
  rintro ⟨k, hk, hks⟩
  apply hnot
  rw [hk]
  exact List.mem_map.mpr ⟨n, List.mem_range.mpr ((hks n).mpr hlast), rfl⟩

/-- `range(9223372036854775806, 9223372036854775807, 10)` is empty instead of one row. -/
example : (⟨2 ^ 63 - 2, 2 ^ 63 - 1, 10⟩ : Range).allValues 1 = [] ∧
    Spec.Before ⟨2 ^ 63 - 2, 2 ^ 63 - 1, 10⟩ 0 := by
  constructor
  · simp [Range.allValues, Range.partition, Range.numElements, wrap64, Range.values, iterate]
  · unfold Spec.Before; simp

end Verif.Phys.Range
