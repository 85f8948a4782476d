import Verif.Opt.JoinRebuild

/-! # Sets of relations as bit vectors -/

namespace Verif.Opt.JoinSet

open Verif.Opt

/-- Membership of a relation. -/
def Mem (i : Nat) (s : JoinSet) : Prop := s.getLsbD i = true

instance (i : Nat) (s : JoinSet) : Decidable (Mem i s) := inferInstanceAs (Decidable (_ = true))

theorem Mem.lt {i : Nat} {s : JoinSet} (h : Mem i s) : i < 64 := by
  apply Classical.byContradiction
  intro hn
  have := BitVec.getLsbD_of_ge s i (by omega)
  simp [Mem, this] at h

@[simp] theorem mem_or {i : Nat} {a b : JoinSet} : Mem i (a ||| b) ↔ Mem i a ∨ Mem i b := by
  simp [Mem, BitVec.getLsbD_or]

@[simp] theorem mem_and {i : Nat} {a b : JoinSet} : Mem i (a &&& b) ↔ Mem i a ∧ Mem i b := by
  simp [Mem, BitVec.getLsbD_and]

theorem mem_andNot {i : Nat} {a b : JoinSet} : Mem i (a &&& ~~~b) ↔ Mem i a ∧ ¬ Mem i b := by
  by_cases hlt : i < 64
  · simp only [Mem, BitVec.getLsbD_and, BitVec.getLsbD_not, hlt, decide_true, Bool.true_and, Bool.and_eq_true,
      Bool.not_eq_true', Bool.not_eq_true]
  · exact ⟨fun h => absurd h.lt hlt, fun h => absurd h.1.lt hlt⟩

@[simp] theorem not_mem_zero {i : Nat} : ¬ Mem i 0#64 := by simp [Mem]

theorem ext {a b : JoinSet} (h : ∀ i, Mem i a ↔ Mem i b) : a = b := by
  apply BitVec.eq_of_getLsbD_eq
  intro i _
  have := h i
  simp only [Mem] at this
  exact Bool.eq_iff_iff.2 this

theorem eq_zero_iff {a : JoinSet} : a = 0#64 ↔ ∀ i, ¬ Mem i a := by
  constructor
  · rintro rfl i; simp
  · intro h
    apply ext
    intro i
    simp [h i]

theorem isSubset_iff {a b : JoinSet} : isSubset a b = true ↔ ∀ i, Mem i a → Mem i b := by
  unfold isSubset
  rw [beq_iff_eq]
  constructor
  · intro h i hi
    rw [← h] at hi
    exact (mem_and.1 hi).2
  · intro h
    apply ext
    intro i
    rw [mem_and]
    exact ⟨fun x => x.1, fun x => ⟨x, h i x⟩⟩

theorem isDisjoint_iff {a b : JoinSet} : isDisjoint a b = true ↔ ∀ i, Mem i a → ¬ Mem i b := by
  unfold isDisjoint
  rw [beq_iff_eq, eq_zero_iff]
  simp only [mem_and, not_and]

theorem mem_shift {i j : Nat} (hi : i < 64) : Mem j (1#64 <<< i) ↔ j = i := by
  simp only [Mem, BitVec.getLsbD_shiftLeft, BitVec.getLsbD_one]
  by_cases h : j = i
  · subst h; simp [hi]
  · simp only [h, iff_false, Bool.not_eq_true]
    by_cases hj : j < 64
    · by_cases hji : j < i
      · simp [hji]
      · have : j - i ≠ 0 := by omega
        simp [this]
    · simp [hj]

theorem mem_bit {i j : Nat} (hi : i < 64) : Mem j (bit i) ↔ j = i := by
  unfold bit
  rw [Nat.mod_eq_of_lt hi]
  exact mem_shift hi

theorem singleton_ok {i : Nat} {s : JoinSet} (h : singleton i = .ok s) : i < 64 ∧ ∀ j, Mem j s ↔ j = i := by
  unfold singleton at h
  split at h
  · cases h
  · cases h
    exact ⟨by omega, fun j => mem_shift (by omega)⟩

theorem fromIter_ok {l : List Nat} {s : JoinSet} (h : fromIter l = .ok s) :
    (∀ i ∈ l, i < 64) ∧ ∀ j, Mem j s ↔ j ∈ l := by
  induction l generalizing s with
  | nil => cases h; simp
  | cons i is ih =>
    unfold fromIter at h
    split at h
    · cases h
    · split at h
      · rename_i s' hs
        cases h
        obtain ⟨h1, h2⟩ := ih hs
        refine ⟨?_, ?_⟩
        · intro j hj
          rcases List.mem_cons.1 hj with rfl | hj
          · omega
          · exact h1 j hj
        · intro j
          rw [mem_or, h2, mem_shift (by omega), List.mem_cons]
          exact or_comm
      · cases h

theorem fromIter_total {l : List Nat} (h : ∀ i ∈ l, i < 64) : ∃ s, fromIter l = .ok s := by
  induction l with
  | nil => exact ⟨_, rfl⟩
  | cons i is ih =>
    obtain ⟨s, hs⟩ := ih fun j hj => h j (by simp [hj])
    have : ¬ i ≥ 64 := by have := h i (by simp); omega
    exact ⟨_, by unfold fromIter; rw [if_neg this, hs]⟩

theorem mem_ofCols {cs : List (Nat × Nat)} (h : ∀ c ∈ cs, c.1 < 64) (j : Nat) :
    Mem j (ofCols cs) ↔ ∃ c ∈ cs, c.1 = j := by
  unfold ofCols
  induction cs with
  | nil => simp
  | cons c cs ih =>
    rw [List.foldr_cons, mem_or, ih fun c hc => h c (by simp [hc]), mem_bit (h c (by simp))]
    simp only [List.mem_cons, exists_eq_or_imp]
    constructor
    · rintro (h | rfl)
      · exact .inr h
      · exact .inl rfl
    · rintro (rfl | h)
      · exact .inr rfl
      · exact .inl h

theorem mem_elems {s : JoinSet} {i : Nat} : i ∈ s.elems ↔ Mem i s := by
  unfold elems
  rw [List.mem_filter, List.mem_range]
  exact ⟨fun h => h.2, fun h => ⟨h.lt, h⟩⟩

theorem nodup_elems (s : JoinSet) : s.elems.Nodup := List.Nodup.filter _ List.nodup_range

theorem inSet_iff {s : JoinSet} {i : Nat} (hi : i < 64) : inSet s i = true ↔ Mem i s := by
  unfold inSet
  rw [bne_iff_ne, ne_eq, eq_zero_iff]
  constructor
  · intro h
    apply Classical.byContradiction
    intro hn
    apply h
    intro j hj
    rw [mem_and, mem_bit hi] at hj
    exact hn (hj.2 ▸ hj.1)
  · intro h hall
    exact hall i (mem_and.2 ⟨h, (mem_bit hi).2 rfl⟩)

/-- Fewer than two members. -/
theorem card_lt_two {s : JoinSet} (h : s.cardinality < 2) {i j : Nat} (hi : Mem i s) (hj : Mem j s) : i = j := by
  unfold cardinality at h
  have h1 := mem_elems.2 hi
  have h2 := mem_elems.2 hj
  generalize s.elems = l at h h1 h2
  match l, h with
  | [], _ => simp at h1
  | [a], _ => simp only [List.mem_singleton] at h1 h2; rw [h1, h2]
  | a :: b :: l, h => simp only [List.length_cons] at h; omega

theorem card_le_of_subset {a b : JoinSet} (h : ∀ i, Mem i a → Mem i b) : a.cardinality ≤ b.cardinality :=
  (List.subperm_of_subset (nodup_elems a) fun _ hi => mem_elems.2 (h _ (mem_elems.1 hi))).length_le

theorem card_lt_of_ssubset {a b : JoinSet} (h : ∀ i, Mem i a → Mem i b) {j : Nat} (hj : Mem j b) (hn : ¬ Mem j a) :
    a.cardinality < b.cardinality := by
  have : (j :: a.elems).Subperm b.elems := by
    apply List.subperm_of_subset
    · exact List.nodup_cons.2 ⟨fun x => hn (mem_elems.1 x), nodup_elems a⟩
    · intro i hi
      rcases List.mem_cons.1 hi with rfl | hi
      · exact mem_elems.2 hj
      · exact mem_elems.2 (h _ (mem_elems.1 hi))
  have := this.length_le
  simp only [List.length_cons] at this
  exact this

theorem card_le (a : JoinSet) : a.cardinality ≤ 64 := by
  unfold cardinality elems
  exact Nat.le_trans (List.length_filter_le _ _) (by simp)

end Verif.Opt.JoinSet
