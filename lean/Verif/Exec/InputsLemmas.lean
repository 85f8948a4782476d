import Verif.Exec.Inputs
import Mathlib.Data.List.Perm.Basic
import Mathlib.Data.List.Range
import Mathlib.Data.List.Nodup
import Mathlib.Algebra.BigOperators.Group.List.Basic

namespace Verif.Exec

theorem mapM_some_of_forall {α β : Type} (f : α → Option β) (g : α → β) (l : List α)
    (h : ∀ a ∈ l, f a = some (g a)) : l.mapM f = some (l.map g) := by
  induction l with
  | nil => rfl
  | cons a l ih =>
    simp [List.mapM_cons, h a (by simp), ih (fun b hb => h b (by simp [hb]))]

theorem mapM_none_of_exists {α β : Type} (f : α → Option β) (l : List α)
    (h : ∃ a ∈ l, f a = none) : l.mapM f = none := by
  induction l with
  | nil => simp at h
  | cons a l ih =>
    obtain ⟨b, hb, hf⟩ := h
    rw [List.mapM_cons]
    cases hfa : f a with
    | none => rfl
    | some y =>
      rcases List.mem_cons.mp hb with rfl | hb
      · simp [hf] at hfa
      · simp [ih ⟨b, hb, hf⟩]

/-- All keys of partition `p`. -/
def pkeys (att : Nat → Nat) (C p : Nat) : List InputKey :=
  (List.range C).map fun c => ⟨p, att p, c⟩

theorem mem_natRange {a b x : Nat} : x ∈ natRange a b ↔ a ≤ x ∧ x < b := by
  simp only [natRange, List.mem_map, List.mem_range]
  constructor
  · rintro ⟨y, hy, rfl⟩; omega
  · rintro ⟨h1, h2⟩; exact ⟨x - a, by omega, by omega⟩

theorem natRange_append {a b c : Nat} (h1 : a ≤ b) (h2 : b ≤ c) :
    natRange a b ++ natRange b c = natRange a c := by
  obtain ⟨m, rfl⟩ := Nat.exists_eq_add_of_le h1
  obtain ⟨n, rfl⟩ := Nat.exists_eq_add_of_le h2
  have e1 : a + m - a = m := by omega
  have e2 : a + m + n - (a + m) = n := by omega
  have e3 : a + m + n - a = m + n := by omega
  simp only [natRange, e1, e2, e3, List.range_add, List.map_append, List.map_map]
  congr 1
  apply List.map_congr_left
  intro x _
  simp only [Function.comp]; omega

theorem natRange_zero (n : Nat) : natRange 0 n = List.range n := by
  simp [natRange]

theorem coalesced_mono (o N M : Nat) :
    (coalescedInputRange o N M).1 ≤ (coalescedInputRange o N M).2 := by
  simp only [coalescedInputRange]
  exact Nat.div_le_div_right (Nat.mul_le_mul_right _ (by omega))

/-- Concatenating the ranges of the first `k` output partitions. -/
theorem coalesced_concat (N M k : Nat) :
    ((List.range k).flatMap fun o =>
      natRange (coalescedInputRange o N M).1 (coalescedInputRange o N M).2)
      = natRange 0 (k * N / M) := by
  induction k with
  | zero => simp [natRange]
  | succ k ih =>
    rw [List.range_succ, List.flatMap_append, ih]
    simp only [List.flatMap_cons, List.flatMap_nil, List.append_nil, coalescedInputRange]
    exact natRange_append (Nat.zero_le _)
      (Nat.div_le_div_right (Nat.mul_le_mul_right _ (by omega)))

theorem inputKeys_forward (P C O : Nat) (latest : Nat → Option Nat) (att : Nat → Nat)
    (h : ∀ p < P, latest p = some (att p)) :
    inputKeys .forward P C O latest = some ((List.range P).map (pkeys att C)) := by
  apply mapM_some_of_forall
  intro p hp
  simp [partitionGroup, h p (by simpa using hp), pkeys]

theorem inputKeys_merge (P C O : Nat) (latest : Nat → Option Nat) (att : Nat → Nat)
    (h : ∀ p < P, latest p = some (att p)) :
    inputKeys .merge P C O latest = some ((List.range P).map (pkeys att C)) :=
  inputKeys_forward P C O latest att h

theorem inputKeys_broadcast (P C O : Nat) (latest : Nat → Option Nat) (att : Nat → Nat)
    (h : ∀ p < P, latest p = some (att p)) :
    inputKeys .broadcast P C O latest = some [((List.range P).map (pkeys att C)).flatten] := by
  have := inputKeys_forward P C O latest att h
  simp only [inputKeys] at this ⊢
  rw [this]; rfl

theorem inputKeys_shuffle (P C O : Nat) (latest : Nat → Option Nat) (att : Nat → Nat)
    (h : ∀ p < P, latest p = some (att p)) :
    inputKeys .shuffle P C O latest =
      some ((List.range C).map fun c => (List.range P).map fun p => ⟨p, att p, c⟩) := by
  apply mapM_some_of_forall
  intro c _
  apply mapM_some_of_forall
  intro p hp
  simp [h p (by simpa using hp)]

theorem inputKeys_rescale (P C O : Nat) (latest : Nat → Option Nat) (att : Nat → Nat)
    (h : ∀ p < P, latest p = some (att p)) :
    inputKeys .rescale P C O latest =
      some ((List.range O).map fun o =>
        (natRange (coalescedInputRange o P O).1 (coalescedInputRange o P O).2).flatMap
          (pkeys att C)) := by
  apply mapM_some_of_forall
  intro o ho
  have ho' : o < O := by simpa using ho
  have : (natRange (coalescedInputRange o P O).1 (coalescedInputRange o P O).2).mapM
      (partitionGroup C latest) = some
      ((natRange (coalescedInputRange o P O).1 (coalescedInputRange o P O).2).map (pkeys att C)) := by
    apply mapM_some_of_forall
    intro p hp
    have hlt : p < P := by
      have h1 := (mem_natRange.mp hp).2
      refine Nat.lt_of_lt_of_le h1 ?_
      simp only [coalescedInputRange]
      calc (o + 1) * P / O ≤ O * P / O :=
            Nat.div_le_div_right (Nat.mul_le_mul_right _ ho')
        _ ≤ P := by rw [Nat.mul_comm]; exact Nat.mul_div_le_of_le P O
    simp [partitionGroup, h p hlt, pkeys]
  simp only []
  rw [this]
  simp [List.flatMap]
where
  Nat.mul_div_le_of_le (P O : Nat) : P * O / O ≤ P := by
    rcases Nat.eq_zero_or_pos O with h | h
    · simp [h]
    · rw [Nat.mul_div_cancel _ h]

theorem count_pkeys (att : Nat → Nat) (C p q c : Nat) (hc : c < C) :
    (pkeys att C p).count ⟨q, att q, c⟩ = if p = q then 1 else 0 := by
  by_cases h : p = q
  · subst h
    simp only [if_true, pkeys]
    rw [List.count_eq_one_of_mem]
    · apply List.Nodup.map _ List.nodup_range
      intro a b hab; simpa using hab
    · simpa using hc
  · simp only [h, if_false]
    apply List.count_eq_zero_of_not_mem
    simp only [pkeys, List.mem_map, not_exists, not_and]
    intro x _ hx
    simp only [InputKey.mk.injEq] at hx
    exact h hx.1

theorem count_flatMap_pkeys (att : Nat → Nat) (C q c : Nat) (hc : c < C) (l : List Nat) :
    (l.flatMap (pkeys att C)).count ⟨q, att q, c⟩ = l.count q := by
  induction l with
  | nil => rfl
  | cons a l ih =>
    rw [List.flatMap_cons, List.count_append, ih, count_pkeys _ _ _ _ _ hc, List.count_cons]
    by_cases h : a = q <;> simp [h, Nat.add_comm]

theorem count_range_lt {q P : Nat} (h : q < P) : (List.range P).count q = 1 :=
  List.count_eq_one_of_mem List.nodup_range (List.mem_range.mpr h)

end Verif.Exec
