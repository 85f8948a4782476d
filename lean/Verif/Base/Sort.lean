import Mathlib.Data.List.Nodup

/-! # Stable sorting, as `slice::sort_by` does

`List.mergeSort` is not used because the kernel cannot evaluate it in examples. -/

/-- Inserts before the first element that is not smaller. -/
def List.insBy {α : Type _} (le : α → α → Bool) (a : α) : List α → List α
  | [] => [a]
  | b :: l => if le a b then a :: b :: l else b :: List.insBy le a l

/-- Stable sort. -/
def List.insSort {α : Type _} (l : List α) (le : α → α → Bool) : List α := l.foldr (List.insBy le) []

namespace Verif

variable {α : Type _} {le : α → α → Bool}

theorem insBy_perm (a : α) (l : List α) : (l.insBy le a).Perm (a :: l) := by
  induction l with
  | nil => exact .refl _
  | cons b l ih =>
    unfold List.insBy
    split
    · exact .refl _
    · exact (List.Perm.cons b ih).trans (List.Perm.swap a b l)

theorem insSort_perm (l : List α) : (l.insSort le).Perm l := by
  induction l with
  | nil => exact .refl _
  | cons b l ih => exact (insBy_perm b _).trans (List.Perm.cons b ih)

theorem mem_insSort {l : List α} {a : α} : a ∈ l.insSort le ↔ a ∈ l := (insSort_perm l).mem_iff

@[simp] theorem insSort_nil : ([] : List α).insSort le = [] := rfl

theorem insSort_eq_nil {l : List α} : l.insSort le = [] ↔ l = [] := by
  constructor
  · intro h
    have := (insSort_perm (le := le) l).length_eq
    rw [h] at this
    exact List.length_eq_zero_iff.mp this.symm
  · rintro rfl; rfl

theorem insBy_sorted (total : ∀ a b, le a b = true ∨ le b a = true)
    (trans : ∀ a b c, le a b = true → le b c = true → le a c = true) {l : List α} (a : α)
    (h : l.Pairwise fun x y => le x y = true) : (l.insBy le a).Pairwise fun x y => le x y = true := by
  induction l with
  | nil => simp [List.insBy]
  | cons b l ih =>
    unfold List.insBy
    rw [List.pairwise_cons] at h
    split
    · rename_i hab
      rw [List.pairwise_cons, List.pairwise_cons]
      refine ⟨?_, h⟩
      intro x hx
      rw [List.mem_cons] at hx
      obtain rfl | hx := hx
      · exact hab
      · exact trans a b x hab (h.1 x hx)
    · rename_i hab
      have hba := (total a b).resolve_left hab
      rw [List.pairwise_cons]
      refine ⟨?_, ih h.2⟩
      intro x hx
      rw [(insBy_perm a l).mem_iff, List.mem_cons] at hx
      obtain rfl | hx := hx
      · exact hba
      · exact h.1 x hx

theorem insSort_sorted (total : ∀ a b, le a b = true ∨ le b a = true)
    (trans : ∀ a b c, le a b = true → le b c = true → le a c = true) (l : List α) :
    (l.insSort le).Pairwise fun x y => le x y = true := by
  induction l with
  | nil => exact .nil
  | cons b l ih => exact insBy_sorted total trans b ih

end Verif
