/-!
# Columns of lists

The columnar representation of a column whose cells are lists: one flat list of values, the end
position of every row and a validity flag per row.  Several functions fill such a column row by
row; what a reader sees is defined by `ListArr.row`.
-/
namespace Verif.Func

deriving instance DecidableEq for Except

/-- A list column under construction: `crates/sail-function/src/scalar/array/spark_sequence.rs`
570-615 (`values`, `offsets`, `validity`) and
`crates/sail-function/src/scalar/datetime/spark_window_buckets.rs` 97-116 (which has no validity).
Offsets are natural numbers; that they fit 32 bits is a check of the callers. -/
structure ListArr (α : Type) where
  values : List α
  offsets : List Nat
  valid : List Bool
deriving Repr, DecidableEq

namespace ListArr

variable {α : Type}

/-- The column before the first row: a single zero offset (`spark_sequence.rs` 710-712). -/
def empty : ListArr α := ⟨[], [0], []⟩

/-- Appending a row that is NULL: the offset is repeated (`spark_sequence.rs` 584-595). -/
def pushNull (a : ListArr α) : ListArr α :=
  ⟨a.values, a.offsets ++ [a.values.length], a.valid ++ [false]⟩

/-- Appending a row with the given values (`spark_sequence.rs` 718-722, 597-615;
`spark_window_buckets.rs` 102-117). -/
def pushRow (a : ListArr α) (r : List α) : ListArr α :=
  ⟨a.values ++ r, a.offsets ++ [(a.values ++ r).length], a.valid ++ [true]⟩

/-- Appending a row or a NULL. -/
def push (a : ListArr α) : Option (List α) → ListArr α
  | none => a.pushNull
  | some r => a.pushRow r

/-- What a reader of the column sees in row `i`: nothing beyond the end, NULL when the row is not
valid, otherwise the values between the two offsets (the layout of Arrow lists). -/
def row (a : ListArr α) (i : Nat) : Option (Option (List α)) :=
  match a.valid[i]?, a.offsets[i]?, a.offsets[i + 1]? with
  | some true, some s, some e => some (some ((a.values.drop s).take (e - s)))
  | some false, some _, some _ => some none
  | _, _, _ => none

/-- The shape of a column that was filled row by row. -/
def Wf (a : ListArr α) : Prop :=
  a.offsets.length = a.valid.length + 1 ∧ a.offsets[a.valid.length]? = some a.values.length ∧
    ∀ o ∈ a.offsets, o ≤ a.values.length

theorem wf_empty : (empty : ListArr α).Wf := by simp [Wf, empty]

theorem wf_push {a : ListArr α} (h : a.Wf) (r : Option (List α)) : (a.push r).Wf := by
  obtain ⟨h1, h2, h3⟩ := h
  cases r with
  | none =>
    refine ⟨by simp [push, pushNull, h1], ?_, ?_⟩
    · simp only [push, pushNull, List.length_append, List.length_singleton]
      rw [List.getElem?_append_right (by omega)]
      simp [h1]
    · intro o ho
      simp only [push, pushNull, List.mem_append, List.mem_singleton] at ho ⊢
      rcases ho with ho | ho
      · exact h3 o ho
      · omega
  | some r =>
    refine ⟨by simp [push, pushRow, h1], ?_, ?_⟩
    · simp only [push, pushRow, List.length_append, List.length_singleton]
      rw [List.getElem?_append_right (by omega)]
      simp [h1]
    · intro o ho
      simp only [push, pushRow, List.mem_append, List.mem_singleton, List.length_append] at ho ⊢
      rcases ho with ho | ho
      · have := h3 o ho; omega
      · omega

theorem row_push_lt {a : ListArr α} (h : a.Wf) (r : Option (List α)) {i : Nat}
    (hi : i < a.valid.length) : (a.push r).row i = a.row i := by
  obtain ⟨h1, h2, h3⟩ := h
  have hv : ∀ b : Bool, (a.valid ++ [b])[i]? = a.valid[i]? := fun b =>
    List.getElem?_append_left hi
  have ho : ∀ b : Nat, (a.offsets ++ [b])[i]? = a.offsets[i]? := fun b =>
    List.getElem?_append_left (by omega)
  have ho1 : ∀ b : Nat, (a.offsets ++ [b])[i + 1]? = a.offsets[i + 1]? := fun b =>
    List.getElem?_append_left (by omega)
  cases r with
  | none => simp [push, pushNull, row, hv, ho, ho1]
  | some r =>
    have e1 : a.offsets[i]? = some (a.offsets[i]'(by omega)) := by simp
    have e2 : a.offsets[i + 1]? = some (a.offsets[i + 1]'(by omega)) := by simp
    have b1 := h3 _ (List.getElem_mem (l := a.offsets) (n := i) (by omega))
    have b2 := h3 _ (List.getElem_mem (l := a.offsets) (n := i + 1) (by omega))
    simp only [push, pushRow, row, hv, ho, ho1, e1, e2]
    cases a.valid[i]? with
    | none => rfl
    | some b =>
      cases b with
      | false => rfl
      | true =>
        simp only [Option.some.injEq]
        rw [List.drop_append_of_le_length b1, List.take_append_of_le_length]
        simp only [List.length_drop]
        omega

theorem row_push_eq {a : ListArr α} (h : a.Wf) (r : Option (List α)) :
    (a.push r).row a.valid.length = some r := by
  obtain ⟨h1, h2, h3⟩ := h
  cases r with
  | none =>
    simp only [push, pushNull, row]
    rw [List.getElem?_append_right (Nat.le_refl _), List.getElem?_append_left (by omega), h2,
      List.getElem?_append_right (by omega)]
    simp [h1]
  | some r =>
    simp only [push, pushRow, row]
    rw [List.getElem?_append_right (Nat.le_refl _), List.getElem?_append_left (by omega), h2,
      List.getElem?_append_right (by omega)]
    simp [h1]

/-- A column filled row by row reads back as the rows it was filled with. -/
theorem row_foldl (l : List (Option (List α))) (i : Nat) :
    (l.foldl push empty).row i = l[i]? := by
  suffices H : ∀ (l : List (Option (List α))), (l.foldl push empty).Wf ∧
      (l.foldl push empty).valid.length = l.length ∧
      ∀ i, (l.foldl push empty).row i = l[i]? from (H l).2.2 i
  intro l
  induction hn : l.length generalizing l with
  | zero =>
    obtain rfl := List.length_eq_zero_iff.1 hn
    refine ⟨wf_empty, rfl, fun i => ?_⟩
    simp [row, empty]
  | succ n ih =>
    rcases List.eq_nil_or_concat l with rfl | ⟨l', x, rfl⟩
    · simp at hn
    · simp only [List.concat_eq_append, List.length_append, List.length_singleton] at hn
      obtain ⟨w, v, rr⟩ := ih l' (by omega)
      rw [List.concat_eq_append, List.foldl_append]
      simp only [List.foldl_cons, List.foldl_nil]
      refine ⟨wf_push w x, ?_, fun i => ?_⟩
      · cases x <;> simp [push, pushNull, pushRow, v] <;> omega
      · rcases Nat.lt_trichotomy i l'.length with hi | hi | hi
        · rw [row_push_lt w x (by omega), rr, List.getElem?_append_left hi]
        · subst hi
          have := row_push_eq w x
          rw [v] at this
          rw [show n = l'.length by omega] at this
          rw [this, List.getElem?_append_right (Nat.le_refl _)]
          simp
        · rw [List.getElem?_eq_none (by simp; omega)]
          have hv : ((l'.foldl push empty).push x).valid[i]? = none := by
            apply List.getElem?_eq_none
            cases x <;> simp [push, pushNull, pushRow, v] <;> omega
          simp [row, hv]

end ListArr
end Verif.Func
