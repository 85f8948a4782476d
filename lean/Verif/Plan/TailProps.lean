import Verif.Plan.Tail

/-!
# C158: tail returns the last rows
-/

namespace Verif.Plan.Tail

/-- `out` are the last `n` of `rows`, or all of them. -/
def Spec.last {α : Type} (n : Nat) (rows out : List α) : Prop :=
  ∃ front, rows = front ++ out ∧ out.length ≤ n ∧ (out.length < n → front = [])

/-- C158: if both executions see the same number of rows, `tail` returns the last rows. Missing: a table that grows
between the executions (`C158_grown`) and a negative number (`C158_negative`). -/
theorem C158_tail_partial {α : Type} (counted rows : List α) (n : Nat) (same : counted.length = rows.length) :
    ∃ out, tail counted n rows = some out ∧ Spec.last n rows out := by
  have hs : (offset counted.length n).toNat = rows.length - n := by
    unfold offset
    omega
  have h0 : ¬ (offset counted.length n < 0 ∨ (n : Int) < 0) := by
    unfold offset
    omega
  refine ⟨rows.drop (rows.length - n), ?_, rows.take (rows.length - n), (List.take_append_drop _ _).symm, ?_, ?_⟩
  · rw [tail, limit, if_neg h0, hs, Int.toNat_natCast, List.take_of_length_le]
    rw [List.length_drop]
    omega
  · rw [List.length_drop]
    omega
  · intro h
    rw [List.length_drop] at h
    have : rows.length - n = 0 := by omega
    rw [this, List.take_zero]

/-- C158: the last rows are determined by the number. -/
theorem C158_last_unique {α : Type} (n : Nat) (rows a b : List α) (ha : Spec.last n rows a) (hb : Spec.last n rows b) :
    a = b := by
  obtain ⟨f, hf, h1, h2⟩ := ha
  obtain ⟨g, hg, k1, k2⟩ := hb
  have hl : a.length = b.length := by
    have e1 : rows.length = f.length + a.length := by rw [hf, List.length_append]
    have e2 : rows.length = g.length + b.length := by rw [hg, List.length_append]
    by_cases ca : a.length < n
    · have := h2 ca
      subst this
      by_cases cb : b.length < n
      · have := k2 cb
        subst this
        simp only [List.length_nil] at e1 e2
        omega
      · simp only [List.length_nil] at e1
        omega
    · by_cases cb : b.length < n
      · have := k2 cb
        subst this
        simp only [List.length_nil] at e2
        omega
      · omega
  exact (List.append_inj' (hf.symm.trans hg) hl).2

/-- C158: when the table grew after it was counted, the rows returned are not the last ones. -/
theorem C158_grown : ∃ (counted more : List Nat) (n : Nat) (out : List Nat),
    tail counted n (counted ++ more) = some out ∧ ¬ Spec.last n (counted ++ more) out := by
  refine ⟨[1], [2], 1, [1], by decide, ?_⟩
  intro h
  have := C158_last_unique 1 [1, 2] [1] [2] h ⟨[1], rfl, by decide, by decide⟩
  cases this

/-- C158: a negative number is refused, where Spark returns no rows. -/
theorem C158_negative {α : Type} (counted rows : List α) (n : Int) (negative : n < 0) : tail counted n rows = none := by
  rw [tail, limit, if_pos (.inr negative)]

/-- Fewer rows than asked for, as many, more, and none asked for. -/
example : tail [1, 2, 3] 5 [1, 2, 3] = some [1, 2, 3] ∧ tail [1, 2, 3] 3 [1, 2, 3] = some [1, 2, 3]
    ∧ tail [1, 2, 3] 2 [1, 2, 3] = some [2, 3] ∧ tail [1, 2, 3] 0 [1, 2, 3] = some []
    ∧ tail [1, 2, 3] (-1) [1, 2, 3] = none := by
  decide

end Verif.Plan.Tail
