import Verif.Arrays.Planned
/-!
# array_insert, arrays_overlap, array_contains, slice and get (C133)
-/
namespace Verif.Arrays

variable {α : Type}

namespace Spec

/-- The value goes to an index counted from the front; NULLs fill up to it. -/
def insertAt (xs : List (Option α)) (i : Nat) (v : Option α) : List (Option α) :=
  (xs ++ List.replicate (i - xs.length) none).take i ++ [v] ++ xs.drop i

/-- array_insert: positions count from 1 at the front and from -1 at the back. -/
def insert (xs : List (Option α)) (p : Int) (v : Option α) : List (Option α) :=
  if 0 < p then insertAt xs (p - 1).toNat v
  else (insertAt xs.reverse (-p - 1).toNat v).reverse

/-- arrays_overlap in Spark. -/
def overlap [DecidableEq α] (l r : List (Option α)) : Option Bool :=
  if ∃ x ∈ l, x ≠ none ∧ x ∈ r then some true
  else if l ≠ [] ∧ r ≠ [] ∧ (none ∈ l ∨ none ∈ r) then none
  else some false

/-- array_contains in Spark. -/
def contains [DecidableEq α] (xs : List (Option α)) (x : α) : Option Bool :=
  if some x ∈ xs then some true else if none ∈ xs then none else some false

/-- slice in Spark for a start that is not 0 and a length that is not negative. -/
def slice (xs : List (Option α)) (s n : Int) : List (Option α) :=
  if 0 < s then (xs.drop (s - 1).toNat).take n.toNat
  else if (xs.length : Int) + s < 0 then []
  else (xs.drop ((xs.length : Int) + s).toNat).take n.toNat

/-- get in Spark. -/
def get (xs : List (Option α)) (i : Int) : Option α :=
  if 0 ≤ i then (xs[i.toNat]?).getD none else none

end Spec

theorem sliceFrom_in (i : Int) (len : Nat) (h1 : 1 ≤ i) (h2 : i ≤ len) :
    sliceFrom i len = some (i - 1).toNat := by
  simp only [sliceFrom]
  rw [if_neg (show ¬ i < 0 by omega), if_neg (show ¬ i - 1 < 0 by omega), if_pos (by omega)]

theorem sliceFrom_neg (i : Int) (len : Nat) (h1 : i < 0) (h2 : 0 ≤ (len : Int) + i) :
    sliceFrom i len = some ((len : Int) + i).toNat := by
  simp only [sliceFrom]
  rw [if_pos h1, if_neg (show ¬ i < -(len : Int) by omega), if_pos (by omega), Int.add_comm]

theorem sliceFrom_past (i : Int) (len : Nat) (h : (len : Int) < i) : sliceFrom i len = none := by
  simp only [sliceFrom]
  rw [if_neg (show ¬ i < 0 by omega)]
  by_cases h0 : i - 1 < 0
  · rw [if_pos h0, if_neg (by omega)]
  · rw [if_neg h0, if_neg (by omega)]

theorem sliceTo_in (i : Int) (len : Nat) (h1 : 1 ≤ i) (h2 : i ≤ len) :
    sliceTo i len = some (i - 1).toNat := by
  simp only [sliceTo]
  rw [if_neg (show ¬ i < 0 by omega)]
  by_cases h : i - 1 < (len : Int) - 1
  · rw [if_pos h, if_pos (by omega)]
  · rw [if_neg h, if_pos (by omega)]
    congr 1
    omega

theorem sliceTo_past (i : Int) (len : Nat) (h1 : (len : Int) < i) (h2 : 0 < len) :
    sliceTo i len = some (len - 1) := by
  simp only [sliceTo]
  rw [if_neg (show ¬ i < 0 by omega), if_neg (show ¬ i - 1 < (len : Int) - 1 by omega),
    if_pos (by omega)]
  congr 1
  omega

theorem sliceTo_zero (len : Nat) : sliceTo 0 len = none := by
  simp only [sliceTo]
  rw [if_neg (show ¬ (0 : Int) < 0 by omega)]
  by_cases h : (0 : Int) - 1 < (len : Int) - 1
  · rw [if_pos h, if_neg (by omega)]
  · rw [if_neg h, if_neg (by omega)]

theorem dfSlice_front (xs : List (Option α)) (p : Int) (h1 : 1 ≤ p) (h2 : p ≤ (xs.length : Int) - 1) :
    dfSlice xs 1 p = xs.take p.toNat := by
  rw [dfSlice, sliceFrom_in 1 _ (by omega) (by omega), sliceTo_in p _ h1 (by omega)]
  dsimp only
  rw [if_pos (by omega)]
  have h3 : ((1 : Int) - 1).toNat = 0 := by omega
  rw [h3, List.drop_zero]
  congr 1
  omega

theorem dfSlice_back (xs : List (Option α)) (p : Int) (h1 : 1 ≤ p) (h2 : p ≤ (xs.length : Int) - 1) :
    dfSlice xs (p + 1) (xs.length : Int) = xs.drop p.toNat := by
  rw [dfSlice, sliceFrom_in (p + 1) _ (by omega) (by omega), sliceTo_in _ _ (by omega) (by omega)]
  dsimp only
  rw [if_pos (by omega)]
  have h3 : (p + 1 - 1).toNat = p.toNat := by omega
  rw [h3]
  apply List.take_of_length_le
  rw [List.length_drop]
  omega

theorem insertAt_inside (xs : List (Option α)) (i : Nat) (v : Option α) (h : i ≤ xs.length) :
    Spec.insertAt xs i v = xs.take i ++ [v] ++ xs.drop i := by
  rw [Spec.insertAt, List.take_append_of_le_length h]

theorem insertAt_outside (xs : List (Option α)) (i : Nat) (v : Option α) (h : xs.length ≤ i) :
    Spec.insertAt xs i v = xs ++ List.replicate (i - xs.length) none ++ [v] := by
  rw [Spec.insertAt, List.take_of_length_le (by simp; omega), List.drop_eq_nil_of_le h]
  simp

theorem insert_by_index (xs : List (Option α)) (q : Int) (v : Option α) :
    insertCase xs v q =
      some (if 0 ≤ q then Spec.insertAt xs q.toNat v
        else [v] ++ List.replicate (-q).toNat none ++ xs) := by
  simp only [insertCase]
  by_cases h1 : q < 0
  · rw [if_pos h1, if_neg (show ¬ 0 ≤ q by omega)]; rfl
  · rw [if_neg h1, if_pos (show 0 ≤ q by omega)]
    by_cases h2 : q = 0
    · subst h2
      rw [if_pos rfl, insertAt_inside xs _ v (by simp)]
      simp
    · rw [if_neg h2]
      by_cases h3 : 1 ≤ q ∧ q ≤ (xs.length : Int) - 1
      · rw [if_pos h3, dfSlice_front xs q h3.1 h3.2, dfSlice_back xs q h3.1 h3.2,
          insertAt_inside xs _ v (by omega)]
        rfl
      · rw [if_neg h3]
        by_cases h4 : q = (xs.length : Int)
        · rw [if_pos h4, insertAt_inside xs _ v (by omega)]
          have : q.toNat = xs.length := by omega
          rw [this, List.take_length, List.drop_length]
          simp
        · rw [if_neg h4, if_pos (by omega), insertAt_outside xs _ v (by omega)]
          have : (q - (xs.length : Int)).toNat = q.toNat - xs.length := by omega
          simp [dfRepeat, this]

/-- **C133** (part).  array_insert puts the value where Spark puts it, for every array and every
position but 0 and NULL.  Missing: the NULL position, which raises the error for position 0
(`C133_insert_null_position`). -/
theorem C133_array_insert_partial (xs : List (Option α)) (p : Int) (v : Option α) (h : p ≠ 0) :
    arrayInsert (some xs) (some p) v = .value (some (Spec.insert xs p v)) := by
  simp only [arrayInsert, posFromZero]
  by_cases hp : 0 < p
  · rw [if_pos hp]
    dsimp only
    rw [insert_by_index, if_pos (by omega), Spec.insert, if_pos hp]
  · rw [if_neg hp, if_pos (by omega)]
    dsimp only
    rw [insert_by_index, Spec.insert, if_neg hp]
    congr 2
    by_cases hq : 0 ≤ (xs.length : Int) + p + 1
    · rw [if_pos hq, insertAt_inside xs _ v (by omega), insertAt_inside xs.reverse _ v (by
        rw [List.length_reverse]; omega)]
      simp only [List.reverse_append, List.reverse_cons, List.reverse_nil, List.nil_append,
        List.take_reverse, List.drop_reverse, List.reverse_reverse]
      have : xs.length - (-p - 1).toNat = ((xs.length : Int) + p + 1).toNat := by omega
      rw [this]
      simp
    · rw [if_neg hq, insertAt_outside xs.reverse _ v (by rw [List.length_reverse]; omega)]
      have : (-((xs.length : Int) + p + 1)).toNat = (-p - 1).toNat - xs.length := by omega
      simp [this]

/-- **C133**: position 0 is an error and a NULL array gives NULL. -/
theorem C133_array_insert_zero (xs : List (Option α)) (v : Option α) (pos : Option Int) :
    arrayInsert (some xs) (some 0) v = .error ∧ arrayInsert none pos v = .value none := ⟨rfl, rfl⟩

/-- **C133** (refuted in full).  A NULL position fails the query with the error for position 0. -/
theorem C133_insert_null_position (xs : List (Option α)) (v : Option α) :
    arrayInsert (some xs) none v = .error := rfl

example : arrayInsert (some [some 1, some 2]) (some (-5)) (some 9) =
    .value (some [some 9, none, none, some 1, some 2]) := by decide +kernel

example : arrayInsert (some [some 1, some 2]) (some 4) (some 9) =
    .value (some [some 1, some 2, none, some 9]) := by decide +kernel

example : arrayInsert (some [some 5, some 4, some 3]) (some (-2)) (some 9) =
    .value (some [some 5, some 4, some 9, some 3]) := by decide +kernel

section
variable [DecidableEq α]

theorem hasAny_iff (l r : List (Option α)) : dfHasAny l r = true ↔ ∃ x ∈ l, x ∈ r := by
  simp [dfHasAny]

/-- **C133** (part).  arrays_overlap gives what Spark gives when both arrays have an element or
neither has a NULL.  Missing: an empty array against one with a NULL (`C133_overlap_empty`). -/
theorem C133_arrays_overlap_partial (l r : List (Option α))
    (h : (l ≠ [] ∧ r ≠ []) ∨ (none ∉ l ∧ none ∉ r)) :
    arraysOverlap (some l) (some r) = Spec.overlap l r := by
  have hn : ∀ l : List (Option α), (dfHasAny l [none] = true ↔ none ∈ l) := by
    intro l; rw [hasAny_iff]; simp
  simp only [arraysOverlap, Spec.overlap]
  have hc : dfHasAny (l.filter Option.isSome) (r.filter Option.isSome) = true ↔
      ∃ x ∈ l, x ≠ none ∧ x ∈ r := by
    rw [hasAny_iff]
    constructor
    · rintro ⟨x, hx, hy⟩
      obtain ⟨h1, h2⟩ := List.mem_filter.mp hx
      exact ⟨x, h1, (by intro hx'; rw [hx'] at h2; cases h2), (List.mem_filter.mp hy).1⟩
    · rintro ⟨x, h1, h2, h3⟩
      have : x.isSome = true := by cases x with
        | none => exact absurd rfl h2
        | some _ => rfl
      exact ⟨x, List.mem_filter.mpr ⟨h1, this⟩, List.mem_filter.mpr ⟨h3, this⟩⟩
  by_cases hnull : none ∈ l ∨ none ∈ r
  · have hb : (dfHasAny l [none] || dfHasAny r [none]) = true := by
      rw [Bool.or_eq_true, hn, hn]; exact hnull
    rw [if_pos hb]
    have hne : l ≠ [] ∧ r ≠ [] := by
      rcases h with h | h
      · exact h
      · rcases hnull with h' | h'
        · exact absurd h' h.1
        · exact absurd h' h.2
    by_cases hx : ∃ x ∈ l, x ≠ none ∧ x ∈ r
    · rw [if_pos hx, if_pos (hc.mpr hx)]
    · rw [if_neg hx, if_neg (fun h' => hx (hc.mp h')), if_pos ⟨hne.1, hne.2, hnull⟩]
  · have hb : ¬ (dfHasAny l [none] || dfHasAny r [none]) = true := by
      rw [Bool.or_eq_true, hn, hn]; exact hnull
    rw [if_neg hb, if_neg (show ¬ (l ≠ [] ∧ r ≠ [] ∧ (none ∈ l ∨ none ∈ r)) from fun h' => hnull h'.2.2)]
    by_cases hx : ∃ x ∈ l, x ≠ none ∧ x ∈ r
    · obtain ⟨x, h1, h2, h3⟩ := hx
      rw [if_pos ⟨x, h1, h2, h3⟩, (hasAny_iff l r).mpr ⟨x, h1, h3⟩]
    · rw [if_neg hx]
      have : dfHasAny l r = false := by
        rw [Bool.eq_false_iff]
        intro h'
        obtain ⟨x, h1, h3⟩ := (hasAny_iff l r).mp h'
        exact hx ⟨x, h1, (by intro hx'; exact hnull (Or.inl (hx' ▸ h1))), h3⟩
      rw [this]

example : ([some 1, none] : List (Option Nat)) ≠ [] ∧ ([some 2] : List (Option Nat)) ≠ [] := by
  decide +kernel

example : arraysOverlap (some [some 1, none]) (some [some 2]) = (none : Option Bool) := by decide +kernel

/-- **C133** (refuted in full).  An empty array overlaps with nothing, yet against an array with a
NULL the answer is NULL. -/
theorem C133_overlap_empty (r : List (Option α)) (h : none ∈ r) :
    arraysOverlap (some []) (some r) = none ∧ Spec.overlap [] r = some false := by
  refine ⟨?_, by simp [Spec.overlap]⟩
  simpa [arraysOverlap, dfHasAny] using h

example : (none : Option Nat) ∈ [none, some 1] := by decide +kernel

/-- **C133** (part).  array_contains gives what Spark gives unless the element is missing from an
array with a NULL. -/
theorem C133_array_contains_partial (xs : List (Option α)) (x : α) (h : some x ∈ xs ∨ none ∉ xs) :
    arrayContains (some xs) (some x) = Spec.contains xs x := by
  simp only [arrayContains, dfHas, Spec.contains]
  by_cases hx : some x ∈ xs
  · rw [if_pos hx]; simpa using hx
  · have hn : none ∉ xs := by
      rcases h with h | h
      · exact absurd h hx
      · exact h
    rw [if_neg hx, if_neg hn]
    simpa using hx

/-- **C133** (refuted in full).  An element that is missing from an array with a NULL may be the
NULL, so that the answer has to be NULL; it is FALSE.  So is the answer for a NULL element. -/
theorem C133_contains_null (xs : List (Option α)) (x : α) (h1 : some x ∉ xs) (h2 : none ∈ xs) :
    arrayContains (some xs) (some x) = some false ∧ Spec.contains xs x = none ∧
      arrayContains (some xs) none = some false := by
  refine ⟨?_, ?_, rfl⟩
  · simpa [arrayContains, dfHas] using h1
  · rw [Spec.contains, if_neg h1, if_pos h2]

example : some 3 ∉ [some 1, (none : Option Nat)] ∧ none ∈ [some 1, (none : Option Nat)] := by
  decide +kernel

example : some 1 ∈ [some 1, (none : Option Nat)] ∨ none ∉ [some 1, (none : Option Nat)] := by
  decide +kernel

end

/-- **C133** (part).  slice gives what Spark gives for a positive start and any length, and for a
negative start inside the array if the slice ends inside it too.  Missing: a slice with a negative
start that reaches the end of the array or beyond its last element (`C133_slice_past_end`), start
0 and negative lengths (`C133_slice_no_error`). -/
theorem C133_slice_partial (xs : List (Option α)) (s n : Int) (hn : 0 ≤ n)
    (h : 0 < s ∨ (s < 0 ∧ 0 ≤ (xs.length : Int) + s ∧ s + n ≤ 0)) :
    sparkSlice (some xs) (some s) (some n) = some (Spec.slice xs s n) := by
  simp only [sparkSlice, Spec.slice]
  congr 1
  by_cases hs : 0 < s
  · rw [if_pos hs, dfSlice]
    by_cases hpast : (xs.length : Int) < s
    · rw [sliceFrom_past s _ hpast, List.drop_eq_nil_of_le (by omega)]
      simp
    · rw [sliceFrom_in s _ (by omega) (by omega)]
      by_cases hz : s + n - 1 = 0
      · rw [hz, sliceTo_zero]
        have : n.toNat = 0 := by omega
        simp [this]
      · by_cases he : (xs.length : Int) < s + n - 1
        · rw [sliceTo_past _ _ he (by omega)]
          dsimp only
          rw [if_pos (by omega), List.take_of_length_le (by rw [List.length_drop]; omega),
            List.take_of_length_le (by rw [List.length_drop]; omega)]
        · rw [sliceTo_in _ _ (by omega) (by omega)]
          dsimp only
          by_cases hn0 : n = 0
          · rw [if_neg (by omega)]; simp [hn0]
          · rw [if_pos (by omega)]
            congr 1
            omega
  · have hneg : s < 0 ∧ 0 ≤ (xs.length : Int) + s ∧ s + n ≤ 0 := by
      rcases h with h | h
      · exact absurd h hs
      · exact h
    obtain ⟨h1, h2, h3⟩ := hneg
    rw [if_neg hs, if_neg (by omega), dfSlice, sliceFrom_neg s _ h1 h2]
    have hto : sliceTo (s + n - 1) xs.length =
        if 0 ≤ s + n - 1 + xs.length then some (s + n - 1 + xs.length).toNat else none := by
      simp only [sliceTo]
      rw [if_pos (show s + n - 1 < 0 by omega)]
      by_cases h4 : 0 ≤ s + n - 1 + (xs.length : Int)
      · rw [if_pos h4, if_pos (by omega)]
      · rw [if_neg h4, if_neg (by omega)]
    rw [hto]
    by_cases hn0 : n = 0
    · subst hn0
      by_cases h4 : 0 ≤ s + 0 - 1 + (xs.length : Int)
      · rw [if_pos h4]; dsimp only; rw [if_neg (by omega)]; simp
      · rw [if_neg h4]; simp
    · rw [if_pos (by omega)]
      dsimp only
      rw [if_pos (by omega)]
      congr 1
      omega

example : (0 : Int) ≤ 2 ∧ ((0 : Int) < -3 ∨ ((-3 : Int) < 0 ∧ 0 ≤ (([some 1, some 2, some 3] : List (Option Nat)).length : Int) + -3 ∧ (-3 : Int) + 2 ≤ 0)) := by
  decide +kernel

example : sparkSlice (some [some 1, some 2, some 3]) (some (-3)) (some 2) =
    (some [some 1, some 2] : Option (List (Option Nat))) := by decide +kernel

/-- **C133** (refuted in full).  With a start that counts from the end and a length that passes the
end, Spark returns what there is; here the slice of any array with at least two elements is
empty when it starts at the last element and asks for two. -/
theorem C133_slice_past_end (xs : List (Option α)) (n : Nat) (h : 2 ≤ n) (hl : n ≤ xs.length) :
    sparkSlice (some xs) (some (-1)) (some n) = some [] ∧
      (Spec.slice xs (-1) n).length = 1 := by
  refine ⟨?_, ?_⟩
  · simp only [sparkSlice, dfSlice]
    rw [sliceFrom_neg (-1) _ (by omega) (by omega)]
    by_cases h2 : n = 2
    · subst h2
      have : (-1 : Int) + ((2 : Nat) : Int) - 1 = 0 := by omega
      rw [this, sliceTo_zero]
    · rw [sliceTo_in _ _ (by omega) (by omega)]
      dsimp only
      rw [if_neg (by omega)]
  · rw [Spec.slice, if_neg (by omega), if_neg (by omega), List.length_take, List.length_drop]
    omega

/-- **C133** (refuted in full).  Start 0 and a negative length are errors in Spark; here they
give an array. -/
theorem C133_slice_no_error (xs : List (Option α)) (s n : Int) :
    ∃ ys, sparkSlice (some xs) (some s) (some n) = some ys := ⟨_, rfl⟩

example : sparkSlice (some [some 1, some 2, some 3]) (some 0) (some 2) =
    (some [some 1] : Option (List (Option Nat))) := by decide +kernel

/-- **C133** (part).  get gives the element at a 0-based index and NULL past the end and for index
-1.  Missing: lower indices (`C133_get_from_end`). -/
theorem C133_get_partial (xs : List (Option α)) (i : Int) (h : -1 ≤ i) :
    sparkGet (some xs) (some i) = Spec.get xs i := by
  simp only [sparkGet, dfElement, Spec.get]
  by_cases hi : 0 ≤ i
  · rw [if_pos (by omega), if_pos hi]
    have : (i + 1 - 1).toNat = i.toNat := by omega
    rw [this]
  · rw [if_neg (by omega), if_neg (by omega), if_neg hi]

/-- **C133** (refuted in full).  An index below -1 counts from the end of the array, one element
off: `get(a, -2)` is the last element where Spark gives NULL. -/
theorem C133_get_from_end (xs : List (Option α)) (v : Option α) :
    sparkGet (some (xs ++ [v])) (some (-2)) = v ∧ Spec.get (xs ++ [v]) (-2) = none := by
  refine ⟨?_, by simp [Spec.get]⟩
  simp only [sparkGet, dfElement]
  rw [if_neg (by omega), if_pos (by simp; omega)]
  have : ((((xs ++ [v]).length : Nat) : Int) + (-2 + 1)).toNat = xs.length := by simp; omega
  rw [this]
  simp

example : sparkGet (some [some 1, some 2]) (some (-2)) = some 2 := by decide +kernel

end Verif.Arrays
