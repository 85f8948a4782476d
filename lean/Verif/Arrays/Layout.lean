/-!
# List columns and the kernels that work on them

A list column is one flat buffer of values, the offsets of its rows in that buffer and a validity
flag per row.  A column that was cut out of a larger batch keeps the whole buffer and starts at
an offset that is not zero; a row that is NULL may still span values of the buffer.
-/
namespace Verif.Arrays

variable {α β : Type}

/-- A list column as the functions get it: `crates/sail-function/src/scalar/map/utils.rs` 34-67
(`get_list_values`, `get_list_offsets`) and
`crates/sail-function/src/scalar/array/spark_array_compact.rs` 86-88.  The offsets, which Arrow
keeps ascending, are given by the first of them and the lengths of the rows; every row carries its
validity.  Offsets are natural numbers (32 or 64 bits in the code). -/
structure ListCol (α : Type) where
  values : List α
  first : Nat
  rows : List (Nat × Bool)
deriving Repr, DecidableEq

/-- What a reader sees in the rows that start at an offset: NULL or the values of the row (the
layout of Arrow lists). -/
def cellsFrom (values : List α) : Nat → List (Nat × Bool) → List (Option (List α))
  | _, [] => []
  | o, (n, v) :: rest =>
    (if v then some ((values.drop o).take n) else none) :: cellsFrom values (o + n) rest

/-- What a reader sees in the column. -/
def ListCol.cells (c : ListCol α) : List (Option (List α)) := cellsFrom c.values c.first c.rows

/-- The number of values spanned by rows. -/
def spanned : List (Nat × Bool) → Nat
  | [] => 0
  | (n, _) :: rest => n + spanned rest

/-- Arrow's guarantee: the last offset does not exceed the length of the buffer. -/
def ListCol.Wf (c : ListCol α) : Prop := c.first + spanned c.rows ≤ c.values.length

instance (c : ListCol α) : Decidable c.Wf := by unfold ListCol.Wf; infer_instance

/-- The values selected by a mask, position by position. -/
def maskFilter : List α → List Bool → List α
  | x :: xs, true :: m => x :: maskFilter xs m
  | _ :: xs, false :: m => maskFilter xs m
  | _, _ => []

/-- Arrow's `filter` as called in `crates/sail-function/src/scalar/map/utils.rs` 217 and
`crates/sail-function/src/scalar/array/spark_array_compact.rs` 121: a mask that is longer than the
array is an error (`none`), a shorter one selects among the first values. -/
def arrowFilter (xs : List α) (m : List Bool) : Option (List α) :=
  if m.length ≤ xs.length then some (maskFilter xs m) else none

/-- Arrow's `take` as called in `crates/sail-function/src/scalar/map/utils.rs` 218: an index
outside the array is an error. -/
def arrowTake (xs : List α) : List Nat → Option (List α)
  | [] => some []
  | i :: is =>
    match xs[i]?, arrowTake xs is with
    | some x, some ys => some (x :: ys)
    | _, _ => none

/-- The rows between consecutive offsets. -/
def rowsOfOffsets : List Nat → List Bool → List (Nat × Bool)
  | o :: o' :: rest, v :: vs => (o' - o, v) :: rowsOfOffsets (o' :: rest) vs
  | _, _ => []

/-- Offsets that ascend. -/
def ascending : List Nat → Bool
  | o :: o' :: rest => decide (o ≤ o') && ascending (o' :: rest)
  | _ => true

/-- Building a list column from offsets, values and validity
(`crates/sail-function/src/scalar/array/spark_array_compact.rs` 128-133,
`crates/sail-function/src/scalar/map/utils.rs` 130-138): Arrow refuses offsets that descend or
pass the end of the values and a validity of another length (`none`). -/
def mkList (values : List α) (offsets : List Nat) (valid : List Bool) : Option (ListCol α) :=
  match offsets with
  | [] => none
  | o :: _ =>
    if ascending offsets && decide (offsets.length = valid.length + 1) &&
        decide (offsets.getLast?.getD 0 ≤ values.length) then
      some ⟨values, o, rowsOfOffsets offsets valid⟩
    else none

/-! ## Facts about the layout -/

/-- The offsets of rows with the given lengths. -/
def offsetsOf : Nat → List Nat → List Nat
  | o, [] => [o]
  | o, n :: ns => o :: offsetsOf (o + n) ns

theorem cellsFrom_length (values : List α) (o : Nat) (rows : List (Nat × Bool)) :
    (cellsFrom values o rows).length = rows.length := by
  induction rows generalizing o with
  | nil => rfl
  | cons r rest ih => simp [cellsFrom, ih]

theorem maskFilter_append (xs : List α) (m m' : List Bool) (h : m.length ≤ xs.length) :
    maskFilter xs (m ++ m') = maskFilter xs m ++ maskFilter (xs.drop m.length) m' := by
  induction m generalizing xs with
  | nil => simp [maskFilter]
  | cons b m ih =>
    cases xs with
    | nil => simp at h
    | cons x xs =>
      have h' : m.length ≤ xs.length := by simpa using h
      cases b <;> simp [maskFilter, ih xs h']

/-- Marking the first `n` values by a test keeps those that pass it. -/
theorem maskFilter_test (xs : List α) (p : α → Bool) (n : Nat) (h : n ≤ xs.length) :
    maskFilter xs ((List.range n).map (fun i : Nat => ((xs[i]?).map p).getD false)) =
      (xs.take n).filter p := by
  induction n generalizing xs with
  | zero => cases xs <;> simp [maskFilter]
  | succ n ih =>
    cases xs with
    | nil => simp at h
    | cons x xs =>
      have h' : n ≤ xs.length := by simpa using h
      have := ih xs h'
      rw [List.range_succ_eq_map, List.map_cons, List.map_map]
      cases hp : p x
      · simp [maskFilter, hp, Function.comp_def, this]
      · simp [maskFilter, hp, Function.comp_def, this]

theorem maskFilter_none (xs : List α) (n : Nat) : maskFilter xs (List.replicate n false) = [] := by
  induction n generalizing xs with
  | zero => cases xs <;> rfl
  | succ n ih => cases xs <;> simp [List.replicate_succ, maskFilter, ih]

theorem ascending_offsetsOf (o : Nat) (ns : List Nat) : ascending (offsetsOf o ns) = true := by
  induction ns generalizing o with
  | nil => rfl
  | cons n ns ih =>
    cases ns with
    | nil => simp [offsetsOf, ascending]
    | cons m ms =>
      have := ih (o + n)
      simp only [offsetsOf] at this ⊢
      simp [ascending, this]

theorem length_offsetsOf (o : Nat) (ns : List Nat) : (offsetsOf o ns).length = ns.length + 1 := by
  induction ns generalizing o with
  | nil => rfl
  | cons n ns ih => simp [offsetsOf, ih]

theorem offsetsOf_ne_nil (o : Nat) (ns : List Nat) : offsetsOf o ns ≠ [] := by
  cases ns <;> simp [offsetsOf]

theorem last_offsetsOf (o : Nat) (ns : List Nat) :
    (offsetsOf o ns).getLast?.getD 0 = o + ns.sum := by
  induction ns generalizing o with
  | nil => simp [offsetsOf]
  | cons n ns ih =>
    have := ih (o + n)
    rw [offsetsOf, List.getLast?_cons]
    cases hc : (offsetsOf (o + n) ns).getLast? with
    | none => exact absurd (List.getLast?_eq_none_iff.mp hc) (offsetsOf_ne_nil _ _)
    | some v =>
      rw [hc] at this
      simp only [Option.getD_some] at this ⊢
      rw [this, List.sum_cons]
      omega

theorem rowsOfOffsets_offsetsOf (o : Nat) (ns : List Nat) (vs : List Bool)
    (h : ns.length = vs.length) : rowsOfOffsets (offsetsOf o ns) vs = ns.zip vs := by
  induction ns generalizing o vs with
  | nil => cases vs <;> simp [offsetsOf, rowsOfOffsets]
  | cons n ns ih =>
    cases vs with
    | nil => simp at h
    | cons v vs =>
      have h' : ns.length = vs.length := by simpa using h
      have := ih (o + n) vs h'
      cases ns with
      | nil =>
        cases vs with
        | nil => simp [offsetsOf, rowsOfOffsets]
        | cons _ _ => simp at h'
      | cons m ms =>
        simp only [offsetsOf] at this ⊢
        simp [rowsOfOffsets, this]

theorem cellsFrom_pieces (pre : List α) (ps : List (List α)) (vs : List Bool) (post : List α)
    (h : ps.length = vs.length) :
    cellsFrom (pre ++ (ps.flatten ++ post)) pre.length ((ps.map List.length).zip vs) =
      List.zipWith (fun p v => if v then some p else none) ps vs := by
  induction ps generalizing pre vs with
  | nil => cases vs <;> simp [cellsFrom]
  | cons p ps ih =>
    cases vs with
    | nil => simp at h
    | cons v vs =>
      have h' : ps.length = vs.length := by simpa using h
      have := ih (pre ++ p) vs h'
      simp only [List.length_append, List.append_assoc] at this
      simp only [List.flatten_cons, List.map_cons, List.zip_cons_cons, cellsFrom,
        List.zipWith_cons_cons, List.append_assoc, this]
      congr 1
      cases v
      · simp
      · simp

/-- A column that is built from pieces shows the pieces. -/
theorem mkList_pieces (ps : List (List α)) (vs : List Bool) (h : ps.length = vs.length) :
    ∃ c, mkList ps.flatten (offsetsOf 0 (ps.map List.length)) vs = some c ∧
      c.cells = List.zipWith (fun p v => if v then some p else none) ps vs := by
  have hl : (offsetsOf 0 (ps.map List.length)).length = vs.length + 1 := by
    rw [length_offsetsOf]; simp [h]
  have hs : (offsetsOf 0 (ps.map List.length)).getLast?.getD 0 ≤ ps.flatten.length := by
    rw [last_offsetsOf]; simp [List.length_flatten]
  have ha := ascending_offsetsOf 0 (ps.map List.length)
  have hr := rowsOfOffsets_offsetsOf 0 (ps.map List.length) vs (by simpa using h)
  refine ⟨⟨ps.flatten, 0, (ps.map List.length).zip vs⟩, ?_, ?_⟩
  · rw [mkList.eq_def]
    cases hc : offsetsOf 0 (ps.map List.length) with
    | nil => exact absurd hc (offsetsOf_ne_nil _ _)
    | cons o os =>
      have ho : o = 0 := by
        cases hp : ps.map List.length with
        | nil => rw [hp] at hc; simp [offsetsOf] at hc; exact hc.1.symm
        | cons n ns => rw [hp] at hc; simp [offsetsOf] at hc; exact hc.1.symm
      rw [hc] at ha hl hs hr
      dsimp only
      rw [hr, ha]
      rw [if_pos (by simp only [hl, decide_true, Bool.true_and, decide_eq_true_eq]; exact hs), ho]
  · have := cellsFrom_pieces [] ps vs [] h
    simpa [ListCol.cells] using this

end Verif.Arrays
