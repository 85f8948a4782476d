import Verif.Arrays.Compact
/-!
# What array_compact, array_min and array_max return (C128, C129)
-/
namespace Verif.Arrays

variable {α β : Type}

namespace Spec

/-- array_compact on a cell. -/
def compact (cell : Option (List (Option β))) : Option (List (Option β)) :=
  cell.map (fun r : List (Option β) => r.filter Option.isSome)

/-- array_min on a cell. -/
def least (cell : Option (List (Option Int))) : Option Int :=
  match cell with
  | none => none
  | some r => (r.filterMap id).min?

/-- array_max on a cell. -/
def greatest (cell : Option (List (Option Int))) : Option Int :=
  match cell with
  | none => none
  | some r => (r.filterMap id).max?

/-- A NULL row spans no values. -/
def NothingHidden (c : ListCol α) : Prop := ∀ r ∈ c.rows, r.2 = false → r.1 = 0

end Spec

/-! ## array_compact -/

/-- The values a row contributes. -/
def compactPiece (cell : Option (List (Option β))) : List (Option β) :=
  match cell with
  | none => []
  | some r => r.filter Option.isSome

theorem length_filter_id_eq {γ : Type} (xs : List γ) (p : γ → Bool) (n : Nat) (h : n ≤ xs.length) :
    (((List.range n).map (fun i : Nat => ((xs[i]?).map p).getD false)).filter id).length =
      ((xs.take n).filter p).length := by
  induction n generalizing xs with
  | zero => simp
  | succ n ih =>
    cases xs with
    | nil => simp at h
    | cons x xs =>
      have h' : n ≤ xs.length := by simpa using h
      have := ih xs h'
      rw [List.range_succ_eq_map, List.map_cons, List.map_map]
      cases hp : p x <;> simp [hp, Function.comp_def] <;> simpa using this

theorem compactRows_spec (values : List (Option β)) (rows : List (Nat × Bool)) (o : Nat)
    (st : CompactSt) (hk : st.keep.length = o) (hw : o + spanned rows ≤ values.length) :
    (compactRows values o rows st).keep.length = o + spanned rows ∧
    maskFilter values (compactRows values o rows st).keep =
      maskFilter values st.keep ++ ((cellsFrom values o rows).map compactPiece).flatten ∧
    (compactRows values o rows st).offsets =
      st.offsets ++
        (offsetsOf st.kept (((cellsFrom values o rows).map compactPiece).map List.length)).tail := by
  induction rows generalizing o st with
  | nil => simp [compactRows, cellsFrom, spanned, hk, offsetsOf]
  | cons r rest ih =>
    obtain ⟨n, v⟩ := r
    simp only [spanned] at hw
    have hn : n ≤ (values.drop o).length := by rw [List.length_drop]; omega
    have hb : (fun i : Nat => ((values[o + i]?).map Option.isSome).getD false) =
        (fun i : Nat => (((values.drop o)[i]?).map Option.isSome).getD false) := by
      funext i; rw [List.getElem?_drop]
    have hl : (compactRow values o n v st).keep.length = o + n := by
      cases v <;> simp [compactRow, hk]
    obtain ⟨h1, h2, h3⟩ := ih (o + n) (compactRow values o n v st) hl (by omega)
    have hkv : st.keep.length ≤ values.length := by omega
    have hmask : maskFilter values (compactRow values o n v st).keep =
        maskFilter values st.keep ++
          compactPiece (if v then some ((values.drop o).take n) else none) := by
      cases v
      · simp [compactRow, maskFilter_append values _ _ hkv, maskFilter_none, compactPiece]
      · simp only [compactRow, if_true, maskFilter_append values _ _ hkv, hk, hb,
          maskFilter_test _ _ _ hn, compactPiece]
    have hkept : (compactRow values o n v st).kept =
        st.kept + (compactPiece (if v then some ((values.drop o).take n) else none)).length := by
      cases v
      · simp [compactRow, compactPiece]
      · simp only [compactRow, if_true, hb, length_filter_id_eq _ _ _ hn, compactPiece]
    have hoff : (compactRow values o n v st).offsets =
        st.offsets ++ [(compactRow values o n v st).kept] := by
      cases v <;> simp [compactRow]
    refine ⟨?_, ?_, ?_⟩
    · rw [compactRows, h1, spanned]; omega
    · rw [compactRows, h2, hmask, cellsFrom, List.map_cons, List.flatten_cons, List.append_assoc]
    · rw [compactRows, h3, hoff, cellsFrom, List.map_cons, List.map_cons, offsetsOf, hkept]
      have hne := offsetsOf_ne_nil
        (st.kept + (compactPiece (if v then some ((values.drop o).take n) else none)).length)
        (((cellsFrom values (o + n) rest).map compactPiece).map List.length)
      cases hc : offsetsOf
        (st.kept + (compactPiece (if v then some ((values.drop o).take n) else none)).length)
        (((cellsFrom values (o + n) rest).map compactPiece).map List.length) with
      | nil => exact absurd hc hne
      | cons a as =>
        have ha : a = st.kept +
            (compactPiece (if v then some ((values.drop o).take n) else none)).length := by
          cases hp : ((cellsFrom values (o + n) rest).map compactPiece).map List.length with
          | nil => rw [hp] at hc; simp only [offsetsOf, List.cons.injEq] at hc; exact hc.1.symm
          | cons _ _ => rw [hp] at hc; simp only [offsetsOf, List.cons.injEq] at hc; exact hc.1.symm
        simp [ha]

theorem zip_compact (values : List (Option β)) (o : Nat) (rows : List (Nat × Bool)) :
    List.zipWith (fun p v => if v then some p else none)
      ((cellsFrom values o rows).map compactPiece) (rows.map (fun r : Nat × Bool => r.2)) =
      (cellsFrom values o rows).map Spec.compact := by
  induction rows generalizing o with
  | nil => rfl
  | cons r rest ih =>
    obtain ⟨n, v⟩ := r
    cases v <;> simp [cellsFrom, compactPiece, Spec.compact, ih]

/-- **C128** (part).  For a column that starts at the first value of its buffer, array_compact
returns in every row the elements that are not NULL, in order, and NULL for a NULL row; it does
not fail.  Missing: columns that start later in their buffer, for which it is false
(`C128_cut_batch`). -/
theorem C128_drops_nulls_partial (c : ListCol (Option β)) (hw : c.Wf) (h0 : c.first = 0) :
    ∃ d, arrayCompact c = some d ∧ d.cells = c.cells.map Spec.compact := by
  have hw' : 0 + spanned c.rows ≤ c.values.length := by
    have := hw; unfold ListCol.Wf at this; omega
  obtain ⟨h1, h2, h3⟩ := compactRows_spec c.values c.rows 0 ⟨[], 0, [0]⟩ rfl hw'
  have hp := mkList_pieces ((cellsFrom c.values 0 c.rows).map compactPiece)
    (c.rows.map (fun r : Nat × Bool => r.2)) (by simp [cellsFrom_length])
  obtain ⟨d, hd, hdc⟩ := hp
  refine ⟨d, ?_, ?_⟩
  · have ho : offsetsOf 0 (((cellsFrom c.values 0 c.rows).map compactPiece).map List.length) =
        [0] ++ (offsetsOf 0 (((cellsFrom c.values 0 c.rows).map compactPiece).map
          List.length)).tail := by
      cases hq : ((cellsFrom c.values 0 c.rows).map compactPiece).map List.length <;>
        simp [offsetsOf]
    have hmf : maskFilter c.values ([] : List Bool) = [] := by
      cases c.values <;> rfl
    simp only [hmf, List.nil_append] at h2
    rw [arrayCompact, h0, arrowFilter, h1, if_pos hw', h2, h3]
    dsimp only
    rw [← ho]
    exact hd
  · rw [hdc, zip_compact, ListCol.cells, h0]

example : arrayCompact (⟨[some 1, none, some 2, some 3, none], 0, [(2, true), (1, false), (2, true)]⟩ :
    ListCol (Option Nat)) = some ⟨[some 1, some 3], 0, [(1, true), (0, false), (1, true)]⟩ := by
  decide +kernel

/-- **C128** (refuted in full).  A batch that was cut behind the first row: the column shows the
single row `[NULL, 2]`, array_compact returns `[NULL]`. -/
theorem C128_cut_batch :
    ∃ c : ListCol (Option Nat), c.Wf ∧ c.cells = [some [none, some 2]] ∧
      (arrayCompact c).map ListCol.cells = some [some [none]] :=
  ⟨⟨[some 1, none, none, some 2], 2, [(2, true)]⟩, by decide +kernel, by decide +kernel, by
    decide +kernel⟩

/-- **C128**: how wrong it is in general.  Whatever the buffer holds before the first row, the
rows of the result are made of the first values of the buffer: a column with one row of values
that are not NULL returns the values at the start of the buffer instead of its own. -/
theorem C128_returns_start_of_buffer (pre row : List (Option β)) (hr : ∀ x ∈ row, x.isSome = true) :
    ∃ d, arrayCompact ⟨pre ++ row, pre.length, [(row.length, true)]⟩ = some d ∧
      d.cells = [some ((pre ++ row).take row.length)] := by
  have hb : (List.range row.length).map
      (fun i : Nat => (((pre ++ row)[pre.length + i]?).map Option.isSome).getD false) =
      List.replicate row.length true := by
    apply List.ext_getElem
    · simp
    · intro i h1 h2
      simp only [List.length_map, List.length_range] at h1
      simp only [List.getElem_map, List.getElem_range, List.getElem_replicate]
      rw [List.getElem?_append_right (by omega)]
      have : pre.length + i - pre.length = i := by omega
      rw [this, List.getElem?_eq_getElem h1]
      simpa using hr _ (List.getElem_mem h1)
  have hf : ∀ (xs : List (Option β)) (n : Nat), maskFilter xs (List.replicate n true) = xs.take n := by
    intro xs n
    induction n generalizing xs with
    | zero => cases xs <;> rfl
    | succ n ih => cases xs <;> simp [List.replicate_succ, maskFilter, ih]
  refine ⟨⟨(pre ++ row).take row.length, 0, [(row.length, true)]⟩, ?_, ?_⟩
  · rw [arrayCompact]
    simp only [compactRows, compactRow, if_true, hb, List.nil_append]
    rw [arrowFilter, if_pos (by simp), hf]
    simp [mkList, ascending, rowsOfOffsets]
  · simp [ListCol.cells, cellsFrom, List.take_take]

example : ∀ x ∈ [some 7, some 8], (x : Option Nat).isSome = true := by decide

/-! ## array_min and array_max -/

theorem minBatch_eq (xs : List (Option Int)) : minBatch xs = (xs.filterMap id).min? := by
  induction xs with
  | nil => rfl
  | cons x xs ih =>
    cases x with
    | none => simpa [minBatch] using ih
    | some x =>
      simp only [minBatch, ih, List.filterMap_cons, id]
      rw [List.min?_cons]
      cases h : (xs.filterMap id).min? with
      | none => rfl
      | some y =>
        simp only [Option.elim_some, Option.some.injEq]
        split <;> omega

theorem maxBatch_eq (xs : List (Option Int)) : maxBatch xs = (xs.filterMap id).max? := by
  induction xs with
  | nil => rfl
  | cons x xs ih =>
    cases x with
    | none => simpa [maxBatch] using ih
    | some x =>
      simp only [maxBatch, ih, List.filterMap_cons, id]
      rw [List.max?_cons]
      cases h : (xs.filterMap id).max? with
      | none => rfl
      | some y =>
        simp only [Option.elim_some, Option.some.injEq]
        split <;> omega

theorem computeRows_eq (batch : List (Option Int) → Option Int)
    (spec : Option (List (Option Int)) → Option Int) (hs : ∀ r, spec (some r) = batch r)
    (hn : spec none = batch []) (values : List (Option Int)) (o : Nat) (rows : List (Nat × Bool))
    (hh : ∀ r ∈ rows, r.2 = false → r.1 = 0) :
    computeRows batch values o rows = (cellsFrom values o rows).map spec := by
  induction rows generalizing o with
  | nil => rfl
  | cons r rest ih =>
    obtain ⟨n, v⟩ := r
    rw [computeRows, cellsFrom, List.map_cons, ih (o + n) (fun r hr => hh r (by simp [hr]))]
    congr 1
    cases v
    · have h0 : n = 0 := hh (n, false) (by simp) rfl
      simp [h0, hn]
    · simp [hs]

theorem iterToArray_some (xs : List (Option Int)) (h : xs ≠ []) : iterToArray xs = some xs := by
  cases xs with
  | nil => exact absurd rfl h
  | cons x xs => rfl

/-- **C129** (part).  On a batch with at least one row in which NULL rows span no values,
array_min returns the least element that is not NULL, NULL for a row without one.  Missing: the
empty batch (`C129_empty_batch`) and NULL rows with values behind them (`C129_hidden_values`). -/
theorem C129_array_min_partial (c : ListCol (Option Int)) (hr : c.rows ≠ [])
    (hh : Spec.NothingHidden c) : arrayMin c = some (c.cells.map Spec.least) := by
  have h := computeRows_eq minBatch Spec.least (fun r => (minBatch_eq r).symm) rfl c.values c.first
    c.rows hh
  rw [arrayMin, h]
  refine iterToArray_some _ ?_
  intro he
  have := congrArg List.length he
  simp only [List.length_map, cellsFrom_length, List.length_nil, List.length_eq_zero_iff] at this
  exact hr this

/-- **C129** (part).  The same for array_max. -/
theorem C129_array_max_partial (c : ListCol (Option Int)) (hr : c.rows ≠ [])
    (hh : Spec.NothingHidden c) : arrayMax c = some (c.cells.map Spec.greatest) := by
  have h := computeRows_eq maxBatch Spec.greatest (fun r => (maxBatch_eq r).symm) rfl c.values
    c.first c.rows hh
  rw [arrayMax, h]
  refine iterToArray_some _ ?_
  intro he
  have := congrArg List.length he
  simp only [List.length_map, cellsFrom_length, List.length_nil, List.length_eq_zero_iff] at this
  exact hr this

example : arrayMin ⟨[none, some 4, some 2, none, some 9], 1, [(3, true), (0, false), (1, true)]⟩ =
    some [some 2, none, some 9] := by decide +kernel

example : arrayMax ⟨[none, some 4, some 2, none, some 9], 1, [(3, true), (0, false), (1, true)]⟩ =
    some [some 4, none, some 9] := by decide +kernel

/-- The least element, said without `List.min?`. -/
theorem C129_least_is_least (r : List (Option Int)) (m : Int) :
    Spec.least (some r) = some m ↔ some m ∈ r ∧ ∀ x : Int, some x ∈ r → m ≤ x := by
  simp only [Spec.least]
  rw [List.min?_eq_some_iff]
  simp

/-- The greatest element, said without `List.max?`. -/
theorem C129_greatest_is_greatest (r : List (Option Int)) (m : Int) :
    Spec.greatest (some r) = some m ↔ some m ∈ r ∧ ∀ x : Int, some x ∈ r → x ≤ m := by
  simp only [Spec.greatest]
  rw [List.max?_eq_some_iff]
  simp

example : Spec.least (some [some 3, none, some 1]) = some 1 := by decide

example : Spec.greatest (some [some 3, none, some 1]) = some 3 := by decide

/-- **C129** (refuted in full): array_min and array_max fail on a batch without rows. -/
theorem C129_empty_batch (values : List (Option Int)) (o : Nat) :
    arrayMin ⟨values, o, []⟩ = none ∧ arrayMax ⟨values, o, []⟩ = none := ⟨rfl, rfl⟩

/-- **C129** (refuted in full): a row that is NULL but spans a value returns that value. -/
theorem C129_hidden_values (x : Int) :
    (⟨[some x], 0, [(1, false)]⟩ : ListCol (Option Int)).cells = [none] ∧
      arrayMin ⟨[some x], 0, [(1, false)]⟩ = some [some x] ∧
      arrayMax ⟨[some x], 0, [(1, false)]⟩ = some [some x] := ⟨rfl, rfl, rfl⟩

/-- **C129** (refuted in full): such rows come out of concat.  `concat(array(x), NULL)` is NULL and
its array_min is `x`. -/
theorem C129_min_of_null_concat (x : Int) :
    ∃ c, concatCols ⟨[some x], 0, [(1, true)]⟩ ⟨[], 0, [(0, false)]⟩ = some c ∧ c.cells = [none] ∧
      arrayMin c = some [some x] := ⟨⟨[some x], 0, [(1, false)]⟩, rfl, rfl, rfl⟩

end Verif.Arrays
