import Verif.Plan.Unpivot

/-!
# C159: unpivot gives one row for each value column of each row
-/

namespace Verif.Plan.Unpivot

variable {α : Type}

namespace Spec

/-- The columns that are not in a list, in their order. -/
def others (width : Nat) (chosen rest : List Nat) : Prop :=
  rest.Pairwise (· < ·) ∧ ∀ i, i ∈ rest ↔ i < width ∧ i ∉ chosen

/-- The columns in the two roles. -/
def roles (width : Nat) (ids : Option (List Nat)) (values : Option (List Nat)) (idCols valueCols : List Nat) : Prop :=
  match ids, values with
  | some is, some vs => idCols = is ∧ valueCols = vs
  | some is, none => idCols = is ∧ others width is valueCols
  | none, some vs => valueCols = vs ∧ others width vs idCols
  | none, none => False

end Spec

/-- Values of one column each without aliases, as in the DataFrame API. -/
def plain (columns : List Nat) : List Value := columns.map fun c => ⟨[c], none⟩

theorem flat_plain (columns : List Nat) : (plain columns).flatMap Value.columns = columns := by
  induction columns with
  | nil => rfl
  | cons c cs ih =>
    rw [plain, List.map_cons, List.flatMap_cons]
    exact congrArg (c :: ·) ih

theorem remaining_others (width : Nat) (chosen : List Nat) : Spec.others width chosen (remaining width chosen) := by
  constructor
  · exact List.Pairwise.filter _ List.pairwise_lt_range
  · intro i
    simp [remaining]

theorem choose_roles (width : Nat) (ids : Option (List Nat)) (values : Option (List Nat)) (c : List Nat × List Nat)
    (h : choose width ids (values.map plain) = some c) : Spec.roles width ids values c.1 c.2 := by
  have hf : (values.map plain).map (fun vs => vs.flatMap Value.columns) = values := by
    cases values with
    | none => rfl
    | some vs => simp [flat_plain]
  unfold choose at h
  rw [hf] at h
  cases ids with
  | none =>
    cases values with
    | none => cases h
    | some vs =>
      cases vs with
      | nil => cases h
      | cons v vs =>
        simp only [Option.some.injEq] at h
        subst h
        exact ⟨rfl, remaining_others _ _⟩
  | some is =>
    simp only at h
    by_cases hl : is.length = width
    · rw [if_pos hl] at h
      cases h
    · rw [if_neg hl] at h
      cases values with
      | none =>
        simp only [Option.some.injEq] at h
        subst h
        exact ⟨rfl, remaining_others _ _⟩
      | some vs =>
        cases vs with
        | nil => cases h
        | cons v vs =>
          simp only [Option.some.injEq] at h
          subst h
          exact ⟨rfl, rfl⟩

theorem flatMap_getElem {γ δ : Type} (f : γ → List δ) (m : Nat) (hf : ∀ x, (f x).length = m) :
    ∀ (l : List γ) (i k : Nat) (x : γ), l[i]? = some x → k < m → (l.flatMap f)[i * m + k]? = (f x)[k]? := by
  intro l
  induction l with
  | nil =>
    intro i k x h
    simp at h
  | cons y l ih =>
    intro i k x h hk
    rw [List.flatMap_cons]
    cases i with
    | zero =>
      simp only [List.getElem?_cons_zero, Option.some.injEq] at h
      subst h
      rw [Nat.zero_mul, Nat.zero_add, List.getElem?_append_left (by rw [hf]; exact hk)]
    | succ i =>
      have he : (i + 1) * m + k = (f y).length + (i * m + k) := by
        rw [hf, Nat.succ_mul]
        omega
      rw [he, List.getElem?_append_right (Nat.le_add_right _ _), Nat.add_sub_cancel_left]
      exact ih i k x (by simpa using h) hk

theorem flatMap_length {γ δ : Type} (f : γ → List δ) (m : Nat) (hf : ∀ x, (f x).length = m) (l : List γ) :
    (l.flatMap f).length = l.length * m := by
  induction l with
  | nil => simp
  | cons y l ih =>
    rw [List.flatMap_cons, List.length_append, hf, ih, List.length_cons, Nat.succ_mul]
    omega

/-- C159: for plain value columns the result has one row for each row and each value column, in this order, with the values
of the id columns, the name of the value column and its value. Missing: aliases, several columns per value, and
leaving out NULLs, which are ignored. -/
theorem C159_rows_partial (names : List String) (ids values : Option (List Nat)) (includeNulls : Bool)
    (rows : List (List (Option α))) (out : List (Out α))
    (run : unpivot names ids (values.map plain) includeNulls rows = some out) :
    ∃ idCols valueCols, Spec.roles names.length ids values idCols valueCols
      ∧ out.length = rows.length * valueCols.length
      ∧ ∀ (i k : Nat) (row : List (Option α)) (v : Nat) (name : String) (x : Option α), rows[i]? = some row →
        valueCols[k]? = some v → names[v]? = some name → row[v]? = some x →
        ∃ o, out[i * valueCols.length + k]? = some o ∧ o.name = name ∧ o.value = x ∧ o.ids.length = idCols.length
          ∧ ∀ (j c : Nat) (y : Option α), idCols[j]? = some c → row[c]? = some y → o.ids[j]? = some y := by
  unfold unpivot at run
  rw [Option.map_eq_some_iff] at run
  obtain ⟨c, hc, rfl⟩ := run
  have hlen : ∀ row : List (Option α), (expand names c.1 c.2 row).length = c.2.length := by
    intro row
    simp [expand]
  refine ⟨c.1, c.2, choose_roles _ _ _ _ hc, flatMap_length _ _ hlen rows, ?_⟩
  intro i k row v name x hi hk hn hx
  have hlt := (List.getElem?_eq_some_iff.1 hk).1
  refine ⟨⟨c.1.map (cell row), (names[v]?).getD "", cell row v⟩, ?_, by simp [hn], by simp [cell, hx], by simp, ?_⟩
  · rw [flatMap_getElem _ _ hlen rows i k row hi hlt]
    simp [expand, hk]
  · intro j d y hj hy
    simp [hj, cell, hy]

/-- C159: unpivot is refused exactly when as many ids as columns are given, when the list of value columns is empty, or
when neither is given. -/
theorem C159_refused (names : List String) (ids values : Option (List Nat)) (includeNulls : Bool)
    (rows : List (List (Option α))) :
    unpivot names ids (values.map plain) includeNulls rows = none
      ↔ (∃ is, ids = some is ∧ is.length = names.length) ∨ values = some [] ∨ (ids = none ∧ values = none) := by
  have hf : (values.map plain).map (fun vs => vs.flatMap Value.columns) = values := by
    cases values with
    | none => rfl
    | some vs => simp [flat_plain]
  unfold unpivot choose
  rw [Option.map_eq_none_iff, hf]
  cases ids with
  | none =>
    cases values with
    | none => simp
    | some vs => cases vs <;> simp
  | some is =>
    by_cases hl : is.length = names.length
    · simp [hl]
    · cases values with
      | none => simp [hl]
      | some vs => cases vs <;> simp [hl]

/-- C159: rows whose value is NULL are kept although NULLs are not to be included. -/
theorem C159_nulls_kept : ∃ (names : List String) (values : List Value) (rows : List (List (Option Nat)))
    (out : List (Out Nat)), unpivot names none (some values) false rows = some out ∧ ∃ o ∈ out, o.value = none :=
  ⟨["a", "b"], plain [1], [[some 1, none]], [⟨[some 1], "b", none⟩], by decide, ⟨[some 1], "b", none⟩, by simp, rfl⟩

/-- C159: the aliases of the values have no effect. -/
theorem C159_alias_ignored (names : List String) (ids : Option (List Nat)) (values : List Value) (includeNulls : Bool)
    (rows : List (List (Option α))) (f : Value → Option String) :
    unpivot names ids (some (values.map fun v => { v with alias := f v })) includeNulls rows
      = unpivot names ids (some values) includeNulls rows := by
  have h : (values.map fun v => { v with alias := f v }).flatMap Value.columns = values.flatMap Value.columns := by
    rw [List.flatMap_map]
  unfold unpivot choose
  simp only [Option.map_some, h]

/-- C159: several columns per value are treated as values of one column each. -/
theorem C159_groups_flattened (names : List String) (ids : Option (List Nat)) (values : List Value) (includeNulls : Bool)
    (rows : List (List (Option α))) :
    unpivot names ids (some values) includeNulls rows
      = unpivot names ids (some (plain (values.flatMap Value.columns))) includeNulls rows := by
  unfold unpivot choose
  simp only [Option.map_some, flat_plain]

/-- Two rows, one id and two values; the ids and the values by what remains. -/
example : unpivot ["id", "x", "y"] (some [0]) none false [[some 1, some 2, none], [some 3, some 4, some 5]]
      = some [⟨[some 1], "x", some 2⟩, ⟨[some 1], "y", none⟩, ⟨[some 3], "x", some 4⟩, ⟨[some 3], "y", some 5⟩]
    ∧ unpivot ["id", "x", "y"] none ((some [2]).map plain) false [[some 1, some 2, none]]
      = some [⟨[some 1, some 2], "y", none⟩]
    ∧ unpivot ["id", "x"] (some [0, 1]) ((some [1]).map plain) false [[some 1, some 2]] = none := by
  decide

end Verif.Plan.Unpivot
