import Verif.Plan.Crosstab
import Verif.Plan.SetOpProps

/-!
# C160: crosstab counts every pair
-/

namespace Verif.Plan.Crosstab

open Verif.Plan.SetOp (distinct)

/-- How many rows have the pair of values. -/
def Spec.times (l r : Option String) : List Pair → Nat
  | [] => 0
  | row :: rows => (if row.1 = l ∧ row.2 = r then 1 else 0) + Spec.times l r rows

theorem foldl_flags (v : String) : ∀ (rows : List Pair) (k : Nat),
    rows.foldl (fun acc row => acc + flag v row) k = k + sumFlags v rows := by
  intro rows
  induction rows with
  | nil => simp [sumFlags]
  | cons row rows ih =>
    intro k
    rw [sumFlags, List.foldl_cons, List.foldl_cons, ih, ih]
    omega

theorem sumFlags_times (l : Option String) (v : String) (rows : List Pair) :
    sumFlags v (rows.filter fun row => decide (row.1 = l)) = Spec.times l (some v) rows := by
  induction rows with
  | nil => rfl
  | cons row rows ih =>
    rw [List.filter_cons, Spec.times, ← ih]
    by_cases h : row.1 = l
    · rw [if_pos (by simpa using h), sumFlags, List.foldl_cons, foldl_flags, Nat.zero_add, flag]
      by_cases h2 : row.2 = some v
      · rw [if_pos h2.symm, if_pos ⟨h, h2⟩]
      · rw [if_neg fun e => h2 e.symm, if_neg fun e => h2 e.2]
    · rw [if_neg (by simpa using h), if_neg fun e => h e.1, Nat.zero_add]

theorem distinct_mem {α : Type} [DecidableEq α] (l : List α) (x : α) : x ∈ distinct l ↔ x ∈ l := by
  rw [← List.count_pos_iff, SetOp.count_distinct]
  by_cases h : x ∈ l <;> simp [h]

theorem distinct_nodup {α : Type} [DecidableEq α] (l : List α) : (distinct l).Nodup := by
  rw [List.nodup_iff_count]
  intro x
  rw [SetOp.count_distinct]
  split <;> omega

/-- C160: there is one row for each value of the first column, NULL included. -/
theorem C160_rows (rows : List Pair) :
    ((crosstab rows).2.map Prod.fst).Nodup
      ∧ ∀ l, l ∈ (crosstab rows).2.map Prod.fst ↔ ∃ row ∈ rows, row.1 = l := by
  have h : (crosstab rows).2.map Prod.fst = distinct (rows.map Prod.fst) := by
    simp [crosstab, Function.comp_def]
  rw [h]
  refine ⟨distinct_nodup _, ?_⟩
  intro l
  rw [distinct_mem, List.mem_map]

/-- C160: there is one column for each value of the second column that is not NULL. Missing: a column for NULL
(`C160_null_lost`). -/
theorem C160_columns_partial (rows : List Pair) :
    (crosstab rows).1.Nodup ∧ ∀ r, r ∈ (crosstab rows).1 ↔ ∃ row ∈ rows, row.2 = some r := by
  constructor
  · have : ((distinct (rows.map Prod.snd)).filterMap fun v => v).Nodup := by
      unfold List.Nodup
      rw [List.pairwise_filterMap]
      exact (distinct_nodup _).imp fun hne a ha b hb e => hne (by rw [ha, hb, e])
    exact this
  · intro r
    simp only [crosstab, uniqueValues, List.mem_filterMap, distinct_mem, List.mem_map]
    constructor
    · rintro ⟨_, ⟨row, hr, rfl⟩, h⟩
      exact ⟨row, hr, h⟩
    · rintro ⟨row, hr, h⟩
      exact ⟨some r, ⟨row, hr, h⟩, rfl⟩

/-- C160: each cell is the number of rows with its pair of values. -/
theorem C160_cells (rows : List Pair) (l : Option String) (cells : List Nat) (row : (l, cells) ∈ (crosstab rows).2) :
    cells.length = (crosstab rows).1.length
      ∧ ∀ (i : Nat) (r : String), (crosstab rows).1[i]? = some r → cells[i]? = some (Spec.times l (some r) rows) := by
  simp only [crosstab, List.mem_map, Prod.mk.injEq] at row
  obtain ⟨_, _, rfl, rfl⟩ := row
  refine ⟨by simp [crosstab], ?_⟩
  intro i r hr
  have hr' : (uniqueValues rows)[i]? = some r := hr
  rw [List.getElem?_map, hr', Option.map_some, sumFlags_times]

theorem sum_map_add {γ : Type} (f g : γ → Nat) : ∀ l : List γ,
    (l.map fun x => f x + g x).sum = (l.map f).sum + (l.map g).sum := by
  intro l
  induction l with
  | nil => rfl
  | cons x l ih =>
    simp only [List.map_cons, List.sum_cons, ih]
    omega

theorem sum_map_zero {γ : Type} (f : γ → Nat) : ∀ l : List γ, (∀ x ∈ l, f x = 0) → (l.map f).sum = 0 := by
  intro l
  induction l with
  | nil => simp
  | cons x l ih =>
    intro h
    rw [List.map_cons, List.sum_cons, h x (by simp), ih fun y hy => h y (by simp [hy])]

theorem sum_map_one {γ : Type} (f : γ → Nat) (a : γ) : ∀ l : List γ, l.Nodup → a ∈ l → (∀ x, x ≠ a → f x = 0) →
    (l.map f).sum = f a := by
  intro l
  induction l with
  | nil => simp
  | cons x l ih =>
    intro hn ha hf
    rw [List.nodup_cons] at hn
    rw [List.map_cons, List.sum_cons]
    rcases List.mem_cons.1 ha with rfl | hm
    · rw [sum_map_zero f l fun y hy => hf y fun e => hn.1 (e ▸ hy), Nat.add_zero]
    · rw [ih hn.2 hm hf, hf x fun e => hn.1 (e ▸ hm), Nat.zero_add]

theorem sum_times (ls : List (Option String)) (rs : List String) (hl : ls.Nodup) (hr : rs.Nodup) : ∀ rows : List Pair,
    (∀ row ∈ rows, row.1 ∈ ls ∧ ∃ r ∈ rs, row.2 = some r) →
    (ls.map fun l => (rs.map fun r => Spec.times l (some r) rows).sum).sum = rows.length := by
  intro rows
  induction rows with
  | nil =>
    intro _
    apply sum_map_zero
    intro l _
    apply sum_map_zero
    intro r _
    rfl
  | cons row rows ih =>
    intro h
    obtain ⟨h1, r, h2, h3⟩ := h row (by simp)
    simp only [Spec.times, sum_map_add, ih fun x hx => h x (by simp [hx]), List.length_cons]
    rw [sum_map_one _ row.1 ls hl h1, sum_map_one _ r rs hr h2]
    · simp [h3, Nat.add_comm]
    · intro x hx
      rw [if_neg]
      rintro ⟨_, e⟩
      rw [h3] at e
      exact hx (Option.some.inj e).symm
    · intro x hx
      apply sum_map_zero
      intro y _
      rw [if_neg]
      rintro ⟨e, _⟩
      exact hx e.symm

/-- C160: the counts sum up to the number of rows if the second column has no NULL. Missing: rows with NULL there, which are
in no count (`C160_null_lost`). -/
theorem C160_total_partial (rows : List Pair) (noNulls : ∀ row ∈ rows, row.2 ≠ none) :
    ((crosstab rows).2.map fun o => o.2.sum).sum = rows.length := by
  have h : ((crosstab rows).2.map fun o => o.2.sum)
      = (distinct (rows.map Prod.fst)).map fun l => ((crosstab rows).1.map fun r => Spec.times l (some r) rows).sum := by
    simp [crosstab, Function.comp_def, sumFlags_times]
  rw [h]
  refine sum_times _ _ (distinct_nodup _) (C160_columns_partial rows).1 rows ?_
  intro row hrow
  refine ⟨(distinct_mem _ _).2 (List.mem_map.2 ⟨row, hrow, rfl⟩), ?_⟩
  cases h2 : row.2 with
  | none => exact absurd h2 (noNulls row hrow)
  | some r => exact ⟨r, ((C160_columns_partial rows).2 r).2 ⟨row, hrow, h2⟩, rfl⟩

example : ∀ row ∈ ([(some "a", some "x"), (none, some "y")] : List Pair), row.2 ≠ none := by decide

/-- C160: when the second column is NULL in all rows there are no counts at all, where Spark counts them under `null`. -/
theorem C160_null_lost (rows : List Pair) (nulls : ∀ row ∈ rows, row.2 = none) :
    (crosstab rows).1 = [] ∧ ∀ l cells, (l, cells) ∈ (crosstab rows).2 → cells = [] := by
  have h : (crosstab rows).1 = [] := by
    apply List.eq_nil_iff_forall_not_mem.2
    intro r hr
    obtain ⟨row, hrow, he⟩ := ((C160_columns_partial rows).2 r).1 hr
    rw [nulls row hrow] at he
    cases he
  refine ⟨h, ?_⟩
  intro l cells hc
  have := (C160_cells rows l cells hc).1
  rw [h] at this
  exact List.length_eq_zero_iff.1 this

example : ∀ row ∈ ([(some "a", none), (none, none)] : List Pair), row.2 = none := by decide

/-- A pair that occurs twice, a pair that does not occur, and NULLs. -/
example : crosstab [(some "a", some "x"), (some "b", some "y"), (some "a", some "x"), (none, some "x"), (some "b", none)]
    = (["x", "y"], [(some "a", [2, 0]), (some "b", [0, 1]), (none, [1, 0])]) := by
  decide +kernel

end Verif.Plan.Crosstab
