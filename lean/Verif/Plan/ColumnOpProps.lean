import Verif.Plan.ColumnOp

/-!
# C157: withColumns and replace change exactly the columns and values they name
-/

namespace Verif.Plan.ColumnOp

open Verif.Plan.Na (Ty Lit Col)

variable {β : Type}

namespace Spec

/-- Two names are the same but for their case. -/
def same (a b : String) : Prop := a.map Char.toLower = b.map Char.toLower

/-- A column is among the chosen ones; no choice is all columns. -/
def chosen (names : List String) (c : Col) : Prop := names = [] ∨ ∃ n ∈ names, same n c.name

/-- The type of an old value fits a column: NULL, two numeric types, or the same type. -/
def fits (old column : Ty) : Prop :=
  old = .null ∨ old = column
    ∨ (((∃ k, old = .number k) ∨ ∃ w, old = .float w) ∧ ((∃ k, column = .number k) ∨ ∃ w, column = .float w))

/-- A pair applies to a value of a column. -/
def applies (cast : Ty → Lit β → Option β) (p : Lit β × Lit β) (ty : Ty) (b : β) : Prop :=
  fits p.1.ty ty ∧ cast ty p.1 = some b

end Spec

theorem insert_new {γ : Type} (n : String) (e : γ) : ∀ m : List (String × γ), n ∉ m.map Prod.fst →
    insert m n e = m ++ [(n, e)] := by
  intro m
  induction m with
  | nil => simp [insert]
  | cons a m ih =>
    intro h
    simp only [List.map_cons, List.mem_cons, not_or] at h
    rw [insert, if_neg fun e => h.1 e.symm, ih h.2, List.cons_append]

theorem foldl_insert {γ : Type} : ∀ (as m : List (String × γ)), ((m ++ as).map Prod.fst).Nodup →
    as.foldl (fun m a => insert m a.1 a.2) m = m ++ as := by
  intro as
  induction as with
  | nil => simp
  | cons a as ih =>
    intro m h
    have hn : a.1 ∉ m.map Prod.fst := by
      intro hm
      rw [List.map_append, List.nodup_append] at h
      exact h.2.2 _ hm _ (by simp) rfl
    rw [List.foldl_cons, insert_new _ _ _ hn, ih]
    · simp
    · simpa using h

theorem aliasMap_nodup {γ : Type} (as : List (String × γ)) (h : (as.map Prod.fst).Nodup) : aliasMap as = as := by
  rw [aliasMap, foldl_insert as [] (by simpa using h), List.nil_append]

theorem lookup_mem {γ : Type} (n : String) (e : γ) : ∀ m : List (String × γ), (m.map Prod.fst).Nodup → (n, e) ∈ m →
    lookup m n = some e := by
  intro m
  induction m with
  | nil => simp
  | cons a m ih =>
    intro h hm
    rw [List.map_cons, List.nodup_cons] at h
    unfold lookup at ih ⊢
    rw [List.find?_cons]
    rcases List.mem_cons.1 hm with rfl | hm
    · simp
    · have hne : a.1 ≠ n := fun e' => h.1 (by
        rw [e']
        exact List.mem_map.2 ⟨_, hm, rfl⟩)
      have : (a.1 == n) = false := by simpa using hne
      rw [this]
      exact ih h.2 hm

theorem lookup_none {γ : Type} (n : String) (m : List (String × γ)) (h : n ∉ m.map Prod.fst) : lookup m n = none := by
  rw [lookup, Option.map_eq_none_iff, List.find?_eq_none]
  intro a ha he
  rw [beq_iff_eq] at he
  exact h (he ▸ List.mem_map.2 ⟨a, ha, rfl⟩)

/-- C157: `withColumns` with distinct names keeps the existing columns in their places, gives those that are named the
contents computed from the input, and puts the further ones behind in the order given. Missing: names that differ in
their case (`C157_with_columns_case`). -/
theorem C157_with_columns_partial (columns : Cols β) (given : List (String × (Cols β → β)))
    (distinct : (given.map Prod.fst).Nodup) :
    (∀ (i : Nat) (n : String) (b : β), columns[i]? = some (n, b) →
        (∀ e, (n, e) ∈ given → (withColumns columns given)[i]? = some (n, e columns))
        ∧ (n ∉ given.map Prod.fst → (withColumns columns given)[i]? = some (n, b)))
      ∧ (withColumns columns given).drop columns.length
        = (given.filter fun a => decide (a.1 ∉ columns.map Prod.fst)).map fun a => (a.1, a.2 columns) := by
  unfold withColumns
  rw [aliasMap_nodup given distinct]
  constructor
  · intro i n b hi
    have hlt := (List.getElem?_eq_some_iff.1 hi).1
    simp only
    rw [List.getElem?_append_left (by simpa using hlt), List.getElem?_map, hi, Option.map_some]
    constructor
    · intro e he
      rw [lookup_mem n e given distinct he]
      rfl
    · intro hn
      rw [lookup_none n given hn]
      rfl
  · simp only
    rw [List.drop_append_of_le_length (by simp)]
    rw [List.drop_of_length_le (by simp), List.nil_append]
    congr 1
    apply List.filter_congr
    intro a _
    rw [Bool.eq_iff_iff, decide_eq_true_eq, Bool.not_eq_true', ← Bool.not_eq_true, List.any_eq_true]
    simp only [List.mem_map, beq_iff_eq]

/-- C157: a name that differs in its case from that of an existing column gives a further column, where Spark replaces the
existing one. -/
theorem C157_with_columns_case : ∃ (columns : Cols Nat) (n : String) (e : Cols Nat → Nat) (m : String),
    m ∈ columns.map Prod.fst ∧ Spec.same n m
      ∧ withColumns columns [(n, e)] = columns ++ [(n, e columns)] := by
  refine ⟨[("a", 1)], "A", fun _ => 2, "a", by simp, ?_, by decide +kernel⟩
  unfold Spec.same
  decide +kernel

/-- C157: when a name is given twice the later contents take the place of the earlier ones, where Spark refuses. -/
theorem C157_with_columns_repeated : ∃ (columns : Cols Nat) (n : String) (e f : Cols Nat → Nat),
    e columns ≠ f columns ∧ withColumns columns [(n, e), (n, f)] = columns ++ [(n, f columns)] :=
  ⟨[("a", 1)], "b", fun _ => 2, fun _ => 3, by decide, by decide +kernel⟩

/-- Two columns that swap their contents, and a new one. -/
example : withColumns [("a", 1), ("b", 2), ("k", 3)]
      [("n", fun _ => 9), ("b", fun cs => (lookup cs "a").getD 0), ("a", fun cs => (lookup cs "b").getD 0)]
      = [("a", 2), ("b", 1), ("k", 3), ("n", 9)]
    ∧ (["n", "b", "a"] : List String).Nodup := by
  constructor <;> decide +kernel

theorem fits_iff (a b : Ty) : fits a b = true ↔ Spec.fits a b := by
  by_cases h : a = b
  · simp [fits, h, Spec.fits]
  · cases a <;> cases b <;> simp_all [fits, Spec.fits, Ty.isNumeric]

theorem replaceChosen_iff (names : List String) (c : Col) : replaceChosen names c = true ↔ Spec.chosen names c := by
  simp [replaceChosen, Spec.chosen, Spec.same, lower, List.isEmpty_iff]

theorem replaceValue_null [DecidableEq β] (cast : Ty → Lit β → Option β) (pairs : List (Lit β × Lit β)) (ty : Ty) :
    replaceValue cast pairs ty none = none := by
  have : (pairs.filter fun p => fits p.1.ty ty).find?
      (fun p => (none : Option β).isSome && decide (cast ty p.1 = none)) = none := by
    rw [List.find?_eq_none]
    simp
  rw [replaceValue, this]

theorem replaceValue_first [DecidableEq β] (cast : Ty → Lit β → Option β) (ty : Ty) (b : β) (p : Lit β × Lit β)
    (before after : List (Lit β × Lit β)) (hp : Spec.applies cast p ty b)
    (hb : ∀ q ∈ before, ¬ Spec.applies cast q ty b) :
    replaceValue cast (before ++ p :: after) ty (some b) = cast ty p.2 := by
  have hnone : (before.filter fun p => fits p.1.ty ty).find?
      (fun p => (some b).isSome && decide (cast ty p.1 = some b)) = none := by
    rw [List.find?_eq_none]
    intro q hq he
    obtain ⟨h1, h2⟩ := List.mem_filter.1 hq
    exact hb q h1 ⟨(fits_iff _ _).1 h2, by simpa using he⟩
  rw [replaceValue, List.filter_append, List.find?_append, hnone, Option.none_or, List.filter_cons,
    if_pos ((fits_iff _ _).2 hp.1), List.find?_cons]
  simp [hp.2]

theorem replaceValue_kept [DecidableEq β] (cast : Ty → Lit β → Option β) (ty : Ty) (b : β)
    (pairs : List (Lit β × Lit β)) (h : ∀ q ∈ pairs, ¬ Spec.applies cast q ty b) :
    replaceValue cast pairs ty (some b) = some b := by
  have hnone : (pairs.filter fun p => fits p.1.ty ty).find?
      (fun p => (some b).isSome && decide (cast ty p.1 = some b)) = none := by
    rw [List.find?_eq_none]
    intro q hq he
    obtain ⟨h1, h2⟩ := List.mem_filter.1 hq
    exact h q h1 ⟨(fits_iff _ _).1 h2, by simpa using he⟩
  rw [replaceValue, hnone]

/-- C157: `replace` gives each value of a chosen column that equals a fitting old value the new value of the first such
pair, and keeps all other values. -/
theorem C157_replace_values [DecidableEq β] (cast : Ty → Lit β → Option β) (schema : List Col) (names : List String)
    (pairs : List (Lit β × Lit β)) (rows : List (List (Option β))) (out : List String × List (List (Option β)))
    (wf : ∀ r ∈ rows, r.length = schema.length) (run : replace cast schema names pairs rows = some out) :
    out.2.length = rows.length
      ∧ ∀ (i : Nat) (row : List (Option β)), rows[i]? = some row → ∃ row', out.2[i]? = some row'
        ∧ row'.length = row.length
        ∧ ∀ (j : Nat) (c : Col) (v : Option β), schema[j]? = some c → row[j]? = some v →
          (∀ b before p after, v = some b → Spec.chosen names c → pairs = before ++ p :: after →
            Spec.applies cast p c.ty b → (∀ q ∈ before, ¬ Spec.applies cast q c.ty b) →
            row'[j]? = some (cast c.ty p.2))
          ∧ ((v = none ∨ ¬ Spec.chosen names c ∨ ∀ b, v = some b → ∀ q ∈ pairs, ¬ Spec.applies cast q c.ty b) →
            row'[j]? = some v) := by
  have hrow : ∀ (cs : List Col) (vs : List (Option β)), vs.length = cs.length →
      (replaceRow cast names pairs cs vs).length = vs.length
        ∧ ∀ (j : Nat) (c : Col) (v : Option β), cs[j]? = some c → vs[j]? = some v →
          (replaceRow cast names pairs cs vs)[j]?
            = some (if replaceChosen names c then replaceValue cast pairs c.ty v else v) := by
    intro cs
    induction cs with
    | nil =>
      intro vs h
      rw [List.length_eq_zero_iff.1 h]
      simp [replaceRow]
    | cons c cs ih =>
      intro vs h
      cases vs with
      | nil => simp at h
      | cons v vs =>
        obtain ⟨h1, h2⟩ := ih vs (by simpa using h)
        refine ⟨by simp [replaceRow, h1], ?_⟩
        intro j d w hd hw
        cases j with
        | zero =>
          simp only [List.getElem?_cons_zero, Option.some.injEq] at hd hw
          subst hd
          subst hw
          rw [replaceRow, List.getElem?_cons_zero]
        | succ j =>
          rw [replaceRow, List.getElem?_cons_succ]
          exact h2 j d w (by simpa using hd) (by simpa using hw)
  unfold replace at run
  split at run
  · cases run
  · rw [Option.some.injEq] at run
    subst run
    refine ⟨by simp, ?_⟩
    intro i row hi
    obtain ⟨h1, h2⟩ := hrow schema row (wf row (List.mem_of_getElem? hi))
    refine ⟨replaceRow cast names pairs schema row, by simp [hi], h1, ?_⟩
    intro j c v hc hv
    rw [h2 j c v hc hv]
    constructor
    · intro b before p after hb hch hpairs hp hq
      subst hb
      rw [if_pos ((replaceChosen_iff names c).2 hch), hpairs, replaceValue_first cast c.ty b p before after hp hq]
    · intro h
      by_cases hch : replaceChosen names c = true
      · rw [if_pos hch]
        rcases h with rfl | h | h
        · rw [replaceValue_null]
        · exact absurd ((replaceChosen_iff names c).1 hch) h
        · cases v with
          | none => rw [replaceValue_null]
          | some b => rw [replaceValue_kept cast c.ty b pairs (h b rfl)]
      · rw [if_neg hch]

/-- C157: `replace` is refused exactly when a chosen name is not the name of a column. -/
theorem C157_replace_refused [DecidableEq β] (cast : Ty → Lit β → Option β) (schema : List Col) (names : List String)
    (pairs : List (Lit β × Lit β)) (rows : List (List (Option β))) :
    replace cast schema names pairs rows = none ↔ ∃ n ∈ names, ∀ c ∈ schema, ¬ Spec.same n c.name := by
  unfold replace
  have h : ((names.map lower).any fun n => !(schema.map fun c => lower c.name).contains n) = true
      ↔ ∃ n ∈ names, ∀ c ∈ schema, ¬ Spec.same n c.name := by
    simp only [List.any_eq_true, List.mem_map, Bool.not_eq_true', ← Bool.not_eq_true, List.contains_iff_mem]
    constructor
    · rintro ⟨_, ⟨n, hn, rfl⟩, hx⟩
      exact ⟨n, hn, fun c hc hs => hx ⟨c, hc, Eq.symm hs⟩⟩
    · rintro ⟨n, hn, hx⟩
      exact ⟨lower n, ⟨n, hn, rfl⟩, fun ⟨c, hc, hs⟩ => hx c hc (Eq.symm hs)⟩
  by_cases hb : ((names.map lower).any fun n => !(schema.map fun c => lower c.name).contains n) = true
  · rw [if_pos hb]
    exact ⟨fun _ => h.1 hb, fun _ => rfl⟩
  · rw [if_neg hb]
    exact ⟨fun e => (by cases e), fun e => absurd (h.2 e) hb⟩

/-- C157: `replace` keeps the names of the columns if they are in lower case. Missing: other names, which it changes
(`C157_replace_lower_case`). -/
theorem C157_replace_names_partial [DecidableEq β] (cast : Ty → Lit β → Option β) (schema : List Col)
    (names : List String) (pairs : List (Lit β × Lit β)) (rows : List (List (Option β)))
    (out : List String × List (List (Option β))) (run : replace cast schema names pairs rows = some out)
    (lowerCase : ∀ c ∈ schema, c.name.map Char.toLower = c.name) : out.1 = schema.map Col.name := by
  unfold replace at run
  split at run
  · cases run
  · rw [Option.some.injEq] at run
    subst run
    apply List.map_congr_left
    intro c hc
    exact lowerCase c hc

/-- C157: `replace` changes the names of columns to lower case, even if it replaces nothing. -/
theorem C157_replace_lower_case : ∃ (schema : List Col) (rows : List (List (Option Nat)))
    (out : List String × List (List (Option Nat))),
    replace (fun _ l => some l.value) schema [] [] rows = some out ∧ out.2 = rows ∧ out.1 ≠ schema.map Col.name :=
  ⟨[⟨"Id", .utf8⟩], [[some 1]], (["id"], [[some 1]]), by decide +kernel, rfl, by decide +kernel⟩

/-- A number is replaced in numeric columns that are chosen; the first pair counts. -/
example : replace (fun _ l => some l.value) [⟨"a", .number 0⟩, ⟨"b", .float 64⟩, ⟨"c", .utf8⟩, ⟨"d", .number 0⟩]
      ["A", "b", "c"] [(⟨.number 1, 1⟩, ⟨.number 1, 7⟩), (⟨.number 1, 1⟩, ⟨.number 1, 8⟩), (⟨.number 1, 7⟩, ⟨.number 1, 9⟩)]
      [[some 1, some 7, some 1, some 1], [none, some 2, some 7, none]]
      = some (["a", "b", "c", "d"], [[some 7, some 9, some 1, some 1], [none, some 2, some 7, none]])
    ∧ replace (fun _ l => some l.value) [⟨"a", .number 0⟩] ["x"] [] [[some 1]] = none := by
  decide +kernel

end Verif.Plan.ColumnOp
