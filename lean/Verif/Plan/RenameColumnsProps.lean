import Verif.Plan.RenameColumns

/-!
# C154: withColumnsRenamed renames as if one renaming followed the other
-/

namespace Verif.Plan.RenameColumns

namespace Spec

/-- Spark's comparison of names. -/
def same (a b : String) : Prop := a.map Char.toLower = b.map Char.toLower

instance (a b : String) : Decidable (same a b) := inferInstanceAs (Decidable (_ = _))

/-- All columns after the renamings one after another. -/
def columns {β : Type} : List (String × String) → List (String × β) → List (String × β)
  | [], cs => cs
  | r :: rs, cs => columns rs (cs.map fun c => if same c.1 r.1 then (r.2, c.2) else c)

/-- An order in which the hash maps may be iterated. -/
def order (renames : List (String × String)) (l : List (String × String)) : Prop :=
  l.Perm (pairs (inverse renames))

end Spec

/-- The name after the renamings where the case counts. -/
def exact (renames : List (String × String)) (n : String) : String :=
  renames.foldl (fun n r => if n = r.1 then r.2 else n) n

theorem mem_pairs (m : List (String × List String)) (x u : String) :
    (x, u) ∈ pairs m ↔ ∃ s, (u, s) ∈ m ∧ x ∈ s := by
  simp only [pairs, List.mem_flatMap, List.mem_map, Prod.mk.injEq]
  constructor
  · rintro ⟨⟨k, s⟩, hm, f, hf, rfl, rfl⟩
    exact ⟨s, hm, hf⟩
  · rintro ⟨s, hm, hx⟩
    exact ⟨(u, s), hm, x, hx, rfl, rfl⟩

theorem mem_froms (m : List (String × List String)) (x u : String) : x ∈ froms m u ↔ (x, u) ∈ pairs m := by
  rw [mem_pairs]
  simp only [froms, List.mem_flatMap, List.mem_filter, beq_iff_eq]
  constructor
  · rintro ⟨⟨k, s⟩, ⟨hm, rfl⟩, hx⟩
    exact ⟨s, hm, hx⟩
  · rintro ⟨s, hm, hx⟩
    exact ⟨(u, s), ⟨hm, rfl⟩, hx⟩

theorem mem_without (m : List (String × List String)) (k x u : String) :
    (x, u) ∈ pairs (without m k) ↔ (x, u) ∈ pairs m ∧ u ≠ k := by
  rw [mem_pairs, mem_pairs]
  simp only [without, List.mem_filter, bne_iff_ne, ne_eq]
  constructor
  · rintro ⟨s, ⟨hm, hk⟩, hx⟩
    exact ⟨⟨s, hm, hx⟩, hk⟩
  · rintro ⟨⟨s, hm, hx⟩, hk⟩
    exact ⟨s, ⟨hm, hk⟩, hx⟩

theorem mem_step (m : List (String × List String)) (r : String × String) (x u : String) :
    (x, u) ∈ pairs (step m r) ↔
      (∃ v, (x, v) ∈ pairs m ∧ u = if v = r.1 then r.2 else v) ∨ (x = r.1 ∧ u = r.2) := by
  have h : (x, u) ∈ pairs (step m r) ↔
      (u = r.2 ∧ x ∈ List.insert r.1 (froms (without m r.1) r.2 ++ froms m r.1))
        ∨ (x, u) ∈ pairs (without (without m r.1) r.2) := by
    simp only [step, pairs, List.flatMap_cons, List.mem_append, List.mem_map, Prod.mk.injEq]
    constructor
    · rintro (⟨f, hf, rfl, rfl⟩ | h)
      · exact .inl ⟨rfl, hf⟩
      · exact .inr h
    · rintro (⟨rfl, hx⟩ | h)
      · exact .inl ⟨x, hx, rfl, rfl⟩
      · exact .inr h
  rw [h, List.mem_insert_iff, List.mem_append, mem_froms, mem_froms, mem_without, mem_without, mem_without]
  constructor
  · rintro (⟨rfl, (rfl | ⟨hp, hne⟩ | hp)⟩ | ⟨⟨hp, h1⟩, -⟩)
    · exact .inr ⟨rfl, rfl⟩
    · exact .inl ⟨_, hp, by simp [hne]⟩
    · exact .inl ⟨_, hp, by simp⟩
    · exact .inl ⟨u, hp, by simp [h1]⟩
  · rintro (⟨v, hp, rfl⟩ | ⟨rfl, rfl⟩)
    · by_cases hv : v = r.1
      · subst hv
        exact .inl ⟨by simp, .inr (.inr hp)⟩
      · simp only [if_neg hv]
        by_cases h2 : v = r.2
        · subst h2
          exact .inl ⟨rfl, .inr (.inl ⟨hp, hv⟩)⟩
        · exact .inr ⟨⟨hp, hv⟩, h2⟩
    · exact .inl ⟨rfl, .inl rfl⟩

theorem exact_snoc (rs : List (String × String)) (r : String × String) (n : String) :
    exact (rs ++ [r]) n = if exact rs n = r.1 then r.2 else exact rs n := by
  rw [exact, List.foldl_append]
  rfl

theorem exact_not_mem (rs : List (String × String)) (n : String) (h : n ∉ rs.map Prod.fst) : exact rs n = n := by
  induction rs with
  | nil => rfl
  | cons r rs ih =>
    simp only [List.map_cons, List.mem_cons, not_or] at h
    have := ih h.2
    simp only [exact, List.foldl_cons, if_neg h.1] at this ⊢
    exact this

theorem mem_inverse (k : Nat) : ∀ (rs : List (String × String)), rs.length = k → (rs.map Prod.fst).Nodup →
    ∀ x u : String, (x, u) ∈ pairs (inverse rs) ↔ x ∈ rs.map Prod.fst ∧ exact rs x = u := by
  induction k with
  | zero =>
    intro rs hl _ x u
    rw [List.length_eq_zero_iff.1 hl]
    simp [inverse, pairs]
  | succ k ih =>
    intro rs hl hn x u
    have hne : rs ≠ [] := by
      intro h
      simp [h] at hl
    rw [← List.dropLast_concat_getLast hne] at hn ⊢
    have hlen : rs.dropLast.length = k := by simp [hl]
    generalize rs.dropLast = ds at *
    generalize rs.getLast hne = r at *
    have hinv : inverse (ds ++ [r]) = step (inverse ds) r := by simp [inverse, List.foldl_append]
    simp only [List.map_append, List.map_cons, List.map_nil] at hn ⊢
    have hn' := List.nodup_append.1 hn
    have hr : r.1 ∉ ds.map Prod.fst := fun h => hn'.2.2 _ h _ (List.mem_singleton.2 rfl) rfl
    rw [hinv, mem_step, exact_snoc, List.mem_append, List.mem_singleton]
    constructor
    · rintro (⟨v, hp, rfl⟩ | ⟨rfl, rfl⟩)
      · obtain ⟨hx, rfl⟩ := (ih ds hlen hn'.1 x v).1 hp
        exact ⟨.inl hx, rfl⟩
      · exact ⟨.inr rfl, by rw [exact_not_mem ds _ hr]; simp⟩
    · rintro ⟨hx | rfl, rfl⟩
      · exact .inl ⟨_, (ih ds hlen hn'.1 x _).2 ⟨hx, rfl⟩, rfl⟩
      · exact .inr ⟨rfl, by rw [exact_not_mem ds _ hr]; simp⟩

theorem target_order (rs l : List (String × String)) (hn : (rs.map Prod.fst).Nodup) (ho : Spec.order rs l) (n : String) :
    (target l n).getD n = exact rs n := by
  unfold target
  cases hf : l.reverse.find? fun p => p.1 == n with
  | none =>
    have hall := List.find?_eq_none.1 hf
    simp only [Option.map_none, Option.getD_none]
    symm
    apply exact_not_mem
    intro hm
    have hp := (mem_inverse _ rs rfl hn n (exact rs n)).2 ⟨hm, rfl⟩
    have := hall _ (List.mem_reverse.2 (ho.mem_iff.2 hp))
    simp at this
  | some p =>
    have hk := List.find?_some hf
    have hm := ho.mem_iff.1 (List.mem_reverse.1 (List.mem_of_find?_eq_some hf))
    simp only [beq_iff_eq] at hk
    obtain ⟨a, b⟩ := p
    simp only at hk
    subst hk
    simpa using ((mem_inverse _ rs rfl hn a b).1 hm).2.symm

/-- The names are written in one way each: two that differ at most in their case are the same. -/
def Spec.oneCase (names : List String) : Prop := ∀ a ∈ names, ∀ b ∈ names, Spec.same a b → a = b

theorem columns_exact {β : Type} (rs : List (String × String)) : ∀ cs : List (String × β),
    Spec.oneCase (cs.map Prod.fst ++ rs.map Prod.fst ++ rs.map Prod.snd) →
    Spec.columns rs cs = cs.map fun c => (exact rs c.1, c.2) := by
  induction rs with
  | nil =>
    intro cs _
    simp [Spec.columns, exact]
  | cons r rs ih =>
    intro cs h
    have hstep : (cs.map fun c => if Spec.same c.1 r.1 then (r.2, c.2) else c)
        = cs.map fun c => (if c.1 = r.1 then r.2 else c.1, c.2) := by
      apply List.map_congr_left
      intro c hc
      by_cases he : c.1 = r.1
      · have : Spec.same c.1 r.1 := by rw [he]; rfl
        simp [he, Spec.same]
      · have : ¬ Spec.same c.1 r.1 := fun hs => he (h _ (by
          simp only [List.mem_append, List.mem_map]
          exact .inl (.inl ⟨c, hc, rfl⟩)) _ (by simp) hs)
        simp [he, this]
    rw [Spec.columns, hstep, ih]
    · simp [exact, Function.comp_def]
    · intro a ha b hb
      have hsub : ∀ a, a ∈ List.map Prod.fst (cs.map fun c => (if c.1 = r.1 then r.2 else c.1, c.2))
          ++ rs.map Prod.fst ++ rs.map Prod.snd →
          a ∈ cs.map Prod.fst ++ (r :: rs).map Prod.fst ++ (r :: rs).map Prod.snd := by
        intro a ha
        simp only [List.mem_append, List.mem_map, List.map_cons, List.mem_cons] at ha ⊢
        rcases ha with (⟨d, ⟨c, hc, rfl⟩, rfl⟩ | h2) | h3
        · by_cases he : c.1 = r.1
          · simp [he]
          · simp only [if_neg he]
            exact .inl (.inl ⟨c, hc, rfl⟩)
        · exact .inl (.inr (.inr h2))
        · exact .inr (.inr h3)
      exact h a (hsub a ha) b (hsub b hb)

/-- C154: whatever order the hash maps are iterated in, the columns are those after the renamings one after another, if
each name is written in one way. Missing: names that differ in their case, which Sail does not rename
(`C154_case`). -/
theorem C154_sequence_partial {β : Type} (renames l : List (String × String)) (columns : List (String × β))
    (distinct : (renames.map Prod.fst).Nodup) (order : Spec.order renames l)
    (oneCase : Spec.oneCase (columns.map Prod.fst ++ renames.map Prod.fst ++ renames.map Prod.snd)) :
    renamed l columns = Spec.columns renames columns := by
  rw [columns_exact renames columns oneCase]
  unfold renamed
  apply List.map_congr_left
  intro c _
  rw [target_order renames l distinct order]

/-- C154: renaming keeps the contents and the order of the columns, and the names that are not renamed, whatever the
renamings are. -/
theorem C154_kept {β : Type} (renames l : List (String × String)) (columns : List (String × β))
    (distinct : (renames.map Prod.fst).Nodup) (order : Spec.order renames l) :
    (renamed l columns).map Prod.snd = columns.map Prod.snd
      ∧ ∀ (i : Nat) (n : String) (b : β), columns[i]? = some (n, b) → n ∉ renames.map Prod.fst →
        (renamed l columns)[i]? = some (n, b) := by
  constructor
  · simp [renamed, Function.comp_def]
  · intro i n b hi hn
    simp only [renamed, List.getElem?_map, hi, Option.map_some]
    rw [target_order renames l distinct order, exact_not_mem _ _ hn]

/-- C154: a column whose name differs in its case from the old name is not renamed, where Spark renames it. -/
theorem C154_case : ∃ (renames : List (String × String)) (columns : List (String × Nat)),
    (renames.map Prod.fst).Nodup ∧ (∃ l, Spec.order renames l) ∧
    ∀ l, Spec.order renames l → renamed l columns ≠ Spec.columns renames columns := by
  refine ⟨[("a", "b")], [("A", 1)], by decide, ⟨_, List.Perm.refl _⟩, ?_⟩
  intro l hl
  have hp : pairs (inverse [("a", "b")]) = [("a", "b")] := by decide +kernel
  rw [Spec.order, hp] at hl
  rw [List.perm_singleton.1 hl]
  decide +kernel

/-- C154: the new name of a column that two renamings name depends on the order of the hash map, so the condition on the
old names is needed. -/
theorem C154_repeated : ∃ (renames l₁ l₂ : List (String × String)) (columns : List (String × Nat)),
    Spec.order renames l₁ ∧ Spec.order renames l₂ ∧ renamed l₁ columns ≠ renamed l₂ columns := by
  refine ⟨[("a", "b"), ("a", "c")], [("a", "b"), ("a", "c")], [("a", "c"), ("a", "b")], [("a", 1)], ?_, ?_, by
    decide +kernel⟩
  · have hp : pairs (inverse [("a", "b"), ("a", "c")]) = [("a", "c"), ("a", "b")] := by decide +kernel
    rw [Spec.order, hp]
    exact List.Perm.swap ..
  · have hp : pairs (inverse [("a", "b"), ("a", "c")]) = [("a", "c"), ("a", "b")] := by decide +kernel
    rw [Spec.order, hp]

/-- A chain, a swap and a column that is kept. -/
example : ([("a", "b"), ("b", "c"), ("x", "y"), ("y", "x")].map Prod.fst).Nodup
    ∧ Spec.order [("a", "b"), ("b", "c"), ("x", "y"), ("y", "x")]
      (pairs (inverse [("a", "b"), ("b", "c"), ("x", "y"), ("y", "x")]))
    ∧ renamed (pairs (inverse [("a", "b"), ("b", "c"), ("x", "y"), ("y", "x")]))
        [("a", 1), ("b", 2), ("x", 3), ("y", 4), ("k", 5)] = [("c", 1), ("c", 2), ("x", 3), ("x", 4), ("k", 5)]
    ∧ Spec.columns [("a", "b"), ("b", "c"), ("x", "y"), ("y", "x")]
        [("a", 1), ("b", 2), ("x", 3), ("y", 4), ("k", 5)] = [("c", 1), ("c", 2), ("x", 3), ("x", 4), ("k", 5)]
    ∧ "k" ∉ [("a", "b"), ("b", "c"), ("x", "y"), ("y", "x")].map Prod.fst := by
  refine ⟨by decide, List.Perm.refl _, by decide +kernel, by decide +kernel, by decide⟩

example : Spec.oneCase ([("a", 1), ("b", 2), ("k", 5)].map Prod.fst ++ ["a", "b"] ++ ["b", "c"]) := by
  unfold Spec.oneCase
  decide +kernel

end Verif.Plan.RenameColumns
