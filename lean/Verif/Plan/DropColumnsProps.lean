import Verif.Plan.DropColumns

/-!
# C161: drop removes exactly the columns it names
-/

namespace Verif.Plan.DropColumns

variable {β : Type}

namespace Spec

/-- A visible column has the name, ignoring case. -/
def named (f : Field β) (n : String) : Prop := f.hidden = false ∧ f.name.map Char.toLower = n.map Char.toLower

/-- A reference refers to a column: it has a single name, and the column belongs to the plan if the reference has one. -/
def refers (a : Attr) (f : Field β) : Prop :=
  ∃ n, a.parts = [n] ∧ named f n ∧ ∀ p, a.planId = some p → p ∈ f.planIds

/-- A reference is ambiguous. -/
def ambiguous (fields : List (Field β)) (a : Attr) : Prop :=
  ∃ i j : Nat, i < j ∧ (∃ f, fields[i]? = some f ∧ refers a f) ∧ ∃ g, fields[j]? = some g ∧ refers a g

/-- `out` are the columns of `fields` at the positions where `keep` holds, in their order. -/
inductive Kept (keep : Field β → Prop) : List (Field β) → List (Field β) → Prop
  | nil : Kept keep [] []
  | keep {f fs out} : keep f → Kept keep fs out → Kept keep (f :: fs) (f :: out)
  | drop {f fs out} : ¬ keep f → Kept keep fs out → Kept keep (f :: fs) out

end Spec

theorem matches_iff (f : Field β) (n : String) (p : Option Int) (a : Attr) (ha : a.parts = [n]) (hp : a.planId = p) :
    (!f.hidden && f.matches n p) = true ↔ Spec.refers a f := by
  unfold Spec.refers Spec.named Field.matches
  rw [hp, ha]
  cases p with
  | none => simp
  | some p => simp [and_assoc]

theorem named_iff (f : Field β) (n : String) : (!f.hidden && f.matches n none) = true ↔ Spec.named f n := by
  simp [Spec.named, Field.matches]

theorem mem_candidates (fields : List (Field β)) (n : String) (p : Option Int) (i : Nat) :
    i ∈ candidates fields n p ↔ ∃ f, fields[i]? = some f ∧ (!f.hidden && f.matches n p) = true := by
  simp only [candidates, List.mem_map, List.mem_filter]
  constructor
  · rintro ⟨⟨f, j⟩, ⟨hm, hp⟩, rfl⟩
    exact ⟨f, List.mk_mem_zipIdx_iff_getElem?.1 hm, hp⟩
  · rintro ⟨f, hf, hp⟩
    exact ⟨(f, i), ⟨List.mk_mem_zipIdx_iff_getElem?.2 hf, hp⟩, rfl⟩

theorem candidates_sorted (fields : List (Field β)) (n : String) (p : Option Int) :
    (candidates fields n p).Pairwise (· < ·) := by
  have h : (candidates fields n p).Sublist (List.range fields.length) := by
    have h1 := (List.filter_sublist (p := fun q : Field β × Nat => !q.1.hidden && q.1.matches n p)
      (l := fields.zipIdx)).map Prod.snd
    rw [List.zipIdx_map_snd] at h1
    rw [List.range_eq_range']
    exact h1
  exact List.Pairwise.sublist h List.pairwise_lt_range

theorem ambiguous_iff (fields : List (Field β)) (a : Attr) (n : String) (ha : a.parts = [n]) :
    Spec.ambiguous fields a ↔ optionalColumn fields n a.planId = none := by
  have hm : ∀ i, i ∈ candidates fields n a.planId ↔ ∃ f, fields[i]? = some f ∧ Spec.refers a f := by
    intro i
    rw [mem_candidates]
    simp only [matches_iff _ n a.planId a ha rfl]
  have hs := candidates_sorted fields n a.planId
  unfold Spec.ambiguous optionalColumn
  simp only [← hm]
  generalize candidates fields n a.planId = cs at hs
  match cs with
  | [] => simp
  | [c] =>
    simp only [List.mem_singleton, reduceCtorEq, iff_false]
    rintro ⟨i, j, hlt, rfl, rfl⟩
    omega
  | c :: d :: cs =>
    simp only [iff_true]
    rw [List.pairwise_cons] at hs
    exact ⟨c, d, hs.1 d (by simp), by simp, by simp⟩

theorem mem_optional (fields : List (Field β)) (a : Attr) (n : String) (ha : a.parts = [n]) (c : Option Nat)
    (h : optionalColumn fields n a.planId = some c) (i : Nat) :
    i ∈ c.toList ↔ ∃ f, fields[i]? = some f ∧ Spec.refers a f := by
  have hm : i ∈ candidates fields n a.planId ↔ ∃ f, fields[i]? = some f ∧ Spec.refers a f := by
    rw [mem_candidates]
    simp only [matches_iff _ n a.planId a ha rfl]
  rw [← hm]
  unfold optionalColumn at h
  generalize candidates fields n a.planId = cs at h
  match cs with
  | [] =>
    simp only [Option.some.injEq] at h
    subst h
    simp
  | [d] =>
    simp only [Option.some.injEq] at h
    subst h
    simp
  | d :: e :: cs => cases h

theorem excluded_spec (fields : List (Field β)) : ∀ columns : List Attr,
    (excludedBy fields columns = none ↔ ∃ a ∈ columns, Spec.ambiguous fields a)
      ∧ ∀ cs, excludedBy fields columns = some cs →
        ∀ i, i ∈ cs ↔ ∃ f, fields[i]? = some f ∧ ∃ a ∈ columns, Spec.refers a f := by
  intro columns
  induction columns with
  | nil => simp [excludedBy]
  | cons a rest ih =>
    by_cases hp : ∃ n, a.parts = [n]
    · obtain ⟨n, hn⟩ := hp
      have he : excludedBy fields (a :: rest) = (optionalColumn fields n a.planId).bind fun c =>
          (excludedBy fields rest).map fun cs => c.toList ++ cs := by
        rw [excludedBy, hn]
      rw [he]
      cases ho : optionalColumn fields n a.planId with
      | none =>
        have := (ambiguous_iff fields a n hn).2 ho
        refine ⟨by simp [this], by simp⟩
      | some c =>
        have hna : ¬ Spec.ambiguous fields a := by
          rw [ambiguous_iff fields a n hn, ho]
          simp
        have hmem := mem_optional fields a n hn c ho
        constructor
        · rw [Option.bind_some, Option.map_eq_none_iff, ih.1]
          simp [hna]
        · intro cs hcs i
          rw [Option.bind_some, Option.map_eq_some_iff] at hcs
          obtain ⟨ds, hd, rfl⟩ := hcs
          rw [List.mem_append, hmem i, ih.2 ds hd i]
          constructor
          · rintro (⟨f, hf, hr⟩ | ⟨f, hf, b, hb, hr⟩)
            · exact ⟨f, hf, a, by simp, hr⟩
            · exact ⟨f, hf, b, by simp [hb], hr⟩
          · rintro ⟨f, hf, b, hb, hr⟩
            rcases List.mem_cons.1 hb with rfl | hb
            · exact .inl ⟨f, hf, hr⟩
            · exact .inr ⟨f, hf, b, hb, hr⟩
    · have he : excludedBy fields (a :: rest) = excludedBy fields rest := by
        rw [excludedBy]
        split
        · rename_i n hn
          exact absurd ⟨n, hn⟩ hp
        · rfl
      have hr : ∀ f : Field β, ¬ Spec.refers a f := fun f ⟨n, hn, _⟩ => hp ⟨n, hn⟩
      have hna : ¬ Spec.ambiguous fields a := fun ⟨_, _, _, ⟨f, _, h⟩, _⟩ => hr f h
      rw [he]
      refine ⟨by rw [ih.1]; simp [hna], ?_⟩
      intro cs hcs i
      rw [ih.2 cs hcs i]
      simp [hr]

theorem kept_filter (keep : Field β → Prop) (q : Nat → Bool) : ∀ (fields : List (Field β)) (k : Nat),
    (∀ i f, fields[i]? = some f → (q (k + i) = true ↔ keep f)) →
    Spec.Kept keep fields (((fields.zipIdx k).filter fun p => q p.2).map Prod.fst) := by
  intro fields
  induction fields with
  | nil =>
    intro k _
    exact .nil
  | cons f fs ih =>
    intro k h
    have h0 := h 0 f rfl
    have hr := ih (k + 1) (by
      intro i g hg
      have := h (i + 1) g (by simpa using hg)
      rwa [show k + (i + 1) = k + 1 + i by omega] at this)
    rw [List.zipIdx_cons, List.filter_cons]
    by_cases hq : q k = true
    · rw [if_pos hq]
      exact .keep (h0.1 hq) hr
    · rw [if_neg hq]
      exact .drop (fun e => hq (h0.2 e)) hr

/-- C161: what `drop` returns are the columns, in their order, that no name names and no reference refers to. -/
theorem C161_kept (fields : List (Field β)) (columns : List Attr) (names : List String) (out : List (Field β))
    (run : drop fields columns names = some out) :
    Spec.Kept (fun f => (∀ n ∈ names, ¬ Spec.named f n) ∧ ∀ a ∈ columns, ¬ Spec.refers a f) fields out := by
  unfold drop at run
  rw [Option.map_eq_some_iff] at run
  obtain ⟨cs, hcs, rfl⟩ := run
  apply kept_filter _ (fun i => !(cs ++ names.flatMap fun n => candidates fields n none).contains i)
  intro i f hf
  have hc := (excluded_spec fields columns).2 cs hcs (0 + i)
  rw [Nat.zero_add] at hc ⊢
  rw [Bool.not_eq_true', ← Bool.not_eq_true, List.contains_iff_mem, List.mem_append, List.mem_flatMap, hc]
  simp only [mem_candidates, named_iff, hf, Option.some.injEq, exists_eq_left', not_or, not_exists, not_and]
  exact ⟨fun h => ⟨h.2, h.1⟩, fun h => ⟨h.2, h.1⟩⟩

/-- C161: `drop` is refused exactly when a reference matches several columns. -/
theorem C161_refused (fields : List (Field β)) (columns : List Attr) (names : List String) :
    drop fields columns names = none ↔ ∃ a ∈ columns, Spec.ambiguous fields a := by
  unfold drop
  rw [Option.map_eq_none_iff]
  exact (excluded_spec fields columns).1

/-- A name that two columns have, a reference by plan, a hidden column, and a nested name. -/
example : drop [⟨"a", [1], false, 10⟩, ⟨"b", [1], false, 11⟩, ⟨"A", [2], false, 12⟩, ⟨"b", [2], false, 13⟩, ⟨"c", [], true, 14⟩]
      [⟨["B"], some 2⟩, ⟨["a", "x"], none⟩] ["c", "zz"]
      = some [⟨"a", [1], false, 10⟩, ⟨"b", [1], false, 11⟩, ⟨"A", [2], false, 12⟩, ⟨"c", [], true, 14⟩]
    ∧ drop [⟨"a", [1], false, 10⟩, ⟨"b", [1], false, 11⟩, ⟨"A", [2], false, 12⟩] [] ["a"] = some [⟨"b", [1], false, 11⟩]
    ∧ drop [⟨"a", [1], false, 10⟩, ⟨"b", [1], false, 11⟩, ⟨"A", [2], false, 12⟩] [⟨["a"], none⟩] [] = none := by
  decide +kernel

end Verif.Plan.DropColumns
