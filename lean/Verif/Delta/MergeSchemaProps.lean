import Verif.Delta.MergeSchema

/-!
# C150: merging schemas of Delta tables
-/

namespace Verif.Delta.MergeSchema

variable {E : Env}

/-- A step into a type. -/
inductive Spec.Step where
  | field (name : String)
  | element
  | key
  | value

/-- The plain type at the end of a path. -/
def Spec.leaf : List Spec.Step → Ty → Option Prim
  | [], .prim b => some b
  | .field n :: p, .struct fs => (fs.toList.find? fun f => decide (f.name = n)).bind fun f => Spec.leaf p f.ty
  | .element :: p, .list e => Spec.leaf p e.ty
  | .key :: p, .map k _ => Spec.leaf p k.ty
  | .value :: p, .map _ v => Spec.leaf p v.ty
  | _, _ => none

/-- The plain type at the end of a path in a column. -/
def Spec.leafIn (fs : List Fld) (column : String) (p : List Spec.Step) : Option Prim :=
  (fs.find? fun f => decide (f.name = column)).bind fun f => Spec.leaf p f.ty

/-- The names of fields. -/
def Spec.names (fs : Flds) : List String := fs.toList.map Fld.name

mutual
/-- The names in every struct are distinct. -/
def Spec.distinct : Ty → Prop
  | .prim _ => True
  | .struct fs => (Spec.names fs).Nodup ∧ Spec.distinctFlds fs
  | .list (.mk _ _ _ t) => Spec.distinct t
  | .map (.mk _ _ _ t) (.mk _ _ _ u) => Spec.distinct t ∧ Spec.distinct u
def Spec.distinctFlds : Flds → Prop
  | .nil => True
  | .cons (.mk _ _ _ t) rest => Spec.distinct t ∧ Spec.distinctFlds rest
end

open Spec (leaf leafIn names distinct distinctFlds)

theorem toList_ofList : ∀ fs : List Fld, (Flds.ofList fs).toList = fs
  | [] => rfl
  | f :: fs => by rw [Flds.ofList, Flds.toList, toList_ofList fs]

theorem cast_cases {t i u : Ty} (h : cast E t i = some u) : u = t ∨ u = i := by
  unfold cast at h
  split at h <;> split at h
  · exact .inl (by cases h; rfl)
  · split at h
    · exact .inr (by cases h; rfl)
    · cases h
  · exact .inr (by cases h; rfl)
  · split at h
    · exact .inl (by cases h; rfl)
    · cases h

theorem promote_spec {c e f : Fld} (h : promote E c e = some f) :
    f.name = e.name ∧ f.nullable = (e.nullable || c.nullable) ∧ f.notes = [] := by
  obtain ⟨n, b, m, t⟩ := c
  rw [promote] at h
  split at h
  · cases h
    exact ⟨rfl, rfl, rfl⟩
  · obtain ⟨u, -, rfl⟩ := Option.map_eq_some_iff.1 h
    exact ⟨rfl, rfl, rfl⟩

theorem find_replace_same {n : String} {f : Fld} (hf : f.name = n) : ∀ {acc : List Fld} {e : Fld},
    (acc.find? fun e => decide (e.name = n)) = some e → ((replace acc f).find? fun e => decide (e.name = n)) = some f
  | [], e, h => by cases h
  | x :: acc, e, h => by
    rw [List.find?_cons] at h
    unfold replace
    rw [List.map_cons, List.find?_cons]
    by_cases hx : x.name = n
    · simp [hx, hf]
    · simp only [hx, hf, if_false, decide_false] at h ⊢
      exact hf ▸ find_replace_same hf h

theorem find_replace_ne {n : String} {f : Fld} (hf : f.name ≠ n) : ∀ acc : List Fld,
    ((replace acc f).find? fun e => decide (e.name = n)) = acc.find? fun e => decide (e.name = n)
  | [] => rfl
  | x :: acc => by
    have ih := find_replace_ne hf acc
    unfold replace at ih ⊢
    rw [List.map_cons, List.find?_cons, List.find?_cons, ih]
    by_cases hx : x.name = f.name
    · have hn : x.name ≠ n := hx ▸ hf
      simp [hx, hf]
    · simp [hx]

theorem names_replace (acc : List Fld) (f : Fld) : (replace acc f).map Fld.name = acc.map Fld.name := by
  unfold replace
  rw [List.map_map]
  refine List.map_congr_left fun e _ => ?_
  by_cases h : e.name = f.name <;> simp [h]

theorem find_snoc_ne {n : String} {c : Fld} (hc : c.name ≠ n) (acc : List Fld) :
    ((acc ++ [c]).find? fun e => decide (e.name = n)) = acc.find? fun e => decide (e.name = n) := by
  rw [List.find?_append]
  simp [hc]

/-- Fields that are not in the rest of the input stay. -/
theorem promoteFlds_other {n : String} : ∀ (cs : Flds) (acc out : List Fld), n ∉ names cs → promoteFlds E cs acc = some out →
    (out.find? fun e => decide (e.name = n)) = acc.find? fun e => decide (e.name = n)
  | .nil, acc, out, _, h => by
    rw [promoteFlds] at h
    cases h
    rfl
  | .cons c rest, acc, out, hn, h => by
    simp only [names, Flds.toList, List.map_cons, List.mem_cons, not_or] at hn
    have hc : c.name ≠ n := fun e => hn.1 e.symm
    rw [promoteFlds] at h
    cases hf : acc.find? (fun e => decide (e.name = c.name)) with
    | none =>
      rw [hf, Option.elim_none] at h
      rw [promoteFlds_other rest _ out hn.2 h, find_snoc_ne hc]
    | some e =>
      rw [hf, Option.elim_some] at h
      obtain ⟨f, hp, h⟩ := Option.bind_eq_some_iff.1 h
      have he : e.name = c.name := by simpa using List.find?_some hf
      rw [promoteFlds_other rest _ out hn.2 h, find_replace_ne (by rw [(promote_spec hp).1, he]; exact hc)]

theorem kept_of_mem {es : List Fld} : ∀ {l : List Fld} {f e : Fld}, keptFlds (.ofList l) es = true → f ∈ l →
    (es.find? fun e => decide (e.name = f.name)) = some e → keptFld f e = true
  | [], f, e, _, hm, _ => by cases hm
  | x :: l, f, e, h, hm, hf => by
    rw [Flds.ofList, keptFlds, Bool.and_eq_true] at h
    rcases List.mem_cons.1 hm with rfl | hm
    · have := h.1
      rw [hf] at this
      exact this
    · exact kept_of_mem h.2 hm hf

mutual
theorem leaf_promote : ∀ (c e f : Fld), distinct c.ty → promote E c e = some f → keptFld f e = true →
    ∀ (p : List Spec.Step) (b : Prim), leaf p e.ty = some b → leaf p f.ty = some b
  | .mk n nl m t, e, f, hd, h, hk, p, b, hb => by
    rw [promote] at h
    split at h
    · cases h
      exact hb
    · obtain ⟨u, hu, rfl⟩ := Option.map_eq_some_iff.1 h
      rw [keptFld] at hk
      exact leaf_promoteTy t e.ty u hd hu hk p b hb
theorem leaf_promoteTy : ∀ (t old new : Ty), distinct t → promoteTy E t old = some new → keptTy new old = true →
    ∀ (p : List Spec.Step) (b : Prim), leaf p old = some b → leaf p new = some b
  | .prim q, old, new, hd, h, hk, p, b, hb => by
    rw [promoteTy] at h
    rcases cast_cases h with rfl | rfl
    · exact hb
    · rw [keptTy, decide_eq_true_eq] at hk
      rw [← hk]
      exact hb
  | .struct cs, old, new, hd, h, hk, p, b, hb => by
    rw [distinct] at hd
    rw [promoteTy] at h
    cases hs : old.asStruct with
    | none =>
      rw [hs, Option.elim_none] at h
      rcases cast_cases h with rfl | rfl
      · exact hb
      · rw [keptTy, hs] at hk
        cases hk
    | some es =>
      rw [hs, Option.elim_some] at h
      obtain ⟨out, ho, rfl⟩ := Option.map_eq_some_iff.1 h
      rw [keptTy, hs, Option.elim_some] at hk
      cases old with
      | struct os =>
        simp only [Ty.asStruct, Option.some.injEq] at hs
        subst hs
        cases p with
        | nil => simp [leaf] at hb
        | cons st p =>
          cases st with
          | field n =>
            rw [leaf] at hb ⊢
            obtain ⟨e, he, hb⟩ := Option.bind_eq_some_iff.1 hb
            obtain ⟨f, hf, hl⟩ := leaf_promoteFlds cs os.toList out hd.1 hd.2 ho n e he
            rw [toList_ofList, hf, Option.bind_some]
            have hfn : f.name = n := by simpa using List.find?_some hf
            refine hl (kept_of_mem hk (List.mem_of_find?_eq_some hf) ?_) p b hb
            rw [hfn]
            exact he
          | _ => simp [leaf] at hb
      | _ => simp [Ty.asStruct] at hs
  | .list c, old, new, hd, h, hk, p, b, hb => by
    rw [promoteTy] at h
    cases hs : old.asList with
    | none =>
      rw [hs, Option.elim_none] at h
      rcases cast_cases h with rfl | rfl
      · exact hb
      · rw [keptTy, hs] at hk
        cases hk
    | some e =>
      rw [hs, Option.elim_some] at h
      obtain ⟨f, hf, rfl⟩ := Option.map_eq_some_iff.1 h
      rw [keptTy, hs, Option.elim_some] at hk
      cases old with
      | list o =>
        simp only [Ty.asList, Option.some.injEq] at hs
        subst hs
        have hd' : distinct c.ty := by
          cases c
          rw [distinct] at hd
          exact hd
        cases p with
        | nil => simp [leaf] at hb
        | cons st p =>
          cases st with
          | element =>
            rw [leaf] at hb ⊢
            exact leaf_promote c o f hd' hf hk p b hb
          | _ => simp [leaf] at hb
      | _ => simp [Ty.asList] at hs
  | .map ck cv, old, new, hd, h, hk, p, b, hb => by
    rw [promoteTy] at h
    cases hs : old.asMap with
    | none =>
      rw [hs, Option.elim_none] at h
      rcases cast_cases h with rfl | rfl
      · exact hb
      · rw [keptTy, hs] at hk
        cases hk
    | some e =>
      rw [hs, Option.elim_some] at h
      obtain ⟨f, hf, h⟩ := Option.bind_eq_some_iff.1 h
      obtain ⟨g, hg, rfl⟩ := Option.map_eq_some_iff.1 h
      rw [keptTy, hs, Option.elim_some, Bool.and_eq_true] at hk
      cases old with
      | map ok ov =>
        simp only [Ty.asMap, Option.some.injEq] at hs
        subst hs
        have hd' : distinct ck.ty ∧ distinct cv.ty := by
          cases ck
          cases cv
          rw [distinct] at hd
          exact hd
        cases p with
        | nil => simp [leaf] at hb
        | cons st p =>
          cases st with
          | key =>
            rw [leaf] at hb ⊢
            exact leaf_promote ck ok f hd'.1 hf hk.1 p b hb
          | value =>
            rw [leaf] at hb ⊢
            exact leaf_promote cv ov g hd'.2 hg hk.2 p b hb
          | _ => simp [leaf] at hb
      | _ => simp [Ty.asMap] at hs
theorem leaf_promoteFlds : ∀ (cs : Flds) (acc out : List Fld), (names cs).Nodup → distinctFlds cs →
    promoteFlds E cs acc = some out → ∀ (n : String) (e : Fld), (acc.find? fun e => decide (e.name = n)) = some e →
    ∃ f, (out.find? fun e => decide (e.name = n)) = some f ∧ (keptFld f e = true →
      ∀ (p : List Spec.Step) (b : Prim), leaf p e.ty = some b → leaf p f.ty = some b)
  | .nil, acc, out, _, _, h, n, e, he => by
    rw [promoteFlds] at h
    cases h
    exact ⟨e, he, fun _ _ _ hb => hb⟩
  | .cons c rest, acc, out, hn, hd, h, n, e, he => by
    have hd' : distinct c.ty ∧ distinctFlds rest := by
      cases c
      rw [distinctFlds] at hd
      exact hd
    simp only [names, Flds.toList, List.map_cons, List.nodup_cons] at hn
    rw [promoteFlds] at h
    by_cases hc : c.name = n
    · subst hc
      rw [he, Option.elim_some] at h
      obtain ⟨f, hf, h⟩ := Option.bind_eq_some_iff.1 h
      have hen : e.name = c.name := by simpa using List.find?_some he
      refine ⟨f, ?_, leaf_promote c e f hd'.1 hf⟩
      rw [promoteFlds_other rest _ out hn.1 h]
      exact find_replace_same (by rw [(promote_spec hf).1, hen]) he
    · cases hf : acc.find? (fun e => decide (e.name = c.name)) with
      | none =>
        rw [hf, Option.elim_none] at h
        exact leaf_promoteFlds rest _ out hn.2 hd'.2 h n e (by rw [find_snoc_ne hc]; exact he)
      | some e0 =>
        rw [hf, Option.elim_some] at h
        obtain ⟨f, hp, h⟩ := Option.bind_eq_some_iff.1 h
        have h0 : e0.name = c.name := by simpa using List.find?_some hf
        exact leaf_promoteFlds rest _ out hn.2 hd'.2 h n e
          (by rw [find_replace_ne (by rw [(promote_spec hp).1, h0]; exact hc)]; exact he)
end

theorem merge_cases {table input merged : List Fld} {changed : Bool} (accepted : merge E table input = some (merged, changed)) :
    ∃ out, promoteFlds E (.ofList input) table = some out ∧ merged = out
      ∧ (out = table ∧ changed = false ∨ out ≠ table ∧ changed = true ∧ keptFlds (.ofList out) table = true) := by
  unfold merge at accepted
  obtain ⟨out, ho, h⟩ := Option.bind_eq_some_iff.1 accepted
  refine ⟨out, ho, ?_⟩
  split at h
  · next e =>
    cases h
    exact ⟨e.symm, .inl ⟨e, rfl⟩⟩
  · next ne =>
    split at h
    · next hk =>
      cases h
      exact ⟨rfl, .inr ⟨ne, rfl, hk⟩⟩
    · cases h

/-- Every plain type in the table, at any depth, is the same after merging. -/
theorem C150_types {table input merged : List Fld} {changed : Bool} (accepted : merge E table input = some (merged, changed))
    (distinct_columns : (input.map Fld.name).Nodup) (distinct_fields : distinctFlds (.ofList input))
    {column : String} {p : List Spec.Step} {b : Prim} (before : leafIn table column p = some b) :
    leafIn merged column p = some b := by
  obtain ⟨out, ho, rfl, h⟩ := merge_cases accepted
  rcases h with ⟨rfl, -⟩ | ⟨-, -, hk⟩
  · exact before
  · unfold leafIn at before ⊢
    obtain ⟨e, he, hb⟩ := Option.bind_eq_some_iff.1 before
    obtain ⟨f, hf, hl⟩ := leaf_promoteFlds (.ofList input) table merged (by rw [names, toList_ofList]; exact distinct_columns)
      distinct_fields ho column e he
    have hfn : f.name = column := by simpa using List.find?_some hf
    rw [hf, Option.bind_some]
    exact hl (kept_of_mem hk (List.mem_of_find?_eq_some hf) (by rw [hfn]; exact he)) p b hb

theorem promoteFlds_names : ∀ (cs : Flds) (acc out : List Fld), (names cs).Nodup → promoteFlds E cs acc = some out →
    out.map Fld.name = acc.map Fld.name ++ (names cs).filter fun n => decide (n ∉ acc.map Fld.name)
  | .nil, acc, out, _, h => by
    rw [promoteFlds] at h
    cases h
    simp [names, Flds.toList]
  | .cons c rest, acc, out, hn, h => by
    have hn' : c.name ∉ names rest ∧ (names rest).Nodup := by
      simpa only [names, Flds.toList, List.map_cons, List.nodup_cons] using hn
    have hcons : names (.cons c rest) = c.name :: names rest := rfl
    rw [promoteFlds] at h
    rw [hcons]
    cases hf : acc.find? (fun e => decide (e.name = c.name)) with
    | none =>
      rw [hf, Option.elim_none] at h
      have hnot : c.name ∉ acc.map Fld.name := by
        intro hm
        obtain ⟨e, he, hen⟩ := List.mem_map.1 hm
        have := List.find?_eq_none.1 hf e he
        simp [hen] at this
      rw [promoteFlds_names rest _ out hn'.2 h, List.filter_cons_of_pos (by simpa using hnot), List.map_append,
        List.append_assoc]
      congr 1
      rw [List.map_cons, List.map_nil, List.singleton_append]
      congr 1
      refine List.filter_congr fun n hm => ?_
      have : n ≠ c.name := fun e => hn'.1 (e ▸ hm)
      simp [this]
    | some e =>
      rw [hf, Option.elim_some] at h
      obtain ⟨f, hp, h⟩ := Option.bind_eq_some_iff.1 h
      have hen : e.name = c.name := by simpa using List.find?_some hf
      have hm : c.name ∈ acc.map Fld.name := List.mem_map.2 ⟨e, List.mem_of_find?_eq_some hf, hen⟩
      rw [promoteFlds_names rest _ out hn'.2 h, names_replace,
        List.filter_cons_of_neg (by rw [decide_eq_true_eq]; exact fun h => h hm)]

/-- The columns are the old ones in their order and then the new ones in their order. -/
theorem C150_names {table input merged : List Fld} {changed : Bool} (accepted : merge E table input = some (merged, changed))
    (distinct_columns : (input.map Fld.name).Nodup) :
    merged.map Fld.name = table.map Fld.name ++ (input.map Fld.name).filter fun n => decide (n ∉ table.map Fld.name) := by
  obtain ⟨out, ho, rfl, -⟩ := merge_cases accepted
  have := promoteFlds_names (.ofList input) table merged (by rw [names, toList_ofList]; exact distinct_columns) ho
  rw [names, toList_ofList] at this
  exact this

/-- What becomes of a column: nothing if it is not in the input; else it is promoted, or it is the one of the input. -/
theorem promoteFlds_column : ∀ (cs : Flds) (acc out : List Fld), (names cs).Nodup → promoteFlds E cs acc = some out →
    ∀ c ∈ cs.toList, ∃ f, (out.find? fun e => decide (e.name = c.name)) = some f ∧
      (match acc.find? fun e => decide (e.name = c.name) with
        | none => f = c
        | some e => promote E c e = some f)
  | .nil, acc, out, _, _, c, hc => by cases hc
  | .cons c0 rest, acc, out, hn, h, c, hc => by
    have hn' : c0.name ∉ names rest ∧ (names rest).Nodup := by
      simpa only [names, Flds.toList, List.map_cons, List.nodup_cons] using hn
    rw [promoteFlds] at h
    rw [Flds.toList] at hc
    rcases List.mem_cons.1 hc with rfl | hc
    · cases hf : acc.find? (fun e => decide (e.name = c.name)) with
      | none =>
        rw [hf, Option.elim_none] at h
        refine ⟨c, ?_, rfl⟩
        rw [promoteFlds_other rest _ out hn'.1 h, List.find?_append, hf]
        simp
      | some e =>
        rw [hf, Option.elim_some] at h
        obtain ⟨f, hp, h⟩ := Option.bind_eq_some_iff.1 h
        have hen : e.name = c.name := by simpa using List.find?_some hf
        refine ⟨f, ?_, hp⟩
        rw [promoteFlds_other rest _ out hn'.1 h]
        exact find_replace_same (by rw [(promote_spec hp).1, hen]) hf
    · have hne : c0.name ≠ c.name := fun e => hn'.1 (e ▸ List.mem_map.2 ⟨c, hc, rfl⟩)
      cases hf : acc.find? (fun e => decide (e.name = c0.name)) with
      | none =>
        rw [hf, Option.elim_none] at h
        have := promoteFlds_column rest _ out hn'.2 h c hc
        rw [find_snoc_ne hne] at this
        exact this
      | some e =>
        rw [hf, Option.elim_some] at h
        obtain ⟨f, hp, h⟩ := Option.bind_eq_some_iff.1 h
        have hen : e.name = c0.name := by simpa using List.find?_some hf
        have := promoteFlds_column rest _ out hn'.2 h c hc
        rw [find_replace_ne (by rw [(promote_spec hp).1, hen]; exact hne)] at this
        exact this

/-- A column that is not in the input stays as it is. -/
theorem C150_other_columns {table input merged : List Fld} {changed : Bool}
    (accepted : merge E table input = some (merged, changed)) {column : String} (other : column ∉ input.map Fld.name) :
    (merged.find? fun f => decide (f.name = column)) = table.find? fun f => decide (f.name = column) := by
  obtain ⟨out, ho, rfl, -⟩ := merge_cases accepted
  exact promoteFlds_other (.ofList input) table merged (by rw [names, toList_ofList]; exact other) ho

/-- A column in the table and in the input may be NULL if it may in one of them; all its metadata is lost. -/
theorem C150_nullable_and_metadata_lost {table input merged : List Fld} {changed : Bool}
    (accepted : merge E table input = some (merged, changed)) (distinct_columns : (input.map Fld.name).Nodup)
    {c e : Fld} (hc : c ∈ input) (he : (table.find? fun f => decide (f.name = c.name)) = some e) :
    ∃ f, (merged.find? fun f => decide (f.name = c.name)) = some f ∧ f.nullable = (e.nullable || c.nullable) ∧ f.notes = [] := by
  obtain ⟨out, ho, rfl, -⟩ := merge_cases accepted
  obtain ⟨f, hf, h⟩ := promoteFlds_column (.ofList input) table merged (by rw [names, toList_ofList]; exact distinct_columns) ho c
    (by rw [toList_ofList]; exact hc)
  rw [he] at h
  exact ⟨f, hf, (promote_spec h).2⟩

/-- A new column is the one of the input, so that it is required if it is there, although the rows of the table have no
value for it. -/
theorem C150_new_columns {table input merged : List Fld} {changed : Bool}
    (accepted : merge E table input = some (merged, changed)) (distinct_columns : (input.map Fld.name).Nodup)
    {c : Fld} (hc : c ∈ input) (new : c.name ∉ table.map Fld.name) :
    (merged.find? fun f => decide (f.name = c.name)) = some c := by
  obtain ⟨out, ho, rfl, -⟩ := merge_cases accepted
  obtain ⟨f, hf, h⟩ := promoteFlds_column (.ofList input) table merged (by rw [names, toList_ofList]; exact distinct_columns) ho c
    (by rw [toList_ofList]; exact hc)
  have hnone : (table.find? fun f => decide (f.name = c.name)) = none := by
    refine List.find?_eq_none.2 fun e he => ?_
    intro h
    exact new (List.mem_map.2 ⟨e, he, by simpa using h⟩)
  rw [hnone] at h
  rw [hf, h]

/-- A table with a comment and a generated column; the input has both columns and a required new one. -/
def Spec.table : List Fld :=
  [.mk "a" true [("comment", "the key")] (.prim (.other 0)),
   .mk "g" true [("delta.generationExpression", "a + 1")] (.prim (.other 0)),
   .mk "s" true [] (.struct (.cons (.mk "x" true [] (.prim (.decimal 10 2))) .nil))]

/-- With an input that brings nothing new, the schema is changed: the comment and the generation expression are lost. -/
theorem C150_nothing_new :
    (merge E Spec.table Spec.table).map (fun r => (r.1.map fun f => (f.name, f.notes), r.2))
      = some ([("a", []), ("g", []), ("s", [])], true) := by
  simp [merge, Spec.table, Flds.ofList, promoteFlds, promote, Fld.name, Fld.ty, Fld.nullable, replace, keptFlds, keptFld, keptTy,
    Ty.asStruct, Flds.toList, Fld.notes]

/-- If the columns of the input are columns of the table, which has no metadata on them, and have NULLs only if they
may, the schema is not changed. -/
theorem C150_unchanged_partial {table input : List Fld} (unique : (table.map Fld.name).Nodup)
    (same : ∀ c ∈ input, ∃ e ∈ table, e.name = c.name ∧ e.ty = c.ty ∧ e.notes = [] ∧ (c.nullable = true → e.nullable = true)) :
    merge E table input = some (table, false) := by
  have key : ∀ l : List Fld, (∀ c ∈ l, c ∈ input) → promoteFlds E (.ofList l) table = some table := by
    intro l
    induction l with
    | nil => intro _; rfl
    | cons c l ih =>
      intro hl
      obtain ⟨e, he, h1, h2, h3, h4⟩ := same c (hl c List.mem_cons_self)
      have hfind : (table.find? fun x => decide (x.name = c.name)) = some e := by
        clear same hl ih
        induction table with
        | nil => cases he
        | cons x t iht =>
          rw [List.map_cons, List.nodup_cons] at unique
          rw [List.find?_cons]
          rcases List.mem_cons.1 he with rfl | he'
          · simp [h1]
          · have hx : x.name ≠ c.name := by
              intro hx
              exact unique.1 (List.mem_map.2 ⟨e, he', by rw [h1, hx]⟩)
            simp only [hx, decide_false]
            exact iht unique.2 he'
      have hp : promote E c e = some e := by
        obtain ⟨en, eb, em, et⟩ := e
        obtain ⟨cn, cb, cm, ct⟩ := c
        simp only [Fld.name, Fld.ty, Fld.notes, Fld.nullable] at h1 h2 h3 h4
        subst h1 h2 h3
        rw [promote, if_pos (by rfl)]
        cases cb <;> simp_all [Fld.name, Fld.nullable, Fld.ty]
      have hr : replace table e = table := by
        unfold replace
        refine List.map_congr_left (g := id) (fun x hx => ?_) |>.trans (List.map_id _)
        by_cases hxe : x.name = e.name
        · rw [if_pos hxe]
          clear same hl ih hfind
          induction table with
          | nil => cases he
          | cons y t iht =>
            rw [List.map_cons, List.nodup_cons] at unique
            rcases List.mem_cons.1 he with rfl | he' <;> rcases List.mem_cons.1 hx with rfl | hx'
            · rfl
            · exact absurd (List.mem_map.2 ⟨x, hx', hxe⟩) unique.1
            · exact absurd (List.mem_map.2 ⟨e, he', hxe.symm⟩) unique.1
            · exact iht unique.2 he' hx'
        · rw [if_neg hxe]
          rfl
      rw [Flds.ofList, promoteFlds, hfind, Option.elim_some, hp, Option.bind_some, hr]
      exact ih fun x hx => hl x (List.mem_cons_of_mem _ hx)
  rw [merge, key input (fun _ h => h), Option.bind_some, if_pos rfl]

/-- A new field in a struct, an old column left out, and a required new column. -/
example : merge { canCast := fun _ _ => true } Spec.table
    [.mk "n" false [] (.prim (.other 1)),
     .mk "s" false [] (.struct (.cons (.mk "y" true [] (.prim (.other 2))) (.cons (.mk "x" true [] (.prim (.decimal 10 2))) .nil)))]
    = some ([.mk "a" true [("comment", "the key")] (.prim (.other 0)),
        .mk "g" true [("delta.generationExpression", "a + 1")] (.prim (.other 0)),
        .mk "s" true [] (.struct (.cons (.mk "x" true [] (.prim (.decimal 10 2))) (.cons (.mk "y" true [] (.prim (.other 2))) .nil))),
        .mk "n" false [] (.prim (.other 1))], true) := by decide +kernel

example : leafIn Spec.table "s" [.field "x"] = some (.decimal 10 2) := by rfl

/-- A column is not accepted if arrow can cast the type of the table to the type of the input, as for `bigint` and
`int`, although its values fit. -/
theorem C150_narrow_input_refused (long int : Nat) (different : long ≠ int)
    (castable : E.canCast (.prim (.other long)) (.prim (.other int)) = true) (name : String) (b : Bool) :
    merge E [.mk name b [] (.prim (.other long))] [.mk name b [] (.prim (.other int))] = none := by
  simp [merge, Flds.ofList, promoteFlds, promote, promoteTy, cast, castable, Fld.name, Fld.ty, Fld.nullable, replace,
    keptFlds, keptFld, keptTy, different, Ne.symm different]

/-- A narrower decimal is accepted and the type of the table is kept. -/
theorem C150_narrow_decimal {p s p' s' : Nat} (scale : s' ≤ s) (digits : p' + (s - s') ≤ p) (different : (p, s) ≠ (p', s'))
    (name : String) (b : Bool) :
    merge E [.mk name b [] (.prim (.decimal p s))] [.mk name b [] (.prim (.decimal p' s'))]
      = some ([.mk name b [] (.prim (.decimal p s))], false) := by
  have d : ¬(p = p' ∧ s = s') := fun h => different (by rw [h.1, h.2])
  simp [merge, Flds.ofList, promoteFlds, promote, promoteTy, cast, widens, scale, digits, Fld.name, Fld.ty, Fld.nullable, replace, d]

/-- The type at the end of a path. -/
def Spec.follow : List Spec.Step → Ty → Option Ty
  | [], t => some t
  | .field n :: p, .struct fs => (fs.toList.find? fun f => decide (f.name = n)).bind fun f => Spec.follow p f.ty
  | .element :: p, .list e => Spec.follow p e.ty
  | .key :: p, .map k _ => Spec.follow p k.ty
  | .value :: p, .map _ v => Spec.follow p v.ty
  | _, _ => none

theorem distinctFlds_mem : ∀ {fs : Flds}, distinctFlds fs → ∀ f ∈ fs.toList, distinct f.ty
  | .nil, _, f, hf => by cases hf
  | .cons (.mk _ _ _ t) rest, h, f, hf => by
    rw [distinctFlds] at h
    rw [Flds.toList] at hf
    rcases List.mem_cons.1 hf with rfl | hf
    · exact h.1
    · exact distinctFlds_mem h.2 f hf

theorem filter_self (l : List String) : l.filter (fun n => decide (n ∉ l)) = [] := by
  rw [List.filter_eq_nil_iff]
  intro n hn
  simpa using hn

theorem nested_names : ∀ (q : List Spec.Step) (c e f : Fld) (es cs : Flds), distinct c.ty → promote E c e = some f →
    Spec.follow q e.ty = some (.struct es) → Spec.follow q c.ty = some (.struct cs) →
    ∃ fs, Spec.follow q f.ty = some (.struct fs) ∧ names fs = names es ++ (names cs).filter fun n => decide (n ∉ names es)
  | q, .mk cn cb cm ct, .mk en eb em et, f, es, cs, hd, h, he, hc => by
    simp only [Fld.ty] at hd he hc
    rw [promote] at h
    split at h
    · next heq =>
      cases h
      simp only [Fld.ty] at heq ⊢
      subst heq
      rw [he] at hc
      cases hc
      exact ⟨es, he, by rw [filter_self, List.append_nil]⟩
    · obtain ⟨u, hu, rfl⟩ := Option.map_eq_some_iff.1 h
      simp only [Fld.ty] at hu ⊢
      match q, et, ct, hd, he, hc, hu with
      | [], et, ct, hd, he, hc, hu =>
        simp only [Spec.follow, Option.some.injEq] at he hc
        subst he
        subst hc
        rw [promoteTy, Ty.asStruct, Option.elim_some] at hu
        obtain ⟨out, ho, rfl⟩ := Option.map_eq_some_iff.1 hu
        rw [distinct] at hd
        refine ⟨.ofList out, rfl, ?_⟩
        rw [names, toList_ofList]
        exact promoteFlds_names cs es.toList out hd.1 ho
      | .field n :: q, .struct os, .struct is, hd, he, hc, hu =>
        rw [Spec.follow] at he hc
        obtain ⟨e', he', he⟩ := Option.bind_eq_some_iff.1 he
        obtain ⟨c', hc', hc⟩ := Option.bind_eq_some_iff.1 hc
        rw [promoteTy, Ty.asStruct, Option.elim_some] at hu
        obtain ⟨out, ho, rfl⟩ := Option.map_eq_some_iff.1 hu
        rw [distinct] at hd
        have hcm := List.mem_of_find?_eq_some hc'
        have hcn : c'.name = n := by simpa using List.find?_some hc'
        obtain ⟨f', hf', hp⟩ := promoteFlds_column is os.toList out hd.1 ho c' hcm
        rw [hcn] at hf' hp
        rw [he'] at hp
        rw [Spec.follow, toList_ofList, hf', Option.bind_some]
        exact nested_names q c' e' f' es cs (distinctFlds_mem hd.2 c' hcm) hp he hc
      | .element :: q, .list o, .list i, hd, he, hc, hu =>
        rw [Spec.follow] at he hc
        rw [promoteTy, Ty.asList, Option.elim_some] at hu
        obtain ⟨f', hp, rfl⟩ := Option.map_eq_some_iff.1 hu
        rw [Spec.follow]
        have hd' : distinct i.ty := by
          cases i
          rw [distinct] at hd
          exact hd
        exact nested_names q i o f' es cs hd' hp he hc
      | .key :: q, .map ok ov, .map ik iv, hd, he, hc, hu =>
        rw [Spec.follow] at he hc
        rw [promoteTy, Ty.asMap, Option.elim_some] at hu
        obtain ⟨fk, hk, hu⟩ := Option.bind_eq_some_iff.1 hu
        obtain ⟨fv, hv, rfl⟩ := Option.map_eq_some_iff.1 hu
        rw [Spec.follow]
        have hd' : distinct ik.ty := by
          cases ik
          cases iv
          rw [distinct] at hd
          exact hd.1
        exact nested_names q ik ok fk es cs hd' hk he hc
      | .value :: q, .map ok ov, .map ik iv, hd, he, hc, hu =>
        rw [Spec.follow] at he hc
        rw [promoteTy, Ty.asMap, Option.elim_some] at hu
        obtain ⟨fk, hk, hu⟩ := Option.bind_eq_some_iff.1 hu
        obtain ⟨fv, hv, rfl⟩ := Option.map_eq_some_iff.1 hu
        rw [Spec.follow]
        have hd' : distinct iv.ty := by
          cases ik
          cases iv
          rw [distinct] at hd
          exact hd.2
        exact nested_names q iv ov fv es cs hd' hv he hc
      | .field _ :: _, .prim _, _, _, he, _, _ => cases he
      | .field _ :: _, .list _, _, _, he, _, _ => cases he
      | .field _ :: _, .map _ _, _, _, he, _, _ => cases he
      | .field _ :: _, .struct _, .prim _, _, _, hc, _ => cases hc
      | .field _ :: _, .struct _, .list _, _, _, hc, _ => cases hc
      | .field _ :: _, .struct _, .map _ _, _, _, hc, _ => cases hc
      | .element :: _, .prim _, _, _, he, _, _ => cases he
      | .element :: _, .struct _, _, _, he, _, _ => cases he
      | .element :: _, .map _ _, _, _, he, _, _ => cases he
      | .element :: _, .list _, .prim _, _, _, hc, _ => cases hc
      | .element :: _, .list _, .struct _, _, _, hc, _ => cases hc
      | .element :: _, .list _, .map _ _, _, _, hc, _ => cases hc
      | .key :: _, .prim _, _, _, he, _, _ => cases he
      | .key :: _, .struct _, _, _, he, _, _ => cases he
      | .key :: _, .list _, _, _, he, _, _ => cases he
      | .key :: _, .map _ _, .prim _, _, _, hc, _ => cases hc
      | .key :: _, .map _ _, .struct _, _, _, hc, _ => cases hc
      | .key :: _, .map _ _, .list _, _, _, hc, _ => cases hc
      | .value :: _, .prim _, _, _, he, _, _ => cases he
      | .value :: _, .struct _, _, _, he, _, _ => cases he
      | .value :: _, .list _, _, _, he, _, _ => cases he
      | .value :: _, .map _ _, .prim _, _, _, hc, _ => cases hc
      | .value :: _, .map _ _, .struct _, _, _, hc, _ => cases hc
      | .value :: _, .map _ _, .list _, _, _, hc, _ => cases hc

/-- At every path that leads to a struct in the table and in the input, the fields are the old ones and then the new
ones. -/
theorem C150_nested_names {table input merged : List Fld} {changed : Bool}
    (accepted : merge E table input = some (merged, changed)) (distinct_columns : (input.map Fld.name).Nodup)
    (distinct_fields : distinctFlds (.ofList input)) {c e : Fld} (hc : c ∈ input)
    (he : (table.find? fun f => decide (f.name = c.name)) = some e) {q : List Spec.Step} {old new : Flds}
    (before : Spec.follow q e.ty = some (.struct old)) (given : Spec.follow q c.ty = some (.struct new)) :
    ∃ f after, (merged.find? fun f => decide (f.name = c.name)) = some f ∧ Spec.follow q f.ty = some (.struct after)
      ∧ names after = names old ++ (names new).filter fun n => decide (n ∉ names old) := by
  obtain ⟨out, ho, rfl, -⟩ := merge_cases accepted
  have hc' : c ∈ (Flds.ofList input).toList := by
    rw [toList_ofList]
    exact hc
  obtain ⟨f, hf, h⟩ := promoteFlds_column (.ofList input) table merged (by rw [names, toList_ofList]; exact distinct_columns) ho c hc'
  rw [he] at h
  obtain ⟨fs, h1, h2⟩ := nested_names q c e f old new (distinctFlds_mem distinct_fields c hc') h before given
  exact ⟨f, fs, hf, h1, h2⟩

example : Spec.follow [.element, .field "x"]
    (.list (.mk "element" true [] (.struct (.cons (.mk "x" true [] (.struct .nil)) .nil)))) = some (.struct .nil) := by rfl

end Verif.Delta.MergeSchema
