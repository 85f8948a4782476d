import Verif.Merge.Source
import Verif.Merge.MorProps
import Verif.Merge.Sample

/-! # C79: the analysis of the source query is sound -/

set_option linter.unusedSectionVars false

namespace Verif.Merge

open Verif.Opt (Row and3 eq3)

variable {α : Type} [DecidableEq α]

/-- The values of the key columns. -/
def keyVals (names keys : List Name) (r : Row α) : Row α := keys.map (colAt names r)

theorem colAt_map (g : Item α → Option α) (k : Name) : ∀ items : List (Name × Item α),
    colAt (items.map (·.1)) (items.map (fun it => g it.2)) k =
      ((items.find? (fun it => it.1 == k)).map (fun it => g it.2)).join
  | [] => rfl
  | it :: items => by
    have ih := colAt_map g k items
    rw [List.find?_cons]
    rw [colAt] at ih ⊢
    rw [List.map_cons, List.map_cons, List.findIdx?_cons]
    cases hk : it.1 == k with
    | true => rfl
    | false =>
      simp only [Bool.false_eq_true, if_false]
      cases hf : (items.map (·.1)).findIdx? (· == k) with
      | none => rw [hf] at ih; exact ih
      | some i =>
        rw [hf] at ih
        simp only [Option.map_some]
        rw [Row.at_cons_succ]
        exact ih

theorem mapM_some_iff {β γ : Type} (f : β → Option γ) : ∀ {l : List β} {r : List γ}, l.mapM f = some r →
    l.map f = r.map some
  | [], r, h => by
    cases h
    rfl
  | a :: l, r, h => by
    rw [List.mapM_cons] at h
    cases ha : f a with
    | none => rw [ha] at h; exact nomatch h
    | some b =>
      cases hl : l.mapM f with
      | none => rw [ha, hl] at h; exact nomatch h
      | some r' =>
        rw [ha, hl] at h
        cases h
        rw [List.map_cons, List.map_cons, ha, mapM_some_iff f hl]

theorem mapKey_eval {items : List (Name × Item α)} {k n : Name} (h : mapKey items k = some n) (names : List Name)
    (r : Row α) :
    colAt (items.map (·.1)) (items.map (fun it => it.2.eval names r)) k = colAt names r n ∧
      ∃ it ∈ items, it.2 = .column n ∨ it.2 = .aliasOf n := by
  rw [colAt_map (Item.eval names r)]
  rw [mapKey] at h
  cases hf : items.find? (fun it => it.1 == k) with
  | none => rw [hf] at h; exact nomatch h
  | some it =>
    have hm := List.mem_of_find?_eq_some hf
    obtain ⟨nm, it⟩ := it
    rw [hf] at h
    cases it with
    | column m => cases h; exact ⟨rfl, _, hm, .inl rfl⟩
    | aliasOf m => cases h; exact ⟨rfl, _, hm, .inr rfl⟩
    | other f => exact nomatch h

theorem mapKeys_eval {items : List (Name × Item α)} (names : List Name) (r : Row α) : ∀ {keys mapped : List Name},
    keys.mapM (mapKey items) = some mapped →
    keyVals (items.map (·.1)) keys (items.map (fun it => it.2.eval names r)) = keyVals names mapped r ∧
      ∀ n ∈ mapped, ∃ it ∈ items, it.2 = .column n ∨ it.2 = .aliasOf n
  | [], mapped, h => by
    cases h
    exact ⟨rfl, fun _ h => nomatch h⟩
  | k :: keys, mapped, h => by
    rw [List.mapM_cons] at h
    cases ha : mapKey items k with
    | none => rw [ha] at h; exact nomatch h
    | some n =>
      cases hl : keys.mapM (mapKey items) with
      | none => rw [ha, hl] at h; exact nomatch h
      | some m =>
        rw [ha, hl] at h
        cases h
        obtain ⟨h1, h2⟩ := mapKey_eval ha names r
        obtain ⟨h3, h4⟩ := mapKeys_eval names r hl
        refine ⟨?_, ?_⟩
        · rw [keyVals, List.map_cons, h1, keyVals, List.map_cons]
          congr 1
        · intro x hx
          rcases List.mem_cons.1 hx with rfl | hx
          · exact h2
          · exact h4 x hx

theorem nodup_of_distinct {names : List Name} (h : distinctNames names) : names.Nodup := List.Nodup.of_map _ h

/-- A column of a row that begins with grouping values. -/
theorem colAt_group {gs : List (Group α)} {rest : List Name}
    (hd : distinctNames (gs.map Group.name ++ rest)) {k : Row α} (hk : k.length = gs.length) (more : Row α) {i : Nat}
    {g : Group α} (hg : gs[i]? = some g) :
    colAt (gs.map Group.name ++ rest) (k ++ more) g.name = k.at i := by
  have hi : i < gs.length := (List.getElem?_eq_some_iff.1 hg).1
  have : (gs.map Group.name ++ rest)[i]? = some g.name := by
    rw [List.getElem?_append_left (by simpa using hi), List.getElem?_map, hg]
    rfl
  rw [colAt_eq (nodup_of_distinct hd) this]
  simp only [Row.at]
  rw [List.getElem?_append_left (by omega)]

theorem row_ext {a b : Row α} (hl : a.length = b.length) (h : ∀ i, i < a.length → a.at i = b.at i) : a = b := by
  apply List.ext_getElem?
  intro i
  by_cases hi : i < a.length
  · have := h i hi
    simp only [Row.at] at this
    rw [List.getElem?_eq_getElem hi, List.getElem?_eq_getElem (hl ▸ hi)] at this ⊢
    simpa using this
  · rw [List.getElem?_eq_none (by omega), List.getElem?_eq_none (by omega)]

theorem groupColumns_mem {gs : List (Group α)} {cols : List Name} (h : groupColumns gs = some cols) :
    cols = gs.map Group.name := by
  induction gs generalizing cols with
  | nil => cases h; rfl
  | cons g gs ih =>
    rw [groupColumns, List.mapM_cons] at h
    cases g with
    | other n f => exact nomatch h
    | column n =>
      cases hl : groupColumns gs with
      | none =>
        rw [groupColumns] at hl
        rw [hl] at h
        exact nomatch h
      | some c =>
        have := ih hl
        rw [groupColumns] at hl
        rw [hl] at h
        cases h
        rw [this]
        rfl

/-- If the loop says so, no two rows have the same key. -/
theorem walk_nodup : ∀ (src : Src α) (keys : List Name), src.Ok → (∀ k ∈ keys, k ∈ src.names) → keys ≠ [] →
    src.walk keys = true → (src.rows.map (keyVals src.names keys)).Nodup
  | .leaf _ _, _, _, _, _, h => nomatch h
  | .alias s, keys, hok, hm, hne, h => walk_nodup s keys hok hm hne h
  | .filter p s, keys, hok, hm, hne, h =>
    (walk_nodup s keys hok hm hne h).sublist (List.Sublist.map _ List.filter_sublist)
  | .project items s, keys, hok, hm, hne, h => by
    obtain ⟨hs, _, hcol⟩ := hok
    rw [Src.walk] at h
    cases hk : keys.mapM (mapKey items) with
    | none => rw [hk] at h; exact nomatch h
    | some mapped =>
      rw [hk] at h
      have hmapped : ∀ n ∈ mapped, n ∈ s.names := by
        intro n hn
        obtain ⟨it, hit, hc⟩ := (mapKeys_eval (α := α) [] [] hk).2 n hn
        exact hcol it hit n hc
      have hne' : mapped ≠ [] := by
        rintro rfl
        have := congrArg List.length (mapM_some_iff _ hk)
        simp only [List.length_map, List.length_nil] at this
        exact hne (List.length_eq_zero_iff.1 this)
      have ih := walk_nodup s mapped hs hmapped hne' h
      have : (Src.project items s).rows.map (keyVals (Src.project items s).names keys) =
          s.rows.map (keyVals s.names mapped) := by
        rw [Src.rows, List.map_map]
        apply List.map_congr_left
        intro r _
        exact (mapKeys_eval s.names r hk).1
      rw [this]
      exact ih
  | .aggregate gs aggs s, keys, hok, hm, hne, h => by
    obtain ⟨_, hd, _⟩ := hok
    rw [Src.walk] at h
    cases hg : groupColumns gs with
    | none => rw [hg] at h; exact nomatch h
    | some cols =>
      rw [hg] at h
      have hc := groupColumns_mem hg
      subst hc
      simp only [sameColumnSet, Bool.and_eq_true, beq_iff_eq, List.all_eq_true, List.contains_iff_mem] at h
      obtain ⟨⟨⟨⟨hlen, _⟩, _⟩, hsub⟩, _⟩ := h
      have hgs : gs.isEmpty = false := by
        cases gs with
        | cons _ _ => rfl
        | nil =>
          simp only [List.map_nil, List.length_nil] at hlen
          exact absurd (List.length_eq_zero_iff.1 hlen.symm) hne
      rw [Src.rows, hgs, List.map_map]
      simp only [Bool.false_eq_true, if_false]
      refine List.Nodup.map_on ?_ (eraseDups_nodup _)
      intro a ha b hb hab
      have hlenOf : ∀ x ∈ (s.rows.map (groupKey s.names gs)).eraseDups, x.length = gs.length := by
        intro x hx
        rw [List.mem_eraseDups, List.mem_map] at hx
        obtain ⟨r, _, rfl⟩ := hx
        simp [groupKey]
      have hla := hlenOf a ha
      have hlb := hlenOf b hb
      apply row_ext (by omega)
      intro i hi
      have hi' : i < gs.length := by omega
      have hgi : gs[i]? = some gs[i] := List.getElem?_eq_getElem hi'
      have hname : gs[i].name ∈ gs.map Group.name := List.mem_map.2 ⟨_, List.getElem_mem hi', rfl⟩
      have hn := hsub _ (List.mem_map.2 ⟨_, hname, rfl⟩)
      obtain ⟨k, hk, hkn⟩ := List.mem_map.1 hn
      have hkin := hm k hk
      have hkeq : k = gs[i].name :=
        List.inj_on_of_nodup_map hd hkin (List.mem_append.2 (.inl hname)) hkn
      have hv := (List.map_inj_left.1 hab) k hk
      rw [hkeq] at hv
      rw [Src.names, colAt_group hd hla _ hgi, colAt_group hd hlb _ hgi] at hv
      exact hv

theorem nodup_of_length {names : List Name} (h : ¬ (names.map normName).eraseDups.length < names.length) :
    distinctNames names := by
  have hs : ∀ l : List Name, l.eraseDups.length ≤ l.length ∧ (l.eraseDups.length = l.length → l.Nodup) := by
    intro l
    generalize hn : l.length = n
    induction n using Nat.strongRecOn generalizing l with
    | _ n ih =>
      cases l with
      | nil => simp at hn; subst hn; simp
      | cons a as =>
        rw [List.eraseDups_cons]
        have hfl := List.length_filter_le (fun b => !b == a) as
        simp only [List.length_cons] at hn
        obtain ⟨h1, h2⟩ := ih _ (by omega) (as.filter (fun b => !b == a)) rfl
        refine ⟨by simp only [List.length_cons]; omega, ?_⟩
        intro heq
        simp only [List.length_cons] at heq
        have hfe : (as.filter (fun b => !b == a)).length = as.length := by omega
        have hself : as.filter (fun b => !b == a) = as := List.filter_sublist.eq_of_length hfe
        rw [List.nodup_cons]
        refine ⟨?_, ?_⟩
        · intro ha
          rw [← hself] at ha
          simpa using (List.mem_filter.1 ha).2
        · rw [← hself]
          exact h2 (by rw [hself]; rw [hself] at heq; omega)
  refine (hs _).2 ?_
  have := (hs (names.map normName)).1
  simp only [List.length_map] at *
  omega

theorem keyIndices_mem (names : List Name) : ∀ {keys : List Name} {acc idx : List Nat},
    keyIndices names acc keys = some idx → ∀ i ∈ idx, i ∈ acc ∨ ∃ k ∈ keys, ∃ n, names[i]? = some n ∧
      normName n = normName k
  | [], acc, idx, h, i, hi => by
    cases h
    exact .inl hi
  | k :: keys, acc, idx, h, i, hi => by
    rw [keyIndices] at h
    cases hf : names.findIdx? (fun n => normName n == normName k) with
    | none => rw [hf] at h; exact nomatch h
    | some j =>
      rw [hf] at h
      simp only at h
      split_ifs at h with hc
      rcases keyIndices_mem names h i hi with hi | ⟨k', hk', n, hn⟩
      · rcases List.mem_cons.1 hi with rfl | hi
        · right
          obtain ⟨hj, hjn, _⟩ := List.findIdx?_eq_some_iff_getElem.1 hf
          exact ⟨k, by simp, names[i], List.getElem?_eq_getElem hj, by simpa using hjn⟩
        · exact .inl hi
      · exact .inr ⟨k', by simp [hk'], n, hn⟩

/-- If the functional dependencies say so, no two rows have the same key, NULLs apart. -/
theorem schemaUnique_pairwise {names : List Name} {fds : List Fd} {keys : List Name} {rows : List (Row α)}
    (hfd : ∀ fd ∈ fds, fd.Sound rows) (hm : ∀ k ∈ keys, k ∈ names) (h : schemaUnique names fds keys = true) :
    rows.Pairwise (fun a b => ¬ ∀ k ∈ keys, colAt names a k = colAt names b k ∧ colAt names a k ≠ none) := by
  rw [schemaUnique] at h
  split_ifs at h with hlt
  have hd := nodup_of_length hlt
  cases hidx : keyIndices names [] keys with
  | none => rw [hidx] at h; exact nomatch h
  | some idx =>
    rw [hidx] at h
    cases idx with
    | nil => exact nomatch h
    | cons i0 rest =>
      obtain ⟨fd, hfdm, hfdp⟩ := List.any_eq_true.1 h
      simp only [Bool.and_eq_true, List.all_eq_true, List.contains_iff_mem] at hfdp
      refine (hfd fd hfdm hfdp.1).imp ?_
      intro a b hab hk
      apply hab
      intro i hi
      rcases keyIndices_mem names hidx i (hfdp.2 i hi) with h0 | ⟨k, hkm, n, hn, hnk⟩
      · exact nomatch h0
      · have hkn : k = n := List.inj_on_of_nodup_map hd (hm k hkm) (List.mem_of_getElem? hn) hnk.symm
        have := hk k hkm
        rw [hkn, colAt_eq (nodup_of_distinct hd) hn, colAt_eq (nodup_of_distinct hd) hn] at this
        exact this

theorem eq3_some {a b : Option α} (h : eq3 a b = some true) : a = b ∧ a ≠ none := by
  cases a <;> cases b <;> simp_all [eq3]

/-- The join keys: the target side does not depend on the source row, and a source side that is a plain column has the
value of that column. -/
def KeysOk (names : List Name) (pairs : List (Operand α × Operand α)) : Prop :=
  ∀ p ∈ pairs, (∀ t s s', p.1.eval t s = p.1.eval t s') ∧
    ∀ n, p.2.column = some n → n ∈ names ∧ ∀ t s, p.2.eval t s = colAt names s n

theorem conjuncts_ok {names : List Name} : ∀ {on : On α}, on.Ok names → ∀ q ∈ on.conjuncts, q.Ok names
  | .and l r, h, q, hq => by
    rw [On.conjuncts, List.mem_append] at hq
    exact hq.elim (conjuncts_ok h.1 q) (conjuncts_ok h.2 q)
  | .eq l r, h, q, hq => by
    rw [On.conjuncts, List.mem_singleton] at hq
    · subst hq
      exact h
    · exact fun _ _ h => nomatch h
  | .other f, h, q, hq => by
    rw [On.conjuncts, List.mem_singleton] at hq
    · subst hq
      exact h
    · exact fun _ _ h => nomatch h

theorem keysOk {names : List Name} {on : On α} (h : on.Ok names) : KeysOk names (analyzeJoin on).1 := by
  intro p hp
  obtain ⟨q, hq, hc⟩ := List.mem_filterMap.1 hp
  have hok := conjuncts_ok h q hq
  cases q with
  | and l r => exact nomatch hc
  | other f => exact nomatch hc
  | eq l r =>
    rw [On.classify] at hc
    cases hl : l.domain <;> cases hr : r.domain <;> simp only [hl, hr, Sum.getLeft?] at hc <;>
      first
        | (cases hc; exact ⟨hok.1.1 hl, hok.2.2 hr⟩)
        | (cases hc; exact ⟨hok.2.1 hr, hok.1.2 hl⟩)
        | exact nomatch hc

/-- **C79.** If the analysis says that the source is unique on the join keys, no target row matches two source rows. -/
theorem C79_unique_source_is_single {o : Options α} {src : Src α} {fds : List Fd} (hok : src.Ok)
    (hfd : ∀ fd ∈ fds, fd.Sound src.rows) (hon : o.on.Ok src.names) (T : List (TRow α))
    (h : sourceUnique src fds (analyzeJoin o.on).1 = true) : Spec.Single o T src.rows := by
  have hkeys := keysOk hon
  rw [sourceUnique] at h
  cases hk : keyColumns (analyzeJoin o.on).1 with
  | none => rw [hk] at h; exact nomatch h
  | some keys =>
    rw [hk] at h
    simp only [Bool.or_eq_true] at h
    have hmap : (analyzeJoin o.on).1.map (fun p => p.2.column) = keys.map some ∧ keys ≠ [] := by
      rw [keyColumns] at hk
      split at hk
      · exact nomatch hk
      · rename_i hnil
        refine ⟨mapM_some_iff _ hk, ?_⟩
        rintro rfl
        exact hnil hk
    have hpair : ∀ k ∈ keys, ∃ p ∈ (analyzeJoin o.on).1, p.2.column = some k := by
      intro k hkm
      have : some k ∈ (analyzeJoin o.on).1.map (fun p => p.2.column) := by
        rw [hmap.1]
        exact List.mem_map.2 ⟨k, hkm, rfl⟩
      obtain ⟨p, hp, hc⟩ := List.mem_map.1 this
      exact ⟨p, hp, hc⟩
    have hin : ∀ k ∈ keys, k ∈ src.names := by
      intro k hkm
      obtain ⟨p, hp, hc⟩ := hpair k hkm
      exact ((hkeys p hp).2 k hc).1
    have hpw : src.rows.Pairwise (fun a b => ¬ ∀ k ∈ keys, colAt src.names a k = colAt src.names b k ∧
        colAt src.names a k ≠ none) := by
      rcases h with h | h
      · exact schemaUnique_pairwise hfd hin h
      · have hn := walk_nodup src keys hok hin hmap.2 h
        rw [List.Nodup, List.pairwise_map] at hn
        refine hn.imp ?_
        intro a b hab hall
        exact hab (List.map_congr_left (fun k hkm => (hall k hkm).1))
    intro t ht
    refine Classical.byContradiction (fun hlen => ?_)
    have hsub : (Spec.matchesOf o src.rows t.vals).Sublist src.rows := List.filter_sublist
    have hpw' := hpw.sublist hsub
    cases hm : Spec.matchesOf o src.rows t.vals with
    | nil => rw [hm] at hlen; simp at hlen
    | cons a l =>
      cases l with
      | nil => rw [hm] at hlen; simp at hlen
      | cons b l =>
        rw [hm] at hpw'
        have hab := (List.pairwise_cons.1 hpw').1 b (by simp)
        apply hab
        intro k hkm
        obtain ⟨p, hp, hc⟩ := hpair k hkm
        obtain ⟨htgt, hcol⟩ := hkeys p hp
        have hval : ∀ s ∈ Spec.matchesOf o src.rows t.vals,
            p.1.eval t.vals [] = colAt src.names s k ∧ p.1.eval t.vals [] ≠ none := by
          intro s hs
          have hj := (joins_iff o.on t.vals s).2 (matchesOf_mem hs).2
          rw [joins, Bool.and_eq_true, List.all_eq_true] at hj
          have := eq3_some (by simpa using hj.1 p hp)
          rw [(hcol k hc).2, htgt t.vals s []] at this
          exact this
        have h1 := hval a (by rw [hm]; simp)
        have h2 := hval b (by rw [hm]; simp)
        exact ⟨h1.1.symm.trans h2.1, h1.1 ▸ h1.2⟩

/-- **C79.** So the check may be left out: for a source that passes the analysis, the statement with the check and the
statement without it do the same. -/
theorem C79_check_is_left_out_safely {o : Options α} {src : Src α} {fds : List Fd} (hok : src.Ok)
    (hfd : ∀ fd ∈ fds, fd.Sound src.rows) (hon : o.on.Ok src.names) (T : List (TRow α)) :
    writePlan o (needsCheck o (sourceUnique src fds (analyzeJoin o.on).1)) T src.rows =
        writePlan o (needsCheck o false) T src.rows ∧
      touchedPlan o (needsCheck o (sourceUnique src fds (analyzeJoin o.on).1)) T src.rows =
        touchedPlan o (needsCheck o false) T src.rows ∧
      deletePlan o (needsCheck o (sourceUnique src fds (analyzeJoin o.on).1)) T src.rows =
        deletePlan o (needsCheck o false) T src.rows := by
  have hj : checkedJoin o (needsCheck o (sourceUnique src fds (analyzeJoin o.on).1)) T src.rows =
      checkedJoin o (needsCheck o false) T src.rows := by
    cases hu : sourceUnique src fds (analyzeJoin o.on).1 with
    | false => rfl
    | true =>
      have := (check_iff o T src.rows).2 (C79_unique_source_is_single hok hfd hon T hu)
      simp [checkedJoin, this]
  simp only [writePlan, touchedPlan, deletePlan, hj, and_self]

/-! ## Examples -/

/-- `SELECT id, max(v) AS v FROM … GROUP BY id`, under a filter. -/
def sampleQuery : Src Nat :=
  .filter (fun r => some (r.at 1).isSome)
    (.project [("id".toList, .column "#0".toList), ("v".toList, .aliasOf "#2".toList)]
      (.aggregate [.column "#0".toList] [("#2".toList, fun rs => rs.head?.bind (fun r => r.at 1))]
        (.leaf ["#0".toList, "#1".toList] [[some 1, some 11], [some 1, some 12], [none, some 3], [none, some 4]])))

/-- The hypotheses of `C79_unique_source_is_single` are met, and the analysis succeeds, by the walk and by a functional
dependency. -/
example : sampleQuery.Ok ∧ sampleMerge.on.Ok sampleQuery.names ∧
    sourceUnique sampleQuery [] (analyzeJoin sampleMerge.on).1 = true := by
  refine ⟨⟨⟨⟨by rw [distinctNames]; decide +kernel, by decide +kernel⟩, by rw [distinctNames]; decide +kernel, ?_⟩,
    by rw [distinctNames]; decide +kernel, ?_⟩, ?_, by decide +kernel⟩
  · intro n h
    simp only [List.mem_cons, List.not_mem_nil, or_false, Group.column.injEq] at h
    subst h
    decide +kernel
  · intro it hit n h
    simp only [List.mem_cons, List.not_mem_nil, or_false] at hit
    rcases hit with rfl | rfl
    · rcases h with h | h <;> cases h
      decide +kernel
    · rcases h with h | h <;> cases h
      decide +kernel
  · refine ⟨⟨fun _ _ _ _ => rfl, fun h => nomatch h⟩, ⟨fun h => (nomatch h), ?_⟩⟩
    intro _ n hn
    cases hn
    exact ⟨by decide +kernel, fun _ _ => rfl⟩

example : sampleQuery.rows = [[some 1, some 11], [none, some 3]] := by decide +kernel

example : sourceUnique (.leaf sampleNames [[some 1, some 1], [some 2, some 1], [none, some 1], [none, some 2]])
    [⟨true, [0]⟩] (analyzeJoin sampleMerge.on).1 = true := by decide +kernel

/-- A source grouped by more than the keys is not taken for unique. -/
example : sourceUnique (.aggregate [.column "id".toList, .column "v".toList] [] (.leaf sampleNames sampleSource)) []
    (analyzeJoin sampleMerge.on).1 = false := by decide +kernel

end Verif.Merge
