import Verif.Merge.Lemmas

/-! # Lemmas on MERGE: the projected rows are those of the specification -/

set_option linter.unusedSectionVars false

namespace Verif.Merge

open Verif.Opt (Row and3 eq3)

variable {α : Type} [DecidableEq α]

theorem namesEqual_refl (cs : Bool) (a : Name) : namesEqual cs a a = true := by
  cases cs <;> simp [namesEqual]

theorem namesEqual_symm {cs : Bool} {a b : Name} (h : namesEqual cs a b = true) : namesEqual cs b a = true := by
  cases cs <;> simp [namesEqual] at * <;> exact h.symm

theorem namesEqual_trans {cs : Bool} {a b c : Name} (h : namesEqual cs a b = true) (h' : namesEqual cs b c = true) :
    namesEqual cs a c = true := by
  cases cs <;> simp [namesEqual] at * <;> exact h.trans h'

theorem namesEqual_comm (cs : Bool) (a b : Name) : namesEqual cs a b = namesEqual cs b a := by
  rw [Bool.eq_iff_iff]
  exact ⟨namesEqual_symm, namesEqual_symm⟩

theorem Spec.Valid.nodup {o : Options α} (hv : Spec.Valid o) : o.target.Nodup :=
  hv.names.imp (fun {a b} h hab => by
    subst hab
    rw [namesEqual_refl] at h
    exact nomatch h)

theorem resolveTarget_iff {o : Options α} (hv : Spec.Valid o) {n c : Name} (hc : c ∈ o.target) :
    resolveTarget o n = some c ↔ namesEqual o.caseSensitive n c = true := by
  have hpair : (o.target.filter (fun c => namesEqual o.caseSensitive c n)).Pairwise
      (fun a b => namesEqual o.caseSensitive a b = false) := hv.names.sublist List.filter_sublist
  constructor
  · intro h
    rw [resolveTarget] at h
    split at h
    · rename_i c' heq
      cases h
      have : c ∈ o.target.filter (fun c => namesEqual o.caseSensitive c n) := by rw [heq]; simp
      exact namesEqual_symm (List.mem_filter.1 this).2
    · exact nomatch h
  · intro h
    have hmem : c ∈ o.target.filter (fun c => namesEqual o.caseSensitive c n) :=
      List.mem_filter.2 ⟨hc, namesEqual_symm h⟩
    have hall : ∀ x ∈ o.target.filter (fun c => namesEqual o.caseSensitive c n), namesEqual o.caseSensitive x n = true :=
      fun x hx => (List.mem_filter.1 hx).2
    rw [resolveTarget]
    generalize o.target.filter (fun c => namesEqual o.caseSensitive c n) = l at *
    match l, hmem with
    | [x], hmem => simp at hmem; simp [hmem]
    | x :: y :: l, _ =>
      exfalso
      have h1 := (List.pairwise_cons.1 hpair).1 y (by simp)
      rw [namesEqual_trans (hall x (by simp)) (namesEqual_symm (hall y (by simp)))] at h1
      exact nomatch h1

theorem colAt_eq {names : List Name} (hn : names.Nodup) {i : Nat} {c : Name} (h : names[i]? = some c) (r : Row α) :
    colAt names r c = r.at i := by
  have : names.findIdx? (· == c) = some i := by
    rw [List.findIdx?_eq_some_iff_getElem]
    obtain ⟨hi, hc⟩ := List.getElem?_eq_some_iff.1 h
    refine ⟨hi, by simp [hc], ?_⟩
    intro j hj
    simp only [beq_iff_eq]
    intro hjc
    have := (List.Nodup.getElem_inj_iff hn (hi := by omega) (hj := hi)).1 (hjc.trans hc.symm)
    omega
  rw [colAt, this]

theorem build_eq {o : Options α} {g : Name → Option α} {f : Name → Nat → Option α}
    (h : ∀ i c, o.target[i]? = some c → g c = f c i) : o.target.map g = Spec.build o f := by
  rw [Spec.build]
  conv_lhs => rw [← List.zipIdx_map_fst 0 o.target, List.map_map]
  apply List.map_congr_left
  rintro ⟨c, i⟩ hci
  exact h i c (List.mem_zipIdx_iff_getElem?.1 hci)

theorem length_build (o : Options α) (f : Name → Nat → Option α) : (Spec.build o f).length = o.target.length := by
  simp [Spec.build]

theorem build_at {o : Options α} {r : Row α} (hr : r.length = o.target.length) :
    Spec.build o (fun _ i => r.at i) = r := by
  rw [Spec.build]
  apply List.ext_getElem?
  intro i
  rw [List.getElem?_map, List.getElem?_zipIdx]
  by_cases hi : i < r.length
  · rw [List.getElem?_eq_getElem (by omega), List.getElem?_eq_getElem hi]
    simp [Row.at, List.getElem?_eq_getElem hi]
  · rw [List.getElem?_eq_none (by omega), List.getElem?_eq_none (by omega)]
    rfl

theorem map_colAt {o : Options α} (hv : Spec.Valid o) {r : Row α} (hr : r.length = o.target.length) :
    o.target.map (colAt o.target r) = r := by
  rw [build_eq (f := fun _ i => r.at i) (fun i c h => colAt_eq hv.nodup h r), build_at hr]

theorem Row.at_cons_succ (v : Option α) (r : Row α) (i : Nat) : Row.at (v :: r) (i + 1) = Row.at r i := by
  simp [Row.at]

theorem sourceValue_go (p : Name → Bool) : ∀ (names : List Name) (s : Row α), s.length = names.length →
    ((names.zip s).find? (fun q => p q.1)).map (·.2) = (names.findIdx? p).map (fun i => s.at i)
  | [], [], _ => rfl
  | n :: names, v :: s, h => by
    have ih := sourceValue_go p names s (by simpa using h)
    simp only [List.zip_cons_cons, List.find?_cons, List.findIdx?_cons]
    cases p n with
    | true => simp [Row.at]
    | false =>
      simp only [Bool.false_eq_true, if_false, ih, Option.map_map]
      congr 1

theorem sourceValue_eq {o : Options α} {s : Row α} (hs : s.length = o.source.length) (c : Name) :
    Spec.sourceValue o s c = (sourceExpr o c).map (fun f => f s) := by
  rw [Spec.sourceValue, sourceValue_go (fun n => namesEqual o.caseSensitive n c) _ _ hs, sourceExpr, Option.map_map]
  rfl

theorem default_eq (o : Options α) (c : Name) : Spec.default o c = insertValue o c := by
  rw [Spec.default, insertValue]
  cases o.defaults.find? (fun d => namesEqual o.caseSensitive d.1 c) <;> rfl

theorem find?_reverse_keys {β : Type} (c : Name) : ∀ (l : List (Name × β)), (l.map (·.1)).Nodup →
    l.reverse.find? (fun g => g.1 == c) = l.find? (fun g => g.1 == c)
  | [], _ => rfl
  | a :: l, h => by
    have hn := List.nodup_cons.1 (by simpa using h : (a.1 :: l.map (·.1)).Nodup)
    rw [List.reverse_cons, List.find?_append, find?_reverse_keys c l hn.2, List.find?_cons]
    by_cases ha : (a.1 == c) = true
    · have : l.find? (fun g => g.1 == c) = none := by
        rw [List.find?_eq_none]
        intro x hx hxc
        simp only [beq_iff_eq] at ha hxc
        exact hn.1 (List.mem_map.2 ⟨x, hx, by rw [hxc, ha]⟩)
      simp [this, ha]
    · have : (a.1 == c) = false := by simpa using ha
      simp [this]

/-- The row after the generation projection. -/
def genRow (o : Options α) (p : PRow α) : PRow α := { p with vals := Spec.generated o p.vals }

theorem genVals_eq {o : Options α} (hv : Spec.Valid o) (r : Row α) :
    o.target.map (genColumn o r) = Spec.generated o r := by
  apply build_eq
  intro i c h
  rw [genColumn, find?_reverse_keys c o.gens hv.gens]
  cases o.gens.find? (fun g => g.1 == c) with
  | some g => rfl
  | none => exact colAt_eq hv.nodup h r

/-- An inserted value that contradicts the expression of a generated column. -/
def Mismatch (o : Options α) (r : Row α) : Prop :=
  ∃ (i : Nat) (c : Name) (g : Name × (Row α → Option α)), o.target[i]? = some c ∧ g ∈ o.gens ∧ g.1 = c ∧
    r.at i ≠ none ∧ r.at i ≠ g.2 r

theorem applyGen_eq {o : Options α} (hv : Spec.Valid o) (p : PRow α) :
    applyGen o p = .ok (genRow o p) ∨ (applyGen o p = .error .generated ∧ p.op = .insert ∧ Mismatch o p.vals) := by
  rw [applyGen]
  split_ifs with h
  · right
    refine ⟨rfl, h.1, ?_⟩
    obtain ⟨c, hc, hm⟩ := List.any_eq_true.1 h.2
    obtain ⟨i, hi, hci⟩ := List.getElem_of_mem hc
    have hci' : o.target[i]? = some c := by rw [List.getElem?_eq_getElem hi, hci]
    rw [genMismatch, find?_reverse_keys c o.gens hv.gens] at hm
    cases hf : o.gens.find? (fun g => g.1 == c) with
    | none => rw [hf] at hm; exact nomatch hm
    | some g =>
      rw [hf] at hm
      have hm : (!((colAt o.target p.vals c).isNone || colAt o.target p.vals c == g.2 p.vals)) = true := hm
      rw [colAt_eq hv.nodup hci' p.vals] at hm
      simp only [Bool.not_eq_true', Bool.or_eq_false_iff] at hm
      refine ⟨i, c, g, hci', List.mem_of_find?_eq_some hf, by simpa using List.find?_some hf, ?_, by simpa using hm.2⟩
      intro h0
      rw [h0] at hm
      simp at hm
  · left
    rw [genRow, genVals_eq hv]

/-- And conversely the projection fails on such a value. -/
theorem applyGen_mismatch {o : Options α} (hv : Spec.Valid o) {p : PRow α} (hop : p.op = .insert)
    (hm : Mismatch o p.vals) : applyGen o p = .error .generated := by
  rw [applyGen, if_pos]
  refine ⟨hop, List.any_eq_true.2 ?_⟩
  obtain ⟨i, c, g, hci, hg, hgc, h1, h2⟩ := hm
  refine ⟨c, List.mem_of_getElem? hci, ?_⟩
  rw [genMismatch, find?_reverse_keys c o.gens hv.gens]
  have hf : o.gens.find? (fun g => g.1 == c) = some g := by
    cases hf : o.gens.find? (fun g => g.1 == c) with
    | none =>
      have := List.find?_eq_none.1 hf g hg
      simp [hgc] at this
    | some g' =>
      have hg' := List.mem_of_find?_eq_some hf
      have hk : g'.1 = c := by simpa using List.find?_some hf
      obtain ⟨a, ha, hga⟩ := List.getElem_of_mem hg
      obtain ⟨b, hb, hgb⟩ := List.getElem_of_mem hg'
      have := (List.Nodup.getElem_inj_iff hv.gens (i := a) (j := b) (hi := by simpa using ha)
        (hj := by simpa using hb)).1 (by simp [hga, hgb, hgc, hk])
      subst this
      rw [← hga, ← hgb]
  rw [hf]
  have hc := colAt_eq hv.nodup hci p.vals
  simp only [hc, Bool.not_eq_true', Bool.or_eq_false_iff]
  exact ⟨by cases hx : p.vals.at i with
    | none => exact absurd hx h1
    | some _ => rfl, by simpa using h2⟩

theorem matchedBranches_head {o : Options α} (hv : Spec.Valid o) {t s : Row α} (hs : s.length = o.source.length)
    (typed : ∀ i c, o.target[i]? = some c → o.cast c (t.at i) = t.at i) (a : MatchedAction α) {i : Nat} {c : Name}
    (h : o.target[i]? = some c) :
    (matchedBranches o t s c a).headD (t.at i) = (match a with
      | .delete => t.at i
      | .updateAll => (match Spec.sourceValue o s c with
        | some v => o.cast c v
        | none => t.at i)
      | .updateSet as => (match as.find? (fun a => namesEqual o.caseSensitive a.1 c) with
        | some a => o.cast c (a.2 t s)
        | none => t.at i)) := by
  cases a with
  | delete => rfl
  | updateAll =>
    simp only [matchedBranches, List.headD_cons]
    rw [sourceValue_eq hs]
    cases sourceExpr o c with
    | some f => rfl
    | none => simp only [Option.map_none]; rw [colAt_eq hv.nodup h, typed i c h]
  | updateSet as =>
    simp only [matchedBranches]
    have hfil : as.filter (fun a => resolveTarget o a.1 == some c) =
        as.filter (fun a => namesEqual o.caseSensitive a.1 c) := by
      apply List.filter_congr
      intro a _
      rw [Bool.eq_iff_iff, beq_iff_eq]
      exact resolveTarget_iff hv (List.mem_of_getElem? h)
    rw [hfil, List.headD_eq_head?_getD, List.head?_map, List.head?_filter]
    cases as.find? (fun a => namesEqual o.caseSensitive a.1 c) <;> rfl

theorem bySourceBranches_head {o : Options α} (hv : Spec.Valid o) {t : Row α} (a : BySourceAction α) {i : Nat}
    {c : Name} (h : o.target[i]? = some c) :
    (bySourceBranches o t c a).headD (t.at i) = (match a with
      | .delete => t.at i
      | .updateSet as => (match as.find? (fun a => namesEqual o.caseSensitive a.1 c) with
        | some a => o.cast c (a.2 t)
        | none => t.at i)) := by
  cases a with
  | delete => rfl
  | updateSet as =>
    simp only [bySourceBranches]
    have hfil : as.filter (fun a => resolveTarget o a.1 == some c) =
        as.filter (fun a => namesEqual o.caseSensitive a.1 c) := by
      apply List.filter_congr
      intro a _
      rw [Bool.eq_iff_iff, beq_iff_eq]
      exact resolveTarget_iff hv (List.mem_of_getElem? h)
    rw [hfil, List.headD_eq_head?_getD, List.head?_map, List.head?_filter]
    cases as.find? (fun a => namesEqual o.caseSensitive a.1 c) <;> rfl

theorem insertBranch_eq {o : Options α} {s : Row α} (hs : s.length = o.source.length)
    (a : InsertAction α) : o.target.map (fun c => insertBranch o s c a) = Spec.insertValues o s a := by
  cases a with
  | insertAll =>
    simp only [Spec.insertValues]
    apply build_eq
    intro i c h
    simp only [insertBranch]
    rw [sourceValue_eq hs, default_eq]
    cases sourceExpr o c <;> rfl
  | insertColumns cols =>
    simp only [Spec.insertValues]
    apply build_eq
    intro i c h
    simp only [insertBranch, default_eq]
    cases cols.find? (fun p => namesEqual o.caseSensitive p.1 c) <;> rfl

/-- The values that the projection gives to a row, by its fate. -/
def fateVals (t : Row α) : Spec.Fate α → Row α
  | .update r => r
  | _ => t

/-- What the operation column says, by the chosen action. -/
def matchedOps : Option (MatchedAction α) → Op
  | none => .copy
  | some a => matchedOp a

def bySourceOps : Option (BySourceAction α) → Op
  | none => .copy
  | some a => bySourceOp a

/-! ## Matched rows -/

theorem projectColumn_matched (o : Options α) (t : TRow α × Nat) (s : Row α) (c : Name) :
    projectColumn o ⟨some t, some s⟩ c =
      match Spec.pick (fun p => p t.1.vals s) o.matched with
      | none => colAt o.target t.1.vals c
      | some a => (matchedBranches o t.1.vals s c a).headD (colAt o.target t.1.vals c) := by
  have h1 : (⟨some t, some s⟩ : JRow α).tv o = t.1.vals := rfl
  have h2 : (⟨some t, some s⟩ : JRow α).sv o = s := rfl
  rw [projectColumn, caseWhen_append, caseWhen_append, map_flatMap_singleton
    (C := Clause (Row α → Option Bool) (InsertAction α)) _ (fun cl => insertBranch o (JRow.sv o ⟨some t, some s⟩) c cl.action)]
  simp only [matchedPreds, bySourcePreds, insertPreds, JRow.matchedBase, JRow.bySourceBase, JRow.insertBase,
    Option.isSome_some, Bool.and_true, Bool.not_true, Bool.and_false, h1, h2]
  rw [case_false (C := Clause (Row α → Option Bool) (InsertAction α)) (fun cl => cl.cond.map (fun p => p s))
    (fun cl => [insertBranch o s c cl.action])]
  rw [case_false (C := Clause (Row α → Option Bool) (BySourceAction α)) (fun cl => cl.cond.map (fun p => p t.1.vals))
    (fun cl => bySourceBranches o t.1.vals c cl.action)]
  rw [case_true (C := Clause (Pred α) (MatchedAction α)) (fun cl => cl.cond.map (fun p => p t.1.vals s))
    (fun cl => matchedBranches o t.1.vals s c cl.action)]
  rw [pick_eq]
  cases o.matched.find? (fun c => (c.cond.map (fun p => p t.1.vals s)).getD (some true) == some true) <;> rfl

theorem project_matched_vals {o : Options α} (hv : Spec.Valid o) (t : TRow α × Nat) {s : Row α}
    (ht : t.1.vals.length = o.target.length) (hs : s.length = o.source.length)
    (typed : ∀ i c, o.target[i]? = some c → o.cast c (t.1.vals.at i) = t.1.vals.at i) :
    (project o ⟨some t, some s⟩).vals =
      fateVals t.1.vals (Spec.matchedFate o t.1.vals s (Spec.pick (fun p => p t.1.vals s) o.matched)) := by
  simp only [project]
  have hcol : ∀ c, projectColumn o ⟨some t, some s⟩ c = _ := projectColumn_matched o t s
  rw [List.map_congr_left (fun c _ => hcol c)]
  cases hp : Spec.pick (fun p => p t.1.vals s) o.matched with
  | none => exact map_colAt hv ht
  | some a =>
    cases a with
    | delete => exact map_colAt hv ht
    | updateAll =>
      simp only [fateVals, Spec.matchedFate]
      apply build_eq
      intro i c h
      rw [colAt_eq hv.nodup h]
      exact matchedBranches_head hv hs typed .updateAll h
    | updateSet as =>
      simp only [fateVals, Spec.matchedFate]
      apply build_eq
      intro i c h
      rw [colAt_eq hv.nodup h]
      exact matchedBranches_head hv hs typed (.updateSet as) h

theorem projectOp_matched (o : Options α) (t : TRow α × Nat) (s : Row α) :
    projectOp o ⟨some t, some s⟩ = matchedOps (Spec.pick (fun p => p t.1.vals s) o.matched) := by
  have h1 : (⟨some t, some s⟩ : JRow α).tv o = t.1.vals := rfl
  have h2 : (⟨some t, some s⟩ : JRow α).sv o = s := rfl
  rw [projectOp, caseWhen, if_neg (by simp), caseWhen_append,
    map_flatMap_singleton (C := Clause (Pred α) (MatchedAction α)) _ (fun cl => matchedOp cl.action),
    map_flatMap_singleton (C := Clause (Row α → Option Bool) (BySourceAction α)) _ (fun cl => bySourceOp cl.action)]
  simp only [matchedPreds, bySourcePreds, JRow.matchedBase, JRow.bySourceBase,
    Option.isSome_some, Bool.and_true, Bool.not_true, Bool.and_false, h1, h2]
  rw [case_false (C := Clause (Row α → Option Bool) (BySourceAction α)) (fun cl => cl.cond.map (fun p => p t.1.vals))
    (fun cl => [bySourceOp cl.action])]
  rw [case_true (C := Clause (Pred α) (MatchedAction α)) (fun cl => cl.cond.map (fun p => p t.1.vals s))
    (fun cl => [matchedOp cl.action])]
  rw [pick_eq]
  cases o.matched.find? (fun c => (c.cond.map (fun p => p t.1.vals s)).getD (some true) == some true) <;> rfl

/-! ## Rows without a match in the source -/

theorem projectColumn_bySource (o : Options α) (t : TRow α × Nat) (c : Name) :
    projectColumn o ⟨some t, none⟩ c =
      match Spec.pick (fun p => p t.1.vals) o.bySource with
      | none => colAt o.target t.1.vals c
      | some a => (bySourceBranches o t.1.vals c a).headD (colAt o.target t.1.vals c) := by
  have h1 : (⟨some t, none⟩ : JRow α).tv o = t.1.vals := rfl
  rw [projectColumn, caseWhen_append, caseWhen_append, map_flatMap_singleton
    (C := Clause (Row α → Option Bool) (InsertAction α)) _ (fun cl => insertBranch o (JRow.sv o ⟨some t, none⟩) c cl.action)]
  simp only [matchedPreds, bySourcePreds, insertPreds, JRow.matchedBase, JRow.bySourceBase, JRow.insertBase,
    Option.isSome_some, Option.isSome_none, Bool.not_false, Bool.and_true, Bool.not_true, Bool.and_false, h1]
  rw [case_false (C := Clause (Row α → Option Bool) (InsertAction α)) (fun cl => cl.cond.map (fun p => p (JRow.sv o ⟨some t, none⟩)))
    (fun cl => [insertBranch o (JRow.sv o ⟨some t, none⟩) c cl.action])]
  rw [case_true (C := Clause (Row α → Option Bool) (BySourceAction α)) (fun cl => cl.cond.map (fun p => p t.1.vals))
    (fun cl => bySourceBranches o t.1.vals c cl.action)]
  rw [case_false (C := Clause (Pred α) (MatchedAction α)) (fun cl => cl.cond.map (fun p => p t.1.vals (JRow.sv o ⟨some t, none⟩)))
    (fun cl => matchedBranches o t.1.vals (JRow.sv o ⟨some t, none⟩) c cl.action)]
  rw [pick_eq]
  cases o.bySource.find? (fun c => (c.cond.map (fun p => p t.1.vals)).getD (some true) == some true) <;> rfl

theorem project_bySource_vals {o : Options α} (hv : Spec.Valid o) (t : TRow α × Nat)
    (ht : t.1.vals.length = o.target.length) :
    (project o ⟨some t, none⟩).vals =
      fateVals t.1.vals (Spec.bySourceFate o t.1.vals (Spec.pick (fun p => p t.1.vals) o.bySource)) := by
  simp only [project]
  have hcol : ∀ c, projectColumn o ⟨some t, none⟩ c = _ := projectColumn_bySource o t
  rw [List.map_congr_left (fun c _ => hcol c)]
  cases hp : Spec.pick (fun p => p t.1.vals) o.bySource with
  | none => exact map_colAt hv ht
  | some a =>
    cases a with
    | delete => exact map_colAt hv ht
    | updateSet as =>
      simp only [fateVals, Spec.bySourceFate]
      apply build_eq
      intro i c h
      rw [colAt_eq hv.nodup h]
      exact bySourceBranches_head hv (.updateSet as) h

theorem projectOp_bySource (o : Options α) (t : TRow α × Nat) :
    projectOp o ⟨some t, none⟩ = bySourceOps (Spec.pick (fun p => p t.1.vals) o.bySource) := by
  have h1 : (⟨some t, none⟩ : JRow α).tv o = t.1.vals := rfl
  rw [projectOp, caseWhen, if_neg (by simp), caseWhen_append,
    map_flatMap_singleton (C := Clause (Pred α) (MatchedAction α)) _ (fun cl => matchedOp cl.action),
    map_flatMap_singleton (C := Clause (Row α → Option Bool) (BySourceAction α)) _ (fun cl => bySourceOp cl.action)]
  simp only [matchedPreds, bySourcePreds, JRow.matchedBase, JRow.bySourceBase,
    Option.isSome_some, Option.isSome_none, Bool.not_false, Bool.and_true, Bool.and_false, h1]
  rw [case_true (C := Clause (Row α → Option Bool) (BySourceAction α)) (fun cl => cl.cond.map (fun p => p t.1.vals))
    (fun cl => [bySourceOp cl.action])]
  rw [case_false (C := Clause (Pred α) (MatchedAction α)) (fun cl => cl.cond.map (fun p => p t.1.vals (JRow.sv o ⟨some t, none⟩)))
    (fun cl => [matchedOp cl.action])]
  rw [pick_eq]
  cases o.bySource.find? (fun c => (c.cond.map (fun p => p t.1.vals)).getD (some true) == some true) <;> rfl

/-! ## Source rows without a match -/

theorem project_insert_vals {o : Options α} {s : Row α} (hs : s.length = o.source.length)
    {a : InsertAction α} (hp : Spec.pick (fun p => p s) o.inserts = some a) :
    (project o ⟨none, some s⟩).vals = Spec.insertValues o s a := by
  rw [← insertBranch_eq hs a]
  simp only [project]
  apply List.map_congr_left
  intro c _
  have h2 : (⟨none, some s⟩ : JRow α).sv o = s := rfl
  rw [projectColumn, caseWhen_append, caseWhen_append, map_flatMap_singleton
    (C := Clause (Row α → Option Bool) (InsertAction α)) _ (fun cl => insertBranch o (JRow.sv o ⟨none, some s⟩) c cl.action)]
  simp only [matchedPreds, bySourcePreds, insertPreds, JRow.matchedBase, JRow.bySourceBase, JRow.insertBase,
    Option.isSome_some, Option.isSome_none, Bool.and_true, Bool.not_false, Bool.not_true, Bool.and_false, h2]
  rw [case_true (C := Clause (Row α → Option Bool) (InsertAction α)) (fun cl => cl.cond.map (fun p => p s))
    (fun cl => [insertBranch o s c cl.action])]
  rw [case_false (C := Clause (Row α → Option Bool) (BySourceAction α))
    (fun cl => cl.cond.map (fun p => p (JRow.tv o ⟨none, some s⟩)))
    (fun cl => bySourceBranches o (JRow.tv o ⟨none, some s⟩) c cl.action)]
  rw [case_false (C := Clause (Pred α) (MatchedAction α))
    (fun cl => cl.cond.map (fun p => p (JRow.tv o ⟨none, some s⟩) s))
    (fun cl => matchedBranches o (JRow.tv o ⟨none, some s⟩) s c cl.action)]
  rw [pick_eq] at hp
  cases hf : o.inserts.find? (fun c => (c.cond.map (fun p => p s)).getD (some true) == some true) with
  | none => rw [hf] at hp; exact nomatch hp
  | some cl => rw [hf] at hp; cases hp; rfl

theorem projectOp_insert (o : Options α) (s : Option (Row α)) : projectOp o ⟨none, s⟩ = .insert := by
  rw [projectOp, caseWhen, if_pos (by simp)]

/-! ## The filters -/

theorem withCond_true (b : Bool) (c : Option (Option Bool)) :
    withCond (some b) c = some true ↔ b = true ∧ c.getD (some true) = some true := by
  cases c with
  | none => simp [withCond]
  | some c => simp [withCond, and3_true]

theorem pick_isSome {C A : Type} (holds : C → Option Bool) (cs : List (Clause C A)) :
    (Spec.pick holds cs).isSome = true ↔ ∃ c ∈ cs, (c.cond.map holds).getD (some true) = some true := by
  rw [pick_eq, Option.isSome_map, List.find?_isSome]
  simp

theorem insertExpr_true (o : Options α) (s : Row α) :
    insertExpr o ⟨none, some s⟩ = some true ↔ (Spec.pick (fun p => p s) o.inserts).isSome = true := by
  rw [insertExpr, disj_true, pick_isSome, List.mem_map]
  constructor
  · rintro ⟨c, hc, h⟩
    exact ⟨c, hc, ((withCond_true _ _).1 h).2⟩
  · rintro ⟨c, hc, h⟩
    exact ⟨c, hc, (withCond_true _ _).2 ⟨rfl, h⟩⟩

theorem active_target (o : Options α) (t : TRow α × Nat) (s : Option (Row α)) :
    active o ⟨some t, s⟩ = some true := by
  rw [active, or3_true]
  exact .inl rfl

theorem active_insert (o : Options α) (s : Row α) :
    active o ⟨none, some s⟩ = some true ↔ (Spec.pick (fun p => p s) o.inserts).isSome = true := by
  rw [active, or3_true, ← insertExpr_true]
  simp

theorem rowDelete_matched (o : Options α) (t : TRow α × Nat) (s : Row α) :
    rowDelete o ⟨some t, some s⟩ = some true ↔ (Spec.pick (fun p => p t.1.vals s) o.matched).isSome = true := by
  rw [rowDelete, disj_true, pick_isSome, List.mem_append, List.mem_map, List.mem_map]
  constructor
  · rintro (⟨c, hc, h⟩ | ⟨c, hc, h⟩)
    · exact ⟨c, hc, ((withCond_true _ _).1 h).2⟩
    · exact absurd ((withCond_true _ _).1 h).1 (by simp)
  · rintro ⟨c, hc, h⟩
    exact .inl ⟨c, hc, (withCond_true _ _).2 ⟨rfl, h⟩⟩

theorem rowDelete_bySource (o : Options α) (t : TRow α × Nat) :
    rowDelete o ⟨some t, none⟩ = some true ↔ (Spec.pick (fun p => p t.1.vals) o.bySource).isSome = true := by
  rw [rowDelete, disj_true, pick_isSome, List.mem_append, List.mem_map, List.mem_map]
  constructor
  · rintro (⟨c, hc, h⟩ | ⟨c, hc, h⟩)
    · exact absurd ((withCond_true _ _).1 h).1 (by simp)
    · exact ⟨c, hc, ((withCond_true _ _).1 h).2⟩
  · rintro ⟨c, hc, h⟩
    exact .inr ⟨c, hc, (withCond_true _ _).2 ⟨rfl, h⟩⟩

theorem rowDelete_insert (o : Options α) (s : Option (Row α)) : rowDelete o ⟨none, s⟩ ≠ some true := by
  rw [rowDelete, ne_eq, disj_true, List.mem_append, List.mem_map, List.mem_map]
  rintro (⟨c, hc, h⟩ | ⟨c, hc, h⟩)
  · exact absurd ((withCond_true _ _).1 h).1 (by simp)
  · exact absurd ((withCond_true _ _).1 h).1 (by simp)

/-- On rows of the join, the filter of the touched files says what the filter of the deleted rows says. -/
theorem rewriteFilter_eq (o : Options α) {t : TRow α × Nat} {s : Row α}
    (h : o.on.eval t.1.vals s = some true) :
    rewriteFilter o ⟨some t, some s⟩ = rowDelete o ⟨some t, some s⟩ := by
  have : o.on.eval (JRow.tv o ⟨some t, some s⟩) (JRow.sv o ⟨some t, some s⟩) = some true := h
  rw [rewriteFilter, rowDelete, this]
  rfl

theorem rewriteFilter_bySource (o : Options α) (t : TRow α × Nat) :
    rewriteFilter o ⟨some t, none⟩ = some true ↔ (Spec.pick (fun p => p t.1.vals) o.bySource).isSome = true := by
  rw [rewriteFilter, disj_true, pick_isSome, List.mem_append, List.mem_map, List.mem_map]
  constructor
  · rintro (⟨c, hc, h⟩ | ⟨c, hc, h⟩)
    · have : and3 (JRow.matchedBase (⟨some t, none⟩ : JRow α)) (o.on.eval (JRow.tv o ⟨some t, none⟩) (JRow.sv o ⟨some t, none⟩)) =
          some false := by simp [JRow.matchedBase, and3]
      rw [this] at h
      exact absurd ((withCond_true _ _).1 h).1 (by simp)
    · exact ⟨c, hc, ((withCond_true _ _).1 h).2⟩
  · rintro ⟨c, hc, h⟩
    exact .inr ⟨c, hc, (withCond_true _ _).2 ⟨rfl, h⟩⟩

theorem rewriteFilter_insert (o : Options α) (s : Option (Row α)) : rewriteFilter o ⟨none, s⟩ ≠ some true := by
  rw [rewriteFilter, ne_eq, disj_true, List.mem_append, List.mem_map, List.mem_map]
  rintro (⟨c, hc, h⟩ | ⟨c, hc, h⟩)
  · have : and3 (JRow.matchedBase (⟨none, s⟩ : JRow α)) (o.on.eval (JRow.tv o ⟨none, s⟩) (JRow.sv o ⟨none, s⟩)) =
        some false := by simp [JRow.matchedBase, and3]
    rw [this] at h
    exact absurd ((withCond_true _ _).1 h).1 (by simp)
  · exact absurd ((withCond_true _ _).1 h).1 (by simp)

end Verif.Merge
