import Verif.Merge.TableLemmas

/-! # Lemmas on MERGE: the rows written, by the fate of the target rows -/

set_option linter.unusedSectionVars false

namespace Verif.Merge

open Verif.Opt (Row and3 eq3)

variable {α : Type} [DecidableEq α]

/-- What is left of a row with a fate. -/
def fateOut (o : Options α) (t : Row α) : Spec.Fate α → Option (Row α)
  | .keep => some t
  | .delete => none
  | .update r => some (Spec.generated o r)

theorem replacement_eq (o : Options α) (S : List (Row α)) (t : Row α) :
    Spec.replacement o S t = fateOut o t (Spec.fate o S t) := by
  rw [Spec.replacement]
  cases Spec.fate o S t <;> rfl

/-- The rows that a writer with a filter on operations takes from joined rows. -/
def written (o : Options α) (keep : Op → Bool) (l : List (JRow α)) : List (Row α) :=
  ((l.map (outRow o)).filter (fun p => keep p.op)).map (·.vals)

theorem written_append (o : Options α) (keep : Op → Bool) (a b : List (JRow α)) :
    written o keep (a ++ b) = written o keep a ++ written o keep b := by
  simp [written]

theorem written_singleton (o : Options α) (keep : Op → Bool) (j : JRow α) :
    written o keep [j] = if keep (projectOp o j) then [(outRow o j).vals] else [] := by
  simp only [written, List.map_cons, List.map_nil, List.filter_cons, List.filter_nil]
  have : (outRow o j).op = projectOp o j := rfl
  rw [this]
  split_ifs <;> rfl

/-- The facts about a stored row that the proofs use. -/
structure Good (o : Options α) (t : TRow α) : Prop where
  width : t.vals.length = o.target.length
  typed : ∀ i c, o.target[i]? = some c → o.cast c (t.vals.at i) = t.vals.at i
  gen : Spec.generated o t.vals = t.vals

theorem Spec.Stored.good {o : Options α} {T : List (TRow α)} (h : Spec.Stored o T) {t : TRow α} (ht : t ∈ T) :
    Good o t := ⟨h.width t ht, h.typed t ht, h.generated t ht⟩

/-- What the fate says about the operation column. -/
theorem matchedOps_fate (o : Options α) (t s : Row α) (a : Option (MatchedAction α)) :
    matchedOps a = (match Spec.matchedFate o t s a with
      | .keep => .copy
      | .delete => .matchedDelete
      | .update _ => .matchedUpdate) := by
  cases a with
  | none => rfl
  | some a => cases a <;> rfl

theorem bySourceOps_fate (o : Options α) (t : Row α) (a : Option (BySourceAction α)) :
    bySourceOps a = (match Spec.bySourceFate o t a with
      | .keep => .copy
      | .delete => .bySourceDelete
      | .update _ => .bySourceUpdate) := by
  cases a with
  | none => rfl
  | some a => cases a <;> rfl

theorem outRow_matched {o : Options α} (hv : Spec.Valid o) {t : TRow α × Nat} {s : Row α} (hg : Good o t.1)
    (hs : s.length = o.source.length) :
    (outRow o ⟨some t, some s⟩).vals = Spec.generated o
      (fateVals t.1.vals (Spec.matchedFate o t.1.vals s (Spec.pick (fun p => p t.1.vals s) o.matched))) := by
  rw [outRow, genRow, project_matched_vals hv t hg.width hs hg.typed]

theorem outRow_bySource {o : Options α} (hv : Spec.Valid o) {t : TRow α × Nat} (hg : Good o t.1) :
    (outRow o ⟨some t, none⟩).vals = Spec.generated o
      (fateVals t.1.vals (Spec.bySourceFate o t.1.vals (Spec.pick (fun p => p t.1.vals) o.bySource))) := by
  rw [outRow, genRow, project_bySource_vals hv t hg.width]

/-- The Delta writer writes what is left of a matched row. -/
theorem written_matched {o : Options α} (hv : Spec.Valid o) {t : TRow α × Nat} {s : Row α} (hg : Good o t.1)
    (hs : s.length = o.source.length) :
    written o Op.isWritten [⟨some t, some s⟩] = (fateOut o t.1.vals
      (Spec.matchedFate o t.1.vals s (Spec.pick (fun p => p t.1.vals s) o.matched))).toList := by
  rw [written_singleton, projectOp_matched, outRow_matched hv hg hs, matchedOps_fate o t.1.vals s]
  cases Spec.matchedFate o t.1.vals s (Spec.pick (fun p => p t.1.vals s) o.matched) with
  | keep => simp [Op.isWritten, fateVals, fateOut, hg.gen]
  | delete => simp [Op.isWritten, fateOut]
  | update r => simp [Op.isWritten, fateVals, fateOut]

theorem written_bySource {o : Options α} (hv : Spec.Valid o) {t : TRow α × Nat} (hg : Good o t.1) :
    written o Op.isWritten [⟨some t, none⟩] = (fateOut o t.1.vals
      (Spec.bySourceFate o t.1.vals (Spec.pick (fun p => p t.1.vals) o.bySource))).toList := by
  rw [written_singleton, projectOp_bySource, outRow_bySource hv hg, bySourceOps_fate o t.1.vals]
  cases Spec.bySourceFate o t.1.vals (Spec.pick (fun p => p t.1.vals) o.bySource) with
  | keep => simp [Op.isWritten, fateVals, fateOut, hg.gen]
  | delete => simp [Op.isWritten, fateOut]
  | update r => simp [Op.isWritten, fateVals, fateOut]

/-- What an updated row contributes. -/
def fateNew (o : Options α) : Spec.Fate α → Option (Row α)
  | .update r => some (Spec.generated o r)
  | _ => none

/-- The Iceberg writer appends the new version of a matched row. -/
theorem appended_matched {o : Options α} (hv : Spec.Valid o) {t : TRow α × Nat} {s : Row α} (hg : Good o t.1)
    (hs : s.length = o.source.length) :
    written o Op.icebergData [⟨some t, some s⟩] = (fateNew o
      (Spec.matchedFate o t.1.vals s (Spec.pick (fun p => p t.1.vals s) o.matched))).toList := by
  rw [written_singleton, projectOp_matched, outRow_matched hv hg hs, matchedOps_fate o t.1.vals s]
  cases Spec.matchedFate o t.1.vals s (Spec.pick (fun p => p t.1.vals s) o.matched) <;>
    simp [Op.icebergData, fateVals, fateNew]

theorem appended_bySource {o : Options α} (hv : Spec.Valid o) {t : TRow α × Nat} (hg : Good o t.1) :
    written o Op.icebergData [⟨some t, none⟩] = (fateNew o
      (Spec.bySourceFate o t.1.vals (Spec.pick (fun p => p t.1.vals) o.bySource))).toList := by
  rw [written_singleton, projectOp_bySource, outRow_bySource hv hg, bySourceOps_fate o t.1.vals]
  cases Spec.bySourceFate o t.1.vals (Spec.pick (fun p => p t.1.vals) o.bySource) <;>
    simp [Op.icebergData, fateVals, fateNew]

theorem pick_lone {o : Options α} (h : Spec.LoneDelete o) (t s : Row α) :
    Spec.pick (fun p => p t s) o.matched = some .delete := by
  rw [h]
  rfl

theorem pick_nil {C A : Type} (holds : C → Option Bool) : Spec.pick holds ([] : List (Clause C A)) = none := rfl

theorem written_nil_of (o : Options α) (keep : Op → Bool) : ∀ l : List (JRow α),
    (∀ j ∈ l, written o keep [j] = []) → written o keep l = []
  | [], _ => rfl
  | j :: l, h => by
    have : j :: l = [j] ++ l := rfl
    rw [this, written_append, h j (by simp), written_nil_of o keep l (fun j hj => h j (by simp [hj]))]
    rfl

/-- The Delta writer writes exactly what is left of a target row, provided it matches one source row or all its
versions are deletes. -/
theorem written_jsOf {o : Options α} (hv : Spec.Valid o) {S : List (Row α)} (hS : Spec.Sourced o S)
    {t : TRow α × Nat} (hg : Good o t.1)
    (h1 : (Spec.matchesOf o S t.1.vals).length ≤ 1 ∨ Spec.LoneDelete o) :
    written o Op.isWritten (jsOf o S t) = (Spec.replacement o S t.1.vals).toList := by
  rw [replacement_eq, Spec.fate, jsOf]
  cases hm : Spec.matchesOf o S t.1.vals with
  | nil => exact written_bySource hv hg
  | cons s l =>
    have hsrc : ∀ x ∈ s :: l, x.length = o.source.length := fun x hx =>
      hS x (matchesOf_mem (hm ▸ hx)).1
    rcases h1 with h1 | h1
    · rw [hm] at h1
      have : l = [] := by
        cases l with
        | nil => rfl
        | cons _ _ => simp at h1
      subst this
      exact written_matched hv hg (hsrc s (by simp))
    · simp only [pick_lone h1, Spec.matchedFate, fateOut, Option.toList_none]
      apply written_nil_of
      intro j hj
      simp only [List.mem_map] at hj
      obtain ⟨x, hx, rfl⟩ := hj
      rw [written_matched hv hg (hsrc x hx), pick_lone h1]
      rfl

/-- The Iceberg writer appends exactly the new version of a target row. -/
theorem appended_jsOf {o : Options α} (hv : Spec.Valid o) {S : List (Row α)} (hS : Spec.Sourced o S)
    {t : TRow α × Nat} (hg : Good o t.1)
    (h1 : (Spec.matchesOf o S t.1.vals).length ≤ 1 ∨ Spec.LoneDelete o ∨ o.matched = []) :
    written o Op.icebergData (jsOf o S t) = (fateNew o (Spec.fate o S t.1.vals)).toList := by
  rw [Spec.fate, jsOf]
  cases hm : Spec.matchesOf o S t.1.vals with
  | nil => exact appended_bySource hv hg
  | cons s l =>
    have hsrc : ∀ x ∈ s :: l, x.length = o.source.length := fun x hx =>
      hS x (matchesOf_mem (hm ▸ hx)).1
    rcases h1 with h1 | h1 | h1
    · rw [hm] at h1
      have : l = [] := by
        cases l with
        | nil => rfl
        | cons _ _ => simp at h1
      subst this
      exact appended_matched hv hg (hsrc s (by simp))
    · simp only [pick_lone h1, Spec.matchedFate, fateNew, Option.toList_none]
      apply written_nil_of
      intro j hj
      simp only [List.mem_map] at hj
      obtain ⟨x, hx, rfl⟩ := hj
      rw [appended_matched hv hg (hsrc x hx), pick_lone h1]
      rfl
    · simp only [h1, pick_nil, Spec.matchedFate, fateNew, Option.toList_none]
      apply written_nil_of
      intro j hj
      simp only [List.mem_map] at hj
      obtain ⟨x, hx, rfl⟩ := hj
      rw [appended_matched hv hg (hsrc x hx), h1]
      rfl

/-- A clause was chosen iff the row is not kept. -/
theorem pick_matched_keep (o : Options α) (t s : Row α) (a : Option (MatchedAction α)) :
    a.isSome = true ↔ Spec.matchedFate o t s a ≠ .keep := by
  cases a with
  | none => simp [Spec.matchedFate]
  | some a => cases a <;> simp [Spec.matchedFate]

theorem pick_bySource_keep (o : Options α) (t : Row α) (a : Option (BySourceAction α)) :
    a.isSome = true ↔ Spec.bySourceFate o t a ≠ .keep := by
  cases a with
  | none => simp [Spec.bySourceFate]
  | some a => cases a <;> simp [Spec.bySourceFate]

/-- If a property of joined rows says that a clause was chosen, then some joined row of a target row has it iff the
statement does not keep the row. -/
theorem changed_iff {o : Options α} {S : List (Row α)} {t : TRow α × Nat}
    (h1 : (Spec.matchesOf o S t.1.vals).length ≤ 1 ∨ Spec.LoneDelete o ∨ o.matched = []) (P : JRow α → Prop)
    (hm : ∀ s ∈ Spec.matchesOf o S t.1.vals,
      P ⟨some t, some s⟩ ↔ (Spec.pick (fun p => p t.1.vals s) o.matched).isSome = true)
    (hb : P ⟨some t, none⟩ ↔ (Spec.pick (fun p => p t.1.vals) o.bySource).isSome = true) :
    (∃ j ∈ jsOf o S t, P j) ↔ Spec.fate o S t.1.vals ≠ .keep := by
  rw [Spec.fate, jsOf]
  cases hms : Spec.matchesOf o S t.1.vals with
  | nil => simp [hb, ← pick_bySource_keep]
  | cons s l =>
    rw [hms] at hm h1
    have hred : (∃ j ∈ (s :: l).map (fun s => (⟨some t, some s⟩ : JRow α)), P j) ↔
        ∃ x ∈ s :: l, (Spec.pick (fun p => p t.1.vals x) o.matched).isSome = true := by
      constructor
      · rintro ⟨j, hj, hP⟩
        obtain ⟨x, hx, rfl⟩ := List.mem_map.1 hj
        exact ⟨x, hx, (hm x hx).1 hP⟩
      · rintro ⟨x, hx, h⟩
        exact ⟨_, List.mem_map.2 ⟨x, hx, rfl⟩, (hm x hx).2 h⟩
    show (∃ j ∈ (s :: l).map (fun s => (⟨some t, some s⟩ : JRow α)), P j) ↔
      Spec.matchedFate o t.1.vals s (Spec.pick (fun p => p t.1.vals s) o.matched) ≠ .keep
    rw [hred, ← pick_matched_keep]
    rcases h1 with h1 | h1 | h1
    · have : l = [] := by
        cases l with
        | nil => rfl
        | cons _ _ => simp at h1
      subst this
      simp
    · simp [pick_lone h1]
    · simp [h1, pick_nil]

theorem rewrite_iff {o : Options α} {S : List (Row α)} {t : TRow α × Nat}
    (h1 : (Spec.matchesOf o S t.1.vals).length ≤ 1 ∨ Spec.LoneDelete o ∨ o.matched = []) :
    (∃ j ∈ jsOf o S t, rewriteFilter o j = some true) ↔ Spec.fate o S t.1.vals ≠ .keep :=
  changed_iff h1 (fun j => rewriteFilter o j = some true)
    (fun s hs => by rw [rewriteFilter_eq o (matchesOf_mem hs).2, rowDelete_matched]) (rewriteFilter_bySource o t)

theorem rowDelete_iff {o : Options α} {S : List (Row α)} {t : TRow α × Nat}
    (h1 : (Spec.matchesOf o S t.1.vals).length ≤ 1 ∨ Spec.LoneDelete o ∨ o.matched = []) :
    (∃ j ∈ jsOf o S t, rowDelete o j = some true) ↔ Spec.fate o S t.1.vals ≠ .keep :=
  changed_iff h1 (fun j => rowDelete o j = some true) (fun s _ => rowDelete_matched o t s) (rowDelete_bySource o t)

theorem icebergDelete_iff {o : Options α} {S : List (Row α)} {t : TRow α × Nat}
    (h1 : (Spec.matchesOf o S t.1.vals).length ≤ 1 ∨ Spec.LoneDelete o ∨ o.matched = []) :
    (∃ j ∈ jsOf o S t, (projectOp o j).icebergDelete = true) ↔ Spec.fate o S t.1.vals ≠ .keep :=
  changed_iff h1 (fun j => (projectOp o j).icebergDelete = true)
    (fun s _ => by
      rw [projectOp_matched]
      cases Spec.pick (fun p => p t.1.vals s) o.matched with
      | none => simp [matchedOps, Op.icebergDelete]
      | some a => cases a <;> simp [matchedOps, matchedOp, Op.icebergDelete])
    (by
      rw [projectOp_bySource]
      cases Spec.pick (fun p => p t.1.vals) o.bySource with
      | none => simp [bySourceOps, Op.icebergDelete]
      | some a => cases a <;> simp [bySourceOps, bySourceOp, Op.icebergDelete])

theorem replacement_keep {o : Options α} {S : List (Row α)} {t : Row α} (h : Spec.fate o S t = .keep) :
    Spec.replacement o S t = some t := by
  rw [replacement_eq, h]
  rfl

/-! ## Inserted rows -/

theorem outRow_insert {o : Options α} {s : Row α} (hs : s.length = o.source.length)
    (hp : (Spec.pick (fun p => p s) o.inserts).isSome = true) :
    some (outRow o ⟨none, some s⟩).vals = Spec.inserted o s := by
  cases h : Spec.pick (fun p => p s) o.inserts with
  | none => rw [h] at hp; exact nomatch hp
  | some a =>
    rw [Spec.inserted, h, Option.map_some, outRow, genRow, project_insert_vals hs h]

/-- The rows inserted by any of the writers. -/
theorem written_insert {o : Options α} {keep : Op → Bool} (hk : keep .insert = true) {l : List (Row α)}
    (hl : ∀ s ∈ l, s.length = o.source.length) :
    (((l.filter (fun s => (Spec.pick (fun p => p s) o.inserts).isSome)).map
      (fun s => outRow o ⟨none, some s⟩)).filter (fun p => keep p.op)).map (·.vals) =
      l.filterMap (Spec.inserted o) := by
  induction l with
  | nil => rfl
  | cons s l ih =>
    have ih := ih (fun x hx => hl x (by simp [hx]))
    have hop : (outRow o ⟨none, some s⟩).op = .insert := projectOp_insert o (some s)
    rw [List.filter_cons, List.filterMap_cons]
    split_ifs with hp
    · rw [← outRow_insert (hl s (by simp)) hp, List.map_cons, List.filter_cons, hop, if_pos hk, List.map_cons, ih]
    · rw [ih]
      have : Spec.inserted o s = none := by
        rw [Spec.inserted]
        cases h : Spec.pick (fun p => p s) o.inserts with
        | none => rfl
        | some a => rw [h] at hp; exact absurd rfl hp
      rw [this]

theorem unmatched_mem {o : Options α} {T : List (TRow α)} {S : List (Row α)} {s : Row α}
    (h : s ∈ Spec.unmatched o T S) : s ∈ S := (List.mem_filter.1 h).1

/-! ## Lists -/

theorem zipIdx_filter_flatMap {β γ : Type} (p : β → Bool) (f : β → List γ) (n : Nat) : ∀ T : List β,
    ((T.zipIdx n).filter (fun x => p x.1)).flatMap (fun x => f x.1) = (T.filter p).flatMap f := by
  intro T
  induction T generalizing n with
  | nil => rfl
  | cons t T ih =>
    rw [List.zipIdx_cons, List.filter_cons, List.filter_cons]
    split_ifs
    · rw [List.flatMap_cons, List.flatMap_cons, ih]
    · rw [ih]

theorem flatMap_toList {β γ : Type} (f : β → Option γ) (l : List β) :
    l.flatMap (fun x => (f x).toList) = l.filterMap f := by
  induction l with
  | nil => rfl
  | cons a l ih =>
    rw [List.flatMap_cons, List.filterMap_cons, ih]
    cases f a <;> rfl

end Verif.Merge
