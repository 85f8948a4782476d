import Verif.Merge.CowProps
import Verif.Merge.Sample

/-! # C78, C79: merge-on-read, and the check for double matches -/

set_option linter.unusedSectionVars false

namespace Verif.Merge

open Verif.Opt (Row and3 eq3)

variable {α : Type} [DecidableEq α]

/-- No row is updated by a statement without UPDATE clauses. -/
theorem fateNew_none {o : Options α} (h : hasUpdates o = false) (S : List (Row α)) (t : Row α) :
    fateNew o (Spec.fate o S t) = none := by
  simp only [hasUpdates, Bool.or_eq_false_iff, List.any_eq_false] at h
  have hm : ∀ s a, Spec.pick (fun p => p t s) o.matched = some a → a = .delete := by
    intro s a ha
    simp only [Spec.pick, Option.map_eq_some_iff] at ha
    obtain ⟨c, hc, rfl⟩ := ha
    have := h.1 c (List.mem_of_find?_eq_some hc)
    cases hca : c.action with
    | delete => rfl
    | updateAll => rw [hca] at this; simp at this
    | updateSet as => rw [hca] at this; simp at this
  have hb : ∀ a, Spec.pick (fun p => p t) o.bySource = some a → a = .delete := by
    intro a ha
    simp only [Spec.pick, Option.map_eq_some_iff] at ha
    obtain ⟨c, hc, rfl⟩ := ha
    have := h.2 c (List.mem_of_find?_eq_some hc)
    cases hca : c.action with
    | delete => rfl
    | updateSet as => rw [hca] at this; simp at this
  rw [Spec.fate]
  cases Spec.matchesOf o S t with
  | nil =>
    show fateNew o (Spec.bySourceFate o t (Spec.pick (fun p => p t) o.bySource)) = none
    cases hp : Spec.pick (fun p => p t) o.bySource with
    | none => rfl
    | some a => rw [hb a hp]; rfl
  | cons s l =>
    show fateNew o (Spec.matchedFate o t s (Spec.pick (fun p => p t s) o.matched)) = none
    cases hp : Spec.pick (fun p => p t s) o.matched with
    | none => rfl
    | some a => rw [hm s a hp]; rfl

/-- **C78.** If a MERGE on a Delta table with deletion vectors succeeds, the visible rows are exactly those that the
statement describes (for a source that gives the same rows each time it is read). Double matches make no difference. -/
theorem C78_deletion_vector_result_partial {o : Options α} (hv : Spec.Valid o) {unique : Bool} {T : List (TRow α)}
    (hst : Spec.Stored o T) {S : List (Row α)} (hS : Spec.Sourced o S) (hu : unique = true → Spec.Single o T S)
    {tbl : List (Row α)} (h : runMor o (needsCheck o unique) T S S = .ok tbl) : tbl.Perm (Spec.result o T S) := by
  rw [runMor] at h
  cases hi : insertOnly o with
  | true =>
    obtain ⟨hm, hb⟩ := insertOnly_iff hi
    rw [hi] at h
    simp only [if_true] at h
    cases hf : fastPlan o T S with
    | error e => rw [hf] at h; exact nomatch h
    | ok l =>
      rw [hf] at h
      cases h
      rw [Spec.result, replacement_all hm hb, fastPlan_ok hv hS hf (keep := Op.isWritten) rfl rfl]
  | false =>
    rw [hi] at h
    simp only [Bool.false_eq_true, if_false] at h
    cases hup : hasUpdates o with
    | true => rw [hup] at h; exact nomatch h
    | false =>
      rw [hup] at h
      simp only [Bool.false_eq_true, if_false] at h
      cases hw : writePlan o (needsCheck o unique) T S with
      | error e => rw [hw] at h; exact nomatch h
      | ok e =>
        cases hd : deletePlan o (needsCheck o unique) T S with
        | error e => rw [hw, hd] at h; exact nomatch h
        | ok dv =>
          rw [hw, hd] at h
          cases h
          obtain ⟨rfl, _, _⟩ := writePlan_ok hv hu hw
          obtain ⟨htame, hl⟩ := deletePlan_ok hu hd
          rw [inserted_rows hS rfl rfl, Spec.result]
          apply List.Perm.append_right
          have hp := keep_update_perm (o := o) (S := S) T (fun t => dv.contains (t.file, t.pos)) (fun t ht => by
            rw [List.contains_iff_mem]
            exact hidden_iff hst hl ht)
          have hnone : T.filterMap (fun t => fateNew o (Spec.fate o S t.vals)) = [] := by
            rw [List.filterMap_eq_nil_iff]
            intro t _
            exact fateNew_none hup S t.vals
          rw [hnone, List.append_nil] at hp
          exact hp

/-- **C78.** The rows hidden by new deletion vectors are exactly those that the statement does not keep. -/
theorem C78_hidden_rows {o : Options α} {unique : Bool} {T : List (TRow α)}
    (hst : Spec.Stored o T) {S : List (Row α)} (hu : unique = true → Spec.Single o T S)
    {dv : List (Nat × Nat)} (h : deletePlan o (needsCheck o unique) T S = .ok dv) {t : TRow α} (ht : t ∈ T) :
    (t.file, t.pos) ∈ dv ↔ Spec.fate o S t.vals ≠ .keep :=
  hidden_iff hst (deletePlan_ok hu h).2 ht

/-- **C78.** UPDATE clauses are refused on such tables, whatever the rows are. -/
theorem C78_updates_refused {o : Options α} (h : hasUpdates o = true) (check : Bool) (T : List (TRow α))
    (S₁ S₂ : List (Row α)) : runMor o check T S₁ S₂ = .error .unsupported := by
  have hi : insertOnly o = false := by
    cases hi : insertOnly o with
    | false => rfl
    | true =>
      obtain ⟨hm, hb⟩ := insertOnly_iff hi
      rw [hasUpdates, hm, hb] at h
      exact nomatch h
  rw [runMor, hi, h]
  rfl

theorem dels_mem {o : Options α} {T : List (TRow α)} {S : List (Row α)} (ht : Tame o T S) (x : Nat × Nat) :
    x ∈ ((expanded o T S ++ [metricRow o S]).filter (fun p => p.op.icebergDelete)).filterMap
      (fun p => match p.file, p.pos with
        | some f, some i => some (f, i)
        | _, _ => none) ↔ ∃ t ∈ T, (t.file, t.pos) = x ∧ Spec.fate o S t.vals ≠ .keep := by
  constructor
  · intro h
    obtain ⟨p, hp, hx⟩ := List.mem_filterMap.1 h
    obtain ⟨hp, hd⟩ := List.mem_filter.1 hp
    rcases List.mem_append.1 hp with hp | hp
    · rw [expanded] at hp
      rcases List.mem_append.1 hp with hp | hp
      · obtain ⟨j, hj, rfl⟩ := List.mem_map.1 hp
        obtain ⟨t, htz, hj⟩ := List.mem_flatMap.1 hj
        refine ⟨t.1, List.fst_mem_of_mem_zipIdx htz, ?_, (icebergDelete_iff (ht.at htz)).1 ⟨j, hj, hd⟩⟩
        have h1 : (outRow o j).file = some t.1.file := by
          show j.t.map (fun t => t.1.file) = _
          rw [jsOf_t hj]
          rfl
        have h2 : (outRow o j).pos = some t.1.pos := by
          show j.t.map (fun t => t.1.pos) = _
          rw [jsOf_t hj]
          rfl
        simp only [h1, h2] at hx
        exact Option.some.inj hx
      · obtain ⟨s, _, rfl⟩ := List.mem_map.1 hp
        have : (outRow o ⟨none, some s⟩).op = .insert := projectOp_insert o (some s)
        rw [this] at hd
        exact nomatch hd
    · rw [List.mem_singleton.1 hp] at hd
      exact nomatch hd
  · rintro ⟨t, htT, rfl, hf⟩
    obtain ⟨i, hi⟩ := exists_zipIdx htT
    obtain ⟨j, hj, hd⟩ := (icebergDelete_iff (ht.at hi)).2 hf
    rw [List.mem_filterMap]
    refine ⟨outRow o j, List.mem_filter.2 ⟨List.mem_append.2 (.inl ?_), hd⟩, ?_⟩
    · rw [expanded]
      exact List.mem_append.2 (.inl (List.mem_map.2 ⟨j, List.mem_flatMap.2 ⟨_, hi, hj⟩, rfl⟩))
    · have h1 : (outRow o j).file = some t.file := by
        show j.t.map (fun t => t.1.file) = _
        rw [jsOf_t hj]
        rfl
      have h2 : (outRow o j).pos = some t.pos := by
        show j.t.map (fun t => t.1.pos) = _
        rw [jsOf_t hj]
        rfl
      simp only [h1, h2]

theorem iceberg_data {o : Options α} (hv : Spec.Valid o) {T : List (TRow α)}
    (hst : Spec.Stored o T) {S : List (Row α)} (hS : Spec.Sourced o S) (ht : Tame o T S) :
    ((expanded o T S ++ [metricRow o S]).filter (fun p => p.op.icebergData)).map (·.vals) =
      T.filterMap (fun t => fateNew o (Spec.fate o S t.vals)) ++
        (Spec.unmatched o T S).filterMap (Spec.inserted o) := by
  rw [List.filter_append, expanded, List.filter_append, List.map_append, List.map_append,
    written_insert (keep := Op.icebergData) rfl (fun s hs => hS s (unmatched_mem hs))]
  have h3 : [metricRow o S].filter (fun p => p.op.icebergData) = [] := rfl
  rw [h3, List.map_nil, List.append_nil]
  congr 1
  show written o Op.icebergData _ = _
  rw [written_flatMap]
  have : T.zipIdx.flatMap (fun t => written o Op.icebergData (jsOf o S t)) =
      T.zipIdx.flatMap (fun t => (fateNew o (Spec.fate o S t.1.vals)).toList) := by
    apply flatMap_congr'
    intro t htz
    exact appended_jsOf hv hS (hst.good (List.fst_mem_of_mem_zipIdx htz)) (ht.at htz)
  rw [this]
  have hz := zipIdx_filter_flatMap (fun _ : TRow α => true)
    (fun t => (fateNew o (Spec.fate o S t.vals)).toList) 0 T
  simp only [List.filter_true] at hz
  rw [hz, flatMap_toList]

/-- **C78.** If a MERGE on an Iceberg table succeeds, the visible rows are exactly those that the statement describes.
Double matches make no difference. -/
theorem C78_iceberg_result {o : Options α} (hv : Spec.Valid o) {unique : Bool} {T : List (TRow α)}
    (hst : Spec.Stored o T) {S : List (Row α)} (hS : Spec.Sourced o S) (hu : unique = true → Spec.Single o T S)
    {tbl : List (Row α)} (h : runIceberg o (needsCheck o unique) T S = .ok tbl) : tbl.Perm (Spec.result o T S) := by
  rw [runIceberg] at h
  cases hi : insertOnly o with
  | true =>
    obtain ⟨hm, hb⟩ := insertOnly_iff hi
    rw [hi] at h
    simp only [if_true] at h
    cases hf : fastPlan o T S with
    | error e => rw [hf] at h; exact nomatch h
    | ok l =>
      rw [hf] at h
      cases h
      rw [Spec.result, replacement_all hm hb, fastPlan_ok hv hS hf (keep := Op.icebergData) rfl rfl]
      apply List.Perm.append_right
      have hd : l.filter (fun p => p.op.icebergDelete) = [] := by
        rw [List.filter_eq_nil_iff]
        intro p hp
        rw [fastPlan] at hf
        rw [(finishRows_ok hv hf).1, List.append_nil] at hp
        obtain ⟨q, hq, rfl⟩ := List.mem_map.1 hp
        rcases List.mem_append.1 hq with hq | hq
        · obtain ⟨s, _, rfl⟩ := List.mem_map.1 hq
          have : (genRow o (fastProject o s)).op = fastOp o s := rfl
          rw [this, fastOp_eq]
          split_ifs <;> simp [Op.icebergDelete]
        · obtain ⟨_, _, rfl⟩ := List.mem_map.1 hq
          simp [genRow, noopRow, Op.icebergDelete]
      rw [hd]
      simp
  | false =>
    rw [hi] at h
    simp only [Bool.false_eq_true, if_false] at h
    cases hw : writePlan o (needsCheck o unique) T S with
    | error e => rw [hw] at h; exact nomatch h
    | ok e =>
      rw [hw] at h
      cases h
      obtain ⟨rfl, ht, _⟩ := writePlan_ok hv hu hw
      rw [iceberg_data hv hst hS ht, Spec.result, ← List.append_assoc]
      apply List.Perm.append_right
      exact keep_update_perm (o := o) (S := S) T _ (fun t htT => by
        rw [List.contains_iff_mem]
        exact hidden_iff hst (dels_mem ht) htT)

/-- **C78.** Failures have the reasons that they have for C77. -/
theorem C78_failures_have_reasons {o : Options α} (hv : Spec.Valid o) {unique : Bool} {T : List (TRow α)}
    (hst : Spec.Stored o T) {S : List (Row α)} (hS : Spec.Sourced o S) (hu : unique = true → Spec.Single o T S)
    {e : Err} (h : runIceberg o (needsCheck o unique) T S = .error e ∨
      (hasUpdates o = false ∧ runMor o (needsCheck o unique) T S S = .error e)) :
    (e = .cardinality ∧ ¬ Spec.Single o T S ∧ o.matched ≠ [] ∧ ¬ Spec.LoneDelete o) ∨
      (e = .generated ∧ Contradiction o T S) ∨ (e = .constraint ∧ Violation o T S) := by
  rcases h with h | ⟨hup, h⟩
  · rw [runIceberg] at h
    cases hi : insertOnly o with
    | true =>
      rw [hi] at h
      simp only [if_true] at h
      cases hf : fastPlan o T S with
      | error e' =>
        rw [hf] at h
        cases h
        exact .inr (fastPlan_fails hv hS hf)
      | ok l => rw [hf] at h; exact nomatch h
    | false =>
      rw [hi] at h
      simp only [Bool.false_eq_true, if_false] at h
      cases hw : writePlan o (needsCheck o unique) T S with
      | error e' =>
        rw [hw] at h
        cases h
        exact writePlan_fails hv hst hS hu hw
      | ok l => rw [hw] at h; exact nomatch h
  · rw [runMor] at h
    cases hi : insertOnly o with
    | true =>
      rw [hi] at h
      simp only [if_true] at h
      cases hf : fastPlan o T S with
      | error e' =>
        rw [hf] at h
        cases h
        exact .inr (fastPlan_fails hv hS hf)
      | ok l => rw [hf] at h; exact nomatch h
    | false =>
      rw [hi, hup] at h
      simp only [Bool.false_eq_true, if_false] at h
      cases hw : writePlan o (needsCheck o unique) T S with
      | error e' =>
        rw [hw] at h
        cases h
        exact writePlan_fails hv hst hS hu hw
      | ok l =>
        cases hd : deletePlan o (needsCheck o unique) T S with
        | ok l => rw [hw, hd] at h; exact nomatch h
        | error e' =>
          rw [hw, hd] at h
          cases h
          rw [deletePlan] at hd
          cases hj : checkedJoin o (needsCheck o unique) T S with
          | error e' =>
            rw [hj] at hd
            cases hd
            exact .inl (checkedJoin_error hj)
          | ok js => rw [hj] at hd; exact nomatch hd

/-! ## C79 -/

/-- **C79.** Without a uniqueness guarantee, a statement whose MATCHED clauses are more than one unconditional DELETE
fails exactly if some target row matches two source rows (if no constraint and no generated column fails it). -/
theorem C79_double_match_is_refused {o : Options α} (hv : Spec.Valid o) {T : List (TRow α)}
    {S : List (Row α)} (hm : o.matched ≠ []) (hl : ¬ Spec.LoneDelete o) (hns : ¬ Spec.Single o T S) :
    runCow o (needsCheck o false) T S S S S = .error .cardinality ∧
      runIceberg o (needsCheck o false) T S = .error .cardinality ∧
      (hasUpdates o = false → runMor o (needsCheck o false) T S S = .error .cardinality) := by
  have hsc : shouldCheck o = true := by
    cases hs : shouldCheck o with
    | true => rfl
    | false =>
      rcases shouldCheck_false hs with h | h
      · exact absurd h hl
      · exact absurd h hm
  have hcg : checkGo [] (fullJoin (joins o.on) T S) = false := by
    cases hc : checkGo [] (fullJoin (joins o.on) T S) with
    | false => rfl
    | true => exact absurd ((check_iff o T S).1 hc) hns
  have hj : checkedJoin o (needsCheck o false) T S = .error .cardinality := by
    simp [checkedJoin, needsCheck, hsc, hcg]
  have hw : writePlan o (needsCheck o false) T S = .error .cardinality := by
    rw [writePlan, planOk_valid hv, hj]
    rfl
  have hi : insertOnly o = false := by
    cases hi : insertOnly o with
    | false => rfl
    | true => exact absurd (insertOnly_iff hi).1 hm
  refine ⟨?_, ?_, fun hup => ?_⟩
  · rw [runCow, cowInput, hi, hw]
    rfl
  · rw [runIceberg, hi, hw]
    rfl
  · rw [runMor, hi, hup, hw]
    rfl

/-- **C79.** A statement that succeeds did not have to choose between source rows: no target row matches two of them,
or the statement does the same for all matches. -/
theorem C79_success_is_unambiguous {o : Options α} (hv : Spec.Valid o) {unique : Bool} {T : List (TRow α)}
    {S : List (Row α)} (hu : unique = true → Spec.Single o T S) {e : List (PRow α)}
    (h : writePlan o (needsCheck o unique) T S = .ok e) {t : TRow α} (ht : t ∈ T) {s₁ s₂ : Row α}
    (h₁ : s₁ ∈ Spec.matchesOf o S t.vals) (h₂ : s₂ ∈ Spec.matchesOf o S t.vals) :
    Spec.matchedFate o t.vals s₁ (Spec.pick (fun p => p t.vals s₁) o.matched) =
      Spec.matchedFate o t.vals s₂ (Spec.pick (fun p => p t.vals s₂) o.matched) := by
  rcases (writePlan_ok hv hu h).2.1 t ht with h1 | h1 | h1
  · cases hm : Spec.matchesOf o S t.vals with
    | nil => rw [hm] at h₁; exact nomatch h₁
    | cons x l =>
      rw [hm] at h₁ h₂ h1
      have : l = [] := by
        cases l with
        | nil => rfl
        | cons _ _ => simp at h1
      subst this
      rw [List.mem_singleton.1 h₁, List.mem_singleton.1 h₂]
  · rw [pick_lone h1, pick_lone h1]
    rfl
  · rw [h1]
    rfl

/-! ## Examples -/

/-- The hypotheses of `C78_deletion_vector_result_partial` are met. -/
example : Spec.Valid sampleDelete ∧ Spec.Stored sampleDelete sampleTable ∧ Spec.Sourced sampleDelete sampleSource ∧
    hasUpdates sampleDelete = false :=
  ⟨sampleDelete_valid, sampleDelete_stored, sample_sourced.2.1, rfl⟩

example : runMor sampleDelete (needsCheck sampleDelete false) sampleTable sampleSource sampleSource =
    .ok [[some 3, some 30], [some 5, some 50]] := by decide +kernel

example : deletePlan sampleDelete (needsCheck sampleDelete false) sampleTable sampleSource =
    .ok [(0, 0), (0, 1), (1, 1)] := by decide +kernel

/-- UPDATE clauses are refused with deletion vectors but not on Iceberg tables. -/
example : hasUpdates sampleMerge = true := rfl

example : runIceberg sampleMerge (needsCheck sampleMerge false) sampleTable sampleSource =
    .ok [[some 3, some 30], [some 1, some 11], [some 4, some 0], [some 5, some 50]] := by decide +kernel

/-- The hypotheses of `C79_double_match_is_refused` are met. -/
example : sampleMerge.matched ≠ [] ∧ ¬ Spec.LoneDelete sampleMerge ∧
    ¬ Spec.Single sampleMerge sampleTable [[some 1, some 1], [some 1, some 2]] := by
  refine ⟨nofun, ?_, ?_⟩
  · intro h
    have := congrArg List.length h
    exact absurd this (by decide)
  · rw [Spec.Single]
    decide +kernel

/-- A double match under a lone DELETE, where success is unambiguous. -/
example : (writePlan sampleDelete (needsCheck sampleDelete false) sampleTable
    [[some 1, some 1], [some 1, some 2]]).isOk = true ∧
    ¬ Spec.Single sampleDelete sampleTable [[some 1, some 1], [some 1, some 2]] := by
  rw [Spec.Single]
  decide +kernel

/-! ## What does not hold -/

/-- **C78.** Also with deletion vectors the source query is evaluated twice, once for the rows to insert and once for
the rows to hide. If it gives other rows the second time, the table is what the statement describes for neither. -/
theorem C78_source_read_twice : ∃ (o : Options Nat) (T : List (TRow Nat)) (S S' : List (Row Nat))
    (tbl : List (Row Nat)), Spec.Valid o ∧ Spec.Stored o T ∧ Spec.Sourced o S ∧ Spec.Sourced o S' ∧
      runMor o (needsCheck o false) T S S' = .ok tbl ∧ ¬ tbl.Perm (Spec.result o T S) ∧
      ¬ tbl.Perm (Spec.result o T S') := by
  refine ⟨sampleDelete, sampleTable, [[some 5, some 50]], [[some 1, some 11]],
    [[some 2, some 20], [some 3, some 30], [some 5, some 50]], sampleDelete_valid, sampleDelete_stored, ?_, ?_, ?_, ?_,
    ?_⟩
  · simp [Spec.Sourced, sampleDelete, sampleMerge, sampleNames]
  · simp [Spec.Sourced, sampleDelete, sampleMerge, sampleNames]
  · decide +kernel
  · intro h
    exact absurd h.length_eq (by decide +kernel)
  · intro h
    exact absurd h.length_eq (by decide +kernel)

end Verif.Merge
