import Verif.Merge.RunLemmas
import Verif.Merge.Sample

/-! # C77, C80: the table after a copy-on-write MERGE -/

set_option linter.unusedSectionVars false

namespace Verif.Merge

open Verif.Opt (Row and3 eq3)

variable {α : Type} [DecidableEq α]

/-- **C77.** If a copy-on-write MERGE succeeds, the table holds exactly the rows that the statement describes. The
source is assumed to give the same rows each time it is read, and double matches are assumed away for statements that
have NOT MATCHED BY SOURCE clauses but no MATCHED clause: `C77_source_read_twice_loses_rows` and
`C77_row_written_twice` show what happens otherwise. `unique` stands for the outcome of the analysis of the source
query (C79). -/
theorem C77_cow_result_partial {o : Options α} (hv : Spec.Valid o) {unique : Bool} {T : List (TRow α)}
    (hst : Spec.Stored o T) {S : List (Row α)} (hS : Spec.Sourced o S) (hu : unique = true → Spec.Single o T S)
    (hd : o.matched ≠ [] ∨ o.bySource = [] ∨ Spec.Single o T S) {tbl : List (Row α)}
    (h : runCow o (needsCheck o unique) T S S S S = .ok tbl) : tbl.Perm (Spec.result o T S) := by
  rw [runCow] at h
  cases hi : insertOnly o with
  | true =>
    obtain ⟨hm, hb⟩ := insertOnly_iff hi
    rw [cowInput, cowRemoved, hi] at h
    simp only [if_true] at h
    cases hf : fastPlan o T S with
    | error e => rw [hf] at h; exact nomatch h
    | ok l =>
      rw [hf] at h
      cases h
      rw [Spec.result, replacement_all hm hb, fastPlan_ok hv hS hf (keep := Op.isWritten) rfl rfl]
      simp
  | false =>
    rw [cowInput, cowRemoved, hi] at h
    simp only [Bool.false_eq_true, if_false] at h
    cases hw : writePlan o (needsCheck o unique) T S with
    | error e => rw [hw] at h; exact nomatch h
    | ok e =>
      cases ht : touchedPlan o (needsCheck o unique) T S with
      | error e => rw [hw, ht] at h; exact nomatch h
      | ok l =>
        rw [hw, ht] at h
        cases h
        obtain ⟨rfl, _, _⟩ := writePlan_ok hv hu hw
        obtain ⟨htame, hl⟩ := touchedPlan_ok hu ht
        rw [List.filter_append, List.map_append, inserted_rows hS rfl rfl]
        have hr := rewritten_rows hv hst hS l (fun t htT htl => by
          rcases htame t htT with h1 | h1 | h1
          · exact .inl h1
          · exact .inr h1
          · rcases hd with hd | hd | hd
            · exact absurd h1 hd
            · obtain ⟨u, _, _, hf⟩ := (hl _).1 htl
              exact absurd (fate_keep h1 hd S u.vals) hf
            · exact .inl (hd t htT))
        rw [joinFiles_eq (touchedPlan_nodup ht), hr, Spec.result]
        have hs := split_perm (o := o) (S := S) T (fun t => l.contains t.file) (fun t htT hc => by
          refine Classical.byContradiction (fun hk => ?_)
          have := (hl t.file).2 ⟨t, htT, rfl, hk⟩
          simp only [List.contains_eq_mem, decide_eq_false_iff_not] at hc
          exact hc this)
        refine List.Perm.trans ?_ (List.Perm.append_right _ hs)
        rw [List.append_assoc]
        exact List.Perm.append_left _ List.perm_append_comm

/-- **C77.** The files that the statement rewrites are those with a row that it changes. -/
theorem C77_only_changed_files_removed {o : Options α} {unique : Bool} {T : List (TRow α)} {S : List (Row α)}
    (hu : unique = true → Spec.Single o T S) {l : List Nat} (h : cowRemoved o (needsCheck o unique) T S = .ok l)
    (f : Nat) : f ∈ l ↔ ∃ t ∈ T, t.file = f ∧ Spec.fate o S t.vals ≠ .keep := by
  rw [cowRemoved] at h
  split_ifs at h with hi
  · cases h
    obtain ⟨hm, hb⟩ := insertOnly_iff hi
    simp only [List.not_mem_nil, false_iff, not_exists, not_and]
    intro t _ _ hf
    exact hf (fate_keep hm hb S t.vals)
  · exact (touchedPlan_ok hu h).2 f

/-- A row that the statement leaves in the table violates a constraint. -/
def Violation (o : Options α) (T : List (TRow α)) (S : List (Row α)) : Prop :=
  ∃ r ∈ Spec.result o T S, ∃ c ∈ o.checks, c r ≠ some true

/-- A row to be inserted contradicts a generated column. -/
def Contradiction (o : Options α) (T : List (TRow α)) (S : List (Row α)) : Prop :=
  ∃ s ∈ Spec.unmatched o T S, ∃ a, Spec.pick (fun p => p s) o.inserts = some a ∧ Mismatch o (Spec.insertValues o s a)

theorem checksOk_false {o : Options α} {p : PRow α} (h : checksOk o p = false) :
    p.op.isData = true ∧ ∃ c ∈ o.checks, c p.vals ≠ some true := by
  simp only [checksOk, Bool.or_eq_false_iff, Bool.not_eq_false'] at h
  refine ⟨h.1, ?_⟩
  obtain ⟨c, hc, hf⟩ := List.all_eq_false.1 h.2
  exact ⟨c, hc, by simpa using hf⟩

/-- A data row of the expansion is a row of the result. -/
theorem data_row_result {o : Options α} (hv : Spec.Valid o) {T : List (TRow α)}
    (hst : Spec.Stored o T) {S : List (Row α)} (hS : Spec.Sourced o S) (ht : Tame o T S) {p : PRow α}
    (hp : p ∈ expanded o T S) (hd : p.op.isData = true) : p.vals ∈ Spec.result o T S := by
  rw [expanded] at hp
  rw [Spec.result, List.mem_append]
  rcases List.mem_append.1 hp with hp | hp
  · left
    obtain ⟨j, hj, rfl⟩ := List.mem_map.1 hp
    obtain ⟨t, htz, hj⟩ := List.mem_flatMap.1 hj
    have htT := List.fst_mem_of_mem_zipIdx htz
    have hg := hst.good htT
    rw [List.mem_filterMap]
    refine ⟨t.1, htT, ?_⟩
    have hop : (outRow o j).op = projectOp o j := rfl
    rw [hop] at hd
    rcases jsOf_cases hj with ⟨hm, rfl⟩ | ⟨s, hs, rfl⟩
    · rw [replacement_eq, Spec.fate, hm, outRow_bySource hv hg]
      rw [projectOp_bySource, bySourceOps_fate o t.1.vals] at hd
      show fateOut o t.1.vals (Spec.bySourceFate o t.1.vals (Spec.pick (fun p => p t.1.vals) o.bySource)) = _
      cases hf : Spec.bySourceFate o t.1.vals (Spec.pick (fun p => p t.1.vals) o.bySource) with
      | keep => simp [fateOut, fateVals, hg.gen]
      | delete => rw [hf] at hd; exact nomatch hd
      | update r => simp [fateOut, fateVals]
    · have hsrc := hS s (matchesOf_mem hs).1
      rw [outRow_matched hv hg hsrc]
      rw [projectOp_matched] at hd
      rcases htame : ht t.1 htT with h1 | h1 | h1
      · cases hm : Spec.matchesOf o S t.1.vals with
        | nil => rw [hm] at hs; exact nomatch hs
        | cons x l =>
          rw [hm] at hs h1
          have : l = [] := by
            cases l with
            | nil => rfl
            | cons _ _ => simp at h1
          subst this
          rw [List.mem_singleton.1 hs] at hd ⊢
          rw [replacement_eq, Spec.fate, hm]
          rw [matchedOps_fate o t.1.vals x] at hd
          show fateOut o t.1.vals (Spec.matchedFate o t.1.vals x (Spec.pick (fun p => p t.1.vals x) o.matched)) = _
          cases hf : Spec.matchedFate o t.1.vals x (Spec.pick (fun p => p t.1.vals x) o.matched) with
          | keep => simp [fateOut, fateVals, hg.gen]
          | delete => rw [hf] at hd; exact nomatch hd
          | update r => simp [fateOut, fateVals]
      · rw [pick_lone h1] at hd
        exact nomatch hd
      · rw [h1, pick_nil]
        have : Spec.fate o S t.1.vals = .keep := by
          rw [Spec.fate, h1]
          cases hm : Spec.matchesOf o S t.1.vals with
          | nil => rw [hm] at hs; exact nomatch hs
          | cons x l => rfl
        rw [replacement_keep this]
        simp [Spec.matchedFate, fateVals, hg.gen]
  · right
    obtain ⟨s, hs, rfl⟩ := List.mem_map.1 hp
    obtain ⟨hs, hpick⟩ := List.mem_filter.1 hs
    rw [List.mem_filterMap]
    exact ⟨s, hs, (outRow_insert (hS s (unmatched_mem hs)) hpick).symm⟩

theorem writePlan_fails {o : Options α} (hv : Spec.Valid o) {unique : Bool} {T : List (TRow α)}
    (hst : Spec.Stored o T) {S : List (Row α)} (hS : Spec.Sourced o S) (hu : unique = true → Spec.Single o T S)
    {e : Err} (h : writePlan o (needsCheck o unique) T S = .error e) :
    (e = .cardinality ∧ ¬ Spec.Single o T S ∧ o.matched ≠ [] ∧ ¬ Spec.LoneDelete o) ∨
      (e = .generated ∧ Contradiction o T S) ∨ (e = .constraint ∧ Violation o T S) := by
  rcases writePlan_error hv hu h with h1 | ⟨ht, ⟨he, s, hs, hp, hm⟩ | ⟨he, p, hp, hc⟩⟩
  · exact .inl h1
  · right; left
    cases ha : Spec.pick (fun p => p s) o.inserts with
    | none => rw [ha] at hp; exact nomatch hp
    | some a =>
      rw [project_insert_vals (hS s (unmatched_mem hs)) ha] at hm
      exact ⟨he, s, hs, a, ha, hm⟩
  · right; right
    obtain ⟨hd, c, hcm, hcf⟩ := checksOk_false hc
    exact ⟨he, p.vals, data_row_result hv hst hS ht hp hd, c, hcm, hcf⟩

theorem fastPlan_fails {o : Options α} (hv : Spec.Valid o) {T : List (TRow α)} {S : List (Row α)}
    (hS : Spec.Sourced o S) {e : Err} (h : fastPlan o T S = .error e) :
    (e = .generated ∧ Contradiction o T S) ∨ (e = .constraint ∧ Violation o T S) := by
  rw [fastPlan, fast_unmatched] at h
  rcases finishRows_error hv h with ⟨he, p, hp, hop, hm⟩ | ⟨he, p, hp, hc⟩
  · left
    refine ⟨he, ?_⟩
    rcases List.mem_append.1 hp with hp | hp
    · obtain ⟨s, hs, rfl⟩ := List.mem_map.1 hp
      have hop : fastOp o s = .insert := hop
      rw [fastOp_eq] at hop
      cases ha : Spec.pick (fun p => p s) o.inserts with
      | none => rw [ha] at hop; exact nomatch hop
      | some a =>
        rw [fastProject_vals (hS s (unmatched_mem hs)) ha] at hm
        exact ⟨s, hs, a, ha, hm⟩
    · obtain ⟨_, _, rfl⟩ := List.mem_map.1 hp
      exact nomatch hop
  · right
    refine ⟨he, ?_⟩
    rw [List.append_nil] at hp
    obtain ⟨hd, c, hcm, hcf⟩ := checksOk_false hc
    obtain ⟨q, hq, rfl⟩ := List.mem_map.1 hp
    rcases List.mem_append.1 hq with hq | hq
    · obtain ⟨s, hs, rfl⟩ := List.mem_map.1 hq
      refine ⟨_, ?_, c, hcm, hcf⟩
      rw [Spec.result, List.mem_append]
      right
      rw [List.mem_filterMap]
      refine ⟨s, hs, ?_⟩
      have hd : (fastOp o s).isData = true := hd
      rw [fastOp_eq] at hd
      cases ha : Spec.pick (fun p => p s) o.inserts with
      | none => rw [ha] at hd; exact nomatch hd
      | some a =>
        rw [Spec.inserted, ha, Option.map_some, genRow, fastProject_vals (hS s (unmatched_mem hs)) ha]
    · obtain ⟨_, _, rfl⟩ := List.mem_map.1 hq
      exact nomatch hd

theorem touchedPlan_fails {o : Options α} {unique : Bool} {T : List (TRow α)} {S : List (Row α)}
    {e : Err} (h : touchedPlan o (needsCheck o unique) T S = .error e) :
    e = .cardinality ∧ ¬ Spec.Single o T S ∧ o.matched ≠ [] ∧ ¬ Spec.LoneDelete o := by
  rw [touchedPlan] at h
  cases hj : checkedJoin o (needsCheck o unique) T S with
  | error e' =>
    rw [hj] at h
    cases h
    exact checkedJoin_error hj
  | ok js => rw [hj] at h; exact nomatch h

/-- **C77.** A failure has a reason: a target row with two matches in a statement where that matters, a row of the
result that violates a constraint, or an inserted value that contradicts a generated column. -/
theorem C77_failures_have_reasons {o : Options α} (hv : Spec.Valid o) {unique : Bool} {T : List (TRow α)}
    (hst : Spec.Stored o T) {S : List (Row α)} (hS : Spec.Sourced o S) (hu : unique = true → Spec.Single o T S)
    {e : Err} (h : runCow o (needsCheck o unique) T S S S S = .error e) :
    (e = .cardinality ∧ ¬ Spec.Single o T S ∧ o.matched ≠ [] ∧ ¬ Spec.LoneDelete o) ∨
      (e = .generated ∧ Contradiction o T S) ∨ (e = .constraint ∧ Violation o T S) := by
  rw [runCow] at h
  cases hi : insertOnly o with
  | true =>
    rw [cowInput, cowRemoved, hi] at h
    simp only [if_true] at h
    cases hf : fastPlan o T S with
    | error e' =>
      rw [hf] at h
      cases h
      exact .inr (fastPlan_fails hv hS hf)
    | ok l => rw [hf] at h; exact nomatch h
  | false =>
    rw [cowInput, cowRemoved, hi] at h
    simp only [Bool.false_eq_true, if_false] at h
    cases hw : writePlan o (needsCheck o unique) T S with
    | error e' =>
      rw [hw] at h
      cases h
      exact writePlan_fails hv hst hS hu hw
    | ok l =>
      cases ht : touchedPlan o (needsCheck o unique) T S with
      | error e' =>
        rw [hw, ht] at h
        cases h
        exact .inl (touchedPlan_fails ht)
      | ok l => rw [hw, ht] at h; exact nomatch h

theorem isWritten_isData {p : Op} (h : p.isWritten = true) : p.isData = true := by
  cases p <;> first | rfl | exact nomatch h

/-- **C77.** After a success all rows written by the statement satisfy the constraints: no row is added that violates
one. (Rows of files that are not rewritten are checked too, in all statements but insert-only ones.) -/
theorem C77_written_rows_satisfy_constraints {o : Options α} (hv : Spec.Valid o) {unique : Bool} {T : List (TRow α)}
    {S : List (Row α)} (hu : unique = true → Spec.Single o T S) {l : List (PRow α)}
    (h : cowInput o (needsCheck o unique) T S S S = .ok l) {p : PRow α} (hp : p ∈ l) (hw : p.op.isWritten = true) :
    ∀ c ∈ o.checks, c p.vals = some true := by
  have hmain : checksOk o p = true := by
    rw [cowInput] at h
    split_ifs at h with hi
    · rw [fastPlan] at h
      exact (finishRows_ok hv h).2 p hp
    · cases hw : writePlan o (needsCheck o unique) T S with
      | error e => rw [hw] at h; exact nomatch h
      | ok e =>
        cases ht : touchedPlan o (needsCheck o unique) T S with
        | error e => rw [hw, ht] at h; exact nomatch h
        | ok t =>
          rw [hw, ht] at h
          cases h
          apply (writePlan_ok hv hu hw).2.2
          rw [joinFiles_eq (touchedPlan_nodup ht)] at hp
          rcases List.mem_append.1 hp with hp | hp <;> exact (List.mem_filter.1 hp).1
  simp only [checksOk, isWritten_isData hw, Bool.not_true, Bool.false_or, List.all_eq_true, beq_iff_eq] at hmain
  exact hmain

/-! ## The fast append -/

/-- **C80.** A statement that has only NOT MATCHED clauses keeps all rows and files and appends the rows it describes;
rows that match several times make no difference. -/
theorem C80_insert_only_appends {o : Options α} (hv : Spec.Valid o) (hi : insertOnly o = true) (check : Bool)
    {T : List (TRow α)} {S : List (Row α)} (hS : Spec.Sourced o S) {tbl : List (Row α)}
    (h : runCow o check T S S S S = .ok tbl) :
    cowRemoved o check T S = .ok [] ∧ tbl = T.map (·.vals) ++ (Spec.unmatched o T S).filterMap (Spec.inserted o) ∧
      tbl = Spec.result o T S := by
  obtain ⟨hm, hb⟩ := insertOnly_iff hi
  rw [runCow, cowInput, cowRemoved, hi] at h
  simp only [if_true] at h
  cases hf : fastPlan o T S with
  | error e => rw [hf] at h; exact nomatch h
  | ok l =>
    rw [hf] at h
    cases h
    rw [cowRemoved, hi, if_pos rfl, Spec.result, replacement_all hm hb,
      fastPlan_ok hv hS hf (keep := Op.isWritten) rfl rfl]
    simp

/-- **C80.** The shortcut never fails because of double matches: only a constraint or a generated column can refuse a
row. -/
theorem C80_insert_only_failures {o : Options α} (hv : Spec.Valid o) (hi : insertOnly o = true) (check : Bool)
    {T : List (TRow α)} {S : List (Row α)} (hS : Spec.Sourced o S) {e : Err}
    (h : runCow o check T S S S S = .error e) :
    (e = .generated ∧ Contradiction o T S) ∨ (e = .constraint ∧ Violation o T S) := by
  rw [runCow, cowInput, cowRemoved, hi] at h
  simp only [if_true] at h
  cases hf : fastPlan o T S with
  | error e' =>
    rw [hf] at h
    cases h
    exact fastPlan_fails hv hS hf
  | ok l => rw [hf] at h; exact nomatch h

/-- **C80.** The general plan on the same statement gives the same table, so the shortcut may be taken. -/
theorem C80_same_as_general_plan {o : Options α} (hv : Spec.Valid o) (hi : insertOnly o = true) {unique : Bool}
    {T : List (TRow α)} {S : List (Row α)} (hS : Spec.Sourced o S) (hu : unique = true → Spec.Single o T S)
    {e : List (PRow α)} (h : writePlan o (needsCheck o unique) T S = .ok e) {l : List (PRow α)}
    (hf : fastPlan o T S = .ok l) :
    ((e.filter (fun p => p.file.isNone)).filter (fun p => p.op.isWritten)).map (·.vals) =
      (l.filter (fun p => p.op.isWritten)).map (·.vals) ∧
    touchedPlan o (needsCheck o unique) T S = .ok [] := by
  obtain ⟨hm, hb⟩ := insertOnly_iff hi
  obtain ⟨rfl, _, _⟩ := writePlan_ok hv hu h
  refine ⟨by rw [inserted_rows hS rfl rfl, fastPlan_ok hv hS hf (keep := Op.isWritten) rfl rfl], ?_⟩
  cases ht : touchedPlan o (needsCheck o unique) T S with
  | error e => exact absurd hm (touchedPlan_fails ht).2.2.1
  | ok l =>
    have hl := (touchedPlan_ok hu ht).2
    cases l with
    | nil => rfl
    | cons f l =>
      obtain ⟨t, _, _, hf⟩ := (hl f).1 (by simp)
      exact absurd (fate_keep hm hb S t.vals) hf

/-! ## Examples -/

/-- The hypotheses of `C77_cow_result_partial` and `C77_failures_have_reasons` are met, and the statement inserts,
updates, deletes and keeps rows. -/
example : Spec.Valid sampleMerge ∧ Spec.Stored sampleMerge sampleTable ∧ Spec.Sourced sampleMerge sampleSource ∧
    Spec.Single sampleMerge sampleTable sampleSource :=
  ⟨sampleMerge_valid, sampleMerge_stored, sample_sourced.1, sample_single⟩

example : runCow sampleMerge (needsCheck sampleMerge false) sampleTable sampleSource sampleSource sampleSource
    sampleSource = .ok [[some 5, some 50], [some 1, some 11], [some 3, some 30], [some 4, some 0]] := by
  decide +kernel

example : Spec.result sampleMerge sampleTable sampleSource =
    [[some 1, some 11], [some 3, some 30], [some 4, some 0], [some 5, some 50]] := by decide +kernel

/-- Files that hold no changed row stay. -/
example : cowRemoved sampleMerge (needsCheck sampleMerge false) sampleTable [[some 3, some 31]] = .ok [1] := by
  decide +kernel

/-- Failures: a double match, a violated constraint. -/
example : runCow sampleMerge true sampleTable [[some 1, some 1], [some 1, some 2]] [[some 1, some 1], [some 1, some 2]]
    [[some 1, some 1], [some 1, some 2]] [[some 1, some 1], [some 1, some 2]] = .error .cardinality := by decide +kernel

example : runCow sampleMerge true sampleTable [[some 0, some 1]] [[some 0, some 1]] [[some 0, some 1]]
    [[some 0, some 1]] = .error .constraint := by decide +kernel

/-- The hypotheses of the theorems on C80 are met. -/
example : Spec.Valid sampleInsert ∧ insertOnly sampleInsert = true ∧ Spec.Sourced sampleInsert sampleSource :=
  ⟨sampleInsert_valid, rfl, sample_sourced.2.2⟩

example : runCow sampleInsert false sampleTable sampleSource sampleSource sampleSource sampleSource =
    .ok [[some 1, some 10], [some 2, some 20], [some 3, some 30], [some 4, some 9], [some 5, some 50]] := by
  decide +kernel

/-! ## What does not hold -/

/-- **C77.** A statement with a NOT MATCHED BY SOURCE clause and no MATCHED clause writes a target row that matches two
source rows twice, if another row of its file is changed: matches are not counted without a MATCHED clause. -/
theorem C77_row_written_twice : ∃ (o : Options Nat) (T : List (TRow Nat)) (S : List (Row Nat)),
    Spec.Valid o ∧ Spec.Stored o T ∧ Spec.Sourced o S ∧
      Spec.result o T S = [[some 1, some 10]] ∧
      runCow o (needsCheck o false) T S S S S = .ok [[some 1, some 10], [some 1, some 10]] := by
  refine ⟨{ sampleDelete with matched := [], inserts := [] },
    [⟨0, 0, [some 1, some 10]⟩, ⟨0, 1, [some 2, some 9]⟩], [[some 1, none], [some 1, some 3]], ?_, ?_, ?_, ?_, ?_⟩
  · exact ⟨by decide +kernel, (fun _ hc => nomatch hc), fun c hc => sampleDelete_valid.bySourceCols c hc, by decide +kernel⟩
  · exact ⟨by decide +kernel, fun _ _ _ _ _ => rfl, by decide +kernel, by decide +kernel⟩
  · simp [Spec.Sourced, sampleDelete, sampleMerge, sampleNames]
  · decide +kernel
  · decide +kernel

/-- **C77.** The source query is evaluated once for the rows to write and again for the files to remove. If it does not
give the same rows each time, rows vanish that no evaluation mentions: here `id = 2`. -/
theorem C77_source_read_twice_loses_rows : ∃ (o : Options Nat) (T : List (TRow Nat)) (S S' : List (Row Nat)),
    Spec.Valid o ∧ Spec.Stored o T ∧ Spec.Sourced o S ∧ Spec.Sourced o S' ∧
      [some 2, some 20] ∈ Spec.result o T S ∧ [some 2, some 20] ∈ Spec.result o T S' ∧
      runCow o (needsCheck o false) T S S S S' = .ok [] := by
  refine ⟨sampleMerge, [⟨0, 0, [some 1, some 10]⟩, ⟨0, 1, [some 2, some 20]⟩], [], [[some 1, some 11]],
    sampleMerge_valid, ?_, ?_, ?_, ?_, ?_, ?_⟩
  · exact ⟨by decide +kernel, fun _ _ _ _ _ => rfl, by decide +kernel, by decide +kernel⟩
  · simp [Spec.Sourced]
  · simp [Spec.Sourced, sampleMerge, sampleNames]
  · decide +kernel
  · decide +kernel
  · decide +kernel

end Verif.Merge
