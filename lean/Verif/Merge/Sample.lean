import Verif.Merge.Spec

/-! # MERGE INTO: statements used in examples -/

namespace Verif.Merge

open Verif.Opt (Row)

/-- The columns `id` and `v`. -/
def sampleNames : List Name := ["id".toList, "v".toList]

/-- `ON target.id = source.id`. -/
def sampleOn : On Nat :=
  .eq ⟨.targetOnly, fun t _ => t.at 0, some "id".toList⟩ ⟨.sourceOnly, fun _ s => s.at 0, some "id".toList⟩

/-- `MERGE INTO target USING source ON target.id = source.id WHEN MATCHED AND source.v IS NULL THEN DELETE WHEN MATCHED
THEN UPDATE SET * WHEN NOT MATCHED THEN INSERT * WHEN NOT MATCHED BY SOURCE AND target.v = 9 THEN UPDATE SET v = 0`, on
a table with the constraint `id > 0`. -/
def sampleMerge : Options Nat :=
  { caseSensitive := false, target := sampleNames, source := sampleNames, cast := fun _ v => v, on := sampleOn
    matched := [⟨some (fun _ s => some (s.at 1).isNone), .delete⟩, ⟨none, .updateAll⟩]
    bySource := [⟨some (fun t => (t.at 1).map (· == 9)), .updateSet [("V".toList, fun _ => some 0)]⟩]
    inserts := [⟨none, .insertAll⟩], defaults := [], gens := []
    checks := [fun r => (r.at 0).map (0 < ·)] }

/-- The same with DELETE as the only action on target rows. -/
def sampleDelete : Options Nat :=
  { sampleMerge with
    matched := [⟨none, .delete⟩]
    bySource := [⟨some (fun t => (t.at 1).map (· == 9)), .delete⟩] }

/-- The same with only the NOT MATCHED clause. -/
def sampleInsert : Options Nat := { sampleMerge with matched := [], bySource := [] }

/-- Two files with two rows each. -/
def sampleTable : List (TRow Nat) :=
  [⟨0, 0, [some 1, some 10]⟩, ⟨0, 1, [some 2, some 20]⟩, ⟨1, 0, [some 3, some 30]⟩, ⟨1, 1, [some 4, some 9]⟩]

/-- Three source rows. -/
def sampleSource : List (Row Nat) := [[some 1, some 11], [some 2, none], [some 5, some 50]]

theorem sampleMerge_valid : Spec.Valid sampleMerge where
  names := by decide +kernel
  matchedCols := by
    intro c hc as h
    simp only [sampleMerge, List.mem_cons, List.not_mem_nil, or_false] at hc
    rcases hc with rfl | rfl <;> exact nomatch h
  bySourceCols := by
    intro c hc as h a ha
    simp only [sampleMerge, List.mem_cons, List.not_mem_nil, or_false] at hc
    subst hc
    cases h
    simp only [List.mem_cons, List.not_mem_nil, or_false] at ha
    subst ha
    decide +kernel
  gens := by decide +kernel

theorem sampleDelete_valid : Spec.Valid sampleDelete where
  names := by decide +kernel
  matchedCols := by
    intro c hc as h
    simp only [sampleDelete, List.mem_cons, List.not_mem_nil, or_false] at hc
    subst hc
    exact nomatch h
  bySourceCols := by
    intro c hc as h a ha
    simp only [sampleDelete, List.mem_cons, List.not_mem_nil, or_false] at hc
    subst hc
    exact nomatch h
  gens := by decide +kernel

theorem sampleInsert_valid : Spec.Valid sampleInsert where
  names := by decide +kernel
  matchedCols := fun _ hc => nomatch hc
  bySourceCols := fun _ hc => nomatch hc
  gens := by decide +kernel

theorem sampleMerge_stored : Spec.Stored sampleMerge sampleTable where
  width := by decide +kernel
  typed := fun _ _ _ _ _ => rfl
  generated := by decide +kernel
  places := by decide +kernel

theorem sampleDelete_stored : Spec.Stored sampleDelete sampleTable where
  width := by decide +kernel
  typed := fun _ _ _ _ _ => rfl
  generated := by decide +kernel
  places := by decide +kernel

theorem sample_sourced : Spec.Sourced sampleMerge sampleSource ∧ Spec.Sourced sampleDelete sampleSource ∧
    Spec.Sourced sampleInsert sampleSource :=
  ⟨by simp [Spec.Sourced, sampleSource, sampleMerge, sampleNames],
    by simp [Spec.Sourced, sampleSource, sampleDelete, sampleMerge, sampleNames],
    by simp [Spec.Sourced, sampleSource, sampleInsert, sampleMerge, sampleNames]⟩

theorem sample_single : Spec.Single sampleMerge sampleTable sampleSource := by
  rw [Spec.Single]
  decide +kernel

end Verif.Merge
