import Verif.Iceberg.Limit
import Mathlib.Tactic.SplitIfs

/-!
# C52: LIMIT on an Iceberg scan leaves enough rows
-/

namespace Verif.Iceberg.Limit

open Verif.Iceberg.Limit.Spec

theorem collect_prefix (lim : Nat) : ∀ (files : List File) (n : Nat),
    collect lim n files <+: files
  | [], _ => by simp [collect]
  | f :: fs, n => by
    simp only [collect]
    split_ifs
    · simp
    · exact List.prefix_cons_inj f |>.2 (collect_prefix lim fs _)
    · simp

theorem collect_enough (lim : Nat) : ∀ (files : List File) (n : Nat), n ≤ lim →
    collect lim n files = files ∨ lim < n + ((collect lim n files).map File.count).sum
  | [], _, _ => by simp [collect]
  | f :: fs, n, hn => by
    simp only [collect, hn, if_true]
    split_ifs with h
    · right; simp; omega
    · rcases collect_enough lim fs (n + f.count) (by omega) with h1 | h1
      · left; rw [h1]
      · right; simp only [List.map_cons, List.sum_cons]; omega

theorem live_all {pass : Row → Bool} : ∀ {fs : List File},
    (∀ f ∈ fs, ∀ r ∈ f.rows, r.2 = false ∧ pass r.1 = true) →
    ((fs.flatMap File.live).filter pass).length = (fs.map File.count).sum
  | [], _ => rfl
  | f :: fs, h => by
    have h1 : (f.live.filter pass).length = f.count := by
      unfold File.live File.count
      have h0 : (f.rows.filter fun r => !r.2) = f.rows :=
        List.filter_eq_self.2 (fun r hr => by simp [(h f (by simp) r hr).1])
      rw [h0]
      rw [List.filter_eq_self.2, List.length_map]
      intro r hr
      rw [List.mem_map] at hr
      obtain ⟨x, hx, rfl⟩ := hr
      exact (h f (by simp) x hx).2
    rw [List.flatMap_cons, List.filter_append, List.length_append, h1,
      live_all (fun g hg => h g (by simp [hg]))]
    simp

theorem result_eq (pass : Row → Bool) (files : List File) :
    result pass files = (files.flatMap File.live).filter pass := by
  simp [result]
  rfl

/-- **C52**, the part without LIMIT: all rows of the result are read. -/
theorem C52_without_limit (pass : Row → Bool) (files : List File) :
    scan none pass files = result pass files := by
  rw [result_eq]; rfl

/-- **C52** (partial). With `LIMIT n` the answer is right, if no row of the table is deleted and
every row passes the filters that the scan evaluates itself. Without these two conditions it
is false (witnesses below). -/
theorem C52_limit_leaves_enough_rows_partial (n : Nat) (pass : Row → Bool) (files : List File)
    (hall : ∀ f ∈ files, ∀ r ∈ f.rows, r.2 = false ∧ pass r.1 = true) :
    Right n pass files (scan (some n) pass files) := by
  unfold Right
  rw [result_eq]
  have hsub : ((collect n 0 files).flatMap File.live).filter pass <+:
      (files.flatMap File.live).filter pass := by
    obtain ⟨t, ht⟩ := collect_prefix n files 0
    exact ⟨(t.flatMap File.live).filter pass, by
      conv => rhs; rw [← ht]
      rw [List.flatMap_append, List.filter_append]⟩
  simp only [scan, keep]
  refine ⟨(List.take_sublist _ _).trans hsub.sublist, ?_⟩
  rw [List.length_take]
  rcases collect_enough n files 0 (by omega) with h | h
  · rw [h]
  · have h1 := live_all (pass := pass) (fs := collect n 0 files)
      (fun f hf => hall f ((collect_prefix n files 0).subset hf))
    have h2 := hsub.length_le
    omega

-- Two files of three and two rows, LIMIT 4: both are read.
example : ∀ f ∈ [(⟨List.replicate 3 (fun _ => .int32 1, false)⟩ : File),
    ⟨List.replicate 2 (fun _ => .int32 2, false)⟩], ∀ r ∈ f.rows,
    r.2 = false ∧ (fun _ : Row => true) r.1 = true := by
  intro f hf
  simp at hf
  rcases hf with rfl | rfl <;> simp

/-- In every case the answer to a LIMIT has only rows of the result, and not too many. -/
theorem C52_limit_adds_no_rows (n : Nat) (pass : Row → Bool) (files : List File) :
    (scan (some n) pass files).Sublist (result pass files) ∧
      (scan (some n) pass files).length ≤ n := by
  rw [result_eq]
  simp only [scan, keep]
  constructor
  · refine (List.take_sublist _ _).trans ?_
    obtain ⟨t, ht⟩ := collect_prefix n files 0
    conv => rhs; rw [← ht]
    rw [List.flatMap_append, List.filter_append]
    exact List.sublist_append_left _ _
  · rw [List.length_take]; omega

/-- Whatever the deletes, files left out by the limit are left out only after more than `n` rows
were written to the files before. -/
theorem C52_files_left_out (n : Nat) (files : List File) :
    ∃ rest, files = keep (some n) files ++ rest ∧
      (rest = [] ∨ n < ((keep (some n) files).map File.count).sum) := by
  obtain ⟨t, ht⟩ := collect_prefix n files 0
  refine ⟨t, ht.symm, ?_⟩
  rcases collect_enough n files 0 (by omega) with h | h
  · left
    have h1 : collect n 0 files ++ [] = collect n 0 files ++ t := by
      rw [ht, List.append_nil]; exact h
    exact (List.append_cancel_left h1).symm
  · right
    have : keep (some n) files = collect n 0 files := rfl
    rw [this]; omega

/-- **C52** is false with deletes: for every `n ≥ 1` there is a table with `n` rows of which
`LIMIT n` returns none. Its first file was written with `n + 1` rows, all of them deleted. -/
theorem C52_deletes_leave_too_few_rows (n : Nat) (hn : 1 ≤ n) :
    ∃ files : List File, (result (fun _ => true) files).length = n ∧
      scan (some n) (fun _ => true) files = [] ∧
      ¬ Right n (fun _ => true) files (scan (some n) (fun _ => true) files) := by
  have hs : scan (some n) (fun _ => true)
      [⟨List.replicate (n + 1) (fun _ => .int32 1, true)⟩,
       ⟨List.replicate n (fun _ => .int32 2, false)⟩] = [] := by
    simp [scan, keep, collect, File.count, File.live]
  have hr : (result (fun _ => true)
      [⟨List.replicate (n + 1) (fun _ => .int32 1, true)⟩,
       ⟨List.replicate n (fun _ => .int32 2, false)⟩]).length = n := by
    simp [result]
  refine ⟨_, hr, hs, ?_⟩
  rintro ⟨_, h2⟩
  rw [hr, hs] at h2
  simp at h2
  omega

/-- **C52** is false after partition evolution: a table partitioned by `id` since its second
spec, with a file of the time before. `id = 5` is pushed down exactly, so the limit is too;
the old file with other rows uses it up, and the row with 5 in the new file is not returned. -/
theorem C52_partition_evolution_leaves_too_few_rows :
    eqPushDown [⟨1, "id", .int⟩] [[], [⟨1, .identity⟩]] "id" = .exact ∧
    ∃ (pass : Row → Bool) (old new : File),
      (∀ row, pass row = decide (row "id" = .int32 5)) ∧
      (∀ r ∈ old.rows ++ new.rows, r.2 = false) ∧
      (∀ r ∈ new.rows, r.1 "id" = .int32 5) ∧
      (result pass [old, new]).length = 1 ∧ scan (some 1) pass [old, new] = [] := by
  refine ⟨by decide, fun row => decide (row "id" = .int32 5),
    ⟨[(fun _ => .int32 1, false), (fun _ => .int32 2, false)]⟩,
    ⟨[(fun _ => .int32 5, false)]⟩, fun _ => rfl, by simp, by simp, ?_, ?_⟩
  · simp [result]
  · simp [scan, keep, collect, File.count, File.live]

/-- A filter is pushed down exactly only if every partition field on the column, in every spec of
the table, is an identity, and there is one. -/
theorem C52_exact_needs_identity (sch : List Field) (specs : List (List PField)) (col : String) :
    eqPushDown sch specs col = .exact ↔
      (∃ spec ∈ specs, ∃ pf ∈ spec, ∃ f, fieldById sch pf.sourceId = some f ∧ f.name = col ∧
        pf.transform = .identity) ∧
      ∀ spec ∈ specs, ∀ pf ∈ spec, ∀ f, fieldById sch pf.sourceId = some f → f.name = col →
        pf.transform = .identity ∨ pf.transform = .void ∨ pf.transform = .unknown := by
  have hm : ∀ pf, pf ∈ fieldsOn sch specs col ↔ (∃ spec ∈ specs, pf ∈ spec) ∧
      (pf.transform ≠ .void ∧ pf.transform ≠ .unknown) ∧
      ∃ f, fieldById sch pf.sourceId = some f ∧ f.name = col := by
    intro pf
    unfold fieldsOn
    rw [List.mem_filter, List.mem_flatten, Bool.and_eq_true, decide_eq_true_iff]
    cases fieldById sch pf.sourceId <;> simp
  unfold eqPushDown onlyIdentity
  constructor
  · intro h
    split at h
    · rename_i ho
      split at ho
      · simp at ho
      · rename_i hne
        simp only [Option.some.injEq, List.all_eq_true, beq_iff_eq] at ho
        obtain ⟨pf, hpf⟩ := List.exists_mem_of_ne_nil _ hne
        obtain ⟨⟨spec, h1, h2⟩, _, f, h3, h4⟩ := (hm pf).1 hpf
        refine ⟨⟨spec, h1, pf, h2, f, h3, h4, ho pf hpf⟩, ?_⟩
        intro spec' g1 pf' g2 f' g3 g4
        by_cases hv : pf'.transform = .void
        · exact Or.inr (Or.inl hv)
        · by_cases hu : pf'.transform = .unknown
          · exact Or.inr (Or.inr hu)
          · exact Or.inl (ho pf' ((hm pf').2 ⟨⟨spec', g1, g2⟩, ⟨hv, hu⟩, f', g3, g4⟩))
    · simp at h
    · simp at h
  · rintro ⟨⟨spec, h1, pf, h2, f, h3, h4, h5⟩, hall⟩
    have hne : fieldsOn sch specs col ≠ [] :=
      List.ne_nil_of_mem ((hm pf).2 ⟨⟨spec, h1, h2⟩, by simp [h5], f, h3, h4⟩)
    rw [if_neg hne]
    have : ((fieldsOn sch specs col).all fun pf => pf.transform == .identity) = true := by
      rw [List.all_eq_true]
      intro pf' hpf'
      obtain ⟨⟨spec', g1, g2⟩, ⟨hv, hu⟩, f', g3, g4⟩ := (hm pf').1 hpf'
      have := hall spec' g1 pf' g2 f' g3 g4
      simpa [hv, hu] using this
    rw [this]

example : eqPushDown [⟨1, "id", .int⟩] [[⟨1, .identity⟩], [⟨1, .bucket 4⟩]] "id" = .inexact := by
  decide

end Verif.Iceberg.Limit
