import Verif.Iceberg.PruningLemmas

/-!
# C48: partition pruning never hides a matching row
-/

namespace Verif.Iceberg

open Spec

/-- **C48** (partial), data files. A data file with a row that passes the WHERE clause is kept.
The partition tuple of the file is the one of the Iceberg specification for its rows; it is
not assumed to come from this code. Left out: filters with casts, for which the claim is
false (witnesses below), and literals `Spec.Sane` excludes (decimals under bucket and truncate
among them, for which it is false). -/
theorem C48_files_with_matching_rows_are_kept_partial (h : List Nat → Int) (sch : List Field)
    (spec : List PField) (fs : List Expr) (E : Env) (files kept : List DataFile) (f : DataFile)
    (row : Row)
    (hsch : SchemaOk sch) (hlits : LitsOk spec fs)
    (hcast : ∀ e ∈ fs, noCast e = true) (hins : ∀ e ∈ fs, inListsOk e)
    (hf : f ∈ files) (hok : FileOk h sch spec f) (hrow : row ∈ f.rows) (hty : RowOk sch row)
    (hsat : Satisfies E row fs) (hk : pruneFiles h sch spec fs files = some kept) :
    f ∈ kept := by
  unfold pruneFiles at hk
  rw [Option.map_eq_some_iff] at hk
  obtain ⟨ps, hps, rfl⟩ := hk
  have S : Sit h sch spec fs E row f.part := ⟨hsch, hty, hcast, hins, hlits, hsat,
    fun i pf v src h1 h2 h3 => hok.2 i pf v src h1 h2 h3 row hrow⟩
  rw [List.mem_filter]
  refine ⟨hf, List.all_eq_true.2 fun p hp => good_mayMatch (preds_good S hps p hp)⟩

/-- **C48** (partial), manifests. A manifest with a data file that holds a row passing the WHERE
clause is not skipped, if its summaries bound the partition values of its files. -/
theorem C48_manifests_with_matching_rows_are_kept_partial (h : List Nat → Int)
    (sch : List Field) (specs : Nat → Option (List PField)) (fs : List Expr) (E : Env)
    (m : Manifest) (keep : Bool) (f : DataFile) (row : Row)
    (hsch : SchemaOk sch) (hlits : ∀ spec, specs m.specId = some spec → LitsOk spec fs)
    (hcast : ∀ e ∈ fs, noCast e = true) (hins : ∀ e ∈ fs, inListsOk e)
    (hsum : SummariesOk m) (hf : f ∈ m.files)
    (hok : ∀ spec, specs m.specId = some spec → FileOk h sch spec f)
    (hrow : row ∈ f.rows) (hty : RowOk sch row)
    (hsat : Satisfies E row fs) (hk : keepManifest h sch specs fs m = some keep) :
    keep = true := by
  unfold keepManifest at hk
  split at hk
  · simpa using hk.symm
  · rename_i spec hspec
    split at hk
    · simp at hk
    · rename_i ps hps
      split at hk
      · simpa using hk.symm
      · rename_i sums hsums
        simp only [Option.some.injEq] at hk
        subst hk
        have S : Sit h sch spec fs E row f.part := ⟨hsch, hty, hcast, hins, hlits spec hspec, hsat,
          fun i pf v src h1 h2 h3 => (hok spec hspec).2 i pf v src h1 h2 h3 row hrow⟩
        rw [List.all_eq_true]
        intro p hp
        unfold Pred.mayMatchSummary
        split
        · rename_i s hs
          cases hv : f.part[p.idx]? with
          | none =>
            -- the tuple has a value for each field of the spec, and predicates only for those
            exfalso
            have := predsFrom_idx (rest := spec) hps p hp
            have h2 := (hok spec hspec).1
            rw [List.getElem?_eq_none_iff] at hv
            omega
          | some v =>
            obtain ⟨w, rfl, hh⟩ := preds_good S hps p hp v hv
            obtain ⟨h1, h2⟩ := hsum sums hsums p.idx s hs f hf w hv
            exact holds_bounds hh h1 h2
        · rfl

/-- **C48** (partial), the scan. Over all manifests, partition specs (the table may have changed
its partitioning) and files: every file with a matching row is in the plan. -/
theorem C48_scan_reads_every_matching_row_partial (h : List Nat → Int) (sch : List Field)
    (specs : Nat → Option (List PField)) (fs : List Expr) (E : Env) (hsch : SchemaOk sch)
    (hcast : ∀ e ∈ fs, noCast e = true) (hins : ∀ e ∈ fs, inListsOk e) :
    ∀ (ms : List Manifest) (plan : List DataFile),
      (∀ m ∈ ms, SummariesOk m ∧ ∀ spec, specs m.specId = some spec →
        LitsOk spec fs ∧ ∀ f ∈ m.files, FileOk h sch spec f) →
      planFiles h sch specs fs ms = some plan →
      ∀ m ∈ ms, ∀ f ∈ m.files, ∀ row ∈ f.rows, RowOk sch row → Satisfies E row fs → f ∈ plan := by
  intro ms
  induction ms with
  | nil => intro _ _ _ m hm; simp at hm
  | cons m0 ms ih =>
    intro plan hall hp m hm f hf row hrow hty hsat
    simp only [planFiles] at hp
    split at hp
    · rename_i a b ha hb
      simp only [Option.some.injEq] at hp
      subst hp
      rw [List.mem_append]
      rcases List.mem_cons.1 hm with rfl | hm
      · left
        obtain ⟨hsum, hspec⟩ := hall m (by simp)
        have hman : ∀ keep, keepManifest h sch specs fs m = some keep → keep = true := fun keep hk =>
          C48_manifests_with_matching_rows_are_kept_partial h sch specs fs E m keep f row hsch
            (fun s hs => (hspec s hs).1) hcast hins hsum hf (fun s hs => (hspec s hs).2 f hf)
            hrow hty hsat hk
        unfold manifestFiles at ha
        split at ha
        · simp at ha
        · rename_i hk
          exact absurd (hman false hk) (by simp)
        · split at ha
          · simp only [Option.some.injEq] at ha
            subst ha; exact hf
          · rename_i spec hs
            exact C48_files_with_matching_rows_are_kept_partial h sch spec fs E m.files a f row
              hsch (hspec spec hs).1 hcast hins hf ((hspec spec hs).2 f hf) hrow hty hsat ha
      · right
        exact ih b (fun m hm => hall m (by simp [hm])) hb m hm f hf row hrow hty hsat
    · simp at hp

/-- Pruning invents nothing: every file of the plan is one of the manifests. -/
theorem C48_scan_reads_only_files_of_the_table (h : List Nat → Int) (sch : List Field)
    (specs : Nat → Option (List PField)) (fs : List Expr) :
    ∀ (ms : List Manifest) (plan : List DataFile), planFiles h sch specs fs ms = some plan →
      plan.Sublist (ms.flatMap (·.files)) := by
  intro ms
  induction ms with
  | nil => intro plan hp; simp [planFiles] at hp; subst hp; simp
  | cons m ms ih =>
    intro plan hp
    simp only [planFiles] at hp
    split at hp
    · rename_i a b ha hb
      simp only [Option.some.injEq] at hp
      subst hp
      rw [List.flatMap_cons]
      refine List.Sublist.append ?_ (ih b hb)
      unfold manifestFiles at ha
      split at ha
      · simp at ha
      · simp only [Option.some.injEq] at ha; subst ha; simp
      · split at ha
        · simp only [Option.some.injEq] at ha; subst ha; simp
        · unfold pruneFiles at ha
          rw [Option.map_eq_some_iff] at ha
          obtain ⟨ps, _, rfl⟩ := ha
          exact List.filter_sublist
    · simp at hp

/-! A table of events, partitioned by `id` and by the day of `ts`. -/

/-- The schema of the example. -/
def exSchema : List Field := [⟨1, "id", .int⟩, ⟨2, "ts", .timestamp⟩]

/-- Its partition spec. -/
def exSpec : List PField := [⟨1, .identity⟩, ⟨2, .day⟩]

/-- A row of the example. -/
def exRow (i t : Int) : Row := fun c => if c = "id" then .int32 i else .tsUs t

/-- A file with rows of one partition. -/
def exFile (p : String) (i d : Int) (ts : List Int) : DataFile :=
  { path := p, part := [some (.int i), some (.int d)], rows := ts.map (exRow i) }

/-- `WHERE id = 5 AND ts > 1970-01-03 00:00:00`. -/
def exWhere : Expr := .bin .and (.bin .eq (.col "id") (.lit (.int32 5)))
  (.bin .gt (.col "ts") (.lit (.tsUs 172800000000)))

/-- The manifest of the example. -/
def exManifest : Manifest :=
  { specId := 0
    summaries := some [⟨some (.int 4), some (.int 5)⟩, ⟨some (.int 1), some (.int 2)⟩]
    files := [exFile "a" 5 2 [172800000000, 172800000001], exFile "b" 5 1 [86400000000],
      exFile "c" 4 2 [172800000001]] }

-- The plan keeps the first file, which has the matching row, and leaves out the two others; the
-- hypotheses of the theorems hold of it.
example (h : List Nat → Int) :
    ((planFiles h exSchema (fun _ => some exSpec) [exWhere] [exManifest]).map
      fun l => l.map DataFile.path) = some ["a"] := rfl

example (E : Env) : SchemaOk exSchema ∧ LitsOk exSpec [exWhere] ∧
    (∀ e ∈ [exWhere], noCast e = true) ∧ (∀ e ∈ [exWhere], inListsOk e) ∧ SummariesOk exManifest ∧
    RowOk exSchema (exRow 5 172800000001) ∧ Satisfies E (exRow 5 172800000001) [exWhere] := by
  refine ⟨⟨by decide, by decide⟩, ?_, by decide, by simp [exWhere, inListsOk], ?_, ?_, ?_⟩
  · intro f hf s hs
    simp only [List.mem_singleton] at hf
    subst hf
    refine ⟨?_, ?_⟩
    · simp [exWhere, lits] at hs
      rcases hs with rfl | rfl <;> exact ⟨by decide, by decide⟩
    · intro s' _ pf hpf
      simp [exSpec] at hpf
      rcases hpf with rfl | rfl <;> cases s' <;> trivial
  · intro sums hs i s hi f hf v hv
    simp only [exManifest, Option.some.injEq] at hs
    subst hs
    simp only [exManifest, exFile, List.mem_cons, List.not_mem_nil, or_false] at hf
    match i with
    | 0 =>
      simp at hi; subst hi
      rcases hf with rfl | rfl | rfl <;> (simp at hv; subst hv; simp; decide)
    | 1 =>
      simp at hi; subst hi
      rcases hf with rfl | rfl | rfl <;> (simp at hv; subst hv; simp; decide)
    | n + 2 => simp at hi
  · intro f hf
    simp [exSchema] at hf
    rcases hf with rfl | rfl <;> exact ⟨by decide, by decide⟩
  · intro f hf
    simp only [List.mem_singleton] at hf
    subst hf
    rfl

example (h : List Nat → Int) :
    FileOk h exSchema exSpec (exFile "a" 5 2 [172800000000, 172800000001]) := by
  refine ⟨rfl, ?_⟩
  intro i pf v src h1 h2 h3 row hrow
  simp only [exFile, List.map_cons, List.map_nil, List.mem_cons, List.not_mem_nil, or_false] at hrow
  match i with
  | 0 =>
    simp [exSpec] at h1; subst h1
    simp [exFile] at h2; subst h2
    have : src = ⟨1, "id", .int⟩ := (Option.some.inj h3).symm
    subst this
    rcases hrow with rfl | rfl <;> exact ⟨by simp, rfl⟩
  | 1 =>
    simp [exSpec] at h1; subst h1
    simp [exFile] at h2; subst h2
    have : src = ⟨2, "ts", .timestamp⟩ := (Option.some.inj h3).symm
    subst this
    rcases hrow with rfl | rfl <;> exact ⟨2, ⟨by decide, by decide⟩, rfl⟩
  | n + 2 => simp [exSpec] at h1

/-! ### Column bounds -/

/-- Answers about column bounds are right for files without bounds and for files in which the
column has one value: if such a file has a row with one of the values, it is not pruned. -/
theorem C48_constant_columns_are_kept_partial (id : Nat) (vals : List Lit) (f : DataFile) (v : Lit)
    (hv : v ∈ vals)
    (hb : ∀ lb ub, f.lower.lookup id = some lb → f.upper.lookup id = some ub → lb = v ∧ ub = v) :
    contained id vals f = true := by
  unfold contained
  split
  · rename_i lb ub h1 h2
    obtain ⟨rfl, h3⟩ := hb lb ub h1 h2
    subst h3
    rw [List.any_eq_true]
    exact ⟨_, hv, by simp⟩
  · rfl

example : contained 1 [.int 3, .int 5]
    { path := "a", part := [], lower := [(1, .int 5)], upper := [(1, .int 5)], rows := [] } = true :=
  rfl

/-- **C48** is false for other files with column bounds: the bounds of the column are 1 and 9, a
row has 5, and the file is reported not to contain 5. -/
theorem C48_bounds_hide_matching_rows :
    ∃ f : DataFile, ∃ row ∈ f.rows, row "id" = .int32 5 ∧
      f.lower.lookup 1 = some (.int 1) ∧ f.upper.lookup 1 = some (.int 9) ∧
      contained 1 [.int 5] f = false :=
  ⟨{ path := "a", part := [], lower := [(1, .int 1)], upper := [(1, .int 9)],
     rows := [fun _ => .int32 1, fun _ => .int32 5, fun _ => .int32 9] },
   fun _ => .int32 5, by simp, rfl, rfl, rfl, rfl⟩

/-! ### Where the claim is false: casts -/

/-- Widening casts as SQL defines them, for the witness. -/
def widen : Env :=
  { cast := fun _ s => match s with
      | .int32 v => .int64 v
      | s => s
    op := fun _ _ _ => .null
    expr := fun _ _ => .null }

/-- **C48** is false for filters with a cast: `WHERE id > -3000000000` on an INT column, which is
`CAST(id AS BIGINT) > -3000000000`, holds of every row, and no file is read, for every table
partitioned by `id`. -/
theorem C48_casts_hide_matching_rows (h : List Nat → Int) (files : List DataFile)
    (hall : ∀ f ∈ files, ∃ i : Int, f.part = [some (.int i)]) :
    pruneFiles h [⟨1, "id", .int⟩] [⟨1, .identity⟩]
      [.bin .gt (.cast (.col "id") 0) (.lit (.int64 (-3000000000)))] files = some [] ∧
    ∀ i : Int, -2147483648 ≤ i → Satisfies widen (fun _ => .int32 i)
      [.bin .gt (.cast (.col "id") 0) (.lit (.int64 (-3000000000)))] := by
  refine ⟨?_, ?_⟩
  · have hp : predsFrom h [⟨1, "id", .int⟩]
        [.bin .gt (.cast (.col "id") 0) (.lit (.int64 (-3000000000)))] 0 [⟨1, .identity⟩] =
        some [⟨0, .range ⟨some (.long (-3000000000), true), none⟩⟩] := rfl
    unfold pruneFiles
    rw [hp, Option.map_some, Option.some.injEq, List.filter_eq_nil_iff]
    intro f hf
    obtain ⟨i, hi⟩ := hall f hf
    simp [Pred.mayMatch, hi, Constraint.holds, litInRange, Lit.cmp, Lit.tag]
    rfl
  · intro i hi f hf
    simp only [List.mem_singleton] at hf
    subst hf
    have : cmpInt i (-3000000000) = .gt := by rw [cmpInt_gt]; omega
    simp [eval, evalOp, widen, compareWith, Spec.cmp, this]

example : ∀ f ∈ [({ path := "a", part := [some (.int 7)], rows := [fun _ => .int32 7] } : DataFile)],
    ∃ i : Int, f.part = [some (.int i)] := by simp

/-- Casts of timestamps to dates as SQL defines them, for the witness. -/
def toDate : Env :=
  { cast := fun _ s => match s with
      | .tsUs v => .date32 (v / 86400000000)
      | s => s
    op := fun _ _ _ => .null
    expr := fun _ _ => .null }

/-- **C48** is false for `WHERE CAST(ts AS DATE) = DATE '1970-02-10'` on a table partitioned by
the month of `ts`: the number of the day is taken for a number of microseconds, and the file
of February is not read. -/
theorem C48_casts_to_date_hide_matching_rows (h : List Nat → Int) :
    (pruneFiles h [⟨1, "ts", .timestamp⟩] [⟨1, .month⟩]
      [.bin .eq (.cast (.col "ts") 0) (.lit (.date32 40))]
      [{ path := "feb", part := [some (.int 1)], rows := [fun _ => .tsUs 3456000000000] }]).map
        List.length = some 0 ∧
    IsPart h .month (.tsUs 3456000000000) (some (.int 1)) ∧
    Satisfies toDate (fun _ => .tsUs 3456000000000)
      [.bin .eq (.cast (.col "ts") 0) (.lit (.date32 40))] := by
  refine ⟨rfl, ⟨1, ⟨by decide, by decide⟩, rfl⟩, ?_⟩
  intro f hf
  simp only [List.mem_singleton] at hf
  subst hf
  rfl

/-- **C48** is false for decimals under truncate in tables written by other engines: 10.65 is in
the partition 10.50 and `WHERE d = 10.65` does not read it. -/
theorem C48_truncated_decimals_hide_matching_rows (h : List Nat → Int) (E : Env) :
    (pruneFiles h [⟨1, "d", .decimal 2⟩] [⟨1, .truncate 50⟩]
      [.bin .eq (.col "d") (.lit (.dec 1065 2))]
      [{ path := "x", part := [some (.i128 1050)], rows := [fun _ => .dec 1065 2] }]).map
        List.length = some 0 ∧
    IsPart h (.truncate 50) (.dec 1065 2) (some (.i128 1050)) ∧
    Satisfies E (fun _ => .dec 1065 2) [.bin .eq (.col "d") (.lit (.dec 1065 2))] := by
  refine ⟨rfl, ⟨by decide, 1050, ⟨⟨21, rfl⟩, by decide, by decide⟩, rfl⟩, ?_⟩
  intro f hf
  simp only [List.mem_singleton] at hf
  subst hf
  rfl

end Verif.Iceberg
