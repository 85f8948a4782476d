import Verif.Iceberg.SnapshotProps

/-! Properties C55 and C56: row ids and totals of an Iceberg table. -/

namespace Verif.Iceberg.Commit

open Verif.Iceberg.Commit.Spec

/-! ### Counts -/

/-- The rows of the live entries. -/
def liveRows (es : List Entry) : Nat :=
  ((es.filter fun e => e.status != .deleted).map fun e => e.file.records).sum

/-- The number of live entries. -/
def liveFiles (es : List Entry) : Nat := (es.filter fun e => e.status != .deleted).length

theorem countRows_live (es : List Entry) :
    countRows .added es + countRows .existing es = (liveRows es : Int) := by
  induction es with
  | nil => rfl
  | cons e es ih =>
    simp only [countRows, liveRows] at ih ⊢
    cases hs : e.status <;> simp [hs] <;> omega

theorem countFiles_live (es : List Entry) :
    countFiles .added es + countFiles .existing es = (liveFiles es : Int) := by
  induction es with
  | nil => rfl
  | cons e es ih =>
    simp only [countFiles, liveFiles] at ih ⊢
    cases hs : e.status <;> simp [hs] <;> omega

/-- All counts are there and right. -/
def Full (m : Manifest) : Prop :=
  m.addedFiles = some (countFiles .added m.entries) ∧
  m.existingFiles = some (countFiles .existing m.entries) ∧
  m.addedRows = some (countRows .added m.entries) ∧
  m.existingRows = some (countRows .existing m.entries)

theorem Full.honest {m : Manifest} (h : Full m) : Honest m := by
  obtain ⟨h1, h2, h3, h4⟩ := h
  exact ⟨fun n hn => by simp_all, fun n hn => by simp_all, fun n hn => by simp_all,
    fun n hn => by simp_all⟩

theorem full_populate {m : Manifest} (h : Honest m) : Full (populate m) := by
  obtain ⟨h1, h2, h3, h4⟩ := h
  refine ⟨?_, ?_, ?_, ?_⟩ <;> simp only [populate, Option.some.injEq]
  · cases hx : m.addedFiles with
    | none => rfl
    | some n => exact h1 n hx
  · cases hx : m.existingFiles with
    | none => rfl
    | some n => exact h2 n hx
  · cases hx : m.addedRows with
    | none => rfl
    | some n => exact h3 n hx
  · cases hx : m.existingRows with
    | none => rfl
    | some n => exact h4 n hx

theorem counts_of_added (fs : List DFile) :
    countFiles .added (fs.map fun f => (⟨.added, none, f⟩ : Entry)) = fs.length ∧
    countFiles .existing (fs.map fun f => (⟨.added, none, f⟩ : Entry)) = 0 ∧
    countRows .added (fs.map fun f => (⟨.added, none, f⟩ : Entry)) = rowsOf fs ∧
    countRows .existing (fs.map fun f => (⟨.added, none, f⟩ : Entry)) = 0 := by
  induction fs with
  | nil => exact ⟨rfl, rfl, rfl, rfl⟩
  | cons f fs ih =>
    obtain ⟨h1, h2, h3, h4⟩ := ih
    simp only [countFiles, countRows, rowsOf] at h1 h2 h3 h4 ⊢
    refine ⟨?_, ?_, ?_, ?_⟩ <;> simp at h1 h2 h3 h4 ⊢ <;> omega

theorem full_newManifest (k : MKind) (seq id : Int) (r : Option Int) (g : Int × List DFile) :
    Full (newManifest k seq id r g) := by
  obtain ⟨h1, h2, h3, h4⟩ := counts_of_added g.2
  simp only [Full, newManifest, h1, h2, h3, h4, and_self]

theorem full_assign (next : Int) (ms : List Manifest) (h : ∀ m ∈ ms, Full m) :
    ∀ m ∈ (assign next ms).1, Full m := by
  induction ms generalizing next with
  | nil => simp [assign]
  | cons m ms ih =>
    have h1 := h m (by simp)
    have h2 := fun n => ih n fun x hx => h x (by simp [hx])
    intro x hx
    simp only [assign] at hx
    split_ifs at hx with hc
    · rcases List.mem_cons.1 hx with rfl | hx
      · exact h1
      · exact h2 _ x hx
    · rcases List.mem_cons.1 hx with rfl | hx
      · exact h1
      · exact h2 _ x hx

theorem full_newData (seq id : Int) (next : Option Int) (gs : List (Int × List DFile)) :
    ∀ m ∈ newDataManifests seq id next gs, Full m := by
  induction gs generalizing next with
  | nil => simp [newDataManifests]
  | cons g gs ih =>
    intro x hx
    simp only [newDataManifests] at hx
    rcases List.mem_cons.1 hx with rfl | hx
    · exact full_newManifest _ _ _ _ _
    · exact ih _ x hx

theorem full_retained (k : Kind) (parent : Option Snapshot)
    (h : ∀ p, parent = some p → ∀ x ∈ p.manifests, Honest x) :
    ∀ m ∈ retained k parent, Full m := by
  intro m hm
  cases parent with
  | none => simp [retained] at hm
  | some p =>
    simp only [retained] at hm
    split_ifs at hm
    · obtain ⟨x, hx, rfl⟩ := List.mem_map.1 hm
      exact full_populate (h p rfl x hx)
    · simp at hm

theorem full_produce {fmt : Nat} {lastSeq : Int} {specs : List Int} {start : Option Int}
    {parent : Option Snapshot} {c : Change} {s : Snapshot}
    (hp : produce fmt lastSeq specs start parent c = some s)
    (h : ∀ p, parent = some p → ∀ x ∈ p.manifests, Honest x) :
    ∀ m ∈ s.manifests, Full m := by
  obtain ⟨-, -, -, -, hm, -⟩ := produce_some hp
  intro m hin
  rw [hm] at hin
  rcases List.mem_append.1 hin with hin | hin
  · have hr := full_retained c.kind parent h
    cases start with
    | none => exact hr m hin
    | some n => exact full_assign n _ hr m hin
  · rcases List.mem_append.1 hin with hin | hin
    · exact full_newData _ _ _ _ m hin
    · obtain ⟨g, -, rfl⟩ := List.mem_map.1 hin
      exact full_newManifest _ _ _ _ _

theorem liveAs_length (spec seq : Int) (es : List Entry) :
    (liveAs spec seq es).length = liveFiles es := by
  simp [liveAs, liveFiles]

theorem liveAs_records (spec seq : Int) (es : List Entry) :
    ((liveAs spec seq es).map fun f => f.1.records).sum = liveRows es := by
  simp [liveAs, liveRows, Function.comp_def]

theorem totals_full (ms : List Manifest) (h : ∀ m ∈ ms, Full m) (a b c : Int) :
    totals ms (some a, some b, some c) =
      (some (a + (ms.flatMap viewData).length), some (b + (ms.flatMap viewDels).length),
        some (c + ((ms.flatMap viewData).map fun f => f.1.records).sum)) := by
  induction ms generalizing a b c with
  | nil => simp [totals]
  | cons m ms ih =>
    have h1 := h m (by simp)
    have h2 := fun a b c => ih (fun x hx => h x (by simp [hx])) a b c
    obtain ⟨e1, e2, e3, e4⟩ := h1
    have c1 := countFiles_live m.entries
    have c2 := countRows_live m.entries
    cases hk : m.kind with
    | data =>
      simp only [totals, hk, activeFiles, activeRows, e1, e2, e3, e4, addTo, h2, c1, c2,
        List.flatMap_cons, viewData, viewDels, if_true, List.length_append, liveAs_length,
        List.map_append, List.sum_append, liveAs_records, reduceCtorEq, if_false]
      simp
      omega
    | deletes =>
      simp only [totals, hk, activeFiles, e1, e2, addTo, h2, c1,
        List.flatMap_cons, viewData, viewDels, if_true, List.length_append, liveAs_length,
        List.map_append, List.sum_append, reduceCtorEq, if_false]
      simp
      omega

theorem plain_records (fs : List Found) :
    ((fs.map plain).map fun f => f.1.records).sum = (fs.map fun f => f.1.records).sum := by
  simp [plain, Function.comp_def]

theorem recordsFound_plain (k : Content) (fs : List Found) :
    recordsFound k (fs.map plain) = recordsFound k fs := by
  induction fs with
  | nil => rfl
  | cons f fs ih =>
    simp only [recordsFound, recordsOf] at ih ⊢
    by_cases h : f.1.content = k <;> simp_all [plain]

theorem recordsFound_perm {k : Content} {fs gs : List Found} (h : fs.Perm gs) :
    recordsFound k fs = recordsFound k gs :=
  (((h.map Prod.fst).filter _).map _).sum_nat

theorem recordsFound_append (k : Content) (fs gs : List Found) :
    recordsFound k (fs ++ gs) = recordsFound k fs + recordsFound k gs := by
  simp [recordsFound, recordsOf]

theorem recordsFound_addedAs (k : Content) (seq : Int) (fs : List DFile) :
    recordsFound k (addedAs seq fs) = recordsOf k fs := by
  induction fs with
  | nil => rfl
  | cons f fs ih =>
    simp only [recordsFound, recordsOf, addedAs] at ih ⊢
    by_cases h : f.content = k <;> simp_all

/-- **C56**: the totals in the summary of a new snapshot are the numbers of data files, delete files
and records readers find; counts missing in the manifests of the parent are filled in. -/
theorem C56_totals {m m' : Meta} {c : Change} (h : commit m c = some m')
    (hf : Fresh m c.newId) (hm : MainOk m)
    (hh : ∀ p, currentSnapshot m = some p → ∀ x ∈ p.manifests, Honest x) :
    ∃ s, currentSnapshot m' = some s ∧
      s.summary.totalDataFiles = some ((dataNow m').length : Int) ∧
      s.summary.totalDeleteFiles = some ((delsNow m').length : Int) ∧
      s.summary.totalRecords = some ((((dataNow m').map fun f => f.1.records).sum : Nat) : Int) ∧
      ∀ x ∈ s.manifests, Honest x := by
  obtain ⟨s, hp, hc, -⟩ := commit_current h hf hm
  have hfull := full_produce hp hh
  obtain ⟨-, -, -, -, -, hsum, -⟩ := produce_some hp
  have ht := totals_full s.manifests hfull 0 0 0
  refine ⟨s, hc, ?_, ?_, ?_, fun x hx => (hfull x hx).honest⟩
  · rw [hsum]
    simp only [summaryOf, ht, dataNow, hc, ← readData_plain, List.length_map, Int.zero_add]
  · rw [hsum]
    simp only [summaryOf, ht, delsNow, hc, ← readDeletes_plain, List.length_map, Int.zero_add]
  · rw [hsum]
    simp only [summaryOf, ht, dataNow, hc, ← readData_plain, plain_records, Int.zero_add]

/-- **C56**: the totals of deleted positions and of equality deletes are right if they were right
before; they stay away if they were away. -/
theorem C56_delete_totals {m m' : Meta} {c : Change} (h : commit m c = some m')
    (hf : Fresh m c.newId) (hm : MainOk m)
    (hpos : ∀ p, currentSnapshot m = some p → ∀ n, p.summary.totalPos = some n →
      n = recordsFound .posDel (delsNow m))
    (heq : ∀ p, currentSnapshot m = some p → ∀ n, p.summary.totalEq = some n →
      n = recordsFound .eqDel (delsNow m)) :
    ∃ s, currentSnapshot m' = some s ∧
      (∀ n, s.summary.totalPos = some n → n = recordsFound .posDel (delsNow m')) ∧
      (∀ n, s.summary.totalEq = some n → n = recordsFound .eqDel (delsNow m')) ∧
      ((c.kind = .fullOverwrite ∨ ∀ p, currentSnapshot m = some p →
          p.summary.totalPos ≠ none ∧ p.summary.totalEq ≠ none) →
        s.summary.totalPos ≠ none ∧ s.summary.totalEq ≠ none) := by
  obtain ⟨s, hp, hc, -⟩ := commit_current h hf hm
  obtain ⟨-, -, -, -, -, hsum, -⟩ := produce_some hp
  have hd := produce_dels hp
  have key : ∀ k, recordsFound k (readDeletes s) =
      recordsFound k (keptDels c.kind (currentSnapshot m)) + recordsOf k c.dels := by
    intro k
    rw [← recordsFound_plain, recordsFound_perm hd, recordsFound_append, recordsFound_plain,
      recordsFound_addedAs]
  refine ⟨s, hc, ?_, ?_, ?_⟩
  · intro n hn
    simp only [delsNow, hc, key]
    rw [hsum] at hn
    simp only [summaryOf, Option.map_eq_some_iff] at hn
    obtain ⟨a, ha, rfl⟩ := hn
    congr 1
    cases hcs : currentSnapshot m with
    | none => simp [hcs, totalsBase, previousTotal] at ha; subst ha; rfl
    | some p =>
      simp only [hcs, totalsBase] at ha
      simp only [keptDels]
      by_cases hk : carries c.kind = true
      · simp only [hk, if_true, previousTotal] at ha ⊢
        rw [hpos p hcs a ha, delsNow, hcs]
      · simp only [Bool.not_eq_true] at hk
        simp [hk, previousTotal] at ha ⊢
        subst ha; rfl
  · intro n hn
    simp only [delsNow, hc, key]
    rw [hsum] at hn
    simp only [summaryOf, Option.map_eq_some_iff] at hn
    obtain ⟨a, ha, rfl⟩ := hn
    congr 1
    cases hcs : currentSnapshot m with
    | none => simp [hcs, totalsBase, previousTotal] at ha; subst ha; rfl
    | some p =>
      simp only [hcs, totalsBase] at ha
      simp only [keptDels]
      by_cases hk : carries c.kind = true
      · simp only [hk, if_true, previousTotal] at ha ⊢
        rw [heq p hcs a ha, delsNow, hcs]
      · simp only [Bool.not_eq_true] at hk
        simp [hk, previousTotal] at ha ⊢
        subst ha; rfl
  · intro hor
    rw [hsum]
    simp only [summaryOf, ne_eq, Option.map_eq_none_iff]
    cases hcs : currentSnapshot m with
    | none => simp [totalsBase, previousTotal]
    | some p =>
      simp only [totalsBase]
      by_cases hk : carries c.kind = true
      · simp only [hk, if_true, previousTotal]
        rcases hor with hor | hor
        · simp [hor, carries] at hk
        · exact hor p hcs
      · simp only [Bool.not_eq_true] at hk
        simp [hk, previousTotal]

/-- **C56**: a snapshot called an append adds no delete file and keeps all that was there; one called
a delete adds no data file. -/
theorem C56_operation {m m' : Meta} {c : Change} (h : commit m c = some m')
    (hf : Fresh m c.newId) (hm : MainOk m) (happ : c.kind = .fastAppend → c.dels = []) :
    ∃ s, currentSnapshot m' = some s ∧
      (s.summary.op = .append →
        ((dataNow m').map plain).Perm ((dataNow m).map plain ++ addedAs (m.lastSeq + 1) c.data) ∧
        ((delsNow m').map plain).Perm ((delsNow m).map plain)) ∧
      (s.summary.op = .delete →
        ((dataNow m').map plain).Perm ((dataNow m).map plain)) := by
  obtain ⟨s, hp, hc, -⟩ := commit_current h hf hm
  obtain ⟨-, -, -, -, -, hsum, -⟩ := produce_some hp
  refine ⟨s, hc, ?_, ?_⟩
  · intro hop
    rw [hsum] at hop
    simp only [summaryOf] at hop
    have hx : c.kind ≠ .fullOverwrite ∧ c.dels = [] := by
      cases hk : c.kind with
      | fastAppend => exact ⟨by simp, happ hk⟩
      | fullOverwrite => simp [hk, summaryOp] at hop
      | rowDelta =>
        refine ⟨by simp, ?_⟩
        cases hd : c.dels with
        | nil => rfl
        | cons a l =>
          simp only [hk, hd, summaryOp] at hop
          split_ifs at hop <;> simp_all
    have := C53_append_adds_its_files h hf hm hx.1
    rw [hx.2] at this
    exact ⟨this.1, by simpa [addedAs] using this.2⟩
  · intro hop
    rw [hsum] at hop
    simp only [summaryOf] at hop
    have hx : c.kind ≠ .fullOverwrite ∧ c.data = [] := by
      cases hk : c.kind with
      | fastAppend => simp [hk, summaryOp] at hop
      | fullOverwrite => simp [hk, summaryOp] at hop
      | rowDelta =>
        refine ⟨by simp, ?_⟩
        cases hd : c.data with
        | nil => rfl
        | cons a l =>
          simp only [hk, hd, summaryOp] at hop
          split_ifs at hop <;> simp_all
    have := C53_append_adds_its_files h hf hm hx.1
    rw [hx.2] at this
    simpa [addedAs] using this.1

/-- **C56**: what a commit is called: an append that adds no delete file is an append, an overwrite an
overwrite, and a row change is named after the only kind of files it adds. -/
theorem C56_operation_name {m m' : Meta} {c : Change} (h : commit m c = some m')
    (hf : Fresh m c.newId) (hm : MainOk m) :
    ∃ s, currentSnapshot m' = some s ∧
      (c.kind = .fastAppend → s.summary.op = .append) ∧
      (c.kind = .fullOverwrite → s.summary.op = .overwrite) ∧
      (c.kind = .rowDelta → c.data ≠ [] → c.dels = [] → s.summary.op = .append) ∧
      (c.kind = .rowDelta → c.data = [] → c.dels ≠ [] → s.summary.op = .delete) ∧
      (c.kind = .rowDelta → c.data ≠ [] → c.dels ≠ [] → s.summary.op = .overwrite) := by
  obtain ⟨s, hp, hc, -⟩ := commit_current h hf hm
  obtain ⟨-, -, -, -, -, hsum, -⟩ := produce_some hp
  have hop : s.summary.op = summaryOp c.kind c.data.length c.dels.length := by rw [hsum]; rfl
  refine ⟨s, hc, ?_, ?_, ?_, ?_, ?_⟩
  · intro hk; rw [hop, hk]; rfl
  · intro hk; rw [hop, hk]; rfl
  · intro hk h1 h2
    rw [hop, hk, h2]
    cases hd : c.data with
    | nil => exact absurd hd h1
    | cons a l => simp [summaryOp]
  · intro hk h1 h2
    rw [hop, hk, h1]
    cases hd : c.dels with
    | nil => exact absurd hd h2
    | cons a l => simp [summaryOp]
  · intro hk h1 h2
    rw [hop, hk]
    cases hd : c.dels with
    | nil => exact absurd hd h2
    | cons a l =>
      cases hd : c.data with
      | nil => exact absurd hd h1
      | cons a l => simp [summaryOp]

/-- **C56**: the added counts of a summary, a missing one standing for zero, are those of the files of
the commit. -/
theorem C56_added_counts {m m' : Meta} {c : Change} (h : commit m c = some m')
    (hf : Fresh m c.newId) (hm : MainOk m) :
    ∃ s, currentSnapshot m' = some s ∧
      s.summary.addedDataFiles.getD 0 = c.data.length ∧
      s.summary.addedRecords.getD 0 = (c.data.map DFile.records).sum ∧
      s.summary.addedDeleteFiles.getD 0 = c.dels.length ∧
      s.summary.addedPosFiles.getD 0 = c.dels.countP (fun f => f.content == .posDel) ∧
      s.summary.addedPos.getD 0 =
        ((c.dels.filter fun f => f.content == .posDel).map DFile.records).sum ∧
      s.summary.addedEqFiles.getD 0 = c.dels.countP (fun f => f.content == .eqDel) ∧
      s.summary.addedEq.getD 0 =
        ((c.dels.filter fun f => f.content == .eqDel).map DFile.records).sum := by
  obtain ⟨s, hp, hc, -⟩ := commit_current h hf hm
  obtain ⟨-, -, -, -, -, hsum, -⟩ := produce_some hp
  have two : ∀ (x : Content) (n : Nat), (c.dels = [] ∨ filesOf x c.dels = 0 → n = 0) →
      (ifPos (!c.dels.isEmpty && decide (0 < filesOf x c.dels)) n).getD 0 = n := by
    intro x n hn
    unfold ifPos
    by_cases h1 : c.dels = []
    · simp [h1, hn (.inl h1)]
    · by_cases h2 : filesOf x c.dels = 0
      · simp [h2, hn (.inr h2)]
      · have : 0 < filesOf x c.dels := by omega
        simp [h1, this]
  have nil : ∀ x : Content, c.dels = [] ∨ filesOf x c.dels = 0 →
      (c.dels.filter fun f => f.content == x) = [] := by
    intro x hx
    rcases hx with hx | hx
    · rw [hx]; rfl
    · exact List.length_eq_zero_iff.1 hx
  refine ⟨s, hc, ?_, ?_, ?_, ?_, ?_, ?_, ?_⟩ <;> rw [hsum] <;> simp only [summaryOf]
  · cases c.data <;> simp [ifPos]
  · cases c.data <;> simp [ifPos]
  · cases c.dels <;> simp [ifPos]
  · rw [two .posDel]
    · rw [List.countP_eq_length_filter]; rfl
    · intro hx; simp [filesOf, nil .posDel hx]
  · rw [two .posDel]
    · rfl
    · intro hx; simp [recordsOf, nil .posDel hx]
  · rw [two .eqDel]
    · rw [List.countP_eq_length_filter]; rfl
    · intro hx; simp [filesOf, nil .eqDel hx]
  · rw [two .eqDel]
    · rfl
    · intro hx; simp [recordsOf, nil .eqDel hx]

/-- The example adds what its summary says. -/
example : ((commit exMeta exChange).bind fun m => (currentSnapshot m).map fun s =>
      s.summary.addedDataFiles.getD 0) = some exChange.data.length := by decide

/-- The totals after the example. -/
example : ((commit exMeta exChange).bind fun m => (currentSnapshot m).map fun s =>
      (s.summary.totalDataFiles, s.summary.totalRecords, s.summary.totalDeleteFiles,
        s.summary.totalPos, s.summary.totalEq)) =
    some (some 5, some 23, some 1, some 0, none) := by decide

example : ∀ p, currentSnapshot exMeta = some p → ∀ x ∈ p.manifests, Honest x := by
  intro p hp x hx
  have : p = exMeta.snapshots.head (by decide) := by
    have h2 : currentSnapshot exMeta = some (exMeta.snapshots.head (by decide)) := by decide
    rw [h2] at hp
    exact (Option.some.inj hp).symm
  subst this
  simp only [exMeta, List.head_cons, List.mem_singleton] at hx
  subst hx
  simp [Honest]

end Verif.Iceberg.Commit
