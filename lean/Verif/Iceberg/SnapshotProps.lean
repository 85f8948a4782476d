import Verif.Iceberg.SnapshotLemmas

/-! Properties C53 and C54: what a commit to an Iceberg table changes, and on which snapshot. -/

namespace Verif.Iceberg.Commit

open Verif.Iceberg.Commit.Spec

/-- A data file for the examples. -/
def exFile (p : Nat) (n : Nat) (spec : Int) : DFile := ⟨p, .data, n, spec, none⟩

/-- A table with one snapshot of one data manifest, written by somebody who left out counts. -/
def exMeta : Meta :=
  { fmt := 2, lastSeq := 4, specs := [0, 1], nextRow := none, current := some 7, main := some 7
    snapshots :=
      [{ id := 7, seq := 4, parent := none, firstRow := none, addedRows := none
         manifests :=
          [{ spec := 0, kind := .data, seq := 4, addedSnapshot := 7, addedFiles := none
             existingFiles := none, deletedFiles := none, addedRows := none, existingRows := none
             deletedRows := none, firstRow := none
             entries := [⟨.added, none, exFile 1 10 0⟩, ⟨.deleted, some 2, exFile 2 20 0⟩,
               ⟨.existing, some 3, exFile 3 5 0⟩] }]
         summary :=
          { op := .append, addedDataFiles := none, addedRecords := none, addedDeleteFiles := none
            addedPosFiles := none, addedPos := none, addedEqFiles := none, addedEq := none
            totalDataFiles := none, totalDeleteFiles := none, totalRecords := none
            totalPos := some 0, totalEq := none } }] }

/-- A row-level change: files of two partition specs and an equality delete file. -/
def exChange : Change :=
  { kind := .rowDelta, data := [exFile 10 3 1, exFile 11 4 0, exFile 12 1 1]
    dels := [⟨13, .eqDel, 2, 0, none⟩], expected := some (some 7), needFmt := 1, newId := 8 }

theorem install_current {m : Meta} {s : Snapshot} {c : Change} (hid : s.id = c.newId)
    (hf : Fresh m c.newId) (hm : MainOk m) :
    currentSnapshot (install (prepared m c) (currentSnapshot m).isSome s) = some s ∧
    (install (prepared m c) (currentSnapshot m).isSome s).snapshots = m.snapshots ++ [s] := by
  obtain ⟨f1, f2, f3, f4, f5, f6⟩ := prepared_fields m c
  have hfind : (m.snapshots ++ [s]).find? (fun t => t.id == s.id) = some s := by
    rw [List.find?_append]
    have : m.snapshots.find? (fun t => t.id == s.id) = none := by
      rw [List.find?_eq_none]
      intro t ht
      have := hf t ht
      simpa [hid] using this
    simp [this]
  have hmain : (install (prepared m c) (currentSnapshot m).isSome s).main = some s.id := by
    simp only [install, (advance_fields _ _).2.2.2.2.1]
    cases hc : currentSnapshot m with
    | some p => simp
    | none =>
      cases hmm : m.main with
      | none => simp [f5, hmm]
      | some id =>
        obtain ⟨t, ht, hti⟩ := hm id hmm
        exfalso
        simp only [currentSnapshot, hmm, Option.or] at hc
        have := (List.find?_eq_none.1 hc) t ht
        simp [hti] at this
  have hsn : (install (prepared m c) (currentSnapshot m).isSome s).snapshots =
      m.snapshots ++ [s] := by
    simp only [install, (advance_fields _ _).1, f1]
  refine ⟨?_, hsn⟩
  generalize install (prepared m c) (currentSnapshot m).isSome s = m2 at hmain hsn
  simp only [currentSnapshot, hmain, hsn, Option.or]
  exact hfind

theorem commit_current {m m' : Meta} {c : Change} (h : commit m c = some m')
    (hf : Fresh m c.newId) (hm : MainOk m) :
    ∃ s, produce (max m.fmt c.needFmt) m.lastSeq m.specs (startRow (prepared m c))
        (currentSnapshot m) c = some s ∧
      currentSnapshot m' = some s ∧ m'.snapshots = m.snapshots ++ [s] := by
  obtain ⟨-, s, hp, -, rfl⟩ := commit_some h
  have := install_current (produce_some hp).2.1 hf hm
  exact ⟨s, hp, this.1, this.2⟩

theorem current_main {m : Meta} {s : Snapshot} {i : Int} (h : currentSnapshot m = some s)
    (hm : m.main = some i) : s.id = i := by
  unfold currentSnapshot at h
  rw [hm] at h
  simp only [Option.some_or] at h
  simpa using List.find?_some h

/-- **C53**: after a commit both the current snapshot id and the main branch name the new snapshot,
so readers agree whichever they look at. -/
theorem C53_new_snapshot_is_current {m m' : Meta} {c : Change} (h : commit m c = some m')
    (hf : Fresh m c.newId) (hm : MainOk m) :
    m'.current = some c.newId ∧ m'.main = some c.newId ∧
    (currentSnapshot m').map Snapshot.id = some c.newId := by
  obtain ⟨s, hp, hc, -⟩ := commit_current h hf hm
  have hid : s.id = c.newId := (produce_some hp).2.1
  obtain ⟨-, s', hp', -, rfl⟩ := commit_some h
  have : s' = s := by
    have := hp'.symm.trans hp
    simpa using this
  subst this
  have hcur : (install (prepared m c) (currentSnapshot m).isSome s').current = some s'.id := by
    simp only [install, advance]
    split <;> rfl
  refine ⟨by rw [hcur, hid], ?_, by rw [hc, Option.map_some, hid]⟩
  cases hmain : (install (prepared m c) (currentSnapshot m).isSome s').main with
  | none =>
    exfalso
    simp only [install, advance] at hmain
    split at hmain <;> split at hmain <;> simp_all
  | some i => rw [← current_main hc hmain, hid]

/-- The example. -/
example : (commit exMeta exChange).map (fun m => (m.current, m.main)) =
    some (some exChange.newId, some exChange.newId) := by decide

/-- **C53**: after an append or a row-level commit readers find what they found before, with the same
sequence numbers, and the files of the commit with the next one. -/
theorem C53_append_adds_its_files {m m' : Meta} {c : Change} (h : commit m c = some m')
    (hf : Fresh m c.newId) (hm : MainOk m) (hk : c.kind ≠ .fullOverwrite) :
    ((dataNow m').map plain).Perm ((dataNow m).map plain ++ addedAs (m.lastSeq + 1) c.data) ∧
    ((delsNow m').map plain).Perm ((delsNow m).map plain ++ addedAs (m.lastSeq + 1) c.dels) := by
  obtain ⟨s, hp, hc, -⟩ := commit_current h hf hm
  have hcar : carries c.kind = true := by
    revert hk; cases c.kind <;> simp [carries]
  have h1 := produce_data hp
  have h2 := produce_dels hp
  have e1 : keptData c.kind (currentSnapshot m) = dataNow m := by
    simp only [keptData, dataNow, hcar, if_true]; cases currentSnapshot m <;> rfl
  have e2 : keptDels c.kind (currentSnapshot m) = delsNow m := by
    simp only [keptDels, delsNow, hcar, if_true]; cases currentSnapshot m <;> rfl
  rw [e1] at h1
  rw [e2] at h2
  simp only [dataNow, delsNow, hc] at h1 h2 ⊢
  exact ⟨h1, h2⟩

/-- **C53**: after an overwrite readers find the files of the commit and nothing else. -/
theorem C53_overwrite_leaves_its_files {m m' : Meta} {c : Change} (h : commit m c = some m')
    (hf : Fresh m c.newId) (hm : MainOk m) (hk : c.kind = .fullOverwrite) :
    ((dataNow m').map plain).Perm (addedAs (m.lastSeq + 1) c.data) ∧
    ((delsNow m').map plain).Perm (addedAs (m.lastSeq + 1) c.dels) := by
  obtain ⟨s, hp, hc, -⟩ := commit_current h hf hm
  have h1 := produce_data hp
  have h2 := produce_dels hp
  have e1 : keptData c.kind (currentSnapshot m) = [] := by
    simp only [keptData, hk, carries]; split <;> rfl
  have e2 : keptDels c.kind (currentSnapshot m) = [] := by
    simp only [keptDels, hk, carries]; split <;> rfl
  rw [e1] at h1
  rw [e2] at h2
  simp only [dataNow, delsNow, hc]
  exact ⟨by simpa using h1, by simpa using h2⟩

/-- The example meets the hypotheses: the change goes through. -/
example : (commit exMeta exChange).isSome = true ∧ exChange.kind ≠ .fullOverwrite :=
  ⟨by decide, by decide⟩

example : Fresh exMeta exChange.newId ∧ MainOk exMeta := by
  refine ⟨by simp [Fresh, exMeta, exChange], ?_⟩
  intro id h
  exact ⟨_, List.mem_singleton.2 rfl, by simpa [exMeta] using h⟩

/-- What a reader finds after the example: two old files, three new ones, one delete file. -/
example : ((commit exMeta exChange).map fun m => ((dataNow m).map fun f => (f.1.path, f.2),
      (delsNow m).map fun f => (f.1.path, f.2))) =
    some ([(1, 4), (3, 3), (11, 5), (10, 5), (12, 5)], [(13, 5)]) := by decide

/-- After an overwrite: the new files. -/
example : ((commit exMeta { exChange with kind := .fullOverwrite }).map fun m =>
      (dataNow m).map fun f => (f.1.path, f.2)) =
    some [(11, 5), (10, 5), (12, 5)] := by decide

/-- **C53**: a commit never reuses a sequence number: whatever is in the table carries at most the
last number, the new files carry the next one. -/
theorem C53_sequence_numbers_grow {m m' : Meta} {c : Change} (h : commit m c = some m')
    (hs : SeqOk m) :
    SeqOk m' ∧ m'.lastSeq = m.lastSeq + 1 ∧
    ∀ s ∈ m.snapshots, ∀ f ∈ readData s ++ readDeletes s, f.2 < m'.lastSeq := by
  obtain ⟨-, s, hp, -, rfl⟩ := commit_some h
  obtain ⟨f1, f2, -, -, -, -⟩ := prepared_fields m c
  obtain ⟨-, -, hseq, -⟩ := produce_some hp
  have hlast : (install (prepared m c) (currentSnapshot m).isSome s).lastSeq = m.lastSeq + 1 := by
    simp only [install, (advance_fields _ _).2.1, f2, hseq]
    split_ifs <;> omega
  have hsn : (install (prepared m c) (currentSnapshot m).isSome s).snapshots =
      m.snapshots ++ [s] := by
    simp only [install, (advance_fields _ _).1, f1]
  have hcur : ∀ p, currentSnapshot m = some p → p ∈ m.snapshots := by
    intro p hcp
    simp only [currentSnapshot] at hcp
    split at hcp
    · exact List.mem_of_find?_eq_some hcp
    · simp at hcp
  have hkd : ∀ f ∈ keptData c.kind (currentSnapshot m), f.2 ≤ m.lastSeq := by
    intro f hf
    simp only [keptData] at hf
    split at hf
    · simp at hf
    · rename_i p hcp
      split_ifs at hf
      · exact (hs p (hcur p hcp)).2.1 f hf
      · simp at hf
  have hkx : ∀ f ∈ keptDels c.kind (currentSnapshot m), f.2 ≤ m.lastSeq := by
    intro f hf
    simp only [keptDels] at hf
    split at hf
    · simp at hf
    · rename_i p hcp
      split_ifs at hf
      · exact (hs p (hcur p hcp)).2.2 f hf
      · simp at hf
  refine ⟨?_, hlast, ?_⟩
  · intro t ht
    rw [hsn] at ht
    rw [hlast]
    rcases List.mem_append.1 ht with ht | ht
    · obtain ⟨g1, g2, g3⟩ := hs t ht
      exact ⟨by omega, fun f hf => by have := g2 f hf; omega, fun f hf => by have := g3 f hf; omega⟩
    · simp only [List.mem_singleton] at ht
      subst ht
      refine ⟨by omega, ?_, ?_⟩
      · intro f hf
        have hmem : plain f ∈ (readData t).map plain := List.mem_map_of_mem hf
        rcases List.mem_append.1 ((produce_data hp).mem_iff.1 hmem) with hx | hx
        · obtain ⟨g, hg, hge⟩ := List.mem_map.1 hx
          have h1 := hkd g hg
          have h2 : (plain g).2 = (plain f).2 := congrArg Prod.snd hge
          simp only [plain] at h2
          omega
        · obtain ⟨g, hg, hge⟩ := List.mem_map.1 hx
          have h2 : m.lastSeq + 1 = f.2 := congrArg Prod.snd hge
          omega
      · intro f hf
        have hmem : plain f ∈ (readDeletes t).map plain := List.mem_map_of_mem hf
        rcases List.mem_append.1 ((produce_dels hp).mem_iff.1 hmem) with hx | hx
        · obtain ⟨g, hg, hge⟩ := List.mem_map.1 hx
          have h1 := hkx g hg
          have h2 : (plain g).2 = (plain f).2 := congrArg Prod.snd hge
          simp only [plain] at h2
          omega
        · obtain ⟨g, hg, hge⟩ := List.mem_map.1 hx
          have h2 : m.lastSeq + 1 = f.2 := congrArg Prod.snd hge
          omega
  · intro t ht f hf
    rw [hlast]
    rcases List.mem_append.1 hf with hf | hf
    · have := (hs t ht).2.1 f hf; omega
    · have := (hs t ht).2.2 f hf; omega

/-- **C53**, over any history of commits. -/
theorem C53_sequence_numbers_of_histories (cs : List Change) (m : Meta) (hs : SeqOk m) :
    SeqOk (commits m cs) ∧ m.lastSeq ≤ (commits m cs).lastSeq := by
  induction cs generalizing m with
  | nil => exact ⟨hs, Int.le_refl _⟩
  | cons c cs ih =>
    simp only [commits]
    cases hc : commit m c with
    | none => exact ih m hs
    | some m1 =>
      obtain ⟨h1, h2, -⟩ := C53_sequence_numbers_grow hc hs
      obtain ⟨h3, h4⟩ := ih m1 h1
      exact ⟨h3, by simp only [Option.getD_some]; omega⟩

example : SeqOk exMeta := by
  intro s hs
  simp only [exMeta, List.mem_singleton] at hs
  subst hs
  decide

/-- **C53**: a snapshot that can be read by its id can be read by its id after every further history,
and is the same. -/
theorem C53_earlier_snapshots_stay (cs : List Change) (m : Meta) (id : Int) (s : Snapshot)
    (h : m.snapshots.find? (fun t => t.id == id) = some s) :
    (commits m cs).snapshots.find? (fun t => t.id == id) = some s := by
  induction cs generalizing m with
  | nil => exact h
  | cons c cs ih =>
    simp only [commits]
    apply ih
    cases hc : commit m c with
    | none => exact h
    | some m1 =>
      obtain ⟨-, t, -, -, rfl⟩ := commit_some hc
      obtain ⟨f1, -⟩ := prepared_fields m c
      simp only [Option.getD_some, install, (advance_fields _ _).1, f1, List.find?_append, h]
      rfl

example : (exMeta.snapshots.find? fun t => t.id == 7).isSome = true := by decide

/-- **C53**: a table of an old format takes no delete files, a version 3 table no position delete
files, and a file of an unknown partition spec is refused. -/
theorem C53_what_is_refused {m m' : Meta} {c : Change} (h : commit m c = some m') :
    (∀ f ∈ c.dels, f.content ≠ .data) ∧
    (max m.fmt c.needFmt = 1 → c.dels = []) ∧
    (max m.fmt c.needFmt = 3 → ∀ f ∈ c.dels, f.content ≠ .posDel) ∧
    ∀ f ∈ c.data ++ c.dels, f.spec ∈ m.specs := by
  obtain ⟨-, s, hp, -, -⟩ := commit_some h
  have hd := (produce_some hp).1
  simp only [deletesAllowed, Bool.and_eq_true, Bool.not_eq_true', Bool.and_eq_false_iff,
    List.any_eq_false, beq_iff_eq, beq_eq_false_iff_ne] at hd
  obtain ⟨⟨h1, h2⟩, h3⟩ := hd
  have hin : ∀ (files : List DFile) g, manifestInputs m.specs files = some g →
      ∀ f ∈ files, f.spec ∈ m.specs := by
    intro files g hg f hf
    simp only [manifestInputs] at hg
    split_ifs at hg with ha
    have hmem : f ∈ (groupBySpec files).flatMap Prod.snd :=
      (groupBySpec_perm files).mem_iff.2 hf
    obtain ⟨kf, hkf, hfx⟩ := List.mem_flatMap.1 hmem
    have := List.all_eq_true.1 ha kf hkf
    rw [groupBySpec_spec files kf hkf f hfx]
    simpa using this
  refine ⟨h1, ?_, ?_, ?_⟩
  · intro hv
    rcases h2 with h2 | h2
    · exact absurd hv h2
    · simpa using h2
  · intro hv
    rcases h3 with h3 | h3
    · exact absurd hv h3
    · exact h3
  · unfold produce at hp
    rw [if_pos (produce_some (by unfold produce; exact hp)).1] at hp
    cases h1 : manifestInputs m.specs c.data with
    | none => simp [h1] at hp
    | some gd =>
      cases h2 : manifestInputs m.specs c.dels with
      | none => simp [h1, h2] at hp
      | some gx =>
        intro f hf
        rcases List.mem_append.1 hf with hf | hf
        · exact hin _ _ h1 f hf
        · exact hin _ _ h2 f hf

/-- An unknown partition spec is refused. -/
example : commit exMeta { exChange with data := [exFile 9 1 5] } = none := by decide

/-- **C54**: a change that expects a snapshot only lands on that snapshot: the new snapshot is its
child, and it was the current one. -/
theorem C54_lands_on_the_snapshot_read {m m' : Meta} {c : Change} (h : commit m c = some m')
    (e : Option Int) (he : c.expected = some e) (hf : Fresh m c.newId) (hm : MainOk m)
    (hcur : ∀ id, m.current = some id → 0 ≤ id → ∃ p, currentSnapshot m = some p) :
    (currentSnapshot m).map Snapshot.id = e ∧
    ∃ s, currentSnapshot m' = some s ∧ s.parent = e := by
  obtain ⟨hx, -, -, hpar, -⟩ := commit_some h
  obtain ⟨s, hp, hc, -⟩ := commit_current h hf hm
  simp only [he, expectedOk, beq_iff_eq] at hx
  have key : (currentSnapshot m).map Snapshot.id = e := by
    cases hcs : currentSnapshot m with
    | some p => rw [← hx, hpar p hcs]; rfl
    | none =>
      rw [← hx]
      cases hmc : m.current with
      | none => rfl
      | some id =>
        by_cases h0 : 0 ≤ id
        · obtain ⟨p, hp⟩ := hcur id hmc h0
          rw [hcs] at hp; simp at hp
        · simp [Option.filter, h0]
  exact ⟨key, s, hc, by rw [(produce_some hp).2.2.2.1, key]⟩

/-- **C54**: if the expected snapshot is not the current one the commit fails. -/
theorem C54_fails_on_another_snapshot (m : Meta) (c : Change) (e : Option Int)
    (he : c.expected = some e) (p : Snapshot) (hp : currentSnapshot m = some p)
    (hne : some p.id ≠ e) : commit m c = none := by
  cases h : commit m c with
  | none => rfl
  | some m' =>
    obtain ⟨hx, -, -, hpar, -⟩ := commit_some h
    simp only [he, expectedOk, beq_iff_eq] at hx
    exact absurd (by rw [← hx, hpar p hp]) hne

/-- The example lands; the same change planned on another snapshot does not. -/
example : ((commit exMeta exChange).bind fun m => (currentSnapshot m).map (·.parent)) =
    some (some 7) := by decide

example : commit exMeta { exChange with expected := some (some 6) } = none ∧
    commit exMeta { exChange with expected := some none } = none := ⟨by decide, by decide⟩

end Verif.Iceberg.Commit
