import Verif.Iceberg.RowIds

/-! Property C55, continued: what commits do to row ids. -/

namespace Verif.Iceberg.Commit

open Verif.Iceberg.Commit.Spec

theorem current_mem {m : Meta} {p : Snapshot} (h : currentSnapshot m = some p) :
    p ∈ m.snapshots := by
  simp only [currentSnapshot] at h
  split at h
  · exact List.mem_of_find?_eq_some h
  · simp at h

theorem nextId_prepared (m : Meta) (c : Change) : nextId (prepared m c) = nextId m := by
  simp only [prepared]
  split_ifs
  · rfl
  · rfl

theorem startRow_prepared (m : Meta) (c : Change) :
    startRow (prepared m c) = if 3 ≤ max m.fmt c.needFmt then some (nextId m) else none := by
  have h := nextId_prepared m c
  simp only [startRow, (prepared_fields m c).2.2.2.2.2]
  split_ifs
  · rw [← h]; rfl
  · rfl

theorem rowsOf_nonneg (fs : List DFile) : 0 ≤ rowsOf fs := by
  simp only [rowsOf]
  omega

theorem rowsOf_perm {fs gs : List DFile} (h : fs.Perm gs) : rowsOf fs = rowsOf gs := by
  simp only [rowsOf]
  rw [(h.map DFile.records).sum_nat]

theorem nextId_install {m : Meta} {c : Change} {b : Bool} {s : Snapshot}
    (h1 : s.firstRow = startRow (prepared m c)) (a : Int)
    (h2 : s.addedRows = (startRow (prepared m c)).map fun _ => a) :
    nextId (install (prepared m c) b s) =
      if 3 ≤ max m.fmt c.needFmt then nextId m + a else nextId m := by
  have hn := nextId_prepared m c
  have hf := (prepared_fields m c).2.2.2.2.2
  have hs := (prepared_fields m c).1
  rw [startRow_prepared] at h1 h2
  split_ifs at h1 h2 ⊢ with h3
  · have h4 : (prepared m c).nextRow = some (nextId m) := by
      simp only [prepared, if_pos h3]
      rfl
    simp only [Option.map_some] at h2
    simp only [install, advance, h2, startRow, hf, if_pos h3, h4, Option.getD_some, nextId]
  · simp only [Option.map_none] at h2
    simp only [install, advance, h2, nextId, inferredNext, List.filterMap_append, hs]
    have h4 : (prepared m c).nextRow = m.nextRow := by
      simp only [prepared, if_neg h3]
    rw [h4, List.filterMap_cons_none (by simp only [h1]), List.filterMap_nil, List.append_nil]

theorem retained_claims (k : Kind) (parent : Option Snapshot) :
    (retained k parent).flatMap claims =
      match parent with
      | none => []
      | some p => if carries k then p.manifests.flatMap claims else [] := by
  cases parent with
  | none => rfl
  | some p =>
    simp only [retained]
    split_ifs
    · rw [List.flatMap_map]; rfl
    · rfl

theorem newData_none_claims (seq id : Int) (gs : List (Int × List DFile))
    (h : ∀ g ∈ gs, ∀ f ∈ g.2, f.firstRow = none) :
    (newDataManifests seq id none gs).flatMap claims = [] := by
  induction gs with
  | nil => rfl
  | cons g gs ih =>
    have e1 : claims (newManifest .data seq id none g) = [] := by
      rw [claims_data rfl]
      simp only [newManifest, reserved, explicit_added g.2 (h g (by simp)), List.nil_append]
    simp only [newDataManifests, List.flatMap_cons, e1, Option.map_none,
      ih fun x hx => h x (by simp [hx]), List.append_nil]

theorem group_none {fs : List DFile} (h : ∀ f ∈ fs, f.firstRow = none) :
    ∀ g ∈ groupBySpec fs, ∀ f ∈ g.2, f.firstRow = none := by
  intro g hg f hf
  exact h f ((groupBySpec_perm fs).mem_iff.1 (List.mem_flatMap.2 ⟨g, hg, hf⟩))

/-- The claims of the snapshot a commit makes. -/
theorem produce_claims {fmt : Nat} {lastSeq : Int} {specs : List Int} {start : Option Int}
    {parent : Option Snapshot} {c : Change} {s : Snapshot} {next : Int}
    (hp : produce fmt lastSeq specs start parent c = some s)
    (hstart : start = none ∨ start = some next)
    (hd : ∀ f ∈ c.data, f.firstRow = none)
    (hh : ∀ p, parent = some p → (∀ x ∈ p.manifests, Honest x) ∧
      (p.manifests.flatMap claims).Pairwise Apart ∧ ∀ x ∈ p.manifests.flatMap claims, x.2 ≤ next) :
    ∃ a, 0 ≤ a ∧ s.addedRows = start.map (fun _ => a) ∧
      (s.manifests.flatMap claims).Pairwise Apart ∧
      (∀ x ∈ s.manifests.flatMap claims, x.2 ≤ if start = none then next else next + a) ∧
      (start ≠ none → ∀ m ∈ s.manifests, m.kind = .data → m.firstRow ≠ none) := by
  obtain ⟨-, -, -, -, hm, -, -, ha⟩ := produce_some hp
  have hr := full_retained c.kind parent fun p h => (hh p h).1
  have hcl : ((retained c.kind parent).flatMap claims).Pairwise Apart ∧
      ∀ x ∈ (retained c.kind parent).flatMap claims, x.2 ≤ next := by
    rw [retained_claims]
    cases parent with
    | none => simp
    | some p =>
      simp only
      split_ifs
      · exact (hh p rfl).2
      · simp
  obtain ⟨hcl1, hcl2⟩ := hcl
  have hg := group_none hd
  have hrows : rowsOf ((groupBySpec c.data).flatMap Prod.snd) = rowsOf c.data :=
    rowsOf_perm (groupBySpec_perm _)
  have hpos := rowsOf_nonneg c.data
  rcases hstart with rfl | rfl
  · refine ⟨0, Int.le_refl _, by rw [ha]; rfl, ?_, ?_, by simp⟩
    · rw [hm]
      simp only [assignAll, List.flatMap_append, newDels_claims, newData_none_claims _ _ _ hg,
        List.append_nil]
      exact hcl1
    · rw [hm]
      simp only [assignAll, List.flatMap_append, newDels_claims, newData_none_claims _ _ _ hg,
        List.append_nil, if_true]
      exact hcl2
  · obtain ⟨i1, i2, L, i3, i4, i5⟩ := assign_claims next (retained c.kind parent) hr
    obtain ⟨j1, j2⟩ := newData_claims (lastSeq + 1) c.newId
      (assign next (retained c.kind parent)).2.1 (groupBySpec c.data) hg
    rw [hrows] at j2
    refine ⟨(assign next (retained c.kind parent)).2.2 + rowsOf c.data, by omega, by rw [ha]; rfl,
      ?_, ?_, ?_⟩
    · rw [hm]
      simp only [assignAll, List.flatMap_append, newDels_claims, List.append_nil]
      refine ((i3.append_right _).pairwise_iff fun h => apart_symm h).2 ?_
      rw [List.pairwise_append, List.pairwise_append]
      refine ⟨⟨hcl1, i4, ?_⟩, j1, ?_⟩
      · intro x hx y hy
        have := hcl2 x hx
        have := (i5 y hy).1
        left
        omega
      · intro x hx y hy
        have h2 := (j2 y hy).1
        left
        rcases List.mem_append.1 hx with hx | hx
        · have := hcl2 x hx
          omega
        · have := (i5 x hx).2
          omega
    · rw [hm]
      simp only [assignAll, List.flatMap_append, newDels_claims, List.append_nil, reduceCtorEq,
        if_false]
      intro x hx
      rcases List.mem_append.1 hx with hx | hx
      · rcases List.mem_append.1 (i3.mem_iff.1 hx) with hx | hx
        · have := hcl2 x hx
          omega
        · have := (i5 x hx).2
          omega
      · have := (j2 x hx).2
        simp only at this
        omega
    · intro _ x hx hk
      rw [hm] at hx
      rcases List.mem_append.1 hx with hx | hx
      · exact assign_some _ _ x hx hk
      · rcases List.mem_append.1 hx with hx | hx
        · exact newData_some _ _ _ _ x hx
        · obtain ⟨g, -, rfl⟩ := List.mem_map.1 hx
          simp [newManifest] at hk

/-- The counts and ids of a table stay in order. -/
theorem lineage_step {m m' : Meta} {c : Change} (h : commit m c = some m')
    (hd : ∀ f ∈ c.data, f.firstRow = none) (hl : LineageOk m) :
    LineageOk m' ∧ nextId m ≤ nextId m' := by
  obtain ⟨-, s, hp, -, rfl⟩ := commit_some h
  have hstart : startRow (prepared m c) = none ∨ startRow (prepared m c) = some (nextId m) := by
    rw [startRow_prepared]
    split_ifs <;> simp
  obtain ⟨a, h0, ha, hpw, hle, -⟩ := produce_claims hp hstart hd fun p hcp => hl p (current_mem hcp)
  have hfull := full_produce hp fun p hcp => (hl p (current_mem hcp)).1
  have hfr := (produce_some hp).2.2.2.2.2.2.1
  have hn := nextId_install (b := (currentSnapshot m).isSome) hfr a ha
  have hge : nextId m ≤ nextId (install (prepared m c) (currentSnapshot m).isSome s) := by
    rw [hn]
    split_ifs <;> omega
  refine ⟨?_, hge⟩
  intro t ht
  have hsn : (install (prepared m c) (currentSnapshot m).isSome s).snapshots =
      m.snapshots ++ [s] := by
    simp only [install, (advance_fields _ _).1, (prepared_fields m c).1]
  rw [hsn] at ht
  rcases List.mem_append.1 ht with ht | ht
  · obtain ⟨g1, g2, g3⟩ := hl t ht
    exact ⟨g1, g2, fun x hx => Int.le_trans (g3 x hx) hge⟩
  · simp only [List.mem_singleton] at ht
    subst ht
    refine ⟨fun x hx => (hfull x hx).honest, hpw, ?_⟩
    intro x hx
    have := hle x hx
    rw [hn]
    rw [startRow_prepared] at this
    split_ifs at this ⊢ <;> simp_all

/-- **C55**: a table that does not say its next row id starts after the ids its snapshots say they
gave.  If each snapshot's claims are apart and lie below the end of what some snapshot gave, the table
is in order. -/
theorem C55_inferred_start {m : Meta} (hn : m.nextRow = none)
    (hs : ∀ s ∈ m.snapshots, (∀ x ∈ s.manifests, Honest x) ∧
      (s.manifests.flatMap claims).Pairwise Apart ∧
      ∀ x ∈ s.manifests.flatMap claims, ∃ t ∈ m.snapshots, ∃ f a, t.firstRow = some f ∧
        t.addedRows = some a ∧ x.2 ≤ f + a) : LineageOk m := by
  intro s hsm
  obtain ⟨h1, h2, h3⟩ := hs s hsm
  refine ⟨h1, h2, fun x hx => ?_⟩
  obtain ⟨t, ht, f, a, hf, ha, hle⟩ := h3 x hx
  refine Int.le_trans hle ?_
  simp only [nextId, hn, Option.getD_none, inferredNext]
  have hmem : f + a ∈ m.snapshots.filterMap fun s =>
      match s.firstRow, s.addedRows with
      | some f, some a => some (f + a)
      | _, _ => none := List.mem_filterMap.2 ⟨t, ht, by rw [hf, ha]⟩
  cases hmax : (m.snapshots.filterMap fun s =>
      match s.firstRow, s.addedRows with
      | some f, some a => some (f + a)
      | _, _ => none).max? with
  | none =>
    rw [List.max?_eq_none_iff] at hmax
    rw [hmax] at hmem
    exact absurd hmem (by simp)
  | some b => exact (List.max?_eq_some_iff.1 hmax).2 _ hmem

/-- A table with two snapshots that gave the ids 0 to 9 and 10 to 14 starts at 15. -/
example :
    let snap (i f a : Int) : Snapshot :=
      { id := i, seq := i, parent := none, manifests := [],
        summary := { (exMeta.snapshots.head (by decide)).summary with op := .append },
        firstRow := some f, addedRows := some a }
    nextId { exMeta with nextRow := none, snapshots := [snap 1 0 10, snap 2 10 5] } = 15 := by decide

/-- **C55**: after a commit to a table of version 3 every row readers find has an id, and no two rows
share one. -/
theorem C55_ids_are_unique {m m' : Meta} {c : Change} (h : commit m c = some m')
    (hf : Fresh m c.newId) (hm : MainOk m) (hd : ∀ f ∈ c.data, f.firstRow = none)
    (hl : LineageOk m) (h3 : 3 ≤ m'.fmt) :
    ∃ ids : List (Int × Int), (dataNow m').map (fun f => idsOf f.1) = ids.map some ∧
      ids.Pairwise Apart ∧ ∀ i ∈ ids, i.2 ≤ nextId m' := by
  obtain ⟨hl', -⟩ := lineage_step h hd hl
  obtain ⟨s, hp, hc, hsn⟩ := commit_current h hf hm
  obtain ⟨-, s', hp', -, rfl⟩ := commit_some h
  have h3' : 3 ≤ max m.fmt c.needFmt := by
    simpa only [install, (advance_fields _ _).2.2.2.2.2, (prepared_fields m c).2.2.2.2.2] using h3
  have hst : startRow (prepared m c) = some (nextId m) := by
    rw [startRow_prepared, if_pos h3']
  obtain ⟨a, -, -, hpw, -, hsome⟩ := produce_claims hp (Or.inr hst) hd fun p hcp =>
    hl p (current_mem hcp)
  obtain ⟨ids, g1, g2, g3⟩ := readData_ids s.manifests hpw (hsome (by rw [hst]; simp))
  have hs := hl' s (by rw [hsn]; simp)
  refine ⟨ids, ?_, g2, ?_⟩
  · simp only [dataNow, hc, readData]
    exact g1
  · intro i hi
    obtain ⟨x, hx, hw⟩ := g3 i hi
    exact Int.le_trans hw.2 (hs.2.2 x hx)

/-- **C55**, over any history: the counts and ids stay in order, so the above applies to every commit of
the history. -/
theorem C55_histories (cs : List Change) (m : Meta)
    (hd : ∀ c ∈ cs, ∀ f ∈ c.data, f.firstRow = none) (hl : LineageOk m) :
    LineageOk (commits m cs) ∧ nextId m ≤ nextId (commits m cs) := by
  induction cs generalizing m with
  | nil => exact ⟨hl, Int.le_refl _⟩
  | cons c cs ih =>
    simp only [commits]
    have hcs : ∀ c ∈ cs, ∀ f ∈ c.data, f.firstRow = none := fun x hx => hd x (by simp [hx])
    cases hc : commit m c with
    | none => exact ih m hcs hl
    | some m1 =>
      obtain ⟨h1, h2⟩ := lineage_step hc (hd c (by simp)) hl
      obtain ⟨h3, h4⟩ := ih m1 hcs h1
      exact ⟨h3, Int.le_trans h2 h4⟩

/-! ### Old ids stay, new ids are new -/

theorem walk_keeps (spec seq : Int) (es : List Entry) (k : Option Int) (f : Found)
    (h : f ∈ walk spec seq none es) (hf : f.1.firstRow ≠ none) : f ∈ walk spec seq k es := by
  induction es generalizing k with
  | nil => simp [walk] at h
  | cons e es ih =>
    by_cases hd : e.status = .deleted
    · have : ∀ k, walk spec seq k (e :: es) = walk spec seq k es := fun k => by simp [walk, hd]
      rw [this] at h ⊢
      exact ih k h
    · have : ∀ k, walk spec seq k (e :: es) =
          ({ e.file with spec := spec, firstRow := e.file.firstRow.or k }, e.seq.getD seq) ::
            walk spec seq (k.map (· + (e.file.records : Int))) es := fun k => by
        cases hs : e.status <;> simp_all [walk]
      rw [this] at h ⊢
      rcases List.mem_cons.1 h with h | h
      · subst h
        cases hx : e.file.firstRow with
        | none => simp [hx] at hf
        | some a => simp
      · exact List.mem_cons_of_mem _ (ih _ h)

/-- A file with an id has it from itself or from the manifest. -/
theorem walk_origin (spec seq : Int) (es : List Entry) (k : Option Int) (f : Found)
    (h : f ∈ walk spec seq k es) :
    (f ∈ walk spec seq none es ∧ ∃ i, idsOf f.1 = some i ∧ i ∈ explicit es) ∨
    (k = none ∧ f.1.firstRow = none) ∨
    ∃ n i, k = some n ∧ idsOf f.1 = some i ∧ Within i (n, n + liveRows es) := by
  induction es generalizing k with
  | nil => simp [walk] at h
  | cons e es ih =>
    by_cases hd : e.status = .deleted
    · have e0 : ∀ k, walk spec seq k (e :: es) = walk spec seq k es := fun k => by simp [walk, hd]
      have e1 : explicit (e :: es) = explicit es := by simp [explicit, hd]
      have e2 : liveRows (e :: es) = liveRows es := by simp [liveRows, hd]
      rw [e0] at h ⊢
      rw [e1, e2]
      exact ih k h
    · have e0 : ∀ k, walk spec seq k (e :: es) =
          ({ e.file with spec := spec, firstRow := e.file.firstRow.or k }, e.seq.getD seq) ::
            walk spec seq (k.map (· + (e.file.records : Int))) es := fun k => by
        cases hs : e.status <;> simp_all [walk]
      have e2 : liveRows (e :: es) = e.file.records + liveRows es := by simp [liveRows, hd]
      have e1 : ∀ i, i ∈ explicit es → i ∈ explicit (e :: es) := fun i hi => by
        simp only [explicit] at hi ⊢
        rw [List.filter_cons_of_pos (by simpa using hd), List.filterMap_cons]
        split
        · exact hi
        · exact List.mem_cons_of_mem _ hi
      rw [e0] at h ⊢
      rcases List.mem_cons.1 h with h | h
      · subst h
        cases hx : e.file.firstRow with
        | some a =>
          left
          refine ⟨by simp, (a, a + e.file.records), by simp [idsOf], ?_⟩
          simp [explicit, hd, idsOf, hx]
        | none =>
          right
          cases k with
          | none => left; exact ⟨rfl, rfl⟩
          | some n =>
            right
            refine ⟨n, (n, n + e.file.records), rfl, by simp [idsOf], ?_⟩
            rw [e2]
            simp only [Within]
            push_cast
            omega
      · rcases ih _ h with ⟨g1, i, g2, g3⟩ | ⟨g1, g2⟩ | ⟨n, i, g1, g2, g3⟩
        · left
          exact ⟨List.mem_cons_of_mem _ g1, i, g2, e1 i g3⟩
        · right; left
          exact ⟨by simpa using g1, g2⟩
        · right; right
          cases k with
          | none => simp at g1
          | some k =>
            simp only [Option.map_some, Option.some.injEq] at g1
            refine ⟨k, i, rfl, g2, ?_⟩
            rw [e2]
            simp only [Within] at g3 ⊢
            push_cast
            omega

/-- The ids of the files a reader finds are among those claimed. -/
theorem ids_claimed (s : Snapshot) (f : Found) (hf : f ∈ readData s) (i : Int × Int)
    (hi : idsOf f.1 = some i) : ∃ x ∈ s.manifests.flatMap claims, Within i x := by
  simp only [readData, List.mem_flatMap, List.mem_filter, beq_iff_eq] at hf
  obtain ⟨x, ⟨hx, hk⟩, hw⟩ := hf
  have hcl := claims_data hk
  rcases walk_origin _ _ _ _ _ hw with ⟨-, j, g2, g3⟩ | ⟨-, g2⟩ | ⟨n, j, g1, g2, g3⟩
  · rw [hi] at g2
    obtain rfl := Option.some.inj g2
    exact ⟨i, List.mem_flatMap.2 ⟨x, hx, by rw [hcl]; simp [g3]⟩, Int.le_refl _, Int.le_refl _⟩
  · simp [idsOf, g2] at hi
  · rw [hi] at g2
    obtain rfl := Option.some.inj g2
    exact ⟨_, List.mem_flatMap.2 ⟨x, hx, by rw [hcl]; simp [reserved, g1]⟩, g3⟩

/-- What happens to a manifest that is retained. -/
theorem assign_keeps (n : Int) (ms : List Manifest) (m : Manifest) (h : m ∈ ms) :
    m ∈ (assign n ms).1 ∨
      (m.firstRow = none ∧ ∃ k, { m with firstRow := some k } ∈ (assign n ms).1) := by
  induction ms generalizing n with
  | nil => simp at h
  | cons x ms ih =>
    by_cases hc : x.kind = .data ∧ x.firstRow = none
    · simp only [assign, if_pos hc]
      rcases List.mem_cons.1 h with rfl | h
      · right
        exact ⟨hc.2, n, by simp⟩
      · rcases ih _ h with g | ⟨g1, k, g2⟩
        · exact Or.inl (List.mem_cons_of_mem _ g)
        · exact Or.inr ⟨g1, k, List.mem_cons_of_mem _ g2⟩
    · simp only [assign, if_neg hc]
      rcases List.mem_cons.1 h with rfl | h
      · left; simp
      · rcases ih _ h with g | ⟨g1, k, g2⟩
        · exact Or.inl (List.mem_cons_of_mem _ g)
        · exact Or.inr ⟨g1, k, List.mem_cons_of_mem _ g2⟩

/-- Where a manifest among those retained comes from. -/
theorem assign_origin (n : Int) (ms : List Manifest) (hfull : ∀ m ∈ ms, Full m) (x : Manifest)
    (h : x ∈ (assign n ms).1) :
    x ∈ ms ∨ ∃ m ∈ ms, m.firstRow = none ∧ ∃ k, n ≤ k ∧ x = { m with firstRow := some k } := by
  induction ms generalizing n with
  | nil => simp [assign] at h
  | cons m ms ih =>
    have hms : ∀ x ∈ ms, Full x := fun x hx => hfull x (by simp [hx])
    have hrows : m.addedRows.getD 0 + m.existingRows.getD 0 = (liveRows m.entries : Int) := by
      have hm := hfull m (by simp)
      rw [hm.2.2.1, hm.2.2.2, ← countRows_live]
      rfl
    by_cases hc : m.kind = .data ∧ m.firstRow = none
    · simp only [assign, if_pos hc, hrows] at h
      rcases List.mem_cons.1 h with rfl | h
      · right
        exact ⟨m, by simp, hc.2, n, Int.le_refl _, rfl⟩
      · rcases ih _ hms h with g | ⟨y, g1, g2, k, g3, g4⟩
        · exact Or.inl (List.mem_cons_of_mem _ g)
        · exact Or.inr ⟨y, List.mem_cons_of_mem _ g1, g2, k, by omega, g4⟩
    · simp only [assign, if_neg hc] at h
      rcases List.mem_cons.1 h with rfl | h
      · left; simp
      · rcases ih _ hms h with g | ⟨y, g1, g2, k, g3, g4⟩
        · exact Or.inl (List.mem_cons_of_mem _ g)
        · exact Or.inr ⟨y, List.mem_cons_of_mem _ g1, g2, k, by omega, g4⟩

theorem newData_origin (seq id n : Int) (gs : List (Int × List DFile)) (x : Manifest)
    (h : x ∈ newDataManifests seq id (some n) gs) :
    ∃ k g, n ≤ k ∧ g ∈ gs ∧ x = newManifest .data seq id (some k) g := by
  induction gs generalizing n with
  | nil => simp [newDataManifests] at h
  | cons g gs ih =>
    simp only [newDataManifests] at h
    rcases List.mem_cons.1 h with rfl | h
    · exact ⟨n, g, Int.le_refl _, by simp, rfl⟩
    · obtain ⟨k, y, h1, h2, h3⟩ := ih (n + rowsOf g.2) h
      have := rowsOf_nonneg g.2
      exact ⟨k, y, by omega, by simp [h2], h3⟩

/-- **C55**: a row id, once given, stays: a file with ids is found again, with the same ids, after any
commit but an overwrite. -/
theorem C55_ids_stay {m m' : Meta} {c : Change} (h : commit m c = some m')
    (hf : Fresh m c.newId) (hm : MainOk m) (hk : c.kind ≠ .fullOverwrite) (f : Found)
    (hin : f ∈ dataNow m) (hid : f.1.firstRow ≠ none) : f ∈ dataNow m' := by
  obtain ⟨s, hp, hc, -⟩ := commit_current h hf hm
  obtain ⟨-, -, -, -, hms, -⟩ := produce_some hp
  have hcar : carries c.kind = true := by
    revert hk; cases c.kind <;> simp [carries]
  cases hcs : currentSnapshot m with
  | none => simp [dataNow, hcs] at hin
  | some p =>
    simp only [dataNow, hcs, readData, List.mem_flatMap, List.mem_filter, beq_iff_eq] at hin
    obtain ⟨x, ⟨hx, hxk⟩, hw⟩ := hin
    have hr : populate x ∈ retained c.kind (currentSnapshot m) := by
      simp only [hcs, retained, hcar, if_true]
      exact List.mem_map_of_mem hx
    simp only [dataNow, hc, readData, List.mem_flatMap, List.mem_filter, beq_iff_eq]
    cases hst : startRow (prepared m c) with
    | none =>
      refine ⟨populate x, ⟨?_, hxk⟩, hw⟩
      rw [hms, hst]
      exact List.mem_append_left _ hr
    | some n =>
      rcases assign_keeps n _ _ hr with g | ⟨g1, k, g2⟩
      · refine ⟨populate x, ⟨?_, hxk⟩, hw⟩
        rw [hms, hst]
        exact List.mem_append_left _ g
      · refine ⟨{ populate x with firstRow := some k }, ⟨?_, hxk⟩,
          walk_keeps x.spec x.seq x.entries (some k) f ?_ hid⟩
        · rw [hms, hst]
          exact List.mem_append_left _ g2
        · have : x.firstRow = none := g1
          rw [← this]
          exact hw

/-- **C55**: row ids given by a commit were never used before: a file found afterwards was found
before with the same ids, or has ids above those of every file in any snapshot of the table. -/
theorem C55_new_ids_are_new {m m' : Meta} {c : Change} (h : commit m c = some m')
    (hf : Fresh m c.newId) (hm : MainOk m) (hd : ∀ f ∈ c.data, f.firstRow = none)
    (hl : LineageOk m) (h3 : 3 ≤ m'.fmt) (f : Found) (hin : f ∈ dataNow m') :
    f ∈ dataNow m ∨ ∃ i, idsOf f.1 = some i ∧
      ∀ t ∈ m.snapshots, ∀ g ∈ readData t, ∀ j, idsOf g.1 = some j → j.2 ≤ i.1 := by
  have huse : ∀ i : Int × Int, nextId m ≤ i.1 →
      ∀ t ∈ m.snapshots, ∀ g ∈ readData t, ∀ j, idsOf g.1 = some j → j.2 ≤ i.1 := by
    intro i hi t ht g hg j hj
    obtain ⟨x, hx, hw⟩ := ids_claimed t g hg j hj
    have h1 := (hl t ht).2.2 x hx
    have h2 := hw.2
    omega
  obtain ⟨s, hp, hc, -⟩ := commit_current h hf hm
  obtain ⟨-, -, -, -, hms, -⟩ := produce_some hp
  have h3' : 3 ≤ max m.fmt c.needFmt := by
    obtain ⟨-, s', -, -, rfl⟩ := commit_some h
    simpa only [install, (advance_fields _ _).2.2.2.2.2, (prepared_fields m c).2.2.2.2.2] using h3
  have hst : startRow (prepared m c) = some (nextId m) := by
    rw [startRow_prepared, if_pos h3']
  have hfull := full_retained c.kind (currentSnapshot m) fun p hcp => (hl p (current_mem hcp)).1
  have hret : ∀ y, y ∈ retained c.kind (currentSnapshot m) → y.kind = .data → ∀ f,
      f ∈ walk y.spec y.seq y.firstRow y.entries → f ∈ dataNow m := by
    intro y hy hyk f hfw
    cases hcs : currentSnapshot m with
    | none => simp [hcs, retained] at hy
    | some p =>
      simp only [hcs, retained] at hy
      split_ifs at hy
      · obtain ⟨z, hz, rfl⟩ := List.mem_map.1 hy
        simp only [dataNow, hcs, readData, List.mem_flatMap, List.mem_filter, beq_iff_eq]
        exact ⟨z, ⟨hz, hyk⟩, hfw⟩
      · simp at hy
  simp only [dataNow, hc, readData, List.mem_flatMap, List.mem_filter, beq_iff_eq] at hin
  obtain ⟨x, ⟨hx, hxk⟩, hw⟩ := hin
  rw [hms, hst] at hx
  rcases List.mem_append.1 hx with hx | hx
  · rcases assign_origin _ _ hfull x hx with g | ⟨y, g1, g2, k, g3, rfl⟩
    · exact Or.inl (hret x g hxk f hw)
    · rcases walk_origin _ _ _ _ _ hw with ⟨w1, -⟩ | ⟨w1, -⟩ | ⟨n, i, w1, w2, w3⟩
      · left
        refine hret y g1 hxk f ?_
        rw [g2]
        exact w1
      · simp at w1
      · right
        refine ⟨i, w2, huse i ?_⟩
        have : k = n := by simpa using w1
        have := w3.1
        simp only at this
        omega
  · rcases List.mem_append.1 hx with hx | hx
    · obtain ⟨i1, -⟩ := assign_claims (nextId m) (retained c.kind (currentSnapshot m)) hfull
      obtain ⟨-, i2, -⟩ := assign_claims (nextId m) (retained c.kind (currentSnapshot m)) hfull
      obtain ⟨k, g, g1, g2, rfl⟩ := newData_origin _ _ _ _ _ hx
      rcases walk_origin _ _ _ _ _ hw with ⟨-, j, -, w2⟩ | ⟨w1, -⟩ | ⟨n, i, w1, w2, w3⟩
      · simp only [newManifest, explicit_added g.2 (group_none hd g g2), List.not_mem_nil] at w2
      · simp [newManifest] at w1
      · right
        refine ⟨i, w2, huse i ?_⟩
        have : k = n := by simpa [newManifest] using w1
        have := w3.1
        simp only at this
        omega
    · obtain ⟨g, -, rfl⟩ := List.mem_map.1 hx
      simp [newManifest] at hxk

/-- A change that raises the table to version 3. -/
def exUpgrade : Change := { exChange with dels := [], needFmt := 3 }

/-- Ids after the upgrade: the two files of the old manifest, then the new ones. -/
example : ((commit exMeta exUpgrade).map fun m => (dataNow m).map fun f => (f.1.path, idsOf f.1)) =
    some [(1, some (0, 10)), (3, some (10, 15)), (11, some (15, 19)), (10, some (19, 22)),
      (12, some (22, 23))] := by decide

example : (commit exMeta exUpgrade).map (fun m => (m.fmt, nextId m)) = some (3, 23) := by decide

/-- The table of the example is in order. -/
example : LineageOk exMeta := by
  intro s hs
  simp only [exMeta, List.mem_singleton] at hs
  subst hs
  refine ⟨?_, by simp [claims, idsOf, exFile], by simp [claims, idsOf, exFile]⟩
  intro x hx
  simp only [List.mem_singleton] at hx
  subst hx
  simp [Honest]

/-- **C55**: the ids are those the Iceberg format prescribes, for manifests in which no live file has
an id of its own, or every one has. -/
theorem C55_format_ids_without_mixing (spec seq : Int) (es : List Entry) (n : Option Int)
    (h : (∀ e ∈ es, e.status ≠ .deleted → e.file.firstRow = none) ∨
      ∀ e ∈ es, e.status ≠ .deleted → e.file.firstRow ≠ none) :
    (walk spec seq n es).map (fun f => f.1.firstRow) = formatIds n es := by
  have one : ∀ (es : List Entry) (n : Option Int),
      (∀ e ∈ es, e.status ≠ .deleted → e.file.firstRow = none) →
      (walk spec seq n es).map (fun f => f.1.firstRow) = formatIds n es := by
    intro es
    induction es with
    | nil => intro n _; rfl
    | cons e es ih =>
      intro n h
      have h1 := h e (by simp)
      have h2 := fun n => ih n fun x hx => h x (by simp [hx])
      cases hs : e.status
      · have := h1 (by simp [hs])
        simp [walk, formatIds, hs, h2, this]
      · have := h1 (by simp [hs])
        simp [walk, formatIds, hs, h2, this]
      · simp [walk, formatIds, hs, h2]
  have two : ∀ (es : List Entry) (n k : Option Int),
      (∀ e ∈ es, e.status ≠ .deleted → e.file.firstRow ≠ none) →
      (walk spec seq n es).map (fun f => f.1.firstRow) = formatIds k es := by
    intro es
    induction es with
    | nil => intro n k _; rfl
    | cons e es ih =>
      intro n k h
      have h1 := h e (by simp)
      have h2 := fun n k => ih n k fun x hx => h x (by simp [hx])
      cases hs : e.status
      · obtain ⟨a, ha⟩ := Option.ne_none_iff_exists'.1 (h1 (by simp [hs]))
        simp [walk, formatIds, hs, h2 _ k, ha]
      · obtain ⟨a, ha⟩ := Option.ne_none_iff_exists'.1 (h1 (by simp [hs]))
        simp [walk, formatIds, hs, h2 _ k, ha]
      · simp [walk, formatIds, hs, h2 _ k]
  rcases h with h | h
  · exact one es n h
  · exact two es n n h

/-- A manifest with a file that has its own ids before one that has none. -/
def exMixed : List Entry :=
  [⟨.existing, some 1, ⟨1, .data, 10, 0, some 50⟩⟩, ⟨.added, none, ⟨2, .data, 3, 0, none⟩⟩]

/-- **C55** does not hold in full: behind a file with ids of its own, ids differ from those of the
format. -/
theorem C55_mixed_manifests_differ :
    (walk 0 1 (some 100) exMixed).map (fun f => f.1.firstRow) = [some 50, some 110] ∧
    formatIds (some 100) exMixed = [some 50, some 100] := ⟨by decide, by decide⟩

/-- The hypothesis of the partial statement holds for the example table. -/
example : ∀ s ∈ exMeta.snapshots, ∀ x ∈ s.manifests, ∀ e ∈ x.entries,
    e.status ≠ .deleted → e.file.firstRow = none := by decide

end Verif.Iceberg.Commit
