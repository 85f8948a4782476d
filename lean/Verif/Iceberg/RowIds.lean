import Verif.Iceberg.SnapshotRows

/-! Property C55: row ids of Iceberg tables of version 3. -/

namespace Verif.Iceberg.Commit

open Verif.Iceberg.Commit.Spec

/-- The ids `x` are among the ids `y`. -/
def Within (x y : Int × Int) : Prop := y.1 ≤ x.1 ∧ x.2 ≤ y.2

theorem apart_symm {x y : Int × Int} (h : Apart x y) : Apart y x := Or.symm h

theorem apart_mono {x y x' y' : Int × Int} (h : Apart x y) (hx : Within x' x) (hy : Within y' y) :
    Apart x' y' := by
  simp only [Apart, Within] at *
  omega

/-- The ids of live files with an id of their own. -/
def explicit (es : List Entry) : List (Int × Int) :=
  (es.filter fun e => e.status != .deleted).filterMap fun e => idsOf e.file

/-- The range reserved by a manifest. -/
def reserved (m : Manifest) : List (Int × Int) :=
  match m.firstRow with
  | none => []
  | some a => [(a, a + liveRows m.entries)]

theorem claims_data {m : Manifest} (h : m.kind = .data) :
    claims m = explicit m.entries ++ reserved m := by
  simp only [claims, h, explicit, reserved, countRows_live]
  cases m.firstRow <;> rfl

theorem claims_dels {m : Manifest} (h : m.kind = .deletes) : claims m = [] := by
  simp only [claims, h]

theorem claims_populate (m : Manifest) : claims (populate m) = claims m := rfl

/-- What a reader gets from a manifest with a first row id. -/
theorem walk_ids (spec seq : Int) (es : List Entry) (n : Int)
    (hx : (explicit es).Pairwise Apart)
    (hr : ∀ x ∈ explicit es, Apart x (n, n + liveRows es)) :
    ∃ ids : List (Int × Int),
      (walk spec seq (some n) es).map (fun f => idsOf f.1) = ids.map some ∧ ids.Pairwise Apart ∧
      ∀ i ∈ ids, i ∈ explicit es ∨ Within i (n, n + liveRows es) := by
  induction es generalizing n with
  | nil => exact ⟨[], rfl, List.Pairwise.nil, by simp⟩
  | cons e es ih =>
    by_cases hd : e.status = .deleted
    · have e1 : explicit (e :: es) = explicit es := by simp [explicit, hd]
      have e2 : liveRows (e :: es) = liveRows es := by simp [liveRows, hd]
      have e3 : walk spec seq (some n) (e :: es) = walk spec seq (some n) es := by
        simp [walk, hd]
      rw [e1] at hx hr ⊢
      rw [e2] at hr ⊢
      rw [e3]
      exact ih n hx hr
    · have e2 : liveRows (e :: es) = e.file.records + liveRows es := by simp [liveRows, hd]
      have e3 : walk spec seq (some n) (e :: es) =
          ({ e.file with spec := spec, firstRow := e.file.firstRow.or (some n) }, e.seq.getD seq) ::
            walk spec seq (some (n + e.file.records)) es := by
        cases hs : e.status <;> simp_all [walk]
      rw [e2] at hr ⊢
      rw [e3]
      cases hf : e.file.firstRow with
      | none =>
        have e1 : explicit (e :: es) = explicit es := by simp [explicit, hd, idsOf, hf]
        rw [e1] at hx hr ⊢
        obtain ⟨ids, h1, h2, h3⟩ := ih (n + e.file.records) hx fun x hxm =>
          apart_mono (hr x hxm) ⟨Int.le_refl _, Int.le_refl _⟩
            (by simp only [Within]; push_cast; omega)
        refine ⟨(n, n + e.file.records) :: ids, ?_, ?_, ?_⟩
        · simp only [List.map_cons, h1]
          simp [idsOf]
        · refine List.Pairwise.cons ?_ h2
          intro i hi
          rcases h3 i hi with h | h
          · refine apart_symm (apart_mono (hr i h) ⟨Int.le_refl _, Int.le_refl _⟩ ?_)
            simp only [Within]; push_cast; omega
          · left
            exact h.1
        · intro i hi
          rcases List.mem_cons.1 hi with rfl | hi
          · right
            simp only [Within]; push_cast; omega
          · rcases h3 i hi with h | h
            · exact Or.inl h
            · right
              simp only [Within] at h ⊢
              push_cast
              omega
      | some a =>
        have e1 : explicit (e :: es) = (a, a + e.file.records) :: explicit es := by
          simp [explicit, hd, idsOf, hf]
        rw [e1] at hx hr ⊢
        obtain ⟨hx1, hx2⟩ := List.pairwise_cons.1 hx
        obtain ⟨ids, h1, h2, h3⟩ := ih (n + e.file.records) hx2 fun x hxm =>
          apart_mono (hr x (List.mem_cons_of_mem _ hxm)) ⟨Int.le_refl _, Int.le_refl _⟩
            (by simp only [Within]; push_cast; omega)
        refine ⟨(a, a + e.file.records) :: ids, ?_, ?_, ?_⟩
        · simp only [List.map_cons, h1]
          simp [idsOf]
        · refine List.Pairwise.cons ?_ h2
          intro i hi
          rcases h3 i hi with h | h
          · exact hx1 i h
          · refine apart_mono (hr _ (List.mem_cons_self ..)) ⟨Int.le_refl _, Int.le_refl _⟩ ?_
            simp only [Within] at h ⊢
            push_cast
            omega
        · intro i hi
          rcases List.mem_cons.1 hi with rfl | hi
          · simp
          · rcases h3 i hi with h | h
            · exact Or.inl (List.mem_cons_of_mem _ h)
            · right
              simp only [Within] at h ⊢
              push_cast
              omega

/-- What a reader gets from all manifests, if every data manifest has a first row id. -/
theorem readData_ids (ms : List Manifest) (hc : (ms.flatMap claims).Pairwise Apart)
    (hs : ∀ m ∈ ms, m.kind = .data → m.firstRow ≠ none) :
    ∃ ids : List (Int × Int),
      ((ms.filter fun m => m.kind == .data).flatMap fun m =>
        walk m.spec m.seq m.firstRow m.entries).map (fun f => idsOf f.1) = ids.map some ∧
      ids.Pairwise Apart ∧ ∀ i ∈ ids, ∃ x ∈ ms.flatMap claims, Within i x := by
  induction ms with
  | nil => exact ⟨[], rfl, List.Pairwise.nil, by simp⟩
  | cons m ms ih =>
    rw [List.flatMap_cons, List.pairwise_append] at hc
    obtain ⟨c1, c2, c3⟩ := hc
    obtain ⟨ids, h1, h2, h3⟩ := ih c2 fun x hx => hs x (by simp [hx])
    cases hk : m.kind with
    | deletes =>
      refine ⟨ids, ?_, h2, ?_⟩
      · simpa [hk] using h1
      · intro i hi
        obtain ⟨x, hx, hw⟩ := h3 i hi
        exact ⟨x, by simp only [List.flatMap_cons, List.mem_append]; exact Or.inr hx, hw⟩
    | data =>
      obtain ⟨n, hn⟩ := Option.ne_none_iff_exists'.1 (hs m (by simp) hk)
      rw [claims_data hk] at c1
      rw [List.pairwise_append] at c1
      obtain ⟨d1, -, d3⟩ := c1
      obtain ⟨jds, g1, g2, g3⟩ := walk_ids m.spec m.seq m.entries n d1 fun x hx =>
        d3 x hx _ (by simp [reserved, hn])
      have hin : ∀ j ∈ jds, ∃ x ∈ claims m, Within j x := by
        intro j hj
        rw [claims_data hk]
        rcases g3 j hj with h | h
        · exact ⟨j, by simp [h], Int.le_refl _, Int.le_refl _⟩
        · exact ⟨_, by simp [reserved, hn], h⟩
      refine ⟨jds ++ ids, ?_, ?_, ?_⟩
      · have : ((m :: ms).filter fun m => m.kind == .data) =
            m :: ms.filter fun m => m.kind == .data := by simp [hk]
        rw [this, List.flatMap_cons, List.map_append, List.map_append, hn, g1, h1]
      · rw [List.pairwise_append]
        refine ⟨g2, h2, ?_⟩
        intro j hj i hi
        obtain ⟨x, hx, hw⟩ := hin j hj
        obtain ⟨y, hy, hv⟩ := h3 i hi
        exact apart_mono (c3 x hx y hy) hw hv
      · intro i hi
        rcases List.mem_append.1 hi with hi | hi
        · obtain ⟨x, hx, hw⟩ := hin i hi
          exact ⟨x, by simp only [List.flatMap_cons, List.mem_append]; exact Or.inl hx, hw⟩
        · obtain ⟨x, hx, hw⟩ := h3 i hi
          exact ⟨x, by simp only [List.flatMap_cons, List.mem_append]; exact Or.inr hx, hw⟩

/-- The ids given to retained manifests. -/
theorem assign_claims (n : Int) (ms : List Manifest) (h : ∀ m ∈ ms, Full m) :
    (assign n ms).2.1 = n + (assign n ms).2.2 ∧ 0 ≤ (assign n ms).2.2 ∧
    ∃ L : List (Int × Int), ((assign n ms).1.flatMap claims).Perm (ms.flatMap claims ++ L) ∧
      L.Pairwise Apart ∧ ∀ x ∈ L, Within x (n, (assign n ms).2.1) := by
  induction ms generalizing n with
  | nil => exact ⟨by simp [assign], by simp [assign], [], by simp [assign], List.Pairwise.nil, by simp⟩
  | cons m ms ih =>
    have hm := h m (by simp)
    have hms : ∀ x ∈ ms, Full x := fun x hx => h x (by simp [hx])
    by_cases hc : m.kind = .data ∧ m.firstRow = none
    · have hrows : m.addedRows.getD 0 + m.existingRows.getD 0 = (liveRows m.entries : Int) := by
        rw [hm.2.2.1, hm.2.2.2, ← countRows_live]
        rfl
      obtain ⟨i1, i2, L, i3, i4, i5⟩ := ih (n + liveRows m.entries) hms
      simp only [assign, if_pos hc, hrows]
      refine ⟨by omega, by omega, (n, n + liveRows m.entries) :: L, ?_, ?_, ?_⟩
      · have e1 : claims { m with firstRow := some n } =
            explicit m.entries ++ [(n, n + (liveRows m.entries : Int))] := by
          rw [claims_data (m := { m with firstRow := some n }) hc.1]
          rfl
        have e2 : claims m = explicit m.entries := by
          rw [claims_data hc.1]
          simp [reserved, hc.2]
        rw [List.flatMap_cons, List.flatMap_cons, e1, e2, List.append_assoc, List.append_assoc]
        refine List.Perm.append_left _ ?_
        have := (i3.cons (n, n + (liveRows m.entries : Int)))
        exact this.trans (List.perm_middle.symm)
      · refine List.Pairwise.cons ?_ i4
        intro x hx
        left
        exact (i5 x hx).1
      · intro x hx
        rcases List.mem_cons.1 hx with rfl | hx
        · simp only [Within]
          omega
        · have := i5 x hx
          simp only [Within] at this ⊢
          omega
    · obtain ⟨i1, i2, L, i3, i4, i5⟩ := ih n hms
      simp only [assign, if_neg hc]
      refine ⟨i1, i2, L, ?_, i4, i5⟩
      rw [List.flatMap_cons, List.flatMap_cons, List.append_assoc]
      exact List.Perm.append_left _ i3

theorem assign_some (n : Int) (ms : List Manifest) :
    ∀ m ∈ (assign n ms).1, m.kind = .data → m.firstRow ≠ none := by
  induction ms generalizing n with
  | nil => simp [assign]
  | cons m ms ih =>
    by_cases hc : m.kind = .data ∧ m.firstRow = none
    · simp only [assign, if_pos hc]
      intro x hx hk
      rcases List.mem_cons.1 hx with rfl | hx
      · simp
      · exact ih _ x hx hk
    · simp only [assign, if_neg hc]
      intro x hx hk
      rcases List.mem_cons.1 hx with rfl | hx
      · exact fun h => hc ⟨hk, h⟩
      · exact ih _ x hx hk

theorem explicit_added (fs : List DFile) (h : ∀ f ∈ fs, f.firstRow = none) :
    explicit (fs.map fun f => (⟨.added, none, f⟩ : Entry)) = [] := by
  induction fs with
  | nil => rfl
  | cons f fs ih =>
    have h1 := h f (by simp)
    have h2 := ih fun x hx => h x (by simp [hx])
    simp only [explicit] at h2 ⊢
    simp [idsOf, h1]
    intro x hx
    exact h x (by simp [hx])

theorem liveRows_added (fs : List DFile) :
    (liveRows (fs.map fun f => (⟨.added, none, f⟩ : Entry)) : Int) = rowsOf fs := by
  have h := counts_of_added fs
  rw [← countRows_live, h.2.2.1, h.2.2.2]
  omega

theorem newData_claims (seq id n : Int) (gs : List (Int × List DFile))
    (h : ∀ g ∈ gs, ∀ f ∈ g.2, f.firstRow = none) :
    ((newDataManifests seq id (some n) gs).flatMap claims).Pairwise Apart ∧
    ∀ x ∈ (newDataManifests seq id (some n) gs).flatMap claims,
      Within x (n, n + rowsOf (gs.flatMap Prod.snd)) := by
  induction gs generalizing n with
  | nil => exact ⟨by simp [newDataManifests], by simp [newDataManifests]⟩
  | cons g gs ih =>
    obtain ⟨i1, i2⟩ := ih (n + rowsOf g.2) fun x hx => h x (by simp [hx])
    have e1 : claims (newManifest .data seq id (some n) g) = [(n, n + rowsOf g.2)] := by
      rw [claims_data rfl]
      simp only [newManifest, reserved, explicit_added g.2 (h g (by simp)), liveRows_added,
        List.nil_append]
    have e2 : rowsOf ((g :: gs).flatMap Prod.snd) = rowsOf g.2 + rowsOf (gs.flatMap Prod.snd) := by
      simp [rowsOf]
    have e3 : ∀ fs : List DFile, 0 ≤ rowsOf fs := fun fs => by simp only [rowsOf]; omega
    have p1 := e3 g.2
    have p2 := e3 (gs.flatMap Prod.snd)
    rw [e2]
    simp only [newDataManifests, List.flatMap_cons, e1, Option.map_some]
    refine ⟨?_, ?_⟩
    · refine List.Pairwise.cons ?_ i1
      intro x hx
      left
      exact (i2 x hx).1
    · intro x hx
      rcases List.mem_cons.1 hx with rfl | hx
      · simp only [Within]; omega
      · have := i2 x hx
        simp only [Within] at this ⊢
        omega

theorem newData_some (seq id n : Int) (gs : List (Int × List DFile)) :
    ∀ m ∈ newDataManifests seq id (some n) gs, m.firstRow ≠ none := by
  induction gs generalizing n with
  | nil => simp [newDataManifests]
  | cons g gs ih =>
    intro x hx
    simp only [newDataManifests] at hx
    rcases List.mem_cons.1 hx with rfl | hx
    · simp [newManifest]
    · exact ih _ x hx

theorem newDels_claims (seq id : Int) (gs : List (Int × List DFile)) :
    (gs.map (newManifest .deletes seq id none)).flatMap claims = [] := by
  induction gs with
  | nil => rfl
  | cons g gs ih => simp [ih, claims, newManifest]

end Verif.Iceberg.Commit
