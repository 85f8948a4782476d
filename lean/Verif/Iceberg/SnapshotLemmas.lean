import Verif.Iceberg.Snapshot
import Mathlib.Data.List.Perm.Basic
import Mathlib.Tactic.SplitIfs

/-! Lemmas about the model of Iceberg commits. -/

namespace Verif.Iceberg.Commit

open Verif.Iceberg.Commit.Spec

/-! ### Grouping by partition spec -/

theorem insertGroup_perm (f : DFile) (g : List (Int × List DFile)) :
    ((insertGroup f g).flatMap Prod.snd).Perm (g.flatMap Prod.snd ++ [f]) := by
  induction g with
  | nil => simp [insertGroup]
  | cons kf gs ih =>
    obtain ⟨k, fs⟩ := kf
    simp only [insertGroup]
    split_ifs
    · simp only [List.flatMap_cons, List.singleton_append]
      exact (List.perm_append_comm (l₁ := [f])).trans (by simp)
    · simp only [List.flatMap_cons, List.append_assoc]
      exact List.Perm.append_left _ List.perm_append_comm
    · simp only [List.flatMap_cons, List.append_assoc]
      exact List.Perm.append_left _ ih

theorem foldl_insertGroup_perm (files : List DFile) (g : List (Int × List DFile)) :
    ((files.foldl (fun g f => insertGroup f g) g).flatMap Prod.snd).Perm
      (g.flatMap Prod.snd ++ files) := by
  induction files generalizing g with
  | nil => simp
  | cons f fs ih =>
    simp only [List.foldl_cons]
    refine (ih _).trans ?_
    have := (insertGroup_perm f g).append_right fs
    simpa using this

theorem groupBySpec_perm (files : List DFile) :
    ((groupBySpec files).flatMap Prod.snd).Perm files := by
  have := foldl_insertGroup_perm files []
  simpa [groupBySpec] using this

theorem insertGroup_spec (f : DFile) (g : List (Int × List DFile))
    (h : ∀ kf ∈ g, ∀ x ∈ kf.2, x.spec = kf.1) :
    ∀ kf ∈ insertGroup f g, ∀ x ∈ kf.2, x.spec = kf.1 := by
  induction g with
  | nil => simp [insertGroup]
  | cons kf gs ih =>
    obtain ⟨k, fs⟩ := kf
    have h1 : ∀ x ∈ fs, x.spec = k := h (k, fs) (by simp)
    have h2 : ∀ kf ∈ gs, ∀ x ∈ kf.2, x.spec = kf.1 := fun y hy => h y (by simp [hy])
    simp only [insertGroup]
    split_ifs with ha hb
    · intro y hy x hx
      rcases List.mem_cons.1 hy with rfl | hy
      · simp at hx; rw [hx]
      · exact h y hy x hx
    · intro y hy x hx
      rcases List.mem_cons.1 hy with rfl | hy
      · rcases List.mem_append.1 hx with hx | hx
        · exact h1 x hx
        · simp at hx; rw [hx]; exact hb
      · exact h2 y hy x hx
    · intro y hy x hx
      rcases List.mem_cons.1 hy with rfl | hy
      · exact h1 x hx
      · exact ih h2 y hy x hx

theorem groupBySpec_spec (files : List DFile) :
    ∀ kf ∈ groupBySpec files, ∀ x ∈ kf.2, x.spec = kf.1 := by
  have : ∀ (l : List DFile) (g : List (Int × List DFile)),
      (∀ kf ∈ g, ∀ x ∈ kf.2, x.spec = kf.1) →
      ∀ kf ∈ l.foldl (fun g f => insertGroup f g) g, ∀ x ∈ kf.2, x.spec = kf.1 := by
    intro l
    induction l with
    | nil => intro g h; exact h
    | cons f fs ih => intro g h; exact ih _ (insertGroup_spec f g h)
  exact this files [] (by simp)

theorem manifestInputs_eq {specs : List Int} {files : List DFile} {g : List (Int × List DFile)}
    (h : manifestInputs specs files = some g) : g = groupBySpec files := by
  simp only [manifestInputs] at h
  split_ifs at h
  exact (Option.some.inj h).symm

/-! ### What readers see in a manifest -/

/-- The live entries of a manifest as files without row ids. -/
def liveAs (spec seq : Int) (es : List Entry) : List Found :=
  (es.filter fun e => e.status != .deleted).map fun e =>
    ({ e.file with spec := spec, firstRow := none }, e.seq.getD seq)

theorem walk_plain (spec seq : Int) (next : Option Int) (es : List Entry) :
    (walk spec seq next es).map plain = liveAs spec seq es := by
  induction es generalizing next with
  | nil => rfl
  | cons e es ih =>
    simp only [walk]
    cases hs : e.status <;> simp [liveAs, hs, ih, plain]

/-- The data files of a manifest. -/
def viewData (m : Manifest) : List Found :=
  if m.kind = .data then liveAs m.spec m.seq m.entries else []

/-- The delete files of a manifest, row ids left out. -/
def viewDels (m : Manifest) : List Found :=
  if m.kind = .deletes then liveAs m.spec m.seq m.entries else []

theorem readData_plain (s : Snapshot) : (readData s).map plain = s.manifests.flatMap viewData := by
  simp only [readData]
  induction s.manifests with
  | nil => rfl
  | cons m ms ih =>
    cases hk : m.kind <;> simp [hk, ih, viewData, walk_plain]

theorem readDeletes_plain (s : Snapshot) :
    (readDeletes s).map plain = s.manifests.flatMap viewDels := by
  simp only [readDeletes]
  induction s.manifests with
  | nil => rfl
  | cons m ms ih =>
    cases hk : m.kind <;> simp [hk, ih, viewDels, liveAs, plain, Function.comp_def]

theorem viewData_populate (m : Manifest) : viewData (populate m) = viewData m := rfl

theorem viewDels_populate (m : Manifest) : viewDels (populate m) = viewDels m := rfl

theorem viewData_assign (next : Int) (ms : List Manifest) :
    (assign next ms).1.flatMap viewData = ms.flatMap viewData := by
  induction ms generalizing next with
  | nil => rfl
  | cons m ms ih =>
    simp only [assign]
    split_ifs with h
    · simp only [List.flatMap_cons, ih]; rfl
    · simp only [List.flatMap_cons, ih]

theorem viewDels_assign (next : Int) (ms : List Manifest) :
    (assign next ms).1.flatMap viewDels = ms.flatMap viewDels := by
  induction ms generalizing next with
  | nil => rfl
  | cons m ms ih =>
    simp only [assign]
    split_ifs with h
    · simp only [List.flatMap_cons, ih]; rfl
    · simp only [List.flatMap_cons, ih]

theorem viewData_assignAll (start : Option Int) (ms : List Manifest) :
    (assignAll start ms).1.flatMap viewData = ms.flatMap viewData := by
  cases start with
  | none => rfl
  | some n => exact viewData_assign n ms

theorem viewDels_assignAll (start : Option Int) (ms : List Manifest) :
    (assignAll start ms).1.flatMap viewDels = ms.flatMap viewDels := by
  cases start with
  | none => rfl
  | some n => exact viewDels_assign n ms

theorem liveAs_added (spec seq : Int) (fs : List DFile) (h : ∀ x ∈ fs, x.spec = spec) :
    liveAs spec seq (fs.map fun f => ⟨.added, none, f⟩) = addedAs seq fs := by
  induction fs with
  | nil => rfl
  | cons f fs ih =>
    have h1 := h f (by simp)
    have h2 := ih fun x hx => h x (by simp [hx])
    simp only [liveAs, addedAs] at h2 ⊢
    subst h1
    simp [h2]

theorem viewData_new (seq id : Int) (next : Option Int) (gs : List (Int × List DFile))
    (h : ∀ kf ∈ gs, ∀ x ∈ kf.2, x.spec = kf.1) :
    (newDataManifests seq id next gs).flatMap viewData = addedAs seq (gs.flatMap Prod.snd) := by
  induction gs generalizing next with
  | nil => rfl
  | cons g gs ih =>
    have h1 := liveAs_added g.1 seq g.2 (h g (by simp))
    simp only [newDataManifests, List.flatMap_cons,
      ih _ fun x hx => h x (by simp [hx]), viewData, newManifest, if_true, h1]
    simp [addedAs]

theorem viewDels_newData (seq id : Int) (next : Option Int) (gs : List (Int × List DFile)) :
    (newDataManifests seq id next gs).flatMap viewDels = [] := by
  induction gs generalizing next with
  | nil => rfl
  | cons g gs ih => simp [newDataManifests, ih, viewDels, newManifest]

theorem viewDels_new (seq id : Int) (gs : List (Int × List DFile))
    (h : ∀ kf ∈ gs, ∀ x ∈ kf.2, x.spec = kf.1) :
    (gs.map (newManifest .deletes seq id none)).flatMap viewDels =
      addedAs seq (gs.flatMap Prod.snd) := by
  induction gs with
  | nil => rfl
  | cons g gs ih =>
    have h1 := liveAs_added g.1 seq g.2 (h g (by simp))
    simp only [List.map_cons, List.flatMap_cons,
      ih fun x hx => h x (by simp [hx]), viewDels, newManifest, if_true, h1]
    simp [addedAs]

theorem viewData_newDels (seq id : Int) (gs : List (Int × List DFile)) :
    (gs.map (newManifest .deletes seq id none)).flatMap viewData = [] := by
  induction gs with
  | nil => rfl
  | cons g gs ih => simp [ih, viewData, newManifest]

theorem addedAs_perm {seq : Int} {fs gs : List DFile} (h : fs.Perm gs) :
    (addedAs seq fs).Perm (addedAs seq gs) := h.map _

/-- What a reader of the parent finds, if the new snapshot keeps it. -/
def keptData (k : Kind) (parent : Option Snapshot) : List Found :=
  match parent with
  | none => []
  | some p => if carries k then readData p else []

/-- The delete files a reader of the parent finds, if the new snapshot keeps them. -/
def keptDels (k : Kind) (parent : Option Snapshot) : List Found :=
  match parent with
  | none => []
  | some p => if carries k then readDeletes p else []

theorem retained_data (k : Kind) (parent : Option Snapshot) :
    (retained k parent).flatMap viewData = (keptData k parent).map plain := by
  cases parent with
  | none => rfl
  | some p =>
    simp only [retained, keptData]
    split_ifs
    · rw [readData_plain, List.flatMap_map]; rfl
    · rfl

theorem retained_dels (k : Kind) (parent : Option Snapshot) :
    (retained k parent).flatMap viewDels = (keptDels k parent).map plain := by
  cases parent with
  | none => rfl
  | some p =>
    simp only [retained, keptDels]
    split_ifs
    · rw [readDeletes_plain, List.flatMap_map]; rfl
    · rfl

/-- The snapshot of a successful production, spelled out. -/
theorem produce_some {fmt : Nat} {lastSeq : Int} {specs : List Int} {start : Option Int}
    {parent : Option Snapshot} {c : Change} {s : Snapshot}
    (h : produce fmt lastSeq specs start parent c = some s) :
    deletesAllowed fmt c.dels = true ∧
    s.id = c.newId ∧ s.seq = lastSeq + 1 ∧ s.parent = parent.map Snapshot.id ∧
    s.manifests = (assignAll start (retained c.kind parent)).1 ++
      (newDataManifests (lastSeq + 1) c.newId (assignAll start (retained c.kind parent)).2.1
          (groupBySpec c.data) ++
        (groupBySpec c.dels).map (newManifest .deletes (lastSeq + 1) c.newId none)) ∧
    s.summary = summaryOf c.kind c.data c.dels
      (totalsBase c.kind parent) s.manifests ∧
    s.firstRow = start ∧
    s.addedRows = start.map fun _ => (assignAll start (retained c.kind parent)).2.2 + rowsOf c.data := by
  unfold produce at h
  split_ifs at h with hd
  · cases h1 : manifestInputs specs c.data with
    | none => simp [h1] at h
    | some gd =>
      cases h2 : manifestInputs specs c.dels with
      | none => simp [h1, h2] at h
      | some gx =>
        have e1 := manifestInputs_eq h1
        have e2 := manifestInputs_eq h2
        subst e1 e2
        simp only [h1, h2, Option.some.injEq] at h
        subst h
        exact ⟨hd, rfl, rfl, rfl, rfl, rfl, rfl, rfl⟩

theorem produce_data {fmt : Nat} {lastSeq : Int} {specs : List Int} {start : Option Int}
    {parent : Option Snapshot} {c : Change} {s : Snapshot}
    (h : produce fmt lastSeq specs start parent c = some s) :
    ((readData s).map plain).Perm
      ((keptData c.kind parent).map plain ++ addedAs (lastSeq + 1) c.data) := by
  obtain ⟨-, -, -, -, hm, -⟩ := produce_some h
  rw [readData_plain, hm]
  simp only [List.flatMap_append, viewData_assignAll, retained_data, viewData_newDels,
    viewData_new _ _ _ _ (groupBySpec_spec c.data), List.append_nil]
  exact List.Perm.append_left _ (addedAs_perm (groupBySpec_perm _))

theorem produce_dels {fmt : Nat} {lastSeq : Int} {specs : List Int} {start : Option Int}
    {parent : Option Snapshot} {c : Change} {s : Snapshot}
    (h : produce fmt lastSeq specs start parent c = some s) :
    ((readDeletes s).map plain).Perm
      ((keptDels c.kind parent).map plain ++ addedAs (lastSeq + 1) c.dels) := by
  obtain ⟨-, -, -, -, hm, -⟩ := produce_some h
  rw [readDeletes_plain, hm]
  simp only [List.flatMap_append, viewDels_assignAll, retained_dels, viewDels_newData,
    viewDels_new _ _ _ (groupBySpec_spec c.dels), List.nil_append]
  exact List.Perm.append_left _ (addedAs_perm (groupBySpec_perm _))

/-! ### The metadata update -/

theorem currentSnapshot_prepared (m : Meta) (c : Change) :
    currentSnapshot (prepared m c) = currentSnapshot m := by
  simp only [prepared]
  split_ifs <;> rfl

theorem prepared_fields (m : Meta) (c : Change) :
    (prepared m c).snapshots = m.snapshots ∧ (prepared m c).lastSeq = m.lastSeq ∧
    (prepared m c).specs = m.specs ∧ (prepared m c).current = m.current ∧
    (prepared m c).main = m.main ∧ (prepared m c).fmt = max m.fmt c.needFmt := by
  simp only [prepared]
  split_ifs <;> exact ⟨rfl, rfl, rfl, rfl, rfl, rfl⟩

theorem advance_fields (m : Meta) (a : Option Int) :
    (advance m a).snapshots = m.snapshots ∧ (advance m a).lastSeq = m.lastSeq ∧
    (advance m a).specs = m.specs ∧ (advance m a).current = m.current ∧
    (advance m a).main = m.main ∧ (advance m a).fmt = m.fmt := by
  simp only [advance]
  split <;> exact ⟨rfl, rfl, rfl, rfl, rfl, rfl⟩

/-- A successful commit, spelled out. -/
theorem commit_some {m m' : Meta} {c : Change} (h : commit m c = some m') :
    expectedOk m c.expected = true ∧
    ∃ s, produce (max m.fmt c.needFmt) m.lastSeq m.specs (startRow (prepared m c))
        (currentSnapshot m) c = some s ∧
      (∀ p, currentSnapshot m = some p → m.current.filter (fun id => 0 ≤ id) = some p.id) ∧
      m' = install (prepared m c) (currentSnapshot m).isSome s := by
  unfold commit at h
  split_ifs at h with he
  refine ⟨he, ?_⟩
  obtain ⟨f1, f2, f3, f4, f5, f6⟩ := prepared_fields m c
  simp only [currentSnapshot_prepared, f2, f3, f6] at h
  cases hp : produce (max m.fmt c.needFmt) m.lastSeq m.specs (startRow (prepared m c))
      (currentSnapshot m) c with
  | none => simp [hp] at h
  | some s =>
    simp only [hp] at h
    split_ifs at h with h1 h2 h3
    all_goals first
      | (cases h; done)
      | (refine ⟨s, rfl, ?_, (Option.some.inj h).symm⟩
         intro p hcp
         simp_all [expectedOk])

end Verif.Iceberg.Commit
