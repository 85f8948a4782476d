import Verif.Iceberg.DeletesLemmas

/-!
# C50 and C51: delete files
-/

namespace Verif.Iceberg.Deletes

open Verif.Iceberg.Deletes.Spec

/-- Partition tuples have equal bytes only if they are equal, whatever their lengths and types. -/
theorem C50_partition_keys_are_unique (vs ws : List (Option PVal)) (hv : TupleOk vs)
    (hw : TupleOk ws) : encode vs = encode ws ↔ vs = ws :=
  ⟨encode_inj hv hw, fun h => by rw [h]⟩

-- Two string columns 'a', 'bc' and 'ab', 'c'; a NULL and an empty string.
example : TupleOk [some (.str [97]), some (.str [98, 99])] ∧
    TupleOk [some (.str [97, 98]), some (.str [99])] ∧
    encode [some (.str [97]), some (.str [98, 99])] ≠ encode [some (.str [97, 98]), some (.str [99])] ∧
    encode [none, some (.str [])] = [0, 1, 8, 0, 0, 0, 0] := by
  refine ⟨?_, ?_, by decide, by decide⟩ <;>
    · intro v hv
      simp at hv
      rcases hv with rfl | rfl <;> simp [ValOk]

/-- **C50**, position deletes. Whatever delete files were inserted, in any order, the position
delete files found for a data file are those that the rule of the specification names. -/
theorem C50_position_deletes (rs : List Ref) (ix : DIndex) (path : String) (spec : Nat)
    (part : List (Option PVal)) (seq : Int) (r : Ref)
    (hi : insertAll {} rs = some ix) (hok : TupleOk part)
    (hall : ∀ r ∈ rs, TupleOk r.file.part) :
    r ∈ (forDataFile ix path spec part seq).1 ↔ r ∈ rs ∧ PosApplies path spec part seq r := by
  have H := insertAll_holds holds_empty hi
  rw [List.nil_append] at H
  simp only [forDataFile, List.mem_append, H.path, H.pos, List.mem_filter, decide_eq_true_iff,
    PosApplies, Prod.mk.injEq]
  constructor
  · rintro (⟨⟨h1, h2, h3⟩, h4⟩ | ⟨⟨h1, h2, h3, h5, h6⟩, h4⟩)
    · exact ⟨h1, h2, h4, Or.inl h3⟩
    · exact ⟨h1, h2, h4, Or.inr ⟨h3, h5, encode_inj (hall r h1) hok h6⟩⟩
  · rintro ⟨h1, h2, h3, h4 | ⟨h4, h5, h6⟩⟩
    · exact Or.inl ⟨⟨h1, h2, h4⟩, h3⟩
    · exact Or.inr ⟨⟨h1, h2, h4, h5, by rw [h6]⟩, h3⟩

/-- **C50**, equality deletes. -/
theorem C50_equality_deletes (rs : List Ref) (ix : DIndex) (path : String) (spec : Nat)
    (part : List (Option PVal)) (seq : Int) (r : Ref)
    (hi : insertAll {} rs = some ix) (hok : TupleOk part)
    (hall : ∀ r ∈ rs, TupleOk r.file.part) :
    r ∈ (forDataFile ix path spec part seq).2 ↔ r ∈ rs ∧ EqApplies spec part seq r := by
  have H := insertAll_holds holds_empty hi
  rw [List.nil_append] at H
  simp only [forDataFile, List.mem_append, H.glob, H.eq, List.mem_filter, decide_eq_true_iff,
    EqApplies, Prod.mk.injEq, Bool.and_eq_true]
  constructor
  · rintro (⟨⟨h1, h2, h3, h5, h6⟩, h4⟩ | ⟨⟨h1, h2, h3⟩, h4⟩)
    · exact ⟨h1, h2, h4, Or.inr ⟨h5, encode_inj (hall r h1) hok h6⟩⟩
    · exact ⟨h1, h2, h4, Or.inl h3⟩
  · rintro ⟨h1, h2, h3, h4⟩
    by_cases hu : r.unpartitioned = true
    · exact Or.inr ⟨⟨h1, h2, hu⟩, h3⟩
    · rcases h4 with h4 | ⟨h4, h5⟩
      · exact absurd h4 hu
      · exact Or.inl ⟨⟨h1, h2, by simpa using hu, h4, by rw [h5]⟩, h3⟩

/-- A position delete file of partition 7 with sequence number 3. -/
def exPos : Ref := ⟨⟨"d1", .position, [some (.int 7)], none, false, some 3, true⟩, 3, 1, false⟩

/-- An equality delete file of an unpartitioned spec with sequence number 3. -/
def exEq : Ref := ⟨⟨"d2", .equality, [], none, false, some 3, true⟩, 3, 0, true⟩

-- A data file of sequence number 3 in partition 7: the position deletes apply, the equality
-- deletes do not; both apply to one of sequence number 2.
example : ∃ ix, insertAll {} [exPos, exEq] = some ix ∧
    forDataFile ix "f" 1 [some (.int 7)] 3 = ([exPos], []) ∧
    forDataFile ix "f" 1 [some (.int 7)] 2 = ([exPos], [exEq]) ∧
    forDataFile ix "f" 1 [some (.int 8)] 2 = ([], [exEq]) ∧
    (∀ r ∈ [exPos, exEq], TupleOk r.file.part) := by
  refine ⟨_, rfl, by decide, by decide, by decide, ?_⟩
  intro r hr v hv
  simp [exPos, exEq] at hr
  rcases hr with rfl | rfl
  · simp at hv; subst hv; simp [ValOk]
  · simp at hv

/-- The index of a snapshot: every live entry of its delete manifests is in it, with its own
sequence number or that of the manifest, and with the spec of the manifest; nothing else. -/
theorem C50_index_of_snapshot (specs : Nat → Option (List Transform)) (ms : List DManifest)
    (ix : DIndex) (path : String) (spec : Nat) (part : List (Option PVal)) (seq : Int) (r : Ref)
    (hb : buildIndex specs ms = some ix) (hok : TupleOk part)
    (hall : ∀ m ∈ ms, ∀ e ∈ m.entries, TupleOk e.part) :
    (r ∈ (forDataFile ix path spec part seq).1 ∨ r ∈ (forDataFile ix path spec part seq).2) ↔
      (∃ m ∈ ms, ∃ e ∈ m.entries, e.live = true ∧ r.file = e ∧ r.spec = m.spec ∧
        (e.seq = some r.seq ∨ (e.seq = none ∧ r.seq = m.seq)) ∧
        (r.unpartitioned = true ↔ ∃ ts, specs m.spec = some ts ∧ ∀ t ∈ ts, t = .void)) ∧
      (PosApplies path spec part seq r ∨ EqApplies spec part seq r) := by
  have hm : r ∈ ms.flatMap (refsOf specs) ↔
      ∃ m ∈ ms, ∃ e ∈ m.entries, e.live = true ∧ r.file = e ∧ r.spec = m.spec ∧
        (e.seq = some r.seq ∨ (e.seq = none ∧ r.seq = m.seq)) ∧
        (r.unpartitioned = true ↔ ∃ ts, specs m.spec = some ts ∧ ∀ t ∈ ts, t = .void) := by
    have hu : ∀ id, isUnpartitioned specs id = true ↔
        ∃ ts, specs id = some ts ∧ ∀ t ∈ ts, t = .void := by
      intro id
      unfold isUnpartitioned
      split
      · rename_i fs hfs
        simp [hfs]
      · rename_i hfs
        simp [hfs]
    simp only [List.mem_flatMap, refsOf, List.mem_map, List.mem_filter]
    constructor
    · rintro ⟨m, h1, e, ⟨h2, h3⟩, rfl⟩
      refine ⟨m, h1, e, h2, h3, rfl, rfl, ?_, hu _⟩
      cases e.seq <;> simp
    · rintro ⟨m, h1, e, h2, h3, h4, h5, h6, h7⟩
      refine ⟨m, h1, e, ⟨h2, h3⟩, ?_⟩
      have h8 : isUnpartitioned specs m.spec = r.unpartitioned := by
        have := (hu m.spec).trans h7.symm
        cases h : isUnpartitioned specs m.spec <;> cases h' : r.unpartitioned <;> simp_all
      have h9 : e.seq.getD m.seq = r.seq := by
        rcases h6 with h6 | ⟨h6, h6'⟩ <;> simp [*]
      obtain ⟨rf, rs, rsp, ru⟩ := r
      simp_all
  have hall' : ∀ r ∈ ms.flatMap (refsOf specs), TupleOk r.file.part := by
    intro r hr
    simp only [List.mem_flatMap, refsOf, List.mem_map, List.mem_filter] at hr
    obtain ⟨m, h1, e, ⟨h2, h3⟩, rfl⟩ := hr
    exact hall m h1 e h2
  rw [C50_position_deletes _ ix path spec part seq r hb hok hall',
    C50_equality_deletes _ ix path spec part seq r hb hok hall', hm]
  constructor
  · rintro (⟨h1, h2⟩ | ⟨h1, h2⟩)
    · exact ⟨h1, Or.inl h2⟩
    · exact ⟨h1, Or.inr h2⟩
  · rintro ⟨h1, h2 | h2⟩
    · exact Or.inl ⟨h1, h2⟩
    · exact Or.inr ⟨h1, h2⟩

-- A manifest with an entry that inherits its sequence number and one that was removed.
example : ((buildIndex (fun _ => some []) [⟨0, 5, [⟨"a", .equality, [], none, false, none, true⟩,
      ⟨"b", .equality, [], none, false, none, false⟩]⟩]).map
    fun ix => (forDataFile ix "f" 3 [some (.int 1)] 4).2.map fun r => (r.file.path, r.seq)) =
    some [("a", 5)] := by decide

/-- A table with deletion vectors is refused: they are never left out silently. All other delete
files are accepted. -/
theorem C50_deletion_vectors_are_refused (rs : List Ref) :
    (insertAll {} rs = none ↔ ∃ r ∈ rs, r.file.content = .data ∨
      (r.file.content = .position ∧ r.file.puffin = true)) := by
  suffices h : ∀ ix, insertAll ix rs = none ↔ ∃ r ∈ rs, r.file.content = .data ∨
      (r.file.content = .position ∧ r.file.puffin = true) from h {}
  induction rs with
  | nil => simp [insertAll]
  | cons r rs ih =>
    intro ix
    have h1 : insert ix r = none ↔ r.file.content = .data ∨
        (r.file.content = .position ∧ r.file.puffin = true) := by
      unfold insert
      split
      · rename_i h; simp [h]
      · rename_i h
        split
        · rename_i hc; simp [hc]
        · rename_i hc; split <;> simp [hc]
        · rename_i hc
          have hp : r.file.puffin = false := by simpa [hc] using h
          split <;> simp [hc, hp]
    simp only [insertAll, List.mem_cons, exists_eq_or_imp]
    split
    · rename_i h2
      simp [h1.1 h2]
    · rename_i ix' h2
      have h3 : ¬ (r.file.content = .data ∨
          (r.file.content = .position ∧ r.file.puffin = true)) := by
        rw [← h1, h2]; simp
      rw [ih ix']
      simp [h3]

/-! ## C51 -/

/-- **C51**. If the read succeeds, the rows it returns are exactly those not deleted, in the order
of the file, however the file is cut into batches. -/
theorem C51_keeps_the_rows_not_deleted {V : Type} [DecidableEq V] (sch : List Col) (bs : BSchema)
    (path : String) (pos : List (List PosRow)) (eqs : List (EqFile V))
    (batches out : List (List (DRow V))) (h : apply sch bs path pos eqs batches = some out) :
    out.flatten = remaining sch path pos eqs batches.flatten := by
  classical
  unfold apply at h
  split at h
  · simp at h
  · rename_i es hes
    have := applyBatches_spec (positions_sorted path pos)
      (fun i row => decide (¬ Deleted sch path pos eqs i row)) (by
        intro i row
        rw [decide_eq_true_iff, mem_positions, loadAll_spec hes row, Deleted, not_or])
      batches out 0 h
    rw [this]
    unfold remaining
    congr 1

/-- The batches sent on have rows. -/
theorem C51_no_empty_batches {V : Type} [DecidableEq V] (sch : List Col) (bs : BSchema)
    (path : String) (pos : List (List PosRow)) (eqs : List (EqFile V))
    (batches out : List (List (DRow V))) (h : apply sch bs path pos eqs batches = some out) :
    ∀ b ∈ out, b ≠ [] := by
  unfold apply at h
  split at h
  · simp at h
  · rename_i es _
    suffices hh : ∀ (batches out : List (List (DRow V))) (off : Nat),
        applyBatches bs (positions path pos) es off batches = some out → ∀ b ∈ out, b ≠ [] from
      hh batches out 0 h
    intro batches
    induction batches with
    | nil => intro out off h; simp [applyBatches] at h; subst h; simp
    | cons b rest ih =>
      intro out off h
      simp only [applyBatches] at h
      split at h
      · simp at h
      · split at h
        · simp at h
        · rename_i m _ out' ho
          simp only [Option.some.injEq] at h
          subst h
          split
          · exact ih out' _ ho
          · rename_i hne
            intro x hx
            rcases List.mem_cons.1 hx with rfl | hx
            · exact hne
            · exact ih out' _ ho x hx

/-- A table of two columns. -/
def exCols : List Col := [⟨1, "id", 0⟩, ⟨2, "name", 1⟩]

/-- A row of it; NULL is `none`. -/
def exDRow (i n : Option Nat) : DRow (Option Nat) := fun c => if c = "id" then i else n

/-- An equality delete file on `(name, id)` that has its columns in another order, and a column
of its own. It deletes `name = NULL, id = 4`. -/
def exEqFile : EqFile (Option Nat) :=
  { ids := [2, 1], cols := [(some 1, 0), (none, 5), (some 2, 1)], rows := [[some 4, some 9, none]] }

-- Five rows in batches of two and three; the positions 1 and 2 and the row (4, NULL) are deleted.
example : ((apply exCols [("id", 0), ("name", 1)] "f"
      [[(some "f", some 2), (some "g", some 0)], [(some "f", some 1), (some "f", some 2), (none, none)]]
      [exEqFile]
      [[exDRow (some 0) none, exDRow (some 1) none],
       [exDRow (some 2) none, exDRow (some 4) (some 4), exDRow (some 4) none]]).map
    fun out => out.map fun b => b.map fun r => (r "id", r "name")) =
    some [[(some 0, none)], [(some 4, some 4)]] := by decide

/-- **C51**, when the read succeeds: the columns of every equality key are in the table schema and
in the batches with the same type, and each is exactly one column of the delete file, of that
type too. -/
theorem C51_succeeds {V : Type} [DecidableEq V] (sch : List Col) (bs : BSchema)
    (path : String) (pos : List (List PosRow)) (eqs : List (EqFile V))
    (batches : List (List (DRow V)))
    (hne : ∀ f ∈ eqs, f.ids ≠ [])
    (hrow : ∀ f ∈ eqs, ∀ d ∈ f.rows, d.length = f.cols.length)
    (hcol : ∀ f ∈ eqs, ∀ id ∈ f.ids, ∃ c i, sch.find? (fun c => c.id == id) = some c ∧
      (bs.find? (fun b => b.1 == c.name)).map (·.2) = some c.ty ∧
      f.cols[i]? = some (some id, c.ty) ∧
      ∀ (j : Nat) ty, f.cols[j]? = some (some id, ty) → j = i) :
    ∃ out, apply sch bs path pos eqs batches = some out := by
  -- the key fields
  have hres : ∀ f ∈ eqs, ∀ ids, (∀ id ∈ ids, id ∈ f.ids) → ∃ ks, resolve sch ids = some ks := by
    intro f hf ids
    induction ids with
    | nil => intro _; exact ⟨[], rfl⟩
    | cons i ids ih =>
      intro hsub
      obtain ⟨ks, hks⟩ := ih (fun id hid => hsub id (by simp [hid]))
      obtain ⟨c, _, hc, _⟩ := hcol f hf i (hsub i (by simp))
      exact ⟨⟨i, c.name, c.ty⟩ :: ks, by simp only [resolve, hc, hks]⟩
  have hload : ∀ f ∈ eqs, ∃ e, loadOne sch f = some e ∧ projectable bs e.keys = true := by
    intro f hf
    obtain ⟨ks, hks⟩ := hres f hf f.ids (fun _ h => h)
    obtain ⟨hids, hk⟩ := resolve_spec hks
    have hroot : ∀ k ∈ ks, ∃ i, rootOf f.cols k = some i ∧ f.cols[i]? = some (some k.id, k.ty) ∧
        (bs.find? (fun b => b.1 == k.name)).map (·.2) = some k.ty := by
      intro k hkm
      obtain ⟨c, hc, hn, ht⟩ := hk k hkm
      obtain ⟨c', i, h1, h2, h3, h4⟩ := hcol f hf k.id (by
        rw [← hids]; exact List.mem_map_of_mem hkm)
      rw [hc] at h1
      simp only [Option.some.injEq] at h1
      subst h1
      exact ⟨i, by simp [rootOf, rootsWith_unique h3 h4], by rw [ht]; exact h3, by rw [hn, ht]; exact h2⟩
    have hroots : ∀ ks' : List KeyField, (∀ k ∈ ks', k ∈ ks) →
        ∃ roots, allSome (ks'.map (rootOf f.cols)) = some roots := by
      intro ks'
      induction ks' with
      | nil => intro _; exact ⟨[], rfl⟩
      | cons k ks' ih =>
        intro hsub
        obtain ⟨roots, hr⟩ := ih (fun k hk => hsub k (by simp [hk]))
        obtain ⟨i, hi, _⟩ := hroot k (hsub k (by simp))
        exact ⟨i :: roots, by simp [allSome, hi, hr]⟩
    obtain ⟨roots, hr⟩ := hroots ks (fun _ h => h)
    -- each row has a key
    have hkey : ∀ d ∈ f.rows, ∃ key, keyOfRow f ks d = some key := by
      intro d hd
      have hr' := allSome_eq.1 hr
      have hz : ∀ x ∈ roots.zip ks, ∃ v, (match (projected roots).findIdx? (· == x.1) with
          | none => none
          | some j =>
            match ((projected roots).map fun i => (d[i]?, (f.cols[i]?).map (·.2)))[j]? with
            | some (some v, some ty) => if ty = x.2.ty then some v else none
            | _ => none) = some v := by
        rintro ⟨r, k⟩ hx
        have hkm : k ∈ ks := (List.of_mem_zip hx).2
        have hrm : r ∈ roots := (List.of_mem_zip hx).1
        obtain ⟨j, hj⟩ := List.mem_iff_getElem?.1 hx
        have hrk : rootOf f.cols k = some r := by
          rw [List.getElem?_zip_eq_some] at hj
          have := congrArg (fun l : List (Option Nat) => l[j]?) hr'
          simpa [List.getElem?_map, hj.1, hj.2] using this
        obtain ⟨i, hi, hc, _⟩ := hroot k hkm
        rw [hrk] at hi
        simp only [Option.some.injEq] at hi
        subst hi
        have hmem : r ∈ projected roots := by
          unfold projected; rw [mem_dedupNat, Verif.mem_insSort]; exact hrm
        cases hp : (projected roots).findIdx? (· == r) with
        | none =>
          rw [List.findIdx?_eq_none_iff] at hp
          have := hp r hmem
          simp at this
        | some p =>
          have hp' : (projected roots)[p]? = some r := by
            rw [List.findIdx?_eq_some_iff_getElem] at hp
            obtain ⟨h1, h2, _⟩ := hp
            rw [List.getElem?_eq_getElem h1]
            simpa using h2
          have hlt : r < d.length := by
            rw [hrow f hf d hd]
            rw [List.getElem?_eq_some_iff] at hc
            exact hc.1
          refine ⟨d[r], ?_⟩
          simp [List.getElem?_map, hp', hc, List.getElem?_eq_getElem hlt]
      have hall : ∀ l : List (Nat × KeyField), (∀ x ∈ l, x ∈ roots.zip ks) →
          ∃ key, allSome (l.map fun (r, k) => (match (projected roots).findIdx? (· == r) with
          | none => none
          | some j =>
            match ((projected roots).map fun i => (d[i]?, (f.cols[i]?).map (·.2)))[j]? with
            | some (some v, some ty) => if ty = k.ty then some v else none
            | _ => none)) = some key := by
        intro l
        induction l with
        | nil => intro _; exact ⟨[], rfl⟩
        | cons x l ih =>
          intro hsub
          obtain ⟨key, hk⟩ := ih (fun y hy => hsub y (by simp [hy]))
          obtain ⟨v, hv⟩ := hz x (hsub x (by simp))
          refine ⟨v :: key, ?_⟩
          rw [List.map_cons]
          simp only [hv, allSome, hk, Option.map_some]
      obtain ⟨key, hk⟩ := hall (roots.zip ks) (fun _ h => h)
      refine ⟨key, ?_⟩
      unfold keyOfRow
      rw [hr]
      exact hk
    have hkeys : ∀ rows : List (List V), (∀ d ∈ rows, d ∈ f.rows) →
        ∃ rs, allSome (rows.map (keyOfRow f ks)) = some rs := by
      intro rows
      induction rows with
      | nil => intro _; exact ⟨[], rfl⟩
      | cons d rows ih =>
        intro hsub
        obtain ⟨rs, hrs⟩ := ih (fun x hx => hsub x (by simp [hx]))
        obtain ⟨key, hk⟩ := hkey d (hsub d (by simp))
        exact ⟨key :: rs, by simp [allSome, hk, hrs]⟩
    obtain ⟨rs, hrs⟩ := hkeys f.rows (fun _ h => h)
    refine ⟨⟨ks, rs⟩, ?_, ?_⟩
    · unfold loadOne
      rw [if_neg (hne f hf), hks]
      simp only [hr, hrs, Option.map_some]
    · unfold projectable
      rw [List.all_eq_true]
      intro k hkm
      obtain ⟨_, _, _, h⟩ := hroot k hkm
      simp [h]
  have hes : ∀ fs : List (EqFile V), (∀ f ∈ fs, f ∈ eqs) →
      ∃ es, loadAll sch fs = some es ∧ ∀ e ∈ es, projectable bs e.keys = true := by
    intro fs
    induction fs with
    | nil => intro _; exact ⟨[], rfl, by simp⟩
    | cons f fs ih =>
      intro hsub
      obtain ⟨es, h1, h2⟩ := ih (fun x hx => hsub x (by simp [hx]))
      obtain ⟨e, h3, h4⟩ := hload f (hsub f (by simp))
      unfold loadAll at h1
      refine ⟨e :: es, by simp [loadAll, allSome, h3, h1], ?_⟩
      intro x hx
      rcases List.mem_cons.1 hx with rfl | hx
      · exact h4
      · exact h2 x hx
  obtain ⟨es, h1, h2⟩ := hes eqs (fun _ h => h)
  unfold apply
  rw [h1]
  simp only
  generalize positions path pos = ps
  have : ∀ (batches : List (List (DRow V))) (off : Nat),
      ∃ out, applyBatches bs ps es off batches = some out := by
    intro batches
    induction batches with
    | nil => intro off; exact ⟨[], rfl⟩
    | cons b rest ih =>
      intro off
      obtain ⟨out, ho⟩ := ih (off + b.length)
      have hm : (es.all fun e => projectable bs e.keys) = true := List.all_eq_true.2 h2
      simp only [applyBatches, mask, hm, if_true, ho]
      exact ⟨_, rfl⟩
  exact this batches 0

example : (∀ f ∈ [exEqFile], f.ids ≠ []) ∧
    (∀ f ∈ [exEqFile], ∀ d ∈ f.rows, d.length = f.cols.length) ∧
    ∀ f ∈ [exEqFile], ∀ id ∈ f.ids, ∃ c i, exCols.find? (fun c => c.id == id) = some c ∧
      (([("id", 0), ("name", 1)] : BSchema).find? (fun b => b.1 == c.name)).map (·.2) = some c.ty ∧
      f.cols[i]? = some (some id, c.ty) ∧
      ∀ (j : Nat) ty, f.cols[j]? = some (some id, ty) → j = i := by
  refine ⟨by decide, by decide, ?_⟩
  intro f hf id hid
  simp only [List.mem_singleton] at hf
  subst hf
  simp [exEqFile] at hid
  rcases hid with rfl | rfl
  · refine ⟨⟨2, "name", 1⟩, 2, by decide, by decide, by decide, ?_⟩
    intro j ty hj
    match j with
    | 0 => simp [exEqFile] at hj
    | 1 => simp [exEqFile] at hj
    | 2 => rfl
    | n + 3 => simp [exEqFile] at hj
  · refine ⟨⟨1, "id", 0⟩, 0, by decide, by decide, by decide, ?_⟩
    intro j ty hj
    match j with
    | 0 => rfl
    | 1 => simp [exEqFile] at hj
    | 2 => simp [exEqFile] at hj
    | n + 3 => simp [exEqFile] at hj

/-- A read that succeeds has checked every key column of every equality delete file: it is a column of
the table and of the batches, with the same type. A delete file without key columns is refused. -/
theorem C51_success_means_keys_were_checked {V : Type} [DecidableEq V] (sch : List Col) (bs : BSchema)
    (path : String) (pos : List (List PosRow)) (eqs : List (EqFile V))
    (batches : List (List (DRow V))) (out : List (List (DRow V))) (hb : batches ≠ [])
    (h : apply sch bs path pos eqs batches = some out) (f : EqFile V) (hf : f ∈ eqs) :
    f.ids ≠ [] ∧ ∀ id ∈ f.ids, ∃ c ∈ sch, c.id = id ∧
      (bs.find? fun b => b.1 == c.name).map (·.2) = some c.ty := by
  unfold apply at h
  cases hl : loadAll sch eqs with
  | none => simp [hl] at h
  | some es =>
    rw [hl] at h
    simp only at h
    unfold loadAll at hl
    rw [allSome_eq] at hl
    have hmem : loadOne sch f ∈ es.map some := hl ▸ List.mem_map_of_mem hf
    obtain ⟨e, he, hef⟩ := List.mem_map.1 hmem
    obtain ⟨b, rest, rfl⟩ := List.exists_cons_of_ne_nil hb
    have hproj : projectable bs e.keys = true := by
      simp only [applyBatches, mask] at h
      split_ifs at h with hall
      exact List.all_eq_true.1 hall e he
    unfold loadOne at hef
    by_cases hids : f.ids = []
    · simp [hids] at hef
    · rw [if_neg hids] at hef
      refine ⟨hids, ?_⟩
      cases hr : resolve sch f.ids with
      | none => simp [hr] at hef
      | some ks =>
        rw [hr] at hef
        simp only at hef
        have hks : e.keys = ks := by
          split at hef
          · simp at hef
          · rw [eq_comm, Option.map_eq_some_iff] at hef
            obtain ⟨rs, -, h2⟩ := hef
            rw [← h2]
        rw [hks] at hproj
        intro id hid
        have key : ∀ ids ks', resolve sch ids = some ks' → id ∈ ids →
            ∃ c ∈ sch, c.id = id ∧ ⟨id, c.name, c.ty⟩ ∈ ks' := by
          intro ids
          induction ids with
          | nil => simp
          | cons i ids ih =>
            intro ks' hk him
            simp only [resolve] at hk
            cases hc : sch.find? (fun c => c.id == i) with
            | none => simp [hc] at hk
            | some c =>
              cases hk2 : resolve sch ids with
              | none => simp [hc, hk2] at hk
              | some ks2 =>
                simp only [hc, hk2, Option.some.injEq] at hk
                subst hk
                rcases List.mem_cons.1 him with rfl | him
                · have := List.find?_some hc
                  exact ⟨c, List.mem_of_find?_eq_some hc, by simpa using this, by simp⟩
                · obtain ⟨c2, h1, h2, h3⟩ := ih ks2 hk2 him
                  exact ⟨c2, h1, h2, List.mem_cons_of_mem _ h3⟩
        obtain ⟨c, h1, h2, h3⟩ := key f.ids ks hr hid
        refine ⟨c, h1, h2, ?_⟩
        have := List.all_eq_true.1 hproj _ h3
        simpa using this

/-- The columns of the example delete file were checked. -/
example : ∃ out, apply exCols [("id", 0), ("name", 1)] "f" [] [exEqFile] [[]] = some out := ⟨_, rfl⟩

/-- After the column of an equality key was dropped from the table, no row of the data files the
delete file applies to can be read: the scan fails. -/
theorem C51_dropped_key_column_fails {V : Type} [DecidableEq V] (sch : List Col) (bs : BSchema)
    (path : String) (pos : List (List PosRow)) (eqs : List (EqFile V))
    (batches : List (List (DRow V))) (f : EqFile V) (id : Nat) (hf : f ∈ eqs) (hid : id ∈ f.ids)
    (hd : ∀ c ∈ sch, c.id ≠ id) : apply sch bs path pos eqs batches = none := by
  have hr : ∀ ids, id ∈ ids → resolve sch ids = none := by
    intro ids
    induction ids with
    | nil => simp
    | cons i ids ih =>
      intro h
      simp only [resolve]
      rcases List.mem_cons.1 h with rfl | h
      · have : sch.find? (fun c => c.id == id) = none := by
          rw [List.find?_eq_none]
          intro c hc
          simpa using hd c hc
        rw [this]
      · rw [ih h]
        cases sch.find? (fun c => c.id == i) <;> rfl
  have hl : loadOne sch f = none := by
    unfold loadOne
    rw [hr f.ids hid]
    split <;> rfl
  have ha : loadAll sch eqs = none := by
    cases h : loadAll sch eqs with
    | none => rfl
    | some es =>
      unfold loadAll at h
      rw [allSome_eq] at h
      have : loadOne sch f ∈ eqs.map (loadOne sch) := List.mem_map_of_mem hf
      rw [h, hl] at this
      simp at this
  unfold apply
  rw [ha]

example : ∀ c ∈ ([⟨1, "id", 0⟩] : List Col), c.id ≠ 2 := by decide

/-- After an `int` column of an equality key was promoted to `long`, the delete files written
before, which have `int`, cannot be applied either. -/
theorem C51_promoted_key_column_fails (rows : List (DRow (Option Nat))) :
    apply [⟨1, "id", 7⟩] [("id", 7)] "f" [] [⟨[1], [(some 1, 6)], [[some 4]]⟩] [rows] = none := by
  rfl

end Verif.Iceberg.Deletes
