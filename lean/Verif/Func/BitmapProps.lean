import Verif.Func.Bitmap
/-! # Bitmap aggregates: theorems -/
namespace Verif.Func.Bitmap

open Accumulator

/-- Bit `i` of a byte string, bytes in order and the lowest bit of a byte first; bits beyond the end
are zero.  (What `bitmap_count` and the other bitmap functions of Spark read.) -/
def Spec.bit (b : List Byte) (i : Nat) : Bool := (b.getD (i / 8) 0).getLsbD (i % 8)

open Spec

theorem length_zipInto (f : Byte → Byte → Byte) (a b : List Byte) :
    (zipInto f a b).length = a.length := by
  fun_induction zipInto f a b <;> simp_all

theorem getElem?_zipInto (f : Byte → Byte → Byte) (a b : List Byte) (i : Nat) :
    (zipInto f a b)[i]? =
      match a[i]?, b[i]? with
      | some x, some y => some (f x y)
      | some x, none => some x
      | none, _ => none := by
  induction a generalizing b i with
  | nil => cases b <;> simp [zipInto]
  | cons x a ih =>
    cases b with
    | nil => simp [zipInto]; split <;> simp_all
    | cons y b =>
      cases i with
      | zero => simp [zipInto]
      | succ i => simp [zipInto, ih]

theorem bit_zipInto_or (a b : List Byte) (i : Nat) (h : i < 8 * a.length) :
    bit (zipInto (· ||| ·) a b) i = (bit a i || bit b i) := by
  have hi : i / 8 < a.length := by omega
  unfold bit
  simp only [List.getD_eq_getElem?_getD, getElem?_zipInto]
  rw [List.getElem?_eq_getElem hi]
  cases hb : b[i / 8]? <;> simp [BitVec.getLsbD_or]

theorem bit_zipInto_and (a b : List Byte) (i : Nat) (h : i < 8 * a.length) (hb : i < 8 * b.length) :
    bit (zipInto (· &&& ·) a b) i = (bit a i && bit b i) := by
  have hi : i / 8 < a.length := by omega
  have hj : i / 8 < b.length := by omega
  unfold bit
  simp only [List.getD_eq_getElem?_getD, getElem?_zipInto]
  rw [List.getElem?_eq_getElem hi, List.getElem?_eq_getElem hj]
  simp [BitVec.getLsbD_and]

theorem bit_out (b : List Byte) (i : Nat) (h : 8 * b.length ≤ i) : bit b i = false := by
  unfold bit
  rw [List.getD_eq_getElem?_getD, List.getElem?_eq_none (by omega)]
  simp

theorem length_andInput (a b : List Byte) : (andInput a b).length = a.length := by
  simp [andInput, length_zipInto]
  omega

theorem bit_andInput (a b : List Byte) (i : Nat) (h : i < 8 * a.length) :
    bit (andInput a b) i = (bit a i && bit b i) := by
  by_cases hb : i < 8 * b.length
  · rw [← bit_zipInto_and a b i h hb]
    unfold bit andInput
    have : i / 8 < min a.length b.length := by omega
    simp only [List.getD_eq_getElem?_getD]
    rw [List.getElem?_append_left (by simp [length_zipInto]; omega), List.getElem?_take_of_lt this]
  · rw [bit_out b i (by omega), Bool.and_false]
    unfold bit andInput
    simp only [List.getD_eq_getElem?_getD]
    rw [List.getElem?_append_right (by simp [length_zipInto]; omega)]
    rw [List.getElem?_replicate]
    split <;> simp

theorem bit_setBit (b : List Byte) (v : Int) (hb : b.length = numBytes) (i : Nat) :
    bit (setBit b v) i = (bit b i || decide (v % 32768 = i)) := by
  have hn : numBits = 32768 := by decide
  have hl : b.length = 4096 := hb
  have h1 : 0 ≤ v % 32768 := by omega
  have h2 : v % 32768 < 32768 := by omega
  unfold setBit bit
  simp only [hn, List.getD_eq_getElem?_getD, List.getElem?_modify]
  generalize hp : (v % 32768).toNat = p
  have hpv : v % 32768 = (p : Int) := by omega
  rw [hpv]
  by_cases he : p / 8 = i / 8
  · have hi : i / 8 < b.length := by omega
    simp only [he, if_true, List.getElem?_eq_getElem hi, Option.map_eq_map, Option.map_some,
      Option.getD_some, BitVec.getLsbD_or]
    congr 1
    simp only [BitVec.getLsbD_shiftLeft]
    rw [Bool.eq_iff_iff]
    simp [BitVec.getLsbD_one]
    omega
  · simp only [if_neg he]
    have : ¬ ((p : Int) = (i : Int)) := by omega
    simp [this]

theorem length_setBit (b : List Byte) (v : Int) : (setBit b v).length = b.length := by
  simp [setBit]

/-- Two bitmaps of the same length with the same bits are equal. -/
theorem ext_bits {a b : List Byte} (hl : a.length = b.length)
    (h : ∀ i, i < 8 * a.length → bit a i = bit b i) : a = b := by
  apply List.ext_getElem hl
  intro j h1 h2
  apply BitVec.eq_of_getLsbD_eq
  intro k hk
  have := h (8 * j + k) (by omega)
  unfold bit at this
  have e1 : (8 * j + k) / 8 = j := by omega
  have e2 : (8 * j + k) % 8 = k := by omega
  simpa [e1, e2, List.getD_eq_getElem?_getD, h1, h2] using this

theorem mergeWith_ok {f : Byte → Byte → Byte} {b o s : List Byte}
    (h : mergeWith f b (some o) = .ok s) : o.length = b.length ∧ s = zipInto f b o := by
  simp only [mergeWith] at h
  split at h
  · cases h
  · rename_i hn
    cases h
    exact ⟨Classical.byContradiction hn, rfl⟩

/-! ## Construction -/

theorem construct_rows (b : List Byte) (rows : List (Option Int)) (hb : b.length = numBytes) :
    (rows.foldl setRow b).length = numBytes ∧
    ∀ i, bit (rows.foldl setRow b) i = true ↔
      bit b i = true ∨ ∃ v, some v ∈ rows ∧ v % 32768 = (i : Int) := by
  induction rows generalizing b with
  | nil => simp [hb]
  | cons r rows ih =>
    cases r with
    | none => simpa [setRow] using ih b hb
    | some v =>
      simp only [List.foldl_cons, setRow]
      obtain ⟨h1, h2⟩ := ih (setBit b v) (by rw [length_setBit, hb])
      refine ⟨h1, fun i => ?_⟩
      rw [h2, bit_setBit b v hb]
      grind

/-- C73: bitmap_construct_agg returns 4096 bytes in which exactly the bits are set whose position is
a value of the rows modulo 32768, whatever the partitions, batches and merges were. -/
theorem C73_bitmap_construct {s : List Byte} {l : List (Option Int)} (h : construct.Reaches s l) :
    (construct.eval s).length = 4096 ∧
    ∀ i, bit (construct.eval s) i = true ↔ ∃ v, some v ∈ l ∧ v % 32768 = (i : Int) := by
  refine Reaches.induct (P := fun s l => s.length = 4096 ∧
    ∀ i, bit s i = true ↔ ∃ v, some v ∈ l ∧ v % 32768 = (i : Int)) (mergeWith (· ||| ·))
    (fun _ _ => rfl) ?_ ?_ ?_ ?_ ?_ h
  · refine ⟨List.length_replicate, fun i => ?_⟩
    have : bit construct.init i = false := by
      unfold bit construct
      simp only [List.getD_eq_getElem?_getD, List.getElem?_replicate]
      split <;> simp
    simp [this]
  · intro s s' l b ⟨h1, h2⟩ hu
    cases hu
    obtain ⟨h3, h4⟩ := construct_rows s b h1
    refine ⟨h3, fun i => ?_⟩
    rw [h4, h2]
    simp only [List.mem_append]
    grind
  · rintro s s' l hP rfl
    exact hP
  · intro s l s' hP he
    cases he
    exact hP
  · intro s t l l' s' ⟨h1, h2⟩ ⟨h3, h4⟩ he
    obtain ⟨-, rfl⟩ := mergeWith_ok he
    refine ⟨by rw [length_zipInto, h1], fun i => ?_⟩
    by_cases hi : i < 8 * s.length
    · rw [bit_zipInto_or _ _ _ hi, Bool.or_eq_true, h2]
      have h4' := h4 i
      simp only [construct] at h4' ⊢
      rw [h4']
      simp only [List.mem_append]
      grind
    · rw [bit_out _ _ (by rw [length_zipInto]; omega)]
      constructor
      · simp
      · rintro ⟨v, -, hv⟩
        omega

/-- C72: bitmap_construct_agg does not depend on how the rows are spread over partitions and batches
nor on the order of rows and merges. -/
theorem C72_bitmap_construct {s s' : List Byte} {l l' : List (Option Int)}
    (h : construct.Reaches s l) (h' : construct.Reaches s' l') (hp : l.Perm l') :
    construct.eval s = construct.eval s' := by
  obtain ⟨h1, h2⟩ := C73_bitmap_construct h
  obtain ⟨h3, h4⟩ := C73_bitmap_construct h'
  refine ext_bits (by omega) fun i _ => ?_
  rw [Bool.eq_iff_iff, h2, h4]
  simp only [hp.mem_iff]

theorem merge_total {A : Accumulator Err (List Byte) α (List Byte) (List Byte)}
    (f : Byte → Byte → Byte) (hA : ∀ s b, A.merge s b = b.foldlM (mergeWith f) s)
    (hst : ∀ s, A.state s = s) {s : List Byte} (hs : s.length = 4096)
    (parts : List (Option (List Byte × List α))) (hp : ∀ t l', some (t, l') ∈ parts → t.length = 4096) :
    ∃ s', A.merge s (parts.map (Option.map fun p => A.state p.1)) = .ok s' := by
  rw [hA]
  refine fold_total (A := A) (P := fun s _ => s.length = 4096) (mergeWith f) ?_ ?_ parts hp s [] hs
  · intro s l h
    exact ⟨s, rfl, h⟩
  · intro s t l l' h1 h2
    rw [hst]
    refine ⟨zipInto f s t, ?_, by rw [length_zipInto, h1]⟩
    simp only [mergeWith]
    rw [if_neg (by omega)]

/-- C72: merging states of bitmap_construct_agg never fails. -/
theorem C72_bitmap_construct_merges {s : List Byte} {l : List (Option Int)}
    (h : construct.Reaches s l) (parts : List (Option (List Byte × List (Option Int))))
    (hp : ∀ t l', some (t, l') ∈ parts → construct.Reaches t l') :
    ∃ s', construct.merge s (parts.map (Option.map fun p => construct.state p.1)) = .ok s' :=
  merge_total (· ||| ·) (fun _ _ => rfl) (fun _ => rfl) (C73_bitmap_construct h).1 parts
    fun t l' ht => (C73_bitmap_construct (hp t l' ht)).1

/-! ## Disjunction -/

theorem orRows_spec (rows : List (Option (List Byte))) (b s : List Byte) (hb : b.length = 4096)
    (h : rows.foldlM orRow b = .ok s) :
    s.length = 4096 ∧ (∀ i, bit s i = true ↔ bit b i = true ∨ ∃ r, some r ∈ rows ∧ bit r i = true) ∧
      ∀ r, some r ∈ rows → r.length ≤ 4096 := by
  induction rows generalizing b with
  | nil => cases h; simp [hb]
  | cons r rows ih =>
    simp only [List.foldlM_cons] at h
    cases hr : orRow b r with
    | error e => simp [hr, bind, Except.bind] at h
    | ok b' =>
      simp only [hr, bind, Except.bind] at h
      cases r with
      | none =>
        cases hr
        obtain ⟨h1, h2, h3⟩ := ih b hb h
        exact ⟨h1, by simpa using h2, by simpa using h3⟩
      | some r =>
        simp only [orRow] at hr
        split at hr
        · cases hr
        · rename_i hlen
          have hlen' : r.length ≤ 4096 := by simpa [numBytes] using hlen
          cases hr
          obtain ⟨h1, h2, h3⟩ := ih _ (by rw [length_zipInto, hb]) h
          refine ⟨h1, fun i => ?_, ?_⟩
          · rw [h2]
            by_cases hi : i < 8 * b.length
            · rw [bit_zipInto_or _ _ _ hi]
              grind
            · rw [bit_out _ _ (by rw [length_zipInto]; omega)]
              have := bit_out b i (by omega)
              have := bit_out r i (by omega)
              grind
          · intro r' hr'
            simp only [List.mem_cons, Option.some.injEq] at hr'
            rcases hr' with rfl | hr'
            · exact hlen'
            · exact h3 r' hr'

/-- C73: bitmap_or_agg returns 4096 bytes in which exactly the bits are set that are set in some
row, shorter rows being padded with zeros. -/
theorem C73_bitmap_or {s : List Byte} {l : List (Option (List Byte))} (h : orAgg.Reaches s l) :
    (orAgg.eval s).length = 4096 ∧
    (∀ i, bit (orAgg.eval s) i = true ↔ ∃ r, some r ∈ l ∧ bit r i = true) ∧
    ∀ r, some r ∈ l → r.length ≤ 4096 := by
  refine Reaches.induct (P := fun s l => s.length = 4096 ∧
    (∀ i, bit s i = true ↔ ∃ r, some r ∈ l ∧ bit r i = true) ∧ ∀ r, some r ∈ l → r.length ≤ 4096)
    (mergeWith (· ||| ·)) (fun _ _ => rfl) ?_ ?_ ?_ ?_ ?_ h
  · refine ⟨List.length_replicate, fun i => ?_, by simp⟩
    have : bit orAgg.init i = false := by
      unfold bit orAgg
      simp only [List.getD_eq_getElem?_getD, List.getElem?_replicate]
      split <;> simp
    simp [this]
  · intro s s' l b ⟨h1, h2, h3⟩ hu
    obtain ⟨h4, h5, h6⟩ := orRows_spec b s s' h1 hu
    refine ⟨h4, fun i => ?_, fun r hr => ?_⟩
    · rw [h5, h2]
      simp only [List.mem_append]
      grind
    · rw [List.mem_append] at hr
      exact hr.elim (h3 r) (h6 r)
  · rintro s s' l hP rfl
    exact hP
  · intro s l s' hP he
    cases he
    exact hP
  · intro s t l l' s' ⟨h1, h2, h3⟩ ⟨h4, h5, h6⟩ he
    obtain ⟨-, rfl⟩ := mergeWith_ok he
    refine ⟨by rw [length_zipInto, h1], fun i => ?_, fun r hr => ?_⟩
    · by_cases hi : i < 8 * s.length
      · rw [bit_zipInto_or _ _ _ hi, Bool.or_eq_true, h2]
        have h5' := h5 i
        simp only [orAgg] at h5' ⊢
        rw [h5']
        simp only [List.mem_append]
        grind
      · rw [bit_out _ _ (by rw [length_zipInto]; omega)]
        constructor
        · simp
        · rintro ⟨r, hr, hv⟩
          rw [List.mem_append] at hr
          have : r.length ≤ 4096 := hr.elim (h3 r) (h6 r)
          rw [bit_out r i (by omega)] at hv
          exact hv
    · rw [List.mem_append] at hr
      exact hr.elim (h3 r) (h6 r)

/-- C72: bitmap_or_agg does not depend on how the rows are spread. -/
theorem C72_bitmap_or {s s' : List Byte} {l l' : List (Option (List Byte))}
    (h : orAgg.Reaches s l) (h' : orAgg.Reaches s' l') (hp : l.Perm l') :
    orAgg.eval s = orAgg.eval s' := by
  obtain ⟨h1, h2, -⟩ := C73_bitmap_or h
  obtain ⟨h3, h4, -⟩ := C73_bitmap_or h'
  refine ext_bits (by omega) fun i _ => ?_
  rw [Bool.eq_iff_iff, h2, h4]
  simp only [hp.mem_iff]

/-- C72: merging states of bitmap_or_agg never fails. -/
theorem C72_bitmap_or_merges {s : List Byte} {l : List (Option (List Byte))}
    (h : orAgg.Reaches s l) (parts : List (Option (List Byte × List (Option (List Byte)))))
    (hp : ∀ t l', some (t, l') ∈ parts → orAgg.Reaches t l') :
    ∃ s', orAgg.merge s (parts.map (Option.map fun p => orAgg.state p.1)) = .ok s' :=
  merge_total (· ||| ·) (fun _ _ => rfl) (fun _ => rfl) (C73_bitmap_or h).1 parts
    fun t l' ht => (C73_bitmap_or (hp t l' ht)).1

theorem rows_accepted {row : List Byte → Option (List Byte) → Except Err (List Byte)}
    (hnone : ∀ b, row b none = .ok b)
    (hlong : ∀ b o, o.length > numBytes → row b (some o) = .error (.tooLong o.length))
    (hshort : ∀ b o, o.length ≤ numBytes → ∃ b', row b (some o) = .ok b')
    (rows : List (Option (List Byte))) (b : List Byte) :
    (∃ s, rows.foldlM row b = .ok s) ↔ ∀ r, some r ∈ rows → r.length ≤ 4096 := by
  induction rows generalizing b with
  | nil => exact ⟨fun _ => by simp, fun _ => ⟨b, rfl⟩⟩
  | cons r rows ih =>
    simp only [List.foldlM_cons]
    cases r with
    | none =>
      simp only [hnone, bind, Except.bind]
      rw [ih b]
      simp
    | some o =>
      by_cases ho : o.length ≤ numBytes
      · obtain ⟨b', hb'⟩ := hshort b o ho
        simp only [hb', bind, Except.bind]
        rw [ih b']
        have : o.length ≤ 4096 := ho
        simp only [List.mem_cons, Option.some.injEq]
        grind
      · simp only [hlong b o (by omega), bind, Except.bind]
        constructor
        · rintro ⟨s, hs⟩
          cases hs
        · intro h
          exact absurd (h o (.head _)) (by simpa [numBytes] using ho)

/-- C73: bitmap_or_agg fails exactly when some row is longer than a bitmap. -/
theorem C73_bitmap_or_accepts (b : List Byte) (rows : List (Option (List Byte))) :
    (∃ s, orAgg.update b rows = .ok s) ↔ ∀ r, some r ∈ rows → r.length ≤ 4096 := by
  refine rows_accepted (fun _ => rfl) (fun b o h => ?_) (fun b o h => ?_) rows b
  · simp only [orRow]; rw [if_pos h]
  · simp only [orRow]; rw [if_neg (by omega)]; exact ⟨_, rfl⟩

/-! ## Conjunction -/

theorem andRows_spec (rows : List (Option (List Byte))) (b s : List Byte) (hb : b.length = 4096)
    (h : rows.foldlM andRow b = .ok s) :
    s.length = 4096 ∧ (∀ i, i < 32768 →
      (bit s i = true ↔ bit b i = true ∧ ∀ r, some r ∈ rows → bit r i = true)) := by
  induction rows generalizing b with
  | nil => cases h; simp [hb]
  | cons r rows ih =>
    simp only [List.foldlM_cons] at h
    cases hr : andRow b r with
    | error e => simp [hr, bind, Except.bind] at h
    | ok b' =>
      simp only [hr, bind, Except.bind] at h
      cases r with
      | none =>
        cases hr
        obtain ⟨h1, h2⟩ := ih b hb h
        exact ⟨h1, by simpa using h2⟩
      | some r =>
        simp only [andRow] at hr
        split at hr
        · cases hr
        · cases hr
          obtain ⟨h1, h2⟩ := ih _ (by rw [length_andInput, hb]) h
          refine ⟨h1, fun i hi => ?_⟩
          rw [h2 i hi, bit_andInput b r i (by omega)]
          grind

/-- C73: bitmap_and_agg returns 4096 bytes in which exactly the bits are set that are set in every
row that is not NULL, shorter rows being padded with zeros; without rows all bits are set. -/
theorem C73_bitmap_and {s : List Byte} {l : List (Option (List Byte))} (h : andAgg.Reaches s l) :
    (andAgg.eval s).length = 4096 ∧
    ∀ i, i < 32768 → (bit (andAgg.eval s) i = true ↔ ∀ r, some r ∈ l → bit r i = true) := by
  refine Reaches.induct (P := fun s l => s.length = 4096 ∧
    (∀ i, i < 32768 → (bit s i = true ↔ ∀ r, some r ∈ l → bit r i = true)))
    (mergeWith (· &&& ·)) (fun _ _ => rfl) ?_ ?_ ?_ ?_ ?_ h
  · refine ⟨List.length_replicate, fun i hi => ?_⟩
    have : bit andAgg.init i = true := by
      unfold bit andAgg
      have hi' : i / 8 < numBytes := by unfold numBytes; omega
      simp only [List.getD_eq_getElem?_getD, List.getElem?_replicate, if_pos hi', Option.getD_some]
      have h8 : i % 8 < 8 := by omega
      generalize i % 8 = k at h8
      match k, h8 with
      | 0, _ | 1, _ | 2, _ | 3, _ | 4, _ | 5, _ | 6, _ | 7, _ => decide
    simp [this]
  · intro s s' l b ⟨h1, h2⟩ hu
    obtain ⟨h4, h5⟩ := andRows_spec b s s' h1 hu
    refine ⟨h4, fun i hi => ?_⟩
    rw [h5 i hi, h2 i hi]
    simp only [List.mem_append]
    grind
  · rintro s s' l hP rfl
    exact hP
  · intro s l s' hP he
    cases he
    exact hP
  · intro s t l l' s' ⟨h1, h2⟩ ⟨h3, h4⟩ he
    obtain ⟨-, rfl⟩ := mergeWith_ok he
    refine ⟨by rw [length_zipInto, h1], fun i hi => ?_⟩
    simp only [andAgg]
    rw [bit_zipInto_and _ _ _ (by omega) (by omega), Bool.and_eq_true, h2 i hi, h4 i hi]
    simp only [List.mem_append]
    grind

/-- C72: bitmap_and_agg does not depend on how the rows are spread. -/
theorem C72_bitmap_and {s s' : List Byte} {l l' : List (Option (List Byte))}
    (h : andAgg.Reaches s l) (h' : andAgg.Reaches s' l') (hp : l.Perm l') :
    andAgg.eval s = andAgg.eval s' := by
  obtain ⟨h1, h2⟩ := C73_bitmap_and h
  obtain ⟨h3, h4⟩ := C73_bitmap_and h'
  refine ext_bits (by omega) fun i hi => ?_
  rw [Bool.eq_iff_iff, h2 i (by omega), h4 i (by omega)]
  simp only [hp.mem_iff]

/-- C72: merging states of bitmap_and_agg never fails. -/
theorem C72_bitmap_and_merges {s : List Byte} {l : List (Option (List Byte))}
    (h : andAgg.Reaches s l) (parts : List (Option (List Byte × List (Option (List Byte)))))
    (hp : ∀ t l', some (t, l') ∈ parts → andAgg.Reaches t l') :
    ∃ s', andAgg.merge s (parts.map (Option.map fun p => andAgg.state p.1)) = .ok s' :=
  merge_total (· &&& ·) (fun _ _ => rfl) (fun _ => rfl) (C73_bitmap_and h).1 parts
    fun t l' ht => (C73_bitmap_and (hp t l' ht)).1

/-- C73: bitmap_and_agg fails exactly when some row is longer than a bitmap. -/
theorem C73_bitmap_and_accepts (b : List Byte) (rows : List (Option (List Byte))) :
    (∃ s, andAgg.update b rows = .ok s) ↔ ∀ r, some r ∈ rows → r.length ≤ 4096 := by
  refine rows_accepted (fun _ => rfl) (fun b o h => ?_) (fun b o h => ?_) rows b
  · simp only [andRow]; rw [if_pos h]
  · simp only [andRow]; rw [if_neg (by omega)]; exact ⟨_, rfl⟩

/-! ## Examples -/

/-- Two partitions, one of them in two batches with a NULL, merged in one batch of states. -/
example : (construct.run [[[some 3], [none, some (-1)]], [[some 32771, some 9]]]).map
    (fun s => (s.take 2, s.getLast?)) = .ok ([8#8, 2#8], some 128#8) := by
  decide +kernel

example : ∃ s, orAgg.Reaches s [some [1#8], none, some [2#8, 4#8]] ∧ s.take 3 = [3#8, 4#8, 0#8] :=
  ⟨_, .rows .fresh (b := [some [1#8], none, some [2#8, 4#8]]) rfl, by decide +kernel⟩

example : ∃ s, andAgg.Reaches s [some [3#8, 255#8], none, some [6#8]] ∧ s.take 3 = [2#8, 0#8, 0#8] :=
  ⟨_, .rows .fresh (b := [some [3#8, 255#8], none, some [6#8]]) rfl, by decide +kernel⟩

end Verif.Func.Bitmap
