import Verif.Func.CountMin
/-! # `count_min_sketch`: theorems -/
namespace Verif.Func.CountMin

open Accumulator

variable {murmur : List Byte → BitVec 32 → BitVec 32}

/-- A sketch as every caller builds it: positive dimensions of at most 31 bits, one multiplier per row
and a table that fits. -/
structure Spec.Valid (s : Sketch) : Prop where
  depth : 0 < s.depth ∧ s.depth < 2 ^ 31
  width : 0 < s.width ∧ s.width < 2 ^ 31
  hashA : s.hashA.length = s.depth
  table : s.table.length = s.depth * s.width

open Spec

/-! ## Bytes -/

theorem length_toBE (n x : Nat) : (toBE n x).length = n := by
  induction n with
  | zero => rfl
  | succ n ih => simp [toBE, ih]

theorem fold_toBE (n x acc : Nat) :
    (toBE n x).foldl (fun acc x => acc * 256 + x.toNat) acc = acc * 256 ^ n + x % 256 ^ n := by
  induction n generalizing acc with
  | zero => simp [toBE, Nat.mod_one]
  | succ n ih =>
    simp only [toBE, List.foldl_cons, ih, BitVec.toNat_ofNat]
    have h1 : x % 256 ^ (n + 1) = x % 256 ^ n + 256 ^ n * (x / 256 ^ n % 256) := by
      rw [Nat.pow_succ, Nat.mod_mul]
    rw [h1, Nat.pow_succ 256, show (2 : Nat) ^ 8 = 256 from rfl, Nat.add_mul, Nat.mul_comm (256 ^ n) 256,
      Nat.mul_assoc acc, Nat.mul_comm (256 ^ n)]
    omega

theorem fromBE_toBE (n x : Nat) : fromBE (toBE n x) = x % 256 ^ n := by
  simpa [fromBE] using fold_toBE n x 0

theorem fold_lt (b : List Byte) (acc : Nat) :
    b.foldl (fun acc x => acc * 256 + x.toNat) acc < (acc + 1) * 256 ^ b.length := by
  induction b generalizing acc with
  | nil => simp
  | cons x b ih =>
    have h1 := ih (acc * 256 + x.toNat)
    have h2 := x.isLt
    simp only [List.foldl_cons, List.length_cons, Nat.pow_succ]
    have h3 : (acc * 256 + x.toNat + 1) * 256 ^ b.length ≤ ((acc + 1) * 256) * 256 ^ b.length :=
      Nat.mul_le_mul_right _ (by omega)
    rw [Nat.mul_assoc, Nat.mul_comm 256] at h3
    omega

theorem fromBE_lt (b : List Byte) : fromBE b < 256 ^ b.length := by
  simpa [fromBE] using fold_lt b 0

theorem toBE_add (n y acc : Nat) : toBE n (acc * 256 ^ n + y) = toBE n y := by
  suffices h : ∀ m, m ≤ n → toBE m (acc * 256 ^ n + y) = toBE m y from h n (Nat.le_refl _)
  intro m
  induction m with
  | zero => intro _; rfl
  | succ m ih =>
    intro hm
    simp only [toBE, ih (by omega), List.cons.injEq, and_true]
    obtain ⟨k, rfl⟩ : ∃ k, n = m + 1 + k := ⟨n - (m + 1), by omega⟩
    have h1 : acc * 256 ^ (m + 1 + k) + y = y + 256 ^ m * (256 * (acc * 256 ^ k)) := by
      rw [Nat.pow_add, Nat.pow_succ]
      ac_rfl
    rw [h1, Nat.add_mul_div_left _ _ (Nat.pow_pos (by decide))]
    apply BitVec.eq_of_toNat_eq
    simp only [BitVec.toNat_ofNat]
    omega

theorem fold_split (b : List Byte) (acc : Nat) :
    b.foldl (fun acc x => acc * 256 + x.toNat) acc =
      acc * 256 ^ b.length + b.foldl (fun acc x => acc * 256 + x.toNat) 0 := by
  induction b generalizing acc with
  | nil => simp
  | cons x b ih =>
    simp only [List.foldl_cons, List.length_cons]
    rw [ih, ih (0 * 256 + x.toNat), Nat.pow_succ, Nat.zero_mul, Nat.zero_add, Nat.add_mul,
      Nat.mul_assoc, Nat.mul_comm 256, Nat.add_assoc]

theorem toBE_fromBE (b : List Byte) : toBE b.length (fromBE b) = b := by
  induction b with
  | nil => rfl
  | cons x b ih =>
    have h1 : fromBE (x :: b) = x.toNat * 256 ^ b.length + fromBE b := by
      simp only [fromBE, List.foldl_cons]
      rw [fold_split, Nat.zero_mul, Nat.zero_add]
    simp only [List.length_cons, toBE, h1, toBE_add, ih, List.cons.injEq, and_true]
    have h2 := fromBE_lt b
    rw [Nat.add_comm, Nat.add_mul_div_right _ _ (Nat.pow_pos (by decide)), Nat.div_eq_of_lt h2,
      Nat.zero_add]
    simp

theorem readBE_toBE (n x : Nat) (h : x < 256 ^ n) (b : List Byte) :
    readBE n (toBE n x ++ b) = .ok (x, b) := by
  have hl := length_toBE n x
  unfold readBE
  rw [if_neg (by simp [hl]), List.take_left' hl, List.drop_left' hl, fromBE_toBE, Nat.mod_eq_of_lt h]

theorem readBE_inv {n : Nat} {b b' : List Byte} {x : Nat} (h : readBE n b = .ok (x, b')) :
    b = toBE n x ++ b' ∧ x < 256 ^ n := by
  unfold readBE at h
  split at h
  · cases h
  · rename_i hl
    cases h
    have h1 : (b.take n).length = n := by simp; omega
    have h2 := toBE_fromBE (b.take n)
    have h3 := fromBE_lt (b.take n)
    rw [h1] at h2 h3
    exact ⟨by rw [h2, List.take_append_drop], h3⟩

theorem readMany_ok (vs : List (BitVec 64)) (b : List Byte) :
    readMany vs.length (vs.flatMap (fun v => toBE 8 v.toNat) ++ b) = .ok (vs, b) := by
  induction vs with
  | nil => rfl
  | cons v vs ih =>
    simp only [List.length_cons, List.flatMap_cons, List.append_assoc, readMany]
    rw [readBE_toBE 8 _ (by have := v.isLt; simpa using this)]
    simp only [ih, BitVec.ofNat_toNat, BitVec.setWidth_eq]

theorem readMany_inv {n : Nat} {b b' : List Byte} {vs : List (BitVec 64)}
    (h : readMany n b = .ok (vs, b')) :
    vs.length = n ∧ b = vs.flatMap (fun v => toBE 8 v.toNat) ++ b' := by
  induction n generalizing b vs with
  | zero => simp only [readMany, Except.ok.injEq, Prod.mk.injEq] at h; simp [← h.1, h.2]
  | succ n ih =>
    simp only [readMany] at h
    split at h
    · cases h
    · rename_i v b1 h1
      split at h
      · cases h
      · rename_i vs1 b2 h2
        cases h
        obtain ⟨h3, h4⟩ := ih h2
        obtain ⟨h5, h6⟩ := readBE_inv h1
        refine ⟨by simp [h3], ?_⟩
        rw [h5, h4]
        simp only [List.flatMap_cons, BitVec.toNat_ofNat, List.append_assoc]
        rw [Nat.mod_eq_of_lt (by simpa using h6)]

theorem toInt_small {n : Nat} (h : n < 2 ^ 31) : (BitVec.ofNat 32 n).toInt = n := by
  rw [BitVec.toInt_eq_toNat_cond, BitVec.toNat_ofNat, Nat.mod_eq_of_lt (by omega), if_pos (by omega)]

/-- C72: a sketch written to bytes is read back unchanged. -/
theorem C72_sketch_round_trip {s : Sketch} (h : Valid s) : deserialize (serialize s) = .ok s := by
  obtain ⟨⟨d1, d2⟩, ⟨w1, w2⟩, ha, ht⟩ := h
  obtain ⟨d, w, total, hashA, table⟩ := s
  simp only at d1 d2 w1 w2 ha ht
  unfold serialize deserialize
  simp only [List.append_assoc, BitVec.toNat_ofNat]
  rw [Nat.mod_eq_of_lt (by omega : d < 2 ^ 32), Nat.mod_eq_of_lt (by omega : w < 2 ^ 32)]
  rw [readBE_toBE 4 _ (by decide)]
  simp only [BitVec.ofNat_toNat, BitVec.setWidth_eq, ne_eq, not_true, if_false]
  rw [readBE_toBE 8 _ (by have := total.isLt; simpa using this)]
  simp only
  rw [readBE_toBE 4 _ (by omega)]
  simp only
  rw [readBE_toBE 4 _ (by omega)]
  simp only
  rw [toInt_small d2, toInt_small w2, if_neg (by omega)]
  rw [← ha, readMany_ok]
  simp only
  rw [show hashA.length * w = table.length by rw [ha, ht]]
  have := readMany_ok table []
  rw [List.append_nil] at this
  rw [this]
  simp

/-- C72: bytes that are read as a sketch are those which that sketch is written as, and the sketch has
positive dimensions: nothing else is accepted, in particular nothing truncated or extended. -/
theorem C72_sketch_read {b : List Byte} {s : Sketch} (h : deserialize b = .ok s) :
    Valid s ∧ serialize s = b := by
  unfold deserialize at h
  split at h
  · cases h
  · rename_i v b1 h1
    split at h
    · cases h
    · rename_i hv
      split at h
      · cases h
      · rename_i total b2 h2
        split at h
        · cases h
        · rename_i d b3 h3
          split at h
          · cases h
          · rename_i w b4 h4
            split at h
            · cases h
            · rename_i hdw
              split at h
              · cases h
              · rename_i hashA b5 h5
                split at h
                · cases h
                · rename_i table b6 h6
                  split at h
                  · cases h
                  · rename_i hb
                    cases h
                    have hb' : b6 = [] := by simpa using hb
                    subst hb'
                    obtain ⟨e1, l1⟩ := readBE_inv h1
                    obtain ⟨e2, l2⟩ := readBE_inv h2
                    obtain ⟨e3, l3⟩ := readBE_inv h3
                    obtain ⟨e4, l4⟩ := readBE_inv h4
                    obtain ⟨l5, e5⟩ := readMany_inv h5
                    obtain ⟨l6, e6⟩ := readMany_inv h6
                    have hv' : BitVec.ofNat 32 v = version := by simpa using hv
                    have hvn : v = version.toNat := by
                      rw [← hv', BitVec.toNat_ofNat, Nat.mod_eq_of_lt (by omega)]
                    have hd : 0 < d ∧ d < 2 ^ 31 := by
                      have h7 : ¬ (BitVec.ofNat 32 d).toInt ≤ 0 := fun h => hdw (.inl h)
                      rw [BitVec.toInt_eq_toNat_cond, BitVec.toNat_ofNat,
                        Nat.mod_eq_of_lt (by omega)] at h7
                      split at h7 <;> omega
                    have hw : 0 < w ∧ w < 2 ^ 31 := by
                      have h7 : ¬ (BitVec.ofNat 32 w).toInt ≤ 0 := fun h => hdw (.inr h)
                      rw [BitVec.toInt_eq_toNat_cond, BitVec.toNat_ofNat,
                        Nat.mod_eq_of_lt (by omega)] at h7
                      split at h7 <;> omega
                    refine ⟨⟨hd, hw, l5, l6⟩, ?_⟩
                    unfold serialize
                    simp only [BitVec.toNat_ofNat, List.append_assoc]
                    rw [Nat.mod_eq_of_lt (by simpa using l2), Nat.mod_eq_of_lt (by omega),
                      Nat.mod_eq_of_lt (by omega), e1, e2, e3, e4, e5, e6, hvn]
                    simp

/-! ## Buckets -/

theorem bucket_lt {s : Sketch} (hw : 0 < s.width) (item : Item) (row : Nat) :
    bucket murmur s item row < s.width := by
  cases item with
  | long v =>
    simp only [bucket, hashLong]
    have := Int.tmod_lt_of_pos
      ((((s.hashA.getD row 0 * v + (s.hashA.getD row 0 * v).sshiftRight 32) &&& 0x7fffffff#64).setWidth
        32).toInt) (b := (s.width : Int)) (by omega)
    omega
  | bytes b =>
    simp only [bucket, hashBytes]
    rw [Int.natAbs_tmod]
    exact Nat.mod_lt _ (by omega)

/-- The value of an integer item's column: the multiplication and addition of 64-bit integers wrap
around, the low 31 bits are taken modulo the width. -/
theorem hashLong_eq (s : Sketch) (v : BitVec 64) (row : Nat) :
    hashLong s v row =
      (s.hashA.getD row 0 * v + (s.hashA.getD row 0 * v).sshiftRight 32).toNat % 2 ^ 31 % s.width := by
  simp only [hashLong]
  generalize s.hashA.getD row 0 * v + (s.hashA.getD row 0 * v).sshiftRight 32 = h
  have h1 : ((h &&& 0x7fffffff#64).setWidth 32).toInt = (h.toNat % 2 ^ 31 : Nat) := by
    rw [BitVec.toInt_eq_toNat_cond, BitVec.toNat_setWidth, BitVec.toNat_and]
    have h2 : h.toNat &&& (0x7fffffff#64).toNat = h.toNat % 2 ^ 31 :=
      Nat.and_two_pow_sub_one_eq_mod h.toNat 31
    rw [h2, Nat.mod_eq_of_lt (by omega : h.toNat % 2 ^ 31 < 2 ^ 32), if_pos (by omega)]
  rw [h1, ← Int.ofNat_tmod, Int.toNat_natCast]

/-! ## The table -/

/-- The table that counts the items `l`: the counter in a row and column is the number of items that
fall there (modulo 2^64). -/
def Spec.table (col : Item → Nat → Nat) (depth width : Nat) (l : List Item) : List (BitVec 64) :=
  (List.range (depth * width)).map fun i =>
    BitVec.ofNat 64 (l.countP fun x => col x (i / width) == i % width)

theorem fold_modify (w : Nat) (b : Nat → Nat) (hb : ∀ r, b r < w) (n : Nat) (t : List (BitVec 64))
    (i : Nat) :
    ((List.range n).foldl (fun t r => t.modify (r * w + b r) (· + 1)) t)[i]? =
      t[i]?.map (fun v => v + if i / w < n ∧ b (i / w) = i % w then 1 else 0) := by
  induction n with
  | zero => simp
  | succ n ih =>
    rw [List.range_succ, List.foldl_append, List.foldl_cons, List.foldl_nil, List.getElem?_modify, ih]
    have hw : 0 < w := by have := hb 0; omega
    have hi : n * w + b n = i ↔ i / w = n ∧ b (i / w) = i % w := by
      constructor
      · intro h
        have h1 : i / w = n := by
          rw [← h, Nat.mul_comm, Nat.mul_add_div hw, Nat.div_eq_of_lt (hb n), Nat.add_zero]
        rw [h1]
        refine ⟨rfl, ?_⟩
        rw [← h, Nat.mul_comm, Nat.mul_add_mod, Nat.mod_eq_of_lt (hb n)]
      · rintro ⟨h1, h2⟩
        rw [← h1, h2, Nat.mul_comm]
        exact Nat.div_add_mod i w
    cases t[i]? with
    | none => simp
    | some v =>
      show some (if n * w + b n = i then _ else _) = some _
      rw [Option.some.injEq]
      by_cases h : n * w + b n = i
      · rw [if_pos h]
        obtain ⟨h1, h2⟩ := hi.mp h
        simp only [h1, Nat.lt_irrefl, false_and, if_false, Nat.lt_succ_self, true_and]
        rw [h1] at h2
        rw [if_pos h2]
        simp
      · rw [if_neg h]
        have h3 : (i / w < n + 1 ∧ b (i / w) = i % w) ↔ (i / w < n ∧ b (i / w) = i % w) := by
          constructor
          · rintro ⟨h4, h5⟩
            refine ⟨?_, h5⟩
            rcases Nat.lt_or_ge (i / w) n with h6 | h6
            · exact h6
            · exact absurd (hi.mpr ⟨by omega, h5⟩) h
          · rintro ⟨h4, h5⟩
            exact ⟨by omega, h5⟩
        simp only [h3]

theorem length_fold_modify (w : Nat) (b : Nat → Nat) (l : List Nat) (t : List (BitVec 64)) :
    (l.foldl (fun t r => t.modify (r * w + b r) (· + 1)) t).length = t.length := by
  induction l generalizing t with
  | nil => rfl
  | cons r l ih => rw [List.foldl_cons, ih, List.length_modify]

/-- The column depends on nothing but the multipliers and the width. -/
def Spec.col (murmur : List Byte → BitVec 32 → BitVec 32) (depth width : Nat)
    (hashA : List (BitVec 64)) (x : Item) (row : Nat) : Nat :=
  bucket murmur (new depth width hashA) x row

/-- The sketch of the items `l`. -/
def Spec.sketch (murmur : List Byte → BitVec 32 → BitVec 32) (depth width : Nat)
    (hashA : List (BitVec 64)) (l : List Item) : Sketch where
  depth := depth
  width := width
  total := BitVec.ofNat 64 l.length
  hashA := hashA
  table := Spec.table (Spec.col murmur depth width hashA) depth width l

theorem bucket_eq {s : Sketch} {d w : Nat} {ha : List (BitVec 64)} (hw : s.width = w)
    (hh : s.hashA = ha) (x : Item) (r : Nat) : bucket murmur s x r = col murmur d w ha x r := by
  cases x <;> simp [col, bucket, hashLong, hashBytes, new, hw, hh]

theorem add_sketch {d w : Nat} (hw : 0 < w) (ha : List (BitVec 64)) (l : List Item) (x : Item) :
    add murmur (sketch murmur d w ha l) x = sketch murmur d w ha (l ++ [x]) := by
  have hb : ∀ r, bucket murmur (sketch murmur d w ha l) x r = col murmur d w ha x r :=
    fun r => bucket_eq rfl rfl x r
  have hlt : ∀ r, col murmur d w ha x r < w := fun r => bucket_lt (s := new d w ha) hw x r
  unfold add
  simp only [hb]
  simp only [sketch, List.length_append, List.length_singleton, Sketch.mk.injEq, true_and]
  refine ⟨?_, ?_⟩
  · rw [BitVec.ofNat_add]; rfl
  · apply List.ext_getElem?
    intro i
    rw [fold_modify w _ hlt]
    simp only [Spec.table, List.getElem?_map]
    by_cases hi : i < d * w
    · rw [List.getElem?_range hi]
      have : i / w < d := (Nat.div_lt_iff_lt_mul hw).mpr hi
      simp only [Option.map_some, this, true_and, Option.some.injEq, List.countP_append,
        List.countP_singleton, beq_iff_eq, BitVec.ofNat_add]
      split <;> rfl
    · rw [List.getElem?_eq_none (by simpa using hi)]
      rfl

theorem zipAdd_eq (a b : List (BitVec 64)) (h : a.length = b.length) :
    zipAdd a b = List.zipWith (· + ·) a b := by
  induction a generalizing b with
  | nil => cases b <;> rfl
  | cons x a ih =>
    cases b with
    | nil => cases h
    | cons y b => simp only [zipAdd, List.zipWith_cons_cons]; rw [ih b (by simpa using h)]

theorem merge_sketch {d w : Nat} (ha : List (BitVec 64)) (l l' : List Item) :
    merge (sketch murmur d w ha l) (sketch murmur d w ha l') = .ok (sketch murmur d w ha (l ++ l')) := by
  unfold merge
  simp only [sketch, ne_eq, not_true, if_false, Except.ok.injEq, Sketch.mk.injEq, true_and,
    List.length_append, BitVec.ofNat_add]
  rw [zipAdd_eq _ _ (by simp [Spec.table])]
  simp only [Spec.table]
  rw [List.zipWith_map, List.zipWith_self]
  simp [List.countP_append, BitVec.ofNat_add]

theorem valid_sketch {d w : Nat} (hd : 0 < d ∧ d < 2 ^ 31) (hw : 0 < w ∧ w < 2 ^ 31)
    {ha : List (BitVec 64)} (hh : ha.length = d) (l : List Item) : Valid (sketch murmur d w ha l) :=
  ⟨hd, hw, hh, by simp [sketch, Spec.table]⟩

theorem new_eq {d w : Nat} (ha : List (BitVec 64)) : new d w ha = sketch murmur d w ha [] := by
  simp only [new, sketch, Spec.table, List.length_nil, List.countP_nil, Sketch.mk.injEq, true_and]
  refine ⟨rfl, ?_⟩
  apply List.ext_getElem <;> simp

theorem rows_sketch {d w : Nat} (hw : 0 < w) (ha : List (BitVec 64)) (l : List Item)
    (rows : List (Option Item)) :
    rows.foldl (addRow murmur) (sketch murmur d w ha l) =
      sketch murmur d w ha (l ++ rows.filterMap id) := by
  induction rows generalizing l with
  | nil => simp
  | cons r rows ih =>
    cases r with
    | none => simpa [addRow] using ih l
    | some x =>
      simp only [List.foldl_cons, addRow, add_sketch hw, ih, List.filterMap_cons_some (show id (some x) = some x from rfl)]
      simp

/-- C73: the sketch holds in every row and column the number of items that fall there, and the number
of items, whatever the partitions, batches and merges are. -/
theorem C73_count_min {d w : Nat} (hd : 0 < d ∧ d < 2 ^ 31) (hw : 0 < w ∧ w < 2 ^ 31)
    {ha : List (BitVec 64)} (hh : ha.length = d) {s : Sketch} {l : List (Option Item)}
    (h : (countMin murmur d w ha).Reaches s l) : s = sketch murmur d w ha (l.filterMap id) := by
  refine Reaches.induct (P := fun s l => s = sketch murmur d w ha (l.filterMap id)) mergeOne
    (fun s b => rfl) ?_ ?_ ?_ ?_ ?_ h
  · exact new_eq ha
  · intro s s' l b hP he
    simp only [countMin, Except.ok.injEq] at he
    rw [← he, hP, rows_sketch hw.1]
    simp
  · intro s s' l hP he
    exact he ▸ hP
  · intro s l s' hP he
    cases he
    exact hP
  · intro s t l l' s' h1 h2 he
    simp only [mergeOne, countMin] at he
    rw [h2, C72_sketch_round_trip (valid_sketch hd hw hh _), h1] at he
    simp only [merge_sketch, Except.ok.injEq] at he
    rw [← he]
    simp

/-- C72: the bytes of the sketch do not depend on how the rows are spread. -/
theorem C72_count_min {d w : Nat} (hd : 0 < d ∧ d < 2 ^ 31) (hw : 0 < w ∧ w < 2 ^ 31)
    {ha : List (BitVec 64)} (hh : ha.length = d) {s s' : Sketch} {l l' : List (Option Item)}
    (h : (countMin murmur d w ha).Reaches s l) (h' : (countMin murmur d w ha).Reaches s' l')
    (hp : l.Perm l') : (countMin murmur d w ha).eval s = (countMin murmur d w ha).eval s' := by
  rw [C73_count_min hd hw hh h, C73_count_min hd hw hh h']
  have hq : (l.filterMap id).Perm (l'.filterMap id) := hp.filterMap id
  simp only [sketch, Spec.table, hq.length_eq, hq.countP_eq]

/-- C72: states of the same aggregate always merge. -/
theorem C72_count_min_merges {d w : Nat} (hd : 0 < d ∧ d < 2 ^ 31) (hw : 0 < w ∧ w < 2 ^ 31)
    {ha : List (BitVec 64)} (hh : ha.length = d) {s : Sketch} {l : List (Option Item)}
    (h : (countMin murmur d w ha).Reaches s l) (parts : List (Option (Sketch × List (Option Item))))
    (hp : ∀ t l', some (t, l') ∈ parts → (countMin murmur d w ha).Reaches t l') :
    ∃ s', (countMin murmur d w ha).merge s
      (parts.map (Option.map fun p => (countMin murmur d w ha).state p.1)) = .ok s' := by
  refine fold_total (A := countMin murmur d w ha)
    (P := fun s l => s = sketch murmur d w ha (l.filterMap id)) mergeOne ?_ ?_ parts
    (fun t l' ht => C73_count_min hd hw hh (hp t l' ht)) s l (C73_count_min hd hw hh h)
  · intro s l hP
    exact ⟨s, rfl, hP⟩
  · intro s t l l' h1 h2
    refine ⟨_, ?_, rfl⟩
    simp only [mergeOne, countMin]
    rw [h2, C72_sketch_round_trip (valid_sketch hd hw hh _), h1]
    simp [merge_sketch]

/-- How Spark estimates the number of occurrences of an item from a sketch: the least of the counters
of its columns. -/
def Spec.estimate (col : Item → Nat → Nat) (s : Sketch) (x : Item) : Nat :=
  ((List.range s.depth).map fun r => (s.table.getD (r * s.width + col x r) 0).toNat).min?.getD 0

/-- C73: the estimate for an item is at least the number of its occurrences. -/
theorem C73_estimate {d w : Nat} (hd : 0 < d ∧ d < 2 ^ 31) (hw : 0 < w ∧ w < 2 ^ 31)
    {ha : List (BitVec 64)} (hh : ha.length = d) {s : Sketch} {l : List (Option Item)}
    (h : (countMin murmur d w ha).Reaches s l) (hl : l.length < 2 ^ 64) (x : Item) :
    l.count (some x) ≤ estimate (col murmur d w ha) s x ∧
      estimate (col murmur d w ha) s x ≤ l.length := by
  have hs := C73_count_min hd hw hh h
  have hlt : ∀ r, col murmur d w ha x r < w := fun r => bucket_lt (s := new d w ha) hw.1 x r
  have hlen : (l.filterMap id).length ≤ l.length := List.length_filterMap_le _ _
  have hcell : ∀ r < d, (s.table.getD (r * w + col murmur d w ha x r) 0).toNat =
      (l.filterMap id).countP fun y => col murmur d w ha y r == col murmur d w ha x r := by
    intro r hr
    have hi : r * w + col murmur d w ha x r < d * w := by
      have h1 := hlt r
      have h2 : (r + 1) * w ≤ d * w := Nat.mul_le_mul_right _ hr
      rw [Nat.add_mul] at h2
      omega
    have h1 : (r * w + col murmur d w ha x r) / w = r := by
      rw [Nat.mul_comm, Nat.mul_add_div hw.1, Nat.div_eq_of_lt (hlt r), Nat.add_zero]
    have h2 : (r * w + col murmur d w ha x r) % w = col murmur d w ha x r := by
      rw [Nat.mul_comm, Nat.mul_add_mod, Nat.mod_eq_of_lt (hlt r)]
    have h3 := List.countP_le_length (l := l.filterMap id)
      (p := fun y => col murmur d w ha y r == col murmur d w ha x r)
    rw [hs, List.getD_eq_getElem?_getD]
    simp only [sketch, Spec.table, List.getElem?_map, List.getElem?_range hi, Option.map_some,
      Option.getD_some, h1, h2, BitVec.toNat_ofNat]
    exact Nat.mod_eq_of_lt (by omega)
  have hsd : s.depth = d := by rw [hs]; rfl
  have hsw : s.width = w := by rw [hs]; rfl
  have hcount : l.count (some x) = (l.filterMap id).count x := by
    clear hs hcell hlen hl h
    induction l with
    | nil => rfl
    | cons o l ih => cases o <;> simp [List.count_cons, ih]
  have key : ∀ v ∈ (List.range d).map fun r => (s.table.getD (r * w + col murmur d w ha x r) 0).toNat,
      l.count (some x) ≤ v ∧ v ≤ l.length := by
    intro v hv
    simp only [List.mem_map, List.mem_range] at hv
    obtain ⟨r, hr, rfl⟩ := hv
    rw [hcell r hr, hcount]
    refine ⟨?_, Nat.le_trans List.countP_le_length hlen⟩
    unfold List.count
    apply List.countP_mono_left
    intro y _ hy
    have : y = x := by simpa using hy
    simp [this]
  unfold estimate
  rw [hsd, hsw]
  generalize hL : ((List.range d).map fun r =>
    (s.table.getD (r * w + col murmur d w ha x r) 0).toNat) = L at key ⊢
  have hne : L ≠ [] := by
    rw [← hL]
    simp
    omega
  cases hm : L.min? with
  | none => rw [List.min?_eq_none_iff] at hm; exact absurd hm hne
  | some v =>
    simp only [Option.getD_some]
    exact key v (List.min?_mem hm)

/-- C73: the counters of every row add up to the number of items. -/
theorem C73_row_total {d w : Nat} (hd : 0 < d ∧ d < 2 ^ 31) (hw : 0 < w ∧ w < 2 ^ 31)
    {ha : List (BitVec 64)} (hh : ha.length = d) {s : Sketch} {l : List (Option Item)}
    (h : (countMin murmur d w ha).Reaches s l) {r : Nat} (hr : r < d) :
    ((List.range w).map fun c => s.table.getD (r * w + c) 0).sum = s.total := by
  rw [C73_count_min hd hw hh h]
  simp only [sketch]
  generalize l.filterMap id = items
  have hlt : ∀ x r, col murmur d w ha x r < w := fun x r => bucket_lt (s := new d w ha) hw.1 x r
  have hcell : ∀ c < w, (Spec.table (col murmur d w ha) d w items).getD (r * w + c) 0 =
      BitVec.ofNat 64 (items.countP fun y => col murmur d w ha y r == c) := by
    intro c hc
    have hi : r * w + c < d * w := by
      have h2 : (r + 1) * w ≤ d * w := Nat.mul_le_mul_right _ hr
      rw [Nat.add_mul] at h2
      omega
    have h1 : (r * w + c) / w = r := by
      rw [Nat.mul_comm, Nat.mul_add_div hw.1, Nat.div_eq_of_lt hc, Nat.add_zero]
    have h2 : (r * w + c) % w = c := by
      rw [Nat.mul_comm, Nat.mul_add_mod, Nat.mod_eq_of_lt hc]
    rw [List.getD_eq_getElem?_getD]
    simp only [Spec.table, List.getElem?_map, List.getElem?_range hi, Option.map_some,
      Option.getD_some, h1, h2]
  have h1 : ((List.range w).map fun c => (Spec.table (col murmur d w ha) d w items).getD (r * w + c) 0) =
      (List.range w).map fun c => BitVec.ofNat 64 (items.countP fun y => col murmur d w ha y r == c) :=
    List.map_congr_left (fun c hc => hcell c (List.mem_range.mp hc))
  rw [h1]
  clear h1 hcell h
  have hsum : ∀ (n : Nat) (f : Nat → BitVec 64) (k : Nat), k < n →
      ((List.range n).map fun c => f c + if k = c then 1 else 0).sum =
        ((List.range n).map f).sum + 1 := by
    intro n f k hk
    induction n with
    | zero => omega
    | succ n ih =>
      simp only [List.range_succ, List.map_append, List.sum_append, List.map_cons, List.map_nil,
        List.sum_cons, List.sum_nil]
      by_cases h : k = n
      · have h2 : ((List.range n).map fun c => f c + if k = c then 1 else 0) = (List.range n).map f := by
          apply List.map_congr_left
          intro c hc
          rw [if_neg (by have := List.mem_range.mp hc; omega)]
          simp
        rw [h2, if_pos h]
        generalize ((List.range n).map f).sum = y
        generalize f n = z
        simp [BitVec.add_assoc]
      · rw [ih (by omega), if_neg h]
        generalize ((List.range n).map f).sum = y
        generalize f n = z
        simp [BitVec.add_assoc, BitVec.add_comm z]
  induction items with
  | nil =>
    simp only [List.countP_nil, List.length_nil]
    generalize List.range w = rw'
    induction rw' with
    | nil => rfl
    | cons c cs ih => simp [ih]
  | cons x items ih =>
    have h2 := hsum w (fun c => BitVec.ofNat 64 (items.countP fun y => col murmur d w ha y r == c))
      (col murmur d w ha x r) (hlt x r)
    simp only [List.countP_cons, BitVec.ofNat_add, List.length_cons, beq_iff_eq]
    rw [← ih, show (BitVec.ofNat 64 1) = 1 from rfl, ← h2]
    congr 1
    apply List.map_congr_left
    intro c _
    congr 1
    split <;> rfl

/-- Two partitions of integers with NULLs, in a sketch of two rows and three columns. -/
example :
    let A := countMin (fun _ _ => 0) 2 3 [1000003, 777777777]
    ∃ s, A.run [[[some (.long 5), none], [some (.long 7)]], [[some (.long 5)]]] = .ok s ∧
      s.total = 3 ∧ Spec.estimate (col (fun _ _ => 0) 2 3 [1000003, 777777777]) s (.long 5) = 2 ∧
      (A.eval s).length = 84 :=
  ⟨⟨2, 3, 3, [1000003, 777777777], [0, 1, 2, 1, 2, 0]⟩, by decide +kernel⟩

/-- Sketches are merged exactly if they have the same size and the same hash functions. -/
theorem C72_count_min_merges_alike (s o : Sketch) :
    (∃ m, merge s o = .ok m) ↔ s.depth = o.depth ∧ s.width = o.width ∧ s.hashA = o.hashA := by
  unfold merge
  constructor
  · rintro ⟨m, h⟩
    split at h
    · cases h
    · split at h
      · cases h
      · split at h
        · cases h
        · rename_i h1 h2 h3
          exact ⟨Classical.byContradiction h1, Classical.byContradiction h2, Classical.byContradiction h3⟩
  · rintro ⟨h1, h2, h3⟩
    exact ⟨{ s with table := zipAdd s.table o.table, total := s.total + o.total }, by
      simp only [h1, h2, h3, ne_eq, not_true_eq_false, if_false]⟩

example : ¬ ∃ m, merge ⟨1, 2, 0, [3], [0, 0]⟩ ⟨1, 2, 0, [5], [0, 0]⟩ = .ok m := fun h =>
  absurd ((C72_count_min_merges_alike _ _).1 h) (by decide)

end Verif.Func.CountMin
