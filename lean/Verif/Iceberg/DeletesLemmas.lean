import Verif.Iceberg.Deletes
import Verif.Iceberg.TransformLemmas

/-!
# Lemmas about delete files
-/

namespace Verif.Iceberg.Deletes

open Verif.Iceberg (leBytes)
open Verif.Iceberg.Deletes.Spec

/-! ### The encoding -/

theorem leBytes_length : ∀ (n : Nat) (v : Int), (leBytes n v).length = n
  | 0, _ => rfl
  | n + 1, v => by simp [leBytes, leBytes_length n]

theorem leBytes_mod : ∀ (n : Nat) (v w : Int), leBytes n v = leBytes n w →
    v % (256 : Int) ^ n = w % (256 : Int) ^ n
  | 0, v, w, _ => by simp [Int.emod_one]
  | n + 1, v, w, h => by
    simp only [leBytes, List.cons.injEq] at h
    have ih := leBytes_mod n _ _ h.2
    have h1 : v % 256 = w % 256 := by
      have := h.1; omega
    have hp : (256 : Int) ^ (n + 1) = 256 * 256 ^ n := by rw [Int.pow_succ, Int.mul_comm]
    rw [Int.emod_eq_emod_iff_emod_sub_eq_zero, ← Int.dvd_iff_emod_eq_zero] at ih ⊢
    obtain ⟨c, hc⟩ := ih
    refine ⟨c, ?_⟩
    have hv : v - w = 256 * (v / 256 - w / 256) := by omega
    rw [hv, hc, hp, Int.mul_assoc]

theorem append_leBytes {n : Nat} {v w : Int} {r r' : List Nat}
    (h : leBytes n v ++ r = leBytes n w ++ r') : leBytes n v = leBytes n w ∧ r = r' :=
  List.append_inj h (by rw [leBytes_length, leBytes_length])

theorem encVal_inj {v w : PVal} {r r' : List Nat} (hv : ValOk v) (hw : ValOk w)
    (h : encVal v ++ r = encVal w ++ r') : v = w ∧ r = r' := by
  cases v <;> cases w <;> simp only [encVal, List.cons_append, List.cons.injEq, List.nil_append] at h
  all_goals (first | (exact absurd h.1 (by decide)) | skip)
  case bool.bool a b =>
    refine ⟨?_, h.2.2⟩
    have := h.2.1
    cases a <;> cases b <;> simp_all
  case str.str a b =>
    have h2 := h.2
    rw [List.append_assoc, List.append_assoc] at h2
    obtain ⟨h3, h4⟩ := append_leBytes h2
    have h5 := leBytes_mod _ _ _ h3
    simp only [ValOk] at hv hw
    have h6 : a.length = b.length := by
      simp only [Int.reducePow] at h5
      omega
    obtain ⟨h7, h8⟩ := List.append_inj h4 h6
    exact ⟨by rw [h7], h8⟩
  case bin.bin a b =>
    have h2 := h.2
    rw [List.append_assoc, List.append_assoc] at h2
    obtain ⟨h3, h4⟩ := append_leBytes h2
    have h5 := leBytes_mod _ _ _ h3
    simp only [ValOk] at hv hw
    have h6 : a.length = b.length := by
      simp only [Int.reducePow] at h5
      omega
    obtain ⟨h7, h8⟩ := List.append_inj h4 h6
    exact ⟨by rw [h7], h8⟩
  all_goals
    obtain ⟨h3, h4⟩ := append_leBytes h.2
    have h5 := leBytes_mod _ _ _ h3
    simp only [ValOk, Int.reducePow, Nat.reducePow, Int.reduceNeg] at hv hw h5
    refine ⟨?_, h4⟩
    congr 1
    omega

theorem encode_inj : ∀ {vs ws : List (Option PVal)}, TupleOk vs → TupleOk ws →
    encode vs = encode ws → vs = ws
  | [], [], _, _, _ => rfl
  | [], w :: ws, _, _, h => by cases w <;> simp [encode, encOpt] at h
  | v :: vs, [], _, _, h => by cases v <;> simp [encode, encOpt] at h
  | v :: vs, w :: ws, hv, hw, h => by
    have hv' : TupleOk vs := fun x hx => hv x (by simp [hx])
    have hw' : TupleOk ws := fun x hx => hw x (by simp [hx])
    simp only [encode, List.flatMap_cons] at h
    cases v with
    | none =>
      cases w with
      | none =>
        simp only [encOpt, List.cons_append, List.nil_append, List.cons.injEq, true_and] at h
        rw [encode_inj hv' hw' h]
      | some w => simp [encOpt] at h
    | some v =>
      cases w with
      | none => simp [encOpt] at h
      | some w =>
        simp only [encOpt, List.cons_append, List.cons.injEq, true_and] at h
        obtain ⟨h1, h2⟩ := encVal_inj (hv v (by simp)) (hw w (by simp)) h
        rw [h1, encode_inj hv' hw' h2]

/-! ### The index -/

theorem get_push {κ : Type} [DecidableEq κ] (k k' : κ) (r : Ref) : ∀ m : Index κ,
    get k (push k' r m) = if k' = k then get k m ++ [r] else get k m
  | [] => by simp only [push, get]; split <;> simp
  | (k0, rs) :: m => by
    simp only [push]
    split
    · rename_i h
      subst h
      simp only [get]
      split <;> simp_all
    · rename_i h
      simp only [get, get_push k k' r m]
      split
      · rename_i h2
        subst h2
        rw [if_neg (fun h3 => h h3.symm)]
      · rfl

/-- What the index holds after insertions. -/
structure Holds (ix : DIndex) (rs : List Ref) : Prop where
  glob : ix.globalEq = rs.filter fun r => decide (r.file.content = .equality) && r.unpartitioned
  eq : ∀ k, get k ix.eqByPart = rs.filter fun r =>
    decide (r.file.content = .equality ∧ r.unpartitioned = false ∧ (r.spec, encode r.file.part) = k)
  pos : ∀ k, get k ix.posByPart = rs.filter fun r =>
    decide (r.file.content = .position ∧ r.file.referenced = none ∧
      (r.spec, encode r.file.part) = k)
  path : ∀ p, get p ix.posByPath = rs.filter fun r =>
    decide (r.file.content = .position ∧ r.file.referenced = some p)

theorem insert_holds {ix ix' : DIndex} {rs : List Ref} {r : Ref} (h : Holds ix rs)
    (hi : insert ix r = some ix') : Holds ix' (rs ++ [r]) := by
  unfold insert at hi
  split at hi
  · simp at hi
  · split at hi
    · simp at hi
    · rename_i hc
      split at hi <;> rename_i hu <;> simp only [Option.some.injEq] at hi <;> subst hi
      · constructor
        · simp [h.glob, hc, hu]
        · intro k; simp [h.eq, hc, hu]
        · intro k; simp [h.pos, hc]
        · intro k; simp [h.path, hc]
      · constructor
        · simp [h.glob, hu]
        · intro k
          simp only [get_push, h.eq, List.filter_append]
          have hu' : r.unpartitioned = false := by simpa using hu
          by_cases hk : (r.spec, encode r.file.part) = k <;> simp [hk, hc, hu']
        · intro k; simp [h.pos, hc]
        · intro k; simp [h.path, hc]
    · rename_i hc
      split at hi <;> rename_i hu <;> simp only [Option.some.injEq] at hi <;> subst hi
      · constructor
        · simp [h.glob, hc]
        · intro k; simp [h.eq, hc]
        · intro k; simp [h.pos, hc, hu]
        · intro k
          simp only [get_push, h.path, List.filter_append]
          rename_i p
          by_cases hk : p = k <;> simp [hk, hc, hu]
      · constructor
        · simp [h.glob, hc]
        · intro k; simp [h.eq, hc]
        · intro k
          simp only [get_push, h.pos, List.filter_append]
          by_cases hk : (r.spec, encode r.file.part) = k <;> simp [hk, hc, hu]
        · intro k; simp [h.path, hc, hu]

theorem insertAll_holds : ∀ {rs rs0 : List Ref} {ix ix' : DIndex}, Holds ix rs0 →
    insertAll ix rs = some ix' → Holds ix' (rs0 ++ rs)
  | [], rs0, ix, ix', h, hi => by
    simp [insertAll] at hi; subst hi; simpa using h
  | r :: rs, rs0, ix, ix', h, hi => by
    simp only [insertAll] at hi
    split at hi
    · simp at hi
    · rename_i ix1 h1
      have := insertAll_holds (insert_holds h h1) hi
      simpa using this

theorem holds_empty : Holds {} [] := ⟨rfl, fun _ => rfl, fun _ => rfl, fun _ => rfl⟩

/-! ### Sorting and masks -/

theorem mem_dedupNat {x : Nat} : ∀ {l : List Nat}, x ∈ dedupNat l ↔ x ∈ l
  | [] => by simp [dedupNat]
  | [a] => by simp [dedupNat]
  | a :: b :: l => by
    simp only [dedupNat]
    split
    · rename_i h
      subst h
      rw [mem_dedupNat (l := a :: l)]
      simp
    · rw [List.mem_cons, mem_dedupNat (l := b :: l), List.mem_cons (a := x) (b := a)]

theorem dedupNat_sorted : ∀ {l : List Nat}, l.Pairwise (· ≤ ·) → (dedupNat l).Pairwise (· < ·)
  | [], _ => by simp [dedupNat]
  | [a], _ => by simp [dedupNat]
  | a :: b :: l, h => by
    rw [List.pairwise_cons] at h
    simp only [dedupNat]
    split
    · exact dedupNat_sorted h.2
    · rename_i hne
      rw [List.pairwise_cons]
      refine ⟨?_, dedupNat_sorted h.2⟩
      intro x hx
      rw [mem_dedupNat] at hx
      have h1 := h.1 b (by simp)
      have h2 : b ≤ x := by
        rcases List.mem_cons.1 hx with rfl | hx
        · omega
        · exact (List.pairwise_cons.1 h.2).1 x hx
      omega

theorem sorted_insSort (l : List Nat) :
    (l.insSort (fun a b => decide (a ≤ b))).Pairwise (· ≤ ·) := by
  have := Verif.insSort_sorted (le := fun a b : Nat => decide (a ≤ b))
    (by intro a b; simp; omega) (by intro a b c; simp; omega) l
  simpa using this

theorem mem_positions {path : String} {files : List (List PosRow)} {x : Nat} :
    x ∈ positions path files ↔ ∃ f ∈ files, (some path, some (x : Int)) ∈ f := by
  unfold positions
  rw [mem_dedupNat, Verif.mem_insSort, List.mem_flatMap]
  have key : ∀ (r : PosRow), posOf path r = some x ↔ r = (some path, some (x : Int)) := by
    rintro ⟨p, i⟩
    cases p <;> cases i <;> simp [posOf]
    rename_i p i
    intro _
    omega
  constructor
  · rintro ⟨f, hf, hx⟩
    rw [List.mem_filterMap] at hx
    obtain ⟨r, hr, he⟩ := hx
    rw [key] at he
    exact ⟨f, hf, he ▸ hr⟩
  · rintro ⟨f, hf, hx⟩
    exact ⟨f, hf, List.mem_filterMap.2 ⟨_, hx, (key _).2 rfl⟩⟩

theorem positions_sorted (path : String) (files : List (List PosRow)) :
    (positions path files).Pairwise (· < ·) := dedupNat_sorted (sorted_insSort _)

/-- The slice between two partition points of a sorted list. -/
theorem mem_slice {x off hi : Nat} (hle : off ≤ hi) : ∀ {l : List Nat}, l.Pairwise (· < ·) →
    (x ∈ (l.take (l.takeWhile (fun p => decide (p < hi))).length).drop
      (l.takeWhile (fun p => decide (p < off))).length ↔ x ∈ l ∧ off ≤ x ∧ x < hi)
  | [], _ => by simp
  | a :: l, h => by
    rw [List.pairwise_cons] at h
    by_cases h1 : a < off
    · have h2 : a < hi := by omega
      simp only [List.takeWhile_cons, h1, h2, decide_true, if_true, List.length_cons,
        List.take_succ_cons, List.drop_succ_cons]
      rw [mem_slice hle h.2, List.mem_cons]
      constructor
      · rintro ⟨a1, a2, a3⟩; exact ⟨Or.inr a1, a2, a3⟩
      · rintro ⟨rfl | a1, a2, a3⟩
        · omega
        · exact ⟨a1, a2, a3⟩
    · simp only [List.takeWhile_cons, h1, decide_false, Bool.false_eq_true, if_false,
        List.length_nil, List.drop_zero]
      have hoff : l.takeWhile (fun p => decide (p < off)) = [] := by
        cases l with
        | nil => rfl
        | cons b l =>
          have := h.1 b (by simp)
          rw [List.takeWhile_cons, if_neg]
          simp; omega
      by_cases h2 : a < hi
      · simp only [h2, decide_true, if_true, List.length_cons, List.take_succ_cons, List.mem_cons]
        have ih := mem_slice (x := x) hle h.2
        rw [hoff, List.length_nil, List.drop_zero] at ih
        rw [ih]
        constructor
        · rintro (rfl | ⟨a1, a2, a3⟩)
          · exact ⟨Or.inl rfl, by omega, h2⟩
          · exact ⟨Or.inr a1, a2, a3⟩
        · rintro ⟨rfl | a1, a2, a3⟩
          · exact Or.inl rfl
          · exact Or.inr ⟨a1, a2, a3⟩
      · simp only [h2, decide_false, Bool.false_eq_true, if_false, List.length_nil, List.take_zero,
          List.not_mem_nil, false_iff]
        rintro ⟨a1, a2, a3⟩
        rcases List.mem_cons.1 a1 with rfl | a1
        · omega
        · have := h.1 x a1; omega

theorem foldl_set {n off : Nat} : ∀ (ps : List Nat) (m : List Bool), m.length = n →
    (ps.foldl (fun m p => if p - off < n then m.set (p - off) false else m) m).length = n ∧
    ∀ (i : Nat), i < n → ((ps.foldl
      (fun m p => if p - off < n then m.set (p - off) false else m) m)[i]? = some true ↔
      m[i]? = some true ∧ ∀ p ∈ ps, p - off ≠ i)
  | [], m, hm => by simp [hm]
  | p :: ps, m, hm => by
    simp only [List.foldl_cons]
    have hl : (if p - off < n then m.set (p - off) false else m).length = n := by
      split <;> simp [hm]
    obtain ⟨h1, h2⟩ := foldl_set (n := n) (off := off) ps _ hl
    refine ⟨h1, ?_⟩
    intro i hi
    rw [h2 i hi]
    simp only [List.mem_cons, forall_eq_or_imp]
    split
    · rename_i hp
      rw [List.getElem?_set]
      by_cases he : p - off = i
      · simp [he, hm, hi]
      · simp [he]
    · rename_i hp
      have : p - off ≠ i := by omega
      simp [this]

theorem posMask_spec {off n : Nat} {ps : List Nat} (hs : ps.Pairwise (· < ·)) :
    (posMask off n ps).length = n ∧
    ∀ (i : Nat), i < n → ((posMask off n ps)[i]? = some true ↔ off + i ∉ ps) := by
  unfold posMask
  obtain ⟨h1, h2⟩ := foldl_set (n := n) (off := off)
    ((ps.take (ps.takeWhile (fun p => decide (p < off + n))).length).drop
      (ps.takeWhile (fun p => decide (p < off))).length) (List.replicate n true) (by simp)
  refine ⟨h1, ?_⟩
  intro i hi
  rw [h2 i hi]
  have hrep : (List.replicate n true)[i]? = some true := by simp [hi]
  simp only [hrep, true_and]
  constructor
  · intro h hm
    exact h (off + i) ((mem_slice (by omega) hs).2 ⟨hm, by omega, by omega⟩) (by omega)
  · intro h p hp he
    obtain ⟨a1, a2, a3⟩ := (mem_slice (by omega) hs).1 hp
    exact h (by have : off + i = p := by omega
                rw [this]; exact a1)

theorem eqMask_spec {V : Type} [DecidableEq V] {e : Loaded V} {rows : List (DRow V)}
    {m : List Bool} (hl : m.length = rows.length) :
    (eqMask e rows m).length = rows.length ∧
    ∀ (i : Nat) row, rows[i]? = some row → ((eqMask e rows m)[i]? = some true ↔
      m[i]? = some true ∧ (e.keys.map fun k => row k.name) ∉ e.deleted) := by
  refine ⟨by simp [eqMask, hl], ?_⟩
  intro i row hr
  have hi : i < rows.length := by
    rw [List.getElem?_eq_some_iff] at hr; exact hr.1
  have hmi : m[i]? = some m[i] := List.getElem?_eq_getElem (by omega)
  simp only [eqMask, List.getElem?_map, List.zip, List.getElem?_zipWith,
    hmi, hr, Option.map_some]
  cases hmv : m[i] <;> simp

theorem foldl_eqMask {V : Type} [DecidableEq V] {rows : List (DRow V)} :
    ∀ (es : List (Loaded V)) (m : List Bool), m.length = rows.length →
    (es.foldl (fun m e => eqMask e rows m) m).length = rows.length ∧
    ∀ (i : Nat) row, rows[i]? = some row →
      ((es.foldl (fun m e => eqMask e rows m) m)[i]? = some true ↔
      m[i]? = some true ∧ ∀ e ∈ es, (e.keys.map fun k => row k.name) ∉ e.deleted)
  | [], m, hm => by simp [hm]
  | e :: es, m, hm => by
    simp only [List.foldl_cons]
    obtain ⟨h1, h2⟩ := eqMask_spec (e := e) hm
    obtain ⟨h3, h4⟩ := foldl_eqMask es (eqMask e rows m) h1
    refine ⟨h3, ?_⟩
    intro i row hr
    rw [h4 i row hr, h2 i row hr]
    simp only [List.mem_cons, forall_eq_or_imp, and_assoc]

/-! ### Keys of equality deletes -/

theorem allSome_eq {α : Type} : ∀ {l : List (Option α)} {r : List α},
    allSome l = some r ↔ l = r.map some
  | [], r => by
    cases r <;> simp [allSome]
  | none :: l, r => by
    cases r <;> simp [allSome]
  | some a :: l, r => by
    simp only [allSome, Option.map_eq_some_iff]
    constructor
    · rintro ⟨x, hx, rfl⟩
      rw [allSome_eq] at hx
      simp [hx]
    · intro h
      cases r with
      | nil => simp at h
      | cons b r =>
        simp only [List.map_cons, List.cons.injEq, Option.some.injEq] at h
        exact ⟨r, allSome_eq.2 h.2, by rw [h.1]⟩

theorem resolve_spec {sch : List Col} : ∀ {ids : List Nat} {ks : List KeyField},
    resolve sch ids = some ks → ks.map (·.id) = ids ∧
      ∀ k ∈ ks, ∃ c, sch.find? (fun c => c.id == k.id) = some c ∧ k.name = c.name ∧ k.ty = c.ty
  | [], ks, h => by simp [resolve] at h; subst h; simp
  | i :: ids, ks, h => by
    simp only [resolve] at h
    split at h
    · rename_i c ks' hc hk
      simp only [Option.some.injEq] at h
      subst h
      obtain ⟨h1, h2⟩ := resolve_spec hk
      refine ⟨by simp [h1], ?_⟩
      intro k hkm
      rcases List.mem_cons.1 hkm with rfl | hkm
      · exact ⟨c, hc, rfl, rfl⟩
      · exact h2 k hkm
    · simp at h

theorem mem_rootsWith {id x : Nat} : ∀ {cols : List (Option Nat × Nat)} {i : Nat},
    x ∈ rootsWith id i cols ↔ ∃ (j : Nat) (ty : Nat), x = i + j ∧ cols[j]? = some (some id, ty)
  | [], i => by simp [rootsWith]
  | c :: cols, i => by
    have key : (∃ (j : Nat) (ty : Nat), x = i + j ∧ (c :: cols)[j]? = some (some id, ty)) ↔
        (x = i ∧ c.1 = some id) ∨
        ∃ (j : Nat) (ty : Nat), x = i + 1 + j ∧ cols[j]? = some (some id, ty) := by
      constructor
      · rintro ⟨j, ty, h1, h2⟩
        cases j with
        | zero => simp at h2; exact Or.inl ⟨by omega, by rw [h2]⟩
        | succ j => exact Or.inr ⟨j, ty, by omega, by simpa using h2⟩
      · rintro (⟨rfl, h⟩ | ⟨j, ty, h1, h2⟩)
        · exact ⟨0, c.2, by omega, by simp [← h]⟩
        · exact ⟨j + 1, ty, by omega, by simpa using h2⟩
    rw [key]
    simp only [rootsWith]
    split
    · rename_i h
      rw [List.mem_cons, mem_rootsWith]
      simp [h]
    · rename_i h
      rw [mem_rootsWith]
      simp [h]

theorem rootsWith_sorted {id : Nat} : ∀ {cols : List (Option Nat × Nat)} {i : Nat},
    (rootsWith id i cols).Pairwise (· < ·)
  | [], _ => by simp [rootsWith]
  | c :: cols, i => by
    simp only [rootsWith]
    split
    · rw [List.pairwise_cons]
      refine ⟨?_, rootsWith_sorted⟩
      intro x hx
      obtain ⟨j, _, h, _⟩ := mem_rootsWith.1 hx
      omega
    · exact rootsWith_sorted

theorem rootsWith_unique {id i ty : Nat} {cols : List (Option Nat × Nat)}
    (h1 : cols[i]? = some (some id, ty))
    (h2 : ∀ (j : Nat) ty', cols[j]? = some (some id, ty') → j = i) : rootsWith id 0 cols = [i] := by
  have hm : ∀ x, x ∈ rootsWith id 0 cols ↔ x = i := by
    intro x
    rw [mem_rootsWith]
    constructor
    · rintro ⟨j, ty', h3, h4⟩
      have := h2 j ty' h4
      omega
    · rintro rfl
      exact ⟨x, ty, by omega, h1⟩
  have hs := rootsWith_sorted (id := id) (cols := cols) (i := 0)
  match h : rootsWith id 0 cols with
  | [] => rw [h] at hm; simpa using hm i
  | [a] => rw [h] at hm; simpa using hm a
  | a :: b :: l =>
    rw [h] at hm hs
    have ha := (hm a).1 (by simp)
    have hb := (hm b).1 (by simp)
    rw [List.pairwise_cons] at hs
    have := hs.1 b (by simp)
    omega

theorem rootOf_spec {cols : List (Option Nat × Nat)} {k : KeyField} {r : Nat}
    (h : rootOf cols k = some r) :
    (∃ ty, cols[r]? = some (some k.id, ty)) ∧
    ∀ (j : Nat) ty, cols[j]? = some (some k.id, ty) → j = r := by
  unfold rootOf at h
  split at h
  · rename_i i hi
    simp only [Option.some.injEq] at h
    subst h
    constructor
    · have : i ∈ rootsWith k.id 0 cols := by rw [hi]; simp
      rw [mem_rootsWith] at this
      obtain ⟨j, ty, h1, h2⟩ := this
      have : j = i := by omega
      subst this
      exact ⟨ty, h2⟩
    · intro j ty hj
      have : j ∈ rootsWith k.id 0 cols := mem_rootsWith.2 ⟨j, ty, by omega, hj⟩
      rw [hi] at this
      simpa using this
  · simp at h

theorem keyOfRow_spec {V : Type} {f : EqFile V} {ks : List KeyField} {row key : List V}
    (h : keyOfRow f ks row = some key) :
    key.length = ks.length ∧ ∀ (j : Nat) k, ks[j]? = some k →
      ∃ v, key[j]? = some v ∧ ∀ v', HasValue f row k.id v' ↔ v' = v := by
  unfold keyOfRow at h
  split at h
  · simp at h
  · rename_i roots hroots
    rw [allSome_eq] at hroots
    simp only at h
    rw [allSome_eq] at h
    have hlen : roots.length = ks.length := by
      have := congrArg List.length hroots
      simpa using this.symm
    have hkl : key.length = ks.length := by
      have := congrArg List.length h
      simp at this
      omega
    refine ⟨hkl, ?_⟩
    intro j k hk
    have hj : j < ks.length := by
      rw [List.getElem?_eq_some_iff] at hk; exact hk.1
    have hr : rootOf f.cols k = some roots[j] := by
      have := congrArg (fun l : List (Option Nat) => l[j]?) hroots
      simp only [List.getElem?_map, hk, Option.map_some] at this
      rw [List.getElem?_eq_getElem (by omega)] at this
      simpa using this
    have hv : key[j]? = some key[j] := List.getElem?_eq_getElem (by omega)
    refine ⟨key[j], hv, ?_⟩
    have hz := congrArg (fun l : List (Option V) => l[j]?) h
    simp only [List.getElem?_map, List.zip, List.getElem?_zipWith, hk,
      List.getElem?_eq_getElem (show j < roots.length by omega), hv, Option.map_some,
      Option.some.injEq] at hz
    split at hz
    · simp at hz
    · rename_i p hp
      have hp' : (projected roots)[p]? = some roots[j] := by
        rw [List.findIdx?_eq_some_iff_getElem] at hp
        obtain ⟨h1, h2, _⟩ := hp
        rw [List.getElem?_eq_getElem h1]
        simpa using h2
      rw [hp'] at hz
      simp only [Option.map_some] at hz
      split at hz
      · rename_i v ty he
        simp only [Option.some.injEq, Prod.mk.injEq] at he
        split at hz
        · simp only [Option.some.injEq] at hz
          subst hz
          obtain ⟨⟨ty', h1⟩, h2⟩ := rootOf_spec hr
          intro v'
          constructor
          · rintro ⟨i, ty2, h3, h4⟩
            have := h2 i ty2 h3
            subst this
            rw [he.1] at h4
            exact (Option.some.inj h4).symm
          · rintro rfl
            exact ⟨_, ty', h1, he.1⟩
        · simp at hz
      · simp at hz

/-- The rows an equality delete file removes. -/
theorem loadOne_spec {V : Type} [DecidableEq V] {sch : List Col} {f : EqFile V} {e : Loaded V}
    (h : loadOne sch f = some e) (row : DRow V) :
    (e.keys.map fun k => row k.name) ∈ e.deleted ↔
      ∃ d ∈ f.rows, ∀ id ∈ f.ids, ∃ v, HasValue f d id v ∧ FieldIs sch row id v := by
  unfold loadOne at h
  split at h
  · simp at h
  · split at h
    · simp at h
    · rename_i ks hks
      split at h
      · simp at h
      · rw [Option.map_eq_some_iff] at h
        obtain ⟨rs, hrs, rfl⟩ := h
        rw [allSome_eq] at hrs
        obtain ⟨hids, hres⟩ := resolve_spec hks
        -- one row
        have one : ∀ d key, keyOfRow f ks d = some key →
            ((ks.map fun k => row k.name) = key ↔
              ∀ id ∈ f.ids, ∃ v, HasValue f d id v ∧ FieldIs sch row id v) := by
          intro d key hkey
          obtain ⟨hl, hj⟩ := keyOfRow_spec hkey
          have hfield : ∀ k ∈ ks, ∀ v, FieldIs sch row k.id v ↔ v = row k.name := by
            intro k hk v
            obtain ⟨c, hc, hn, _⟩ := hres k hk
            unfold FieldIs
            rw [hc]
            simp [hn, eq_comm]
          constructor
          · intro he id hid
            rw [← hids, List.mem_map] at hid
            obtain ⟨k, hk, rfl⟩ := hid
            obtain ⟨j, hjk⟩ := List.mem_iff_getElem?.1 hk
            obtain ⟨v, hv, hu⟩ := hj j k hjk
            refine ⟨v, (hu v).2 rfl, (hfield k hk v).2 ?_⟩
            rw [← he, List.getElem?_map, hjk] at hv
            simpa using hv.symm
          · intro hall
            apply List.ext_getElem?
            intro j
            cases hjk : ks[j]? with
            | none =>
              rw [List.getElem?_map, hjk]
              rw [List.getElem?_eq_none_iff] at hjk
              exact (List.getElem?_eq_none (by omega)).symm
            | some k =>
              obtain ⟨v, hv, hu⟩ := hj j k hjk
              have hk : k ∈ ks := List.mem_of_getElem? hjk
              obtain ⟨v', h1, h2⟩ := hall k.id (by rw [← hids]; exact List.mem_map_of_mem hk)
              rw [List.getElem?_map, hjk, hv]
              rw [(hu v').1 h1, hfield k hk] at h2
              simp [h2]
        constructor
        · intro hm
          simp only at hm
          obtain ⟨j, hj⟩ := List.mem_iff_getElem?.1 hm
          have := congrArg (fun l : List (Option (List V)) => l[j]?) hrs
          simp only [List.getElem?_map, hj, Option.map_some] at this
          rw [Option.map_eq_some_iff] at this
          obtain ⟨d, hd, hkd⟩ := this
          exact ⟨d, List.mem_of_getElem? hd, (one d _ hkd).1 rfl⟩
        · rintro ⟨d, hd, hall⟩
          have hkm : keyOfRow f ks d ∈ f.rows.map (keyOfRow f ks) := List.mem_map_of_mem hd
          rw [hrs, List.mem_map] at hkm
          obtain ⟨key, hk, he⟩ := hkm
          rw [(one d key he.symm).2 hall]
          exact hk

theorem loadAll_spec {V : Type} [DecidableEq V] {sch : List Col} {fs : List (EqFile V)}
    {es : List (Loaded V)} (h : loadAll sch fs = some es) (row : DRow V) :
    (∃ e ∈ es, (e.keys.map fun k => row k.name) ∈ e.deleted) ↔
      ∃ f ∈ fs, ∃ d ∈ f.rows, ∀ id ∈ f.ids, ∃ v, HasValue f d id v ∧ FieldIs sch row id v := by
  unfold loadAll at h
  rw [allSome_eq] at h
  constructor
  · rintro ⟨e, he, hd⟩
    have : some e ∈ fs.map (loadOne sch) := by rw [h]; exact List.mem_map_of_mem he
    rw [List.mem_map] at this
    obtain ⟨f, hf, hl⟩ := this
    exact ⟨f, hf, (loadOne_spec hl row).1 hd⟩
  · rintro ⟨f, hf, hd⟩
    have : loadOne sch f ∈ fs.map (loadOne sch) := List.mem_map_of_mem hf
    rw [h, List.mem_map] at this
    obtain ⟨e, he, hl⟩ := this
    exact ⟨e, he, (loadOne_spec hl.symm row).2 hd⟩

/-! ### Batches -/

theorem filterBatch_eq {α : Type} (P : Nat → α → Bool) : ∀ (rows : List α) (m : List Bool)
    (off : Nat), m.length = rows.length →
    (∀ (i : Nat) row, rows[i]? = some row → (m[i]? = some true ↔ P (off + i) row = true)) →
    filterBatch rows m = ((rows.zipIdx off).filter fun x => P x.2 x.1).map (·.1)
  | [], _, _, _, _ => by simp [filterBatch]
  | r :: rows, [], _, hl, _ => by simp at hl
  | r :: rows, b :: m, off, hl, h => by
    have ih := filterBatch_eq P rows m (off + 1) (by simpa using hl) (by
      intro i row hr
      have := h (i + 1) row (by simpa using hr)
      rw [show off + 1 + i = off + (i + 1) by omega]
      simpa using this)
    have h0 := h 0 r (by simp)
    simp only [List.getElem?_cons_zero, Option.some.injEq, Nat.add_zero] at h0
    unfold filterBatch at ih ⊢
    simp only [List.zip_cons_cons, List.zipIdx_cons, List.filter_cons]
    cases hb : b <;> cases hp : P off r <;> simp_all

theorem mask_spec {V : Type} [DecidableEq V] {bs : BSchema} {off : Nat} {ps : List Nat}
    {es : List (Loaded V)} {rows : List (DRow V)} {m : List Bool} (hs : ps.Pairwise (· < ·))
    (h : mask bs off ps es rows = some m) :
    m.length = rows.length ∧ ∀ (i : Nat) row, rows[i]? = some row →
      (m[i]? = some true ↔ off + i ∉ ps ∧
        ¬ ∃ e ∈ es, (e.keys.map fun k => row k.name) ∈ e.deleted) := by
  unfold mask at h
  split at h
  · simp only [Option.some.injEq] at h
    subst h
    obtain ⟨h1, h2⟩ := posMask_spec (off := off) (n := rows.length) hs
    obtain ⟨h3, h4⟩ := foldl_eqMask es _ h1
    refine ⟨h3, ?_⟩
    intro i row hr
    have hi : i < rows.length := by
      rw [List.getElem?_eq_some_iff] at hr; exact hr.1
    rw [h4 i row hr, h2 i hi]
    simp
  · simp at h

theorem applyBatches_spec {V : Type} [DecidableEq V] {bs : BSchema} {ps : List Nat}
    {es : List (Loaded V)} (hs : ps.Pairwise (· < ·)) (P : Nat → DRow V → Bool)
    (hP : ∀ i row, P i row = true ↔ i ∉ ps ∧
        ¬ ∃ e ∈ es, (e.keys.map fun k => row k.name) ∈ e.deleted) :
    ∀ (batches out : List (List (DRow V))) (off : Nat), applyBatches bs ps es off batches = some out →
      out.flatten = ((batches.flatten.zipIdx off).filter fun x => P x.2 x.1).map (·.1)
  | [], out, off, h => by simp [applyBatches] at h; subst h; simp
  | b :: rest, out, off, h => by
    simp only [applyBatches] at h
    split at h
    · simp at h
    · rename_i m hm
      split at h
      · simp at h
      · rename_i out' ho
        simp only [Option.some.injEq] at h
        have ih := applyBatches_spec hs P hP rest out' (off + b.length) ho
        obtain ⟨h1, h2⟩ := mask_spec hs hm
        have hb := filterBatch_eq P b m off h1 (by
          intro i row hr
          rw [h2 i row hr, hP])
        have hflat : out.flatten = filterBatch b m ++ out'.flatten := by
          subst h
          split
          · rename_i he; rw [he]; rfl
          · simp
        rw [hflat, ih, hb, List.flatten_cons, List.zipIdx_append, List.filter_append,
          List.map_append]

end Verif.Iceberg.Deletes
