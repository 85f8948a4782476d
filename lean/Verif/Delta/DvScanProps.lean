import Verif.Delta.DvScan
import Verif.Delta.DvWriteProps

/-! C136: a scan returns exactly the rows no deletion vector marks, at their positions in the file. -/

namespace Verif.Delta.DvScan

variable {α β : Type}

/-- The rows of a file that are not deleted, with their positions. -/
def Spec.visibleAt (dv : Finset Nat) (rows : List α) : List (α × Nat) :=
  rows.zipIdx.filter fun x => decide (x.2 ∉ dv)

/-- The rows of a file that are not deleted. -/
def Spec.visible (dv : Finset Nat) (rows : List α) : List α :=
  (Spec.visibleAt dv rows).map Prod.fst

/-! ### The filter -/

theorem filterBatch_eq (dv : Finset Nat) : ∀ (b : List β) (o : Nat),
    filterBatch b ((List.range b.length).map fun i => !decide (o + i ∈ dv))
      = ((b.zipIdx o).filter fun x => decide (x.2 ∉ dv)).map Prod.fst := by
  intro b
  induction b with
  | nil => intro o; rfl
  | cons r rs ih =>
    intro o
    rw [List.length_cons, List.range_succ_eq_map, List.map_cons, List.map_map, List.zipIdx_cons,
      List.filter_cons, filterBatch]
    have h : ((fun i : Nat => !decide (o + i ∈ dv)) ∘ Nat.succ) = fun i : Nat => !decide (o + 1 + i ∈ dv) := by
      funext i
      simp only [Function.comp, Nat.succ_eq_add_one]
      rw [show o + (i + 1) = o + 1 + i by omega]
    rw [h, ih (o + 1)]
    by_cases hd : o ∈ dv <;> simp [hd]

theorem filterBatch_all : ∀ (b : List β) (k : List Bool), k.length = b.length → k.count true = b.length →
    filterBatch b k = b := by
  intro b
  induction b with
  | nil => intro k hk _; cases k <;> simp_all [filterBatch]
  | cons r rs ih =>
    intro k hk hc
    cases k with
    | nil => simp at hk
    | cons x ks =>
      have hk' : ks.length = rs.length := by simpa using hk
      have hle : ks.count true ≤ ks.length := List.count_le_length
      cases x with
      | false =>
        rw [List.count_cons_of_ne (by simp), List.length_cons] at hc
        omega
      | true =>
        rw [List.count_cons_self, List.length_cons] at hc
        rw [filterBatch, if_pos rfl, ih ks hk' (by omega)]

theorem filterBatch_none : ∀ (b : List β) (k : List Bool), k.count true = 0 → filterBatch b k = [] := by
  intro b
  induction b with
  | nil => intro k _; cases k <;> rfl
  | cons r rs ih =>
    intro k hc
    cases k with
    | nil => rfl
    | cons x ks =>
      cases x with
      | false =>
        rw [List.count_cons_of_ne (by simp)] at hc
        simp [filterBatch, ih ks hc]
      | true => rw [List.count_cons_self] at hc; omega

theorem filterBatch_some : ∀ (b : List β) (k : List Bool), k.length = b.length → k.count true ≠ 0 →
    filterBatch b k ≠ [] := by
  intro b
  induction b with
  | nil =>
    intro k hk hc
    have : k = [] := List.eq_nil_of_length_eq_zero hk
    subst this
    exact (hc rfl).elim
  | cons r rs ih =>
    intro k hk hc
    cases k with
    | nil => exact (hc rfl).elim
    | cons x ks =>
      cases x with
      | false =>
        rw [List.count_cons_of_ne (by simp)] at hc
        simpa [filterBatch] using ih ks (by simpa using hk) hc
      | true => simp [filterBatch]

theorem dvFilter_cons (dv : Finset Nat) (o : Nat) (b : List β) (bs : List (List β)) :
    (dvFilter dv o (b :: bs)).flatten
      = filterBatch b ((List.range b.length).map fun i => !decide (o + i ∈ dv))
        ++ (dvFilter dv (o + b.length) bs).flatten := by
  rw [dvFilter]
  have hl : ((List.range b.length).map fun i => !decide (o + i ∈ dv)).length = b.length := by simp
  revert hl
  generalize ((List.range b.length).map fun i => !decide (o + i ∈ dv)) = k
  intro hl
  dsimp only
  by_cases h0 : b.length = 0
  · have : b = [] := List.eq_nil_of_length_eq_zero h0
    subst this
    simp [filterBatch]
  · rw [if_neg h0]
    by_cases h1 : k.count true = 0
    · rw [if_pos h1, filterBatch_none b k h1, List.nil_append]
    · rw [if_neg h1]
      by_cases h2 : k.count true = b.length
      · rw [if_pos h2, filterBatch_all b k hl h2, List.flatten_cons]
      · rw [if_neg h2, List.flatten_cons]

theorem dvFilter_flatten (dv : Finset Nat) : ∀ (bs : List (List β)) (o : Nat),
    (dvFilter dv o bs).flatten
      = ((bs.flatten.zipIdx o).filter fun x => decide (x.2 ∉ dv)).map Prod.fst := by
  intro bs
  induction bs with
  | nil => intro o; rfl
  | cons b bs ih =>
    intro o
    rw [dvFilter_cons, ih, filterBatch_eq, List.flatten_cons, List.zipIdx_append, List.filter_append,
      List.map_append]

/-- However a file is cut into batches, the rows that remain are, in order, those whose position in the
file is not marked. -/
theorem C136_filter (dv : Finset Nat) (batches : List (List β)) :
    (dvFilter dv 0 batches).flatten = Spec.visible dv batches.flatten :=
  dvFilter_flatten dv batches 0

/-- No empty batches are emitted. -/
theorem C136_filter_empty_batches (dv : Finset Nat) : ∀ (batches : List (List β)) (o : Nat),
    ∀ b ∈ dvFilter dv o batches, b ≠ [] := by
  intro batches
  induction batches with
  | nil => intro o b hb; simp [dvFilter] at hb
  | cons a as ih =>
    intro o b hb
    rw [dvFilter] at hb
    have hl : ((List.range a.length).map fun i => !decide (o + i ∈ dv)).length = a.length := by simp
    revert hl hb
    generalize ((List.range a.length).map fun i => !decide (o + i ∈ dv)) = k
    intro hb hl
    dsimp only at hb
    by_cases h0 : a.length = 0
    · rw [if_pos h0] at hb; exact ih _ b hb
    · rw [if_neg h0] at hb
      by_cases h1 : k.count true = 0
      · rw [if_pos h1] at hb; exact ih _ b hb
      · rw [if_neg h1] at hb
        by_cases h2 : k.count true = a.length
        · rw [if_pos h2] at hb
          rcases List.mem_cons.1 hb with rfl | hb
          · intro he; exact h0 (by rw [he]; rfl)
          · exact ih _ b hb
        · rw [if_neg h2] at hb
          rcases List.mem_cons.1 hb with rfl | hb
          · exact filterBatch_some a k hl h1
          · exact ih _ b hb

example : dvFilter {1, 3, 4} 0 [["a", "b"], [], ["c", "d"], ["e"], ["f"]] = [["a"], ["c"], ["f"]] := by
  decide +kernel

/-! ### The row index -/

theorem appendRowIndex_flatten : ∀ (bs : List (List α)) (o : Nat),
    (appendRowIndex o bs).flatten = (bs.flatten.zipIdx o).map fun x => (x.1, some x.2) := by
  intro bs
  induction bs with
  | nil => intro o; rfl
  | cons b bs ih =>
    intro o
    rw [appendRowIndex, List.flatten_cons, ih, List.flatten_cons, List.zipIdx_append, List.map_append]
    congr 1
    clear ih
    induction b generalizing o with
    | nil => rfl
    | cons r rs ih =>
      rw [List.length_cons, List.range_succ_eq_map, List.map_cons, List.map_map, List.zip_cons_cons,
        List.zipIdx_cons, List.map_cons]
      congr 1
      rw [← ih (o + 1)]
      congr 1
      apply List.map_congr_left
      intro i _
      simp only [Function.comp, Nat.succ_eq_add_one]
      congr 1
      omega

theorem zipIdx_filter_map (dv : Finset Nat) (g : α × Nat → β) : ∀ (l : List α) (o : Nat),
    ((((l.zipIdx o).map g).zipIdx o).filter fun x => decide (x.2 ∉ dv)).map Prod.fst
      = ((l.zipIdx o).filter fun x => decide (x.2 ∉ dv)).map g := by
  intro l
  induction l with
  | nil => intro o; rfl
  | cons r rs ih =>
    intro o
    rw [List.zipIdx_cons, List.map_cons, List.zipIdx_cons, List.filter_cons, List.filter_cons]
    by_cases hd : o ∈ dv <;> simp [hd] <;> simpa using ih (o + 1)

/-- With a row index column, the rows that remain carry their positions in the file. -/
theorem C136_row_index (dv : Finset Nat) (batches : List (List α)) :
    (dvFilter dv 0 (appendRowIndex 0 batches)).flatten
      = (Spec.visibleAt dv batches.flatten).map fun x => (x.1, some x.2) := by
  rw [dvFilter_flatten, appendRowIndex_flatten]
  exact zipIdx_filter_map dv (fun x => (x.1, some x.2)) batches.flatten 0

example : dvFilter {1, 3, 4} 0 (appendRowIndex 0 [["a", "b"], [], ["c", "d"], ["e"], ["f"]])
    = [[("a", some 0)], [("c", some 2)], [("f", some 5)]] := by decide +kernel

/-! ### Many files -/

/-- What a file contributes to a scan. -/
def Spec.rowsOf (rowIndex : Bool) (f : File α) : List (α × Option Nat) :=
  (Spec.visibleAt (f.dv.getD ∅) f.plain.flatten).map fun x => (x.1, if rowIndex then some x.2 else none)

theorem visibleAt_empty (rows : List α) (o : Nat) :
    (rows.zipIdx o).filter (fun x => decide (x.2 ∉ (∅ : Finset Nat))) = rows.zipIdx o := by
  simp

/-- Grouping neither loses nor repeats a file. -/
def Spec.Grouping (group : List (File α) → List (List (File α))) : Prop :=
  ∀ fs, (group fs).flatten.Perm fs

theorem group_one {group : List (File α) → List (List (File α))} (hg : Spec.Grouping group) (f : File α)
    {β : Type} (F : List (File α) → List β) (h0 : F [] = []) :
    ((group [f]).map F).flatten = F [f] := by
  have h := List.perm_singleton.1 (hg [f])
  generalize group [f] = gs at h
  induction gs with
  | nil => cases h
  | cons g gs ih =>
    rw [List.flatten_cons] at h
    rw [List.map_cons, List.flatten_cons]
    cases g with
    | nil =>
      rw [h0, List.nil_append]
      exact ih (by simpa using h)
    | cons x xs =>
      rw [List.cons_append, List.cons.injEq] at h
      obtain ⟨rfl, h⟩ := h
      have hx : xs = [] := (List.append_eq_nil_iff.1 h).1
      have hgs := (List.append_eq_nil_iff.1 h).2
      subst hx
      have : (gs.map F).flatten = [] := by
        rw [List.flatten_eq_nil_iff] at hgs ⊢
        intro l hl
        obtain ⟨y, hy, rfl⟩ := List.mem_map.1 hl
        rw [hgs y hy, h0]
      rw [this, List.append_nil]

/-- The stream of one file after the row index and the filter. -/
def one (rowIndex : Bool) (f : File α) (stream : List (List α)) : List (List (α × Option Nat)) :=
  match f.dv with
  | some bitmap => dvFilter bitmap 0 (if rowIndex then appendRowIndex 0 stream else noRowIndex stream)
  | none => if rowIndex then appendRowIndex 0 stream else noRowIndex stream

theorem noRowIndex_flatten (bs : List (List α)) :
    (noRowIndex bs).flatten = bs.flatten.map fun r => (r, none) := by
  rw [noRowIndex, List.map_flatten]

theorem visibleAt_map (dv : Finset Nat) (g : α → β) (l : List α) (o : Nat) :
    (((l.map g).zipIdx o).filter fun x => decide (x.2 ∉ dv)).map Prod.fst
      = ((l.zipIdx o).filter fun x => decide (x.2 ∉ dv)).map fun x => g x.1 := by
  induction l generalizing o with
  | nil => rfl
  | cons r rs ih =>
    rw [List.map_cons, List.zipIdx_cons, List.zipIdx_cons, List.filter_cons, List.filter_cons]
    by_cases hd : o ∈ dv <;> simp [hd] <;> simpa using ih (o + 1)

theorem one_flatten (rowIndex : Bool) (f : File α) :
    (one rowIndex f f.plain).flatten = Spec.rowsOf rowIndex f := by
  unfold one Spec.rowsOf Spec.visibleAt
  cases hd : f.dv with
  | none =>
    dsimp only [Option.getD_none]
    rw [visibleAt_empty]
    cases rowIndex with
    | true => simpa using appendRowIndex_flatten f.plain 0
    | false =>
      simp only [Bool.false_eq_true, if_false]
      rw [noRowIndex_flatten]
      generalize f.plain.flatten = l
      have : ∀ o, l.map (fun r => (r, (none : Option Nat))) = (l.zipIdx o).map fun x => (x.1, none) := by
        induction l with
        | nil => intro o; rfl
        | cons r rs ih => intro o; rw [List.zipIdx_cons, List.map_cons, List.map_cons, ih (o + 1)]
      exact this 0
  | some b =>
    dsimp only [Option.getD_some]
    cases rowIndex with
    | true =>
      simp only [if_true]
      exact C136_row_index b f.plain
    | false =>
      simp only [Bool.false_eq_true, if_false]
      rw [dvFilter_flatten, noRowIndex_flatten, visibleAt_map]

theorem positionAware_flatten {group : List (File α) → List (List (File α))} (hg : Spec.Grouping group)
    (rowIndex : Bool) (fs : List (File α)) (h : rowIndex = true ∨ ∀ f ∈ fs, f.dv.isSome) :
    (positionAware group rowIndex fs).flatten.flatten = fs.flatMap (Spec.rowsOf rowIndex) := by
  induction fs with
  | nil => rfl
  | cons f fs ih =>
    have hc : (rowIndex || [f].any fun a => a.dv.isSome) = true := by
      rcases h with h | h
      · simp [h]
      · simp [h f (List.mem_cons_self ..)]
    have e : positionAware group rowIndex (f :: fs)
        = ((group [f]).map fun g => one rowIndex f (g.flatMap fun x => x.plain))
          ++ positionAware group rowIndex fs := by
      unfold positionAware
      rw [List.flatMap_cons]
      congr 1
      unfold bulkScan
      rw [List.map_map]
      apply List.map_congr_left
      intro g _
      simp only [Function.comp, hc, if_true]
      rfl
    rw [e, List.flatten_append, List.flatten_append, List.flatMap_cons,
      ih (h.imp id fun h x hx => h x (List.mem_cons_of_mem _ hx))]
    congr 1
    rw [group_one hg f (fun g => one rowIndex f (g.flatMap fun x => x.plain))
      (by unfold one; cases f.dv <;> cases rowIndex <;> rfl)]
    simp only [List.flatMap_cons, List.flatMap_nil, List.append_nil]
    exact one_flatten rowIndex f

theorem filter_flatMap {γ : Type} (p : γ → Bool) (F G : β → List γ)
    (h : ∀ x, (F x).filter p = (G x).filter p) (l : List β) :
    (l.flatMap F).filter p = (l.flatMap G).filter p := by
  induction l with
  | nil => rfl
  | cons x xs ih => rw [List.flatMap_cons, List.flatMap_cons, List.filter_append, List.filter_append, h, ih]

/-- The predicate that may be pushed into the reader loses no row that it keeps. -/
def Spec.PushedOk (p : α → Bool) (f : File α) : Prop :=
  f.pushed.flatten.filter p = f.plain.flatten.filter p

theorem flatMap_filter_perm (q : File α → Bool) (F : File α → List β) (fs : List (File α)) :
    ((fs.filter fun f => !q f).flatMap F ++ (fs.filter q).flatMap F).Perm (fs.flatMap F) := by
  induction fs with
  | nil => exact List.Perm.refl _
  | cons f fs ih =>
    rw [List.flatMap_cons]
    cases hq : q f with
    | true =>
      rw [List.filter_cons_of_neg (by simp [hq]), List.filter_cons_of_pos (by simp [hq]), List.flatMap_cons,
        ← List.append_assoc]
      refine (List.perm_append_comm.append_right _).trans ?_
      rw [List.append_assoc]
      exact ih.append_left _
    | false =>
      rw [List.filter_cons_of_pos (by simp [hq]), List.filter_cons_of_neg (by simp [hq]), List.flatMap_cons,
        List.append_assoc]
      exact ih.append_left _

theorem bulk_flatten (group : List (File α) → List (List (File α))) (fs : List (File α))
    (h : ∀ f ∈ fs, f.dv.isSome = false) :
    ((bulkScan group false fs).map noRowIndex).flatten.flatten
      = ((group fs).flatten.flatMap fun f => f.pushed.flatten).map fun r => (r, none) := by
  have hc : (false || fs.any fun a => a.dv.isSome) = false := by
    rw [Bool.false_or, List.any_eq_false]
    intro f hf
    simp [h f hf]
  unfold bulkScan
  simp only [hc, Bool.false_eq_true, if_false]
  generalize group fs = gs
  induction gs with
  | nil => rfl
  | cons g gs ih =>
    rw [List.map_cons, List.map_cons, List.flatten_cons, List.flatten_append, ih, noRowIndex_flatten,
      List.flatten_cons, List.flatMap_append, List.map_append]
    congr 2
    induction g with
    | nil => rfl
    | cons x xs ih => rw [List.flatMap_cons, List.flatMap_cons, List.flatten_append, ih]

theorem rowsOf_plain {f : File α} (h : f.dv.isSome = false) :
    Spec.rowsOf false f = f.plain.flatten.map fun r => (r, none) := by
  rw [← one_flatten]
  have hd : f.dv = none := by cases hd : f.dv <;> simp_all
  unfold one
  rw [hd]
  exact noRowIndex_flatten f.plain

theorem scanChunk_rows {group : List (File α) → List (List (File α))} (hg : Spec.Grouping group)
    (p : α → Bool) (rowIndex : Bool) (fs : List (File α)) (hp : ∀ f ∈ fs, Spec.PushedOk p f) :
    ((scanChunk group rowIndex fs).flatten.filter fun r => p r.1).Perm
      ((fs.flatMap (Spec.rowsOf rowIndex)).filter fun r => p r.1) := by
  cases rowIndex with
  | true =>
    unfold scanChunk
    rw [if_pos rfl, positionAware_flatten hg true fs (Or.inl rfl)]
  | false =>
    unfold scanChunk
    rw [if_neg (by simp)]
    dsimp only
    refine List.Perm.trans ?_ ((flatMap_filter_perm (fun f => f.dv.isSome) (Spec.rowsOf false) fs).filter _)
    rw [List.flatten_append, List.filter_append, List.filter_append,
      positionAware_flatten hg false _ (Or.inr fun f hf => (List.mem_filter.1 hf).2)]
    refine List.Perm.append_right _ ?_
    have hpl : ∀ f ∈ fs.filter fun f => !f.dv.isSome, f.dv.isSome = false := fun f hf => by
      simpa using (List.mem_filter.1 hf).2
    have hpp : ∀ f ∈ fs.filter fun f => !f.dv.isSome, Spec.PushedOk p f := fun f hf =>
      hp f (List.mem_filter.1 hf).1
    generalize (fs.filter fun f => !f.dv.isSome) = ps at hpl hpp
    have hbulk : ((((bulkScan group false ps).map noRowIndex).flatten.flatten).filter fun r => p r.1).Perm
        ((ps.flatMap (Spec.rowsOf false)).filter fun r => p r.1) := by
      rw [bulk_flatten group ps hpl]
      refine ((((hg ps).flatMap_right _).map _).filter _).trans ?_
      clear hg
      refine List.Perm.of_eq ?_
      induction ps with
      | nil => rfl
      | cons f fs ih =>
        rw [List.flatMap_cons, List.map_append, List.filter_append, List.flatMap_cons, List.filter_append,
          ih (fun x hx => hpl x (List.mem_cons_of_mem _ hx)) (fun x hx => hpp x (List.mem_cons_of_mem _ hx)),
          rowsOf_plain (hpl f (List.mem_cons_self ..))]
        congr 1
        rw [List.filter_map, List.filter_map]
        exact congrArg _ (hpp f (List.mem_cons_self ..))
    cases ps with
    | nil => exact List.Perm.refl _
    | cons f fs => exact hbulk

theorem drain_flatten (chunk : Nat) (done : Bool) : ∀ (n : Nat) (ps : List (File α)),
    (drain chunk done n ps).1.flatten ++ (drain chunk done n ps).2 = ps := by
  intro n
  induction n with
  | zero => intro ps; rfl
  | succ n ih =>
    intro ps
    rw [drain]
    by_cases h : (!ps.isEmpty && (decide (chunk ≤ ps.length) || done)) = true
    · simp only [if_pos h]
      rw [List.flatten_cons, List.append_assoc, ih]
      exact List.take_append_drop _ _
    · simp only [if_neg h]
      rfl

theorem drain_done {chunk : Nat} (hc : 0 < chunk) : ∀ (n : Nat) (ps : List (File α)), ps.length ≤ n →
    (drain chunk true n ps).2 = [] := by
  intro n
  induction n with
  | zero => intro ps h; exact List.eq_nil_of_length_eq_zero (Nat.le_zero.1 h)
  | succ n ih =>
    intro ps h
    rw [drain]
    cases ps with
    | nil => rfl
    | cons f fs =>
      simp only [List.isEmpty_cons, Bool.not_false, Bool.or_true, Bool.and_true, if_true]
      exact ih _ (by simp only [List.length_drop, List.length_cons] at h ⊢; omega)

theorem chunks_flatten {chunk : Nat} (hc : 0 < chunk) : ∀ (input : List (List (File α))) (ps : List (File α)),
    (chunks chunk ps input).flatten = ps ++ input.flatten := by
  intro input
  induction input with
  | nil =>
    intro ps
    rw [chunks, List.flatten_nil, List.append_nil]
    have := drain_flatten chunk true ps.length ps
    rw [drain_done hc _ _ (Nat.le_refl _), List.append_nil] at this
    exact this
  | cons b bs ih =>
    intro ps
    rw [chunks]
    by_cases h : b.length = 0
    · rw [if_pos h, ih, List.flatten_cons, List.eq_nil_of_length_eq_zero h, List.nil_append]
    · rw [if_neg h]
      dsimp only
      rw [List.flatten_append, ih, ← List.append_assoc, drain_flatten, List.flatten_cons, List.append_assoc]

theorem drain_sizes {chunk : Nat} (hc : 0 < chunk) (done : Bool) : ∀ (n : Nat) (ps : List (File α)),
    ∀ c ∈ (drain chunk done n ps).1, 0 < c.length ∧ c.length ≤ chunk := by
  intro n
  induction n with
  | zero => intro ps c h; simp [drain] at h
  | succ n ih =>
    intro ps c h
    rw [drain] at h
    by_cases hb : (!ps.isEmpty && (decide (chunk ≤ ps.length) || done)) = true
    · simp only [if_pos hb] at h
      rcases List.mem_cons.1 h with rfl | h
      · cases ps with
        | nil => simp at hb
        | cons f fs =>
          rw [List.length_take]
          simp only [List.length_cons]
          omega
      · exact ih _ c h
    · simp only [if_neg hb] at h
      simp at h

theorem chunks_sizes {chunk : Nat} (hc : 0 < chunk) : ∀ (input : List (List (File α))) (ps : List (File α)),
    ∀ c ∈ chunks chunk ps input, 0 < c.length ∧ c.length ≤ chunk := by
  intro input
  induction input with
  | nil => intro ps c h; exact drain_sizes hc true _ _ c h
  | cons b bs ih =>
    intro ps c h
    rw [chunks] at h
    by_cases hb : b.length = 0
    · rw [if_pos hb] at h; exact ih ps c h
    · rw [if_neg hb] at h
      dsimp only at h
      rcases List.mem_append.1 h with h | h
      · exact drain_sizes hc false _ _ c h
      · exact ih _ c h

/-- Every file is scanned in one chunk, in the order of the input, and no chunk has more than 1024 files. -/
theorem C136_chunks (input : List (List (File α))) :
    (chunks chunkFiles [] input).flatten = input.flatten
    ∧ ∀ c ∈ chunks chunkFiles [] input, c.length ≤ 1024 :=
  ⟨by rw [chunks_flatten (by decide)]; rfl, fun c hc => (chunks_sizes (by decide) input [] c hc).2⟩

example : (chunks (α := String) 2 [] [[⟨none, [], []⟩], [], [⟨none, [], []⟩, ⟨some {1}, [], []⟩]]).map
    List.length = [2, 1] := by decide +kernel

theorem scan_all {group : List (File α) → List (List (File α))} (hg : Spec.Grouping group)
    (p : α → Bool) (rowIndex : Bool) : ∀ (cs : List (List (File α))),
    (∀ f ∈ cs.flatten, Spec.PushedOk p f) →
    (((cs.map (scanChunk group rowIndex)).flatten.flatten).filter fun r => p r.1).Perm
      ((cs.flatten.flatMap (Spec.rowsOf rowIndex)).filter fun r => p r.1) := by
  intro cs
  induction cs with
  | nil => intro _; exact List.Perm.refl _
  | cons c cs ih =>
    intro h
    rw [List.map_cons, List.flatten_cons, List.flatten_append, List.filter_append, List.flatten_cons,
      List.flatMap_append, List.filter_append]
    exact (scanChunk_rows hg p rowIndex c fun f hf => h f (by simp [hf])).append
      (ih fun f hf => h f (by rw [List.flatten_cons]; exact List.mem_append_right _ hf))

/-- A scan without limit returns, of the rows that the predicate of the query keeps, those that no
vector marks, once each, with their positions in the file if asked for. The files may come in any batches
and be grouped in any way. -/
theorem C136_scan {group : List (File α) → List (List (File α))} (grouping : Spec.Grouping group)
    (p : α → Bool) (rowIndex : Bool) (input : List (List (File α)))
    (pushed : ∀ f ∈ input.flatten, Spec.PushedOk p f) :
    ((scan group rowIndex none input).flatten.filter fun r => p r.1).Perm
      ((input.flatten.flatMap (Spec.rowsOf rowIndex)).filter fun r => p r.1) := by
  have hc : (chunks chunkFiles [] input).flatten = input.flatten := (C136_chunks input).1
  unfold scan
  dsimp only
  rw [← hc]
  have h := scan_all grouping p rowIndex (chunks chunkFiles [] input) (by rw [hc]; exact pushed)
  cases hcs : chunks chunkFiles [] input with
  | nil => exact List.Perm.refl _
  | cons c cs => rw [hcs] at h; exact h

/-- A row index is the position in the physical file of a row that is not deleted. -/
theorem C136_scan_positions {group : List (File α) → List (List (File α))} (grouping : Spec.Grouping group)
    {input : List (List (File α))} {r : α} {i : Option Nat}
    (h : (r, i) ∈ (scan group true none input).flatten) :
    ∃ f ∈ input.flatten, ∃ n, i = some n ∧ f.plain.flatten[n]? = some r ∧ n ∉ f.dv.getD ∅ := by
  have hp : ((r, i) : α × Option Nat) ∈ input.flatten.flatMap (Spec.rowsOf true) := by
    have hc : (chunks chunkFiles [] input).flatten = input.flatten := (C136_chunks input).1
    unfold scan at h
    dsimp only at h
    rw [← hc]
    have hall : ∀ cs : List (List (File α)), (cs.map (scanChunk group true)).flatten.flatten
        = cs.flatten.flatMap (Spec.rowsOf true) := by
      intro cs
      induction cs with
      | nil => rfl
      | cons c cs ih =>
        rw [List.map_cons, List.flatten_cons, List.flatten_append, List.flatten_cons, List.flatMap_append, ih]
        congr 1
        unfold scanChunk
        rw [if_pos rfl, positionAware_flatten grouping true c (Or.inl rfl)]
    rw [← hall]
    cases hcs : chunks chunkFiles [] input with
    | nil => rw [hcs] at h; simp at h
    | cons c cs => rw [hcs] at h; exact h
  obtain ⟨f, hf, hr⟩ := List.mem_flatMap.1 hp
  unfold Spec.rowsOf Spec.visibleAt at hr
  obtain ⟨⟨x, n⟩, hx, he⟩ := List.mem_map.1 hr
  rw [List.mem_filter] at hx
  simp only [if_true, Prod.mk.injEq] at he
  obtain ⟨rfl, rfl⟩ := he
  refine ⟨f, hf, n, rfl, ?_, by simpa using hx.2⟩
  exact List.mem_zipIdx_iff_getElem?.1 hx.1

theorem limitRows_flatten : ∀ (bs : List (List β)) (n : Nat),
    (limitRows n bs).flatten = bs.flatten.take n := by
  intro bs
  induction bs with
  | nil => intro n; simp [limitRows]
  | cons b bs ih =>
    intro n
    rw [limitRows]
    by_cases h : n = 0
    · simp [h]
    · rw [if_neg h]
      dsimp only
      rw [List.flatten_cons, ih, List.flatten_cons, List.take_append]
      rcases Nat.le_total b.length n with hle | hle
      · rw [Nat.min_eq_left hle, List.take_of_length_le (Nat.le_refl _), List.take_of_length_le hle]
      · rw [Nat.min_eq_right hle, Nat.sub_self, show n - b.length = 0 by omega]

/-- A scan with a limit returns the first rows of the scan without limit, so deleted rows do not count. -/
theorem C136_limit (group : List (File α) → List (List (File α))) (rowIndex : Bool) (n : Nat)
    (input : List (List (File α))) :
    (scan group rowIndex (some n) input).flatten = (scan group rowIndex none input).flatten.take n :=
  limitRows_flatten _ n

/-! ### Examples -/

/-- Three files, the second with a vector; the groups put every file by itself. -/
def exFiles : List (List (File String)) :=
  [[⟨none, [["a"], ["b"]], [["b"]]⟩, ⟨some {0, 2}, [["c", "d"], ["e", "f"]], [["f"]]⟩], [⟨none, [["g"]], [["g"]]⟩]]

example : Spec.Grouping fun fs : List (File String) => fs.map fun f => [f] := by
  intro fs
  induction fs with
  | nil => exact List.Perm.refl _
  | cons f fs ih => simpa using ih

example : scan (fun fs => fs.map fun f => [f]) true none exFiles
    = [[("a", some 0)], [("b", some 1)], [("d", some 1)], [("f", some 3)], [("g", some 0)]] := by
  decide +kernel

example : scan (fun fs => fs.map fun f => [f]) false (some 3) exFiles
    = [[("b", none)], [("g", none)], [("d", none)]] := by decide +kernel

example : ∀ f ∈ exFiles.flatten, Spec.PushedOk (fun r => decide (r = "b" ∨ r = "f" ∨ r = "g")) f := by
  intro f hf
  simp only [exFiles, List.flatten_cons, List.flatten_nil, List.cons_append, List.nil_append,
    List.mem_cons, List.not_mem_nil, or_false] at hf
  rcases hf with rfl | rfl | rfl <;> simp [Spec.PushedOk]

/-! ### After a MERGE -/

/-- The rows of a table: those of its files that are not marked; `content` gives the rows of a file. -/
def Spec.tableRows {M : Type} (content : String → List α) (d : Dv.Disk) (t : List (Dv.Add M)) : List α :=
  t.flatMap fun a => Spec.visible ((Dv.Spec.marks d a).getD ∅) (content a.path)

/-- What a scan shows after a MERGE: of every file the rows that were not deleted before and that
the MERGE did not name. -/
theorem C136_after_merge {M : Type} [DecidableEq M] {t : List (Dv.Add M)}
    (distinct : (t.map Dv.Add.path).Nodup) {d : Dv.Disk} (stored : Dv.Spec.Stored d t)
    (readable : ∀ a ∈ t, Dv.Spec.marks d a ≠ none) {parts : List (List (Dv.Add M) × List Dv.Row)}
    (active : ∀ x ∈ parts, ∀ a ∈ x.1, a ∈ t) (together : ∀ x ∈ parts, Dv.Spec.Together x.2)
    (apart : Dv.Spec.Apart parts) {S : String → Finset Nat}
    (named : ∀ p i, i ∈ S p ↔ ∃ x ∈ parts, ∃ r ∈ x.2, Dv.Spec.Named r p i) {o : Dv.Out M}
    (h : Dv.runMerge parts (Dv.Out.start d) = .ok o) (content : String → List α) :
    (Spec.tableRows content o.disk (Dv.applyActions t o.actions)).Perm
      (t.flatMap fun a => Spec.visible ((Dv.Spec.marks d a).getD ∅ ∪ S a.path) (content a.path)) := by
  obtain ⟨⟨f, hf⟩, -⟩ := Dv.C134_merge distinct stored active together apart named h
  refine (hf.files.flatMap_right _).trans (List.Perm.of_eq ?_)
  rw [List.flatMap_map, List.flatMap_def, List.flatMap_def]
  congr 1
  apply List.map_congr_left
  intro a ha
  cases hm : Dv.Spec.marks d a with
  | none => exact (readable a ha hm).elim
  | some old =>
    rw [hf.marks a ha old hm, hf.path a ha]
    rfl

theorem visible_length (dv : Finset Nat) (rows : List α) :
    (Spec.visible dv rows).length = (Finset.range rows.length \ dv).card := by
  unfold Spec.visible Spec.visibleAt
  have h1 : ((rows.zipIdx.filter fun x => decide (x.2 ∉ dv)).map Prod.snd)
      = (List.range rows.length).filter fun i => decide (i ∉ dv) := by
    have : rows.zipIdx.map Prod.snd = List.range rows.length := by
      rw [List.zipIdx_map_snd, List.range_eq_range']
    rw [← this, List.filter_map]
    rfl
  have h2 := congrArg List.length h1
  rw [List.length_map] at h2 ⊢
  rw [h2]
  have hn : ((List.range rows.length).filter fun i => decide (i ∉ dv)).Nodup :=
    List.nodup_range.filter _
  rw [← List.toFinset_card_of_nodup hn]
  congr 1
  ext i
  simp

/-- Marking rows that exist and are not deleted removes exactly that many rows from what is shown. -/
theorem C136_visible_count (old new : Finset Nat) (rows : List α)
    (apart : Disjoint old new) (inside : ∀ i ∈ new, i < rows.length) :
    (Spec.visible (old ∪ new) rows).length + new.card = (Spec.visible old rows).length := by
  have e : Finset.range rows.length \ (old ∪ new) = (Finset.range rows.length \ old) \ new := by
    ext i
    simp only [Finset.mem_sdiff, Finset.mem_union, not_or, and_assoc]
  rw [visible_length, visible_length, e]
  apply Finset.card_sdiff_add_card_eq_card
  intro i hi
  rw [Finset.mem_sdiff, Finset.mem_range]
  exact ⟨inside i hi, fun ho => (Finset.disjoint_left.1 apart ho hi)⟩

example : (Spec.visible ({2} ∪ {0, 1}) ["a", "b", "c", "d"]).length + 2
    = (Spec.visible {2} ["a", "b", "c", "d"]).length := by decide +kernel

/-- The hypotheses of `C136_after_merge` hold of the example of C134. -/
example : ∀ a ∈ Dv.exTable, Dv.Spec.marks Dv.exDisk a ≠ none := by
  intro a ha
  simp only [Dv.exTable, List.mem_cons, List.not_mem_nil, or_false] at ha
  rcases ha with rfl | rfl | rfl <;> simp [Dv.Spec.marks, Dv.exDisk]

end Verif.Delta.DvScan
