import Verif.Arrays.ExistsProps
/-!
# filter, transform and aggregate work row by row (C132)
-/
namespace Verif.Arrays

variable {α β γ σ τ : Type}

namespace Spec

/-- A lambda on all elements of one array, each with its index; `none` if it fails on one. -/
def rowEval (f : Nat → α → Option β) (xs : List α) : Option (List β) :=
  allRows (xs.zipIdx.map (fun e : α × Nat => f e.2 e.1))

/-- transform on a cell. -/
def transformCell (f : Nat → α → Option β) (c : Option (List α)) : Option (Option (List β)) :=
  c.elim (some none) (fun xs : List α => (rowEval f xs).map some)

/-- The elements whose verdict is true. -/
def keep (xs : List α) (bs : List (Option Bool)) : List α :=
  ((xs.zip bs).filter (fun e : α × Option Bool => e.2 == some true)).map Prod.fst

/-- filter on a cell. -/
def filterCell (f : Nat → α → Option (Option Bool)) (c : Option (List α)) : Option (Option (List α)) :=
  c.elim (some none) (fun xs : List α => ((rowEval f xs).map (keep xs)).map some)

/-- aggregate on a cell: a left fold from the start value, then finish. -/
def aggregateCell (merge : σ → α → Option σ) (finish : σ → Option (Option τ)) (z : σ)
    (c : Option (List α)) : Option (Option τ) :=
  c.elim (some none) (fun xs : List α => (xs.foldlM merge z).bind finish)

end Spec

/-! ## Rows that all succeed -/

theorem allRows_bind (s : γ → Option σ) (t : γ → σ → Option τ) (l : List γ) :
    Spec.allRows (l.map (fun e : γ => (s e).bind (t e))) =
      (Spec.allRows (l.map s)).bind (fun ys : List σ => Spec.allRows (List.zipWith t l ys)) := by
  induction l with
  | nil => rfl
  | cons e l ih =>
    simp only [List.map_cons, Spec.allRows, ih]
    cases hs : s e with
    | none => rfl
    | some y =>
      simp only [Option.bind_some]
      cases Spec.allRows (l.map s) with
      | none => cases t e y <;> rfl
      | some ys =>
        simp only [Option.bind_some, List.zipWith_cons_cons, Spec.allRows]

theorem allRows_cells (g : Nat → List α → Option γ) (hg : ∀ r, (g r []).isSome = true) (k : Nat)
    (cells : List (Option (List α))) :
    Spec.allRows ((cells.zipIdx k).map (fun e : Option (List α) × Nat =>
        e.1.elim (some none) (fun xs : List α => (g e.2 xs).map some))) =
      (Spec.allRows ((cells.zipIdx k).map (fun e : Option (List α) × Nat => g e.2 (e.1.getD [])))).map
        (fun ys : List γ => List.zipWith (fun p v => if v then some p else none) ys (validity cells)) := by
  induction cells generalizing k with
  | nil => rfl
  | cons c rest ih =>
    simp only [List.zipIdx_cons, List.map_cons, Spec.allRows, ih (k + 1), validity]
    generalize Spec.allRows ((rest.zipIdx (k + 1)).map (fun e : Option (List α) × Nat =>
      g e.2 (e.1.getD []))) = A
    cases c with
    | none =>
      have := hg k
      simp only [Option.getD_none, Option.elim_none]
      cases hk : g k [] with
      | none => rw [hk] at this; cases this
      | some y => cases A <;> rfl
    | some xs =>
      simp only [Option.getD_some, Option.elim_some]
      cases g k xs <;> cases A <;> rfl

/-! ## Evaluating a lambda on all values -/

theorem indexArray_offsetsOf (o n : Nat) (ns : List Nat) :
    indexArray (offsetsOf o (n :: ns)) = List.range n ++ indexArray (offsetsOf (o + n) ns) := by
  have hne : ∃ t, offsetsOf (o + n) ns = (o + n) :: t := by
    cases ns <;> exact ⟨_, rfl⟩
  obtain ⟨t, ht⟩ := hne
  rw [offsetsOf, ht, indexArray, Nat.add_sub_cancel_left]

theorem evalAll_append (f : Nat → Nat → α → Option β) (rs is : List Nat) (xs : List α)
    (rs' is' : List Nat) (xs' : List α) (h1 : rs.length = xs.length) (h2 : is.length = xs.length) :
    evalAll f (rs ++ rs') (is ++ is') (xs ++ xs') =
      (evalAll f rs is xs).bind (fun a : List β => (evalAll f rs' is' xs').map (a ++ ·)) := by
  induction xs generalizing rs is with
  | nil =>
    cases rs with
    | cons _ _ => simp at h1
    | nil =>
      cases is with
      | cons _ _ => simp at h2
      | nil => simp [evalAll]
  | cons x xs ih =>
    cases rs with
    | nil => simp at h1
    | cons r rs =>
      cases is with
      | nil => simp at h2
      | cons i is =>
        simp only [List.cons_append, evalAll, ih rs is (by simpa using h1) (by simpa using h2)]
        cases f r i x with
        | none => rfl
        | some y =>
          cases evalAll f rs is xs with
          | none => rfl
          | some ys => cases evalAll f rs' is' xs' <;> rfl

theorem evalAll_row (f : Nat → Nat → α → Option β) (k j : Nat) (xs : List α) :
    evalAll f (List.replicate xs.length k) (List.range' j xs.length) xs =
      Spec.allRows ((xs.zipIdx j).map (fun e : α × Nat => f k e.2 e.1)) := by
  induction xs generalizing j with
  | nil => rfl
  | cons x xs ih =>
    simp only [List.length_cons, List.replicate_succ, List.range'_succ, evalAll, List.zipIdx_cons,
      List.map_cons, Spec.allRows, ih (j + 1)]
    cases f k j x with
    | none => rfl
    | some y => cases Spec.allRows ((xs.zipIdx (j + 1)).map (fun e : α × Nat => f k e.2 e.1)) <;> rfl

theorem evalAll_rows (f : Nat → Nat → α → Option β) (k o : Nat) (cells : List (Option (List α))) :
    evalAll f (rowNumbers k cells) (indexArray (offsetsOf o (rowLens cells))) (flatValues cells) =
      (Spec.allRows ((cells.zipIdx k).map (fun e : Option (List α) × Nat =>
        Spec.rowEval (f e.2) (e.1.getD [])))).map List.flatten := by
  induction cells generalizing k o with
  | nil => rfl
  | cons c rest ih =>
    have hfl : flatValues (c :: rest) = c.getD [] ++ flatValues rest := rfl
    have hrl : rowLens (c :: rest) = (c.getD []).length :: rowLens rest := rfl
    rw [hfl, hrl, rowNumbers, indexArray_offsetsOf, evalAll_append _ _ _ _ _ _ _ (by simp) (by simp),
      List.range_eq_range', evalAll_row, ih (k + 1)]
    simp only [List.zipIdx_cons, List.map_cons, Spec.allRows, Spec.rowEval]
    cases Spec.allRows (((c.getD []).zipIdx 0).map (fun e : α × Nat => f k e.2 e.1)) with
    | none => rfl
    | some ys =>
      cases Spec.allRows ((rest.zipIdx (k + 1)).map (fun e : Option (List α) × Nat =>
        Spec.allRows (((e.1.getD []).zipIdx).map (fun d : α × Nat => f e.2 d.2 d.1)))) <;> rfl

theorem rowEval_length (f : Nat → α → Option β) (xs : List α) (ys : List β)
    (h : Spec.rowEval f xs = some ys) : ys.length = xs.length := by
  have := allRows_length _ _ h
  simpa using this

theorem rowEval_lens (f : Nat → Nat → α → Option β) (k : Nat) (cells : List (Option (List α)))
    (yss : List (List β)) (h : Spec.allRows ((cells.zipIdx k).map (fun e : Option (List α) × Nat =>
        Spec.rowEval (f e.2) (e.1.getD []))) = some yss) :
    yss.map List.length = rowLens cells := by
  induction cells generalizing k yss with
  | nil => cases h; rfl
  | cons c rest ih =>
    simp only [List.zipIdx_cons, List.map_cons, Spec.allRows] at h
    cases h1 : Spec.rowEval (f k) (c.getD []) with
    | none => rw [h1] at h; cases h
    | some y =>
      rw [h1] at h
      cases h2 : Spec.allRows ((rest.zipIdx (k + 1)).map (fun e : Option (List α) × Nat =>
        Spec.rowEval (f e.2) (e.1.getD []))) with
      | none => rw [h2] at h; cases h
      | some ys =>
        rw [h2] at h
        cases h
        have := ih (k + 1) ys h2
        simp only [List.map_cons, this, rowLens, rowEval_length _ _ _ h1]

/-! ## The early returns -/

theorem all_null (cells : List (Option (List α))) (k : Nat) (g : Nat → List α → Option (Option γ))
    (h : cells.all Option.isNone = true) :
    Spec.allRows ((cells.zipIdx k).map (fun e : Option (List α) × Nat =>
      e.1.elim (some none) (g e.2))) = some (cells.map (fun _ => none)) := by
  induction cells generalizing k with
  | nil => rfl
  | cons c rest ih =>
    simp only [List.all_cons, Bool.and_eq_true] at h
    cases c with
    | some xs => cases h.1
    | none => simp [Spec.allRows, ih (k + 1) h.2]

theorem all_empty (cells : List (Option (List α))) (k : Nat) (g : Nat → List α → Option (Option (List γ)))
    (hg : ∀ r, g r [] = some (some [])) (h : (flatValues cells).isEmpty = true)
    (hs : cells.all Option.isSome = true) :
    Spec.allRows ((cells.zipIdx k).map (fun e : Option (List α) × Nat =>
      e.1.elim (some none) (g e.2))) = some (cells.map (fun _ => some [])) := by
  induction cells generalizing k with
  | nil => rfl
  | cons c rest ih =>
    simp only [List.all_cons, Bool.and_eq_true] at hs
    have hfl : flatValues (c :: rest) = c.getD [] ++ flatValues rest := rfl
    rw [hfl, List.isEmpty_iff, List.append_eq_nil_iff] at h
    cases c with
    | none => cases hs.1
    | some xs =>
      have hx : xs = [] := h.1
      subst hx
      simp [Spec.allRows, ih (k + 1) (by rw [List.isEmpty_iff]; exact h.2) hs.2, hg]

/-! ## transform -/

/-- **C132**: transform applies the lambda to every element with its index and the columns of its
row, keeps the number and order of the elements, and fails exactly if the lambda fails on an
element. -/
theorem C132_transform (f : Nat → Nat → α → Option β) (cells : List (Option (List α))) :
    transformInvoke f cells =
      Spec.allRows (cells.zipIdx.map (fun e : Option (List α) × Nat => Spec.transformCell (f e.2) e.1)) := by
  unfold transformInvoke
  by_cases h1 : cells.all Option.isNone = true
  · rw [if_pos h1]; exact (all_null cells 0 (fun (r : Nat) (xs : List α) => (Spec.rowEval (f r) xs).map some) h1).symm
  · rw [if_neg h1]
    by_cases h2 : ((flatValues cells).isEmpty && cells.all Option.isSome) = true
    · rw [if_pos h2]
      rw [Bool.and_eq_true] at h2
      exact (all_empty cells 0 (fun (r : Nat) (xs : List α) => (Spec.rowEval (f r) xs).map some) (fun _ => rfl) h2.1 h2.2).symm
    · rw [if_neg h2]
      have hspec := allRows_cells (fun (r : Nat) (xs : List α) => Spec.rowEval (f r) xs) (fun _ => rfl) 0 cells
      rw [show adjOffsets cells = offsetsOf 0 (rowLens cells) from rfl, evalAll_rows]
      unfold Spec.transformCell
      rw [hspec]
      cases h : Spec.allRows ((cells.zipIdx 0).map (fun e : Option (List α) × Nat =>
        Spec.rowEval (f e.2) (e.1.getD []))) with
      | none => rfl
      | some yss =>
        have hl := rowEval_lens f 0 cells yss h
        have hn : yss.length = cells.length := by
          have := congrArg List.length hl
          simpa [rowLens] using this
        obtain ⟨d, hd1, hd2⟩ := mkList_pieces yss (validity cells) (by simp [validity, hn])
        simp only [Option.map_some]
        rw [← hl, hd1, Option.map_some, hd2]

/-! ## filter -/

theorem filterOffsets_spec (p pre : List (Option Bool)) (bss : List (List (Option Bool))) (acc : Nat)
    (hp : p = pre ++ bss.flatten) :
    filterOffsets p acc (offsetsOf pre.length (bss.map List.length)) =
      offsetsOf acc (bss.map (fun bs : List (Option Bool) =>
        (bs.filter (fun b : Option Bool => b == some true)).length)) := by
  induction bss generalizing pre acc with
  | nil => rfl
  | cons bs bss ih =>
    have hne : ∃ t, offsetsOf (pre.length + bs.length) (bss.map List.length) =
        (pre.length + bs.length) :: t := by
      cases bss <;> exact ⟨_, rfl⟩
    obtain ⟨t, ht⟩ := hne
    have hrec := ih (pre ++ bs) (acc + (bs.filter (fun b : Option Bool => b == some true)).length)
      (by rw [hp]; simp)
    rw [List.length_append, ht] at hrec
    simp only [List.map_cons, offsetsOf]
    rw [ht, filterOffsets]
    have hseg : (p.drop pre.length).take (pre.length + bs.length - pre.length) = bs := by
      rw [hp, List.flatten_cons]
      simp
    simp only [hseg, hrec]

theorem keep_length (xs : List α) (bs : List (Option Bool)) (h : bs.length = xs.length) :
    (Spec.keep xs bs).length = (bs.filter (fun b : Option Bool => b == some true)).length := by
  induction xs generalizing bs with
  | nil =>
    cases bs with
    | nil => rfl
    | cons _ _ => simp at h
  | cons x xs ih =>
    cases bs with
    | nil => simp at h
    | cons b bs =>
      have := ih bs (by simpa using h)
      simp only [Spec.keep, List.zip_cons_cons, List.filter_cons] at this ⊢
      by_cases hb : (b == some true) = true
      · rw [if_pos hb, if_pos hb]; simp only [List.map_cons, List.length_cons, this]
      · rw [if_neg hb, if_neg hb]; exact this

theorem keep_mask (xs : List α) (bs : List (Option Bool)) :
    maskFilter xs (bs.map (fun b : Option Bool => b == some true)) = Spec.keep xs bs := by
  induction xs generalizing bs with
  | nil => cases bs <;> simp [maskFilter, Spec.keep]
  | cons x xs ih =>
    cases bs with
    | nil => simp [maskFilter, Spec.keep]
    | cons b bs =>
      have := ih bs
      simp only [Spec.keep, List.zip_cons_cons, List.filter_cons, List.map_cons] at this ⊢
      cases hb : (b == some true)
      · simp only [maskFilter, this]; rfl
      · simp only [maskFilter, this]; rfl

theorem keep_sublist (xs : List α) (bs : List (Option Bool)) : (Spec.keep xs bs).Sublist xs := by
  induction xs generalizing bs with
  | nil => simp [Spec.keep]
  | cons x xs ih =>
    cases bs with
    | nil => simp [Spec.keep]
    | cons b bs =>
      have := ih bs
      simp only [Spec.keep, List.zip_cons_cons, List.filter_cons] at this ⊢
      by_cases hb : (b == some true) = true
      · rw [if_pos hb]; exact this.cons_cons x
      · rw [if_neg hb]; exact this.cons x

theorem maskFilter_rows (rows : List (List α)) (bss : List (List (Option Bool)))
    (h : bss.map List.length = rows.map List.length) :
    maskFilter rows.flatten (bss.flatten.map (fun b : Option Bool => b == some true)) =
      (List.zipWith Spec.keep rows bss).flatten := by
  induction rows generalizing bss with
  | nil =>
    cases bss with
    | nil => rfl
    | cons _ _ => simp at h
  | cons xs rows ih =>
    cases bss with
    | nil => simp at h
    | cons bs bss =>
      simp only [List.map_cons, List.cons.injEq] at h
      rw [List.flatten_cons, List.flatten_cons, List.map_append,
        maskFilter_append _ _ _ (by simp [h.1]), List.length_map, h.1, List.drop_left,
        ih bss h.2, List.zipWith_cons_cons, List.flatten_cons]
      congr 1
      rw [← keep_mask]
      have := maskFilter_take (xs ++ rows.flatten) (bs.map (fun b : Option Bool => b == some true))
      have h2 := maskFilter_take xs (bs.map (fun b : Option Bool => b == some true))
      rw [this, h2]
      simp [h.1]

theorem keep_lengths (rows : List (List α)) (bss : List (List (Option Bool)))
    (h : bss.map List.length = rows.map List.length) :
    bss.map (fun bs : List (Option Bool) => (bs.filter (fun b : Option Bool => b == some true)).length) =
      (List.zipWith Spec.keep rows bss).map List.length := by
  induction rows generalizing bss with
  | nil =>
    cases bss with
    | nil => rfl
    | cons _ _ => simp at h
  | cons xs rows ih =>
    cases bss with
    | nil => simp at h
    | cons bs bss =>
      simp only [List.map_cons, List.cons.injEq] at h
      simp only [List.map_cons, List.zipWith_cons_cons, ih bss h.2, keep_length xs bs h.1]

theorem keep_sum_le (rows : List (List α)) (bss : List (List (Option Bool))) :
    ((List.zipWith Spec.keep rows bss).map List.length).sum ≤ (rows.map List.length).sum := by
  induction rows generalizing bss with
  | nil => simp
  | cons xs rows ih =>
    cases bss with
    | nil => simp
    | cons bs bss =>
      have := ih bss
      have := (keep_sublist xs bs).length_le
      simp only [List.zipWith_cons_cons, List.map_cons, List.sum_cons]
      omega

theorem keep_all (rows : List (List α)) (bss : List (List (Option Bool)))
    (h : bss.length = rows.length)
    (hs : ((List.zipWith Spec.keep rows bss).map List.length).sum = (rows.map List.length).sum) :
    List.zipWith Spec.keep rows bss = rows := by
  induction rows generalizing bss with
  | nil => simp
  | cons xs rows ih =>
    cases bss with
    | nil => simp at h
    | cons bs bss =>
      have h1 := keep_sum_le rows bss
      have h2 := (keep_sublist xs bs).length_le
      simp only [List.zipWith_cons_cons, List.map_cons, List.sum_cons] at hs ⊢
      rw [ih bss (by simpa using h) (by omega), (keep_sublist xs bs).eq_of_length (by omega)]

theorem offsetsOf_last (o : Nat) (ns : List Nat) : (offsetsOf o ns).getLast? = some (o + ns.sum) := by
  have h := last_offsetsOf o ns
  cases hc : (offsetsOf o ns).getLast? with
  | none => exact absurd (List.getLast?_eq_none_iff.mp hc) (offsetsOf_ne_nil _ _)
  | some v => rw [hc] at h; exact congrArg some h

theorem filterListValues_spec (rows : List (List α)) (bss : List (List (Option Bool)))
    (h : bss.map List.length = rows.map List.length) :
    filterListValues rows.flatten bss.flatten (offsetsOf 0 (rows.map List.length)) =
      ((List.zipWith Spec.keep rows bss).flatten,
        offsetsOf 0 ((List.zipWith Spec.keep rows bss).map List.length)) := by
  have hl : bss.length = rows.length := by
    have := congrArg List.length h
    simpa using this
  have hoff := filterOffsets_spec bss.flatten [] bss 0 rfl
  rw [List.length_nil, h, keep_lengths rows bss h] at hoff
  unfold filterListValues
  simp only [hoff]
  rw [offsetsOf_last, offsetsOf_last]
  by_cases hc : some (0 + ((List.zipWith Spec.keep rows bss).map List.length).sum) =
      some (0 + (rows.map List.length).sum)
  · rw [if_pos hc]
    have hc' := Option.some.inj hc
    rw [keep_all rows bss hl (by omega)]
  · rw [if_neg hc, maskFilter_rows rows bss h]

theorem allRows_keep (f : Nat → Nat → α → Option (Option Bool)) (k : Nat) (cells : List (Option (List α))) :
    Spec.allRows ((cells.zipIdx k).map (fun e : Option (List α) × Nat =>
        (Spec.rowEval (f e.2) (e.1.getD [])).map (Spec.keep (e.1.getD [])))) =
      (Spec.allRows ((cells.zipIdx k).map (fun e : Option (List α) × Nat =>
        Spec.rowEval (f e.2) (e.1.getD [])))).map
        (fun bss => List.zipWith Spec.keep (cells.map (fun c : Option (List α) => c.getD [])) bss) := by
  induction cells generalizing k with
  | nil => rfl
  | cons c rest ih =>
    simp only [List.zipIdx_cons, List.map_cons, Spec.allRows, ih (k + 1)]
    cases Spec.rowEval (f k) (c.getD []) with
    | none => rfl
    | some y =>
      cases Spec.allRows ((rest.zipIdx (k + 1)).map (fun e : Option (List α) × Nat =>
        Spec.rowEval (f e.2) (e.1.getD []))) <;> rfl

theorem rowEval_const (f : Nat → α → Option (Option Bool)) (b : Option Bool)
    (h : ∀ i x, f i x = some b) (xs : List α) :
    Spec.rowEval f xs = some (List.replicate xs.length b) := by
  unfold Spec.rowEval
  apply allRows_some
  apply List.ext_getElem
  · simp
  · intro i h1 h2; simp [h]

theorem keep_replicate (xs : List α) (b : Option Bool) :
    Spec.keep xs (List.replicate xs.length b) = if b = some true then xs else [] := by
  induction xs with
  | nil => simp [Spec.keep]
  | cons x xs ih =>
    simp only [Spec.keep, List.length_cons, List.replicate_succ, List.zip_cons_cons,
      List.filter_cons] at ih ⊢
    by_cases hb : b = some true
    · rw [if_pos hb] at ih ⊢
      rw [if_pos (by simp [hb]), List.map_cons, ih]
    · rw [if_neg hb] at ih ⊢
      rw [if_neg (by simpa using hb), ih]

theorem filter_const (f : Nat → Nat → α → Option (Option Bool)) (b : Option Bool)
    (h : ∀ r i x, f r i x = some b) (k : Nat) (cells : List (Option (List α))) :
    Spec.allRows ((cells.zipIdx k).map (fun e : Option (List α) × Nat => Spec.filterCell (f e.2) e.1)) =
      some (cells.map (fun c : Option (List α) => c.map (fun xs => if b = some true then xs else []))) := by
  induction cells generalizing k with
  | nil => rfl
  | cons c rest ih =>
    simp only [List.zipIdx_cons, List.map_cons, Spec.allRows, ih (k + 1)]
    cases c with
    | none => rfl
    | some xs =>
      simp only [Spec.filterCell, Option.elim_some, rowEval_const (f k) b (h k) xs, Option.map_some,
        keep_replicate]

/-- **C132**: filter keeps in every row the elements on which the lambda is true, in their order,
NULL stays NULL, and it fails exactly if the lambda fails on an element.  `const` is the value of a
body that depends on nothing. -/
theorem C132_filter (const : Option (Option Bool)) (f : Nat → Nat → α → Option (Option Bool))
    (cells : List (Option (List α))) (hc : ∀ b, const = some b → ∀ r i x, f r i x = some b) :
    filterInvoke const f cells =
      Spec.allRows (cells.zipIdx.map (fun e : Option (List α) × Nat => Spec.filterCell (f e.2) e.1)) := by
  unfold filterInvoke
  by_cases h1 : cells.all Option.isNone = true
  · rw [if_pos h1]; exact (all_null cells 0 (fun (r : Nat) (xs : List α) => ((Spec.rowEval (f r) xs).map (Spec.keep xs)).map some) h1).symm
  · rw [if_neg h1]
    by_cases h2 : ((flatValues cells).isEmpty && cells.all Option.isSome) = true
    · rw [if_pos h2]
      rw [Bool.and_eq_true] at h2
      exact (all_empty cells 0 (fun (r : Nat) (xs : List α) => ((Spec.rowEval (f r) xs).map (Spec.keep xs)).map some) (fun _ => rfl) h2.1 h2.2).symm
    · rw [if_neg h2]
      cases const with
      | some b =>
        rw [filter_const f b (hc b rfl)]
        by_cases hb : b = some true
        · subst hb
          simp only [if_true]
          congr 1
          induction cells with
          | nil => rfl
          | cons c rest ih => cases c <;> simp
        · have hz : (mkList ([] : List α) (List.replicate (cells.length + 1) 0) (validity cells)).map
              ListCol.cells = some (cells.map (fun c : Option (List α) => c.map (fun _ => []))) := by
            obtain ⟨d, hd1, hd2⟩ := mkList_pieces (cells.map (fun _ : Option (List α) => ([] : List α)))
              (validity cells) (by simp [validity])
            have e1 : (cells.map (fun _ : Option (List α) => ([] : List α))).flatten = [] := by
              simp
            have e2 : ∀ l : List (Option (List α)), offsetsOf 0 ((l.map (fun _ : Option (List α) =>
                ([] : List α))).map List.length) = List.replicate (l.length + 1) 0 := by
              intro l
              induction l with
              | nil => rfl
              | cons c rest ih => simp only [List.map_cons, List.length_nil, offsetsOf, ih,
                  List.length_cons, List.replicate_succ]
            rw [e1, e2] at hd1
            rw [hd1, Option.map_some, hd2]
            congr 1
            clear hd1 hd2 e1 h1 h2
            induction cells with
            | nil => rfl
            | cons c rest ih =>
              simp only [validity, List.map_cons, List.zipWith_cons_cons] at ih ⊢
              rw [ih]
              cases c <;> rfl
          simp only [if_neg hb]
          cases b with
          | none => exact hz
          | some b =>
            cases b with
            | true => exact absurd rfl hb
            | false => exact hz
      | none =>
        have hspec := allRows_cells (fun (r : Nat) (xs : List α) =>
          (Spec.rowEval (f r) xs).map (Spec.keep xs)) (fun _ => rfl) 0 cells
        rw [allRows_keep] at hspec
        unfold Spec.filterCell
        rw [hspec]
        dsimp only
        rw [show adjOffsets cells = offsetsOf 0 (rowLens cells) from rfl, evalAll_rows]
        cases h : Spec.allRows ((cells.zipIdx 0).map (fun e : Option (List α) × Nat =>
          Spec.rowEval (f e.2) (e.1.getD []))) with
        | none => rfl
        | some bss =>
          have hl := rowEval_lens f 0 cells bss h
          have hrl : rowLens cells = (cells.map (fun c : Option (List α) => c.getD [])).map List.length := by
            simp [rowLens]
          have hn : bss.length = cells.length := by
            have := congrArg List.length hl
            simpa [rowLens] using this
          have hfv := filterListValues_spec (cells.map (fun c : Option (List α) => c.getD [])) bss
            (by rw [hl, hrl])
          simp only [Option.map_some]
          rw [show flatValues cells = (cells.map (fun c : Option (List α) => c.getD [])).flatten from rfl,
            hrl, hfv]
          obtain ⟨d, hd1, hd2⟩ := mkList_pieces (List.zipWith Spec.keep
            (cells.map (fun c : Option (List α) => c.getD [])) bss) (validity cells) (by simp [validity, hn])
          simp only
          rw [hd1, Option.map_some, hd2]

/-- **C132**: what filter keeps: a subsequence of the row. -/
theorem C132_filter_order (f : Nat → α → Option (Option Bool)) (xs ys : List α)
    (h : Spec.filterCell f (some xs) = some (some ys)) : ys.Sublist xs := by
  simp only [Spec.filterCell, Option.elim_some] at h
  cases hr : Spec.rowEval f xs with
  | none => rw [hr] at h; cases h
  | some bs =>
    rw [hr] at h
    cases h
    exact keep_sublist xs bs

/-! ## aggregate -/

/-- The rows with an element at a depth, their accumulators and these elements. -/
def picked (d : Nat) : Nat → List (Option (List α)) → List σ → List (Nat × σ × α)
  | k, c :: cells, a :: accs =>
    match (c.getD [])[d]? with
    | some x => (k, a, x) :: picked d (k + 1) cells accs
    | none => picked d (k + 1) cells accs
  | _, _, _ => []

/-- What one depth does to a row. -/
def stepRow (merge : Nat → σ → α → Option σ) (d : Nat) (e : (Option (List α) × σ) × Nat) : Option σ :=
  ((e.1.1.getD [])[d]?).elim (some e.1.2) (fun x : α => merge e.2 e.1.2 x)

theorem arrowTake_cons (xs : List α) (x : α) (is : List Nat) :
    arrowTake (x :: xs) (is.map (· + 1)) = arrowTake xs is := by
  induction is with
  | nil => rfl
  | cons i is ih => simp [arrowTake, ih]

theorem gather_spec (d k o : Nat) (cells : List (Option (List α))) (accs preA : List σ) (preV : List α)
    (h : accs.length = cells.length) (hA : preA.length = k) (hV : preV.length = o) :
    (gatherRows d k (offsetsOf o (rowLens cells)) (validity cells)).map Prod.fst =
        (picked d k cells accs).map (fun p : Nat × σ × α => p.1) ∧
      arrowTake (preA ++ accs) ((picked d k cells accs).map (fun p : Nat × σ × α => p.1)) =
        some ((picked d k cells accs).map (fun p : Nat × σ × α => p.2.1)) ∧
      arrowTake (preV ++ flatValues cells)
          ((gatherRows d k (offsetsOf o (rowLens cells)) (validity cells)).map Prod.snd) =
        some ((picked d k cells accs).map (fun p : Nat × σ × α => p.2.2)) := by
  induction cells generalizing k o accs preA preV with
  | nil => cases accs <;> exact ⟨rfl, rfl, rfl⟩
  | cons c rest ih =>
    cases accs with
    | nil => simp at h
    | cons a accs =>
      have hne : ∃ t, offsetsOf (o + (c.getD []).length) (rowLens rest) =
          (o + (c.getD []).length) :: t := by
        cases rest <;> exact ⟨_, rfl⟩
      obtain ⟨t, ht⟩ := hne
      have hrec := ih (k + 1) (o + (c.getD []).length) accs (preA ++ [a]) (preV ++ c.getD [])
        (by simpa using h) (by simp [hA]) (by simp [hV])
      rw [ht] at hrec
      have hrl : rowLens (c :: rest) = (c.getD []).length :: rowLens rest := rfl
      have hvl : validity (c :: rest) = c.isSome :: validity rest := rfl
      have hfl : flatValues (c :: rest) = c.getD [] ++ flatValues rest := rfl
      rw [hrl, hvl, hfl, offsetsOf, ht, gatherRows]
      simp only [List.append_assoc, List.cons_append, List.nil_append] at hrec
      by_cases hd : d < (c.getD []).length
      · have hv : (c.isSome && decide (o + d < o + (c.getD []).length)) = true := by
          cases c with
          | none => simp at hd
          | some xs => simpa using hd
        have hx : (c.getD [])[d]? = some ((c.getD [])[d]) := List.getElem?_eq_getElem hd
        rw [if_pos hv]
        simp only [picked, hx, List.map_cons, hrec.1, arrowTake, hrec.2.1, hrec.2.2]
        refine ⟨trivial, ?_, ?_⟩
        · have : (preA ++ a :: accs)[k]? = some a := by
            rw [List.getElem?_append_right (by omega)]; simp [hA]
          rw [this]
        · have : (preV ++ (c.getD [] ++ flatValues rest))[o + d]? = some ((c.getD [])[d]) := by
            rw [List.getElem?_append_right (by omega), hV, Nat.add_sub_cancel_left,
              List.getElem?_append_left hd, hx]
          rw [this]
      · have hv : ¬ (c.isSome && decide (o + d < o + (c.getD []).length)) = true := by
          simp only [Bool.and_eq_true, decide_eq_true_eq]
          omega
        have hx : (c.getD [])[d]? = none := List.getElem?_eq_none (by omega)
        rw [if_neg hv]
        simp only [picked, hx]
        exact hrec

theorem picked_ge (d k : Nat) (cells : List (Option (List α))) (accs : List σ) :
    ∀ r ∈ (picked d k cells accs).map (fun p : Nat × σ × α => p.1), k ≤ r := by
  induction cells generalizing k accs with
  | nil => simp [picked]
  | cons c rest ih =>
    cases accs with
    | nil => simp [picked]
    | cons a accs =>
      intro r hr
      simp only [picked] at hr
      cases hx : (c.getD [])[d]? with
      | none =>
        rw [hx] at hr
        have := ih (k + 1) accs r hr
        omega
      | some x =>
        rw [hx, List.map_cons] at hr
        rcases List.mem_cons.mp hr with h | h
        · subst h; exact Nat.le_refl _
        · have := ih (k + 1) accs r h
          omega

theorem scatter_skip (base : List σ) (k : Nat) (x : σ) (hx : base[k]? = some x) (rows : List Nat)
    (us : List σ) (h : ∀ r ∈ rows, k + 1 ≤ r) :
    scatterFrom base k rows us = (scatterFrom base (k + 1) rows us).map (x :: ·) := by
  have hk : k < base.length := (List.getElem?_eq_some_iff.mp hx).1
  have hxe : base[k] = x := (List.getElem?_eq_some_iff.mp hx).2
  have hdrop : base.drop k = x :: base.drop (k + 1) := by
    rw [List.drop_eq_getElem_cons hk, hxe]
  cases rows with
  | nil =>
    cases us with
    | nil => rw [scatterFrom, scatterFrom, Option.map_some, hdrop]
    | cons _ _ => rfl
  | cons r rs =>
    cases us with
    | nil => rfl
    | cons u us =>
      have hr := h r (by simp)
      rw [scatterFrom, scatterFrom]
      by_cases hb : base.length ≤ r
      · rw [if_pos (Or.inr hb), if_pos (Or.inr hb)]; rfl
      · rw [if_neg (by omega), if_neg (by omega), Option.map_map]
        congr 1
        funext t
        have : r - k = (r - (k + 1)) + 1 := by omega
        simp only [Function.comp_def]
        rw [hdrop, this, List.take_succ_cons, List.cons_append]

theorem scatter_here (base : List σ) (k : Nat) (hk : k < base.length) (rs : List Nat) (u : σ) (us : List σ) :
    scatterFrom base k (k :: rs) (u :: us) = (scatterFrom base (k + 1) rs us).map (u :: ·) := by
  rw [scatterFrom, if_neg (by omega)]
  simp

theorem merge_scatter (merge : Nat → σ → α → Option σ) (d k : Nat) (cells : List (Option (List α)))
    (accs preA : List σ) (h : accs.length = cells.length) (hA : preA.length = k) :
    (evalMerge merge ((picked d k cells accs).map (fun p : Nat × σ × α => p.1))
        ((picked d k cells accs).map (fun p : Nat × σ × α => p.2.1))
        ((picked d k cells accs).map (fun p : Nat × σ × α => p.2.2))).bind
      (fun us : List σ => scatterFrom (preA ++ accs) k
        ((picked d k cells accs).map (fun p : Nat × σ × α => p.1)) us) =
      Spec.allRows (((cells.zip accs).zipIdx k).map (stepRow merge d)) := by
  induction cells generalizing k accs preA with
  | nil =>
    cases accs with
    | nil => simp [picked, evalMerge, scatterFrom, Spec.allRows, hA]
    | cons _ _ => simp at h
  | cons c rest ih =>
    cases accs with
    | nil => simp at h
    | cons a accs =>
      have hrec := ih (k + 1) accs (preA ++ [a]) (by simpa using h) (by simp [hA])
      rw [List.append_assoc, List.cons_append, List.nil_append] at hrec
      have hge := picked_ge d (k + 1) rest accs
      have hget : (preA ++ a :: accs)[k]? = some a := by
        rw [List.getElem?_append_right (by omega)]; simp [hA]
      have hlt : k < (preA ++ a :: accs).length := by simp; omega
      simp only [List.zip_cons_cons, List.zipIdx_cons, List.map_cons, Spec.allRows, ← hrec, picked, stepRow]
      cases hx : (c.getD [])[d]? with
      | none =>
        simp only [Option.elim_none]
        cases evalMerge merge ((picked d (k + 1) rest accs).map (fun p : Nat × σ × α => p.1))
            ((picked d (k + 1) rest accs).map (fun p : Nat × σ × α => p.2.1))
            ((picked d (k + 1) rest accs).map (fun p : Nat × σ × α => p.2.2)) with
        | none => rfl
        | some us =>
          simp only [Option.bind_some]
          rw [scatter_skip _ k a hget _ us hge]
          cases scatterFrom (preA ++ a :: accs) (k + 1)
            ((picked d (k + 1) rest accs).map (fun p : Nat × σ × α => p.1)) us <;> rfl
      | some x =>
        simp only [Option.elim_some, List.map_cons, evalMerge]
        cases merge k a x with
        | none => rfl
        | some y =>
          cases evalMerge merge ((picked d (k + 1) rest accs).map (fun p : Nat × σ × α => p.1))
            ((picked d (k + 1) rest accs).map (fun p : Nat × σ × α => p.2.1))
            ((picked d (k + 1) rest accs).map (fun p : Nat × σ × α => p.2.2)) with
          | none => rfl
          | some us =>
            simp only [Option.bind_some]
            rw [scatter_here _ k hlt]
            cases scatterFrom (preA ++ a :: accs) (k + 1)
              ((picked d (k + 1) rest accs).map (fun p : Nat × σ × α => p.1)) us <;> rfl

theorem mergeDepth_spec (merge : Nat → σ → α → Option σ) (d : Nat) (cells : List (Option (List α)))
    (acc : List σ) (h : acc.length = cells.length) :
    mergeDepth merge (flatValues cells) (adjOffsets cells) (validity cells) d acc =
      Spec.allRows (((cells.zip acc).zipIdx).map (stepRow merge d)) := by
  have hg := gather_spec d 0 0 cells acc [] [] h rfl rfl
  have hm := merge_scatter merge d 0 cells acc [] h rfl
  simp only [List.nil_append] at hg hm
  rw [← hm]
  unfold mergeDepth
  rw [show adjOffsets cells = offsetsOf 0 (rowLens cells) from rfl]
  generalize gatherRows d 0 (offsetsOf 0 (rowLens cells)) (validity cells) = g at hg ⊢
  generalize picked d 0 cells acc = p at hg ⊢
  dsimp only
  by_cases he : g.isEmpty = true
  · rw [if_pos he]
    rw [List.isEmpty_iff] at he
    subst he
    have : p = [] := by
      cases p with
      | nil => rfl
      | cons _ _ => simp at hg
    subst this
    simp [evalMerge, scatterFrom]
  · rw [if_neg he, hg.1, hg.2.1, hg.2.2]
    dsimp only
    cases evalMerge merge (p.map (fun p : Nat × σ × α => p.1)) (p.map (fun p : Nat × σ × α => p.2.1))
      (p.map (fun p : Nat × σ × α => p.2.2)) <;> rfl

theorem zipWith_rows (t : (Option (List α) × σ) × Nat → τ → Option γ) (cells : List (Option (List α)))
    (acc : List σ) (ys : List τ) (k : Nat) (u : (Option (List α) × τ) × Nat → Option γ)
    (hu : ∀ c a y r, t ((c, a), r) y = u ((c, y), r)) (h : acc.length = cells.length) :
    List.zipWith t ((cells.zip acc).zipIdx k) ys = ((cells.zip ys).zipIdx k).map u := by
  induction cells generalizing acc ys k with
  | nil => simp
  | cons c rest ih =>
    cases acc with
    | nil => simp at h
    | cons a acc =>
      cases ys with
      | nil => simp
      | cons y ys =>
        simp only [List.zip_cons_cons, List.zipIdx_cons, List.zipWith_cons_cons, List.map_cons, hu,
          ih acc ys (k + 1) (by simpa using h)]

theorem zip_snd (cells : List (Option (List α))) (acc : List σ) (k : Nat) (h : acc.length = cells.length) :
    ((cells.zip acc).zipIdx k).map (fun e : (Option (List α) × σ) × Nat => some e.1.2) = acc.map some := by
  induction cells generalizing acc k with
  | nil =>
    cases acc with
    | nil => rfl
    | cons _ _ => simp at h
  | cons c rest ih =>
    cases acc with
    | nil => simp at h
    | cons a acc => simp only [List.zip_cons_cons, List.zipIdx_cons, List.map_cons, ih acc (k + 1) (by simpa using h)]

theorem mergeDepths_spec (merge : Nat → σ → α → Option σ) (left d : Nat) (cells : List (Option (List α)))
    (acc : List σ) (h : acc.length = cells.length) :
    mergeDepths merge (flatValues cells) (adjOffsets cells) (validity cells) d left acc =
      Spec.allRows (((cells.zip acc).zipIdx).map (fun e : (Option (List α) × σ) × Nat =>
        (((e.1.1.getD []).drop d).take left).foldlM (merge e.2) e.1.2)) := by
  induction left generalizing d acc with
  | zero =>
    simp only [List.take_zero, List.foldlM_nil]
    exact (allRows_some _ acc (zip_snd cells acc 0 h)).symm
  | succ left ih =>
    rw [mergeDepths, mergeDepth_spec merge d cells acc h]
    have hsplit : ∀ e : (Option (List α) × σ) × Nat,
        (((e.1.1.getD []).drop d).take (left + 1)).foldlM (merge e.2) e.1.2 =
          (stepRow merge d e).bind (fun y : σ =>
            (((e.1.1.getD []).drop (d + 1)).take left).foldlM (merge e.2) y) := by
      intro e
      unfold stepRow
      by_cases hd : d < (e.1.1.getD []).length
      · rw [List.drop_eq_getElem_cons hd, List.take_succ_cons, List.foldlM_cons,
          List.getElem?_eq_getElem hd]
        rfl
      · rw [List.drop_eq_nil_of_le (by omega), List.drop_eq_nil_of_le (by omega),
          List.getElem?_eq_none (by omega)]
        simp
    simp only [hsplit]
    rw [allRows_bind]
    cases hs : Spec.allRows (((cells.zip acc).zipIdx).map (stepRow merge d)) with
    | none => rfl
    | some acc' =>
      have hl : acc'.length = cells.length := by
        have := allRows_length _ _ hs
        simp only [List.length_map, List.length_zipIdx, List.length_zip] at this
        omega
      dsimp only
      rw [ih (d + 1) acc' hl, Option.bind_some]
      congr 1
      exact (zipWith_rows _ cells acc acc' 0 _ (fun _ _ _ _ => rfl) h).symm

theorem maxRow_ge (o : Nat) (cells : List (Option (List α))) :
    ∀ c ∈ cells, (c.getD []).length ≤ maxRow (offsetsOf o (rowLens cells)) (validity cells) := by
  induction cells generalizing o with
  | nil => simp
  | cons c rest ih =>
    have hne : ∃ t, offsetsOf (o + (c.getD []).length) (rowLens rest) =
        (o + (c.getD []).length) :: t := by
      cases rest <;> exact ⟨_, rfl⟩
    obtain ⟨t, ht⟩ := hne
    have hrec := ih (o + (c.getD []).length)
    have hrl : rowLens (c :: rest) = (c.getD []).length :: rowLens rest := rfl
    have hvl : validity (c :: rest) = c.isSome :: validity rest := rfl
    rw [hrl, hvl, offsetsOf]
    rw [ht] at hrec ⊢
    intro c' hc'
    rw [maxRow, Nat.add_sub_cancel_left]
    rcases List.mem_cons.mp hc' with h | h
    · subst h
      cases c' with
      | none => simp
      | some xs => exact Nat.le_max_left _ _
    · have := hrec c' h
      by_cases hv : c.isSome = true
      · rw [if_pos hv]; exact Nat.le_trans this (Nat.le_max_right _ _)
      · rw [if_neg hv]; exact this

/-- What finish does to a row. -/
def finRow (finish : Nat → σ → Option (Option τ)) (e : (Option (List α) × σ) × Nat) : Option (Option τ) :=
  e.1.1.elim (some none) (fun _ => finish e.2 e.1.2)

theorem validRows_ge (k : Nat) (vs : List Bool) : ∀ r ∈ validRows k vs, k ≤ r := by
  induction vs generalizing k with
  | nil => simp [validRows]
  | cons v vs ih =>
    intro r hr
    rw [validRows] at hr
    by_cases hv : v = true
    · rw [if_pos hv] at hr
      rcases List.mem_cons.mp hr with h | h
      · omega
      · have := ih (k + 1) r h; omega
    · rw [if_neg hv] at hr
      have := ih (k + 1) r hr; omega

/-- The accumulators of the rows that are not NULL. -/
def validAccs : List (Option (List α)) → List σ → List σ
  | c :: cells, a :: accs => if c.isSome then a :: validAccs cells accs else validAccs cells accs
  | _, _ => []

theorem take_valid (k : Nat) (cells : List (Option (List α))) (accs preA : List σ)
    (h : accs.length = cells.length) (hA : preA.length = k) :
    arrowTake (preA ++ accs) (validRows k (validity cells)) = some (validAccs cells accs) := by
  induction cells generalizing k accs preA with
  | nil => cases accs <;> rfl
  | cons c rest ih =>
    cases accs with
    | nil => simp at h
    | cons a accs =>
      have hrec := ih (k + 1) accs (preA ++ [a]) (by simpa using h) (by simp [hA])
      rw [List.append_assoc, List.cons_append, List.nil_append] at hrec
      have hvl : validity (c :: rest) = c.isSome :: validity rest := rfl
      have hget : (preA ++ a :: accs)[k]? = some a := by
        rw [List.getElem?_append_right (by omega)]; simp [hA]
      rw [hvl, validRows, validAccs]
      by_cases hv : c.isSome = true
      · rw [if_pos hv, if_pos hv, arrowTake, hget, hrec]
      · rw [if_neg hv, if_neg hv]; exact hrec

theorem finish_scatter (finish : Nat → σ → Option (Option τ)) (base : List (Option τ))
    (hb : ∀ i, i < base.length → base[i]? = some none) (k : Nat) (cells : List (Option (List α)))
    (accs : List σ) (h : accs.length = cells.length) (hl : base.length = k + cells.length) :
    (evalFinish finish (validRows k (validity cells)) (validAccs cells accs)).bind
        (fun fs : List (Option τ) => scatterFrom base k (validRows k (validity cells)) fs) =
      Spec.allRows (((cells.zip accs).zipIdx k).map (finRow finish)) := by
  induction cells generalizing k accs with
  | nil =>
    have : base.drop k = [] := List.drop_eq_nil_of_le (by simp at hl; omega)
    simp [validity, validRows, validAccs, evalFinish, scatterFrom, Spec.allRows, this]
  | cons c rest ih =>
    cases accs with
    | nil => simp at h
    | cons a accs =>
      have hlt : k < base.length := by rw [hl]; simp
      have hrec := ih (k + 1) accs (by simpa using h) (by rw [hl, List.length_cons]; omega)
      have hvl : validity (c :: rest) = c.isSome :: validity rest := rfl
      have hge := validRows_ge (k + 1) (validity rest)
      simp only [List.zip_cons_cons, List.zipIdx_cons, List.map_cons, Spec.allRows, ← hrec, finRow]
      rw [hvl, validRows, validAccs]
      cases c with
      | none =>
        simp only [Option.isSome_none, Bool.false_eq_true, if_false, Option.elim_none]
        cases evalFinish finish (validRows (k + 1) (validity rest)) (validAccs rest accs) with
        | none => rfl
        | some fs =>
          simp only [Option.bind_some]
          rw [scatter_skip base k none (hb k hlt) _ fs hge]
          cases scatterFrom base (k + 1) (validRows (k + 1) (validity rest)) fs <;> rfl
      | some xs =>
        simp only [Option.isSome_some, if_true, Option.elim_some, evalFinish]
        cases finish k a with
        | none => rfl
        | some y =>
          cases evalFinish finish (validRows (k + 1) (validity rest)) (validAccs rest accs) with
          | none => rfl
          | some fs =>
            simp only [Option.bind_some]
            rw [scatter_here base k hlt]
            cases scatterFrom base (k + 1) (validRows (k + 1) (validity rest)) fs <;> rfl

theorem validRows_length_le (k : Nat) (vs : List Bool) : (validRows k vs).length ≤ vs.length := by
  induction vs generalizing k with
  | nil => simp [validRows]
  | cons v vs ih =>
    have := ih (k + 1)
    rw [validRows]
    by_cases hv : v = true
    · rw [if_pos hv]; simpa using this
    · rw [if_neg hv, List.length_cons]; omega

theorem finish_full (finish : Nat → σ → Option (Option τ)) (k : Nat) (cells : List (Option (List α)))
    (accs : List σ) (h : accs.length = cells.length)
    (hf : (validRows k (validity cells)).length = cells.length) :
    evalFinish finish (List.range' k cells.length) accs =
      Spec.allRows (((cells.zip accs).zipIdx k).map (finRow finish)) := by
  induction cells generalizing k accs with
  | nil => cases accs <;> rfl
  | cons c rest ih =>
    cases accs with
    | nil => simp at h
    | cons a accs =>
      have hvl : validity (c :: rest) = c.isSome :: validity rest := rfl
      have hle := validRows_length_le (k + 1) (validity rest)
      have hvn : (validity rest).length = rest.length := by simp [validity]
      rw [hvl, validRows] at hf
      cases c with
      | none =>
        simp only [Option.isSome_none, Bool.false_eq_true, if_false, List.length_cons] at hf
        omega
      | some xs =>
        simp only [Option.isSome_some, if_true, List.length_cons] at hf
        have hrec := ih (k + 1) accs (by simpa using h) (by omega)
        simp only [List.length_cons, List.range'_succ, evalFinish, List.zip_cons_cons, List.zipIdx_cons,
          List.map_cons, Spec.allRows, finRow, Option.elim_some]
        rw [hrec]
        cases finish k a with
        | none => rfl
        | some y => cases Spec.allRows (((rest.zip accs).zipIdx (k + 1)).map (finRow finish)) <;> rfl

theorem finish_none (finish : Nat → σ → Option (Option τ)) (k : Nat) (cells : List (Option (List α)))
    (accs : List σ) (h : accs.length = cells.length) (hf : validRows k (validity cells) = []) :
    Spec.allRows (((cells.zip accs).zipIdx k).map (finRow finish)) = some (cells.map (fun _ => none)) := by
  induction cells generalizing k accs with
  | nil => rfl
  | cons c rest ih =>
    cases accs with
    | nil => simp at h
    | cons a accs =>
      have hvl : validity (c :: rest) = c.isSome :: validity rest := rfl
      rw [hvl, validRows] at hf
      cases c with
      | some xs => simp at hf
      | none =>
        simp only [Option.isSome_none, Bool.false_eq_true, if_false] at hf
        simp only [List.zip_cons_cons, List.zipIdx_cons, List.map_cons, Spec.allRows,
          ih (k + 1) accs (by simpa using h) hf, finRow, Option.elim_none]

/-- **C132**: aggregate folds every row from left to right from the start value of the row and applies
finish, NULL stays NULL, and it fails exactly if some row's fold or finish fails — although the rows
are merged depth by depth across the batch. -/
theorem C132_aggregate (merge : Nat → σ → α → Option σ) (finish : Nat → σ → Option (Option τ))
    (cells : List (Option (List α))) (zeros : List σ) (h : zeros.length = cells.length) :
    aggregateInvoke merge finish cells zeros =
      Spec.allRows (((cells.zip zeros).zipIdx).map (fun e : (Option (List α) × σ) × Nat =>
        Spec.aggregateCell (merge e.2) (finish e.2) e.1.2 e.1.1)) := by
  have hmd := mergeDepths_spec merge (maxRow (adjOffsets cells) (validity cells)) 0 cells zeros h
  have hfold : ((cells.zip zeros).zipIdx).map (fun e : (Option (List α) × σ) × Nat =>
        (((e.1.1.getD []).drop 0).take (maxRow (adjOffsets cells) (validity cells))).foldlM (merge e.2) e.1.2) =
      ((cells.zip zeros).zipIdx).map (fun e : (Option (List α) × σ) × Nat =>
        (e.1.1.getD []).foldlM (merge e.2) e.1.2) := by
    apply List.map_congr_left
    intro e he
    have hmem : e.1 ∈ cells.zip zeros := List.fst_mem_of_mem_zipIdx he
    have hc : e.1.1 ∈ cells := (List.of_mem_zip (a := e.1.1) (b := e.1.2) hmem).1
    rw [List.drop_zero, adjOffsets, List.take_of_length_le (maxRow_ge 0 cells e.1.1 hc)]
  rw [hfold] at hmd
  have hcell : ((cells.zip zeros).zipIdx).map (fun e : (Option (List α) × σ) × Nat =>
        Spec.aggregateCell (merge e.2) (finish e.2) e.1.2 e.1.1) =
      ((cells.zip zeros).zipIdx).map (fun e : (Option (List α) × σ) × Nat =>
        ((e.1.1.getD []).foldlM (merge e.2) e.1.2).bind (fun y : σ => finRow finish ((e.1.1, y), e.2))) := by
    apply List.map_congr_left
    intro e _
    unfold Spec.aggregateCell finRow
    cases e.1.1 with
    | none => rfl
    | some xs => rfl
  rw [hcell, allRows_bind]
  unfold aggregateInvoke
  rw [hmd]
  cases hs : Spec.allRows (((cells.zip zeros).zipIdx).map (fun e : (Option (List α) × σ) × Nat =>
      (e.1.1.getD []).foldlM (merge e.2) e.1.2)) with
  | none => rfl
  | some acc =>
    have hl : acc.length = cells.length := by
      have := allRows_length _ _ hs
      simp only [List.length_map, List.length_zipIdx, List.length_zip] at this
      omega
    rw [Option.bind_some, zipWith_rows _ cells zeros acc 0 (finRow finish) (fun _ _ _ _ => rfl) h]
    dsimp only
    by_cases he : (validRows 0 (validity cells)).isEmpty = true
    · rw [if_pos he]
      exact (finish_none finish 0 cells acc hl (List.isEmpty_iff.mp he)).symm
    · rw [if_neg he]
      by_cases hf : (validRows 0 (validity cells)).length = cells.length
      · rw [if_pos hf, List.range_eq_range']
        exact finish_full finish 0 cells acc hl hf
      · have ht := take_valid 0 cells acc [] hl rfl
        have hsc := finish_scatter finish (cells.map (fun _ => (none : Option τ)))
          (by intro i hi; simp at hi; simp [hi]) 0 cells acc hl (by simp)
        rw [List.nil_append] at ht
        rw [if_neg hf, ht]
        dsimp only
        rw [← hsc]
        cases evalFinish finish (validRows 0 (validity cells)) (validAccs cells acc) <;> rfl

/-! ## Examples -/

example : transformInvoke (fun r i x : Nat => some (100 * r + 10 * i + x)) [some [1, 2], none, some [3], some []] =
    some [some [1, 12], none, some [203], some []] := by decide +kernel

example : transformInvoke (fun _ _ x : Nat => if x = 3 then (none : Option Nat) else some x)
    [some [1, 2], none, some [3]] = none := by decide +kernel

example : filterInvoke none (fun r i x : Nat => some (if x = 9 then none else some (decide (r + i < x))))
    [some [1, 1, 9, 4], none, some [2, 4], some []] = some [some [1, 4], none, some [4], some []] := by
  decide +kernel

example : ∀ b, some (some false) = some b → ∀ r i x : Nat,
    (fun _ _ _ : Nat => some (some false)) r i x = some b := by
  intro b hb _ _ _; exact hb

example : filterInvoke (some (some false)) (fun _ _ _ : Nat => some (some false))
    [some [1, 1], none, some [2]] = some [some [], none, some []] := by decide +kernel

example : aggregateInvoke (fun r a x : Nat => if x = 9 then none else some (a * 10 + x + r))
    (fun _ a => some (some (a + 1))) [some [1, 2, 3], none, some [4], some []] [0, 5, 7, 3] =
    some [some 124, none, some 77, some 4] := by decide +kernel

example : aggregateInvoke (fun r a x : Nat => if x = 9 then none else some (a * 10 + x + r))
    (fun _ a => some (some (a + 1))) [some [1, 2, 3], some [4, 9]] [0, 5] = none := by decide +kernel

end Verif.Arrays
