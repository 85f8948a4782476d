import Verif.Arrays.RowWise
import Verif.Arrays.MapFromProps
/-!
# array_position, array_intersect, arrays_zip and posexplode see only their row (C130)
-/
namespace Verif.Arrays

set_option linter.unusedSectionVars false

variable {α β : Type}

namespace Spec

/-- array_position on one array: one more than the index of the first element that is not NULL and
equal, 0 if there is none. -/
def position (eqv : α → α → Bool) (xs : List (Option α)) (x : α) : Nat :=
  (xs.findIdx? (fun y : Option α => y.any (fun z : α => eqv z x))).elim 0 (fun j : Nat => j + 1)

/-- array_position on a row. -/
def positionCell (eqv : α → α → Bool) (cell : Option (List (Option α))) (e : Option α) : Option Nat :=
  match cell, e with
  | some xs, some x => some (position eqv xs x)
  | _, _ => none

/-- array_intersect on a row: the distinct elements of the left array that are in the right one. -/
def intersectCell [DecidableEq α] (l r : Option (List α)) : Option (List α) :=
  match l, r with
  | some a, some b => some (firstOcc (a.filter (fun x : α => decide (x ∈ b))))
  | _, _ => none

/-- arrays_zip on a row: as many structs as the longest array has elements. -/
def zipCells (cells : List (Option (List (Option α)))) : Option (List (List (Option α))) :=
  if cells.all Option.isSome then
    some ((List.range ((cells.map (fun c : Option (List (Option α)) => (c.getD []).length)).foldr Nat.max 0)).map
      (fun k : Nat => cells.map (fun c : Option (List (Option α)) => ((c.getD [])[k]?).getD none)))
  else none

end Spec

/-! ## Spans -/

/-- What a reader sees at a span. -/
def cellAt (values : List α) (s : Nat × Nat × Bool) : Option (List α) :=
  if s.2.2 then some ((values.drop s.1).take s.2.1) else none

theorem cells_spans (values : List α) (o : Nat) (rows : List (Nat × Bool)) :
    cellsFrom values o rows = (spansFrom o rows).map (cellAt values) := by
  induction rows generalizing o with
  | nil => rfl
  | cons r rest ih => obtain ⟨n, v⟩ := r; simp [cellsFrom, spansFrom, cellAt, ih]

theorem spans_length (o : Nat) (rows : List (Nat × Bool)) : (spansFrom o rows).length = rows.length := by
  induction rows generalizing o with
  | nil => rfl
  | cons r rest ih => obtain ⟨n, v⟩ := r; simp [spansFrom, ih]

theorem spans_bound (o : Nat) (rows : List (Nat × Bool)) (s : Nat × Nat × Bool)
    (h : s ∈ spansFrom o rows) : s.1 + s.2.1 ≤ o + spanned rows := by
  induction rows generalizing o with
  | nil => simp [spansFrom] at h
  | cons r rest ih =>
    obtain ⟨n, v⟩ := r
    simp only [spansFrom, List.mem_cons] at h
    rcases h with rfl | h
    · simp only [spanned]; omega
    · have := ih (o + n) h
      simp only [spanned]; omega

/-! ## array_position -/

theorem searchFrom_spec (eqv : α → α → Bool) (values : List (Option α)) (s : Nat) (x : α) (i left : Nat)
    (h : s ≤ i) :
    searchFrom eqv values s x i left =
      (((values.drop i).take left).findIdx? (fun y : Option α => y.any (fun z : α => eqv z x))).elim 0
        (fun j : Nat => (i - s) + j + 1) := by
  induction left generalizing i with
  | zero => simp [searchFrom]
  | succ left ih =>
    rw [searchFrom]
    cases hv : values[i]? with
    | none =>
      have hlen : values.length ≤ i := List.getElem?_eq_none_iff.mp hv
      have h1 : values.drop i = [] := List.drop_eq_nil_of_le hlen
      have h2 : values.drop (i + 1) = [] := List.drop_eq_nil_of_le (by omega)
      dsimp only
      rw [ih (i + 1) (by omega), h1, h2]
      simp
    | some y =>
      have hlt : i < values.length := by
        rcases Nat.lt_or_ge i values.length with h | h
        · exact h
        · rw [List.getElem?_eq_none h] at hv; cases hv
      have hd : values.drop i = y :: values.drop (i + 1) := by
        rw [List.drop_eq_getElem_cons hlt]
        rw [List.getElem?_eq_getElem hlt] at hv
        cases hv; rfl
      rw [hd, List.take_succ_cons, List.findIdx?_cons]
      have hrec := ih (i + 1) (by omega)
      cases y with
      | none =>
        simp only [Option.any_none, Bool.false_eq_true, if_false]
        rw [hrec]
        cases ((values.drop (i + 1)).take left).findIdx? (fun y : Option α => y.any (fun z : α => eqv z x)) with
        | none => simp
        | some j => simp; omega
      | some y =>
        simp only [Option.any_some]
        by_cases heq : eqv y x = true
        · simp [heq]
        · rw [if_neg heq, if_neg heq, hrec]
          cases ((values.drop (i + 1)).take left).findIdx? (fun y : Option α => y.any (fun z : α => eqv z x)) with
          | none => simp
          | some j => simp; omega

/-- **C130**: array_position gives in every row what the row's own array and element give. -/
theorem C130_array_position (eqv : α → α → Bool) (c : ListCol (Option α)) (es : List (Option α)) :
    arrayPosition eqv c es = List.zipWith (Spec.positionCell eqv) c.cells es := by
  rw [arrayPosition, ListCol.cells, cells_spans, ListCol.spans]
  induction spansFrom c.first c.rows generalizing es with
  | nil => simp [positionRows]
  | cons s rest ih =>
    obtain ⟨s, n, v⟩ := s
    cases es with
    | nil => simp [positionRows]
    | cons e es =>
      simp only [positionRows, List.map_cons, List.zipWith_cons_cons, ih]
      congr 1
      cases v <;> cases e with
      | none => simp [cellAt, Spec.positionCell]
      | some x => simp [cellAt, Spec.positionCell, Spec.position, searchFrom_spec]

/-- **C130**: what the position says: it is that of an equal element, and no element before it is
equal; 0 says that none is. -/
theorem C130_position_is_first (eqv : α → α → Bool) (xs : List (Option α)) (x : α) :
    (Spec.position eqv xs x = 0 ↔ ∀ y, some y ∈ xs → eqv y x = false) ∧
    (∀ p, Spec.position eqv xs x = p + 1 →
      (∃ y, xs[p]? = some (some y) ∧ eqv y x = true) ∧
      ∀ q y, q < p → xs[q]? = some (some y) → eqv y x = false) := by
  induction xs with
  | nil => simp [Spec.position]
  | cons a xs ih =>
    obtain ⟨ih1, ih2⟩ := ih
    have hstep : Spec.position eqv (a :: xs) x =
        if a.any (fun z : α => eqv z x) then 1
        else if Spec.position eqv xs x = 0 then 0 else Spec.position eqv xs x + 1 := by
      simp only [Spec.position, List.findIdx?_cons]
      by_cases ha : a.any (fun z : α => eqv z x) = true
      · simp [ha]
      · rw [if_neg ha, if_neg ha]
        have hopt : ∀ o : Option Nat, (o.map (fun i : Nat => i + 1)).elim 0 (fun j : Nat => j + 1) =
            if o.elim 0 (fun j : Nat => j + 1) = 0 then 0 else o.elim 0 (fun j : Nat => j + 1) + 1 := by
          intro o; cases o <;> simp
        exact hopt _
    rw [hstep]
    by_cases ha : a.any (fun z : α => eqv z x) = true
    · rw [if_pos ha]
      cases a with
      | none => simp at ha
      | some a =>
        simp only [Option.any_some] at ha
        refine ⟨⟨fun h => by omega, fun h => absurd (h a (by simp)) (by simp [ha])⟩, ?_⟩
        intro p hp
        have hp0 : p = 0 := by omega
        subst hp0
        exact ⟨⟨a, by simp, ha⟩, fun q y hq => by omega⟩
    · rw [if_neg ha]
      have hne : ∀ y, a = some y → eqv y x = false := by
        intro y hy
        subst hy
        simpa using ha
      refine ⟨?_, ?_⟩
      · constructor
        · intro h y hy
          have h0 : Spec.position eqv xs x = 0 := by
            by_cases h0 : Spec.position eqv xs x = 0
            · exact h0
            · rw [if_neg h0] at h; omega
          rcases List.mem_cons.mp hy with h' | h'
          · exact hne y h'.symm
          · exact ih1.mp h0 y h'
        · intro h
          rw [if_pos (ih1.mpr (fun y hy => h y (by simp [hy])))]
      · intro p hp
        by_cases h0 : Spec.position eqv xs x = 0
        · rw [if_pos h0] at hp; omega
        · rw [if_neg h0] at hp
          cases p with
          | zero => omega
          | succ p =>
            obtain ⟨⟨y, hy, hyx⟩, h2⟩ := ih2 p (by omega)
            refine ⟨⟨y, by simpa using hy, hyx⟩, ?_⟩
            intro q z hq hz
            cases q with
            | zero => exact hne z (by simpa using hz)
            | succ q => exact h2 q z (by omega) (by simpa using hz)

example : arrayPosition (fun a b : Nat => a == b)
    ⟨[some 9, some 1, none, some 2, some 2, some 7], 1, [(4, true), (1, false)]⟩ [some 2, some 7] =
    [some 3, none] := by decide +kernel

/-! ## array_intersect -/

section
variable [DecidableEq α]

theorem probe_spec (rowsL lookup : List α) (i left : Nat) (seen : List α) :
    (probe rowsL lookup i left seen).1.map (fun j : Nat => rowsL[j]?) =
        ((Spec.firstOcc (((rowsL.drop i).take left).filter (fun x : α => decide (x ∈ lookup)))).filter
          (fun x : α => decide (x ∉ seen))).map some ∧
      (probe rowsL lookup i left seen).2.length =
        seen.length + (probe rowsL lookup i left seen).1.length := by
  induction left generalizing i seen with
  | zero => simp [probe, Spec.firstOcc]
  | succ left ih =>
    cases hv : rowsL[i]? with
    | none =>
      have hlen : rowsL.length ≤ i := List.getElem?_eq_none_iff.mp hv
      have h1 : rowsL.drop i = [] := List.drop_eq_nil_of_le hlen
      have h2 : rowsL.drop (i + 1) = [] := List.drop_eq_nil_of_le (by omega)
      have hr := ih (i + 1) seen
      simp only [probe, hv]
      rw [h2] at hr
      rw [h1]
      simpa using hr
    | some x =>
      have hlt : i < rowsL.length := by
        rcases Nat.lt_or_ge i rowsL.length with h | h
        · exact h
        · rw [List.getElem?_eq_none h] at hv; cases hv
      have hd : rowsL.drop i = x :: rowsL.drop (i + 1) := by
        rw [List.drop_eq_getElem_cons hlt]
        rw [List.getElem?_eq_getElem hlt] at hv
        cases hv; rfl
      rw [hd, List.take_succ_cons, List.filter_cons]
      simp only [probe, hv]
      by_cases hl : x ∈ lookup
      · rw [if_pos (show decide (x ∈ lookup) = true by simpa using hl), Spec.firstOcc]
        by_cases hs : x ∈ seen
        · rw [if_neg (by simp [hs]), List.filter_cons, if_neg (by simp [hs]), List.filter_filter]
          refine ⟨?_, (ih (i + 1) seen).2⟩
          rw [(ih (i + 1) seen).1]
          congr 1
          apply List.filter_congr
          intro y _
          by_cases hy : y ∈ seen
          · simp [hy]
          · have : y ≠ x := fun h => hy (h ▸ hs)
            simp [hy, this]
        · rw [if_pos (by simp [hl, hs]), List.filter_cons, if_pos (by simpa using hs),
            List.filter_filter]
          obtain ⟨h1, h2⟩ := ih (i + 1) (x :: seen)
          refine ⟨?_, by simp only [List.length_cons] at h2 ⊢; omega⟩
          simp only [List.map_cons, hv, h1]
          congr 2
          apply List.filter_congr
          intro y _
          by_cases hyx : y = x <;> by_cases hy : y ∈ seen <;> simp [hyx, hy]
      · rw [if_neg (show ¬ decide (x ∈ lookup) = true by simpa using hl), if_neg (by simp [hl])]
        exact ih (i + 1) seen

/-- The values of a row of the result. -/
def interPiece (l r : Option (List α)) : List α := (Spec.intersectCell l r).getD []

theorem segment_of_slice (values : List α) (first span o n : Nat) (h1 : first ≤ o)
    (h2 : o + n ≤ first + span) :
    ((((values.drop first).take span).drop (o - first)).take n) = (values.drop o).take n := by
  rw [List.drop_take, List.take_take, List.drop_drop]
  congr 2
  · omega
  · omega

theorem intersectRows_spec (lv rv : List α) (lf rf lspan rspan : Nat) (lrows rrows : List (Nat × Bool))
    (lo ro last : Nat) (hl1 : lf ≤ lo) (hl2 : lo + spanned lrows ≤ lf + lspan) (hr1 : rf ≤ ro)
    (hr2 : ro + spanned rrows ≤ rf + rspan) :
    (intersectRows ((lv.drop lf).take lspan) ((rv.drop rf).take rspan) lf rf (spansFrom lo lrows)
        (spansFrom ro rrows) last).1.map (fun j : Nat => ((lv.drop lf).take lspan)[j]?) =
      (List.zipWith interPiece (cellsFrom lv lo lrows) (cellsFrom rv ro rrows)).flatten.map some ∧
    last :: (intersectRows ((lv.drop lf).take lspan) ((rv.drop rf).take rspan) lf rf (spansFrom lo lrows)
        (spansFrom ro rrows) last).2 =
      offsetsOf last ((List.zipWith interPiece (cellsFrom lv lo lrows) (cellsFrom rv ro rrows)).map List.length) := by
  induction lrows generalizing lo ro last rrows with
  | nil => simp [spansFrom, intersectRows, cellsFrom, offsetsOf]
  | cons a lrows ih =>
    obtain ⟨ln, lvd⟩ := a
    cases rrows with
    | nil => simp [spansFrom, intersectRows, cellsFrom, offsetsOf]
    | cons b rrows =>
      obtain ⟨rn, rvd⟩ := b
      simp only [spanned] at hl2 hr2
      simp only [spansFrom, intersectRows, cellsFrom, List.zipWith_cons_cons, List.flatten_cons,
        List.map_append, List.map_cons, offsetsOf]
      by_cases hvd : lvd = true ∧ rvd = true
      · obtain ⟨rfl, rfl⟩ := hvd
        obtain ⟨hp1, hp2⟩ := probe_spec ((lv.drop lf).take lspan)
          ((((rv.drop rf).take rspan).drop (ro - rf)).take rn) (lo - lf) ln []
        rw [segment_of_slice lv lf lspan lo ln hl1 (by omega),
          segment_of_slice rv rf rspan ro rn hr1 (by omega)] at hp1
        rw [segment_of_slice rv rf rspan ro rn hr1 (by omega)] at hp2
        have hfil : ∀ l : List α, l.filter (fun x : α => decide (x ∉ ([] : List α))) = l := by
          intro l; apply List.filter_eq_self.mpr; simp
        rw [hfil] at hp1
        have hpiece : interPiece (some ((lv.drop lo).take ln)) (some ((rv.drop ro).take rn)) =
            Spec.firstOcc (((lv.drop lo).take ln).filter
              (fun x : α => decide (x ∈ (rv.drop ro).take rn))) := rfl
        have hlen : (probe ((lv.drop lf).take lspan) ((rv.drop ro).take rn) (lo - lf) ln []).2.length =
            (interPiece (some ((lv.drop lo).take ln)) (some ((rv.drop ro).take rn))).length := by
          have := congrArg List.length hp1
          simp only [List.length_map] at this
          rw [hpiece, ← this, hp2]; simp
        simp only [Bool.not_true, Bool.or_self, Bool.false_eq_true, if_false, if_true]
        rw [segment_of_slice rv rf rspan ro rn hr1 (by omega), hlen]
        obtain ⟨hi1, hi2⟩ := ih rrows (lo + ln) (ro + rn)
          (last + (interPiece (some ((lv.drop lo).take ln)) (some ((rv.drop ro).take rn))).length)
          (by omega) (by omega) (by omega) (by omega)
        refine ⟨?_, ?_⟩
        · rw [List.map_append, hp1, hi1, hpiece]
        · rw [hi2]
      · have hc : (!lvd || !rvd) = true := by cases lvd <;> cases rvd <;> simp_all
        have hpiece : interPiece (if lvd = true then some ((lv.drop lo).take ln) else none)
            (if rvd = true then some ((rv.drop ro).take rn) else none) = [] := by
          cases lvd <;> cases rvd <;> simp_all [interPiece, Spec.intersectCell]
        rw [if_pos hc, hpiece]
        obtain ⟨hi1, hi2⟩ := ih rrows (lo + ln) (ro + rn) last (by omega) (by omega) (by omega) (by omega)
        refine ⟨?_, ?_⟩
        · simpa using hi1
        · simpa using hi2

theorem intersect_cells (lv rv : List α) (lo ro : Nat) (lrows rrows : List (Nat × Bool)) :
    List.zipWith (fun (p : List α) (v : Bool) => if v then some p else none)
      (List.zipWith interPiece (cellsFrom lv lo lrows) (cellsFrom rv ro rrows))
      (List.zipWith (fun (x y : Nat × Bool) => x.2 && y.2) lrows rrows) =
    List.zipWith Spec.intersectCell (cellsFrom lv lo lrows) (cellsFrom rv ro rrows) := by
  induction lrows generalizing lo ro rrows with
  | nil => simp [cellsFrom]
  | cons a lrows ih =>
    obtain ⟨n, v⟩ := a
    cases rrows with
    | nil => simp [cellsFrom]
    | cons b rrows =>
      obtain ⟨n', v'⟩ := b
      simp only [cellsFrom, List.zipWith_cons_cons, ih]
      congr 1
      cases v <;> cases v' <;> simp [interPiece, Spec.intersectCell]

/-- **C130**: array_intersect gives in every row the distinct elements of the row's left array that
are in its right array, for all columns wherever they start. -/
theorem C130_array_intersect (l r : ListCol α) :
    (arrayIntersect l r).map ListCol.cells = some (List.zipWith Spec.intersectCell l.cells r.cells) := by
  obtain ⟨h1, h2⟩ := intersectRows_spec l.values r.values l.first r.first (spanned l.rows)
    (spanned r.rows) l.rows r.rows l.first r.first 0 (Nat.le_refl _) (Nat.le_refl _) (Nat.le_refl _)
    (Nat.le_refl _)
  simp only [arrayIntersect, ListCol.spans]
  rw [arrowTake_of_map _ _ _ h1]
  dsimp only
  rw [h2]
  obtain ⟨d, hd1, hd2⟩ := mkList_pieces
    (List.zipWith interPiece (cellsFrom l.values l.first l.rows) (cellsFrom r.values r.first r.rows))
    (List.zipWith (fun (x y : Nat × Bool) => x.2 && y.2) l.rows r.rows)
    (by simp [List.length_zipWith, cellsFrom_length])
  rw [hd1, Option.map_some, hd2, intersect_cells]
  rfl

/-- **C130**: what is in the intersection: exactly the common elements, each once. -/
theorem C130_intersection_is_intersection (a b : List α) (x : α) :
    (∀ c, Spec.intersectCell (some a) (some b) = some c → (x ∈ c ↔ x ∈ a ∧ x ∈ b) ∧ c.Nodup) := by
  intro c hc
  cases hc
  exact ⟨by rw [mem_firstOcc]; simp, firstOcc_nodup _⟩

example : (arrayIntersect
    (⟨[some 8, some 3, none, some 3, some 1, some 5], 1, [(4, true), (1, false)]⟩ : ListCol (Option Nat))
    ⟨[some 1, none, some 3, some 5, some 5], 0, [(3, true), (2, true)]⟩).map ListCol.cells =
    some [some [some 3, none, some 1], none] := by decide +kernel

end

/-! ## posexplode -/

theorem writePositions_length (s p left : Nat) (ps : List Nat) :
    (writePositions s p left ps).length = ps.length := by
  induction left generalizing p ps with
  | zero => rfl
  | succ left ih => simp [writePositions, ih]

theorem writePositions_get (s p left : Nat) (ps : List Nat) (i : Nat) :
    (writePositions s p left ps)[i]? =
      if p ≤ i ∧ i < p + left ∧ i < ps.length then some (i - s) else ps[i]? := by
  induction left generalizing p ps with
  | zero => rw [if_neg (by omega)]; rfl
  | succ left ih =>
    rw [writePositions, ih, List.length_set, List.getElem?_set]
    by_cases h1 : p = i
    · subst h1
      by_cases h2 : p < ps.length
      · rw [if_neg (by omega), if_pos rfl, if_pos h2, if_pos ⟨Nat.le_refl _, by omega, h2⟩]
      · rw [if_neg (by omega), if_pos rfl, if_neg h2, if_neg (by omega),
          List.getElem?_eq_none (by omega)]
    · rw [if_neg h1]
      by_cases h2 : p + 1 ≤ i ∧ i < p + 1 + left ∧ i < ps.length
      · rw [if_pos h2, if_pos (by omega)]
      · rw [if_neg h2, if_neg (by omega)]

theorem positionsOf_length (spans : List (Nat × Nat × Bool)) (ps : List Nat) :
    (positionsOf spans ps).length = ps.length := by
  induction spans generalizing ps with
  | nil => rfl
  | cons s rest ih => obtain ⟨s, n, v⟩ := s; simp [positionsOf, ih, writePositions_length]

theorem positionsOf_before (o : Nat) (rows : List (Nat × Bool)) (ps : List Nat) (i : Nat) (h : i < o) :
    (positionsOf (spansFrom o rows) ps)[i]? = ps[i]? := by
  induction rows generalizing o ps with
  | nil => rfl
  | cons r rest ih =>
    obtain ⟨n, v⟩ := r
    rw [spansFrom, positionsOf, ih (o + n) _ (by omega), writePositions_get, if_neg (by omega)]

theorem take_drop_zip {γ : Type} (l : List γ) (r : List α) (o n : Nat) :
    ((l.zip r).drop o).take n = ((l.drop o).take n).zip ((r.drop o).take n) := by
  induction o generalizing l r with
  | zero =>
    simp only [List.drop_zero]
    induction n generalizing l r with
    | zero => simp
    | succ n ih => cases l <;> cases r <;> simp [ih]
  | succ o ih => cases l <;> cases r <;> simp [ih]

theorem positions_cells (values : List α) (o : Nat) (rows : List (Nat × Bool)) (ps : List Nat)
    (hp : ps.length = values.length) (hw : o + spanned rows ≤ values.length) :
    cellsFrom ((positionsOf (spansFrom o rows) ps).zip values) o rows =
      (cellsFrom values o rows).map (Option.map (fun xs : List α => (List.range xs.length).zip xs)) := by
  induction rows generalizing o ps with
  | nil => rfl
  | cons r rest ih =>
    obtain ⟨n, v⟩ := r
    simp only [spanned] at hw
    simp only [spansFrom, positionsOf, cellsFrom, List.map_cons]
    rw [ih (o + n) _ (by rw [writePositions_length, hp]) (by omega)]
    congr 1
    cases v
    · rfl
    · simp only [if_true, Option.map_some, Option.some.injEq]
      rw [take_drop_zip]
      congr 1
      have hlen : ((values.drop o).take n).length = n := by
        rw [List.length_take, List.length_drop]; omega
      rw [hlen]
      apply List.ext_getElem?
      intro i
      rw [List.getElem?_take]
      by_cases hi : i < n
      · rw [if_pos hi, List.getElem?_drop, positionsOf_before _ _ _ _ (by omega), writePositions_get,
          if_pos (by omega), List.getElem?_range hi]
        congr 1
        omega
      · rw [if_neg hi, List.getElem?_eq_none (by simpa using hi)]

/-- **C130**: posexplode numbers the elements of every row from 0. -/
theorem C130_posexplode (c : ListCol α) (hw : c.Wf) :
    (itemWithPosition c).cells =
      c.cells.map (Option.map (fun xs : List α => (List.range xs.length).zip xs)) :=
  positions_cells c.values c.first c.rows _ (by simp) hw

example : (itemWithPosition (⟨['x', 'a', 'b', 'h', 'c'], 1, [(2, true), (1, false), (1, true)]⟩ : ListCol Char)).cells =
    [some [(0, 'a'), (1, 'b')], none, some [(0, 'c')]] := by decide +kernel

/-! ## arrays_zip -/

theorem maxLen_cells (spans : List (Nat × Nat × Bool)) :
    maxLen spans = (spans.map (fun s : Nat × Nat × Bool => s.2.1)).foldr Nat.max 0 := by
  induction spans with
  | nil => rfl
  | cons s rest ih => simp [maxLen, ih]

theorem takeOpt_append (values : List (Option α)) (a b : List (Option Nat)) (x y : List (Option α))
    (ha : takeOpt values a = some x) (hb : takeOpt values b = some y) :
    takeOpt values (a ++ b) = some (x ++ y) := by
  induction a generalizing x with
  | nil => cases ha; simpa using hb
  | cons i a ih =>
    cases i with
    | none =>
      simp only [takeOpt, Option.map_eq_some_iff] at ha
      obtain ⟨x', hx', rfl⟩ := ha
      simp [takeOpt, ih x' hx']
    | some i =>
      simp only [takeOpt] at ha
      cases hv : values[i]? with
      | none => rw [hv] at ha; cases ha
      | some v =>
        cases ht : takeOpt values a with
        | none => rw [hv, ht] at ha; cases ha
        | some x' =>
          rw [hv, ht] at ha
          cases ha
          simp [takeOpt, hv, ih x' ht]

theorem takeOpt_map (values : List (Option α)) (ks : List Nat) (s n : Nat) (h : s + n ≤ values.length) :
    takeOpt values (ks.map (fun k : Nat => if k < n then some (s + k) else none)) =
      some (ks.map (fun k : Nat => ((((values.drop s).take n)[k]?).getD none))) := by
  induction ks with
  | nil => rfl
  | cons k ks ih =>
    simp only [List.map_cons]
    by_cases hk : k < n
    · rw [if_pos hk]
      have hlt : s + k < values.length := by omega
      simp only [takeOpt, List.getElem?_eq_getElem hlt, ih]
      rw [List.getElem?_take, if_pos hk, List.getElem?_drop, List.getElem?_eq_getElem hlt]
      rfl
    · rw [if_neg hk]
      simp only [takeOpt, ih, Option.map_some]
      rw [List.getElem?_take, if_neg hk]
      rfl

/-- The values that a row adds to the column of one argument. -/
def zipPiece (cols : List (ListCol (Option α))) (c : ListCol (Option α)) (i : Nat) : List (Option α) :=
  let spans := rowSpans cols i
  if spans.all (fun s : Nat × Nat × Bool => s.2.2) then
    (List.range (maxLen spans)).map (fun k : Nat =>
      (((((c.spans[i]?).map (cellAt c.values)).getD none).getD [])[k]?).getD none)
  else []

theorem zipPiece_length (cols : List (ListCol (Option α))) (c : ListCol (Option α)) (i : Nat) :
    (zipPiece cols c i).length = zipLen (rowSpans cols i) := by
  simp only [zipPiece, zipLen]
  split <;> simp

theorem takeOpt_rows (cols : List (ListCol (Option α))) (c : ListCol (Option α)) (j : Nat)
    (hj : cols[j]? = some c) (hw : c.Wf) (is : List Nat) (hi : ∀ i ∈ is, i < c.rows.length) :
    takeOpt c.values ((is.map (zipRowIndices cols j)).flatten) = some ((is.map (zipPiece cols c)).flatten) := by
  induction is with
  | nil => rfl
  | cons i is ih =>
    simp only [List.map_cons, List.flatten_cons]
    apply takeOpt_append
    · have hsp : (rowSpans cols i)[j]? = some ((c.spans[i]?).getD (0, 0, false)) := by
        simp [rowSpans, hj]
      have hil : i < c.spans.length := by
        rw [ListCol.spans, spans_length]; exact hi i (by simp)
      have hget : c.spans[i]? = some c.spans[i] := List.getElem?_eq_getElem hil
      have hb : c.spans[i].1 + c.spans[i].2.1 ≤ c.values.length := by
        have h1 := spans_bound c.first c.rows c.spans[i] (List.getElem_mem hil)
        have h2 := hw
        unfold ListCol.Wf at h2
        omega
      simp only [zipPiece, zipRowIndices]
      by_cases hall : (rowSpans cols i).all (fun s : Nat × Nat × Bool => s.2.2) = true
      · rw [if_pos hall, if_pos hall, hsp, hget]
        have hv : c.spans[i].2.2 = true := by
          have hm : c.spans[i] ∈ rowSpans cols i := by
            rw [hget] at hsp
            exact List.mem_of_getElem? hsp
          exact List.all_eq_true.mp hall _ hm
        simp only [Option.getD_some, padIndices, Option.map_some, cellAt, hv, if_true]
        exact takeOpt_map c.values _ _ _ hb
      · rw [if_neg hall, if_neg hall]; rfl
    · exact ih (fun k hk => hi k (by simp [hk]))

theorem zipColumns_spec (cols : List (ListCol (Option α))) (numRows : Nat) (j : Nat)
    (rest : List (ListCol (Option α))) (hsuf : cols.drop j = rest) (hw : ∀ c ∈ cols, c.Wf)
    (hn : ∀ c ∈ cols, c.rows.length = numRows) :
    zipColumns cols numRows j rest =
      some (rest.map (fun c : ListCol (Option α) => ((List.range numRows).map (zipPiece cols c)).flatten)) := by
  induction rest generalizing j with
  | nil => rfl
  | cons c rest ih =>
    have hj : cols[j]? = some c := by
      have := congrArg (fun l : List (ListCol (Option α)) => l[0]?) hsuf
      simpa [List.getElem?_drop] using this
    have hm : c ∈ cols := List.mem_of_getElem? hj
    have hsuf' : cols.drop (j + 1) = rest := by
      have := congrArg (List.drop 1) hsuf
      simpa [List.drop_drop, Nat.add_comm] using this
    simp only [zipColumns, ih (j + 1) hsuf', zipIndices]
    rw [takeOpt_rows cols c j hj (hw c hm) (List.range numRows) (by
      intro i hi; rw [hn c hm]; exact List.mem_range.mp hi)]
    rfl

theorem transpose_rows (cs : List β) (f : β → Nat → List (Option α)) (len : Nat → Nat) (is : List Nat)
    (h : ∀ j ∈ cs, ∀ i ∈ is, (f j i).length = len i) :
    (List.range ((is.map len).sum)).map (fun t : Nat =>
        cs.map (fun j : β => (((is.map (f j)).flatten)[t]?).getD none)) =
      (is.map (fun i : Nat => (List.range (len i)).map (fun k : Nat =>
        cs.map (fun j : β => ((f j i)[k]?).getD none)))).flatten := by
  induction is with
  | nil => rfl
  | cons i is ih =>
    simp only [List.map_cons, List.sum_cons, List.flatten_cons, List.range_add, List.map_append,
      List.map_map]
    congr 1
    · apply List.map_congr_left
      intro k hk
      apply List.map_congr_left
      intro j hj
      rw [List.getElem?_append_left (by rw [h j hj i (by simp)]; exact List.mem_range.mp hk)]
    · rw [← ih (fun j hj i' hi' => h j hj i' (by simp [hi']))]
      apply List.map_congr_left
      intro k _
      apply List.map_congr_left
      intro j hj
      simp only [Function.comp_apply]
      rw [List.getElem?_append_right (by rw [h j hj i (by simp)]; omega), h j hj i (by simp),
        Nat.add_sub_cancel_left]

/-- **C130**: arrays_zip gives in every row the structs of the row's own arrays, the shorter ones
padded with NULL, and NULL if one of them is NULL, for all columns wherever they start. -/
theorem C130_arrays_zip (cols : List (ListCol (Option α))) (numRows : Nat) (hw : ∀ c ∈ cols, c.Wf)
    (hn : ∀ c ∈ cols, c.rows.length = numRows) :
    (arraysZip cols numRows).map ListCol.cells =
      some ((List.range numRows).map (fun i : Nat =>
        Spec.zipCells (cols.map (fun c : ListCol (Option α) => (c.cells[i]?).getD none)))) := by
  have hcols := zipColumns_spec cols numRows 0 cols rfl hw hn
  simp only [arraysZip, hcols, List.map_map, Function.comp_def]
  have ht := transpose_rows cols (zipPiece cols) (fun i : Nat => zipLen (rowSpans cols i))
    (List.range numRows) (fun c _ i _ => zipPiece_length cols c i)
  rw [ht]
  have hlens : (List.range numRows).map (fun i : Nat => zipLen (rowSpans cols i)) =
      ((List.range numRows).map (fun i : Nat => (List.range (zipLen (rowSpans cols i))).map (fun k : Nat =>
        cols.map (fun c : ListCol (Option α) => ((zipPiece cols c i)[k]?).getD none)))).map List.length := by
    rw [List.map_map]
    apply List.map_congr_left
    intro i _
    simp
  rw [hlens]
  obtain ⟨d, hd1, hd2⟩ := mkList_pieces
    ((List.range numRows).map (fun i : Nat => (List.range (zipLen (rowSpans cols i))).map (fun k : Nat =>
        cols.map (fun c : ListCol (Option α) => ((zipPiece cols c i)[k]?).getD none))))
    ((List.range numRows).map (fun i : Nat =>
        (rowSpans cols i).all (fun s : Nat × Nat × Bool => s.2.2))) (by simp)
  rw [hd1, Option.map_some, hd2, List.zipWith_map, List.zipWith_self]
  congr 1
  apply List.map_congr_left
  intro i hi
  have hcell : ∀ c ∈ cols, (c.cells[i]?).getD none =
      cellAt c.values ((c.spans[i]?).getD (0, 0, false)) := by
    intro c hc
    have hil : i < c.spans.length := by
      rw [ListCol.spans, spans_length, hn c hc]; exact List.mem_range.mp hi
    rw [ListCol.cells, cells_spans, List.getElem?_map]
    rw [ListCol.spans] at hil ⊢
    rw [List.getElem?_eq_getElem hil]
    rfl
  have hall : (cols.map (fun c : ListCol (Option α) => (c.cells[i]?).getD none)).all Option.isSome =
      (rowSpans cols i).all (fun s : Nat × Nat × Bool => s.2.2) := by
    rw [List.map_congr_left hcell, rowSpans]
    simp only [List.all_map, Function.comp_def]
    congr 1
    funext c
    simp only [cellAt]
    split
    · rename_i h; simp [h]
    · rename_i h; simp [h]
  rw [Spec.zipCells, hall]
  by_cases h : (rowSpans cols i).all (fun s : Nat × Nat × Bool => s.2.2) = true
  · rw [if_pos h, if_pos h]
    have hvalid : ∀ c ∈ cols, ((c.spans[i]?).getD (0, 0, false)).2.2 = true := by
      intro c hc
      exact List.all_eq_true.mp h _ (by rw [rowSpans]; exact List.mem_map.mpr ⟨c, hc, rfl⟩)
    have hmax : zipLen (rowSpans cols i) =
        ((cols.map (fun c : ListCol (Option α) => (c.cells[i]?).getD none)).map
          (fun c : Option (List (Option α)) => (c.getD []).length)).foldr Nat.max 0 := by
      rw [zipLen, if_pos h, maxLen_cells, rowSpans, List.map_map, List.map_map]
      congr 1
      apply List.map_congr_left
      intro c hc
      simp only [Function.comp_apply]
      rw [hcell c hc, cellAt, if_pos (hvalid c hc)]
      have hil : i < c.spans.length := by
        rw [ListCol.spans, spans_length, hn c hc]; exact List.mem_range.mp hi
      rw [List.getElem?_eq_getElem hil]
      have hb : c.spans[i].1 + c.spans[i].2.1 ≤ c.values.length := by
        have h1 := spans_bound c.first c.rows c.spans[i] (List.getElem_mem hil)
        have h2 := hw c hc
        unfold ListCol.Wf at h2
        omega
      simp only [Option.getD_some, List.length_take, List.length_drop]
      omega
    rw [← hmax]
    congr 1
    apply List.map_congr_left
    intro k hk
    rw [List.map_map]
    apply List.map_congr_left
    intro c hc
    simp only [Function.comp_apply]
    rw [hcell c hc, zipPiece]
    simp only [h, if_true]
    have hk' : k < maxLen (rowSpans cols i) := by
      have := List.mem_range.mp hk
      rwa [zipLen, if_pos h] at this
    rw [List.getElem?_map, List.getElem?_range hk']
    have hil : i < c.spans.length := by
      rw [ListCol.spans, spans_length, hn c hc]; exact List.mem_range.mp hi
    rw [List.getElem?_eq_getElem hil]
    rfl
  · rw [if_neg h, if_neg h]

example : (arraysZip
    [(⟨[some 9, some 1, some 2, some 3], 1, [(2, true), (1, true), (0, true)]⟩ : ListCol (Option Nat)),
     ⟨[some 7, none, some 8], 0, [(1, true), (2, false), (0, true)]⟩] 3).map ListCol.cells =
    some [some [[some 1, some 7], [some 2, none]], none, some []] := by decide +kernel

end Verif.Arrays
