import Verif.Func.PercentileDisc
import Verif.Func.PercentileProps
/-! # `percentile_disc`: theorems -/
namespace Verif.Func.PercentileDisc

open Percentile hiding mergeOne
open Percentile.Spec Accumulator Verif

variable {α : Type}

/-- What `percentile_disc` promises for the values `l`: nothing without values, otherwise the first
value in the requested order at which the share of values seen so far reaches the percentage. -/
def Spec.IsDisc (le : α → α → Bool) (p : Fraction) (descending : Bool) (l : List α) (r : Option α) :
    Prop :=
  match r with
  | none => l = []
  | some v =>
    v ∈ l ∧
    if descending then
      p.num * l.length ≤ p.den * l.countP (fun x => le v x) ∧
      ∀ w ∈ l, le w v = false → p.den * l.countP (fun x => le w x) < p.num * l.length
    else
      p.num * l.length ≤ p.den * l.countP (fun x => le x v) ∧
      ∀ w ∈ l, le v w = false → p.den * l.countP (fun x => le x w) < p.num * l.length

open Spec

theorem ceil_bounds {a b : Nat} (hb : 0 < b) : a ≤ b * ((a + b - 1) / b) ∧ (0 < a → b * ((a + b - 1) / b - 1) < a) := by
  have h1 := Nat.div_add_mod (a + b - 1) b
  have h2 := Nat.mod_lt (a + b - 1) hb
  refine ⟨by omega, fun ha => ?_⟩
  rw [Nat.mul_sub, Nat.mul_one]
  have h3 : 0 < (a + b - 1) / b := Nat.div_pos (by omega) hb
  have h4 : b * 1 ≤ b * ((a + b - 1) / b) := Nat.mul_le_mul_left _ h3
  omega

/-- The number `c` of values to go through in the requested order: the least positive one that
reaches the percentage. -/
theorem discIndex_spec {p : Fraction} (hp : Percentile.Spec.Valid p) {n : Nat} (hn : 0 < n)
    (desc : Bool) :
    ∃ c, 0 < c ∧ c ≤ n ∧ discIndex n p desc = (if desc then n - c else c - 1) ∧
      p.num * n ≤ p.den * c ∧ (1 < c → p.den * (c - 1) < p.num * n) := by
  obtain ⟨hd, hle⟩ := hp
  obtain ⟨hc1, hc2⟩ := ceil_bounds (a := p.num * n) hd
  have hcn : (p.num * n + p.den - 1) / p.den ≤ n := by
    have h1 : p.num * n ≤ p.den * n := Nat.mul_le_mul_right _ hle
    have h2 : (p.num * n + p.den - 1) / p.den < n + 1 := by
      rw [Nat.div_lt_iff_lt_mul hd, Nat.add_mul, Nat.mul_comm n]
      omega
    omega
  by_cases h0 : p.num = 0
  · refine ⟨1, by omega, by omega, ?_, by simp [h0], by omega⟩
    simp [discIndex, h0]
  · have hpos : 0 < p.num * n := Nat.mul_pos (by omega) hn
    by_cases h1 : p.num = p.den
    · refine ⟨n, hn, Nat.le_refl _, ?_, by rw [h1], ?_⟩
      · unfold discIndex
        cases desc
        · simp only [Bool.false_eq_true, if_false, if_neg h0, if_pos h1]
        · simp only [if_true, if_neg h0, if_pos h1]
          omega
      · intro _
        rw [h1]
        exact Nat.mul_lt_mul_of_pos_left (by omega) hd
    · have hc0 : 0 < (p.num * n + p.den - 1) / p.den := Nat.div_pos (by omega) hd
      refine ⟨(p.num * n + p.den - 1) / p.den, hc0, hcn, ?_, hc1, fun _ => hc2 hpos⟩
      simp only [discIndex, h0, h1, if_false]
      cases desc
      · simp only [Bool.false_eq_true, if_false]
        omega
      · simp only [if_true]
        omega

theorem countP_take_le {vs : List α} {q : α → Bool} {k : Nat} (hk : k ≤ vs.length)
    (h : ∀ (i : Nat) (hi : i < vs.length), i < k → q vs[i] = true) : k ≤ vs.countP q := by
  have h1 : vs = vs.take k ++ vs.drop k := (List.take_append_drop _ _).symm
  have h2 : (vs.take k).countP q = (vs.take k).length := by
    rw [List.countP_eq_length]
    intro x hx
    obtain ⟨i, hi, rfl⟩ := List.getElem_of_mem hx
    rw [List.getElem_take]
    rw [List.length_take] at hi
    exact h i (by omega) (by omega)
  rw [h1, List.countP_append, h2, List.length_take]
  omega

theorem countP_le_of {vs : List α} {q : α → Bool} {k : Nat}
    (h : ∀ (i : Nat) (hi : i < vs.length), k ≤ i → q vs[i] = false) : vs.countP q ≤ k := by
  have h1 : vs = vs.take k ++ vs.drop k := (List.take_append_drop _ _).symm
  have h2 : (vs.drop k).countP q = 0 := by
    rw [List.countP_eq_zero]
    intro x hx
    obtain ⟨i, hi, rfl⟩ := List.getElem_of_mem hx
    rw [List.getElem_drop]
    rw [List.length_drop] at hi
    simp [h (k + i) (by omega) (by omega)]
  have h3 : (vs.take k).countP q ≤ (vs.take k).length := List.countP_le_length
  rw [List.length_take] at h3
  rw [h1, List.countP_append, h2]
  omega

theorem disc_value {le : α → α → Bool} (ho : Order le) {p : Fraction}
    (hp : Percentile.Spec.Valid p) (desc : Bool) (l : List α) :
    IsDisc le p desc l (discValue le p desc l) := by
  unfold discValue
  split
  · rename_i h
    exact List.length_eq_zero_iff.mp h
  · rename_i h
    have hperm := insSort_perm (le := le) l
    have hs : (l.insSort le).Pairwise fun a b => le a b = true := insSort_sorted ho.total ho.trans l
    have hlen : (l.insSort le).length = l.length := hperm.length_eq
    obtain ⟨c, hc0, hcn, hidx, hc1, hc2⟩ := discIndex_spec hp (n := l.length) (by omega) desc
    generalize l.insSort le = vs at hperm hs hlen
    have hrefl : ∀ a, le a a = true := fun a => (ho.total a a).elim id id
    have hmono : ∀ (i j : Nat) (hi : i < vs.length) (hj : j < vs.length), i ≤ j →
        le vs[i] vs[j] = true := by
      intro i j hi hj hij
      rcases Nat.lt_or_ge i j with h | h
      · exact List.pairwise_iff_getElem.mp hs i j hi hj h
      · have : i = j := by omega
        subst this
        exact hrefl _
    have hcount : ∀ q : α → Bool, l.countP q = vs.countP q := fun q => (hperm.countP_eq q).symm
    cases desc with
    | false =>
      simp only [Bool.false_eq_true, if_false] at hidx
      rw [hidx, List.getElem?_eq_getElem (by omega : c - 1 < vs.length)]
      simp only [IsDisc, Bool.false_eq_true, if_false, hcount]
      refine ⟨hperm.mem_iff.mp (List.getElem_mem _), ?_, ?_⟩
      · have : c ≤ vs.countP fun x => le x vs[c - 1] :=
          countP_take_le (by omega) (fun i hi hic => hmono i (c - 1) hi (by omega) (by omega))
        exact Nat.le_trans hc1 (Nat.mul_le_mul_left _ this)
      · intro w hw hlt
        have h1 : vs.countP (fun x => le x w) ≤ c - 1 := by
          apply countP_le_of
          intro i hi hic
          cases hx : le vs[i] w with
          | false => rfl
          | true =>
            rw [ho.trans _ _ _ (hmono (c - 1) i (by omega) hi hic) hx] at hlt
            cases hlt
        have h2 : 1 < c := by
          rcases Nat.lt_or_ge 1 c with h | h
          · exact h
          · obtain ⟨i, hi, rfl⟩ := List.getElem_of_mem (hperm.mem_iff.mpr hw)
            rw [hmono (c - 1) i (by omega) hi (by omega)] at hlt
            cases hlt
        exact Nat.lt_of_le_of_lt (Nat.mul_le_mul_left _ h1) (hc2 h2)
    | true =>
      simp only [if_true] at hidx
      rw [hidx, List.getElem?_eq_getElem (by omega : l.length - c < vs.length)]
      simp only [IsDisc, if_true, hcount]
      have hrev : ∀ q : α → Bool, vs.countP q = vs.reverse.countP q := fun q => by
        rw [List.countP_reverse]
      refine ⟨hperm.mem_iff.mp (List.getElem_mem _), ?_, ?_⟩
      · have : c ≤ vs.countP fun x => le vs[l.length - c] x := by
          rw [hrev]
          refine countP_take_le (by simp; omega) (fun i hi hic => ?_)
          rw [List.getElem_reverse]
          exact hmono _ _ _ _ (by omega)
        exact Nat.le_trans hc1 (Nat.mul_le_mul_left _ this)
      · intro w hw hlt
        have h1 : vs.countP (fun x => le w x) ≤ c - 1 := by
          rw [hrev]
          apply countP_le_of
          intro i hi hic
          rw [List.length_reverse] at hi
          rw [List.getElem_reverse]
          cases hx : le w vs[vs.length - 1 - i] with
          | false => rfl
          | true =>
            rw [ho.trans _ _ _ hx (hmono _ (l.length - c) (by omega) (by omega) (by omega))] at hlt
            cases hlt
        have h2 : 1 < c := by
          rcases Nat.lt_or_ge 1 c with h | h
          · exact h
          · obtain ⟨i, hi, rfl⟩ := List.getElem_of_mem (hperm.mem_iff.mpr hw)
            rw [hmono i (l.length - c) hi (by omega) (by omega)] at hlt
            cases hlt
        exact Nat.lt_of_le_of_lt (Nat.mul_le_mul_left _ h1) (hc2 h2)

theorem IsDisc.unique {le : α → α → Bool} (ho : Order le) {p : Fraction} {desc : Bool} {l l' : List α}
    (hp : l.Perm l') {r r' : Option α} (h : IsDisc le p desc l r) (h' : IsDisc le p desc l' r') :
    r = r' := by
  have hc : ∀ q : α → Bool, l'.countP q = l.countP q := fun q => (hp.countP_eq q).symm
  have hl : l'.length = l.length := hp.length_eq.symm
  cases r with
  | none =>
    cases r' with
    | none => rfl
    | some v =>
      simp only [IsDisc] at h h'
      subst h
      exact absurd (hp.mem_iff.mpr h'.1) (by simp)
  | some v =>
    cases r' with
    | none =>
      simp only [IsDisc] at h h'
      subst h'
      exact absurd (hp.mem_iff.mp h.1) (by simp)
    | some w =>
      obtain ⟨h1, h2⟩ := h
      obtain ⟨h3, h4⟩ := h'
      rw [hl] at h4
      simp only [hc] at h4
      congr 1
      have hw := hp.mem_iff.mpr h3
      have hv := hp.mem_iff.mp h1
      apply ho.antisymm
      · cases hx : le v w with
        | true => rfl
        | false =>
          cases desc
          · have a := h2.2 w hw hx
            have b := h4.1
            omega
          · have a := h4.2 v hv hx
            have b := h2.1
            omega
      · cases hx : le w v with
        | true => rfl
        | false =>
          cases desc
          · have a := h4.2 v hv hx
            have b := h2.1
            omega
          · have a := h2.2 w hw hx
            have b := h4.1
            omega

theorem reaches_perm {A : Accumulator Unit (List α) (Option α) (List α) β} (hi : A.init = [])
    (hu : ∀ vs rows, A.update vs rows = .ok (vs ++ rows.filterMap id)) (hs : ∀ vs, A.state vs = vs)
    (hm : ∀ vs states, A.merge vs states = .ok (states.foldl mergeOne vs))
    (ha : ∀ a b, A.alike a b → a = b)
    {vs : List α} {l : List (Option α)} (h : A.Reaches vs l) : vs = l.filterMap id := by
  refine Reaches.induct (P := fun vs l => vs = l.filterMap id)
    (fun vs s => .ok (mergeOne vs s))
    (fun s b => by rw [hm, foldlM_ok]) ?_ ?_ ?_ ?_ ?_ h
  · exact hi
  · intro s s' l b hP he
    rw [hu] at he
    cases he
    simp [hP]
  · intro s s' l hP he
    rw [← ha _ _ he, hP]
  · intro s l s' hP he
    cases he
    exact hP
  · intro s t l l' s' h1 h2 he
    rw [hs] at he
    cases he
    simp [mergeOne, h1, h2]

/-- C73: `percentile_disc` is NULL without values and otherwise the first value in the requested order
at which the share of values seen so far reaches the percentage. -/
theorem C73_percentile_disc {le : α → α → Bool} (ho : Order le) {p : Fraction}
    (hp : Percentile.Spec.Valid p) {desc : Bool} {vs : List α} {l : List (Option α)}
    (h : (disc le p desc).Reaches vs l) :
    IsDisc le p desc (l.filterMap id) ((disc le p desc).eval vs) := by
  rw [reaches_perm (A := disc le p desc) rfl (fun _ _ => rfl) (fun _ => rfl) (fun _ _ => rfl)
    (fun _ _ h => h) h]
  exact disc_value ho hp desc _

/-- C72: `percentile_disc` does not depend on how the rows are spread. -/
theorem C72_percentile_disc {le : α → α → Bool} (ho : Order le) {p : Fraction}
    (hp : Percentile.Spec.Valid p) {desc : Bool} {vs vs' : List α} {l l' : List (Option α)}
    (h : (disc le p desc).Reaches vs l) (h' : (disc le p desc).Reaches vs' l') (hperm : l.Perm l') :
    (disc le p desc).eval vs = (disc le p desc).eval vs' :=
  IsDisc.unique ho (hperm.filterMap id) (C73_percentile_disc ho hp h) (C73_percentile_disc ho hp h')

/-- C73: an array of percentages gives NULL without values or percentages and otherwise the array of
the single results. -/
theorem C73_percentile_disc_many {le : α → α → Bool} (ho : Order le) {ps : List Fraction}
    (hps : ∀ p ∈ ps, Percentile.Spec.Valid p) {desc : Bool} {vs : List α} {l : List (Option α)}
    (h : (discMany le ps desc).Reaches vs l) :
    match (discMany le ps desc).eval vs with
    | none => l.filterMap id = [] ∨ ps = []
    | some rs => l.filterMap id ≠ [] ∧ ps ≠ [] ∧
        List.Forall₂ (fun p r => IsDisc le p desc (l.filterMap id) r) ps rs := by
  have hvs := reaches_perm (A := discMany le ps desc) rfl (fun _ _ => rfl) (fun _ => rfl)
    (fun _ _ => rfl) (fun _ _ h => h) h
  rw [← hvs]
  simp only [discMany]
  by_cases hc : vs.isEmpty = true ∨ ps.isEmpty = true
  · rw [if_pos hc]
    simpa using hc
  · rw [if_neg hc]
    have hne : vs ≠ [] := fun h => hc (.inl (by simp [h]))
    refine ⟨hne, fun h => hc (.inr (by simp [h])), ?_⟩
    clear h hc
    induction ps with
    | nil => exact .nil
    | cons p ps ih =>
      refine .cons ?_ (ih (fun q hq => hps q (.tail _ hq)))
      have := disc_value ho (hps p (.head _)) desc vs
      unfold discValue at this
      rwa [if_neg (by simpa using hne)] at this

/-! ## Many groups -/

/-- The rows of a batch as the query sees them: the group and the value of every row that is not NULL
and that the filter keeps. -/
def Spec.batch : List Nat → List α → List Bool → List (Option Bool) → List (Nat × α)
  | g :: gs, v :: vs, b :: bs, f :: fs =>
    (if b = true ∧ f = some true then [(g, v)] else []) ++ Spec.batch gs vs bs fs
  | _, _, _, _ => []

/-- The values of a group in a batch. -/
def Spec.valuesOf (g : Nat) (rows : List (Nat × α)) : List α :=
  rows.filterMap fun r => if r.1 = g then some r.2 else none

theorem push_get (gs : List (List α)) (g : Nat) (v : α) (i : Nat) (hi : i < gs.length) :
    (push gs g v)[i]? = some (gs[i] ++ if g = i then [v] else []) := by
  unfold push
  rw [List.getElem?_modify, List.getElem?_eq_getElem hi]
  show some (if g = i then _ else _) = _
  split <;> simp

/-- `out` is `gs` with the values of `rows` appended to their groups. -/
def Appends (gs out : List (List α)) (rows : List (Nat × α)) : Prop :=
  out.length = gs.length ∧ ∀ (i : Nat) (hi : i < gs.length), out[i]? = some (gs[i] ++ valuesOf i rows)

theorem Appends.refl (gs : List (List α)) : Appends gs gs [] :=
  ⟨rfl, fun i hi => by simp [valuesOf, hi]⟩

theorem Appends.trans {a b c : List (List α)} {r r' : List (Nat × α)} (h : Appends a b r)
    (h' : Appends b c r') : Appends a c (r ++ r') := by
  refine ⟨by rw [h'.1, h.1], fun i hi => ?_⟩
  have h1 := h.2 i hi
  have hb : i < b.length := by rw [h.1]; exact hi
  rw [List.getElem?_eq_getElem hb, Option.some.injEq] at h1
  rw [h'.2 i hb, h1]
  simp [valuesOf]

theorem Appends.push (gs : List (List α)) (g : Nat) (v : α) :
    Appends gs (PercentileDisc.push gs g v) [(g, v)] := by
  refine ⟨by simp [PercentileDisc.push], fun i hi => ?_⟩
  rw [push_get gs g v i hi]
  by_cases h : g = i <;> simp [valuesOf, h]

theorem Appends.cond (gs : List (List α)) (g : Nat) (v : α) (c : Prop) [Decidable c] :
    Appends gs (if c then PercentileDisc.push gs g v else gs) (if c then [(g, v)] else []) := by
  split
  · exact .push gs g v
  · exact .refl gs

theorem word_bit (bits : List Bool) (hb : bits.length ≤ 64) (i : Nat) (hi : i < bits.length) :
    word bits &&& (1#64 <<< i) ≠ 0 ↔ bits[i] = true := by
  have h1 : (word bits).getLsbD i = bits[i] := by
    unfold word
    rw [BitVec.getLsbD_setWidth, BitVec.getLsbD_ofBoolListLE]
    simp [hi]
    omega
  rw [← h1]
  constructor
  · intro h
    cases hx : (word bits).getLsbD i with
    | true => rfl
    | false =>
      exfalso
      apply h
      apply BitVec.eq_of_getLsbD_eq
      intro j hj
      simp only [BitVec.getLsbD_and, BitVec.getLsbD_shiftLeft, BitVec.getLsbD_one]
      by_cases hij : j = i
      · subst hij; simp [hx]
      · have : ¬ (j - i = 0 ∧ ¬ j < i) := by omega
        simp
        omega
  · intro h he
    have h2 := congrArg (fun x : BitVec 64 => x.getLsbD i) he
    simp only [BitVec.getLsbD_and, h, BitVec.getLsbD_shiftLeft, BitVec.getLsbD_one] at h2
    simp at h2
    omega

/-- The loops write the rows whose bit is set. -/
def masked : List (Nat × α) → List Bool → List (Nat × α)
  | r :: rows, b :: bits => (if b = true then [r] else []) ++ masked rows bits
  | _, _ => []

theorem chunkLoop_ok (all : List Bool) (hall : all.length ≤ 64) (rows : List (Nat × α)) (i : Nat)
    (hr : rows.length = (all.drop i).length) (gs : List (List α)) :
    Appends gs (chunkLoop (word all) (1#64 <<< i) rows gs) (masked rows (all.drop i)) := by
  induction rows generalizing i gs with
  | nil => simpa [chunkLoop, masked] using Appends.refl gs
  | cons r rows ih =>
    obtain ⟨g, v⟩ := r
    have hi : i < all.length := by
      rw [List.length_drop] at hr
      simp at hr
      omega
    rw [List.drop_eq_getElem_cons hi] at hr ⊢
    simp only [chunkLoop, masked]
    have h1 := Appends.cond gs g v (word all &&& (1#64 <<< i) ≠ 0)
    have h2 := ih (i + 1) (by simp at hr ⊢; omega)
      (if word all &&& (1#64 <<< i) ≠ 0 then PercentileDisc.push gs g v else gs)
    have h3 : (1#64 <<< i) <<< 1 = 1#64 <<< (i + 1) := (BitVec.shiftLeft_add _ _ _).symm
    rw [h3]
    have h4 := h1.trans h2
    have h5 := word_bit all hall i hi
    simp only [h5] at h4 ⊢
    exact h4

theorem remainderLoop_ok (all : List Bool) (hall : all.length ≤ 64) (rows : List (Nat × α)) (i : Nat)
    (hr : rows.length = (all.drop i).length) (gs : List (List α)) :
    Appends gs (remainderLoop (word all) i rows gs) (masked rows (all.drop i)) := by
  induction rows generalizing i gs with
  | nil => simpa [remainderLoop, masked] using Appends.refl gs
  | cons r rows ih =>
    obtain ⟨g, v⟩ := r
    have hi : i < all.length := by
      rw [List.length_drop] at hr
      simp at hr
      omega
    rw [List.drop_eq_getElem_cons hi] at hr ⊢
    simp only [remainderLoop, masked]
    have h1 := Appends.cond gs g v (word all &&& (1#64 <<< i) ≠ 0)
    have h2 := ih (i + 1) (by simp at hr ⊢; omega)
      (if word all &&& (1#64 <<< i) ≠ 0 then PercentileDisc.push gs g v else gs)
    have h4 := h1.trans h2
    have h5 := word_bit all hall i hi
    simp only [h5] at h4 ⊢
    exact h4

theorem masked_append (a b : List (Nat × α)) (c d : List Bool) (h : a.length = c.length) :
    masked (a ++ b) (c ++ d) = masked a c ++ masked b d := by
  induction a generalizing c with
  | nil => cases c with | nil => rfl | cons => cases h
  | cons x a ih =>
    cases c with
    | nil => cases h
    | cons y c => simp [masked, ih c (by simpa using h)]

theorem chunked_ok (rows : List (Nat × α)) (bits : List Bool) (h : rows.length = bits.length)
    (gs : List (List α)) : Appends gs (chunked rows bits gs) (masked rows bits) := by
  fun_induction chunked rows bits gs with
  | case1 rows bits gs hl ih =>
    have h1 := chunkLoop_ok (bits.take 64) (by simp) (rows.take 64) 0 (by simp; omega) gs
    have h2 := ih (by simp [h])
    have h3 := h1.trans h2
    rw [List.drop_zero, ← masked_append _ _ _ _ (by simp [h]), List.take_append_drop,
      List.take_append_drop] at h3
    exact h3
  | case2 rows bits gs hl =>
    have := remainderLoop_ok bits (by omega) rows 0 (by simpa using h) gs
    simpa using this

theorem resize_get (gs : List (List α)) (n i : Nat) (hi : i < n) :
    (resize gs n)[i]? = some (gs.getD i []) := by
  unfold resize
  by_cases h : i < gs.length
  · rw [List.getElem?_append_left (by simp; omega), List.getElem?_take_of_lt hi]
    simp [h]
  · rw [List.getElem?_append_right (by simp; omega), List.getElem?_replicate]
    simp [List.getD_eq_getElem?_getD, List.getElem?_eq_none (by omega : gs.length ≤ i)]
    omega

theorem length_resize (gs : List (List α)) (n : Nat) : (resize gs n).length = n := by
  simp [resize]
  omega

/-- C72: the accumulator for many groups adds to every group exactly the values of its rows that are
not NULL and that the filter keeps, in the order of the rows; for every number of rows, in whole chunks
of 64 or not. -/
theorem C72_groups_update (gs : List (List α)) (values : Prim α) (groups : List Nat)
    (filter : Option (List (Option Bool))) (total : Nat)
    (hg : groups.length = values.data.length)
    (hv : ∀ b, values.valid = some b → b.length = values.data.length)
    (hf : ∀ f, filter = some f → f.length = values.data.length) :
    (groupUpdate gs values groups filter total).length = total ∧
    ∀ i < total, (groupUpdate gs values groups filter total)[i]? = some (gs.getD i [] ++
      valuesOf i (batch groups values.data (values.valid.getD (.replicate values.data.length true))
        (filter.getD (.replicate values.data.length (some true))))) := by
  suffices H : Appends (resize gs total) (groupUpdate gs values groups filter total)
      (batch groups values.data (values.valid.getD (.replicate values.data.length true))
        (filter.getD (.replicate values.data.length (some true)))) by
    refine ⟨by rw [H.1, length_resize], fun i hi => ?_⟩
    have hi' : i < (resize gs total).length := by rw [length_resize]; exact hi
    have h1 := resize_get gs total i hi
    rw [List.getElem?_eq_getElem hi', Option.some.injEq] at h1
    rw [H.2 i hi', h1]
  obtain ⟨data, valid⟩ := values
  simp only at hg hv hf ⊢
  unfold groupUpdate
  simp only
  generalize resize gs total = g0
  cases valid with
  | none =>
    cases filter with
    | none =>
      simp only [Option.getD_none]
      clear hv hf
      induction groups generalizing data g0 with
      | nil =>
        cases data with
        | nil => exact Appends.refl g0
        | cons => cases hg
      | cons g groups ih =>
        cases data with
        | nil => cases hg
        | cons v data =>
          have h1 := ih data (by simpa using hg) (PercentileDisc.push g0 g v)
          simpa [batch, List.replicate_succ] using (Appends.push g0 g v).trans h1
    | some f =>
      simp only [Option.getD_none, Option.getD_some]
      have hf' := hf f rfl
      clear hv hf
      induction groups generalizing data g0 f with
      | nil =>
        cases data with
        | nil => exact Appends.refl g0
        | cons => cases hg
      | cons g groups ih =>
        cases data with
        | nil => cases hg
        | cons v data =>
          cases f with
          | nil => cases hf'
          | cons fv f =>
            have h1 := ih data (by simpa using hg)
              (if fv = some true then PercentileDisc.push g0 g v else g0) f (by simpa using hf')
            simpa [batch, List.replicate_succ] using (Appends.cond g0 g v (fv = some true)).trans h1
  | some bits =>
    have hb := hv bits rfl
    clear hv
    cases filter with
    | none =>
      simp only [Option.getD_none, Option.getD_some]
      have h1 := chunked_ok (groups.zip data) bits (by simp; omega) g0
      have h2 : masked (groups.zip data) bits =
          batch groups data bits (.replicate data.length (some true)) := by
        clear h1 hf
        induction groups generalizing data bits with
        | nil => cases data <;> cases bits <;> simp [masked, batch]
        | cons g groups ih =>
          cases data with
          | nil => cases hg
          | cons v data =>
            cases bits with
            | nil => cases hb
            | cons b bits =>
              simp only [List.zip_cons_cons, masked, List.length_cons, List.replicate_succ, batch,
                and_true]
              rw [ih data (by simpa using hg) bits (by simpa using hb)]
      rw [← h2]
      exact h1
    | some f =>
      simp only [Option.getD_some]
      have hf' := hf f rfl
      clear hf
      induction groups generalizing data g0 f bits with
      | nil =>
        cases data with
        | nil => cases f <;> exact Appends.refl g0
        | cons => cases hg
      | cons g groups ih =>
        cases data with
        | nil => cases hg
        | cons v data =>
          cases f with
          | nil => cases hf'
          | cons fv f =>
            cases bits with
            | nil => cases hb
            | cons b bits =>
              have h0 := Appends.cond g0 g v (b = true ∧ fv = some true)
              have he : (if fv = some true then (if b = true then PercentileDisc.push g0 g v else g0) else g0) =
                  if b = true ∧ fv = some true then PercentileDisc.push g0 g v else g0 := by
                by_cases h1 : fv = some true <;> by_cases h2 : b = true <;> simp [h1, h2]
              have h1 := ih data (by simpa using hg)
                (if b = true ∧ fv = some true then PercentileDisc.push g0 g v else g0) bits (by simpa using hb) f (by simpa using hf')
              simp only [List.zip_cons_cons, List.foldl_cons, batch]
              rw [he]
              exact h0.trans h1

/-- The states of a group in a batch of states. -/
def Spec.statesOf (g : Nat) (rows : List (Nat × Option (List α))) : List α :=
  rows.flatMap fun r => if r.1 = g then r.2.getD [] else []

/-- C72: merging adds to every group the values of its states. -/
theorem C72_groups_merge (gs : List (List α)) (states : List (Option (List α))) (groups : List Nat)
    (total : Nat) :
    (groupMerge gs states groups total).length = total ∧
    ∀ i < total, (groupMerge gs states groups total)[i]? =
      some (gs.getD i [] ++ statesOf i (groups.zip states)) := by
  unfold groupMerge
  generalize groups.zip states = rows
  suffices H : ∀ (rows : List (Nat × Option (List α))) (g0 : List (List α)),
      let out := rows.foldl extend g0
      out.length = g0.length ∧
        ∀ (i : Nat) (hi : i < g0.length), out[i]? = some (g0[i] ++ statesOf i rows) by
    obtain ⟨h1, h2⟩ := H rows (resize gs total)
    refine ⟨by rw [h1, length_resize], fun i hi => ?_⟩
    have hi' : i < (resize gs total).length := by rw [length_resize]; exact hi
    have h3 := resize_get gs total i hi
    rw [List.getElem?_eq_getElem hi', Option.some.injEq] at h3
    rw [h2 i hi', h3]
  intro rows
  induction rows with
  | nil => intro g0; exact ⟨rfl, fun i hi => by simp [statesOf, hi]⟩
  | cons r rows ih =>
    intro g0
    obtain ⟨g, o⟩ := r
    cases o with
    | none =>
      obtain ⟨h1, h2⟩ := ih g0
      refine ⟨h1, fun i hi => ?_⟩
      have := h2 i hi
      simpa [statesOf, extend] using this
    | some vs =>
      obtain ⟨h1, h2⟩ := ih (g0.modify g (· ++ vs))
      refine ⟨by simpa [extend] using h1, fun i hi => ?_⟩
      have h3 := h2 i (by simpa using hi)
      simp only [List.foldl_cons, extend] at h3 ⊢
      rw [h3, List.getElem_modify]
      split
      · rename_i h; simp [statesOf, h]
      · rename_i h; simp [statesOf, h]

theorem offsets_getD (cur : Nat) (gs : List (List α)) (i : Nat) (hi : i ≤ gs.length) :
    (offsets cur gs).getD i 0 = cur + (gs.take i).flatten.length := by
  induction gs generalizing cur i with
  | nil =>
    have : i = 0 := by simpa using hi
    subst this
    simp [offsets]
  | cons g gs ih =>
    cases i with
    | zero => simp [offsets]
    | succ i =>
      simp only [offsets, List.getD_cons_succ, List.take_succ_cons, List.flatten_cons,
        List.length_append]
      rw [ih _ i (by simpa using hi)]
      omega

theorem entry_flatten (gs : List (List α)) (i : Nat) (hi : i < gs.length) :
    entry (offsets 0 gs) gs.flatten i = gs[i] := by
  unfold entry
  rw [offsets_getD 0 gs i (by omega), offsets_getD 0 gs (i + 1) (by omega)]
  have h1 : gs = gs.take i ++ gs[i] :: gs.drop (i + 1) := by
    rw [← List.drop_eq_getElem_cons hi, List.take_append_drop]
  have h2 : gs.flatten = (gs.take i).flatten ++ (gs[i] ++ (gs.drop (i + 1)).flatten) := by
    have := congrArg List.flatten h1
    rwa [List.flatten_append, List.flatten_cons] at this
  have h3 : (gs.take (i + 1)).flatten.length = (gs.take i).flatten.length + gs[i].length := by
    rw [List.take_succ_eq_append_getElem hi, List.flatten_append, List.length_append]
    simp only [List.flatten_cons, List.flatten_nil, List.append_nil]
  rw [h3, h2, Nat.zero_add, Nat.zero_add]
  generalize (gs.take i).flatten = x
  generalize gs[i] = y
  rw [← List.append_assoc, List.take_left' (by simp), List.drop_left' rfl]

/-- C72: the states that the groups emit are their values, and the groups that are not emitted stay. -/
theorem C72_groups_state (gs : List (List α)) (emit : Option Nat) :
    groupState gs emit = ((takeNeeded gs emit).1.map some, (takeNeeded gs emit).2) ∧
    (takeNeeded gs emit).1 ++ (takeNeeded gs emit).2 = gs := by
  refine ⟨?_, ?_⟩
  · unfold groupState
    simp only [Prod.mk.injEq, and_true]
    generalize (takeNeeded gs emit).1 = out
    apply List.ext_getElem
    · simp
    · intro i h1 h2
      simp only [List.getElem_map, List.getElem_range]
      rw [entry_flatten out i (by simpa using h1)]
  · cases emit <;> simp [takeNeeded]

/-- C72: turning rows into states one by one gives every kept value as its own state and NULL for the
others, so that merging them is the same as updating with the rows. -/
theorem C72_groups_convert (values : Prim α) (filter : Option (List (Option Bool)))
    (hv : ∀ b, values.valid = some b → b.length = values.data.length)
    (hf : ∀ f, filter = some f → f.length = values.data.length) (gs : List (List α))
    (groups : List Nat) (hg : groups.length = values.data.length) (total : Nat) :
    groupMerge gs (convertToState values filter) groups total =
      groupUpdate gs values groups filter total := by
  obtain ⟨h1, h2⟩ := C72_groups_merge gs (convertToState values filter) groups total
  obtain ⟨h3, h4⟩ := C72_groups_update gs values groups filter total hg hv hf
  apply List.ext_getElem?
  intro i
  by_cases hi : i < total
  · rw [h2 i hi, h4 i hi]
    congr 2
    obtain ⟨data, valid⟩ := values
    simp only at hv hf hg ⊢
    have hc : convertToState ⟨data, valid⟩ filter = (List.range data.length).map fun i =>
        if ((valid.getD (.replicate data.length true)).getD i false &&
          (filter.getD (.replicate data.length (some true))).getD i none == some true) then
          data[i]?.map fun v => [v] else none := by
      unfold convertToState
      apply List.map_congr_left
      intro j hj
      have hj' : j < data.length := List.mem_range.mp hj
      have he : entry (List.range (data.length + 1)) data j = [data[j]] := by
        unfold entry
        have a : (List.range (data.length + 1)).getD j 0 = j := by
          rw [List.getD_eq_getElem?_getD, List.getElem?_range (by omega)]; rfl
        have b : (List.range (data.length + 1)).getD (j + 1) 0 = j + 1 := by
          rw [List.getD_eq_getElem?_getD, List.getElem?_range (by omega)]; rfl
        rw [a, b, List.take_succ_eq_append_getElem hj', List.drop_append_of_le_length (by simp; omega)]
        simp
      have hk : (keepMask data.length filter).getD j false =
          ((filter.getD (.replicate data.length (some true))).getD j none == some true) := by
        cases filter with
        | none => simp [keepMask, List.getD_eq_getElem?_getD, hj']
        | some f =>
          simp only [keepMask]
          have := hf f rfl
          simp only [List.getD_eq_getElem?_getD, List.getElem?_map, Option.getD_some]
          rw [List.getElem?_eq_getElem (by omega)]
          rfl
      rw [List.getElem?_eq_getElem hj', Option.map_some]
      simp only [he]
      rw [hk]
    rw [hc]
    have hb' : (valid.getD (.replicate data.length true)).length = data.length := by
      cases valid with
      | none => simp
      | some b => exact hv b rfl
    have hf' : (filter.getD (.replicate data.length (some true))).length = data.length := by
      cases filter with
      | none => simp
      | some b => exact hf b rfl
    generalize valid.getD (.replicate data.length true) = bits at hb' ⊢
    generalize filter.getD (.replicate data.length (some true)) = fs at hf' ⊢
    clear hc h1 h2 h3 h4 hv hf
    induction groups generalizing data bits fs with
    | nil =>
      cases data with
      | nil => rfl
      | cons => cases hg
    | cons g groups ih =>
      cases data with
      | nil => cases hg
      | cons v data =>
        cases bits with
        | nil => cases hb'
        | cons b bits =>
          cases fs with
          | nil => cases hf'
          | cons f fs =>
            have h5 := ih data (by simpa using hg) bits (by simpa using hb') fs (by simpa using hf')
            simp only [List.length_cons, List.range_succ_eq_map, List.map_cons, List.map_map,
              List.zip_cons_cons, statesOf, List.flatMap_cons, batch, valuesOf,
              List.filterMap_append, Function.comp_def, List.getD_cons_succ, List.getD_cons_zero,
              List.getElem?_cons_succ, List.getElem?_cons_zero] at h5 ⊢
            rw [h5]
            congr 1
            by_cases c1 : b = true <;> by_cases c2 : f = some true <;> by_cases c3 : g = i <;>
              simp [c1, c2, c3]
  · rw [List.getElem?_eq_none (by omega), List.getElem?_eq_none (by omega)]

/-- C72: every emitted result is the result of the accumulator for one group over the values of that
group. -/
theorem C72_groups_eval (le : α → α → Bool) (p : Fraction) (desc : Bool) (gs : List (List α))
    (emit : Option Nat) (i : Nat) (hi : i < (takeNeeded gs emit).1.length) :
    ∃ vs, (takeNeeded gs emit).1[i]? = some vs ∧
      (groupEval le p desc gs emit).1[i]? = some ((disc le p desc).eval vs) := by
  refine ⟨_, List.getElem?_eq_getElem hi, ?_⟩
  simp [groupEval, disc, hi]

/-- The quartiles of four values, ascending and descending. -/
example : discValue (fun a b : Int => decide (a ≤ b)) ⟨1, 4⟩ false [3, 1, 4, 2] = some 1 ∧
    discValue (fun a b : Int => decide (a ≤ b)) ⟨1, 4⟩ true [3, 1, 4, 2] = some 4 ∧
    discValue (fun a b : Int => decide (a ≤ b)) ⟨1, 3⟩ false [3, 1, 4, 2] = some 2 ∧
    discValue (fun a b : Int => decide (a ≤ b)) ⟨1, 3⟩ true [3, 1, 4, 2] = some 3 := by
  decide +kernel

/-- A batch of 66 rows in two groups, with NULLs in the first and the last row. -/
example : groupUpdate [[7]]
    ⟨List.range 66, some (false :: (List.replicate 64 true ++ [false]))⟩
    ((List.range 66).map (· % 2)) none 2 =
    [7 :: (List.range 66).filter (fun i => i % 2 == 0 && i != 0),
      (List.range 66).filter (fun i => i % 2 == 1 && i != 65)] := by
  decide +kernel

end Verif.Func.PercentileDisc
