import Verif.Func.Percentile
import Mathlib.Tactic.Linarith
import Mathlib.Tactic.FieldSimp
import Mathlib.Tactic.Ring
import Mathlib.Tactic.NormNum
import Mathlib.Data.Rat.Cast.Order
/-! # `percentile`: theorems -/
namespace Verif.Func.Percentile

open Counts Accumulator Verif

variable {α β : Type} [DecidableEq α]

/-- A total order. -/
structure Spec.Order (le : α → α → Bool) : Prop where
  total : ∀ a b, le a b = true ∨ le b a = true
  trans : ∀ a b c, le a b = true → le b c = true → le a c = true
  antisymm : ∀ a b, le a b = true → le b a = true → a = b

/-- `s` holds the values of `l` in ascending order. -/
def Spec.Sorts (le : α → α → Bool) (s l : List α) : Prop :=
  s.Perm l ∧ s.Pairwise fun a b => le a b = true

/-- Percentages lie between zero and one. -/
def Spec.Valid (p : Fraction) : Prop := 0 < p.den ∧ p.num ≤ p.den

open Spec

/-- The accumulator holds exactly the values `l`. -/
def Holds (s : State α) (l : List α) : Prop := Rep s.counts l ∧ s.total = l.length

theorem Holds.add {s : State α} {l : List α} (h : Holds s l) (r : Option α) :
    Holds (addRow s r) (l ++ r.toList) := by
  cases r with
  | none => simpa [addRow] using h
  | some v =>
    have h1 := h.1.bump v (n := 1) (by decide)
    exact ⟨by simpa [addRow] using h1, by simp [addRow, h.2]⟩

theorem Holds.rows {s : State α} {l : List α} (h : Holds s l) (rows : List (Option α)) :
    Holds (rows.foldl addRow s) (l ++ rows.filterMap id) := by
  induction rows generalizing s l with
  | nil => simpa using h
  | cons r rows ih =>
    have := ih (h.add r)
    cases r <;> simpa using this

theorem Holds.perm {s : State α} {l l' : List α} (h : Holds s l) (hp : l.Perm l') : Holds s l' :=
  ⟨h.1.perm_rows hp, by rw [h.2, hp.length_eq]⟩

theorem Holds.retract {s : State α} {x y : List α} {rows : List (Option α)}
    (hx : rows.filterMap id = x) (h : Holds s (x ++ y)) : Holds (rows.foldl retractRow s) y := by
  induction rows generalizing s x with
  | nil => cases hx; simpa using h
  | cons r rows ih =>
    cases r with
    | none => exact ih (by simpa using hx) h
    | some v =>
      simp only [List.filterMap_cons_some (show id (some v) = some v from rfl)] at hx
      subst hx
      have hmem : v ∈ s.counts.map Prod.fst := by
        have h1 : (v, (v :: rows.filterMap id ++ y).count v) ∈ s.counts :=
          (h.1.mem_iff _ _).mpr ⟨rfl, List.count_pos_iff.mpr (by simp)⟩
        exact List.mem_map.mpr ⟨_, h1, rfl⟩
      refine ih rfl ?_
      simp only [retractRow, if_pos hmem]
      have h2 := h.1.drop1 v
      rw [List.cons_append, List.erase_cons_head] at h2
      exact ⟨h2, by simp [h.2]⟩

theorem Holds.sorts {le : α → α → Bool} (ho : Order le) {s : State α} {l : List α} (h : Holds s l) :
    Sorts le (sorted le s) l :=
  ⟨(insSort_perm _).trans h.1.expand_perm, insSort_sorted ho.total ho.trans _⟩

omit [DecidableEq α] in
theorem Sorts.unique {le : α → α → Bool} (ho : Order le) {s s' l l' : List α} (hp : l.Perm l')
    (h : Sorts le s l) (h' : Sorts le s' l') : s = s' :=
  List.Perm.eq_of_pairwise (fun a b _ _ h1 h2 => ho.antisymm a b h1 h2) h.2 h'.2
    ((h.1.trans hp).trans h'.1.symm)

theorem holds_of {A : Accumulator Unit (State α) (Option α) (List α) β} {le : α → α → Bool}
    (ho : Order le) (hi : A.init = ⟨[], 0⟩) (hu : ∀ s rows, A.update s rows = .ok (rows.foldl addRow s))
    (hs : ∀ s, A.state s = sorted le s)
    (hm : ∀ s states, A.merge s states = .ok (states.foldl mergeOne s))
    (ha : ∀ s s', A.alike s s' → s.counts.Perm s'.counts ∧ s.total = s'.total)
    {s : State α} {l : List (Option α)} (h : A.Reaches s l) : Holds s (l.filterMap id) := by
  refine Reaches.induct (P := fun s l => Holds s (l.filterMap id)) (fun m s => .ok (mergeOne m s))
    (fun s b => by rw [hm, foldlM_ok]) ?_ ?_ ?_ ?_ ?_ h
  · rw [hi]
    exact ⟨Rep.empty, rfl⟩
  · intro s s' l b hP he
    rw [hu] at he
    cases he
    simpa using hP.rows b
  · intro s s' l hP he
    exact ⟨hP.1.perm (ha _ _ he).1, by rw [← (ha _ _ he).2, hP.2]⟩
  · intro s l s' hP he
    cases he
    exact hP
  · intro s t l l' s' h1 h2 he
    rw [hs] at he
    cases he
    simp only [mergeOne, List.filterMap_append]
    have h3 := h1.rows ((sorted le t).map some)
    rw [List.foldl_map] at h3
    refine h3.perm ?_
    have : ((sorted le t).map some).filterMap id = sorted le t := by
      rw [List.filterMap_map]
      simp
    rw [this]
    exact (h2.sorts ho).1.append_left _

theorem percentile_holds {le : α → α → Bool} (ho : Order le) {pick : List α → Option β} {s : State α}
    {l : List (Option α)} (h : (percentile le pick).Reaches s l) : Holds s (l.filterMap id) :=
  holds_of (A := percentile le pick) ho rfl (fun _ _ => rfl) (fun _ => rfl) (fun _ _ => rfl)
    (fun _ _ h => h) h

theorem percentile_eval {le : α → α → Bool} {pick : List α → Option β} {s : State α}
    {l : List α} (h : Holds s l) :
    (percentile le pick).eval s = if l = [] then none else pick (sorted le s) := by
  have : s.total = 0 ↔ l = [] := by rw [h.2, List.length_eq_zero_iff]
  simp only [percentile, this]

/-- C72: `percentile` does not depend on how the rows are spread, nor on the iteration order of the
hash map. -/
theorem C72_percentile {le : α → α → Bool} (ho : Order le) {pick : List α → Option β} {s s' : State α}
    {l l' : List (Option α)} (h : (percentile le pick).Reaches s l)
    (h' : (percentile le pick).Reaches s' l') (hp : l.Perm l') :
    (percentile le pick).eval s = (percentile le pick).eval s' := by
  have h1 := percentile_holds ho h
  have h2 := percentile_holds ho h'
  have hq : (l.filterMap id).Perm (l'.filterMap id) := hp.filterMap id
  rw [percentile_eval h1, percentile_eval h2, Sorts.unique ho hq (h1.sorts ho) (h2.sorts ho)]
  have : l.filterMap id = [] ↔ l'.filterMap id = [] := by
    rw [← List.length_eq_zero_iff, hq.length_eq, List.length_eq_zero_iff]
  simp only [this]

/-- C72: an array of percentages gives the array of the single results. -/
theorem C73_percentiles {le : α → α → Bool} (ho : Order le) {pick : Fraction → List α → Option β}
    {ps : List Fraction} {s : State α} {l : List (Option α)}
    (h : (percentiles le pick ps).Reaches s l) {s' : State α} {l' : List (Option α)} (hp : l.Perm l')
    (h' : ∀ p ∈ ps, (percentile le (pick p)).Reaches s' l') :
    (percentiles le pick ps).eval s =
      if l.filterMap id = [] then none
      else some (ps.map fun p => (percentile le (pick p)).eval s') := by
  have h1 : Holds s (l.filterMap id) :=
    holds_of (A := percentiles le pick ps) ho rfl (fun _ _ => rfl) (fun _ => rfl) (fun _ _ => rfl)
      (fun _ _ h => h) h
  have : s.total = 0 ↔ l.filterMap id = [] := by rw [h1.2, List.length_eq_zero_iff]
  have hq : (l.filterMap id).Perm (l'.filterMap id) := hp.filterMap id
  show (if s.total = 0 then none else some (ps.map fun p => pick p (sorted le s))) = _
  simp only [this]
  split
  · rfl
  · rename_i hne
    congr 1
    apply List.map_congr_left
    intro p hmem
    have h2 := percentile_holds ho (h' p hmem)
    rw [percentile_eval h2, if_neg, Sorts.unique ho hq (h1.sorts ho) (h2.sorts ho)]
    intro h3
    apply hne
    rw [← List.length_eq_zero_iff, hq.length_eq, h3]
    rfl

/-! ## The value -/

theorem pos_le {p : Fraction} (hp : Valid p) {n k rem : Nat} (h : k * p.den + rem = n * p.num) :
    k ≤ n ∧ (0 < rem → k < n) := by
  have h1 : n * p.num ≤ n * p.den := Nat.mul_le_mul_left _ hp.2
  have hd := hp.1
  refine ⟨?_, fun hr => ?_⟩
  · exact Nat.le_of_mul_le_mul_right (by omega : k * p.den ≤ n * p.den) hd
  · exact Nat.lt_of_mul_lt_mul_right (by omega : k * p.den < n * p.den)

theorem div_of {a b k rem : Nat} (h : k * b + rem = a) (hr : rem < b) : a / b = k ∧
    (a + b - 1) / b = if rem = 0 then k else k + 1 := by
  have hb : 0 < b := by omega
  refine ⟨?_, ?_⟩
  · rw [← h, Nat.mul_comm, Nat.mul_add_div hb, Nat.div_eq_of_lt hr, Nat.add_zero]
  · split
    · rename_i h0
      rw [← h, h0, Nat.add_zero, Nat.add_sub_assoc hb, Nat.mul_comm, Nat.mul_add_div hb,
        Nat.div_eq_of_lt (by omega), Nat.add_zero]
    · rename_i h0
      have : a + b - 1 = b * (k + 1) + (rem - 1) := by
        rw [Nat.mul_add, Nat.mul_comm b k, Nat.mul_one]
        omega
      rw [this, Nat.mul_add_div hb, Nat.div_eq_of_lt (by omega), Nat.add_zero]

theorem interpolate_value {p : Fraction} (hp : Valid p) {vs : List Rat} (hne : vs ≠ []) {k rem : Nat}
    (hk : k * p.den + rem = (vs.length - 1) * p.num) (hr : rem < p.den) :
    ∃ r lo hi, interpolate p vs = some r ∧ vs[k]? = some lo ∧
      vs[if rem = 0 then k else k + 1]? = some hi ∧
      r * (p.den : Rat) = lo * ((p.den - rem : Nat) : Rat) + hi * (rem : Rat) := by
  have hlen : 0 < vs.length := List.length_pos_iff.mpr hne
  obtain ⟨hle, hlt⟩ := pos_le hp hk
  obtain ⟨hd1, hd2⟩ := div_of hk hr
  have hkl : k < vs.length := by omega
  have hkl' : (if rem = 0 then k else k + 1) < vs.length := by split <;> omega
  refine ⟨vs[k] + ((rem : Rat) / p.den) * (vs[if rem = 0 then k else k + 1] - vs[k]), _, _, ?_,
    List.getElem?_eq_getElem hkl, List.getElem?_eq_getElem hkl', ?_⟩
  · unfold interpolate
    rw [if_neg (by omega)]
    by_cases h1 : vs.length = 1
    · rw [if_pos h1]
      have hk0 : k = 0 := by omega
      have hr0 : rem = 0 := by
        rcases Nat.eq_zero_or_pos rem with h | h
        · exact h
        · have := hlt h; omega
      subst hk0 hr0
      simp
    · rw [if_neg h1]
      simp only [hd1, hd2]
      by_cases h0 : rem = 0
      · simp [h0, hkl]
      · have hne' : ¬ k = if rem = 0 then k else k + 1 := by rw [if_neg h0]; omega
        rw [if_neg hne', List.getElem?_eq_getElem hkl, List.getElem?_eq_getElem hkl']
        simp only [Option.some.injEq]
        congr 2
        have hdne : (p.den : Rat) ≠ 0 := by
          have := hp.1
          exact_mod_cast (by omega : p.den ≠ 0)
        rw [← hk]
        push_cast
        field_simp
        ring
  · have hdne : (p.den : Rat) ≠ 0 := by
      have := hp.1
      exact_mod_cast (by omega : p.den ≠ 0)
    rw [Nat.cast_sub (by omega : rem ≤ p.den)]
    field_simp
    ring

theorem round_near (x : Rat) : |2 * (round x : Rat) - 2 * x| ≤ 1 := by
  unfold round
  rw [abs_le]
  split
  · have h1 := Rat.floor_le (x + 1 / 2)
    have h2 := Rat.lt_floor (x := x + 1 / 2)
    constructor <;> linarith
  · have h1 := Rat.floor_le (-x + 1 / 2)
    have h2 := Rat.lt_floor (x := -x + 1 / 2)
    push_cast
    constructor <;> linarith

theorem interpolateInterval_eq (p : Fraction) (vs : List Int) :
    ∃ q : Option Rat, interpolate p (vs.map (↑)) = q ∧ interpolateInterval p vs = q.map round := by
  have hround : ∀ i : Int, round (i : Rat) = i := by
    intro i
    have h := round_near (i : Rat)
    have h2 : |2 * (round (i : Rat)) - 2 * i| ≤ 1 := by exact_mod_cast h
    rw [abs_le] at h2
    omega
  refine ⟨_, rfl, ?_⟩
  unfold interpolate interpolateInterval
  simp only [List.length_map, List.getElem?_map]
  split
  · rfl
  · split
    · cases vs[0]? <;> simp [hround]
    · split
      · generalize vs[(vs.length - 1) * p.num / p.den]? = o
        cases o <;> simp [hround]
      · generalize vs[(vs.length - 1) * p.num / p.den]? = o
        generalize vs[((vs.length - 1) * p.num + p.den - 1) / p.den]? = o'
        cases o <;> cases o' <;> simp

/-- C73: `percentile` over numbers interpolates linearly: with the `n` values in ascending order and
the position `(n - 1) * num / den = k + rem / den`, the result is the mean of the value at `k` and the
next one with weights `den - rem` and `rem`. -/
theorem C73_percentile {p : Fraction} (hp : Valid p) {le : Rat → Rat → Bool}
    (hle : ∀ a b, le a b = true ↔ a ≤ b) {s : State Rat} {l : List (Option Rat)}
    (h : (percentile le (interpolate p)).Reaches s l) :
    (l.filterMap id = [] → (percentile le (interpolate p)).eval s = none) ∧
    ∀ vs k rem, Sorts le vs (l.filterMap id) → l.filterMap id ≠ [] →
      k * p.den + rem = (vs.length - 1) * p.num → rem < p.den →
      ∃ r lo hi, (percentile le (interpolate p)).eval s = some r ∧ vs[k]? = some lo ∧
        vs[if rem = 0 then k else k + 1]? = some hi ∧
        r * (p.den : Rat) = lo * ((p.den - rem : Nat) : Rat) + hi * (rem : Rat) := by
  have ho : Order le := ⟨by intro a b; rw [hle, hle]; exact le_total a b,
    by intro a b c; rw [hle, hle, hle]; exact le_trans,
    by intro a b; rw [hle, hle]; exact le_antisymm⟩
  have h1 := percentile_holds ho h
  refine ⟨fun hn => by rw [percentile_eval h1, if_pos hn], ?_⟩
  intro vs k rem hs hne hk hr
  rw [percentile_eval h1, if_neg hne, Sorts.unique ho (List.Perm.refl _) (h1.sorts ho) hs]
  have hvne : vs ≠ [] := by
    rintro rfl
    exact hne (List.Perm.nil_eq hs.1).symm
  exact interpolate_value hp hvne hk hr

/-- C73: `percentile` of the numbers lies between the neighbours of its position, so it is the least
value for 0 and the greatest for 1. -/
theorem C73_percentile_bounds {p : Fraction} (hp : Valid p) {le : Rat → Rat → Bool}
    (hle : ∀ a b, le a b = true ↔ a ≤ b) {s : State Rat} {l : List (Option Rat)}
    (h : (percentile le (interpolate p)).Reaches s l) {r : Rat}
    (hr : (percentile le (interpolate p)).eval s = some r) :
    (∃ v, some v ∈ l ∧ v ≤ r) ∧ (∃ v, some v ∈ l ∧ r ≤ v) ∧
    (p.num = 0 → some r ∈ l ∧ ∀ v, some v ∈ l → r ≤ v) ∧
    (p.num = p.den → some r ∈ l ∧ ∀ v, some v ∈ l → v ≤ r) := by
  have ho : Order le := ⟨by intro a b; rw [hle, hle]; exact le_total a b,
    by intro a b c; rw [hle, hle, hle]; exact le_trans,
    by intro a b; rw [hle, hle]; exact le_antisymm⟩
  obtain ⟨h1, h2⟩ := C73_percentile hp hle h
  have hne : l.filterMap id ≠ [] := fun hn => by rw [h1 hn] at hr; cases hr
  have hs := (percentile_holds ho h).sorts ho
  generalize sorted le s = vs at hs
  have hmem : ∀ v, v ∈ vs ↔ some v ∈ l := by
    intro v
    rw [hs.1.mem_iff, List.mem_filterMap]
    simp
  have hvs : 0 < vs.length := by
    rw [hs.1.length_eq]
    exact List.length_pos_iff.mpr hne
  have hd := hp.1
  obtain ⟨r', lo, hi, e1, e2, e3, e4⟩ := h2 vs ((vs.length - 1) * p.num / p.den)
    ((vs.length - 1) * p.num % p.den) hs hne (Nat.div_add_mod' _ _) (Nat.mod_lt _ hd)
  rw [hr] at e1
  cases e1
  have hrem := Nat.mod_lt ((vs.length - 1) * p.num) hd
  generalize hk : (vs.length - 1) * p.num / p.den = k at e2 e3
  generalize hm : (vs.length - 1) * p.num % p.den = rem at e3 e4 hrem
  have hdq : (0 : Rat) < p.den := by exact_mod_cast hd
  have hlohi : lo ≤ hi := by
    split at e3
    · rw [e2] at e3
      cases e3
      exact le_refl _
    · obtain ⟨l1, g1⟩ := List.getElem?_eq_some_iff.mp e2
      obtain ⟨l2, g2⟩ := List.getElem?_eq_some_iff.mp e3
      have := List.pairwise_iff_getElem.mp hs.2 k (k + 1) l1 l2 (by omega)
      rw [hle, g1, g2] at this
      exact this
  rw [Nat.cast_sub (by omega : rem ≤ p.den)] at e4
  have hremq : (0 : Rat) ≤ rem := by exact_mod_cast Nat.zero_le _
  have hremd : (rem : Rat) ≤ p.den := by exact_mod_cast hrem.le
  have hlor : lo ≤ r := by
    have : lo * (p.den : Rat) ≤ r * p.den := by
      rw [e4]
      nlinarith
    exact le_of_mul_le_mul_right this hdq
  have hrhi : r ≤ hi := by
    have : r * (p.den : Rat) ≤ hi * p.den := by
      rw [e4]
      nlinarith
    exact le_of_mul_le_mul_right this hdq
  refine ⟨⟨lo, (hmem lo).mp (List.mem_of_getElem? e2), hlor⟩,
    ⟨hi, (hmem hi).mp (List.mem_of_getElem? e3), hrhi⟩, ?_, ?_⟩
  · intro h0
    have hk0 : k = 0 := by rw [← hk, h0]; simp
    have hr0 : rem = 0 := by rw [← hm, h0]; simp
    subst hk0 hr0
    rw [if_pos rfl, e2] at e3
    cases e3
    have hrl : r = lo := le_antisymm hrhi hlor
    subst hrl
    refine ⟨(hmem _).mp (List.mem_of_getElem? e2), ?_⟩
    intro v hv
    obtain ⟨i, hi, hiv⟩ := List.getElem_of_mem ((hmem v).mpr hv)
    obtain ⟨l1, g1⟩ := List.getElem?_eq_some_iff.mp e2
    rcases Nat.eq_zero_or_pos i with h3 | h3
    · subst h3
      rw [← hiv, ← g1]
    · have := List.pairwise_iff_getElem.mp hs.2 0 i l1 hi h3
      rw [hle, g1, hiv] at this
      exact this
  · intro h0
    have hk0 : k = vs.length - 1 := by rw [← hk, h0, Nat.mul_div_cancel _ hd]
    have hr0 : rem = 0 := by rw [← hm, h0, Nat.mul_mod_left]
    subst hr0
    rw [if_pos rfl, e2] at e3
    cases e3
    have hrl : r = lo := le_antisymm hrhi hlor
    subst hrl
    refine ⟨(hmem _).mp (List.mem_of_getElem? e2), ?_⟩
    intro v hv
    obtain ⟨i, hi, hiv⟩ := List.getElem_of_mem ((hmem v).mpr hv)
    obtain ⟨l1, g1⟩ := List.getElem?_eq_some_iff.mp e2
    rcases Nat.lt_or_ge i k with h3 | h3
    · have := List.pairwise_iff_getElem.mp hs.2 i k hi l1 h3
      rw [hle, g1, hiv] at this
      exact this
    · have : i = k := by omega
      subst this
      rw [← hiv, ← g1]

/-- C73: `percentile` over intervals is an integer nearest to the linear interpolation of the
integers at the position. -/
theorem C73_percentile_interval {p : Fraction} (hp : Valid p) {s : State Int} {l : List (Option Int)}
    (h : (percentile (fun a b => decide (a ≤ b)) (interpolateInterval p)).Reaches s l) :
    (l.filterMap id = [] →
      (percentile (fun a b => decide (a ≤ b)) (interpolateInterval p)).eval s = none) ∧
    ∀ vs k rem, Sorts (fun a b => decide (a ≤ b)) vs (l.filterMap id) → l.filterMap id ≠ [] →
      k * p.den + rem = (vs.length - 1) * p.num → rem < p.den →
      ∃ r lo hi, (percentile (fun a b => decide (a ≤ b)) (interpolateInterval p)).eval s = some r ∧
        vs[k]? = some lo ∧ vs[if rem = 0 then k else k + 1]? = some hi ∧
        |2 * (r * (p.den : Int)) - 2 * (lo * ((p.den - rem : Nat) : Int) + hi * (rem : Int))| ≤
          p.den := by
  have ho : Order (fun a b : Int => decide (a ≤ b)) := ⟨by simp; omega, by simp; omega, by simp; omega⟩
  have h1 := percentile_holds ho h
  refine ⟨fun hn => by rw [percentile_eval h1, if_pos hn], ?_⟩
  intro vs k rem hs hne hk hr
  rw [percentile_eval h1, if_neg hne, Sorts.unique ho (List.Perm.refl _) (h1.sorts ho) hs]
  have hvne : vs ≠ [] := by
    rintro rfl
    exact hne (List.Perm.nil_eq hs.1).symm
  obtain ⟨q, lo, hi, e1, e2, e3, e4⟩ := interpolate_value (vs := vs.map ((↑) : Int → Rat)) hp
    (by simpa using hvne) (by simpa using hk) hr
  obtain ⟨q', e5, e6⟩ := interpolateInterval_eq p vs
  rw [e1] at e5
  subst e5
  rw [List.getElem?_map] at e2 e3
  obtain ⟨lo', e7, rfl⟩ := Option.map_eq_some_iff.mp e2
  obtain ⟨hi', e8, rfl⟩ := Option.map_eq_some_iff.mp e3
  refine ⟨round q, lo', hi', e6, e7, e8, ?_⟩
  have h2 := round_near q
  have hd : (0 : Rat) < p.den := by exact_mod_cast hp.1
  have h3 : |2 * ((round q : Rat) * (p.den : Rat)) -
      2 * ((lo' : Rat) * ((p.den - rem : Nat) : Rat) + (hi' : Rat) * (rem : Rat))| ≤ p.den := by
    rw [← e4]
    have h4 : 2 * ((round q : Rat) * (p.den : Rat)) - 2 * (q * (p.den : Rat)) =
        (2 * (round q : Rat) - 2 * q) * p.den := by ring
    rw [abs_le] at h2 ⊢
    rw [h4]
    constructor <;> nlinarith
  exact_mod_cast h3

/-- C73: `percentile` over strings is the value nearest to the position, the later one in the middle of
two. -/
theorem C73_percentile_string {p : Fraction} (hp : Valid p) {le : α → α → Bool} (ho : Order le)
    {s : State α} {l : List (Option α)} (h : (percentile le (nearest p)).Reaches s l) :
    (l.filterMap id = [] → (percentile le (nearest p)).eval s = none) ∧
    ∀ vs, Sorts le vs (l.filterMap id) → l.filterMap id ≠ [] →
      ∃ i r, (percentile le (nearest p)).eval s = some r ∧ vs[i]? = some r ∧
        2 * (i * p.den) ≤ 2 * ((vs.length - 1) * p.num) + p.den ∧
        2 * ((vs.length - 1) * p.num) < 2 * (i * p.den) + p.den := by
  have h1 := percentile_holds ho h
  refine ⟨fun hn => by rw [percentile_eval h1, if_pos hn], ?_⟩
  intro vs hs hne
  rw [percentile_eval h1, if_neg hne, Sorts.unique ho (List.Perm.refl _) (h1.sorts ho) hs]
  have hvs : 0 < vs.length := by
    rw [hs.1.length_eq]
    exact List.length_pos_iff.mpr hne
  have hd := hp.1
  have hle : (vs.length - 1) * p.num ≤ (vs.length - 1) * p.den := Nat.mul_le_mul_left _ hp.2
  have hdm := Nat.div_add_mod (2 * ((vs.length - 1) * p.num) + p.den) (2 * p.den)
  have hml := Nat.mod_lt (2 * ((vs.length - 1) * p.num) + p.den) (by omega : 0 < 2 * p.den)
  generalize hi : (2 * ((vs.length - 1) * p.num) + p.den) / (2 * p.den) = i at hdm
  rw [Nat.mul_assoc, Nat.mul_comm p.den] at hdm
  have hil : i < vs.length := by
    have h3 : i * p.den < ((vs.length - 1) + 1) * p.den := by
      rw [Nat.add_mul]
      omega
    have := Nat.lt_of_mul_lt_mul_right h3
    omega
  refine ⟨i, vs[i], ?_, List.getElem?_eq_getElem hil, by omega, by omega⟩
  unfold nearest
  rw [if_neg (by omega)]
  by_cases h1 : vs.length = 1
  · have hi0 : i = 0 := by omega
    subst hi0
    rw [if_pos h1, List.getElem?_eq_getElem hil]
  · rw [if_neg h1]
    simp only [hi, List.getElem?_eq_getElem hil]

/-! ## Windows -/

/-- Frames move forward. -/
def Spec.Forward (n : Nat) : Nat × Nat → List (Nat × Nat) → Prop
  | _, [] => True
  | last, cur :: frames => last.1 ≤ cur.1 ∧ last.2 ≤ cur.2 ∧ cur.1 ≤ cur.2 ∧ cur.2 ≤ n ∧
      Spec.Forward n cur frames

/-- The values in a frame. -/
def Spec.frame (rows : List (Option α)) (f : Nat × Nat) : List (Option α) := (rows.take f.2).drop f.1

omit [DecidableEq α] in
theorem drop_split {l : List α} {a b c : Nat} (h1 : a ≤ b) (h2 : b ≤ c) :
    (l.take c).drop a = (l.take b).drop a ++ (l.take c).drop b := by
  have h3 : l.take b = (l.take c).take b := by rw [List.take_take, Nat.min_eq_left h2]
  rw [h3]
  have h4 : (l.take c).drop b = ((l.take c).drop a).drop (b - a) := by
    rw [List.drop_drop]; congr 1; omega
  have h5 : ((l.take c).take b).drop a = ((l.take c).drop a).take (b - a) := by
    rw [List.drop_take]
  rw [h4, h5, List.take_append_drop]

theorem slide_holds {rows : List (Option α)} {last cur : Nat × Nat} {s : State α}
    (h : Holds s ((frame rows last).filterMap id)) (h1 : last.1 ≤ cur.1) (h2 : last.2 ≤ cur.2)
    (h3 : cur.1 ≤ cur.2) (hl : last.1 ≤ last.2) :
    Holds (slide rows last cur s) ((frame rows cur).filterMap id) := by
  unfold slide
  refine Holds.retract rfl ?_
  have h4 := h.rows ((rows.take cur.2).drop last.2)
  rw [← List.filterMap_append] at h4 ⊢
  have h5 : frame rows last ++ (rows.take cur.2).drop last.2 =
      (rows.take cur.1).drop last.1 ++ frame rows cur := by
    unfold frame
    rw [← drop_split hl h2, ← drop_split h1 h3]
  rw [← h5]
  exact h4

/-- C74: in a sliding window, `percentile` gives for every row the percentile of its frame: the same
as a fresh accumulator over the values of the frame. -/
theorem C74_percentile_window {le : α → α → Bool} (ho : Order le) (pick : List α → Option β)
    (rows : List (Option α)) (frames : List (Nat × Nat)) (hf : Forward rows.length (0, 0) frames) :
    slideAll (percentile le pick).eval rows (0, 0) (percentile le pick).init frames =
      frames.map fun f =>
        (percentile le pick).eval ((frame rows f).foldl addRow (percentile le pick).init) := by
  suffices H : ∀ (frames : List (Nat × Nat)) (last : Nat × Nat) (s : State α), last.1 ≤ last.2 →
      Holds s ((frame rows last).filterMap id) → Forward rows.length last frames →
      slideAll (percentile le pick).eval rows last s frames = frames.map fun f =>
        (percentile le pick).eval ((frame rows f).foldl addRow (percentile le pick).init) by
    refine H frames (0, 0) _ (Nat.le_refl _) ?_ hf
    exact ⟨by simpa [frame, percentile] using Rep.empty, by simp [frame, percentile]⟩
  intro frames
  induction frames with
  | nil => intros; rfl
  | cons cur frames ih =>
    intro last s hl hs hf
    obtain ⟨f1, f2, f3, _, f5⟩ := hf
    have h1 := slide_holds hs f1 f2 f3 hl
    simp only [slideAll, List.map_cons]
    rw [ih cur _ f3 h1 f5]
    congr 1
    have h2 : Holds ((frame rows cur).foldl addRow (percentile le pick).init)
        ((frame rows cur).filterMap id) := by
      have : Holds (percentile le pick).init ([] : List α) := ⟨Rep.empty, rfl⟩
      simpa using this.rows (frame rows cur)
    rw [percentile_eval h1, percentile_eval h2,
      Sorts.unique ho (List.Perm.refl _) (h1.sorts ho) (h2.sorts ho)]

/-- C72, a negation: with NaN (here `none`) the comparison used for sorting is no order, and the result
depends on the iteration order of the hash map. -/
theorem C72_percentile_nan :
    let le : Option Int → Option Int → Bool := fun a b =>
      match a, b with | some a, some b => decide (a ≤ b) | _, _ => true
    let A := percentile le (nearest ⟨0, 1⟩)
    let rows := [some (some 2), some none, some (some 1)]
    A.Reaches ⟨[(some 2, 1), (none, 1), (some 1, 1)], 3⟩ rows ∧
    A.Reaches ⟨[(some 1, 1), (none, 1), (some 2, 1)], 3⟩ rows ∧
    A.eval ⟨[(some 2, 1), (none, 1), (some 1, 1)], 3⟩ = some (some 2) ∧
    A.eval ⟨[(some 1, 1), (none, 1), (some 2, 1)], 3⟩ = some (some 1) := by
  intro le A rows
  have h : A.Reaches ⟨[(some 2, 1), (none, 1), (some 1, 1)], 3⟩ ([] ++ rows) := .rows .fresh rfl
  refine ⟨h, .alike h ⟨?_, rfl⟩, by decide +kernel, by decide +kernel⟩
  decide +kernel

/-- The median of four numbers in two partitions. -/
example : (((percentile (fun a b : Rat => decide (a ≤ b)) (interpolate ⟨1, 2⟩)).run
    [[[some 10, none], [some 40]], [[some 30, some 20]]]).map
    (percentile (fun a b : Rat => decide (a ≤ b)) (interpolate ⟨1, 2⟩)).eval) = .ok (some 25) := by
  decide +kernel

/-- A window of the current and the two preceding rows. -/
example : slideAll (percentile (fun a b : Int => decide (a ≤ b)) (nearest ⟨1, 1⟩)).eval
    [some 5, none, some 3, some 3, some 1, some 2] (0, 0) ⟨[], 0⟩
    [(0, 1), (0, 2), (0, 3), (1, 4), (2, 5), (3, 6)] =
    [some 5, some 5, some 5, some 3, some 3, some 3] := by decide +kernel

example : Forward 6 (0, 0) [(0, 1), (0, 2), (0, 3), (1, 4), (2, 5), (3, 6)] := by
  simp [Spec.Forward]

end Verif.Func.Percentile
