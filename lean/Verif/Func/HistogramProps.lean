import Verif.Func.Histogram
import Mathlib.Tactic.Linarith
import Mathlib.Tactic.FieldSimp
import Mathlib.Tactic.Ring
import Mathlib.Tactic.SplitIfs
import Mathlib.Data.Rat.Cast.Order
import Mathlib.Data.List.Nodup
/-!
# What `histogram_numeric` answers (C73)
-/
namespace Verif.Func.Histogram

variable {R : Type} {next : R → Rat × R}

namespace Spec

/-- The values of the rows, without NULLs. -/
def values (l : List (Option Rat)) : List Rat := l.filterMap id

/-- The number of rows a histogram accounts for. -/
def height (bins : List Bin) : Rat := (bins.map Bin.y).sum

/-- The sum of the rows a histogram accounts for. -/
def mass (bins : List Bin) : Rat := (bins.map fun b => b.x * b.y).sum

end Spec

open Spec

theorem values_append (l m : List (Option Rat)) : values (l ++ m) = values l ++ values m := by
  simp [values]

theorem sum_perm {l m : List Rat} (h : l.Perm m) : l.sum = m.sum := by
  induction h with
  | nil => rfl
  | cons _ _ ih => simp [ih]
  | swap _ _ _ => simp only [List.sum_cons]; ring
  | trans _ _ h1 h2 => exact h1.trans h2

/-- Bins in order, of positive height, with centres in the range. -/
structure Good (lo hi : Rat) (bins : List Bin) : Prop where
  sorted : bins.Pairwise fun a b => a.x ≤ b.x
  pos : ∀ b ∈ bins, 0 < b.y
  within : ∀ b ∈ bins, lo ≤ b.x ∧ b.x ≤ hi

theorem Good.tail {lo hi : Rat} {a : Bin} {t : List Bin} (h : Good lo hi (a :: t)) : Good lo hi t :=
  ⟨(List.pairwise_cons.1 h.sorted).2, fun b hb => h.pos b (.tail _ hb),
    fun b hb => h.within b (.tail _ hb)⟩

theorem Good.raise {lo hi : Rat} {a : Bin} {t : List Bin} (h : Good lo hi (a :: t)) :
    Good a.x hi t :=
  ⟨h.tail.sorted, h.tail.pos,
    fun b hb => ⟨(List.pairwise_cons.1 h.sorted).1 b hb, (h.tail.within b hb).2⟩⟩

theorem Good.cons {lo hi : Rat} {a : Bin} {t : List Bin} (h : Good a.x hi t) (hlo : lo ≤ a.x)
    (hhi : a.x ≤ hi) (hy : 0 < a.y) : Good lo hi (a :: t) := by
  refine ⟨List.pairwise_cons.2 ⟨fun b hb => (h.within b hb).1, h.sorted⟩, ?_, ?_⟩
  · intro b hb
    rcases List.mem_cons.1 hb with rfl | hb
    · exact hy
    · exact h.pos b hb
  · intro b hb
    rcases List.mem_cons.1 hb with rfl | hb
    · exact ⟨hlo, hhi⟩
    · exact ⟨le_trans hlo (h.within b hb).1, (h.within b hb).2⟩

theorem mean_between {ax ay bx bY : Rat} (ha : 0 < ay) (hb : 0 < bY) (h : ax ≤ bx) :
    ax ≤ ax * ay / (ay + bY) + bx * bY / (ay + bY) ∧
    ax * ay / (ay + bY) + bx * bY / (ay + bY) ≤ bx := by
  have hd : 0 < ay + bY := by linarith
  rw [← add_div]
  constructor
  · rw [le_div_iff₀ hd]; nlinarith
  · rw [div_le_iff₀ hd]; nlinarith

theorem fuse_spec : ∀ (bins : List Bin) (i : Nat) (lo hi : Rat), Good lo hi bins →
    i + 1 < bins.length →
    Good lo hi (fuse i bins) ∧ (fuse i bins).length + 1 = bins.length ∧
    height (fuse i bins) = height bins ∧ mass (fuse i bins) = mass bins := by
  intro bins
  induction bins with
  | nil => intro i lo hi _ h; simp at h
  | cons a t ih =>
    intro i lo hi hg hi'
    cases i with
    | zero =>
      cases t with
      | nil => simp at hi'
      | cons b t =>
        have hay := hg.pos a (by simp)
        have hby := hg.pos b (by simp)
        have hab : a.x ≤ b.x := (List.pairwise_cons.1 hg.sorted).1 b (by simp)
        obtain ⟨h1, h2⟩ := mean_between hay hby hab
        have hd : a.y + b.y ≠ 0 := by linarith
        have hgt := hg.tail.raise
        refine ⟨Good.cons ⟨hgt.sorted, hgt.pos, fun c hc => ⟨le_trans h2 (hgt.within c hc).1,
          (hgt.within c hc).2⟩⟩ ?_ ?_ ?_, by simp [fuse], ?_, ?_⟩
        · exact le_trans (hg.within a (by simp)).1 h1
        · exact le_trans h2 (hg.within b (by simp)).2
        · show 0 < a.y + b.y
          linarith
        · simp only [fuse, height, List.map_cons, List.sum_cons]; ring
        · simp only [fuse, mass, List.map_cons, List.sum_cons]
          field_simp
          ring
    | succ i =>
      obtain ⟨h1, h2, h3, h4⟩ := ih i a.x hi hg.raise (by simpa using hi')
      refine ⟨Good.cons h1 (hg.within a (by simp)).1 (hg.within a (by simp)).2 (hg.pos a (by simp)),
        by simp [fuse, h2], ?_, ?_⟩
      · simp only [height] at h3
        simp [fuse, height, h3]
      · simp only [mass] at h4
        simp [fuse, mass, h4]

theorem gaps_length : ∀ bins : List Bin, (gaps bins).length = bins.length - 1
  | [] => rfl
  | [_] => rfl
  | a :: b :: t => by
    have := gaps_length (b :: t)
    simp only [gaps, List.length_cons] at this ⊢
    omega

theorem gaps_getElem : ∀ (bins : List Bin) (i : Nat) (a b : Bin), bins[i]? = some a →
    bins[i + 1]? = some b → (gaps bins)[i]? = some (b.x - a.x)
  | [], i, a, b => by simp
  | [c], i, a, b => by simp
  | c :: d :: t, 0, a, b => by
    intro h1 h2
    simp at h1 h2
    subst h1 h2
    rfl
  | c :: d :: t, i + 1, a, b => by
    intro h1 h2
    exact gaps_getElem (d :: t) i a b (by simpa using h1) (by simpa using h2)

/-- The place found is one of the places looked at, and its distance is the smallest. -/
theorem scan_spec (ds : List Rat) : ∀ (all : List Rat) (i : Nat) (best : Rat) (loc count : Nat) (r : R),
    all.drop i = ds → all[loc]? = some best → (∀ j, j < i → ∀ d, all[j]? = some d → best ≤ d) →
    ∃ m, all[(scan next ds i best loc count r).1]? = some m ∧ ∀ d ∈ all, m ≤ d := by
  induction ds with
  | nil =>
    intro all i best loc count r hd hl hm
    refine ⟨best, hl, fun d hd' => ?_⟩
    obtain ⟨j, hj, rfl⟩ := List.getElem_of_mem hd'
    have : all.length ≤ i := List.drop_eq_nil_iff.1 hd
    exact hm j (by omega) _ (List.getElem?_eq_getElem hj)
  | cons d ds ih =>
    intro all i best loc count r hd hl hm
    have hi : all[i]? = some d := by
      have : (all.drop i)[0]? = some d := by rw [hd]; rfl
      simpa using this
    have hd' : all.drop (i + 1) = ds := by
      rw [← List.drop_drop, hd]; rfl
    have hstep : ∀ m, m ≤ best → m ≤ d → ∀ j, j < i + 1 → ∀ e, all[j]? = some e → m ≤ e := by
      intro m h1 h2 j hj e he
      rcases Nat.lt_or_ge j i with h | h
      · exact le_trans h1 (hm j h e he)
      · have : j = i := by omega
        subst this
        rw [hi] at he
        cases he
        exact h2
    simp only [scan]
    split_ifs with h1 h2 h3
    · exact ih all (i + 1) d i 1 r hd' hi (hstep d (le_of_lt h1) (le_refl _))
    · exact ih all (i + 1) best i (count + 1) _ hd' (by rw [hi, h2])
        (hstep best (le_refl _) (by rw [h2]))
    · exact ih all (i + 1) best loc (count + 1) _ hd' hl (hstep best (le_refl _) (by rw [h2]))
    · exact ih all (i + 1) best loc count r hd' hl (hstep best (le_refl _) (le_of_lt (lt_of_le_of_ne
        (not_lt.1 h1) (Ne.symm h2))))

/-- **C73**: a turn of the trimming joins two neighbouring bins that are nowhere closer together. -/
theorem C73_histogram_closest (h : Hist R) (h2 : 2 ≤ h.bins.length) :
    ∃ i a b, h.bins[i]? = some a ∧ h.bins[i + 1]? = some b ∧
      (trimOnce next h).bins = fuse i h.bins ∧ (trimOnce next h).nbins = h.nbins ∧
      ∀ j c d, h.bins[j]? = some c → h.bins[j + 1]? = some d → b.x - a.x ≤ d.x - c.x := by
  unfold trimOnce
  have hlen := gaps_length h.bins
  cases hg : gaps h.bins with
  | nil => rw [hg] at hlen; simp at hlen; omega
  | cons d ds =>
    simp only
    obtain ⟨m, hm, hmin⟩ := scan_spec (next := next) ds (d :: ds) 1 d 0 1 h.rng rfl rfl (by
      intro j hj e he
      have : j = 0 := by omega
      subst this
      simp at he
      rw [he])
    generalize scan next ds 1 d 0 1 h.rng = p at *
    obtain ⟨hloc, -⟩ := List.getElem?_eq_some_iff.1 hm
    rw [← hg, hlen] at hloc
    refine ⟨p.1, h.bins[p.1], h.bins[p.1 + 1], List.getElem?_eq_getElem (by omega),
      List.getElem?_eq_getElem (by omega), rfl, trivial, ?_⟩
    intro j c e hc he
    have h1 := gaps_getElem h.bins p.1 _ _ (List.getElem?_eq_getElem (by omega))
      (List.getElem?_eq_getElem (by omega))
    have h3 := gaps_getElem h.bins j c e hc he
    rw [hg] at h1 h3
    rw [hm] at h1
    cases h1
    exact hmin _ (List.mem_of_getElem? h3)

theorem trimOnce_spec {h : Hist R} {lo hi : Rat} (hg : Good lo hi h.bins) (h2 : 2 ≤ h.bins.length) :
    Good lo hi (trimOnce next h).bins ∧ (trimOnce next h).bins.length + 1 = h.bins.length ∧
    height (trimOnce next h).bins = height h.bins ∧ mass (trimOnce next h).bins = mass h.bins ∧
    (trimOnce next h).nbins = h.nbins := by
  obtain ⟨i, a, b, ha, hb, he, hn, -⟩ := C73_histogram_closest (next := next) h h2
  obtain ⟨hlt, -⟩ := List.getElem?_eq_some_iff.1 hb
  obtain ⟨h1, h2, h3, h4⟩ := fuse_spec h.bins i lo hi hg hlt
  rw [he]
  exact ⟨h1, h2, h3, h4, hn⟩

theorem trimLoop_spec {lo hi : Rat} : ∀ (fuel : Nat) (h : Hist R), Good lo hi h.bins →
    h.bins.length ≤ fuel → 0 < h.nbins →
    Good lo hi (trimLoop next fuel h).bins ∧ (trimLoop next fuel h).bins.length ≤ h.nbins ∧
    height (trimLoop next fuel h).bins = height h.bins ∧
    mass (trimLoop next fuel h).bins = mass h.bins ∧ (trimLoop next fuel h).nbins = h.nbins := by
  intro fuel
  induction fuel with
  | zero => intro h hg hl hn; exact ⟨hg, by simp only [trimLoop]; omega, rfl, rfl, rfl⟩
  | succ fuel ih =>
    intro h hg hl hn
    simp only [trimLoop]
    split_ifs with hc
    · obtain ⟨h1, h2, h3, h4, h5⟩ := trimOnce_spec (next := next) hg hc.2
      obtain ⟨g1, g2, g3, g4, g5⟩ := ih (trimOnce next h) h1 (by omega) (by omega)
      exact ⟨g1, by omega, g3.trans h3, g4.trans h4, g5.trans h5⟩
    · exact ⟨hg, by omega, rfl, rfl, rfl⟩

theorem trim_spec {h : Hist R} {lo hi : Rat} (hg : Good lo hi h.bins) (hn : 0 < h.nbins) :
    Good lo hi (trim next h).bins ∧ (trim next h).bins.length ≤ h.nbins ∧
    height (trim next h).bins = height h.bins ∧ mass (trim next h).bins = mass h.bins ∧
    (trim next h).nbins = h.nbins :=
  trimLoop_spec _ h hg (Nat.le_refl _) hn

theorem place_spec (v : Rat) : ∀ (bins : List Bin) (lo hi : Rat), Good lo hi bins → lo ≤ v → v ≤ hi →
    Good lo hi (place v bins).1 ∧
    (place v bins).1.length = bins.length + (if (place v bins).2 then 1 else 0) ∧
    height (place v bins).1 = height bins + 1 ∧ mass (place v bins).1 = mass bins + v := by
  intro bins
  induction bins with
  | nil =>
    intro lo hi _ h1 h2
    refine ⟨Good.cons (t := []) ⟨by simp, by simp, by simp⟩ h1 h2 (by show (0 : Rat) < 1; decide), rfl, ?_, ?_⟩
    · simp [place, height]
    · simp [place, mass]
  | cons a t ih =>
    intro lo hi hg h1 h2
    have hax := hg.within a (by simp)
    have hay := hg.pos a (by simp)
    by_cases c1 : a.x = v
    · simp only [place, c1, if_true]
      rw [← c1]
      refine ⟨Good.cons (a := ⟨a.x, a.y + 1⟩) hg.raise hax.1 hax.2 (by show 0 < a.y + 1; linarith),
        by simp, ?_, ?_⟩
      · simp only [height, List.map_cons, List.sum_cons]; ring
      · simp only [mass, List.map_cons, List.sum_cons]; ring
    by_cases c2 : v < a.x
    · simp only [place, c1, c2, if_true, if_false]
      refine ⟨Good.cons (a := ⟨v, 1⟩) ⟨hg.sorted, hg.pos, ?_⟩ h1 h2
        (by show (0 : Rat) < 1; decide), by simp, ?_, ?_⟩
      · intro b hb
        refine ⟨?_, (hg.within b hb).2⟩
        rcases List.mem_cons.1 hb with rfl | hb
        · exact le_of_lt c2
        · exact le_trans (le_of_lt c2) ((List.pairwise_cons.1 hg.sorted).1 b hb)
      · simp only [height, List.map_cons, List.sum_cons]; ring
      · simp only [mass, List.map_cons, List.sum_cons]; ring
    · simp only [place, c1, c2, if_false]
      obtain ⟨i1, i2, i3, i4⟩ := ih a.x hi hg.raise (not_lt.1 c2) h2
      refine ⟨Good.cons i1 hax.1 hax.2 hay, ?_, ?_, ?_⟩
      · simp only [List.length_cons, i2]; omega
      · simp only [height] at i3
        simp only [height, List.map_cons, List.sum_cons, i3]; ring
      · simp only [mass] at i4
        simp only [mass, List.map_cons, List.sum_cons, i4]; ring

/-- What an accumulator with at most `n` bins holds after some rows. -/
structure Holds (n : Nat) (h : Hist R) (l : List (Option Rat)) : Prop where
  nbins : h.nbins = n
  length : h.bins.length ≤ n
  good : ∀ lo hi, (∀ v ∈ values l, lo ≤ v ∧ v ≤ hi) → Good lo hi h.bins
  height : height h.bins = (values l).length
  mass : mass h.bins = (values l).sum

theorem add_holds {n : Nat} (hn : 0 < n) {h : Hist R} {l : List (Option Rat)} (hh : Holds n h l)
    (v : Rat) : Holds n (add next h v) (l ++ [some v]) := by
  have hv : values (l ++ [some v]) = values l ++ [v] := by simp [values]
  have hsp : ∀ lo hi, (∀ u ∈ values (l ++ [some v]), lo ≤ u ∧ u ≤ hi) →
      Good lo hi h.bins ∧ lo ≤ v ∧ v ≤ hi := fun lo hi hu => by
    rw [hv] at hu
    exact ⟨hh.good lo hi fun u hu' => hu u (List.mem_append_left _ hu'),
      hu v (by simp)⟩
  have hlen : ((values (l ++ [some v])).length : Rat) = height h.bins + 1 := by
    rw [hv, hh.height]; simp
  have hsum : (values (l ++ [some v])).sum = mass h.bins + v := by
    rw [hv, hh.mass]; simp
  have hex : ∃ lo hi, ∀ u ∈ values (l ++ [some v]), lo ≤ u ∧ u ≤ hi := by
    generalize values (l ++ [some v]) = us
    induction us with
    | nil => exact ⟨0, 0, by simp⟩
    | cons u us ih =>
      obtain ⟨lo, hi, h⟩ := ih
      refine ⟨min lo u, max hi u, fun w hw => ?_⟩
      rcases List.mem_cons.1 hw with rfl | hw
      · exact ⟨min_le_right _ _, le_max_right _ _⟩
      · exact ⟨le_trans (min_le_left _ _) (h w hw).1, le_trans (h w hw).2 (le_max_left _ _)⟩
  obtain ⟨lo0, hi0, h0⟩ := hex
  obtain ⟨p1, p2, p3, p4⟩ := place_spec v h.bins lo0 hi0 (hsp lo0 hi0 h0).1 (hsp lo0 hi0 h0).2.1
    (hsp lo0 hi0 h0).2.2
  unfold add
  simp only
  split_ifs with hc
  · obtain ⟨t1, t2, t3, t4, t5⟩ := trim_spec (next := next)
      (h := { h with bins := (place v h.bins).1 }) p1 (by show 0 < h.nbins; rw [hh.nbins]; exact hn)
    refine ⟨t5.trans hh.nbins, by have := hh.nbins; simp only at t2; omega, ?_, ?_, ?_⟩
    · intro lo hi hu
      obtain ⟨a, b, c⟩ := hsp lo hi hu
      exact (trim_spec (next := next) (h := { h with bins := (place v h.bins).1 })
        (place_spec v h.bins lo hi a b c).1 (by show 0 < h.nbins; rw [hh.nbins]; exact hn)).1
    · rw [t3, hlen]; exact p3
    · rw [t4, hsum]; exact p4
  · refine ⟨hh.nbins, ?_, ?_, ?_, ?_⟩
    · have hnb := hh.nbins
      have hl := hh.length
      show (place v h.bins).1.length ≤ n
      by_cases hp : (place v h.bins).2 = true
      · rw [hp] at hc
        simp only [true_and, not_lt] at hc
        omega
      · rw [p2]; simp [hp]; exact hl
    · intro lo hi hu
      obtain ⟨a, b, c⟩ := hsp lo hi hu
      exact (place_spec v h.bins lo hi a b c).1
    · rw [hlen]; exact p3
    · rw [hsum]; exact p4

theorem received_send (h : Hist R) : received (send h) = h.bins := by
  unfold received send
  generalize h.bins = l
  simp only
  induction l with
  | nil => rfl
  | cons b l ih => simp only [List.map_cons, List.zipWith_cons_cons, ih]

theorem Good.nil_of {n : Nat} {h : Hist R} {l : List (Option Rat)} (hh : Holds n h l) :
    h.bins = [] ↔ values l = [] := by
  constructor
  · intro he
    have := hh.height
    rw [he] at this
    simp only [Spec.height, List.map_nil, List.sum_nil] at this
    have : ((values l).length : Rat) = 0 := this.symm
    exact List.length_eq_zero_iff.1 (by exact_mod_cast this)
  · intro he
    have hg := hh.good 1 0 (by rw [he]; simp)
    cases hb : h.bins with
    | nil => rfl
    | cons b t =>
      have := hg.within b (by rw [hb]; simp)
      exfalso; linarith

theorem merge_holds {n : Nat} (hn : 0 < n) {h t : Hist R} {l l' : List (Option Rat)}
    (hh : Holds n h l) (ht : Holds n t l') : Holds n (merge next h t.nbins t.bins) (l ++ l') := by
  unfold merge
  by_cases h1 : t.bins = []
  · rw [if_pos (by simp [h1])]
    have hv : values (l ++ l') = values l := by
      rw [values_append, (Good.nil_of ht).1 h1, List.append_nil]
    exact ⟨hh.nbins, hh.length, by rw [hv]; exact hh.good, by rw [hv]; exact hh.height,
      by rw [hv]; exact hh.mass⟩
  · rw [if_neg (by simpa using h1)]
    by_cases h2 : h.bins = []
    · rw [if_pos (by simp [h2])]
      have hv : values (l ++ l') = values l' := by
        rw [values_append, (Good.nil_of hh).1 h2, List.nil_append]
      exact ⟨ht.nbins, ht.length, by rw [hv]; exact ht.good, by rw [hv]; exact ht.height,
        by rw [hv]; exact ht.mass⟩
    · rw [if_neg (by simpa using h2)]
      have hp : ((h.bins ++ t.bins).insSort binLe).Perm (h.bins ++ t.bins) := insSort_perm _
      have hgood : ∀ lo hi, (∀ v ∈ values (l ++ l'), lo ≤ v ∧ v ≤ hi) →
          Good lo hi ((h.bins ++ t.bins).insSort binLe) := by
        intro lo hi hu
        rw [values_append] at hu
        have g1 := hh.good lo hi fun v hv => hu v (List.mem_append_left _ hv)
        have g2 := ht.good lo hi fun v hv => hu v (List.mem_append_right _ hv)
        refine ⟨?_, ?_, ?_⟩
        · have hs := insSort_sorted (le := binLe) (l := h.bins ++ t.bins)
            (fun a b => by simp only [binLe, decide_eq_true_eq]; exact le_total _ _)
            (fun a b c => by simp only [binLe, decide_eq_true_eq]; exact le_trans)
          exact hs.imp (by intro a b hab; simpa [binLe] using hab)
        · intro b hb
          rcases List.mem_append.1 (hp.mem_iff.1 hb) with hb | hb
          · exact g1.pos b hb
          · exact g2.pos b hb
        · intro b hb
          rcases List.mem_append.1 (hp.mem_iff.1 hb) with hb | hb
          · exact g1.within b hb
          · exact g2.within b hb
      have hheight : height ((h.bins ++ t.bins).insSort binLe) = (values (l ++ l')).length := by
        have : height ((h.bins ++ t.bins).insSort binLe) = height (h.bins ++ t.bins) :=
          sum_perm (hp.map _)
        rw [this, values_append]
        have e : height (h.bins ++ t.bins) = height h.bins + height t.bins := by simp [height]
        rw [e, hh.height, ht.height]
        simp
      have hmass : mass ((h.bins ++ t.bins).insSort binLe) = (values (l ++ l')).sum := by
        have : mass ((h.bins ++ t.bins).insSort binLe) = mass (h.bins ++ t.bins) :=
          sum_perm (hp.map _)
        rw [this, values_append]
        have e : mass (h.bins ++ t.bins) = mass h.bins + mass t.bins := by simp [mass]
        rw [e, hh.mass, ht.mass]
        simp
      have hpos : 0 < h.nbins := by rw [hh.nbins]; exact hn
      have hex : ∃ lo hi, Good lo hi ((h.bins ++ t.bins).insSort binLe) := by
        have : ∃ lo hi, ∀ u ∈ values (l ++ l'), lo ≤ u ∧ u ≤ hi := by
          generalize values (l ++ l') = us
          induction us with
          | nil => exact ⟨0, 0, by simp⟩
          | cons u us ih =>
            obtain ⟨lo, hi, h⟩ := ih
            refine ⟨min lo u, max hi u, fun w hw => ?_⟩
            rcases List.mem_cons.1 hw with rfl | hw
            · exact ⟨min_le_right _ _, le_max_right _ _⟩
            · exact ⟨le_trans (min_le_left _ _) (h w hw).1, le_trans (h w hw).2 (le_max_left _ _)⟩
        obtain ⟨lo, hi, hu⟩ := this
        exact ⟨lo, hi, hgood lo hi hu⟩
      obtain ⟨lo, hi, hg⟩ := hex
      obtain ⟨t1, t2, t3, t4, t5⟩ := trim_spec (next := next)
        (h := { h with bins := (h.bins ++ t.bins).insSort binLe }) hg hpos
      refine ⟨t5.trans hh.nbins, ?_, ?_, t3.trans hheight, t4.trans hmass⟩
      · have := hh.nbins; simp only at t2; omega
      · intro lo hi hu
        exact (trim_spec (next := next) (h := { h with bins := (h.bins ++ t.bins).insSort binLe })
          (hgood lo hi hu) hpos).1

theorem reaches_holds {n : Nat} (hn : 0 < n) {seed : R} {h : Hist R} {l : List (Option Rat)}
    (hr : (agg next seed n).Reaches h l) : Holds n h l := by
  refine hr.induct (P := Holds n) (mergeOne next) (fun _ _ => rfl) ?_ ?_ ?_ ?_ ?_
  · exact ⟨rfl, by simp [agg], fun lo hi _ => ⟨by simp [agg], by simp [agg], by simp [agg]⟩,
      by simp [agg, height, values], by simp [agg, mass, values]⟩
  · intro s s' l b hs hu
    simp only [agg, Except.ok.injEq] at hu
    subst hu
    clear hr
    induction b generalizing s l with
    | nil => simpa using hs
    | cons o b ih =>
      have : Holds n (addRow next s o) (l ++ [o]) := by
        cases o with
        | some v => exact add_holds hn hs v
        | none =>
          have hv : values (l ++ [none]) = values l := by simp [values]
          exact ⟨hs.nbins, hs.length, by rw [hv]; exact hs.good, by rw [hv]; exact hs.height,
            by rw [hv]; exact hs.mass⟩
      simpa using ih (addRow next s o) (l ++ [o]) this
  · intro s s' l hs ha; cases ha; exact hs
  · intro s l s' hs he
    simp only [mergeOne, Except.ok.injEq] at he
    subst he
    exact hs
  · intro s t l l' s' hs ht he
    have e : mergeOne next s (some (send t)) = .ok s' := he
    have hne : (send t).nbins ≠ 0 := by
      have : t.nbins = n := ht.nbins
      show t.nbins ≠ 0
      omega
    simp only [mergeOne, hne, if_false, received_send, Except.ok.injEq] at e
    subst e
    exact merge_holds hn hs ht

/-- **C73**, `histogram_numeric(v, n)`, however the rows are spread and merged and whatever the
random numbers: NULL without values; otherwise at most `n` bins, in order of their centres and of
positive height, whose heights add up to the number of values and whose weighted centres add up to
the sum of the values, so that the mean is kept; no centre leaves the range of the values. -/
theorem C73_histogram {n : Nat} (hn : 0 < n) {seed : R} {h : Hist R} {l : List (Option Rat)}
    (hr : (agg next seed n).Reaches h l) :
    ((agg next seed n).eval h = none ↔ values l = []) ∧
    ∀ bins, (agg next seed n).eval h = some bins →
      bins.length ≤ n ∧ bins.Pairwise (fun a b => a.x ≤ b.x) ∧ (∀ b ∈ bins, 0 < b.y) ∧
      height bins = (values l).length ∧ mass bins = (values l).sum ∧
      ∀ lo hi, (∀ v ∈ values l, lo ≤ v ∧ v ≤ hi) → ∀ b ∈ bins, lo ≤ b.x ∧ b.x ≤ hi := by
  have hh := reaches_holds hn hr
  have hnil := Good.nil_of hh
  constructor
  · show eval h = none ↔ _
    rw [← hnil]
    unfold eval
    cases h.bins <;> simp
  · intro bins he
    have he' : eval h = some bins := he
    unfold eval at he'
    split_ifs at he'
    cases he'
    have hb : ∃ lo hi, ∀ v ∈ values l, lo ≤ v ∧ v ≤ hi := by
      generalize values l = us
      induction us with
      | nil => exact ⟨0, 0, by simp⟩
      | cons u us ih =>
        obtain ⟨lo, hi, h⟩ := ih
        refine ⟨min lo u, max hi u, fun w hw => ?_⟩
        rcases List.mem_cons.1 hw with rfl | hw
        · exact ⟨min_le_right _ _, le_max_right _ _⟩
        · exact ⟨le_trans (min_le_left _ _) (h w hw).1, le_trans (h w hw).2 (le_max_left _ _)⟩
    obtain ⟨lo, hi, hv⟩ := hb
    have hg := hh.good lo hi hv
    exact ⟨hh.length, hg.sorted, hg.pos, hh.height, hh.mass,
      fun lo hi hv => (hh.good lo hi hv).within⟩

/-- **C73**: merging any batch of states never fails. -/
theorem C73_histogram_merges {n : Nat} (hn : 0 < n) {seed : R} {h : Hist R}
    {l : List (Option Rat)} {parts : List (Option (Hist R × List (Option Rat)))}
    (hr : (agg next seed n).Reaches h l)
    (hp : ∀ t l', some (t, l') ∈ parts → (agg next seed n).Reaches t l') :
    ∃ s, (agg next seed n).merge h
      (parts.map (Option.map fun p => (agg next seed n).state p.1)) = .ok s := by
  refine Accumulator.fold_total (A := agg next seed n) (P := Holds n) (mergeOne next) ?_ ?_ parts
    (fun t l' ht => reaches_holds hn (hp t l' ht)) h l (reaches_holds hn hr)
  · intro s l hs; exact ⟨s, rfl, hs⟩
  · intro s t l l' hs ht
    refine ⟨merge next s t.nbins t.bins, ?_, merge_holds hn hs ht⟩
    have : (send t).nbins ≠ 0 := by
      have := ht.nbins
      show t.nbins ≠ 0; omega
    show mergeOne next s (some (send t)) = _
    simp only [mergeOne, this, if_false, received_send]
    rfl

/-! ## With enough bins the histogram is exact -/

/-- The bins are the counts of the values. -/
structure Exact (bins : List Bin) (vs : List Rat) : Prop where
  sorted : bins.Pairwise fun a b => a.x < b.x
  count : ∀ b ∈ bins, b.y = vs.count b.x ∧ b.x ∈ vs
  all : ∀ v ∈ vs, ∃ b ∈ bins, b.x = v

theorem place_mem (v : Rat) : ∀ (bins : List Bin), bins.Pairwise (fun a b => a.x < b.x) →
    (place v bins).1.Pairwise (fun a b => a.x < b.x) ∧
    (∀ b, b ∈ (place v bins).1 ↔
      (b ∈ bins ∧ b.x ≠ v) ∨ (∃ a ∈ bins, a.x = v ∧ b = ⟨v, a.y + 1⟩) ∨
      ((∀ a ∈ bins, a.x ≠ v) ∧ b = ⟨v, 1⟩)) := by
  intro bins
  induction bins with
  | nil => intro _; simp [place]
  | cons a t ih =>
    intro hs
    obtain ⟨h1, h2⟩ := List.pairwise_cons.1 hs
    obtain ⟨i1, i2⟩ := ih h2
    simp only [place]
    split_ifs with c1 c2
    · have hne : ∀ b ∈ t, b.x ≠ v := fun b hb he => by have := h1 b hb; rw [he, c1] at this; exact lt_irrefl _ this
      refine ⟨List.pairwise_cons.2 ⟨h1, h2⟩, fun b => ?_⟩
      constructor
      · intro hb
        rcases List.mem_cons.1 hb with rfl | hb
        · exact .inr (.inl ⟨a, by simp, c1, by simp [c1]⟩)
        · exact .inl ⟨.tail _ hb, hne b hb⟩
      · rintro (⟨hb, hx⟩ | ⟨a', ha', hx, rfl⟩ | ⟨hall, -⟩)
        · rcases List.mem_cons.1 hb with rfl | hb
          · exact absurd c1 hx
          · exact .tail _ hb
        · rcases List.mem_cons.1 ha' with rfl | ha'
          · rw [c1]; exact .head _
          · exact absurd hx (hne a' ha')
        · exact absurd c1 (hall a (by simp))
    · have hne : ∀ b ∈ a :: t, b.x ≠ v := by
        intro b hb he
        rcases List.mem_cons.1 hb with rfl | hb
        · exact c1 he
        · have := h1 b hb; rw [he] at this; exact lt_asymm this c2
      refine ⟨List.pairwise_cons.2 ⟨fun b hb => ?_, hs⟩, fun b => ?_⟩
      · rcases List.mem_cons.1 hb with rfl | hb
        · exact c2
        · exact lt_trans c2 (h1 b hb)
      · constructor
        · intro hb
          rcases List.mem_cons.1 hb with rfl | hb
          · exact .inr (.inr ⟨hne, rfl⟩)
          · exact .inl ⟨hb, hne b hb⟩
        · rintro (⟨hb, -⟩ | ⟨a', ha', hx, -⟩ | ⟨-, rfl⟩)
          · exact .tail _ hb
          · exact absurd hx (hne a' ha')
          · exact .head _
    · have hav : a.x < v := lt_of_le_of_ne (not_lt.1 c2) c1
      refine ⟨List.pairwise_cons.2 ⟨fun b hb => ?_, i1⟩, fun b => ?_⟩
      · rcases (i2 b).1 hb with ⟨hb, -⟩ | ⟨a', ha', hx, rfl⟩ | ⟨-, rfl⟩
        · exact h1 b hb
        · exact hav
        · exact hav
      · rw [List.mem_cons, i2 b]
        constructor
        · rintro (rfl | ⟨hb, hx⟩ | ⟨a', ha', hx, rfl⟩ | ⟨hall, rfl⟩)
          · exact .inl ⟨.head _, c1⟩
          · exact .inl ⟨.tail _ hb, hx⟩
          · exact .inr (.inl ⟨a', .tail _ ha', hx, rfl⟩)
          · refine .inr (.inr ⟨fun a' ha' => ?_, rfl⟩)
            rcases List.mem_cons.1 ha' with rfl | ha'
            · exact c1
            · exact hall a' ha'
        · rintro (⟨hb, hx⟩ | ⟨a', ha', hx, rfl⟩ | ⟨hall, rfl⟩)
          · rcases List.mem_cons.1 hb with rfl | hb
            · exact .inl rfl
            · exact .inr (.inl ⟨hb, hx⟩)
          · rcases List.mem_cons.1 ha' with rfl | ha'
            · exact absurd hx c1
            · exact .inr (.inr (.inl ⟨a', ha', hx, rfl⟩))
          · exact .inr (.inr (.inr ⟨fun a' ha' => hall a' (.tail _ ha'), rfl⟩))

theorem place_exact {bins : List Bin} {vs : List Rat} (he : Exact bins vs) (v : Rat) :
    Exact (place v bins).1 (vs ++ [v]) := by
  obtain ⟨h1, h2⟩ := place_mem v bins he.sorted
  refine ⟨h1, fun b hb => ?_, fun u hu => ?_⟩
  · rcases (h2 b).1 hb with ⟨hb, hx⟩ | ⟨a, ha, hx, rfl⟩ | ⟨hall, rfl⟩
    · obtain ⟨c1, c2⟩ := he.count b hb
      refine ⟨?_, List.mem_append_left _ c2⟩
      rw [List.count_append, c1, List.count_eq_zero_of_not_mem (a := b.x) (l := [v]) (by simpa using hx)]
      simp
    · obtain ⟨c1, c2⟩ := he.count a ha
      rw [hx] at c1
      refine ⟨?_, by simp⟩
      show a.y + 1 = ((vs ++ [v]).count v : Rat)
      rw [c1]
      simp
    · refine ⟨?_, by simp⟩
      show (1 : Rat) = ((vs ++ [v]).count v : Rat)
      have : v ∉ vs := fun hv => by obtain ⟨a, ha, hx⟩ := he.all v hv; exact hall a ha hx
      simp [List.count_eq_zero_of_not_mem this]
  · rcases List.mem_append.1 hu with hu | hu
    · obtain ⟨a, ha, rfl⟩ := he.all u hu
      by_cases hx : a.x = v
      · exact ⟨⟨v, a.y + 1⟩, (h2 _).2 (.inr (.inl ⟨a, ha, hx, rfl⟩)), hx.symm⟩
      · exact ⟨a, (h2 _).2 (.inl ⟨ha, hx⟩), rfl⟩
    · simp only [List.mem_singleton] at hu
      subst hu
      by_cases hex : ∃ a ∈ bins, a.x = u
      · obtain ⟨a, ha, hx⟩ := hex
        exact ⟨⟨u, a.y + 1⟩, (h2 _).2 (.inr (.inl ⟨a, ha, hx, rfl⟩)), rfl⟩
      · exact ⟨⟨u, 1⟩, (h2 _).2 (.inr (.inr ⟨fun a ha hx => hex ⟨a, ha, hx⟩, rfl⟩)), rfl⟩

theorem exact_length {bins : List Bin} {vs d : List Rat} (he : Exact bins vs) (hd : ∀ v ∈ vs, v ∈ d) :
    bins.length ≤ d.length := by
  have hn : (bins.map Bin.x).Nodup := by
    rw [List.Nodup, List.pairwise_map]
    exact he.sorted.imp fun h => ne_of_lt h
  have := (List.subperm_of_subset hn (l₂ := d) (by
    intro x hx
    obtain ⟨b, hb, rfl⟩ := List.mem_map.1 hx
    exact hd _ (he.count b hb).2)).length_le
  simpa using this

theorem update_exact {n : Nat} {d : List Rat} (hd : d.length ≤ n) (rows : List (Option Rat)) :
    ∀ (h : Hist R) (l : List (Option Rat)), h.nbins = n → Exact h.bins (values l) →
      (∀ v ∈ values (l ++ rows), v ∈ d) →
      (rows.foldl (addRow next) h).nbins = n ∧
      Exact (rows.foldl (addRow next) h).bins (values (l ++ rows)) := by
  induction rows with
  | nil => intro h l hn he _; simpa using ⟨hn, he⟩
  | cons o rows ih =>
    intro h l hn he hv
    have : (addRow next h o).nbins = n ∧ Exact (addRow next h o).bins (values (l ++ [o])) := by
      cases o with
      | none =>
        have e : values (l ++ [none]) = values l := by simp [values]
        rw [e]; exact ⟨hn, he⟩
      | some v =>
        have e : values (l ++ [some v]) = values l ++ [v] := by simp [values]
        have hp := place_exact he v
        have hle := exact_length hp (d := d) (by
          rw [← e]; intro u hu; apply hv
          have : l ++ some v :: rows = (l ++ [some v]) ++ rows := by simp
          rw [this, values_append]
          exact List.mem_append_left _ hu)
        rw [e]
        simp only [addRow, add]
        rw [if_neg (by rw [hn]; omega)]
        exact ⟨hn, hp⟩
    have := ih (addRow next h o) (l ++ [o]) this.1 this.2 (by simpa using hv)
    simpa using this

/-- **C73**: while one accumulator sees no more than `n` different values, its histogram is exact:
one bin per value, in order, as high as the value is frequent. -/
theorem C73_histogram_exact {n : Nat} {seed : R} {batches : List (List (Option Rat))} {h : Hist R}
    (hr : (agg next seed n).runPart batches = .ok h) {d : List Rat} (hd : d.length ≤ n)
    (hv : ∀ v ∈ values batches.flatten, v ∈ d) {bins : List Bin}
    (he : (agg next seed n).eval h = some bins) :
    bins.Pairwise (fun a b => a.x < b.x) ∧
    (∀ v, v ∈ values batches.flatten ↔ ∃ b ∈ bins, b.x = v) ∧
    ∀ b ∈ bins, b.y = (values batches.flatten).count b.x := by
  have key : ∀ (batches : List (List (Option Rat))) (h0 h : Hist R) (l : List (Option Rat)),
      h0.nbins = n → Exact h0.bins (values l) → (∀ v ∈ values (l ++ batches.flatten), v ∈ d) →
      batches.foldlM (agg next seed n).update h0 = .ok h →
      Exact h.bins (values (l ++ batches.flatten)) := by
    intro batches
    induction batches with
    | nil => intro h0 h l _ hx _ hf; cases hf; simpa using hx
    | cons b bs ih =>
      intro h0 h l hn hx hv hf
      simp only [List.foldlM_cons, agg, bind, Except.bind] at hf
      have hs := update_exact (next := next) hd b h0 l hn hx (by
        intro v hv'
        apply hv
        rw [List.flatten_cons, ← List.append_assoc, values_append]
        exact List.mem_append_left _ hv')
      have := ih _ h (l ++ b) hs.1 hs.2 (by simpa using hv) hf
      simpa using this
  have hx := key batches _ h [] rfl ⟨by simp [agg], by simp [agg], by simp [values]⟩ (by simpa using hv) hr
  simp only [List.nil_append] at hx
  have he' : eval h = some bins := he
  unfold eval at he'
  split_ifs at he'
  cases he'
  refine ⟨hx.sorted, fun v => ⟨hx.all v, ?_⟩, fun b hb => (hx.count b hb).1⟩
  rintro ⟨b, hb, rfl⟩
  exact (hx.count b hb).2

/-- A random generator for the examples. -/
def half (r : Unit) : Rat × Unit := (1 / 2, r)

/-- Spread over two partitions, equal values can end up in two bins with one centre: the histogram
is not a function of the rows alone.  (Spark's own merging does the same.) -/
theorem C73_histogram_spread :
    ∃ h h', (agg half () 5).run [[[some 1, some 1]]] = .ok h ∧
      (agg half () 5).run [[[some 1]], [[some 1]]] = .ok h' ∧
      (agg half () 5).eval h = some [⟨1, 2⟩] ∧ (agg half () 5).eval h' = some [⟨1, 1⟩, ⟨1, 1⟩] :=
  ⟨_, _, rfl, rfl, by decide +kernel, by decide +kernel⟩

/-- Two bins for four values in two partitions: the two closest are joined at their mean. -/
example : ∃ h, (agg half () 2).run [[[some 1, none, some 2]], [[some 10], [some 11, some 11]]] = .ok h ∧
    (agg half () 2).eval h = some [⟨3 / 2, 2⟩, ⟨32 / 3, 3⟩] :=
  ⟨_, rfl, by decide +kernel⟩

example : ∃ h, (agg half () 3).runPart [[some 2, none, some 1], [some 2]] = .ok h ∧
    (agg half () 3).eval h = some [⟨1, 1⟩, ⟨2, 2⟩] := ⟨_, rfl, by decide +kernel⟩

end Verif.Func.Histogram
