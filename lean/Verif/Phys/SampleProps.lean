import Verif.Phys.Sample

/-!
# C153: sampling
-/

namespace Verif.Phys.Sample

variable {α κ : Type}

/-- How often a row is in a table. -/
def Spec.times [DecidableEq α] (x : α) (partitions : List (List (List α))) : Nat := partitions.flatten.flatten.count x

/-- The draws are numbers from 0 to below 1. -/
def Spec.unit (S : Scale) (draw : Nat → Int) : Prop := ∀ k, 0 ≤ draw k ∧ draw k < S.one

/-- Bounds that do not decrease. -/
def Spec.rising : List Int → Prop
  | a :: b :: rest => a ≤ b ∧ Spec.rising (b :: rest)
  | _ => True

/-- The parts between the bounds. -/
def Spec.parts : List Int → List (Int × Int)
  | a :: b :: rest => (a, b) :: Spec.parts (b :: rest)
  | _ => []

theorem sampleBatch_eq (draw : Nat → Int) (lower upper : Int) (batch : List α) :
    sampleBatch draw lower upper batch
      = (batch.zipIdx.filter fun p => decide (lower ≤ draw p.2) && decide (draw p.2 < upper)).map Prod.fst := by
  unfold sampleBatch draws
  rw [List.filter_filter, List.filter_map, List.map_map]
  rfl

theorem rising_le : ∀ (a : Int) (rest : List Int) (z : Int), Spec.rising (a :: rest) → (a :: rest).getLast? = some z → a ≤ z
  | a, [], z, _, h => by
    cases h
    exact Int.le_refl a
  | a, b :: rest, z, hr, h => by
    rw [Spec.rising] at hr
    have := rising_le b rest z hr.2 (by rw [List.getLast?_cons_cons] at h; exact h)
    omega

/-- The parts in which a draw lies. -/
theorem in_parts (r : Int) : ∀ (a : Int) (rest : List Int) (z : Int), Spec.rising (a :: rest) → (a :: rest).getLast? = some z →
    ((Spec.parts (a :: rest)).countP fun p => decide (p.1 ≤ r) && decide (r < p.2)) = if a ≤ r ∧ r < z then 1 else 0
  | a, [], z, _, h => by
    have ha : a = z := by simpa using h
    subst ha
    rw [if_neg (by omega)]
    simp [Spec.parts]
  | a, b :: rest, z, hr, h => by
    rw [Spec.rising] at hr
    have h' : (b :: rest).getLast? = some z := by
      rw [List.getLast?_cons_cons] at h
      exact h
    have hz := rising_le b rest z hr.2 h'
    rw [Spec.parts, List.countP_cons, in_parts r b rest z hr.2 h']
    have := hr.1
    by_cases h1 : a ≤ r <;> by_cases h2 : r < b <;> by_cases h3 : r < z <;>
      simp [h1, h2, h3] <;> omega

theorem sum_zero : ∀ ps : List (Int × Int), (ps.map fun _ => 0).sum = 0
  | [] => rfl
  | q :: ps => by rw [List.map_cons, List.sum_cons, sum_zero ps]

theorem sum_counts [DecidableEq α] (x : α) (draw : Nat → Int) (parts : List (Int × Int)) : ∀ (l : List (α × Nat)),
    (∀ p ∈ l, (parts.countP fun q => decide (q.1 ≤ draw p.2) && decide (draw p.2 < q.2)) = 1) →
    (parts.map fun q => ((l.filter fun p => decide (q.1 ≤ draw p.2) && decide (draw p.2 < q.2)).map Prod.fst).count x).sum
      = (l.map Prod.fst).count x
  | [], _ => sum_zero parts
  | p :: l, h => by
    have ih := sum_counts x draw parts l fun q hq => h q (List.mem_cons_of_mem _ hq)
    have hp := h p List.mem_cons_self
    have split : ∀ ps : List (Int × Int),
        (ps.map fun q => (((p :: l).filter fun p => decide (q.1 ≤ draw p.2) && decide (draw p.2 < q.2)).map Prod.fst).count x).sum
          = (ps.countP fun q => decide (q.1 ≤ draw p.2) && decide (draw p.2 < q.2)) * (if p.1 = x then 1 else 0)
            + (ps.map fun q => ((l.filter fun p => decide (q.1 ≤ draw p.2) && decide (draw p.2 < q.2)).map Prod.fst).count x).sum := by
      intro ps
      induction ps with
      | nil => simp
      | cons q ps ihp =>
        rw [List.map_cons, List.sum_cons, ihp, List.countP_cons, List.map_cons, List.sum_cons, List.filter_cons]
        by_cases hq : (decide (q.1 ≤ draw p.2) && decide (draw p.2 < q.2)) = true
        · rw [if_pos hq, if_pos hq, List.map_cons, List.count_cons]
          by_cases hx : p.1 = x <;> simp [hx] <;> omega
        · rw [if_neg hq, if_neg hq]
          by_cases hx : p.1 = x <;> simp [hx] <;> omega
    rw [split, ih, hp, List.map_cons, List.count_cons]
    by_cases hx : p.1 = x <;> simp [hx] <;> omega

theorem sum_add (f g : Int × Int → Nat) : ∀ ps : List (Int × Int), (ps.map fun q => f q + g q).sum = (ps.map f).sum + (ps.map g).sum
  | [] => rfl
  | q :: ps => by
    rw [List.map_cons, List.map_cons, List.map_cons, List.sum_cons, List.sum_cons, List.sum_cons, sum_add f g ps]
    omega

/-- The parts together have every row as often as the input, if the bounds begin at or below 0 and end at or above 1. -/
theorem C153_splits [DecidableEq α] {S : Scale} {draw : Nat → Int} (unit : Spec.unit S draw) {first last : Int} {rest : List Int}
    (rising : Spec.rising (first :: rest)) (is_last : (first :: rest).getLast? = some last) (low : first ≤ 0) (high : S.one ≤ last)
    {partitions : List (List (List α))} {results : Int × Int → List (List (List α))}
    (accepted : ∀ q ∈ Spec.parts (first :: rest), sample S draw q.1 q.2 partitions = some (results q)) (x : α) :
    ((Spec.parts (first :: rest)).map fun q => Spec.times x (results q)).sum = Spec.times x partitions := by
  have hres : ∀ q ∈ Spec.parts (first :: rest), results q = partitions.map fun p => p.map (sampleBatch draw q.1 q.2) := by
    intro q hq
    have := accepted q hq
    unfold sample at this
    split at this
    · exact (Option.some.inj this).symm
    · cases this
  have hmap : ((Spec.parts (first :: rest)).map fun q => Spec.times x (results q))
      = (Spec.parts (first :: rest)).map fun q => Spec.times x (partitions.map fun p => p.map (sampleBatch draw q.1 q.2)) :=
    List.map_congr_left fun q hq => by rw [hres q hq]
  rw [hmap]
  have hbatch : ∀ b : List α, ((Spec.parts (first :: rest)).map fun q => (sampleBatch draw q.1 q.2 b).count x).sum = b.count x := by
    intro b
    have := sum_counts x draw (Spec.parts (first :: rest)) b.zipIdx fun p _ => by
      rw [in_parts (draw p.2) first rest last rising is_last, if_pos]
      have := unit p.2
      omega
    rw [List.zipIdx_map_fst] at this
    rw [← this]
    congr 1
    refine List.map_congr_left fun q _ => ?_
    rw [sampleBatch_eq]
  have hpart : ∀ p : List (List α), ((Spec.parts (first :: rest)).map fun q => (p.map (sampleBatch draw q.1 q.2)).flatten.count x).sum
      = p.flatten.count x := by
    intro p
    induction p with
    | nil => exact sum_zero _
    | cons b p ih =>
      rw [List.flatten_cons, List.count_append, ← ih, ← hbatch b, ← sum_add]
      congr 1
      refine List.map_congr_left fun q _ => ?_
      rw [List.map_cons, List.flatten_cons, List.count_append]
  unfold Spec.times
  clear hmap hres accepted
  induction partitions with
  | nil => exact sum_zero _
  | cons p ps ih =>
    rw [List.flatten_cons, List.flatten_append, List.count_append, ← hpart p, ← ih, ← sum_add]
    congr 1
    refine List.map_congr_left fun q _ => ?_
    rw [List.map_cons, List.flatten_cons, List.flatten_append, List.count_append]

/-- Two parts of five rows in two batches. -/
example :
    let draw : Nat → Int := fun k => [3, 8, 1].getD k 0
    sample ⟨10, 0⟩ draw 0 5 [[["a", "b", "c"], ["d", "e"]]] = some [[["a", "c"], ["d"]]]
      ∧ sample ⟨10, 0⟩ draw 5 10 [[["a", "b", "c"], ["d", "e"]]] = some [[["b"], ["e"]]]
      ∧ Spec.rising [0, 5, 10] ∧ Spec.parts [0, 5, 10] = [(0, 5), (5, 10)] := by
  refine ⟨by decide +kernel, by decide +kernel, ?_, rfl⟩
  simp [Spec.rising]

/-- A sample has rows of the input in their order. -/
theorem C153_rows {S : Scale} {draw : Nat → Int} {lower upper : Int} {partitions out : List (List (List α))}
    (accepted : sample S draw lower upper partitions = some out) : out.flatten.flatten.Sublist partitions.flatten.flatten := by
  have hb : ∀ b : List α, (sampleBatch draw lower upper b).Sublist b := by
    intro b
    rw [sampleBatch_eq]
    have := (List.filter_sublist (l := b.zipIdx) (p := fun p => decide (lower ≤ draw p.2) && decide (draw p.2 < upper))).map Prod.fst
    rw [List.zipIdx_map_fst] at this
    exact this
  have hp : ∀ p : List (List α), (p.map (sampleBatch draw lower upper)).flatten.Sublist p.flatten := by
    intro p
    induction p with
    | nil => exact List.Sublist.refl _
    | cons b p ih =>
      rw [List.map_cons, List.flatten_cons, List.flatten_cons]
      exact (hb b).append ih
  unfold sample at accepted
  split at accepted
  · cases accepted
    induction partitions with
    | nil => exact List.Sublist.refl _
    | cons p ps ih =>
      rw [List.map_cons, List.flatten_cons, List.flatten_append, List.flatten_cons, List.flatten_append]
      exact (hp p).append ih
  · cases accepted

/-- A fraction of 1 gives all rows. -/
theorem C153_all {S : Scale} {draw : Nat → Int} (unit : Spec.unit S draw) (one : 0 ≤ S.one) (epsilon : 0 ≤ S.epsilon)
    (partitions : List (List (List α))) : sample S draw 0 S.one partitions = some partitions := by
  have hb : ∀ b : List α, sampleBatch draw 0 S.one b = b := by
    intro b
    rw [sampleBatch_eq, List.filter_eq_self.2, List.zipIdx_map_fst]
    intro p _
    have := unit p.2
    simp [this.1, this.2]
  unfold sample checked
  rw [if_pos (by simp; omega)]
  congr 1
  refine (List.map_congr_left (g := id) fun p _ => ?_).trans (List.map_id _)
  exact (List.map_congr_left (g := id) fun b _ => hb b).trans (List.map_id _)

/-- A fraction of 0 gives none. -/
theorem C153_none {S : Scale} {draw : Nat → Int} {bound : Int} {partitions out : List (List (List α))}
    (accepted : sample S draw bound bound partitions = some out) : out.flatten.flatten = [] := by
  have hb : ∀ b : List α, sampleBatch draw bound bound b = [] := by
    intro b
    rw [sampleBatch_eq, List.filter_eq_nil_iff.2, List.map_nil]
    intro p _
    simp
  unfold sample at accepted
  split at accepted
  · cases accepted
    refine List.flatten_eq_nil_iff.2 fun l hl => ?_
    obtain ⟨p, hp, hl⟩ := List.mem_flatten.1 hl
    obtain ⟨p', -, rfl⟩ := List.mem_map.1 hp
    obtain ⟨b, -, rfl⟩ := List.mem_map.1 hl
    exact hb b
  · cases accepted

example : sample ⟨10, 1⟩ (fun _ => 3) 3 3 [[["a"]]] = some [[[]]] := by decide +kernel

/-- Rows are not drawn on their own: batches of the same length always give equally many rows, and those at the same
places. -/
theorem C153_repeats (draw : Nat → Int) (lower upper : Int) (a b : List α) (same : a.length = b.length) :
    sampleBatch draw lower upper (a.zip b) = (sampleBatch draw lower upper a).zip (sampleBatch draw lower upper b) := by
  have key : ∀ (k : Nat) (a b : List α), a.length = b.length →
      (((a.zip b).zipIdx k).filter fun p => decide (lower ≤ draw p.2) && decide (draw p.2 < upper)).map Prod.fst
        = (((a.zipIdx k).filter fun p => decide (lower ≤ draw p.2) && decide (draw p.2 < upper)).map Prod.fst).zip
          (((b.zipIdx k).filter fun p => decide (lower ≤ draw p.2) && decide (draw p.2 < upper)).map Prod.fst) := by
    intro k a
    induction a generalizing k with
    | nil => intro b _; rfl
    | cons x a ih =>
      intro b hb
      cases b with
      | nil => cases hb
      | cons y b =>
        rw [List.zip_cons_cons, List.zipIdx_cons, List.zipIdx_cons, List.zipIdx_cons, List.filter_cons, List.filter_cons,
          List.filter_cons]
        have := ih (k + 1) b (by simpa using hb)
        split
        · rw [List.map_cons, List.map_cons, List.map_cons, List.zip_cons_cons, this]
        · exact this
  rw [sampleBatch_eq, sampleBatch_eq, sampleBatch_eq]
  exact key 0 a b same

/-- The sample for a seed depends on how the rows are cut into batches. -/
theorem C153_cut :
    let draw : Nat → Int := fun k => if k = 0 then 2 else 7
    (sample ⟨10, 0⟩ draw 0 5 [[["a", "b"]]]).map (fun t => t.flatten.flatten) = some ["a"]
      ∧ (sample ⟨10, 0⟩ draw 0 5 [[["a"], ["b"]]]).map (fun t => t.flatten.flatten) = some ["a", "b"] := by
  decide +kernel

/-- With replacement, the row at a place is there as often as the draw for the place says. -/
theorem C153_replacement (copies : Nat → Nat) (batch : List α) :
    (replaceBatch copies batch) = (batch.zipIdx.map fun p => List.replicate (copies p.2) p.1).flatten := by
  unfold replaceBatch
  rw [List.flatMap_def]
  congr 1
  refine List.map_congr_left fun p _ => ?_
  rw [List.map_replicate]

example : replaceBatch (fun k => [2, 0, 1].getD k 0) ["a", "b", "c"] = ["a", "a", "c"] := by decide +kernel

/-- A row is in `sampleBy` if its stratum has a fraction that is not below its draw. -/
theorem C153_by [DecidableEq κ] (draw : Nat → Int) (key : α → Option κ) (fractions : List (κ × Int)) (batch : List α) (x : α) :
    x ∈ sampleByBatch draw key fractions batch
      ↔ ∃ (i : Nat) (k : κ) (f : Int), batch[i]? = some x ∧ key x = some k ∧ (k, f) ∈ fractions ∧ draw i ≤ f := by
  unfold sampleByBatch draws
  simp only [List.mem_map, List.mem_filter, List.any_eq_true, Bool.and_eq_true, decide_eq_true_eq]
  constructor
  · rintro ⟨_, ⟨⟨⟨y, i⟩, hm, rfl⟩, ⟨k, f⟩, hf, hk, hd⟩, rfl⟩
    exact ⟨i, k, f, List.mem_zipIdx_iff_getElem?.1 hm, hk, hf, hd⟩
  · rintro ⟨i, k, f, hi, hk, hf, hd⟩
    exact ⟨(x, draw i), ⟨⟨(x, i), List.mem_zipIdx_iff_getElem?.2 hi, rfl⟩, (k, f), hf, hk, hd⟩, rfl⟩

/-- So a row whose stratum has the fraction 0 is taken if its draw is 0. -/
theorem C153_by_zero : sampleBy ⟨10, 0⟩ (fun _ => 0) (fun s : String => some s) [("a", 0)] [[["a", "b"]]] = some [[["a"]]] := by
  decide +kernel

end Verif.Phys.Sample
