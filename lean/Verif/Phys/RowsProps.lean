import Verif.Phys.Rows
import Mathlib.Data.List.Perm.Basic
import Mathlib.Data.List.Flatten
import Mathlib.Data.List.Lemmas
import Mathlib.Data.List.Nodup
import Mathlib.Algebra.BigOperators.Group.List.Basic
import Mathlib.Tactic.Ring

/-!
# Properties of row-wise operators: C23, C25, C26, C27, C28
-/

namespace Verif.Phys.Rows

/-! ## C23 -/

section RoundRobin

variable {α : Type}

/-- Dealing rows one by one to `np` partitions, starting at `s`: the share of partition `p`. -/
def share (np : Nat) : Nat → Nat → List α → List α
  | _, _, [] => []
  | s, p, x :: xs => if s % np = p then x :: share np (s + 1) p xs else share np (s + 1) p xs

theorem share_mod (np s t p : Nat) (h : s % np = t % np) (xs : List α) :
    share np s p xs = share np t p xs := by
  induction xs generalizing s t with
  | nil => rfl
  | cons x xs ih =>
    unfold share
    rw [h, ih (s + 1) (t + 1) (by rw [Nat.add_mod, h, ← Nat.add_mod])]

theorem share_append (np s p : Nat) (xs ys : List α) :
    share np s p (xs ++ ys) = share np s p xs ++ share np (s + xs.length) p ys := by
  induction xs generalizing s with
  | nil => simp [share]
  | cons x xs ih =>
    simp only [List.cons_append, share, ih, List.length_cons]
    rw [show s + 1 + xs.length = s + (xs.length + 1) by omega]
    split <;> simp

theorem indices_share (r : RoundRobin) (p : Nat) (batch : List α) :
    (r.indices batch.length p).filterMap (fun i => batch[i]?) =
      share r.numPartitions r.nextIdx p batch := by
  unfold RoundRobin.indices
  induction batch generalizing r with
  | nil => rfl
  | cons x xs ih =>
    have ih' := ih ⟨r.numPartitions, r.nextIdx + 1⟩
    simp only at ih'
    rw [List.length_cons, List.range_succ_eq_map, List.filter_cons]
    simp only [Nat.add_zero, List.filter_map, share]
    have e : List.filterMap (fun i => (x :: xs)[i]?)
        (List.map Nat.succ ((List.range xs.length).filter
          ((fun i => decide ((r.nextIdx + i) % r.numPartitions = p)) ∘ Nat.succ))) =
        share r.numPartitions (r.nextIdx + 1) p xs := by
      rw [← ih', List.filterMap_map]
      congr 1
      apply List.filter_congr
      intro i _
      simp only [Function.comp, Nat.succ_eq_add_one]
      rw [show r.nextIdx + (i + 1) = r.nextIdx + 1 + i by omega]
    split
    · rename_i h
      simp only [decide_eq_true_eq] at h
      rw [if_pos h, List.filterMap_cons]
      simp only [List.getElem?_cons_zero]
      rw [e]
    · rename_i h
      simp only [decide_eq_true_eq] at h
      rw [if_neg h, e]

theorem share_one (s : Nat) (xs : List α) : share 1 s 0 xs = xs := by
  induction xs generalizing s with
  | nil => rfl
  | cons x xs ih => simp [share, Nat.mod_one, ih]

theorem received_filterMap (ps : List Nat) (hnd : ps.Nodup) (g : Nat → List α) (q : Nat → Prop)
    [DecidablePred q] (hq : ∀ p, q p → g p = []) (p : Nat) :
    received p (ps.filterMap fun i => if q i then none else some (i, g i)) =
      if p ∈ ps then g p else [] := by
  induction ps with
  | nil => simp [received]
  | cons i ps ih =>
    have ih' := ih (List.nodup_cons.mp hnd).2
    have hni := (List.nodup_cons.mp hnd).1
    rw [List.filterMap_cons]
    by_cases hqi : q i
    · simp only [hqi, if_true]
      rw [ih']
      by_cases hpi : p = i
      · subst hpi; simp [hq p hqi]
      · simp [hpi]
    · simp only [hqi, if_false]
      unfold received at ih' ⊢
      rw [List.filter_cons]
      by_cases hpi : i = p
      · subst hpi
        simp only [decide_true, if_true, List.flatMap_cons, List.mem_cons_self]
        rw [ih']
        simp [hni]
      · have : ¬ p = i := fun h => hpi h.symm
        simp only [hpi, decide_false, Bool.false_eq_true, if_false, List.mem_cons, this, false_or]
        exact ih'

theorem partition_share (r : RoundRobin) (hnp : 0 < r.numPartitions) (batch : List α) (p : Nat)
    (hp : p < r.numPartitions) :
    received p (r.partition batch).1 = share r.numPartitions r.nextIdx p batch ∧
      (r.partition batch).2.numPartitions = r.numPartitions ∧
      (r.partition batch).2.nextIdx % r.numPartitions =
        (r.nextIdx + batch.length) % r.numPartitions := by
  unfold RoundRobin.partition
  split
  · rename_i h
    have : batch = [] := List.length_eq_zero_iff.mp h
    subst this
    simp [received, share]
  · split
    · rename_i h1
      have hp0 : p = 0 := by omega
      subst hp0
      refine ⟨?_, rfl, by rw [h1]; simp [Nat.mod_one]⟩
      rw [h1, share_one]
      simp [received]
    · refine ⟨?_, rfl, by simp⟩
      simp only
      rw [received_filterMap (List.range r.numPartitions) List.nodup_range
        (fun p => (r.indices batch.length p).filterMap fun i => batch[i]?)
        (fun p => r.indices batch.length p = []) (by intro p h; rw [h]; rfl) p]
      rw [if_pos (List.mem_range.mpr hp), indices_share]

theorem received_append (p : Nat) (a b : List (Nat × List α)) :
    received p (a ++ b) = received p a ++ received p b := by
  simp [received, List.filter_append]

theorem all_share (r : RoundRobin) (hnp : 0 < r.numPartitions) (batches : List (List α)) (p : Nat)
    (hp : p < r.numPartitions) :
    received p (r.all batches) = share r.numPartitions r.nextIdx p batches.flatten := by
  induction batches generalizing r with
  | nil => rfl
  | cons b bs ih =>
    obtain ⟨h1, h2, h3⟩ := partition_share r hnp b p hp
    unfold RoundRobin.all
    rw [received_append, h1, List.flatten_cons, share_append,
      ih (r.partition b).2 (by rw [h2]; exact hnp) (by rw [h2]; exact hp), h2]
    congr 1
    apply share_mod
    exact h3

/-- C23: what an output partition receives depends only on the rows, not on how they are grouped
in batches. -/
theorem C23_independent_of_batches (r : RoundRobin) (hnp : 0 < r.numPartitions)
    (batches batches' : List (List α)) (h : batches.flatten = batches'.flatten) (p : Nat)
    (hp : p < r.numPartitions) :
    received p (r.all batches) = received p (r.all batches') := by
  rw [all_share r hnp _ p hp, all_share r hnp _ p hp, h]

theorem share_perm (np : Nat) (hnp : 0 < np) (s : Nat) (xs : List α) :
    ((List.range np).flatMap fun p => share np s p xs).Perm xs := by
  induction xs generalizing s with
  | nil => simp [share]
  | cons x xs ih =>
    have e : (fun p => share np s p (x :: xs)) =
        fun p => (if s % np = p then [x] else []) ++ share np (s + 1) p xs := by
      funext p
      simp only [share]
      split <;> simp
    rw [e]
    refine (List.flatMap_append_perm _ _ _).symm.trans ?_
    have h1 : (List.range np).flatMap (fun p => if s % np = p then [x] else []) = [x] := by
      have hlt : s % np < np := Nat.mod_lt s hnp
      have : ∀ m, (List.range m).flatMap (fun p => if s % np = p then [x] else []) =
          if s % np < m then [x] else [] := by
        intro m
        induction m with
        | zero => simp
        | succ m ihm =>
          rw [List.range_succ, List.flatMap_append, ihm]
          simp only [List.flatMap_cons, List.flatMap_nil, List.append_nil]
          split
          · rw [if_neg (by omega), if_pos (by omega)]; rfl
          · split
            · rw [if_pos (by omega)]; rfl
            · rw [if_neg (by omega)]; rfl
      rw [this, if_pos hlt]
    rw [h1]
    exact (ih (s + 1)).cons x

/-- C23: every row goes to exactly one output partition (with multiplicity). -/
theorem C23_every_row_once (r : RoundRobin) (hnp : 0 < r.numPartitions) (batches : List (List α)) :
    ((List.range r.numPartitions).flatMap fun p => received p (r.all batches)).Perm
      batches.flatten := by
  have : ((List.range r.numPartitions).flatMap fun p => received p (r.all batches)) =
      (List.range r.numPartitions).flatMap
        fun p => share r.numPartitions r.nextIdx p batches.flatten :=
    List.flatMap_congr fun p hp => all_share r hnp batches p (List.mem_range.mp hp)
  rw [this]
  exact share_perm _ hnp _ _

/-- C23: no batch is sent to a partition that does not exist. -/
theorem C23_only_existing_partitions (r : RoundRobin) (hnp : 0 < r.numPartitions)
    (batches : List (List α)) : ∀ o ∈ r.all batches, o.1 < r.numPartitions := by
  induction batches generalizing r with
  | nil => simp [RoundRobin.all]
  | cons b bs ih =>
    obtain ⟨_, h2, _⟩ := partition_share r hnp b 0 hnp
    intro o ho
    unfold RoundRobin.all at ho
    rcases List.mem_append.mp ho with ho | ho
    · unfold RoundRobin.partition at ho
      split at ho
      · cases ho
      · split at ho
        · simp at ho; rw [ho]; exact hnp
        · obtain ⟨p, hp, he⟩ := List.mem_filterMap.mp ho
          simp only at he
          split at he
          · cases he
          · simp at he; rw [← he]; exact List.mem_range.mp hp
    · have := ih (r.partition b).2 (by rw [h2]; exact hnp) o ho
      rwa [h2] at this

theorem share_sublist (np s p : Nat) (xs : List α) : (share np s p xs).Sublist xs := by
  induction xs generalizing s with
  | nil => exact List.Sublist.refl _
  | cons x xs ih =>
    unfold share
    split
    · exact (ih _).cons_cons x
    · exact (ih _).cons x

/-- C23: rows keep their order inside an output partition. -/
theorem C23_order_is_kept (r : RoundRobin) (hnp : 0 < r.numPartitions) (batches : List (List α))
    (p : Nat) (hp : p < r.numPartitions) :
    (received p (r.all batches)).Sublist batches.flatten := by
  rw [all_share r hnp _ p hp]
  exact share_sublist _ _ _ _

theorem share_length (np : Nat) (hnp : 0 < np) (s p : Nat) (hp : p < np) (xs : List α) :
    (share np s p xs).length + (s + (np - 1 - p)) / np = (s + xs.length + (np - 1 - p)) / np := by
  induction xs generalizing s with
  | nil => simp [share]
  | cons x xs ih =>
    have ih' := ih (s + 1)
    rw [List.length_cons, show s + (xs.length + 1) + (np - 1 - p) = s + 1 + xs.length + (np - 1 - p) by omega,
      ← ih']
    have hs : (s + 1 + (np - 1 - p)) / np = (s + (np - 1 - p)) / np + if s % np = p then 1 else 0 := by
      rw [show s + 1 + (np - 1 - p) = s + (np - 1 - p) + 1 by omega, Nat.succ_div]
      congr 1
      have hiff : np ∣ s + (np - 1 - p) + 1 ↔ s % np = p := by
        rw [Nat.dvd_iff_mod_eq_zero, show s + (np - 1 - p) + 1 = s + (np - p) by omega]
        have hsm := Nat.mod_lt s hnp
        have hdm := Nat.div_add_mod s np
        rw [← Nat.mod_add_mod]
        constructor
        · intro h
          by_contra hne
          rcases Nat.lt_or_ge (s % np) p with hlt | hge
          · rw [Nat.mod_eq_of_lt (by omega)] at h; omega
          · rw [Nat.mod_eq_sub_mod (by omega), Nat.mod_eq_of_lt (by omega)] at h; omega
        · intro h
          rw [h, show p + (np - p) = np by omega, Nat.mod_self]
      simp [hiff]
    rw [hs]
    by_cases hc : s % np = p
    · simp only [share, if_pos hc, List.length_cons]; omega
    · simp only [share, if_neg hc]; omega

/-- C23: after any number of batches the shares of two output partitions differ by at most one. -/
theorem C23_shares_are_even (r : RoundRobin) (hnp : 0 < r.numPartitions) (batches : List (List α))
    (p q : Nat) (hp : p < r.numPartitions) (hq : q < r.numPartitions) :
    (received p (r.all batches)).length ≤ (received q (r.all batches)).length + 1 := by
  rw [all_share r hnp _ p hp, all_share r hnp _ q hq]
  have h1 := share_length r.numPartitions hnp r.nextIdx p hp batches.flatten
  have h2 := share_length r.numPartitions hnp r.nextIdx q hq batches.flatten
  generalize batches.flatten.length = n at *
  generalize r.nextIdx = s at *
  generalize r.numPartitions = np at *
  -- both are the floor or the ceiling of n / np
  have key : ∀ a, (a + n) / np ≤ a / np + n / np + 1 ∧ a / np + n / np ≤ (a + n) / np := by
    intro a
    have := Nat.add_div hnp (a := a) (b := n)
    split at this <;> omega
  have k1 := key (s + (np - 1 - p))
  have k2 := key (s + (np - 1 - q))
  rw [show s + n + (np - 1 - p) = s + (np - 1 - p) + n by omega] at h1
  rw [show s + n + (np - 1 - q) = s + (np - 1 - q) + n by omega] at h2
  omega

/-- C23: input partitions begin with different output partitions: with no more inputs than outputs no
two begin with the same one, and with no fewer inputs than outputs every output partition is the first of
some input. So many small inputs do not all end up in the first output partition. -/
theorem C23_inputs_begin_spread (np nip : Nat) (hnp : 0 < np) (hnip : 0 < nip) :
    (∀ (i j : Nat) (r q : RoundRobin), nip ≤ np → i < nip → j < nip → i ≠ j →
      RoundRobin.new np i nip = some r → RoundRobin.new np j nip = some q →
      r.nextIdx % np ≠ q.nextIdx % np) ∧
    (∀ p, np ≤ nip → p < np → ∃ i r, i < nip ∧ RoundRobin.new np i nip = some r ∧ r.nextIdx % np = p) := by
  have hnew : ∀ i, RoundRobin.new np i nip = some ⟨np, i * np / nip⟩ := by
    intro i
    unfold RoundRobin.new
    rw [if_neg (by omega), if_neg (by omega)]
  have hlt : ∀ i, i < nip → i * np / nip < np := by
    intro i hi
    rw [Nat.div_lt_iff_lt_mul hnip, Nat.mul_comm np]
    exact Nat.mul_lt_mul_of_pos_right hi hnp
  constructor
  · intro i j r q hle hi hj hij hr hq
    rw [hnew] at hr hq
    cases hr; cases hq
    simp only
    rw [Nat.mod_eq_of_lt (hlt i hi), Nat.mod_eq_of_lt (hlt j hj)]
    have key : ∀ a b, a < b → a * np / nip < b * np / nip := by
      intro a b hab
      have h1 : a * np / nip + 1 = (a * np + nip) / nip := by
        rw [Nat.add_div_right _ hnip]
      have h2 : a * np + nip ≤ b * np := by
        have : (a + 1) * np ≤ b * np := Nat.mul_le_mul_right _ hab
        rw [Nat.add_mul] at this
        omega
      have := Nat.div_le_div_right (c := nip) h2
      omega
    rcases Nat.lt_or_gt_of_ne hij with h | h
    · have := key i j h; omega
    · have := key j i h; omega
  · intro p hle hp
    -- the smallest input whose first output is at least `p`
    have hi : (p * nip + np - 1) / np < nip := by
      rw [Nat.div_lt_iff_lt_mul hnp]
      have : (p + 1) * nip ≤ np * nip := Nat.mul_le_mul_right _ hp
      rw [Nat.add_mul, Nat.mul_comm np] at this
      omega
    refine ⟨(p * nip + np - 1) / np, _, hi, hnew _, ?_⟩
    simp only
    rw [Nat.mod_eq_of_lt (hlt _ hi)]
    have hd := Nat.div_add_mod (p * nip + np - 1) np
    have hm := Nat.mod_lt (p * nip + np - 1) hnp
    rw [Nat.mul_comm] at hd
    generalize (p * nip + np - 1) / np * np = x at hd ⊢
    rw [Nat.div_eq_iff hnip, Nat.mul_comm p]
    rw [Nat.mul_comm p] at hd hm
    omega

/-- C23: the partitioner exists for every non-empty choice of partitions. -/
theorem C23_new (np ip nip : Nat) :
    (∃ r, RoundRobin.new np ip nip = some r ∧ r.numPartitions = np) ↔ 0 < np ∧ 0 < nip := by
  unfold RoundRobin.new
  constructor
  · rintro ⟨r, h, _⟩
    split at h
    · cases h
    · split at h
      · cases h
      · omega
  · rintro ⟨h1, h2⟩
    rw [if_neg (by omega), if_neg (by omega)]
    exact ⟨_, rfl, rfl⟩

example : (RoundRobin.new 3 1 2).map (fun r => r.all [[10, 11], [12], [], [13, 14, 15, 16]]) =
    some [(1, [10]), (2, [11]), (0, [12]), (0, [15]), (1, [13, 16]), (2, [14])] := by decide

end RoundRobin

/-! ## C25 -/

theorem makeIds_ok (p offset len : Nat) (h : ¬ offset + len > 2 ^ 33) :
    makeIds p offset len = some ((List.range len).map fun i =>
      signed ((p * 2 ^ 33) % 2 ^ 64 + offset + i), offset + len) := by
  unfold makeIds
  exact if_neg h

theorem makeIds_err (p offset len : Nat) (h : offset + len > 2 ^ 33) :
    makeIds p offset len = none := by
  unfold makeIds
  exact if_pos h

theorem range_map_add (f : Nat → Int) (a b : Nat) :
    (List.range (a + b)).map f = (List.range a).map f ++ (List.range b).map fun i => f (a + i) := by
  rw [List.range_add, List.map_append, List.map_map]
  rfl

theorem allIds_eq (p : Nat) (lens : List Nat) (offset : Nat) (h : offset + lens.sum ≤ 2 ^ 33) :
    allIds p lens offset = some ((List.range lens.sum).map fun i =>
      signed ((p * 2 ^ 33) % 2 ^ 64 + offset + i)) := by
  induction lens generalizing offset with
  | nil => rfl
  | cons len lens ih =>
    rw [List.sum_cons] at h ⊢
    rw [allIds, makeIds_ok p offset len (by omega)]
    show (allIds p lens (offset + len)).map _ = _
    rw [ih (offset + len) (by omega), Option.map_some, range_map_add]
    generalize (p * 2 ^ 33) % 2 ^ 64 = base
    simp only [Nat.add_assoc]

theorem allIds_none (p : Nat) (lens : List Nat) (offset : Nat) (h : 2 ^ 33 < offset + lens.sum) :
    offset ≤ 2 ^ 33 → allIds p lens offset = none := by
  intro ho
  induction lens generalizing offset with
  | nil => simp at h; omega
  | cons len lens ih =>
    rw [List.sum_cons] at h
    by_cases hc : offset + len > 2 ^ 33
    · rw [allIds, makeIds_err p offset len hc]
    · rw [allIds, makeIds_ok p offset len hc]
      show (allIds p lens (offset + len)).map _ = _
      rw [ih (offset + len) (by omega) (by omega)]
      rfl

/-- C25: a partition gets ids exactly when it has at most 2^33 rows: a larger one is an error,
never a collision. -/
theorem C25_too_many_rows_is_an_error (p : Nat) (lens : List Nat) :
    allIds p lens 0 = none ↔ 2 ^ 33 < lens.sum := by
  constructor
  · intro h
    by_contra hc
    rw [allIds_eq p lens 0 (by omega)] at h
    cases h
  · intro h
    exact allIds_none p lens 0 (by omega) (by omega)

/-- C25: one id per row, and ids strictly increase within a partition, across batches. -/
theorem C25_increasing (p : Nat) (lens : List Nat) (ids : List Int)
    (h : allIds p lens 0 = some ids) : ids.length = lens.sum ∧ ids.Pairwise (· < ·) := by
  have hle : lens.sum ≤ 2 ^ 33 := by
    by_contra hc
    rw [(C25_too_many_rows_is_an_error p lens).mpr (by omega)] at h
    cases h
  rw [allIds_eq p lens 0 (by omega)] at h
  obtain rfl := Option.some.inj h
  refine ⟨by simp, ?_⟩
  rw [List.pairwise_map, List.pairwise_iff_getElem]
  intro i j hi hj hij
  simp only [List.length_range] at hi hj
  simp only [List.getElem_range]
  have hb : (p * 2 ^ 33) % 2 ^ 64 = (p % 2 ^ 31) * 2 ^ 33 := by omega
  unfold signed
  rw [hb]
  generalize p % 2 ^ 31 = q
  split <;> split <;> omega

/-- C25: ids of different partitions are different. -/
theorem C25_distinct_across_partitions (p q : Nat) (hp : p < 2 ^ 31) (hq : q < 2 ^ 31) (hpq : p ≠ q)
    (lens lens' : List Nat) (ids ids' : List Int) (h : allIds p lens 0 = some ids)
    (h' : allIds q lens' 0 = some ids') : ∀ x ∈ ids, x ∉ ids' := by
  have hle : lens.sum ≤ 2 ^ 33 := by
    by_contra hc
    rw [(C25_too_many_rows_is_an_error p lens).mpr (by omega)] at h
    cases h
  have hle' : lens'.sum ≤ 2 ^ 33 := by
    by_contra hc
    rw [(C25_too_many_rows_is_an_error q lens').mpr (by omega)] at h'
    cases h'
  rw [allIds_eq p lens 0 (by omega)] at h
  rw [allIds_eq q lens' 0 (by omega)] at h'
  obtain rfl := Option.some.inj h
  obtain rfl := Option.some.inj h'
  intro x hx hx'
  obtain ⟨i, hi, rfl⟩ := List.mem_map.mp hx
  obtain ⟨j, hj, he⟩ := List.mem_map.mp hx'
  have hi' := List.mem_range.mp hi
  have hj' := List.mem_range.mp hj
  unfold signed at he
  split at he <;> split at he <;> omega

/-- C25: ids are non-negative and encode partition and row number, as in Spark, for the partition
numbers for which Spark defines them. -/
theorem C25_value (p : Nat) (hp : p < 2 ^ 30) (lens : List Nat) (h : lens.sum ≤ 2 ^ 33) :
    allIds p lens 0 = some ((List.range lens.sum).map fun i => ((p * 2 ^ 33 + i : Nat) : Int)) := by
  rw [allIds_eq p lens 0 (by omega)]
  congr 1
  apply List.map_congr_left
  intro i hi
  have hi' := List.mem_range.mp hi
  unfold signed
  split <;> omega

/-- The bound on the number of partitions is sharp: the shift drops the high bits. -/
theorem C25_partition_bound_is_sharp : allIds (2 ^ 31) [1] 0 = allIds 0 [1] 0 := by decide

example : allIds 2 [2, 0, 1] 0 = some [2 ^ 34, 2 ^ 34 + 1, 2 ^ 34 + 2] := by decide

/-! ## C26 -/

section Merge

variable {κ α : Type} [DecidableEq κ]

/-- Identifiers of the target rows that are matched, one for each matching source row. -/
def Spec.matchedIds (rows : List (MergeRow κ α)) : List κ :=
  rows.filterMap fun r =>
    if r.targetPresent = some true ∧ r.sourcePresent = some true then r.rowId else none

theorem checkRows_spec (rows : List (MergeRow κ α)) (seen : List κ) (hs : seen.Nodup) :
    (∀ seen', checkRows rows seen = .ok seen' →
      seen'.Nodup ∧ ∀ k, k ∈ seen' ↔ k ∈ seen ∨ k ∈ Spec.matchedIds rows) ∧
    ((∃ seen', checkRows rows seen = .ok seen') ↔
      (Spec.matchedIds rows).Nodup ∧ ∀ k ∈ Spec.matchedIds rows, k ∉ seen) ∧
    (∀ k, checkRows rows seen = .error k →
      2 ≤ (seen ++ Spec.matchedIds rows).count k) := by
  induction rows generalizing seen with
  | nil =>
    refine ⟨fun seen' h => ?_, ⟨fun _ => by simp [Spec.matchedIds], fun _ => ⟨seen, rfl⟩⟩, fun k h => ?_⟩
    · simp only [checkRows, Except.ok.injEq] at h
      subst h
      exact ⟨hs, fun k => by simp [Spec.matchedIds]⟩
    · simp [checkRows] at h
  | cons r rows ih =>
    by_cases hm : r.targetPresent = some true ∧ r.sourcePresent = some true
    · cases hid : r.rowId with
      | none =>
        have e1 : checkRows (r :: rows) seen = checkRows rows seen := by
          simp [checkRows, hm, hid]
        have e2 : Spec.matchedIds (r :: rows) = Spec.matchedIds rows := by
          simp [Spec.matchedIds, hm, hid]
        rw [e1, e2]
        exact ih seen hs
      | some k =>
        have e2 : Spec.matchedIds (r :: rows) = k :: Spec.matchedIds rows := by
          simp [Spec.matchedIds, hm, hid]
        by_cases hk : k ∈ seen
        · have e1 : checkRows (r :: rows) seen = .error k := by
            simp [checkRows, hm, hid, hk]
          rw [e1, e2]
          refine ⟨fun s h => (by cases h), ⟨fun ⟨s, h⟩ => (by cases h), fun h => ?_⟩, fun k' h => ?_⟩
          · exact absurd hk (h.2 k (by simp))
          · simp only [Except.error.injEq] at h
            subst h
            rw [List.count_append, List.count_cons_self]
            have := List.count_pos_iff.mpr hk
            omega
        · have e1 : checkRows (r :: rows) seen = checkRows rows (k :: seen) := by
            simp [checkRows, hm, hid, hk]
          obtain ⟨h1, h2, h3⟩ := ih (k :: seen) (List.nodup_cons.mpr ⟨hk, hs⟩)
          rw [e1, e2]
          refine ⟨fun s h => ?_, ?_, fun k' h => ?_⟩
          · obtain ⟨g1, g2⟩ := h1 s h
            refine ⟨g1, fun k' => ?_⟩
            rw [g2]
            simp only [List.mem_cons]
            constructor
            · rintro ((h | h) | h)
              · exact Or.inr (Or.inl h)
              · exact Or.inl h
              · exact Or.inr (Or.inr h)
            · rintro (h | h | h)
              · exact Or.inl (Or.inr h)
              · exact Or.inl (Or.inl h)
              · exact Or.inr h
          · rw [h2, List.nodup_cons]
            constructor
            · rintro ⟨g1, g2⟩
              refine ⟨⟨fun hkm => g2 k hkm (by simp), g1⟩, fun k' hk' => ?_⟩
              rcases List.mem_cons.mp hk' with rfl | hk'
              · exact hk
              · exact fun hs' => g2 k' hk' (List.mem_cons_of_mem _ hs')
            · rintro ⟨⟨g0, g1⟩, g2⟩
              refine ⟨g1, fun k' hk' hs' => ?_⟩
              rcases List.mem_cons.mp hs' with rfl | hs'
              · exact g0 hk'
              · exact g2 k' (List.mem_cons_of_mem _ hk') hs'
          · have := h3 k' h
            rw [List.cons_append, List.count_cons] at this
            rw [List.count_append, List.count_cons]
            rw [List.count_append] at this
            omega
    · have e1 : checkRows (r :: rows) seen = checkRows rows seen := by
        simp [checkRows, hm]
      have e2 : Spec.matchedIds (r :: rows) = Spec.matchedIds rows := by
        unfold Spec.matchedIds
        rw [List.filterMap_cons, if_neg hm]
      rw [e1, e2]
      exact ih seen hs

theorem matchedIds_append (a b : List (MergeRow κ α)) :
    Spec.matchedIds (a ++ b) = Spec.matchedIds a ++ Spec.matchedIds b := by
  simp [Spec.matchedIds, List.filterMap_append]

theorem mergeCheck_spec (bs : List (List (MergeRow κ α))) (seen : List κ) (hs : seen.Nodup) :
    ((mergeCheck bs seen).2 = none ↔
      (Spec.matchedIds bs.flatten).Nodup ∧ ∀ k ∈ Spec.matchedIds bs.flatten, k ∉ seen) ∧
    ((mergeCheck bs seen).2 = none → (mergeCheck bs seen).1 = bs) ∧
    (mergeCheck bs seen).1 <+: bs ∧
    (∀ k, (mergeCheck bs seen).2 = some k → 2 ≤ (seen ++ Spec.matchedIds bs.flatten).count k) := by
  induction bs generalizing seen with
  | nil => simp [mergeCheck, Spec.matchedIds]
  | cons b bs ih =>
    obtain ⟨h1, h2, h3⟩ := checkRows_spec b seen hs
    rw [List.flatten_cons, matchedIds_append]
    cases hc : checkRows b seen with
    | error k =>
      have hno : ¬ ∃ s, checkRows b seen = .ok s := by rintro ⟨s, h⟩; rw [hc] at h; cases h
      have e : mergeCheck (b :: bs) seen = ([], some k) := by simp [mergeCheck, hc]
      rw [e]
      refine ⟨⟨by simp, fun h => ?_⟩, by simp, by simp, fun k' h => ?_⟩
      · exfalso
        apply hno
        rw [h2]
        exact ⟨(List.nodup_append.mp h.1).1, fun k hk => h.2 k (List.mem_append_left _ hk)⟩
      · simp only [Option.some.injEq] at h
        subst h
        have := h3 k hc
        rw [← List.append_assoc, List.count_append]
        omega
    | ok seen' =>
      obtain ⟨g1, g2⟩ := h1 seen' hc
      obtain ⟨i1, i2, i3, i4⟩ := ih seen' g1
      have hok := h2.mp ⟨seen', hc⟩
      have e : mergeCheck (b :: bs) seen = (b :: (mergeCheck bs seen').1, (mergeCheck bs seen').2) := by
        simp [mergeCheck, hc]
      rw [e]
      refine ⟨?_, fun h => by rw [i2 h], ?_, fun k h => ?_⟩
      · simp only
        rw [i1, List.nodup_append]
        constructor
        · rintro ⟨j1, j2⟩
          refine ⟨⟨hok.1, j1, ?_⟩, fun k hk => ?_⟩
          · rintro a ha c hc' rfl
            exact j2 a hc' ((g2 a).mpr (Or.inr ha))
          · rcases List.mem_append.mp hk with hk | hk
            · exact hok.2 k hk
            · exact fun hs' => j2 k hk ((g2 k).mpr (Or.inl hs'))
        · rintro ⟨⟨j0, j1, j2⟩, j3⟩
          refine ⟨j1, fun k hk hs' => ?_⟩
          rcases (g2 k).mp hs' with h | h
          · exact j3 k (List.mem_append_right _ hk) h
          · exact j2 k h k hk rfl
      · exact List.prefix_cons_inj b |>.mpr i3
      · have := i4 k h
        rw [List.count_append] at this
        rw [List.count_append, List.count_append]
        -- in `seen'` an id occurs at most once, and then it is in `seen` or matched
        have hle : seen'.count k ≤ seen.count k + (Spec.matchedIds b).count k := by
          by_cases hk : k ∈ seen'
          · have h1 : seen'.count k ≤ 1 := List.nodup_iff_count_le_one.mp g1 k
            rcases (g2 k).mp hk with h | h
            · have := List.count_pos_iff.mpr h; omega
            · have := List.count_pos_iff.mpr h; omega
          · rw [List.count_eq_zero.mpr hk]; omega
        omega

/-- C26: the check fails exactly when some target row is matched more than once, however the rows
are split in batches; the row named in the error is matched more than once. Otherwise everything
passes unchanged. -/
theorem C26_fails_iff_matched_twice (bs : List (List (MergeRow κ α))) :
    ((mergeCheck bs []).2 = none ↔ (Spec.matchedIds bs.flatten).Nodup) ∧
    ((mergeCheck bs []).2 = none → (mergeCheck bs []).1 = bs) ∧
    (∀ k, (mergeCheck bs []).2 = some k → 2 ≤ (Spec.matchedIds bs.flatten).count k) := by
  obtain ⟨h1, h2, _, h4⟩ := mergeCheck_spec bs [] List.nodup_nil
  refine ⟨?_, h2, fun k h => by simpa using h4 k h⟩
  rw [h1]
  simp

/-- C26: batches before the violation pass unchanged and in order. -/
theorem C26_passes_a_prefix (bs : List (List (MergeRow κ α))) : (mergeCheck bs []).1 <+: bs :=
  (mergeCheck_spec bs [] List.nodup_nil).2.2.1

example :
    (mergeCheck [[⟨some 1, some true, some true, ()⟩, ⟨some 2, some true, some false, ()⟩],
      [⟨some 2, some true, some true, ()⟩, ⟨none, none, some true, ()⟩],
      [⟨some 1, some true, some true, ()⟩]] []).2 = some 1 := by decide

end Merge

/-! ## Items of an event stream -/

section Events

variable {α μ : Type}

/-- The content of an event stream, independent of how rows are grouped in events. -/
def Spec.items : List (Event α μ) → List ((α × Bool) ⊕ μ)
  | [] => []
  | .data rows :: es => rows.map Sum.inl ++ Spec.items es
  | .marker m :: es => .inr m :: Spec.items es

/-- The data rows of a stream. -/
def Spec.rows (items : List ((α × Bool) ⊕ μ)) : List (α × Bool) := items.filterMap Sum.getLeft?

/-- Keeps all markers, and the data rows from number `skip` on, at most `fetch` of them. -/
def Spec.window : Nat → Option Nat → List ((α × Bool) ⊕ μ) → List ((α × Bool) ⊕ μ)
  | _, _, [] => []
  | s, f, .inr m :: is => .inr m :: Spec.window s f is
  | 0, none, .inl r :: is => .inl r :: Spec.window 0 none is
  | 0, some 0, .inl _ :: is => Spec.window 0 (some 0) is
  | 0, some (f + 1), .inl r :: is => .inl r :: Spec.window 0 (some f) is
  | s + 1, f, .inl _ :: is => Spec.window s f is

theorem rows_append (a b : List ((α × Bool) ⊕ μ)) :
    Spec.rows (a ++ b) = Spec.rows a ++ Spec.rows b := by simp [Spec.rows]

theorem rows_map_inl (a : List (α × Bool)) :
    Spec.rows (a.map (Sum.inl : _ → (α × Bool) ⊕ μ)) = a := by
  induction a with
  | nil => rfl
  | cons x xs ih => simp only [Spec.rows, List.map_cons, List.filterMap_cons, Sum.getLeft?] at *; rw [ih]

/-- `take` with an optional bound. -/
def takeOpt {β : Type} : Option Nat → List β → List β
  | none, l => l
  | some n, l => l.take n

theorem window_rows (s : Nat) (f : Option Nat) (items : List ((α × Bool) ⊕ μ)) :
    Spec.rows (Spec.window s f items) = takeOpt f ((Spec.rows items).drop s) := by
  induction items generalizing s f with
  | nil => cases f <;> simp [Spec.window, Spec.rows, takeOpt]
  | cons i is ih =>
    cases i with
    | inr m =>
      simp only [Spec.window, Spec.rows, List.filterMap_cons, Sum.getLeft?]
      exact ih s f
    | inl r =>
      have hr : Spec.rows (.inl r :: is) = r :: Spec.rows is := by
        simp [Spec.rows]
      cases s with
      | succ s => simp only [Spec.window, hr, List.drop_succ_cons]; exact ih s f
      | zero =>
        rw [hr, List.drop_zero]
        cases f with
        | none =>
          have := ih 0 none
          simp only [Spec.window, takeOpt, List.drop_zero] at this ⊢
          rw [← this]; rfl
        | some f =>
          cases f with
          | zero =>
            have := ih 0 (some 0)
            simp only [Spec.window, takeOpt, List.take_zero] at this ⊢
            exact this
          | succ f =>
            have := ih 0 (some f)
            simp only [Spec.window, takeOpt, List.drop_zero, List.take_succ_cons] at this ⊢
            rw [← this]; rfl

theorem window_skip_all (s : Nat) (f : Option Nat) (rows : List (α × Bool))
    (is : List ((α × Bool) ⊕ μ)) (h : rows.length ≤ s) :
    Spec.window s f (rows.map .inl ++ is) = Spec.window (s - rows.length) f is := by
  induction rows generalizing s with
  | nil => simp
  | cons r rows ih =>
    simp only [List.length_cons] at h ⊢
    obtain ⟨t, rfl⟩ : ∃ t, s = t + 1 := ⟨s - 1, by omega⟩
    simp only [List.map_cons, List.cons_append, Spec.window]
    rw [ih t (by omega)]
    congr 1
    omega

theorem window_skip_some (s : Nat) (f : Option Nat) (rows : List (α × Bool))
    (is : List ((α × Bool) ⊕ μ)) (h : s ≤ rows.length) :
    Spec.window s f (rows.map .inl ++ is) = Spec.window 0 f ((rows.drop s).map .inl ++ is) := by
  induction rows generalizing s with
  | nil => have : s = 0 := by simpa using h
           subst this; rfl
  | cons r rows ih =>
    cases s with
    | zero => rfl
    | succ s =>
      simp only [List.map_cons, List.cons_append, Spec.window, List.drop_succ_cons]
      exact ih s (by simpa using h)

theorem window_fetch (f : Option Nat) (rows : List (α × Bool)) (is : List ((α × Bool) ⊕ μ)) :
    Spec.window 0 f (rows.map .inl ++ is) =
      (takeOpt f rows).map .inl ++ Spec.window 0 (f.map (· - rows.length)) is := by
  induction rows generalizing f with
  | nil => cases f <;> simp [takeOpt]
  | cons r rows ih =>
    cases f with
    | none =>
      have := ih none
      simp only [takeOpt, Option.map_none] at this ⊢
      simp only [List.map_cons, List.cons_append, Spec.window, this]
    | some f =>
      cases f with
      | zero =>
        have := ih (some 0)
        simp only [takeOpt, List.take_zero, List.map_nil, List.nil_append, Option.map_some,
          Nat.zero_sub] at this ⊢
        simp only [List.map_cons, List.cons_append, Spec.window, this]
      | succ f =>
        have := ih (some f)
        simp only [takeOpt, Option.map_some] at this ⊢
        simp only [List.map_cons, List.cons_append, Spec.window, this, List.take_succ_cons,
          List.length_cons, Nat.add_sub_add_right]

theorem items_cons_data (rows : List (α × Bool)) (es : List (Event α μ)) :
    Spec.items (.data rows :: es) = rows.map .inl ++ Spec.items es := rfl

/-- The state of the limit agrees with the window that remains. -/
theorem limit_spec (l : Limit) (es : List (Event α μ)) :
    ∃ n, Spec.items (l.run es) = Spec.window l.skip l.fetch (Spec.items (es.take n)) ∧
      (n = es.length ∨ ∃ f, l.fetch = some f ∧
        l.skip + f ≤ (Spec.rows (Spec.items (es.take n))).length) := by
  induction es generalizing l with
  | nil => exact ⟨0, by simp [Limit.run, Spec.items, Spec.window], Or.inl rfl⟩
  | cons e es ih =>
    cases e with
    | marker m =>
      obtain ⟨n, h1, h2⟩ := ih l
      refine ⟨n + 1, ?_, ?_⟩
      · simp only [Limit.run, Spec.items, List.take_succ_cons, Spec.window, h1]
      · rcases h2 with h | ⟨f, hf, hle⟩
        · exact Or.inl (by simp [h])
        · refine Or.inr ⟨f, hf, ?_⟩
          exact hle
    | data rows =>
      unfold Limit.run Limit.skipBatch
      by_cases hs0 : l.skip = 0
      · simp only [hs0, if_true]
        cases hf : l.fetch with
        | none =>
          obtain ⟨n, h1, h2⟩ := ih l
          refine ⟨n + 1, ?_, ?_⟩
          · simp only [Limit.fetchBatch, hf, List.take_succ_cons, items_cons_data]
            rw [window_fetch, h1, hs0, hf]
            rfl
          · rcases h2 with h | ⟨f, hf', _⟩
            · exact Or.inl (by simp [h])
            · rw [hf] at hf'; cases hf'
        | some f =>
          simp only [Limit.fetchBatch, hf]
          by_cases hfl : f ≥ rows.length
          · simp only [hfl, if_true]
            obtain ⟨n, h1, h2⟩ := ih { l with fetch := some (f - rows.length) }
            refine ⟨n + 1, ?_, ?_⟩
            · simp only [List.take_succ_cons, items_cons_data]
              rw [window_fetch, h1]
              simp only [hs0, takeOpt, List.take_of_length_le hfl, Option.map_some]
            · rcases h2 with h | ⟨f', hf', hle⟩
              · exact Or.inl (by simp [h])
              · right
                refine ⟨f, rfl, ?_⟩
                simp only [Option.some.injEq] at hf'
                simp only [List.take_succ_cons, items_cons_data, rows_append, rows_map_inl,
                  List.length_append]
                simp only at hle
                omega
          · simp only [hfl, if_false]
            by_cases hfp : f > 0
            · simp only [hfp, if_true]
              obtain ⟨n, h1, h2⟩ := ih { l with fetch := some 0 }
              refine ⟨n + 1, ?_, ?_⟩
              · simp only [List.take_succ_cons, items_cons_data]
                rw [window_fetch, h1]
                simp only [hs0, takeOpt, Option.map_some]
                rw [show f - rows.length = 0 by omega]
              · right
                refine ⟨f, rfl, ?_⟩
                simp only [List.take_succ_cons, items_cons_data, rows_append, rows_map_inl,
                  List.length_append]
                omega
            · simp only [hfp, if_false]
              refine ⟨0, by simp [Spec.items, Spec.window], Or.inr ⟨f, rfl, ?_⟩⟩
              simp; omega
      · simp only [hs0, if_false]
        by_cases hle : rows.length ≤ l.skip
        · simp only [hle, if_true]
          obtain ⟨n, h1, h2⟩ := ih { l with skip := l.skip - rows.length }
          refine ⟨n + 1, ?_, ?_⟩
          · simp only [List.take_succ_cons, items_cons_data]
            rw [window_skip_all _ _ _ _ hle, h1]
          · rcases h2 with h | ⟨f', hf', hle'⟩
            · exact Or.inl (by simp [h])
            · right
              refine ⟨f', hf', ?_⟩
              simp only [List.take_succ_cons, items_cons_data, rows_append, rows_map_inl,
                List.length_append]
              simp only at hle'
              omega
        · simp only [hle, if_false]
          have hdl : (rows.drop l.skip).length = rows.length - l.skip := List.length_drop ..
          cases hf : l.fetch with
          | none =>
            obtain ⟨n, h1, h2⟩ := ih { l with skip := 0 }
            refine ⟨n + 1, ?_, ?_⟩
            · simp only [Limit.fetchBatch, hf, List.take_succ_cons, items_cons_data]
              rw [window_skip_some _ _ _ _ (by omega), window_fetch]
              simp only [hf] at h1
              rw [h1]
              rfl
            · rcases h2 with h | ⟨f, hf', _⟩
              · exact Or.inl (by simp [h])
              · simp only [hf] at hf'; cases hf'
          | some f =>
            simp only [Limit.fetchBatch, hf]
            by_cases hfl : f ≥ (rows.drop l.skip).length
            · simp only [hfl, if_true]
              obtain ⟨n, h1, h2⟩ := ih { skip := 0, fetch := some (f - (rows.drop l.skip).length) }
              refine ⟨n + 1, ?_, ?_⟩
              · simp only [List.take_succ_cons, items_cons_data]
                rw [window_skip_some _ _ _ _ (by omega), window_fetch, h1]
                simp only [takeOpt, List.take_of_length_le hfl, Option.map_some]
              · rcases h2 with h | ⟨f', hf', hle'⟩
                · exact Or.inl (by simp [h])
                · right
                  refine ⟨f, rfl, ?_⟩
                  simp only [Option.some.injEq] at hf'
                  simp only [List.take_succ_cons, items_cons_data, rows_append, rows_map_inl,
                    List.length_append]
                  simp only at hle'
                  omega
            · simp only [hfl, if_false]
              by_cases hfp : f > 0
              · simp only [hfp, if_true]
                obtain ⟨n, h1, h2⟩ := ih { skip := 0, fetch := some 0 }
                refine ⟨n + 1, ?_, ?_⟩
                · simp only [List.take_succ_cons, items_cons_data]
                  rw [window_skip_some _ _ _ _ (by omega), window_fetch, h1]
                  simp only [takeOpt, Option.map_some]
                  rw [show f - (rows.drop l.skip).length = 0 by omega]
                · right
                  refine ⟨f, rfl, ?_⟩
                  simp only [List.take_succ_cons, items_cons_data, rows_append, rows_map_inl,
                    List.length_append]
                  omega
              · simp only [hfp, if_false]
                have hf0 : f = 0 := by omega
                subst hf0
                refine ⟨1, ?_, Or.inr ⟨0, rfl, ?_⟩⟩
                · simp only [List.take_succ_cons, items_cons_data]
                  rw [window_skip_some _ _ _ _ (by omega), window_fetch]
                  simp [Spec.items, Spec.window, takeOpt]
                · simp only [List.take_succ_cons, items_cons_data, rows_append, rows_map_inl,
                    List.length_append]
                  omega

/-- C27: the rows emitted are exactly rows `skip .. skip + fetch` of the input, in order and with
their retraction flags, however rows are grouped in events. -/
theorem C27_rows_are_the_window (skip : Nat) (fetch : Option Nat) (es : List (Event α μ)) :
    Spec.rows (Spec.items ((⟨skip, fetch⟩ : Limit).run es)) =
      takeOpt fetch ((Spec.rows (Spec.items es)).drop skip) := by
  obtain ⟨n, h1, h2⟩ := limit_spec ⟨skip, fetch⟩ es
  rw [h1, window_rows]
  have hsplit : Spec.items es = Spec.items (es.take n) ++ Spec.items (es.drop n) := by
    have : ∀ a b : List (Event α μ), Spec.items (a ++ b) = Spec.items a ++ Spec.items b := by
      intro a b
      induction a with
      | nil => rfl
      | cons e a ih => cases e <;> simp [Spec.items, ih]
    rw [← this, List.take_append_drop]
  rcases h2 with h | ⟨f, hf, hle⟩
  · rw [h, List.take_length]
  · simp only at hf hle ⊢
    subst hf
    rw [hsplit, rows_append]
    simp only [takeOpt]
    rw [List.drop_append_of_le_length (by omega), List.take_append_of_le_length]
    rw [List.length_drop]; omega

/-- C27: up to the cut-off nothing else is lost: the output is the input up to some event with only
the rows outside the window removed (all markers are kept, in their place), and the input is cut
off only after the window is full. -/
theorem C27_markers_are_forwarded (skip : Nat) (fetch : Option Nat) (es : List (Event α μ)) :
    ∃ n, Spec.items ((⟨skip, fetch⟩ : Limit).run es) =
        Spec.window skip fetch (Spec.items (es.take n)) ∧
      (n = es.length ∨ ∃ f, fetch = some f ∧
        skip + f ≤ (Spec.rows (Spec.items (es.take n))).length) :=
  limit_spec ⟨skip, fetch⟩ es

example : (⟨1, some 2⟩ : Limit).run [.data [(1, false)], .marker 'a', .data [(2, true), (3, false), (4, false)],
    .marker 'b', .data [(5, false)], .marker 'c'] =
    [.marker 'a', .data [(2, true), (3, false)], .marker 'b'] := by decide

/-! ## C28 -/

variable {β : Type}

/-- The encoded row of an item. -/
def toRow (enc : μ → β) : (α × Bool) ⊕ μ → ERow α β
  | .inl r => ⟨none, r.2, some r.1⟩
  | .inr m => ⟨some (enc m), false, none⟩

theorem encode_items (enc : μ → β) (es : List (Event α μ)) :
    es.flatMap (encode enc) = (Spec.items es).map (toRow enc) := by
  induction es with
  | nil => rfl
  | cons e es ih =>
    cases e with
    | data rows =>
      simp only [List.flatMap_cons, ih, encode, Spec.items, List.map_append, List.map_map]
      rfl
    | marker m =>
      simp only [List.flatMap_cons, ih, encode, Spec.items, List.map_cons]
      rfl

theorem toRow_inj (enc : μ → β) (dec : β → Option μ) (hd : ∀ m, dec (enc m) = some m)
    {a b : (α × Bool) ⊕ μ} (h : toRow enc a = toRow enc b) : a = b := by
  cases a with
  | inl x =>
    cases b with
    | inl y =>
      simp only [toRow, ERow.mk.injEq, Option.some.injEq, true_and] at h
      congr 1
      exact Prod.ext h.2 h.1
    | inr y => simp [toRow] at h
  | inr x =>
    cases b with
    | inl y => simp [toRow] at h
    | inr y =>
      simp only [toRow, ERow.mk.injEq, Option.some.injEq, and_true] at h
      have := hd x
      rw [h, hd y] at this
      rw [Option.some.inj this]

theorem items_pending (pending : List (α × Bool)) :
    Spec.items ((if pending = [] then [] else [Event.data pending]) : List (Event α μ)) =
      pending.map .inl := by
  split
  · rename_i h; subst h; rfl
  · simp [Spec.items]

theorem items_append (a b : List (Event α μ)) :
    Spec.items (a ++ b) = Spec.items a ++ Spec.items b := by
  induction a with
  | nil => rfl
  | cons e a ih => cases e <;> simp [Spec.items, ih]

theorem decodeLoop_items (enc : μ → β) (dec : β → Option μ) (hd : ∀ m, dec (enc m) = some m)
    (is : List ((α × Bool) ⊕ μ)) (pending : List (α × Bool)) :
    ∃ es, decodeLoop dec (is.map (toRow enc)) pending = some es ∧
      Spec.items es = pending.map .inl ++ is := by
  induction is generalizing pending with
  | nil => exact ⟨_, rfl, by rw [items_pending]; simp⟩
  | cons i is ih =>
    cases i with
    | inl r =>
      obtain ⟨es, h1, h2⟩ := ih (pending ++ [(r.1, r.2)])
      refine ⟨es, ?_, ?_⟩
      · simpa [decodeLoop, toRow] using h1
      · rw [h2]; simp
    | inr m =>
      obtain ⟨es, h1, h2⟩ := ih []
      refine ⟨(if pending = [] then [] else [Event.data pending]) ++ .marker m :: es, ?_, ?_⟩
      · simp only [List.map_cons, decodeLoop, toRow, hd, h1, Option.map_some]
      · rw [items_append, items_pending]
        simp [Spec.items, h2]

/-- C28: decoding returns the same markers and rows with the same retraction flags in the same
order, and never fails, however the encoded rows are re-batched in between.
Partial: requires at least one data column (`C28_no_column_fails`). `hd` is the round trip of one
marker (protobuf, not modelled). -/
theorem C28_round_trip_partial (enc : μ → β) (dec : β → Option μ) (hd : ∀ m, dec (enc m) = some m)
    (numColumns : Nat) (hc : 0 < numColumns) (es : List (Event α μ))
    (batches : List (List (ERow α β))) (hb : batches.flatten = es.flatMap (encode enc)) :
    ∃ es', decodeAll dec numColumns batches = some es' ∧ Spec.items es' = Spec.items es := by
  rw [encode_items] at hb
  generalize Spec.items es = is at hb
  induction batches generalizing is with
  | nil =>
    refine ⟨[], rfl, ?_⟩
    have : is.map (toRow enc) = [] := by simpa using hb.symm
    have := List.map_eq_nil_iff.mp this
    rw [this]; rfl
  | cons b bs ih =>
    rw [List.flatten_cons] at hb
    obtain ⟨is1, is2, rfl, h1, h2⟩ := List.map_eq_append_iff.mp hb.symm
    obtain ⟨es1, g1, g2⟩ := decodeLoop_items enc dec hd is1 []
    obtain ⟨es2, g3, g4⟩ := ih is2 h2.symm
    refine ⟨es1 ++ es2, ?_, ?_⟩
    · have hdec : decode dec numColumns b = some es1 := by
        unfold decode
        rw [if_neg (by omega), ← h1, g1]
      simp only [decodeAll, hdec, g3]
    · rw [items_append, g2, g4]; simp

/-- C28 is violated for streams without data columns (which `RecordBatch::try_new` rejects): any
batch, even one that only holds a marker, is a decoding error. -/
theorem C28_no_column_fails (dec : β → Option μ) (b : List (ERow α β)) (bs : List (List (ERow α β))) :
    decodeAll dec 0 (b :: bs) = none := by
  simp [decodeAll, decode]

example :
    let es : List (Event Nat Char) := [.data [(1, false), (2, true)], .marker 'w', .data [], .data [(3, false)]]
    let rows := es.flatMap (encode fun m => [m])
    decodeAll (fun | [m] => some m | _ => none) 1 [rows.take 1, rows.drop 1] =
      some [.data [(1, false)], .data [(2, true)], .marker 'w', .data [(3, false)]] := by decide

end Events

end Verif.Phys.Rows
