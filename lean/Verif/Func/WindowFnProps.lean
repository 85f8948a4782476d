import Verif.Func.WindowFn
import Mathlib.Tactic.SplitIfs
import Mathlib.Tactic.Ring
/-!
# What `ntile`, `first_value` and `last_value` answer (C74)
-/
namespace Verif.Func.WindowFn

variable {α : Type}

/-! ## `ntile` -/

/-- The number of rows before bucket `b` (counted from 0). -/
def before (base extra b : Nat) : Nat := b * base + min b extra

theorem before_succ (base extra b : Nat) :
    before base extra (b + 1) = before base extra b + base + if b < extra then 1 else 0 := by
  unfold before
  rw [Nat.succ_mul]
  split <;> omega

theorem before_mono (base extra : Nat) {b c : Nat} (h : b ≤ c) :
    before base extra b ≤ before base extra c := by
  unfold before
  have := Nat.mul_le_mul_right base h
  omega

theorem before_bucket {base extra i : Nat} (hb : 0 < base) :
    before base extra (bucket base extra i) ≤ i ∧ i < before base extra (bucket base extra i + 1) := by
  rw [before_succ]
  unfold bucket before
  simp only
  split_ifs with h1 h2 h2
  · have a := Nat.div_mul_le_self i (base + 1)
    have c := Nat.lt_div_mul_add (b := base + 1) (a := i) (by omega)
    have e : i / (base + 1) * (base + 1) = i / (base + 1) * base + i / (base + 1) := by ring
    generalize i / (base + 1) * base = z at *
    omega
  · exfalso
    exact h2 ((Nat.div_lt_iff_lt_mul (by omega)).2 h1)
  · exact absurd h2 (Nat.not_lt.2 (Nat.le_add_right _ _))
  · have a := Nat.div_mul_le_self (i - extra * (base + 1)) base
    have c := Nat.lt_div_mul_add (b := base) (a := i - extra * (base + 1)) (by omega)
    have e : (extra + (i - extra * (base + 1)) / base) * base =
        extra * base + (i - extra * (base + 1)) / base * base := by ring
    have e2 : extra * (base + 1) = extra * base + extra := by ring
    generalize (i - extra * (base + 1)) / base * base = z at *
    omega

theorem bucket_eq_iff {base extra i b : Nat} (hb : 0 < base) :
    bucket base extra i = b ↔ before base extra b ≤ i ∧ i < before base extra (b + 1) := by
  have h := before_bucket (base := base) (extra := extra) (i := i) hb
  constructor
  · rintro rfl; exact h
  · rintro ⟨h1, h2⟩
    rcases Nat.lt_trichotomy (bucket base extra i) b with hlt | heq | hgt
    · have := before_mono base extra (b := bucket base extra i + 1) (c := b) hlt; omega
    · exact heq
    · have := before_mono base extra (b := b + 1) (c := bucket base extra i) hgt; omega

theorem count_interval (a c n : Nat) :
    ((List.range n).filter fun i => decide (a ≤ i ∧ i < c)).length = min n c - a := by
  induction n with
  | zero => simp
  | succ n ih =>
    rw [List.range_succ, List.filter_append, List.length_append, ih]
    by_cases h : a ≤ n ∧ n < c
    · simp [h]; omega
    · simp [h]; omega

/-- **C74**, `ntile(n)` over a partition: one number per row, in order from 1 to the smaller of `n`
and the number of rows; every number up to that occurs, on the average number of rows rounded up for
the first buckets and rounded down for the others. -/
theorem C74_ntile (n rows : Nat) (hn : 0 < n) :
    (ntile n rows).length = rows ∧
    (ntile n rows).Pairwise (· ≤ ·) ∧
    (∀ b ∈ ntile n rows, 1 ≤ b ∧ b ≤ min n rows) ∧
    (∀ b, 1 ≤ b → b ≤ min n rows →
      (ntile n rows).count b = rows / min n rows + if b ≤ rows % min n rows then 1 else 0) := by
  unfold ntile
  by_cases hr : rows = 0
  · subst hr
    simp
    intro b h1 h2; omega
  · rw [if_neg hr]
    simp only
    generalize hm : min n rows = m
    have hm0 : 0 < m := by omega
    have hle : m ≤ rows := by omega
    have hbase : 0 < rows / m := Nat.div_pos hle hm0
    have htotal : before (rows / m) (rows % m) m = rows := by
      unfold before
      have h2 := Nat.mod_lt rows hm0
      have h3 : min m (rows % m) = rows % m := by omega
      rw [h3]
      exact Nat.div_add_mod rows m
    refine ⟨by simp, ?_, ?_, ?_⟩
    · rw [List.pairwise_map]
      refine List.Pairwise.imp (R := (· < ·)) ?_ List.pairwise_lt_range
      intro i j hij
      have h1 := before_bucket (base := rows / m) (extra := rows % m) (i := i) hbase
      have h2 := before_bucket (base := rows / m) (extra := rows % m) (i := j) hbase
      rcases Nat.lt_or_ge (bucket (rows / m) (rows % m) j) (bucket (rows / m) (rows % m) i) with h | h
      · have := before_mono (rows / m) (rows % m) h
        simp only [Nat.succ_eq_add_one] at this
        omega
      · omega
    · intro b hb
      simp only [List.mem_map, List.mem_range] at hb
      obtain ⟨i, hi, rfl⟩ := hb
      refine ⟨by omega, ?_⟩
      have h1 := before_bucket (base := rows / m) (extra := rows % m) (i := i) hbase
      rcases Nat.lt_or_ge (bucket (rows / m) (rows % m) i) m with h | h
      · omega
      · have := before_mono (rows / m) (rows % m) h
        omega
    · intro b hb1 hb2
      obtain ⟨c, rfl⟩ : ∃ c, b = c + 1 := ⟨b - 1, by omega⟩
      rw [List.count_eq_length_filter, List.filter_map, List.length_map]
      have hf : ((fun x => x == c + 1) ∘ fun i => bucket (rows / m) (rows % m) i + 1) =
          fun i => decide (before (rows / m) (rows % m) c ≤ i ∧
            i < before (rows / m) (rows % m) (c + 1)) := by
        funext i
        have := bucket_eq_iff (base := rows / m) (extra := rows % m) (i := i) (b := c) hbase
        by_cases h : bucket (rows / m) (rows % m) i = c
        · simp [h, this.1 h]
        · have h' := mt this.2 h
          simp only [Function.comp_apply]
          rw [beq_eq_false_iff_ne.2 (by omega), decide_eq_false h']
      rw [hf, count_interval]
      have h1 := before_mono (rows / m) (rows % m) (b := c + 1) (c := m) (by omega)
      rw [before_succ] at h1 ⊢
      split_ifs at h1 ⊢ <;> omega

/-- The sizes of two buckets differ by at most one, and the larger come first. -/
theorem C74_ntile_sizes (n rows : Nat) (hn : 0 < n) {b c : Nat} (hb : 1 ≤ b) (hbc : b ≤ c)
    (hc : c ≤ min n rows) :
    (ntile n rows).count c ≤ (ntile n rows).count b ∧
    (ntile n rows).count b ≤ (ntile n rows).count c + 1 ∧
    1 ≤ (ntile n rows).count c := by
  have h := (C74_ntile n rows hn).2.2.2
  have hp : 0 < rows / min n rows := Nat.div_pos (by omega) (by omega)
  rw [h b hb (by omega), h c (by omega) hc]
  split_ifs <;> omega

/-- Exactly the positive integers are accepted. -/
theorem C74_ntile_arg (a : Arg) (n : Nat) : ntileArg a = .ok n ↔ a = .int n ∧ 0 < n := by
  cases a with
  | notLiteral => simp [ntileArg]
  | null => simp [ntileArg]
  | int k =>
    unfold ntileArg
    simp only [Arg.int.injEq]
    split_ifs with h
    · simp; omega
    · simp only [Except.ok.injEq]; omega

example : ntile 4 10 = [1, 1, 1, 2, 2, 2, 3, 3, 4, 4] := by decide
example : ntile 5 3 = [1, 2, 3] := by decide

/-! ## `first_value` and `last_value` -/

/-- The rows of a frame. -/
def Spec.frame (a : List (Option α)) (start stop : Nat) : List (Option α) :=
  (a.drop start).take (stop - start)

theorem validIndices_cons (o : Option α) (l : List (Option α)) :
    validIndices (o :: l) = (if o.isSome then [0] else []) ++ (validIndices l).map (· + 1) := by
  unfold validIndices
  rw [List.length_cons, List.range_succ_eq_map, List.filter_cons, List.filter_map]
  have : ((fun i => ((o :: l)[i]?.join).isSome) ∘ Nat.succ) = fun i => (l[i]?.join).isSome := by
    funext i; simp
  rw [this]
  cases o <;> simp

/-- The non-NULL values are those at the valid positions. -/
theorem validIndices_values (l : List (Option α)) :
    (validIndices l).map (fun i => l[i]?.join) = (l.filterMap id).map some := by
  induction l with
  | nil => rfl
  | cons o l ih =>
    rw [validIndices_cons]
    have e : ((validIndices l).map (· + 1)).map (fun i => (o :: l)[i]?.join) =
        (validIndices l).map (fun i => l[i]?.join) := by
      rw [List.map_map]; congr 1
    rw [List.map_append, e, ih]
    cases o <;> simp

theorem getElem_frame (a : List (Option α)) {start stop i : Nat} (h : start + i < stop) :
    (Spec.frame a start stop)[i]? = a[start + i]? := by
  unfold Spec.frame
  rw [List.getElem?_take, if_pos (by omega), List.getElem?_drop]

theorem mem_validIndices {l : List (Option α)} {i : Nat} (h : i ∈ validIndices l) : i < l.length := by
  unfold validIndices at h
  simp at h
  exact h.1

theorem frame_length (a : List (Option α)) {start stop : Nat} (_ : start ≤ stop)
    (h2 : stop ≤ a.length) : (Spec.frame a start stop).length = stop - start := by
  unfold Spec.frame
  simp; omega

/-- **C74**: `first_value` (`last_value`) over any frame is the first (last) value of the frame, and
with `IGNORE NULLS` the first (last) value that is not NULL; NULL when there is none. -/
theorem C74_first_last (kind : Kind) (ignoreNulls : Bool) (a : List (Option α)) (start stop : Nat)
    (h1 : start ≤ stop) (h2 : stop ≤ a.length) :
    evaluate kind ignoreNulls a start stop =
      let rows := Spec.frame a start stop
      let rows := if ignoreNulls then rows.filter Option.isSome else rows
      match kind with
      | .first => rows.head?.join
      | .last => rows.getLast?.join := by
  have hlen := frame_length a h1 h2
  have hsome : ∀ l : List (Option α), l.filter Option.isSome = (l.filterMap id).map some := by
    intro l
    induction l with
    | nil => rfl
    | cons o l ih => cases o <;> simp [ih]
  unfold evaluate
  by_cases he : start = stop
  · subst he
    have : Spec.frame a start start = [] := List.length_eq_zero_iff.1 (by omega)
    cases kind <;> cases ignoreNulls <;> simp [this]
  · rw [if_neg he]
    unfold validIndex
    simp only
    have hfr : (a.drop start).take (stop - start) = Spec.frame a start stop := rfl
    rw [hfr]
    have plain : (match (match kind with
          | .first => some start
          | .last => some (stop - 1) : Option Nat) with
        | none => (none : Option α)
        | some i => (a[i]?).join) = match kind with
          | .first => (Spec.frame a start stop).head?.join
          | .last => (Spec.frame a start stop).getLast?.join := by
      cases kind
      · simp only [List.head?_eq_getElem?]
        rw [getElem_frame a (by omega)]
        rfl
      · simp only [List.getLast?_eq_getElem?, hlen]
        rw [getElem_frame a (by omega)]
        congr 2
        omega
    by_cases hc : ignoreNulls && (Spec.frame a start stop).any Option.isNone
    · rw [if_pos hc]
      have hi : ignoreNulls = true := by simp at hc; exact hc.1
      simp only [hi, if_true]
      rw [hsome, ← validIndices_values]
      have key : ∀ i, i ∈ validIndices (Spec.frame a start stop) →
          (Spec.frame a start stop)[i]? = a[i + start]? := by
        intro i hi
        have := mem_validIndices hi
        rw [getElem_frame a (by omega), Nat.add_comm]
      cases kind
      · cases hv : validIndices (Spec.frame a start stop) with
        | nil => simp
        | cons i t =>
          have := key i (by rw [hv]; simp)
          simp [this]
      · rcases List.eq_nil_or_concat (validIndices (Spec.frame a start stop)) with hv | ⟨t, i, hv⟩
        · simp [hv]
        · have := key i (by rw [hv]; simp)
          rw [hv]
          simp [this]
    · rw [if_neg hc]
      refine plain.trans ?_
      cases hi : ignoreNulls with
      | false => simp
      | true =>
        rw [hi] at hc
        simp only [Bool.true_and, Bool.not_eq_true, List.any_eq_false] at hc
        have : (Spec.frame a start stop).filter Option.isSome = Spec.frame a start stop := by
          rw [List.filter_eq_self]
          intro o ho
          have := hc o ho
          cases o <;> simp_all
        simp [this]

/-- **C74**: reading a partition backwards with the reversed function changes nothing. -/
theorem C74_first_last_reverse (kind : Kind) (ignoreNulls : Bool) (a : List (Option α))
    (start stop : Nat) (h1 : start ≤ stop) (h2 : stop ≤ a.length) :
    evaluate (reverse kind) ignoreNulls a.reverse (a.length - stop) (a.length - start) =
      evaluate kind ignoreNulls a start stop := by
  rw [C74_first_last _ _ _ _ _ h1 h2, C74_first_last _ _ _ _ _ (by omega) (by simp)]
  have hf : Spec.frame a.reverse (a.length - stop) (a.length - start) =
      (Spec.frame a start stop).reverse := by
    have hl := frame_length a h1 h2
    have hl' := frame_length a.reverse (start := a.length - stop) (stop := a.length - start)
      (by omega) (by simp)
    apply List.ext_getElem?
    intro i
    by_cases hi : i < stop - start
    · rw [getElem_frame _ (by omega), List.getElem?_reverse (by omega),
        List.getElem?_reverse (by omega), hl, getElem_frame _ (by omega)]
      congr 1
      omega
    · rw [List.getElem?_eq_none (by omega), List.getElem?_eq_none (by simp; omega)]
  rw [hf]
  cases kind <;> cases ignoreNulls <;> simp [reverse]

example : evaluate .first true [none, none, some 3, some 4] 1 4 = some 3 := by decide
example : evaluate .last true [some 1, some 3, none, some 4] 0 3 = some 3 := by decide
example : evaluate .last false [some 1, some 3, none, some 4] 0 3 = none := by decide

end Verif.Func.WindowFn
