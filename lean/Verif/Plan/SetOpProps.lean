import Verif.Plan.SetOp

/-!
# C155: EXCEPT and unionByName give the rows they name
-/

namespace Verif.Plan.SetOp

namespace Spec

/-- Two names are the same but for their case. -/
def same (a b : String) : Prop := a.map Char.toLower = b.map Char.toLower

instance (a b : String) : Decidable (same a b) := inferInstanceAs (Decidable (_ = _))

/-- How often a list has an element. -/
def times {β : Type} [DecidableEq β] (x : β) : List β → Nat
  | [] => 0
  | y :: ys => (if y = x then 1 else 0) + times x ys

/-- There is a column of this name. -/
def has (names : List String) (m : String) : Prop := ∃ n ∈ names, same n m

/-- The value of a row under a name; `none` if there is no such column. -/
def value {α : Type} : List String → List (Option α) → String → Option (Option α)
  | n :: ns, v :: vs, m => if same n m then some v else value ns vs m
  | _, _, _ => none

/-- Each row has a value for each column. -/
def wf {α : Type} (t : Table α) : Prop := ∀ row ∈ t.rows, row.length = t.names.length

/-- No two columns have the same name. -/
def distinct (names : List String) : Prop := names.Pairwise fun a b => ¬ same a b

end Spec

section Except

variable {α : Type} [DecidableEq α]

theorem mem_number (a : α) (k : Nat) : ∀ l seen : List α,
    (a, k) ∈ number seen l ↔ seen.count a < k ∧ k ≤ seen.count a + l.count a := by
  intro l
  induction l with
  | nil =>
    intro seen
    simp only [number, List.not_mem_nil, List.count_nil, false_iff]
    omega
  | cons b l ih =>
    intro seen
    rw [number, List.mem_cons, ih]
    by_cases h : b = a
    · subst h
      simp only [Prod.mk.injEq, true_and, List.count_cons_self]
      omega
    · have h' : a ≠ b := fun e => h e.symm
      simp only [Prod.mk.injEq, h', false_and, false_or, List.count_cons, beq_iff_eq, h, if_false, Nat.add_zero]

theorem count_number (x : α) (c : α → Nat) : ∀ l seen : List α,
    List.count x (((number seen l).filter fun p => decide (c p.1 < p.2)).map Prod.fst)
      = (seen.count x + l.count x) - max (seen.count x) (c x) := by
  intro l
  induction l with
  | nil =>
    intro seen
    simp only [number, List.filter_nil, List.map_nil, List.count_nil]
    omega
  | cons b l ih =>
    intro seen
    have hi := ih (b :: seen)
    rw [number, List.filter_cons]
    by_cases h : b = x
    · subst h
      simp only [List.count_cons_self] at hi ⊢
      by_cases hc : c b < seen.count b + 1
      · simp only [hc, decide_true, if_true, List.map_cons, List.count_cons_self, hi]
        omega
      · simp only [hc, decide_false, Bool.false_eq_true, if_false, hi]
        omega
    · simp only [List.count_cons, beq_iff_eq, h, if_false, Nat.add_zero] at hi ⊢
      by_cases hc : c b < seen.count b + 1
      · simp only [hc, decide_true, if_true, List.map_cons, List.count_cons, beq_iff_eq, h, if_false, Nat.add_zero, hi]
      · simp only [hc, decide_false, Bool.false_eq_true, if_false, hi]

theorem number_pos (p : α × Nat) : ∀ l seen : List α, p ∈ number seen l → 0 < p.2 := by
  intro l seen h
  have := (mem_number p.1 p.2 l seen).1 h
  omega

theorem count_exceptAllRows (l r : List α) (x : α) : (exceptAllRows l r).count x = l.count x - r.count x := by
  have h : anti (number [] l) (number [] r) = (number [] l).filter fun p => decide (r.count p.1 < p.2) := by
    unfold anti
    apply List.filter_congr
    intro p hp
    have hpos := number_pos p l [] hp
    have hm := mem_number p.1 p.2 r []
    simp only [List.count_nil, Nat.zero_add] at hm
    rw [Bool.eq_iff_iff]
    simp only [Bool.not_eq_true', decide_eq_true_eq, decide_eq_false_iff_not]
    rw [hm]
    omega
  rw [exceptAllRows, h, count_number x (fun a => r.count a)]
  simp

theorem count_distinct (l : List α) (x : α) : (distinct l).count x = if x ∈ l then 1 else 0 := by
  induction l with
  | nil => simp [distinct]
  | cons a l ih =>
    rw [distinct]
    by_cases h : a = x
    · subst h
      rw [List.count_cons_self, List.count_eq_zero.2]
      · simp
      · simp
    · have h' : x ≠ a := fun e => h e.symm
      rw [List.count_cons_of_ne h, List.count_filter (by simpa using h'), ih]
      simp [h']

theorem count_exceptRows (l r : List α) (x : α) :
    (exceptRows l r).count x = if x ∈ l ∧ x ∉ r then 1 else 0 := by
  unfold exceptRows anti
  by_cases hr : x ∈ r
  · rw [List.count_eq_zero.2]
    · simp [hr]
    · simp [hr]
  · rw [List.count_filter (by simpa using hr), count_distinct]
    simp [hr]

theorem times_eq (x : α) (l : List α) : Spec.times x l = l.count x := by
  induction l with
  | nil => rfl
  | cons y ys ih =>
    rw [Spec.times, ih, List.count_cons, Nat.add_comm]
    simp

theorem times_exceptAllRows (l r l' r' : List α) (lo : l.Perm l') (ro : r.Perm r') (x : α) :
    Spec.times x (exceptAllRows l r) = Spec.times x l' - Spec.times x r' := by
  rw [times_eq, times_eq, times_eq, count_exceptAllRows, lo.count_eq, ro.count_eq]

theorem times_exceptRows (l r : List α) (x : α) :
    Spec.times x (exceptRows l r) = if x ∈ l ∧ x ∉ r then 1 else 0 := by
  rw [times_eq, count_exceptRows]

end Except

/-- C155: EXCEPT ALL of tables of the same width has each row as often as the left table has it more than the right one,
in whatever order the rows are numbered. -/
theorem C155_except_all {α : Type} [DecidableEq α] (left right : Table α) (width : left.names.length = right.names.length)
    (l r : List (List (Option α))) (lo : l.Perm left.rows) (ro : r.Perm right.rows) :
    ∃ t, except true { left with rows := l } { right with rows := r } = some t ∧ t.names = left.names
      ∧ ∀ row, Spec.times row t.rows = Spec.times row left.rows - Spec.times row right.rows := by
  refine ⟨⟨left.names, exceptAllRows l r⟩, by simp [except, width], rfl, ?_⟩
  intro row
  exact times_exceptAllRows l r _ _ lo ro row

/-- C155: EXCEPT of tables of the same width has once each row that the left table has and the right one does not. -/
theorem C155_except {α : Type} [DecidableEq α] (left right : Table α) (width : left.names.length = right.names.length) :
    ∃ t, except false left right = some t ∧ t.names = left.names
      ∧ ∀ row, Spec.times row t.rows = if row ∈ left.rows ∧ row ∉ right.rows then 1 else 0 := by
  refine ⟨⟨left.names, exceptRows left.rows right.rows⟩, by simp [except, width], rfl, ?_⟩
  intro row
  refine (times_exceptRows left.rows right.rows row).trans ?_
  by_cases h : row ∈ left.rows ∧ row ∉ right.rows
  · rw [if_pos h, if_pos h]
  · rw [if_neg h, if_neg h]

/-- C155: EXCEPT of tables of different width is refused. -/
theorem C155_except_refused {α : Type} [DecidableEq α] (all : Bool) (left right : Table α)
    (width : left.names.length ≠ right.names.length) : except all left right = none := by
  simp [except, width]

/-- Rows that occur several times, and NULL. -/
example : except true (⟨["a"], [[some 1], [none], [some 1], [some 1], [none], [some 2]]⟩ : Table Nat)
      ⟨["b"], [[some 1], [none], [some 3]]⟩ = some ⟨["a"], [[some 1], [some 1], [none], [some 2]]⟩
    ∧ except false (⟨["a"], [[some 1], [none], [some 2], [some 2]]⟩ : Table Nat) ⟨["b"], [[some 1], [none]]⟩
      = some ⟨["a"], [[some 2]]⟩
    ∧ except false (⟨["a"], [[some 1]]⟩ : Table Nat) ⟨["b", "c"], []⟩ = none := by
  decide +kernel

section Union

variable {α : Type}

theorem sameName_iff (a b : String) : sameName a b = true ↔ Spec.same a b := by
  simp [sameName, Spec.same]

theorem same_symm {a b : String} (h : Spec.same a b) : Spec.same b a := Eq.symm h

theorem same_trans {a b c : String} (h : Spec.same a b) (k : Spec.same b c) : Spec.same a c := Eq.trans h k

theorem value_isSome (m : String) : ∀ (ns : List String) (vs : List (Option α)), vs.length = ns.length →
    ((Spec.value ns vs m).isSome = true ↔ Spec.has ns m) := by
  intro ns
  induction ns with
  | nil =>
    intro vs _
    simp [Spec.value, Spec.has]
  | cons n ns ih =>
    intro vs h
    cases vs with
    | nil => simp at h
    | cons v vs =>
      rw [Spec.value]
      have := ih vs (by simpa using h)
      simp only [Spec.has, List.mem_cons, exists_eq_or_imp] at this ⊢
      by_cases hs : Spec.same n m
      · simp [hs]
      · simp only [hs, if_false, false_or]
        exact this

theorem value_append (m : String) (ns₂ : List String) (vs₂ : List (Option α)) :
    ∀ (ns : List String) (vs : List (Option α)), vs.length = ns.length →
    Spec.value (ns ++ ns₂) (vs ++ vs₂) m = (Spec.value ns vs m).or (Spec.value ns₂ vs₂ m) := by
  intro ns
  induction ns with
  | nil =>
    intro vs h
    rw [List.length_eq_zero_iff.1 h]
    simp [Spec.value]
  | cons n ns ih =>
    intro vs h
    cases vs with
    | nil => simp at h
    | cons v vs =>
      simp only [List.cons_append, Spec.value]
      by_cases hs : Spec.same n m
      · simp [hs]
      · simp only [hs, if_false]
        exact ih vs (by simpa using h)

theorem value_position (l m : String) (h : Spec.same l m) : ∀ (ns : List String) (vs : List (Option α)),
    vs.length = ns.length →
    ((position ns l).bind fun i => (vs[i]?).join) = (Spec.value ns vs m).getD none := by
  intro ns
  induction ns with
  | nil =>
    intro vs _
    simp [position, Spec.value]
  | cons n ns ih =>
    intro vs hl
    cases vs with
    | nil => simp at hl
    | cons v vs =>
      have hi := ih vs (by simpa using hl)
      unfold position at hi ⊢
      rw [List.findIdx?_cons, Spec.value]
      by_cases hs : Spec.same n m
      · have hsn : sameName l n = true := (sameName_iff _ _).2 (same_trans h (same_symm hs))
        simp [hs, hsn]
      · have hsn : sameName l n = false := by
          rw [← Bool.not_eq_true, sameName_iff]
          exact fun e => hs (same_trans (same_symm e) h)
        simp only [hsn, Bool.false_eq_true, if_false, hs]
        rw [← hi]
        cases List.findIdx? (fun n => sameName l n) ns <;> simp

theorem length_reordered (allow : Bool) (right : List String) : ∀ (ls : List String) (es : List (Option Nat)),
    reordered allow right ls = some es → es.length = ls.length := by
  intro ls
  induction ls with
  | nil =>
    intro es h
    simp only [reordered, Option.some.injEq] at h
    simp [← h]
  | cons l ls ih =>
    intro es h
    rw [reordered] at h
    by_cases hc : ((position right l).isSome || allow) = true
    · rw [if_pos hc, Option.map_eq_some_iff] at h
      obtain ⟨fs, hf, rfl⟩ := h
      simp [ih fs hf]
    · rw [if_neg hc] at h
      cases h

theorem value_reordered (allow : Bool) (right : List String) (row : List (Option α)) (hr : row.length = right.length)
    (m : String) : ∀ (ls : List String) (es : List (Option Nat)), reordered allow right ls = some es →
    Spec.has ls m → Spec.value ls (projectRow es row) m = some ((Spec.value right row m).getD none) := by
  intro ls
  induction ls with
  | nil =>
    intro es _ h
    obtain ⟨n, hn, _⟩ := h
    cases hn
  | cons l ls ih =>
    intro es h hh
    rw [reordered] at h
    by_cases hc : ((position right l).isSome || allow) = true
    · rw [if_pos hc, Option.map_eq_some_iff] at h
      obtain ⟨fs, hf, rfl⟩ := h
      simp only [projectRow, List.map_cons, Spec.value]
      by_cases hs : Spec.same l m
      · simp only [hs, if_true, value_position l m hs right row hr]
      · simp only [hs, if_false]
        apply ih fs hf
        obtain ⟨n, hn, hsn⟩ := hh
        rcases List.mem_cons.1 hn with rfl | hn
        · exact absurd hsn hs
        · exact ⟨n, hn, hsn⟩
    · rw [if_neg hc] at h
      cases h

theorem value_extra (left : List String) (m : String) (hl : ¬ Spec.has left m) (row : List (Option α)) :
    ∀ (right : List String) (k : Nat) (vs : List (Option α)), vs.length = right.length →
    (∀ i, row[k + i]? = vs[i]?) →
    Spec.value (((right.zipIdx k).filter fun p => !left.any fun l => sameName l p.1).map Prod.fst)
      (projectRow (((right.zipIdx k).filter fun p => !left.any fun l => sameName l p.1).map fun p => some p.2) row) m
      = Spec.value right vs m := by
  intro right
  induction right with
  | nil =>
    intro k vs _ _
    simp [Spec.value]
  | cons n ns ih =>
    intro k vs h hi
    cases vs with
    | nil => simp at h
    | cons v vs =>
      have h0 := hi 0
      simp only [Nat.add_zero, List.getElem?_cons_zero] at h0
      have hrec := ih (k + 1) vs (by simpa using h) (by
        intro i
        have := hi (i + 1)
        rw [List.getElem?_cons_succ] at this
        rw [← this]
        congr 1
        omega)
      rw [List.zipIdx_cons, List.filter_cons, Spec.value]
      by_cases hs : Spec.same n m
      · have hk : (!left.any fun l => sameName l n) = true := by
          rw [Bool.not_eq_true', ← Bool.not_eq_true, List.any_eq_true]
          rintro ⟨l, hm, hsl⟩
          exact hl ⟨l, hm, same_trans ((sameName_iff _ _).1 hsl) hs⟩
        simp only [hk, if_true, List.map_cons, projectRow, Spec.value, hs]
        simp [h0]
      · by_cases hk : (!left.any fun l => sameName l n) = true
        · simp only [hk, if_true, List.map_cons, projectRow, Spec.value, hs, if_false]
          simpa [projectRow] using hrec
        · rw [if_neg hk, if_neg hs]
          exact hrec

theorem value_nones {γ : Type} (m : String) (f : γ → String) (row : List (Option α)) : ∀ xs : List γ,
    Spec.has (xs.map f) m → Spec.value (xs.map f) (projectRow (xs.map fun _ => none) row) m = some none := by
  intro xs
  induction xs with
  | nil =>
    rintro ⟨n, hn, _⟩
    cases hn
  | cons x xs ih =>
    intro h
    simp only [List.map_cons, projectRow, Spec.value, Option.bind_none]
    by_cases hs : Spec.same (f x) m
    · simp [hs]
    · rw [if_neg hs]
      obtain ⟨n, hn, hsn⟩ := h
      rcases List.mem_cons.1 hn with rfl | hn
      · exact absurd hsn hs
      · exact ih ⟨n, hn, hsn⟩

theorem projectRow_id (row : List (Option α)) : projectRow ((List.range row.length).map some) row = row := by
  apply List.ext_getElem?
  intro i
  simp only [projectRow, List.getElem?_map]
  by_cases h : i < row.length
  · simp [h]
  · have : row.length ≤ i := by omega
    simp [this]

theorem projectRow_append (a b : List (Option Nat)) (row : List (Option α)) :
    projectRow (a ++ b) row = projectRow a row ++ projectRow b row := by
  simp [projectRow]

theorem has_extra (left right : List String) (m : String) (hl : ¬ Spec.has left m) :
    Spec.has ((extra left right).map Prod.fst) m ↔ Spec.has right m := by
  constructor
  · rintro ⟨n, hn, hs⟩
    obtain ⟨⟨a, i⟩, hp, rfl⟩ := List.mem_map.1 hn
    have hz := (List.mem_filter.1 hp).1
    exact ⟨a, by
      have := List.mem_zipIdx hz
      rw [this.2.2]
      exact List.getElem_mem _, hs⟩
  · rintro ⟨n, hn, hs⟩
    obtain ⟨i, hi, rfl⟩ := List.mem_iff_getElem.1 hn
    refine ⟨right[i], List.mem_map.2 ⟨(right[i], i), List.mem_filter.2 ⟨?_, ?_⟩, rfl⟩, hs⟩
    · rw [List.mk_mem_zipIdx_iff_getElem?]
      simp [hi]
    · rw [Bool.not_eq_true', ← Bool.not_eq_true, List.any_eq_true]
      rintro ⟨l, hm, hsl⟩
      exact hl ⟨l, hm, same_trans ((sameName_iff _ _).1 hsl) hs⟩

theorem has_append (a b : List String) (m : String) : Spec.has (a ++ b) m ↔ Spec.has a m ∨ Spec.has b m := by
  simp [Spec.has, or_and_right, exists_or]

end Union

/-- C155: unionByName has the rows of the left side and then those of the right side; under each column each row has the
value that its side has under this name, or NULL. -/
theorem C155_union_rows {α : Type} (allow : Bool) (left right t : Table α) (wl : Spec.wf left) (wr : Spec.wf right)
    (run : unionByName allow left right = some t) :
    t.rows.length = left.rows.length + right.rows.length ∧ Spec.wf t
      ∧ (∀ (i : Nat) (row : List (Option α)), left.rows[i]? = some row → ∃ out, t.rows[i]? = some out
        ∧ ∀ m, Spec.has t.names m → Spec.value t.names out m = some ((Spec.value left.names row m).getD none))
      ∧ (∀ (i : Nat) (row : List (Option α)), right.rows[i]? = some row → ∃ out, t.rows[left.rows.length + i]? = some out
        ∧ ∀ m, Spec.has t.names m → Spec.value t.names out m = some ((Spec.value right.names row m).getD none)) := by
  unfold unionByName at run
  rw [Option.map_eq_some_iff] at run
  obtain ⟨es, hes, rfl⟩ := run
  have hlen := length_reordered _ _ _ _ hes
  cases allow with
  | false =>
    simp only [Bool.false_eq_true, if_false]
    refine ⟨by simp, ?_, ?_, ?_⟩
    · intro row hrow
      rcases List.mem_append.1 hrow with h | h
      · exact wl row h
      · obtain ⟨r, _, rfl⟩ := List.mem_map.1 h
        simp [projectRow, hlen]
    · intro i row hi
      refine ⟨row, ?_, ?_⟩
      · have hlt := (List.getElem?_eq_some_iff.1 hi).1
        rw [List.getElem?_append_left hlt, hi]
      · intro m hm
        have := (value_isSome m left.names row (wl row (List.mem_of_getElem? hi))).2 hm
        obtain ⟨v, hv⟩ := Option.isSome_iff_exists.1 this
        simp [hv]
    · intro i row hi
      refine ⟨projectRow es row, ?_, ?_⟩
      · rw [List.getElem?_append_right (by omega)]
        simp [hi]
      · intro m hm
        exact value_reordered _ _ _ (wr row (List.mem_of_getElem? hi)) m _ _ hes hm
  | true =>
    simp only [if_true]
    refine ⟨by simp, ?_, ?_, ?_⟩
    · intro row hrow
      rcases List.mem_append.1 hrow with h | h
      · obtain ⟨r, _, rfl⟩ := List.mem_map.1 h
        simp [projectRow]
      · obtain ⟨r, _, rfl⟩ := List.mem_map.1 h
        simp [projectRow, hlen]
    · intro i row hi
      have hw := wl row (List.mem_of_getElem? hi)
      refine ⟨row ++ projectRow ((extra left.names right.names).map fun _ => none) row, ?_, ?_⟩
      · have hlt := (List.getElem?_eq_some_iff.1 hi).1
        rw [List.getElem?_append_left (by simpa using hlt), List.getElem?_map, hi, Option.map_some, projectRow_append,
          ← hw, projectRow_id]
      · intro m hm
        rw [value_append _ _ _ _ _ hw]
        by_cases hl : Spec.has left.names m
        · obtain ⟨v, hv⟩ := Option.isSome_iff_exists.1 ((value_isSome m left.names row hw).2 hl)
          simp [hv]
        · have hnone : Spec.value left.names row m = none := by
            rw [← Option.not_isSome_iff_eq_none, value_isSome m _ _ hw]
            exact hl
          rw [hnone, value_nones m Prod.fst row _ (((has_append _ _ _).1 hm).resolve_left hl)]
          rfl
    · intro i row hi
      have hw := wr row (List.mem_of_getElem? hi)
      refine ⟨projectRow es row ++ projectRow ((extra left.names right.names).map fun p => some p.2) row, ?_, ?_⟩
      · rw [List.getElem?_append_right (by simp), List.length_map, Nat.add_sub_cancel_left, List.getElem?_map, hi,
          Option.map_some, projectRow_append]
      · intro m hm
        rw [value_append _ _ _ _ _ (by simp [projectRow, hlen])]
        by_cases hl : Spec.has left.names m
        · rw [value_reordered _ _ _ hw m _ _ hes hl]
          rfl
        · have hnone : Spec.value left.names (projectRow es row) m = none := by
            rw [← Option.not_isSome_iff_eq_none, value_isSome m _ _ (by simp [projectRow, hlen])]
            exact hl
          have hx := value_extra left.names m hl row right.names 0 row hw (by simp)
          have hr := (has_extra _ _ _ hl).1 (((has_append _ _ _).1 hm).resolve_left hl)
          obtain ⟨v, hv⟩ := Option.isSome_iff_exists.1 ((value_isSome m right.names row hw).2 hr)
          rw [hnone, Option.none_or]
          unfold extra
          rw [hx, hv]
          rfl

/-- C155: with missing columns allowed unionByName is never refused; it has the columns of the left side and then the
further ones of the right side, none of them twice. -/
theorem C155_union_missing_allowed {α : Type} (left right : Table α) :
    ∃ t, unionByName true left right = some t
      ∧ (∃ more, t.names = left.names ++ more ∧ more.Sublist right.names)
      ∧ (∀ m, Spec.has t.names m ↔ Spec.has left.names m ∨ Spec.has right.names m)
      ∧ (Spec.distinct left.names → Spec.distinct right.names → Spec.distinct t.names) := by
  have hsome : ∀ ls : List String, ∃ es, reordered true right.names ls = some es := by
    intro ls
    induction ls with
    | nil => exact ⟨[], rfl⟩
    | cons l ls ih =>
      obtain ⟨es, he⟩ := ih
      exact ⟨position right.names l :: es, by simp [reordered, he]⟩
  obtain ⟨es, he⟩ := hsome left.names
  have hsub : ((extra left.names right.names).map Prod.fst).Sublist right.names := by
    have h := (List.filter_sublist (p := fun p : String × Nat => !left.names.any fun l => sameName l p.1)
      (l := right.names.zipIdx)).map Prod.fst
    rw [List.zipIdx_map_fst] at h
    exact h
  refine ⟨_, by rw [unionByName, he, Option.map_some, if_pos rfl], ⟨_, rfl, hsub⟩, ?_, ?_⟩
  · intro m
    rw [has_append]
    by_cases hl : Spec.has left.names m
    · simp [hl]
    · rw [has_extra _ _ _ hl]
  · intro dl dr
    refine List.pairwise_append.2 ⟨dl, List.Pairwise.sublist hsub dr, ?_⟩
    intro a ha b hb hs
    obtain ⟨p, hp, rfl⟩ := List.mem_map.1 hb
    have := (List.mem_filter.1 hp).2
    rw [Bool.not_eq_true', ← Bool.not_eq_true, List.any_eq_true] at this
    exact this ⟨a, ha, (sameName_iff _ _).2 hs⟩

theorem position_isSome (names : List String) (l : String) : (position names l).isSome = true ↔ Spec.has names l := by
  rw [position, List.findIdx?_isSome, List.any_eq_true]
  constructor
  · rintro ⟨n, hn, hs⟩
    exact ⟨n, hn, same_symm ((sameName_iff _ _).1 hs)⟩
  · rintro ⟨n, hn, hs⟩
    exact ⟨n, hn, (sameName_iff _ _).2 (same_symm hs)⟩

theorem reordered_false (right : List String) : ∀ ls : List String,
    (reordered false right ls).isSome = true ↔ ∀ l ∈ ls, Spec.has right l := by
  intro ls
  induction ls with
  | nil => simp [reordered]
  | cons l ls ih =>
    rw [reordered, Bool.or_false]
    by_cases h : (position right l).isSome = true
    · rw [if_pos h, Option.isSome_map, ih]
      simp [(position_isSome right l).1 h]
    · rw [if_neg h]
      have h' : ¬ Spec.has right l := fun e => h ((position_isSome right l).2 e)
      simp [h']

/-- C155: with missing columns not allowed unionByName is refused when the right side misses a column of the left side,
and else has the columns of the left side. Missing: the refusal when the right side has a further column, which Sail
drops instead (`C155_union_extra_dropped`). -/
theorem C155_union_refused_partial {α : Type} (left right : Table α) :
    ((∃ n ∈ left.names, ¬ Spec.has right.names n) → unionByName false left right = none)
      ∧ ((∀ n ∈ left.names, Spec.has right.names n) →
        ∃ t, unionByName false left right = some t ∧ t.names = left.names) := by
  constructor
  · rintro ⟨n, hn, hm⟩
    rw [unionByName, Option.map_eq_none_iff, ← Option.not_isSome_iff_eq_none, reordered_false]
    exact fun h => hm (h n hn)
  · intro h
    obtain ⟨es, he⟩ := Option.isSome_iff_exists.1 ((reordered_false right.names left.names).2 h)
    exact ⟨⟨left.names, left.rows ++ right.rows.map (projectRow es)⟩, by
      rw [unionByName, he, Option.map_some, if_neg (by decide)], rfl⟩

/-- C155: with missing columns not allowed a further column of the right side is dropped without an error, where Spark
refuses the union. -/
theorem C155_union_extra_dropped : ∃ left right t : Table Nat, Spec.wf left ∧ Spec.wf right
    ∧ unionByName false left right = some t ∧ ∃ m, Spec.has right.names m ∧ ¬ Spec.has t.names m := by
  refine ⟨⟨["a"], [[some 1]]⟩, ⟨["b", "a"], [[some 2, some 3]]⟩, ⟨["a"], [[some 1], [some 3]]⟩, ?_, ?_, by decide +kernel,
    "b", ⟨"b", by simp, rfl⟩, ?_⟩
  · intro row h
    simp at h
    simp [h]
  · intro row h
    simp at h
    simp [h]
  · rintro ⟨n, hn, hs⟩
    simp at hn
    subst hn
    revert hs
    decide +kernel

/-- C155: two columns of the same name on the left both take the first such column of the right, where Spark refuses the
union; the second of them is lost. -/
theorem C155_union_repeated : ∃ left right t : Table Nat, Spec.wf left ∧ Spec.wf right
    ∧ left.names = right.names ∧ unionByName false left right = some t
    ∧ ∃ row ∈ right.rows, row ∉ t.rows := by
  refine ⟨⟨["a", "a"], []⟩, ⟨["a", "a"], [[some 1, some 2]]⟩, ⟨["a", "a"], [[some 1, some 1]]⟩, ?_, ?_, rfl,
    by decide +kernel, [some 1, some 2], by simp, by simp⟩
  · intro row h
    simp at h
  · intro row h
    simp at h
    simp [h]

/-- Columns in another order and case, and columns that one side misses. -/
example : unionByName true (⟨["a", "B", "c"], [[some 1, some 2, none]]⟩ : Table Nat)
      ⟨["b", "d", "A"], [[some 5, some 6, some 7]]⟩
      = some ⟨["a", "B", "c", "d"], [[some 1, some 2, none, none], [some 7, some 5, none, some 6]]⟩
    ∧ unionByName false (⟨["a", "B"], [[some 1, some 2]]⟩ : Table Nat) ⟨["b", "A"], [[some 5, some 6]]⟩
      = some ⟨["a", "B"], [[some 1, some 2], [some 6, some 5]]⟩
    ∧ unionByName false (⟨["a", "B"], [[some 1, some 2]]⟩ : Table Nat) ⟨["b", "d"], [[some 5, some 6]]⟩ = none := by
  decide +kernel

end Verif.Plan.SetOp
