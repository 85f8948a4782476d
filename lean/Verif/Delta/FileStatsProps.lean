import Verif.Delta.FileStatsLemmas

/-!
# C121: the statistics written for a Delta data file enclose its values
-/

namespace Verif.Delta.FileStats

namespace Spec

/-- A row group: the values of the column, `none` for null, and what Parquet records. -/
structure Group (V R : Type) where
  values : List (Option V)
  raw : Option (Raw R)

/-- Parquet recorded two bounds that can be read and enclose the values of the group. -/
def Group.bounded {V R : Type} (lt : V → V → Bool) (read : R → Option V) (g : Group V R) : Prop :=
  ∃ s a b lo hi, g.raw = some s ∧ s.min = some a ∧ s.max = some b ∧ read a = some lo ∧ read b = some hi ∧
    ∀ v, some v ∈ g.values → lt v lo = false ∧ lt hi v = false

/-- The bounds that Parquet recorded, if it did, enclose the values of the group. -/
def Group.notWrong {V R : Type} (lt : V → V → Bool) (read : R → Option V) (g : Group V R) : Prop :=
  ∀ s a b lo hi, g.raw = some s → s.min = some a → s.max = some b → read a = some lo → read b = some hi →
    ∀ v, some v ∈ g.values → lt v lo = false ∧ lt hi v = false

/-- The bounds recorded for the file do not leave out a value. -/
def encloses {V : Type} (lt : V → V → Bool) (a : Option (Agg V)) (v : V) : Prop :=
  ∀ s, a = some s → (∀ lo, s.min = some lo → lt v lo = false) ∧ (∀ hi, s.max = some hi → lt hi v = false)

/-- Floating point numbers as far as needed: NaN is greater than every number, as in Spark. -/
inductive Num
  | num (i : Int)
  | nan
deriving DecidableEq, Repr

def Num.lt : Num → Num → Bool
  | .num a, .num b => a < b
  | .num _, .nan => true
  | .nan, _ => false

end Spec

/-- C121, part: if every row group that holds a value has bounds, and they can be read, the bounds
recorded for the file enclose every value. Missing: row groups without bounds
(`C121_group_without_bounds`). -/
theorem C121_bounds_enclose_partial {V R : Type} (lt : V → V → Bool)
    (asymm : ∀ a b, lt a b = true → lt b a = false)
    (neg : ∀ a b c, lt a b = false → lt b c = false → lt a c = false)
    (read : R → Option V) (gs : List (Spec.Group V R))
    (h : ∀ g ∈ gs, (∃ v, some v ∈ g.values) → g.bounded lt read) (g : Spec.Group V R) (hg : g ∈ gs) (v : V)
    (hv : some v ∈ g.values) :
    ∃ a lo hi, aggregate lt read (gs.map (·.raw)) = some a ∧ a.min = some lo ∧ a.max = some hi ∧
      lt v lo = false ∧ lt hi v = false := by
  obtain ⟨s, a, b, lo, hi, h1, h2, h3, h4, h5, h6⟩ := h g hg ⟨v, hv⟩
  obtain ⟨k1, k2⟩ := h6 v hv
  obtain ⟨x, hx, lo', hi', e1, e2, e3, e4⟩ := aggregate_enc lt asymm neg read (gs.map (·.raw)) s
    (h1 ▸ List.mem_map_of_mem hg) v
    (by simp only [Agg.ofRaw, h2, h3]; exact ⟨lo, hi, h4, h5, k1, k2⟩)
  exact ⟨x, lo', hi', hx, e1, e2, e3, e4⟩

theorem Spec.someGroups_ok : ∀ g ∈ [(⟨[some 3, none, some 7], some ⟨some 3, some 7, some 1⟩⟩ : Spec.Group Int Int),
      ⟨[none], some ⟨none, none, some 1⟩⟩, ⟨[some (-2)], some ⟨some (-2), some (-2), some 0⟩⟩],
    (∃ v, some v ∈ g.values) → g.bounded (fun a b => decide (a < b)) some := by
  intro g hg hv
  simp only [List.mem_cons, List.not_mem_nil, or_false] at hg
  rcases hg with rfl | rfl | rfl
  · exact ⟨_, _, _, _, _, rfl, rfl, rfl, rfl, rfl, by simp⟩
  · obtain ⟨v, hv⟩ := hv; simp at hv
  · exact ⟨_, _, _, _, _, rfl, rfl, rfl, rfl, rfl, by simp⟩

example : aggregate (fun a b => decide (a < b)) some
    [some ⟨some 3, some 7, some 1⟩, some ⟨none, none, some 1⟩, some ⟨some (-2), some (-2), some 0⟩] =
      some ⟨some (-2 : Int), some 7, 2⟩ ∧
    ∃ a lo hi, aggregate (fun a b => decide (a < b)) some
      [some ⟨some 3, some 7, some 1⟩, some ⟨none, none, some 1⟩, some ⟨some (-2), some (-2), some 0⟩] = some a ∧
      a.min = some lo ∧ a.max = some hi ∧ decide ((7 : Int) < lo) = false ∧ decide (hi < 7) = false :=
  ⟨by decide, C121_bounds_enclose_partial (fun a b => decide (a < b)) (by simp; omega) (by simp; omega) some _
    Spec.someGroups_ok _ List.mem_cons_self 7 (by simp)⟩

/-- C121 fails if a row group holds values but no bounds, which is so for a group of nothing but NaN:
the bounds of the other groups are recorded for the file, and a filter that only the values of that
group meet passes the file over. -/
theorem C121_group_without_bounds : ∃ gs : List (Spec.Group Spec.Num Spec.Num),
    (∀ g ∈ gs, g.notWrong Spec.Num.lt some) ∧
      ∃ g ∈ gs, ∃ v, some v ∈ g.values ∧ ¬ Spec.encloses Spec.Num.lt (aggregate Spec.Num.lt some (gs.map (·.raw))) v := by
  refine ⟨[⟨[some (.num 1)], some ⟨some (.num 1), some (.num 1), some 0⟩⟩, ⟨[some .nan], some ⟨none, none, some 0⟩⟩],
    ?_, _, List.mem_cons_of_mem _ List.mem_cons_self, .nan, List.mem_cons_self, ?_⟩
  · intro g hg
    simp only [List.mem_cons, List.not_mem_nil, or_false] at hg
    rcases hg with rfl | rfl
    · intro s a b lo hi h1 h2 h3 h4 h5 v hv
      cases h1; cases h2; cases h3; cases h4; cases h5
      simp only [List.mem_cons, List.not_mem_nil, or_false] at hv
      cases hv
      decide
    · intro s a b lo hi h1 h2
      cases h1; cases h2
  · intro h
    exact absurd ((h ⟨some (.num 1), some (.num 1), 0⟩ (by decide)).2 _ rfl) (by decide)

/-- C121, part: null counts add up over the row groups, if Parquet recorded one for each. -/
theorem C121_null_counts_add_up_partial {V R : Type} (lt : V → V → Bool) (read : R → Option V)
    (gs : List (Spec.Group V R)) (hne : gs ≠ [])
    (h : ∀ g ∈ gs, ∃ s, g.raw = some s ∧ s.nulls = some (g.values.filter (·.isNone)).length) :
    ∃ a, aggregate lt read (gs.map (·.raw)) = some a ∧
      a.nulls = ((gs.flatMap (·.values)).filter (·.isNone)).length := by
  have key : (((gs.map (·.raw)).filterMap id).map (Agg.ofRaw read)).map (·.nulls) =
      gs.map (fun g => (g.values.filter (·.isNone)).length) := by
    clear hne
    induction gs with
    | nil => rfl
    | cons g gs ih =>
      obtain ⟨s, h1, h2⟩ := h g List.mem_cons_self
      have hn : (Agg.ofRaw read s).nulls = s.nulls.getD 0 := by
        simp only [Agg.ofRaw]; split <;> rfl
      simp only [List.map_cons, h1, List.filterMap_cons, id, hn, h2, Option.getD_some,
        ih (fun g hg => h g (List.mem_cons_of_mem _ hg))]
  have sum : ((gs.flatMap (·.values)).filter (·.isNone)).length =
      (gs.map (fun g => (g.values.filter (·.isNone)).length)).sum := by
    clear key h hne
    induction gs with
    | nil => rfl
    | cons g gs ih => simp [ih]
  simp only [aggregate]
  revert key
  cases ((gs.map (·.raw)).filterMap id).map (Agg.ofRaw read) with
  | nil =>
    intro key
    cases gs with
    | nil => exact absurd rfl hne
    | cons g gs => cases key
  | cons a l =>
    intro key
    refine ⟨_, rfl, ?_⟩
    rw [fold_nulls, sum, ← key]
    simp

example : ∃ a, aggregate (fun a b => decide (a < b)) (some : Int → Option Int)
    [some ⟨some 3, some 7, some 1⟩, some ⟨none, none, some 2⟩] = some a ∧ a.nulls = 3 :=
  C121_null_counts_add_up_partial (fun a b => decide (a < b)) (some : Int → Option Int)
    [⟨[some 3, none, some 7], some ⟨some 3, some 7, some 1⟩⟩, ⟨[none, none], some ⟨none, none, some 2⟩⟩] (by simp)
    (by
      intro g hg
      simp only [List.mem_cons, List.not_mem_nil, or_false] at hg
      rcases hg with rfl | rfl <;> exact ⟨_, rfl, rfl⟩)

/-- C121 fails for a row group whose null count Parquet did not record: it counts as none. -/
theorem C121_missing_null_count (n : Nat) :
    aggregate (fun a b => decide (a < b)) (some : Int → Option Int) [some ⟨some 1, some 1, some n⟩, some ⟨none, none, none⟩] =
      some ⟨some 1, some 1, n⟩ := rfl

/-! ## Timestamps -/

theorem readTimestamp_eq (inRange : Int → Bool) (unit : TimeUnit) (v x : Int)
    (h : readTimestamp inRange unit v = some x) : x = v * unit.ns := by
  cases unit <;> simp only [readTimestamp] at h
  · split at h <;> cases h; rfl
  · split at h <;> cases h; rfl
  · split at h
    · cases h
    · split at h <;> cases h
      simp [TimeUnit.ns]

theorem le_widen (unit : TimeUnit) (x v : Int) (h : v ≤ x + widenBy unit) (hm : v ≤ 2 ^ 63 - 1) :
    v ≤ widen unit x := by
  simp only [widen, maxI64]
  omega

/-- C121, part: whatever their fractions of milliseconds, the values of a timestamp column are between
the two bounds that pruning sees, if Parquet recorded enclosing bounds for each row group with a value
and they can be read. Missing: bounds that cannot be read (`C121_nanoseconds_before_1970`). -/
theorem C121_timestamps_partial (inRange : Int → Bool) (unit : TimeUnit) (gs : List (Spec.Group Int Int))
    (h : ∀ g ∈ gs, (∃ v, some v ∈ g.values) → ∃ s a b, g.raw = some s ∧ s.min = some a ∧ s.max = some b ∧
      (readTimestamp inRange unit a).isSome ∧ (readTimestamp inRange unit b).isSome ∧
      ∀ v, some v ∈ g.values → a ≤ v ∧ v ≤ b)
    (g : Spec.Group Int Int) (hg : g ∈ gs) (v : Int) (hv : some v ∈ g.values) (hm : v ≤ 2 ^ 63 - 1) :
    ∃ a lo hi, aggregate (fun a b => decide (a < b)) (readTimestamp inRange unit) (gs.map (·.raw)) = some a ∧
      timestampBounds unit a = (some lo, some hi) ∧ lo ≤ v ∧ v ≤ hi := by
  obtain ⟨a, lo, hi, h1, h2, h3, h4, h5⟩ := C121_bounds_enclose_partial (fun a b => decide (a < b)) (by simp; omega)
    (by simp; omega) (readTimestamp inRange unit)
    (gs.map (fun g => ⟨g.values.map (·.map (· * unit.ns)), g.raw⟩)) (by
      intro g' hg' hv'
      obtain ⟨g, hg, rfl⟩ := List.mem_map.1 hg'
      obtain ⟨x, hx⟩ := hv'
      have : ∃ v, some v ∈ g.values := by
        obtain ⟨o, ho, e⟩ := List.mem_map.1 hx
        cases o with
        | none => cases e
        | some v => exact ⟨v, ho⟩
      obtain ⟨s, a, b, k1, k2, k3, k4, k5, k6⟩ := h g hg this
      obtain ⟨lo, k4⟩ := Option.isSome_iff_exists.1 k4
      obtain ⟨hi, k5⟩ := Option.isSome_iff_exists.1 k5
      refine ⟨s, a, b, lo, hi, k1, k2, k3, k4, k5, ?_⟩
      intro y hy
      obtain ⟨o, ho, e⟩ := List.mem_map.1 hy
      cases o with
      | none => cases e
      | some v =>
        cases e
        obtain ⟨q1, q2⟩ := k6 v ho
        rw [readTimestamp_eq _ _ _ _ k4, readTimestamp_eq _ _ _ _ k5]
        simp only [decide_eq_false_iff_not, Int.not_lt]
        cases unit <;> simp only [TimeUnit.ns] <;> omega)
    _ (List.mem_map_of_mem hg) (v * unit.ns) (List.mem_map.2 ⟨some v, hv, rfl⟩)
  simp only [decide_eq_false_iff_not, Int.not_lt] at h4 h5
  refine ⟨a, parseTimestamp unit (writeTimestamp lo), widen unit (parseTimestamp unit (writeTimestamp hi)), ?_, ?_, ?_, ?_⟩
  · rw [← h1, List.map_map]; rfl
  · simp [timestampBounds, h2, h3]
  · cases unit <;> simp only [parseTimestamp, writeTimestamp, TimeUnit.ns] at h4 ⊢ <;> omega
  · cases unit
    · exact le_widen .millis _ v (by simp only [parseTimestamp, writeTimestamp, TimeUnit.ns, widenBy] at h5 ⊢; omega) hm
    · exact le_widen .micros _ v (by simp only [parseTimestamp, writeTimestamp, TimeUnit.ns, widenBy] at h5 ⊢; omega) hm
    · exact le_widen .nanos _ v (by simp only [parseTimestamp, writeTimestamp, TimeUnit.ns, widenBy] at h5 ⊢; omega) hm

/-- Microseconds, one before 1970, in two row groups. -/
example : ∃ a lo hi, aggregate (fun a b => decide (a < b)) (readTimestamp (fun _ => true) .micros)
      [some ⟨some (-1500001), some (-1500001), some 0⟩, some ⟨some 7, some 1700000000123456, some 1⟩] = some a ∧
    timestampBounds .micros a = (some lo, some hi) ∧ lo ≤ 1700000000123456 ∧ 1700000000123456 ≤ hi :=
  C121_timestamps_partial (fun _ => true) .micros
    [⟨[some (-1500001)], some ⟨some (-1500001), some (-1500001), some 0⟩⟩,
      ⟨[some 7, none, some 1700000000123456], some ⟨some 7, some 1700000000123456, some 1⟩⟩] (by
      intro g hg _
      simp only [List.mem_cons, List.not_mem_nil, or_false] at hg
      rcases hg with rfl | rfl <;> exact ⟨_, _, _, rfl, rfl, rfl, rfl, rfl, by simp⟩)
    _ (List.mem_cons_of_mem _ List.mem_cons_self) _ (by simp) (by decide)

example : timestampBounds .micros ⟨some (-1500001000), some 1700000000123456000, 0⟩ =
    (some (-1501000), some 1700000000124000) := by decide

/-- C121: without the millisecond that is added the maximum would leave out values, so it is not
superfluous. -/
theorem C121_maximum_is_cut_off (v : Int) (h : v % 1000 ≠ 0) :
    parseTimestamp .micros (writeTimestamp (v * 1000)) < v := by
  simp only [parseTimestamp, writeTimestamp]
  omega

/-- C121 fails for timestamps in nanoseconds before 1970 that are no whole seconds: their bounds cannot
be read, and the bounds of another row group are recorded for the file. -/
theorem C121_nanoseconds_before_1970 (v : Int) (h0 : v < 0) (h1 : v.tmod 1000000000 ≠ 0) :
    aggregate (fun a b => decide (a < b)) (readTimestamp (fun _ => true) .nanos)
      [some ⟨some v, some v, some 0⟩, some ⟨some 0, some 0, some 0⟩] = some ⟨some 0, some 0, 0⟩ ∧
      v < 0 := by
  refine ⟨?_, h0⟩
  have : v.tmod 1000000000 < 0 := by
    have := Int.tmod_nonneg (a := -v) 1000000000 (by omega)
    rw [Int.neg_tmod] at this
    omega
  simp [aggregate, Agg.ofRaw, readTimestamp, this, Agg.add, minOf, maxOf]

example : aggregate (fun a b => decide (a < b)) (readTimestamp (fun _ => true) .nanos)
    [some ⟨some (-1), some (-1), some 0⟩, some ⟨some 0, some 0, some 0⟩] = some ⟨some 0, some 0, 0⟩ ∧ (-1 : Int) < 0 :=
  C121_nanoseconds_before_1970 (-1) (by decide) (by decide)

/-! ## Names -/

namespace Spec

/-- A column that is a list, or a list of lists and so on, of plain values. -/
def isList {V : Type} (l : Leaf V) : Prop :=
  ∃ a es, (∀ e ∈ es, e = "element" ∨ e = "item") ∧ es ≠ [] ∧
    l.path = a :: es.flatMap (fun e => ["list", e]) ∧ l.rep = es.length

/-- A column, or a field inside structs. -/
def isPlain {V : Type} (l : Leaf V) : Prop := l.path ≠ [] ∧ l.rep = 0

/-- Two leaves of one schema: neither is a field of the other, and a list is another column. -/
def different {V : Type} (l l' : Leaf V) : Prop :=
  Apart l.path l'.path ∧ (0 < l.rep ∨ 0 < l'.rep → l.path.head? ≠ l'.path.head?)

/-- The name of a column: the path of a field, the first of the path of a list. -/
def nameOf {V : Type} (l : Leaf V) : List String :=
  if l.rep = 0 then l.path else l.path.take 1

end Spec

theorem nameOf_ne_nil {V : Type} (l : Leaf V) (h : Spec.isPlain l ∨ Spec.isList l) : Spec.nameOf l ≠ [] := by
  rcases h with ⟨h, h0⟩ | ⟨a, es, _, hes, hp, hr⟩
  · simpa [Spec.nameOf, h0] using h
  · have : l.rep ≠ 0 := by rw [hr]; simpa using hes
    simp [Spec.nameOf, this, hp]

theorem apart_of_head {p q : List String} (h : p.head? ≠ q.head?) (hp : p ≠ []) (hq : q ≠ []) : Apart p q := by
  cases p with
  | nil => exact absurd rfl hp
  | cons a p =>
    cases q with
    | nil => exact absurd rfl hq
    | cons b q =>
      have hab : a ≠ b := fun e => h (by simp [e])
      exact ⟨fun h' => hab (List.cons_prefix_cons.1 h').1, fun h' => hab (List.cons_prefix_cons.1 h').1.symm⟩

theorem nameOf_apart {V : Type} (l l' : Leaf V) (h : Spec.isPlain l ∨ Spec.isList l) (h' : Spec.isPlain l' ∨ Spec.isList l')
    (hd : Spec.different l l') : Apart (Spec.nameOf l) (Spec.nameOf l') := by
  by_cases hr : l.rep = 0 ∧ l'.rep = 0
  · simpa [Spec.nameOf, hr.1, hr.2] using hd.1
  · have hh := hd.2 (by omega)
    have e : ∀ x : Leaf V, (Spec.nameOf x).head? = x.path.head? := by
      intro x
      simp only [Spec.nameOf]
      split
      · rfl
      · cases x.path <;> simp
    exact apart_of_head (by rw [e, e]; exact hh) (nameOf_ne_nil l h) (nameOf_ne_nil l' h')

/-- What is written for a leaf, as three insertions at its name. -/
theorem applyLeaf_eq {V : Type} (l : Leaf V) (h : Spec.isPlain l ∨ Spec.isList l) (m : Maps V) (a b : Dir V) (c : Dir Nat)
    (h1 : set (if l.rep = 0 then l.stats.min else none) (Spec.nameOf l) m.min = some a)
    (h2 : set (if l.rep = 0 then l.stats.max else none) (Spec.nameOf l) m.max = some b)
    (h3 : set (some l.stats.nulls) (Spec.nameOf l) m.nulls = some c) : applyLeaf l m = some ⟨a, b, c⟩ := by
  rcases h with ⟨h, h0⟩ | ⟨x, es, he, hes, hp, hr⟩
  · simp only [Spec.nameOf, h0, if_true] at h1 h2 h3
    simp only [applyLeaf, h0, Nat.lt_irrefl, if_false]
    exact applyAt_eq _ _ _ _ _ _ h1 h2 h3
  · have hn : l.rep ≠ 0 := by rw [hr]; simpa using hes
    simp only [Spec.nameOf, hn, if_false, hp, List.take_succ_cons, List.take_zero, set] at h1 h2 h3
    cases h1; cases h2; cases h3
    simp only [applyLeaf, Nat.pos_of_ne_zero hn, if_true]
    rw [hp, hr, listName_eq x es he]
    rfl

theorem applyAll_find {V : Type} (ls : List (Leaf V)) (h : ∀ l ∈ ls, Spec.isPlain l ∨ Spec.isList l)
    (hd : ls.Pairwise Spec.different) (m : Maps V)
    (hc : ∀ l ∈ ls, Clear (Spec.nameOf l) m.min ∧ Clear (Spec.nameOf l) m.max ∧ Clear (Spec.nameOf l) m.nulls) :
    ∃ m', applyAll ls m = some m' ∧
      (∀ l ∈ ls, m'.nulls.find (Spec.nameOf l) = some l.stats.nulls ∧
        m'.min.find (Spec.nameOf l) = (if l.rep = 0 then l.stats.min else none) ∧
        m'.max.find (Spec.nameOf l) = (if l.rep = 0 then l.stats.max else none)) ∧
      ∀ q, (∀ l ∈ ls, Apart (Spec.nameOf l) q) →
        m'.nulls.find q = m.nulls.find q ∧ m'.min.find q = m.min.find q ∧ m'.max.find q = m.max.find q := by
  induction ls generalizing m with
  | nil => exact ⟨m, rfl, by simp, fun q _ => ⟨rfl, rfl, rfl⟩⟩
  | cons l ls ih =>
    obtain ⟨c1, c2, c3⟩ := hc l List.mem_cons_self
    obtain ⟨a, a1, a2⟩ := set_find (if l.rep = 0 then l.stats.min else none) _ _ c1
    obtain ⟨b, b1, b2⟩ := set_find (if l.rep = 0 then l.stats.max else none) _ _ c2
    obtain ⟨c, d1, d2⟩ := set_find (some l.stats.nulls) _ _ c3
    have hl := h l List.mem_cons_self
    have e := applyLeaf_eq l hl m a b c a1 b1 d1
    have hap : ∀ l' ∈ ls, Apart (Spec.nameOf l) (Spec.nameOf l') := fun l' hl' =>
      nameOf_apart l l' hl (h l' (List.mem_cons_of_mem _ hl')) (List.rel_of_pairwise_cons hd hl')
    obtain ⟨m', k1, k2, k3⟩ := ih (fun x hx => h x (List.mem_cons_of_mem _ hx)) (List.Pairwise.of_cons hd) ⟨a, b, c⟩ (by
      intro l' hl'
      obtain ⟨q1, q2, q3⟩ := hc l' (List.mem_cons_of_mem _ hl')
      exact ⟨(set_other _ _ _ _ _ a1 (hap l' hl')).2 q1, (set_other _ _ _ _ _ b1 (hap l' hl')).2 q2,
        (set_other _ _ _ _ _ d1 (hap l' hl')).2 q3⟩)
    refine ⟨m', by simp only [applyAll, e, k1], ?_, ?_⟩
    · intro l' hl'
      rcases List.mem_cons.1 hl' with rfl | hl'
      · obtain ⟨r1, r2, r3⟩ := k3 (Spec.nameOf l') (fun x hx => ⟨(hap x hx).2, (hap x hx).1⟩)
        exact ⟨r1.trans d2, r2.trans a2, r3.trans b2⟩
      · exact k2 l' hl'
    · intro q hq
      have hq0 := hq l List.mem_cons_self
      obtain ⟨r1, r2, r3⟩ := k3 q (fun x hx => hq x (List.mem_cons_of_mem _ hx))
      exact ⟨r1.trans (set_other _ _ _ _ _ d1 hq0).1, r2.trans (set_other _ _ _ _ _ a1 hq0).1,
        r3.trans (set_other _ _ _ _ _ b1 hq0).1⟩

/-- C121, part: for a schema of plain columns, structs and lists of plain values, the statistics of
every column are recorded under its own name. Missing: maps (`C121_map_overwrites_null_count`,
`C121_map_makes_the_write_fail`). -/
theorem C121_recorded_under_own_name_partial {V : Type} (ls : List (Leaf V))
    (h : ∀ l ∈ ls, Spec.isPlain l ∨ Spec.isList l) (hd : ls.Pairwise Spec.different) :
    ∃ m, applyAll ls {} = some m ∧ ∀ l ∈ ls, m.nulls.find (Spec.nameOf l) = some l.stats.nulls ∧
      (l.rep = 0 → m.min.find l.path = l.stats.min ∧ m.max.find l.path = l.stats.max) := by
  obtain ⟨m, h1, h2, _⟩ := applyAll_find ls h hd {} (fun l hl =>
    ⟨clear_nil _ (nameOf_ne_nil l (h l hl)), clear_nil _ (nameOf_ne_nil l (h l hl)), clear_nil _ (nameOf_ne_nil l (h l hl))⟩)
  refine ⟨m, h1, fun l hl => ⟨(h2 l hl).1, ?_⟩⟩
  intro h0
  have := (h2 l hl).2
  simpa [Spec.nameOf, h0] using this

def Spec.someLeaves : List (Leaf Int) :=
  [⟨["a"], 0, ⟨some 1, some 5, 2⟩⟩, ⟨["s", "x"], 0, ⟨some 3, none, 4⟩⟩, ⟨["tags", "list", "element"], 1, ⟨some 0, some 0, 7⟩⟩,
    ⟨["s", "y", "z"], 0, ⟨none, some 9, 1⟩⟩, ⟨["list", "list", "item", "list", "item"], 2, ⟨none, none, 8⟩⟩]

example : ∃ m, applyAll Spec.someLeaves {} = some m ∧ ∀ l ∈ Spec.someLeaves,
    m.nulls.find (Spec.nameOf l) = some l.stats.nulls ∧
      (l.rep = 0 → m.min.find l.path = l.stats.min ∧ m.max.find l.path = l.stats.max) := by
  refine C121_recorded_under_own_name_partial _ ?_ ?_
  · intro l hl
    simp only [Spec.someLeaves, List.mem_cons, List.not_mem_nil, or_false] at hl
    rcases hl with rfl | rfl | rfl | rfl | rfl
    · exact .inl ⟨by simp, rfl⟩
    · exact .inl ⟨by simp, rfl⟩
    · exact .inr ⟨"tags", ["element"], by simp, by simp, rfl, rfl⟩
    · exact .inl ⟨by simp, rfl⟩
    · exact .inr ⟨"list", ["item", "item"], by simp, by simp, rfl, rfl⟩
  · simp [Spec.someLeaves, Spec.different, Apart, List.cons_prefix_cons]

/-- C121 fails for maps: the null count of the values of a map is recorded under the name of another
column, `value`, which held `n` nulls, so that a search for nulls in it passes the file over. -/
theorem C121_map_overwrites_null_count (n k : Nat) :
    (applyAll [(⟨["value"], 0, ⟨some (1 : Int), some 5, n⟩⟩ : Leaf Int), ⟨["m", "key_value", "key"], 1, ⟨some 1, some 1, 0⟩⟩,
        ⟨["m", "key_value", "value"], 1, ⟨some 1, some 1, k⟩⟩] {}).bind (·.nulls.find ["value"]) = some k := rfl

/-- C121 fails for maps: a table with a map and a struct called `value` after it cannot be written,
collecting the statistics panics. -/
theorem C121_map_makes_the_write_fail (a b c : Agg Int) :
    (applyAll [(⟨["m", "key_value", "key"], 1, a⟩ : Leaf Int), ⟨["m", "key_value", "value"], 1, b⟩,
        ⟨["value", "x"], 0, c⟩] {}).isNone = true := rfl

end Verif.Delta.FileStats
