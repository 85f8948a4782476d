import Verif.Plan.Na

/-!
# C156: dropna and fillna act on exactly the missing values
-/

namespace Verif.Plan.Na

variable {β : Type}

namespace Spec

/-- Two names are the same but for their case. -/
def same (a b : String) : Prop := a.map Char.toLower = b.map Char.toLower

instance (a b : String) : Decidable (same a b) := inferInstanceAs (Decidable (_ = _))

/-- A column is among the chosen ones; no choice is all columns. -/
def chosen (columns : List String) (c : Col) : Prop := columns = [] ∨ ∃ n ∈ columns, same c.name n

instance (columns : List String) (c : Col) : Decidable (chosen columns c) :=
  inferInstanceAs (Decidable (_ ∨ _))

/-- NULL and NaN are missing values. -/
def missing (v : Val β) : Prop := v = .null ∨ v = .nan

instance (v : Val β) : Decidable (missing v) :=
  match v with
  | .null => .isTrue (.inl rfl)
  | .nan => .isTrue (.inr rfl)
  | .val _ => .isFalse (by rintro (h | h) <;> cases h)

/-- How many chosen columns have a value in a row. -/
def values (columns : List String) : List Col → List (Val β) → Nat
  | c :: cs, v :: vs => (if chosen columns c ∧ ¬ missing v then 1 else 0) + values columns cs vs
  | _, _ => 0

/-- How many columns are chosen. -/
def number (columns : List String) : List Col → Nat
  | [] => 0
  | c :: cs => (if chosen columns c then 1 else 0) + number columns cs

/-- A row has a value for each column, NaN only where the type has it. -/
def wf (schema : List Col) (row : List (Val β)) : Prop :=
  row.length = schema.length
    ∧ ∀ (i : Nat) (c : Col), schema[i]? = some c → row[i]? = some .nan → ∃ w, c.ty = .float w

end Spec

theorem matchesName_iff (a b : String) : matchesName a b = true ↔ Spec.same a b := by
  simp [matchesName, Spec.same]

theorem dropChosen_iff (columns : List String) (c : Col) : dropChosen columns c = true ↔ Spec.chosen columns c := by
  simp [dropChosen, Spec.chosen, matchesName_iff, List.any_eq_true]

theorem present_iff (ty : Ty) (v : Val β) (h : v = .nan → ∃ w, ty = .float w) :
    present ty v = true ↔ ¬ Spec.missing v := by
  cases v with
  | null => simp [present, notNull, Spec.missing]
  | nan =>
    obtain ⟨w, rfl⟩ := h rfl
    simp [present, notNull, isNan, Spec.missing]
  | val b => cases ty <;> simp [present, notNull, isNan, Spec.missing]

theorem isMissing_iff (ty : Ty) (v : Val β) (h : v = .nan → ∃ w, ty = .float w) :
    isMissing ty v = true ↔ Spec.missing v := by
  cases v with
  | null => simp [isMissing, notNull, Spec.missing]
  | nan =>
    obtain ⟨w, rfl⟩ := h rfl
    simp [isMissing, notNull, isNan, Spec.missing]
  | val b => cases ty <;> simp [isMissing, notNull, isNan, Spec.missing]

theorem wf_cons {c : Col} {cs : List Col} {v : Val β} {vs : List (Val β)} (h : Spec.wf (c :: cs) (v :: vs)) :
    (v = .nan → ∃ w, c.ty = .float w) ∧ Spec.wf cs vs := by
  refine ⟨fun e => h.2 0 c rfl (by simp [e]), by simpa using h.1, ?_⟩
  intro i d hi hv
  exact h.2 (i + 1) d (by simpa using hi) (by simpa using hv)

theorem count_presents (columns : List String) : ∀ (schema : List Col) (row : List (Val β)), Spec.wf schema row →
    (presents columns schema row).count true = Spec.values columns schema row
      ∧ (presents columns schema row).length = Spec.number columns schema := by
  intro schema
  induction schema with
  | nil =>
    intro row _
    simp [presents, Spec.values, Spec.number]
  | cons c cs ih =>
    intro row h
    cases row with
    | nil => simp [Spec.wf] at h
    | cons v vs =>
      obtain ⟨hv, hw⟩ := wf_cons h
      obtain ⟨h1, h2⟩ := ih vs hw
      have hp := present_iff c.ty v hv
      rw [presents, Spec.values, Spec.number]
      by_cases hc : dropChosen columns c = true
      · have hc' := (dropChosen_iff columns c).1 hc
        rw [if_pos hc]
        refine ⟨?_, by simp [h2, hc', Nat.add_comm]⟩
        by_cases hm : Spec.missing v
        · have : present c.ty v = false := by
            rw [← Bool.not_eq_true, hp]
            exact fun e => e hm
          simp [this, hm, h1]
        · simp [hp.2 hm, hc', hm, h1, Nat.add_comm]
      · have hc' : ¬ Spec.chosen columns c := fun e => hc ((dropChosen_iff columns c).2 e)
        rw [if_neg hc]
        simp [hc', h1, h2]

theorem foldl_count : ∀ (l : List Bool) (k : Nat),
    l.foldl (fun acc b => acc + if b then 1 else 0) k = k + l.count true := by
  intro l
  induction l with
  | nil => simp
  | cons b l ih =>
    intro k
    rw [List.foldl_cons, ih]
    cases b with
    | false => simp
    | true =>
      simp only [if_true, List.count_cons_self]
      omega

theorem all_count (l : List Bool) : (l.all fun b => b) = true ↔ l.count true = l.length := by
  rw [List.count_eq_length, List.all_eq_true]
  simp [eq_comm]

theorem any_chosen (columns : List String) (schema : List Col) :
    schema.any (dropChosen columns) = true ↔ ∃ c ∈ schema, Spec.chosen columns c := by
  simp [List.any_eq_true, dropChosen_iff]

/-- C156: without a threshold `dropna` keeps exactly the rows in which every chosen column has a value, in their
order. Missing: a name that is not a column is ignored (`C156_unknown_ignored`). -/
theorem C156_drop_any_partial (schema : List Col) (columns : List String) (rows : List (List (Val β)))
    (wf : ∀ r ∈ rows, Spec.wf schema r) (some_chosen : ∃ c ∈ schema, Spec.chosen columns c) :
    dropNa schema columns none rows
      = some (rows.filter fun r => decide (Spec.values columns schema r = Spec.number columns schema)) := by
  simp only [dropNa, if_pos ((any_chosen columns schema).2 some_chosen), Option.some.injEq]
  apply List.filter_congr
  intro r hr
  obtain ⟨h1, h2⟩ := count_presents columns schema r (wf r hr)
  rw [Bool.eq_iff_iff, all_count, h1, h2, decide_eq_true_eq]

/-- C156: with a threshold above zero `dropna` keeps exactly the rows with at least so many values in the chosen columns,
in their order. Missing: the threshold zero (`C156_threshold_zero`). -/
theorem C156_drop_threshold_partial (schema : List Col) (columns : List String) (n : Nat) (pos : 0 < n)
    (rows : List (List (Val β))) (wf : ∀ r ∈ rows, Spec.wf schema r) :
    dropNa schema columns (some n) rows
      = some (rows.filter fun r => decide (n ≤ Spec.values columns schema r)) := by
  simp only [dropNa, if_pos pos, Option.some.injEq]
  apply List.filter_congr
  intro r hr
  obtain ⟨h1, _⟩ := count_presents columns schema r (wf r hr)
  rw [foldl_count, Nat.zero_add, h1]

/-- C156: with the threshold zero rows are dropped although every row has at least zero values. -/
theorem C156_threshold_zero : ∃ (schema : List Col) (rows : List (List (Val Nat))) (row : List (Val Nat)),
    (∀ r ∈ rows, Spec.wf schema r) ∧ row ∈ rows
      ∧ ∃ kept, dropNa schema [] (some 0) rows = some kept ∧ row ∉ kept := by
  refine ⟨[⟨"a", .number 0⟩], [[.null]], [.null], ?_, by simp, [], by decide +kernel, by simp⟩
  intro r hr
  simp only [List.mem_singleton] at hr
  subst hr
  refine ⟨rfl, ?_⟩
  intro i c _ hn
  cases i <;> simp at hn

/-- C156: a name that is not a column is ignored; with a threshold `dropna` then drops all rows. -/
theorem C156_unknown_ignored (schema : List Col) (columns : List String) (n : Nat) (pos : 0 < n)
    (rows : List (List (Val β))) (unknown : ∀ c ∈ schema, ¬ Spec.chosen columns c) :
    dropNa schema columns (some n) rows = some [] ∧ dropNa schema columns none rows = none := by
  have hp : ∀ (cs : List Col) (r : List (Val β)), (∀ c ∈ cs, ¬ Spec.chosen columns c) → presents columns cs r = [] := by
    intro cs
    induction cs with
    | nil => intro r _; simp [presents]
    | cons c cs ih =>
      intro r h
      cases r with
      | nil => simp [presents]
      | cons v vs =>
        rw [presents, if_neg fun e => h c (by simp) ((dropChosen_iff columns c).1 e)]
        exact ih vs fun d hd => h d (by simp [hd])
  constructor
  · simp only [dropNa, if_pos pos, Option.some.injEq, List.filter_eq_nil_iff]
    intro r _
    rw [hp schema r unknown]
    simp only [List.foldl_nil, ge_iff_le, decide_eq_true_eq]
    omega
  · have : ¬ schema.any (dropChosen columns) = true := by
      rw [any_chosen]
      rintro ⟨c, hc, h⟩
      exact unknown c hc h
    simp [dropNa, this]

/-- NaN and NULL are missing; the column that is not chosen does not count. -/
example : dropNa (β := Nat) [⟨"a", .float 64⟩, ⟨"b", .number 0⟩, ⟨"c", .utf8⟩] ["A", "b"] none
      [[.val 1, .val 2, .null], [.nan, .val 2, .val 3], [.null, .null, .val 3]] = some [[.val 1, .val 2, .null]]
    ∧ dropNa (β := Nat) [⟨"a", .float 64⟩, ⟨"b", .number 0⟩, ⟨"c", .utf8⟩] ["A", "b"] (some 1)
      [[.val 1, .val 2, .null], [.nan, .val 2, .val 3], [.null, .null, .val 3]]
      = some [[.val 1, .val 2, .null], [.nan, .val 2, .val 3]] := by
  decide +kernel

/-- The given value of a column: the one value for all chosen columns, or the first that is given for its name. -/
def Spec.given (columns : List String) (values : List (Lit β)) (c : Col) (value : Lit β) : Prop :=
  (values = [value] ∧ Spec.chosen columns c)
    ∨ (2 ≤ values.length ∧ ∃ i : Nat, values[i]? = some value ∧ (∃ n, columns[i]? = some n ∧ Spec.same c.name n)
      ∧ ∀ j < i, ∀ n, columns[j]? = some n → ¬ Spec.same c.name n)

/-- The types that a value may fill: its own, the other string type, any numeric type for a numeric value; NULL fills
everything. -/
def Spec.accepts (value column : Ty) : Prop :=
  value = column ∨ value = .null ∨ column = .null
    ∨ (value = .utf8 ∧ column = .largeUtf8) ∨ (value = .largeUtf8 ∧ column = .utf8)
    ∨ (((∃ k, value = .number k) ∨ ∃ w, value = .float w) ∧ ((∃ k, column = .number k) ∨ ∃ w, column = .float w))

theorem canCast_iff (a b : Ty) : canCast a b = true ↔ Spec.accepts a b := by
  by_cases h : a = b
  · simp [canCast, h, Spec.accepts]
  · cases a <;> cases b <;> simp_all [canCast, Spec.accepts, Ty.isNumeric]

theorem find_zip (p : String → Bool) : ∀ (columns : List String) (values : List (Lit β)) (value : Lit β),
    values.length = columns.length →
    (((columns.zip values).find? fun q => p q.1).map Prod.snd = some value ↔
      ∃ i : Nat, values[i]? = some value ∧ (∃ n, columns[i]? = some n ∧ p n = true)
        ∧ ∀ j < i, ∀ n, columns[j]? = some n → ¬ p n = true) := by
  intro columns
  induction columns with
  | nil =>
    intro values value h
    simp
  | cons c cs ih =>
    intro values value h
    cases values with
    | nil => simp at h
    | cons v vs =>
      have hi := ih vs value (by simpa using h)
      rw [List.zip_cons_cons, List.find?_cons]
      cases hc : p c with
      | true =>
        simp only [Option.map_some, Option.some.injEq]
        constructor
        · rintro rfl
          exact ⟨0, by simp, ⟨c, by simp, hc⟩, fun j hj => absurd hj (Nat.not_lt_zero j)⟩
        · rintro ⟨i, hv, _, hlt⟩
          cases i with
          | zero => simpa using hv
          | succ i => exact absurd hc (hlt 0 (Nat.succ_pos i) c (by simp))
      | false =>
        simp only
        rw [hi]
        constructor
        · rintro ⟨i, hv, ⟨n, hn, hp⟩, hlt⟩
          refine ⟨i + 1, by simpa using hv, ⟨n, by simpa using hn, hp⟩, ?_⟩
          intro j hj m hm
          cases j with
          | zero =>
            simp only [List.getElem?_cons_zero, Option.some.injEq] at hm
            rw [← hm, hc]
            decide
          | succ j => exact hlt j (by omega) m (by simpa using hm)
        · rintro ⟨i, hv, ⟨n, hn, hp⟩, hlt⟩
          cases i with
          | zero =>
            simp only [List.getElem?_cons_zero, Option.some.injEq] at hn
            rw [← hn, hc] at hp
            cases hp
          | succ i =>
            refine ⟨i, by simpa using hv, ⟨n, by simpa using hn, hp⟩, ?_⟩
            intro j hj m hm
            exact hlt (j + 1) (by omega) m (by simpa using hm)

theorem valueFor_iff (columns : List String) (values : List (Lit β)) (s : Strategy β)
    (h : strategy columns values = some s) (c : Col) (value : Lit β) :
    valueFor s c = some value ↔ Spec.given columns values c value := by
  match values with
  | [] => simp [strategy] at h
  | [v] =>
    simp only [strategy] at h
    by_cases he : columns = []
    · simp only [he, List.isEmpty_nil, if_true, Option.some.injEq] at h
      subst h
      simp [valueFor, Spec.given, Spec.chosen, he]
    · have : columns.isEmpty = false := by simpa using he
      simp only [this, Bool.false_eq_true, if_false, Option.some.injEq] at h
      subst h
      have hany : (columns.any fun n => matchesName c.name n) = true ↔ Spec.chosen columns c := by
        simp [Spec.chosen, he, List.any_eq_true, matchesName_iff]
      simp only [valueFor, Spec.given]
      by_cases ha : (columns.any fun n => matchesName c.name n) = true
      · simp [ha, hany.1 ha]
      · have hn : ¬ Spec.chosen columns c := fun e => ha (hany.2 e)
        simp [ha, hn]
  | v :: w :: vs =>
    simp only [strategy] at h
    by_cases hb : (columns.isEmpty || (v :: w :: vs).length != columns.length) = true
    · rw [if_pos hb] at h
      cases h
    · rw [if_neg hb, Option.some.injEq] at h
      subst h
      have hl : (v :: w :: vs).length = columns.length := by
        simp only [Bool.or_eq_true, not_or, bne_iff_ne, ne_eq, Decidable.not_not] at hb
        exact hb.2
      rw [valueFor, find_zip (matchesName c.name) columns (v :: w :: vs) value hl]
      simp only [Spec.given, matchesName_iff]
      constructor
      · intro hx
        exact .inr ⟨by simp, hx⟩
      · rintro (⟨hx, _⟩ | ⟨_, hx⟩)
        · simp at hx
        · exact hx

/-- C156: `fillna` keeps all rows and columns; a missing value in a column that has a given value which its type accepts
becomes this value, converted, and every other value is kept. Missing: a value that cannot be converted to the type of the
column leaves NULL, and a name that is not a column is ignored (`C156_fill_unknown_ignored`). -/
theorem C156_fill_partial (cast : Ty → Lit β → Option β) (schema : List Col) (columns : List String)
    (values : List (Lit β)) (rows out : List (List (Val β))) (wf : ∀ r ∈ rows, Spec.wf schema r)
    (run : fillNa cast schema columns values rows = some out) :
    out.length = rows.length
      ∧ ∀ (i : Nat) (row : List (Val β)), rows[i]? = some row → ∃ row', out[i]? = some row' ∧ row'.length = row.length
        ∧ ∀ (j : Nat) (c : Col) (v : Val β), schema[j]? = some c → row[j]? = some v →
          (∀ value, Spec.given columns values c value → Spec.accepts value.ty c.ty → Spec.missing v →
            row'[j]? = some ((cast c.ty value).elim .null .val))
          ∧ ((¬ Spec.missing v ∨ ¬ ∃ value, Spec.given columns values c value ∧ Spec.accepts value.ty c.ty) →
            row'[j]? = some v) := by
  unfold fillNa at run
  rw [Option.map_eq_some_iff] at run
  obtain ⟨s, hs, rfl⟩ := run
  have hrow : ∀ (cs : List Col) (vs : List (Val β)), vs.length = cs.length →
      (fillRow cast s cs vs).length = vs.length ∧ ∀ (j : Nat) (c : Col) (v : Val β), cs[j]? = some c →
        vs[j]? = some v → (fillRow cast s cs vs)[j]? = some (fillValue cast s c v) := by
    intro cs
    induction cs with
    | nil =>
      intro vs h
      rw [List.length_eq_zero_iff.1 h]
      simp [fillRow]
    | cons c cs ih =>
      intro vs h
      cases vs with
      | nil => simp at h
      | cons v vs =>
        obtain ⟨h1, h2⟩ := ih vs (by simpa using h)
        refine ⟨by simp [fillRow, h1], ?_⟩
        intro j d w hd hw
        cases j with
        | zero =>
          simp only [List.getElem?_cons_zero, Option.some.injEq] at hd hw
          simp [fillRow, hd, hw]
        | succ j =>
          rw [fillRow, List.getElem?_cons_succ]
          exact h2 j d w (by simpa using hd) (by simpa using hw)
  refine ⟨by simp, ?_⟩
  intro i row hi
  have hw := wf row (List.mem_of_getElem? hi)
  obtain ⟨h1, h2⟩ := hrow schema row hw.1
  refine ⟨fillRow cast s schema row, by simp [hi], h1, ?_⟩
  intro j c v hc hv
  rw [h2 j c v hc hv]
  have hm := isMissing_iff c.ty v fun e => hw.2 j c hc (by rw [hv, e])
  constructor
  · intro value hg ha hmv
    rw [fillValue, (valueFor_iff columns values s hs c value).2 hg]
    simp only [(canCast_iff _ _).2 ha, hm.2 hmv, if_true, tryCast]
    cases cast c.ty value <;> rfl
  · intro h
    rw [fillValue]
    cases hf : valueFor s c with
    | none => rfl
    | some value =>
      have hg := (valueFor_iff columns values s hs c value).1 hf
      simp only
      by_cases hcc : canCast value.ty c.ty = true
      · rw [if_pos hcc]
        rcases h with h | h
        · rw [if_neg fun e => h (hm.1 e)]
        · exact absurd ⟨value, hg, (canCast_iff _ _).1 hcc⟩ h
      · rw [if_neg hcc]

/-- C156: `fillna` is refused exactly when no value is given, when several are given without names, or when the number of
names is another than that of the values. -/
theorem C156_fill_refused (cast : Ty → Lit β → Option β) (schema : List Col) (columns : List String)
    (values : List (Lit β)) (rows : List (List (Val β))) :
    fillNa cast schema columns values rows = none
      ↔ values = [] ∨ (2 ≤ values.length ∧ values.length ≠ columns.length) := by
  unfold fillNa
  rw [Option.map_eq_none_iff]
  match values with
  | [] => simp [strategy]
  | [v] => cases columns <;> simp [strategy]
  | v :: w :: vs => cases columns <;> simp [strategy]

/-- C156: `fillna` ignores a name that is not a column, where Spark refuses it. -/
theorem C156_fill_unknown_ignored : ∃ (schema : List Col) (columns : List String) (values : List (Lit Nat))
    (rows : List (List (Val Nat))), (∀ c ∈ schema, ¬ Spec.chosen columns c)
      ∧ fillNa (fun _ l => some l.value) schema columns values rows = some rows := by
  refine ⟨[⟨"a", .utf8⟩], ["b"], [⟨.utf8, 1⟩], [[.null]], ?_, by decide +kernel⟩
  intro c hc
  simp only [List.mem_singleton] at hc
  subst hc
  decide +kernel

/-- A number fills the numeric columns only; the second value is for the second name. -/
example : fillNa (β := Nat) (fun _ l => some l.value) [⟨"a", .float 64⟩, ⟨"b", .number 0⟩, ⟨"c", .utf8⟩] []
      [⟨.number 1, 9⟩] [[.nan, .null, .null], [.val 1, .val 2, .val 3]]
      = some [[.val 9, .val 9, .null], [.val 1, .val 2, .val 3]]
    ∧ fillNa (β := Nat) (fun _ l => some l.value) [⟨"a", .float 64⟩, ⟨"b", .number 0⟩, ⟨"c", .utf8⟩] ["C", "a"]
      [⟨.utf8, 8⟩, ⟨.number 1, 9⟩] [[.nan, .null, .null]] = some [[.val 9, .null, .val 8]] := by
  decide +kernel

end Verif.Plan.Na
