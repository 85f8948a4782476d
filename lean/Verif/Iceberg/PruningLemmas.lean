import Verif.Iceberg.Pruning
import Mathlib.Tactic.SplitIfs

/-! # Facts about the pruning of Iceberg scans -/

namespace Verif.Iceberg

open Spec

theorem cmpInt_swap (a b : Int) : cmpInt b a = (cmpInt a b).swap := by
  unfold cmpInt
  split_ifs <;> first | rfl | omega

theorem cmpList_swap' : ∀ a b : List Nat, cmpList b a = (cmpList a b).swap
  | [], [] => rfl
  | [], _ :: _ => rfl
  | _ :: _, [] => rfl
  | a :: as, b :: bs => by
    have ih := cmpList_swap' as bs
    simp only [cmpList]
    split_ifs <;> first | rfl | omega

theorem cmpBool_swap (a b : Bool) : cmpBool b a = (cmpBool a b).swap := by
  cases a <;> cases b <;> rfl

theorem specCmp_swap {a b : Scalar} {o : Ordering} (h : Spec.cmp a b = some o) :
    Spec.cmp b a = some o.swap := by
  cases a <;> cases b <;> first
    | (simp [Spec.cmp] at h; done)
    | (simp only [Spec.cmp, Option.some.injEq] at h ⊢
       subst h
       first | exact cmpInt_swap _ _ | exact cmpList_swap' _ _ | exact cmpBool_swap _ _)
    | (simp only [Spec.cmp] at h ⊢
       split at h
       · rename_i e
         rw [if_pos e.symm]
         simp only [Option.some.injEq] at h ⊢
         subst h
         exact cmpInt_swap _ _
       · simp at h)

theorem specCmp_eq {a b : Scalar} (h : Spec.cmp a b = some .eq) : a = b := by
  cases a <;> cases b <;> first
    | (simp [Spec.cmp] at h; done)
    | (simp only [Spec.cmp, Option.some.injEq] at h
       first
        | rw [cmpBool_eq] at h
        | rw [cmpInt_eq] at h
        | rw [cmpList_eq] at h
       first
        | rw [h]
        | (congr; omega))
    | (simp only [Spec.cmp] at h
       split at h
       · rename_i e
         simp only [Option.some.injEq] at h
         rw [cmpInt_eq] at h
         rw [h, e]
       · simp at h)

theorem specCmp_notNull {a b : Scalar} {o : Ordering} (h : Spec.cmp a b = some o) :
    a ≠ .null ∧ b ≠ .null := by
  constructor
  · rintro rfl; simp [Spec.cmp] at h
  · rintro rfl; cases a <;> simp [Spec.cmp] at h

theorem hasType_cmp {ty : PType} {a b : Scalar} {o : Ordering} (ha : HasType ty a)
    (hc : Spec.cmp a b = some o) (hb : InRange b) : HasType ty b := by
  cases a <;> cases b <;> first
    | (simp [Spec.cmp] at hc; done)
    | (cases ty <;> first | exact ha.elim | trivial | exact hb)
    | (simp only [Spec.cmp] at hc
       split at hc
       · rename_i e
         cases ty <;> first | exact ha.elim | exact e.symm.trans ha
       · simp at hc)

theorem strip_eval (E : Env) (row : Row) : ∀ e, noCast e = true → eval E row (strip e) = eval E row e
  | .cast _ _ => by simp [noCast]
  | .alias e => by
    intro h
    simp only [strip, eval]
    exact strip_eval E row e h
  | .col _ => fun _ => rfl
  | .lit _ => fun _ => rfl
  | .bin _ _ _ => fun _ => rfl
  | .inList _ _ _ => fun _ => rfl
  | .other _ => fun _ => rfl

theorem strip_lits : ∀ e, lits (strip e) = lits e
  | .cast e _ => by simp only [strip, lits]; exact strip_lits e
  | .alias e => by simp only [strip, lits]; exact strip_lits e
  | .col _ => rfl
  | .lit _ => rfl
  | .bin _ _ _ => rfl
  | .inList _ _ _ => rfl
  | .other _ => rfl

theorem fieldByName_some {sch : List Field} {n : String} {f : Field}
    (h : fieldByName sch n = some f) : f ∈ sch ∧ f.name = n := by
  unfold fieldByName at h
  refine ⟨List.mem_of_find?_eq_some h, ?_⟩
  have := List.find?_some h
  simpa using this

theorem fieldById_some {sch : List Field} {n : Nat} {f : Field}
    (h : fieldById sch n = some f) : f ∈ sch ∧ f.id = n := by
  unfold fieldById at h
  refine ⟨List.mem_of_find?_eq_some h, ?_⟩
  have := List.find?_some h
  simpa using this

theorem colLit_some {sch : List Field} {c : String} {s : Scalar} {x : Nat × Lit}
    (h : colLit sch c s = some x) :
    ∃ f ∈ sch, f.name = c ∧ f.id = x.1 ∧ toLit s = some x.2 := by
  unfold colLit at h
  split at h
  · rename_i f l hf hl
    obtain ⟨hm, hn⟩ := fieldByName_some hf
    simp only [Option.some.injEq] at h
    subst h
    exact ⟨f, hm, hn, rfl, hl⟩
  · simp at h

/-- A comparison that is true is a comparison of two values of one type. -/
theorem compareWith_true {t : Ordering → Bool} {a b : Scalar}
    (h : compareWith t a b = .bool true) : ∃ o, Spec.cmp a b = some o ∧ t o = true := by
  unfold compareWith at h
  split at h
  · rename_i o ho
    exact ⟨o, ho, by simpa using h⟩
  · simp at h

theorem and3_true {a b : Scalar} (h : and3 a b = .bool true) : a = .bool true ∧ b = .bool true := by
  unfold and3 at h
  split at h
  · assumption
  · split at h <;> simp at h

/-- What the code learns from the filters about a column: it compares so with a literal. -/
structure Fact (sch : List Field) (row : Row) (ls : List Scalar) (id : Nat) (l : Lit)
    (o : Ordering) : Prop where
  intro ::
  ex : ∃ f ∈ sch, f.id = id ∧ ∃ s ∈ ls, toLit s = some l ∧ Spec.cmp (row f.name) s = some o

theorem eqPair_fact {sch : List Field} {E : Env} {row : Row} {l r : Expr} {id : Nat} {x : Lit}
    (hm : (id, x) ∈ eqPair sch l r)
    (he : compareWith (· == .eq) (eval E row l) (eval E row r) = .bool true) :
    Fact sch row (lits l ++ lits r) id x .eq := by
  obtain ⟨o, ho, hto⟩ := compareWith_true he
  have ho' : o = .eq := by simpa using hto
  subst ho'
  unfold eqPair at hm
  split at hm
  · rename_i c s
    rw [Option.mem_toList] at hm
    obtain ⟨f, hf, hn, hi, hl⟩ := colLit_some hm
    refine ⟨⟨f, hf, hi, s, by simp [lits], hl, ?_⟩⟩
    rw [hn]; exact ho
  · rename_i s c
    rw [Option.mem_toList] at hm
    obtain ⟨f, hf, hn, hi, hl⟩ := colLit_some hm
    refine ⟨⟨f, hf, hi, s, by simp [lits], hl, ?_⟩⟩
    rw [hn]; exact specCmp_swap ho
  · simp at hm

theorem Fact.mono {sch : List Field} {row : Row} {ls ls' : List Scalar} {id : Nat} {l : Lit}
    {o : Ordering} (h : Fact sch row ls id l o) (hs : ∀ s ∈ ls, s ∈ ls') :
    Fact sch row ls' id l o := by
  obtain ⟨f, hf, hi, s, hm, hr⟩ := h.ex
  exact ⟨⟨f, hf, hi, s, hs s hm, hr⟩⟩

theorem visitEq_fact {sch : List Field} {E : Env} {row : Row} {id : Nat} {x : Lit} :
    ∀ e, noCast e = true → eval E row e = .bool true → (id, x) ∈ visitEq sch e →
      Fact sch row (lits e) id x .eq
  | .bin op l r => by
    intro hc he hm
    have hcl : noCast l = true := by simp [noCast] at hc; exact hc.1
    have hcr : noCast r = true := by simp [noCast] at hc; exact hc.2
    cases op
    case eq =>
      simp only [visitEq] at hm
      simp only [eval, evalOp] at he
      rw [← strip_eval E row l hcl, ← strip_eval E row r hcr] at he
      have := eqPair_fact hm he
      rw [strip_lits, strip_lits] at this
      exact this
    case and =>
      simp only [visitEq, List.mem_append] at hm
      simp only [eval, evalOp] at he
      obtain ⟨h1, h2⟩ := and3_true he
      rcases hm with hm | hm
      · exact (visitEq_fact l hcl h1 hm).mono (by simp [lits]; grind)
      · exact (visitEq_fact r hcr h2 hm).mono (by simp [lits]; grind)
    all_goals simp [visitEq] at hm
  | .col _ => by simp [visitEq]
  | .lit _ => by simp [visitEq]
  | .cast _ _ => by simp [visitEq]
  | .alias _ => by simp [visitEq]
  | .inList _ _ _ => by simp [visitEq]
  | .other _ => by simp [visitEq]

theorem visitIn_fact {sch : List Field} {E : Env} {row : Row} {id : Nat} {ls : List Lit} :
    ∀ e, noCast e = true → inListsOk e → eval E row e = .bool true → (id, ls) ∈ visitIn sch e →
      ls ≠ [] → ∃ x ∈ ls, Fact sch row (lits e) id x .eq
  | .bin op l r => by
    intro hc hk he hm hne
    have hcl : noCast l = true := by simp [noCast] at hc; exact hc.1
    have hcr : noCast r = true := by simp [noCast] at hc; exact hc.2
    cases op
    case and =>
      simp only [visitIn, List.mem_append] at hm
      simp only [eval, evalOp] at he
      obtain ⟨h1, h2⟩ := and3_true he
      rcases hm with hm | hm
      · obtain ⟨x, hx, hf⟩ := visitIn_fact l hcl hk.1 h1 hm hne
        exact ⟨x, hx, hf.mono (by simp [lits]; grind)⟩
      · obtain ⟨x, hx, hf⟩ := visitIn_fact r hcr hk.2 h2 hm hne
        exact ⟨x, hx, hf.mono (by simp [lits]; grind)⟩
    all_goals simp [visitIn] at hm
  | .inList e items n => by
    intro hc hk he hm hne
    cases n
    case true => simp [visitIn] at hm
    simp only [visitIn] at hm
    have hce : noCast e = true := by simpa [noCast] using hc
    simp only [eval] at he
    rw [← strip_eval E row e hce] at he
    split at hm
    · rename_i c hcol
      rw [hcol] at he
      split at hm
      · rename_i f hf
        obtain ⟨hfm, hfn⟩ := fieldByName_some hf
        simp only [List.mem_singleton, Prod.mk.injEq] at hm
        obtain ⟨rfl, rfl⟩ := hm
        obtain ⟨-, hlit, hconv⟩ := hk
        unfold evalIn at he
        split at he
        · rename_i hany
          rw [List.any_eq_true] at hany
          obtain ⟨v, hv, hcmp⟩ := hany
          rw [List.mem_map] at hv
          obtain ⟨i, hi, rfl⟩ := hv
          obtain ⟨s, rfl⟩ := hlit i hi
          simp only [evalItem, eval, beq_iff_eq] at hcmp
          have hsn := (specCmp_notNull hcmp).2
          have hmem : ∀ l, toLit s = some l → l ∈ itemLits items := by
            intro l hl
            unfold itemLits
            rw [List.mem_filterMap]
            exact ⟨.lit s, hi, hl⟩
          rcases hconv with hconv | hconv
          · rcases hconv s hi with h0 | h0
            · exact absurd h0 hsn
            · cases hl : toLit s with
              | none => exact absurd hl h0
              | some l =>
                refine ⟨l, hmem l hl, ⟨⟨f, hfm, rfl, s, ?_, hl, ?_⟩⟩⟩
                · simp only [lits, List.mem_append, List.mem_filterMap]
                  exact Or.inr ⟨.lit s, hi, rfl⟩
                · rw [hfn]; exact hcmp
          · exfalso
            apply hne
            unfold itemLits
            rw [List.filterMap_eq_nil_iff]
            intro j hj
            cases j with
            | lit t => exact hconv t hj
            | other k => rfl
        · split at he
          · simp at he
          · simp at he
      · simp at hm
    · simp at hm
  | .col _ => by simp [visitIn]
  | .lit _ => by simp [visitIn]
  | .cast _ _ => by simp [visitIn]
  | .alias _ => by simp [visitIn]
  | .other _ => by simp [visitIn]

/-- The orders a bound allows between the column and the literal. -/
def boundOrd (isMin incl : Bool) (o : Ordering) : Prop :=
  match isMin, incl with
  | true, true => o ≠ .lt
  | true, false => o = .gt
  | false, true => o ≠ .gt
  | false, false => o = .lt

theorem mkBound_fact {sch : List Field} {row : Row} {isMin incl : Bool} {c : String} {s : Scalar}
    {b : Bound} {o : Ordering} {ls : List Scalar} (hm : b ∈ mkBound sch isMin incl c s)
    (hc : Spec.cmp (row c) s = some o) (hb : boundOrd isMin incl o) (hs : s ∈ ls) :
    ∃ o, boundOrd b.isMin b.incl o ∧ Fact sch row ls b.id b.lit o := by
  unfold mkBound at hm
  split at hm
  · rename_i i l hl
    simp only [List.mem_singleton] at hm
    subst hm
    obtain ⟨f, hf, hn, hi, hlit⟩ := colLit_some hl
    refine ⟨o, hb, ⟨⟨f, hf, hi, s, hs, hlit, ?_⟩⟩⟩
    rw [hn]; exact hc
  · simp at hm

theorem rangePair_fact {sch : List Field} {E : Env} {row : Row} {op : Op} {l r : Expr} {b : Bound}
    (hm : b ∈ rangePair sch op l r)
    (he : evalOp E op (eval E row l) (eval E row r) = .bool true) :
    ∃ o, boundOrd b.isMin b.incl o ∧ Fact sch row (lits l ++ lits r) b.id b.lit o := by
  unfold rangePair at hm
  split at hm <;> first
    | simp at hm
    | (simp only [evalOp, eval] at he
       obtain ⟨o, ho, hto⟩ := compareWith_true he
       first
        | exact mkBound_fact hm ho (by cases o <;> simp_all [boundOrd]) (by simp [lits])
        | exact mkBound_fact hm (specCmp_swap ho)
            (by cases o <;> simp_all [boundOrd, Ordering.swap]) (by simp [lits]))

theorem visitStripped_fact {sch : List Field} {E : Env} {row : Row} {b : Bound} :
    ∀ e, noCast e = true → eval E row e = .bool true → b ∈ visitStripped sch e →
      ∃ o, boundOrd b.isMin b.incl o ∧ Fact sch row (lits e) b.id b.lit o
  | .bin op l r => by
    intro hc he hm
    have hcl : noCast l = true := by simp [noCast] at hc; exact hc.1
    have hcr : noCast r = true := by simp [noCast] at hc; exact hc.2
    have pair : b ∈ rangePair sch op (strip l) (strip r) →
        ∃ o, boundOrd b.isMin b.incl o ∧ Fact sch row (lits (.bin op l r)) b.id b.lit o := by
      intro hm
      simp only [eval] at he
      rw [← strip_eval E row l hcl, ← strip_eval E row r hcr] at he
      have := rangePair_fact hm he
      rw [strip_lits, strip_lits] at this
      exact this
    cases op
    case and =>
      simp only [visitStripped, List.mem_append] at hm
      simp only [eval, evalOp] at he
      obtain ⟨h1, h2⟩ := and3_true he
      rcases hm with hm | hm
      · obtain ⟨o, ho, hf⟩ := visitStripped_fact l hcl h1 hm
        exact ⟨o, ho, hf.mono (by simp [lits]; grind)⟩
      · obtain ⟨o, ho, hf⟩ := visitStripped_fact r hcr h2 hm
        exact ⟨o, ho, hf.mono (by simp [lits]; grind)⟩
    all_goals exact pair hm
  | .alias e => by
    intro hc he hm
    exact visitStripped_fact e hc he hm
  | .cast _ _ => by simp [noCast]
  | .col _ => by simp [visitStripped]
  | .lit _ => by simp [visitStripped]
  | .inList _ _ _ => by simp [visitStripped]
  | .other _ => by simp [visitStripped]

theorem visitRange_fact {sch : List Field} {E : Env} {row : Row} {b : Bound} {e : Expr}
    (hc : noCast e = true) (he : eval E row e = .bool true) (hm : b ∈ visitRange sch e) :
    ∃ o, boundOrd b.isMin b.incl o ∧ Fact sch row (lits e) b.id b.lit o := by
  unfold visitRange at hm
  split at hm
  · exact visitStripped_fact _ hc he hm
  · simp at hm

/-! ### Ranges -/

theorem tightenMin_mem {cur : Option (Lit × Bool)} {cand x : Lit × Bool}
    (h : tightenMin cur cand = some x) : x = cand ∨ cur = some x := by
  unfold tightenMin at h
  split at h
  · simp at h; exact Or.inl h.symm
  · split at h
    · simp at h; exact Or.inl h.symm
    · right; exact h

theorem tightenMax_mem {cur : Option (Lit × Bool)} {cand x : Lit × Bool}
    (h : tightenMax cur cand = some x) : x = cand ∨ cur = some x := by
  unfold tightenMax at h
  split at h
  · simp at h; exact Or.inl h.symm
  · split at h
    · simp at h; exact Or.inl h.symm
    · right; exact h

theorem foldl_add_mem (bs : List Bound) : ∀ (r : Range),
    (∀ x, (bs.foldl Range.add r).min = some x →
      r.min = some x ∨ ∃ b ∈ bs, b.isMin = true ∧ (b.lit, b.incl) = x) ∧
    (∀ x, (bs.foldl Range.add r).max = some x →
      r.max = some x ∨ ∃ b ∈ bs, b.isMin = false ∧ (b.lit, b.incl) = x) := by
  induction bs with
  | nil => intro r; simp
  | cons b bs ih =>
    intro r
    simp only [List.foldl_cons]
    obtain ⟨h1, h2⟩ := ih (r.add b)
    constructor
    · intro x hx
      rcases h1 x hx with h | ⟨c, hc, hm, he⟩
      · unfold Range.add at h
        split at h
        · rename_i hb
          rcases tightenMin_mem h with h | h
          · exact Or.inr ⟨b, by simp, hb, h.symm⟩
          · exact Or.inl h
        · exact Or.inl h
      · exact Or.inr ⟨c, by simp [hc], hm, he⟩
    · intro x hx
      rcases h2 x hx with h | ⟨c, hc, hm, he⟩
      · unfold Range.add at h
        split at h
        · exact Or.inl h
        · rename_i hb
          rcases tightenMax_mem h with h | h
          · exact Or.inr ⟨b, by simp, by simpa using hb, h.symm⟩
          · exact Or.inl h
      · exact Or.inr ⟨c, by simp [hc], hm, he⟩

theorem near_refl (s : Scalar) : Near s s := by
  cases s <;> simp [Near] <;> omega

/-- Shifted literals: an exclusive lower bound becomes the next value. -/
theorem adjust_up {ty : PType} {a s : Scalar} {l l' : Lit} (ha : HasType ty a)
    (hl : toLit s = some l) (hr : InRange s) (hc : Spec.cmp a s = some .gt)
    (hj : adjust ty l true = some l') :
    ∃ s', Near s s' ∧ HasType ty s' ∧ toLit s' = some l' ∧
      ∃ o, Spec.cmp s' a = some o ∧ o ≠ .gt := by
  cases a <;> cases s <;> (first | (simp [Spec.cmp] at hc; done) | skip)
  all_goals simp only [toLit, Option.some.injEq] at hl
  all_goals try subst hl
  all_goals (first | (simp [adjust] at hj; done) | simp at hl | skip)
  all_goals (cases ty <;> first | exact ha.elim | skip)
  all_goals simp only [adjust, PType.isShort, PType.isLong, if_true, shift32, shift64] at hj
  all_goals
    split at hj
    · simp only [Option.map_some, Option.some.injEq] at hj
      subst hj
      simp only [Spec.cmp, Option.some.injEq, cmpInt_gt] at hc
      rename_i v w hw
      have r1 := hr.1
      first
        | exact ⟨.int32 (w + 1), ⟨by omega, by omega⟩, ⟨by omega, hw⟩, rfl, _, rfl,
            by rw [cmpInt_le]; omega⟩
        | exact ⟨.date32 (w + 1), ⟨by omega, by omega⟩, ⟨by omega, hw⟩, rfl, _, rfl,
            by rw [cmpInt_le]; omega⟩
        | exact ⟨.int64 (w + 1), ⟨by omega, by omega⟩, ⟨by omega, hw⟩, rfl, _, rfl,
            by rw [cmpInt_le]; omega⟩
        | exact ⟨.time (w + 1), ⟨by omega, by omega⟩, ⟨by omega, hw⟩, rfl, _, rfl,
            by rw [cmpInt_le]; omega⟩
        | exact ⟨.tsUs (w + 1), ⟨by omega, by omega⟩, ⟨by omega, hw⟩, rfl, _, rfl,
            by rw [cmpInt_le]; omega⟩
        | exact ⟨.tsNs (w + 1), ⟨by omega, by omega⟩, ⟨by omega, hw⟩, rfl, _, rfl,
            by rw [cmpInt_le]; omega⟩
    · simp at hj

/-- Shifted literals: an exclusive upper bound becomes the previous value. -/
theorem adjust_down {ty : PType} {a s : Scalar} {l l' : Lit} (ha : HasType ty a)
    (hl : toLit s = some l) (hr : InRange s) (hc : Spec.cmp a s = some .lt)
    (hj : adjust ty l false = some l') :
    ∃ s', Near s s' ∧ HasType ty s' ∧ toLit s' = some l' ∧
      ∃ o, Spec.cmp a s' = some o ∧ o ≠ .gt := by
  cases a <;> cases s <;> (first | (simp [Spec.cmp] at hc; done) | skip)
  all_goals simp only [toLit, Option.some.injEq] at hl
  all_goals try subst hl
  all_goals (first | (simp [adjust] at hj; done) | simp at hl | skip)
  all_goals (cases ty <;> first | exact ha.elim | skip)
  all_goals simp only [adjust, PType.isShort, PType.isLong, if_true, if_false, shift32, shift64,
    Bool.false_eq_true] at hj
  all_goals
    split at hj
    · simp only [Option.map_some, Option.some.injEq] at hj
      subst hj
      simp only [Spec.cmp, Option.some.injEq, cmpInt_lt] at hc
      rename_i v w hw
      have r1 := hr.2
      first
        | exact ⟨.int32 (w - 1), ⟨by omega, by omega⟩, ⟨hw, by omega⟩, rfl, _, rfl,
            by rw [cmpInt_le]; omega⟩
        | exact ⟨.date32 (w - 1), ⟨by omega, by omega⟩, ⟨hw, by omega⟩, rfl, _, rfl,
            by rw [cmpInt_le]; omega⟩
        | exact ⟨.int64 (w - 1), ⟨by omega, by omega⟩, ⟨hw, by omega⟩, rfl, _, rfl,
            by rw [cmpInt_le]; omega⟩
        | exact ⟨.time (w - 1), ⟨by omega, by omega⟩, ⟨hw, by omega⟩, rfl, _, rfl,
            by rw [cmpInt_le]; omega⟩
        | exact ⟨.tsUs (w - 1), ⟨by omega, by omega⟩, ⟨hw, by omega⟩, rfl, _, rfl,
            by rw [cmpInt_le]; omega⟩
        | exact ⟨.tsNs (w - 1), ⟨by omega, by omega⟩, ⟨hw, by omega⟩, rfl, _, rfl,
            by rw [cmpInt_le]; omega⟩
    · simp at hj

/-- What is known of a row, its partition value and a literal it is compared with. -/
structure Ctx (h : List Nat → Int) (tr : Transform) (ty : PType) (a s : Scalar) (l v : Lit)
    (o : Ordering) : Prop where
  ht : HasType ty a
  hp : IsPart h tr a (some v)
  hv : tr ≠ .void
  hl : toLit s = some l
  hr : InRange s
  hs : ∀ s', Near s s' → Sane tr s'
  hc : Spec.cmp a s = some o

theorem Ctx.eq {h : List Nat → Int} {tr : Transform} {ty : PType} {a s : Scalar} {l v q : Lit}
    (c : Ctx h tr ty a s l v .eq) (hq : applyTransform h tr ty l = some q) : v = q := by
  have e : a = s := specCmp_eq c.hc
  subst e
  have ha := allowed_of_isPart c.hp (specCmp_notNull c.hc).1 c.hv
  have := applyTransform_isPart (c.hs _ (near_refl _)) ha c.ht c.hl hq
  exact Option.some.inj (isPart_unique c.hp this)

theorem Ctx.lower {h : List Nat → Int} {tr : Transform} {ty : PType} {a s : Scalar} {l v q : Lit}
    {o : Ordering} {incl : Bool} (c : Ctx h tr ty a s l v o) (ht : tr.preservesOrder = true)
    (hb : boundOrd true incl o) (hq : boundLit h tr ty l true incl = some q) :
    q.cmp v ≠ .gt := by
  have ha := allowed_of_isPart c.hp (specCmp_notNull c.hc).1 c.hv
  have key : ∀ s' l', Near s s' → HasType ty s' → toLit s' = some l' →
      applyTransform h tr ty l' = some q → (∃ o, Spec.cmp s' a = some o ∧ o ≠ .gt) →
      q.cmp v ≠ .gt := by
    rintro s' l' hn hty hl' hq' ⟨o', ho', hg⟩
    have ha' : Allowed tr s' := allowed_cmp (specCmp_swap ho') ha
    exact isPart_mono ht (applyTransform_isPart (c.hs _ hn) ha' hty hl' hq') c.hp ho' hg
  have same : applyTransform h tr ty l = some q → q.cmp v ≠ .gt := fun hq' =>
    key s l (near_refl s) (hasType_cmp c.ht c.hc c.hr) c.hl hq'
      ⟨_, specCmp_swap c.hc, by
        cases incl <;> cases o <;> simp_all [boundOrd, Ordering.swap]⟩
  unfold boundLit at hq
  split at hq
  · exact same hq
  · rename_i hi
    cases hj : adjust ty l true with
    | none => rw [hj] at hq; exact same hq
    | some l' =>
      rw [hj] at hq
      have : o = .gt := by cases incl <;> simp_all [boundOrd]
      have hc := c.hc
      rw [this] at hc
      obtain ⟨s', h1, h2, h3, h4⟩ := adjust_up c.ht c.hl c.hr hc hj
      exact key s' l' h1 h2 h3 hq h4

theorem Ctx.upper {h : List Nat → Int} {tr : Transform} {ty : PType} {a s : Scalar} {l v q : Lit}
    {o : Ordering} {incl : Bool} (c : Ctx h tr ty a s l v o) (ht : tr.preservesOrder = true)
    (hb : boundOrd false incl o) (hq : boundLit h tr ty l false incl = some q) :
    v.cmp q ≠ .gt := by
  have ha := allowed_of_isPart c.hp (specCmp_notNull c.hc).1 c.hv
  have key : ∀ s' l', Near s s' → HasType ty s' → toLit s' = some l' →
      applyTransform h tr ty l' = some q → (∃ o, Spec.cmp a s' = some o ∧ o ≠ .gt) →
      v.cmp q ≠ .gt := by
    rintro s' l' hn hty hl' hq' ⟨o', ho', hg⟩
    have ha' : Allowed tr s' := allowed_cmp ho' ha
    exact isPart_mono ht c.hp (applyTransform_isPart (c.hs _ hn) ha' hty hl' hq') ho' hg
  have same : applyTransform h tr ty l = some q → v.cmp q ≠ .gt := fun hq' =>
    key s l (near_refl s) (hasType_cmp c.ht c.hc c.hr) c.hl hq'
      ⟨_, c.hc, by cases incl <;> cases o <;> simp_all [boundOrd]⟩
  unfold boundLit at hq
  split at hq
  · exact same hq
  · rename_i hi
    cases hj : adjust ty l false with
    | none => rw [hj] at hq; exact same hq
    | some l' =>
      rw [hj] at hq
      have : o = .lt := by cases incl <;> simp_all [boundOrd]
      have hc := c.hc
      rw [this] at hc
      obtain ⟨s', h1, h2, h3, h4⟩ := adjust_down c.ht c.hl c.hr hc hj
      exact key s' l' h1 h2 h3 hq h4

/-! ### Predicates -/

theorem transformAll_mem {h : List Nat → Int} {tr : Transform} {ty : PType} :
    ∀ {ls qs : List Lit}, transformAll h tr ty ls = some qs →
      (∀ q ∈ qs, ∃ l ∈ ls, applyTransform h tr ty l = some q) ∧
      (∀ l ∈ ls, ∃ q ∈ qs, applyTransform h tr ty l = some q)
  | [], qs => by
    intro h; simp [transformAll] at h; subst h; simp
  | l :: ls, qs => by
    intro hq
    simp only [transformAll] at hq
    split at hq
    · rename_i q qs' h1 h2
      simp only [Option.some.injEq] at hq
      subst hq
      obtain ⟨i1, i2⟩ := transformAll_mem h2
      constructor
      · intro x hx
        rcases List.mem_cons.1 hx with rfl | hx
        · exact ⟨l, by simp, h1⟩
        · obtain ⟨y, hy, he⟩ := i1 x hx
          exact ⟨y, by simp [hy], he⟩
      · intro x hx
        rcases List.mem_cons.1 hx with rfl | hx
        · exact ⟨q, by simp, h1⟩
        · obtain ⟨y, hy, he⟩ := i2 x hx
          exact ⟨y, by simp [hy], he⟩
    · simp at hq

theorem dedup_mem_aux (ls : List Lit) : ∀ (acc : List Lit) (x : Lit),
    x ∈ ls.foldl (fun acc l => if l ∈ acc then acc else acc ++ [l]) acc ↔ x ∈ acc ∨ x ∈ ls := by
  induction ls with
  | nil => simp
  | cons l ls ih =>
    intro acc x
    simp only [List.foldl_cons]
    rw [ih]
    split
    · rename_i hl
      constructor
      · rintro (h | h)
        · exact Or.inl h
        · exact Or.inr (by simp [h])
      · rintro (h | h)
        · exact Or.inl h
        · rcases List.mem_cons.1 h with rfl | h
          · exact Or.inl hl
          · exact Or.inr h
    · simp only [List.mem_append, List.mem_cons]
      grind

theorem mem_dedup {ls : List Lit} {x : Lit} : x ∈ dedup ls ↔ x ∈ ls := by
  unfold dedup; rw [dedup_mem_aux]; simp

/-- The situation of the property: a row that passes the filters, in a file with tuple
`part`. -/
structure Sit (h : List Nat → Int) (sch : List Field) (spec : List PField) (fs : List Expr)
    (E : Env) (row : Row) (part : List (Option Lit)) : Prop where
  schema : SchemaOk sch
  rowOk : RowOk sch row
  cast : ∀ f ∈ fs, noCast f = true
  ins : ∀ f ∈ fs, inListsOk f
  lits : LitsOk spec fs
  sat : Satisfies E row fs
  part : ∀ (i : Nat) pf v src, spec[i]? = some pf → part[i]? = some v →
    fieldById sch pf.sourceId = some src → IsPart h pf.transform (row src.name) v

/-- A fact about the source column of a partition field gives a present partition value and the
context of the comparison. -/
theorem Sit.ctx {h : List Nat → Int} {sch : List Field} {spec : List PField} {fs : List Expr}
    {E : Env} {row : Row} {part : List (Option Lit)} (S : Sit h sch spec fs E row part)
    {i : Nat} {pf : PField} {src : Field} {v : Option Lit} {e : Expr} {l : Lit} {o : Ordering}
    (hpf : spec[i]? = some pf) (hsrc : fieldById sch pf.sourceId = some src)
    (hv : part[i]? = some v) (hn : pf.transform ≠ .void) (he : e ∈ fs)
    (hf : Fact sch row (Spec.lits e) pf.sourceId l o) :
    ∃ w s, v = some w ∧ Ctx h pf.transform src.ty (row src.name) s l w o := by
  obtain ⟨f, hfm, hfi, s, hs, hl, hc⟩ := hf.ex
  have e1 : f = src := by
    have := S.schema.2 f hfm
    rw [hfi, hsrc] at this
    exact (Option.some.inj this).symm
  subst e1
  have hp := S.part i pf v f hpf hv hsrc
  have hnn := (specCmp_notNull hc).1
  obtain ⟨hr, hsn⟩ := S.lits e he s hs
  have hmem : pf ∈ spec := List.mem_of_getElem? hpf
  cases v with
  | none =>
    exfalso
    generalize row f.name = a at hp hnn
    have ha := allowed_of_isPart hp hnn hn
    revert hp ha
    cases pf.transform <;> cases a <;> simp [IsPart, Allowed, litOf] at hnn ⊢
  | some w =>
    exact ⟨w, s, rfl, S.rowOk f hfm, hp, hn, hl, hr, fun s' hs' => hsn s' hs' pf hmem, hc⟩

/-- What is proved of each predicate: the partition value of the file is present and meets it. -/
def Good (part : List (Option Lit)) (p : Pred) : Prop :=
  ∀ v, part[p.idx]? = some v → ∃ w, v = some w ∧ p.con.holds w = true

theorem rangeSide_some {h : List Nat → Int} {tr : Transform} {ty : PType} {lower : Bool}
    {x : Option (Lit × Bool)} {q : Lit × Bool}
    (hs : rangeSide h tr ty lower x = some (some q)) :
    q.2 = true ∧ ∃ l incl, x = some (l, incl) ∧ boundLit h tr ty l lower incl = some q.1 := by
  unfold rangeSide at hs
  split at hs
  · simp at hs
  · rename_i l incl
    rw [Option.map_eq_some_iff] at hs
    obtain ⟨y, hy, he⟩ := hs
    simp only [Option.some.injEq] at he
    subst he
    exact ⟨rfl, l, incl, rfl, hy⟩

theorem litInRange_of {v : Lit} {r : Range}
    (h1 : ∀ q, r.min = some q → q.2 = true ∧ q.1.cmp v ≠ .gt)
    (h2 : ∀ q, r.max = some q → q.2 = true ∧ v.cmp q.1 ≠ .gt) : litInRange v r = true := by
  unfold litInRange
  rw [Bool.and_eq_true]
  constructor
  · split
    · rename_i m incl hm
      obtain ⟨a, b⟩ := h1 _ hm
      simp only at a b
      subst a
      have : v.cmp m ≠ .lt := fun hlt => b (Lit.cmp_swap.2 hlt)
      simp [this]
    · rfl
  · split
    · rename_i m incl hm
      obtain ⟨a, b⟩ := h2 _ hm
      simp only at a b
      subst a
      simp [b]
    · rfl

theorem rangePreds_good {h : List Nat → Int} {sch : List Field} {spec : List PField}
    {fs : List Expr} {E : Env} {row : Row} {part : List (Option Lit)}
    (S : Sit h sch spec fs E row part) {i : Nat} {pf : PField} {src : Field} {ps : List Pred}
    (hpf : spec[i]? = some pf) (hsrc : fieldById sch pf.sourceId = some src)
    (hn : pf.transform ≠ .void)
    (hps : rangePreds h i pf.transform src.ty (rangeFor sch fs pf.sourceId) = some ps) :
    ∀ p ∈ ps, Good part p := by
  unfold rangePreds at hps
  split at hps
  · rename_i hord
    have facts := foldl_add_mem ((fs.flatMap (visitRange sch)).filter (·.id == pf.sourceId)) {}
    have fact : ∀ b ∈ (fs.flatMap (visitRange sch)).filter (·.id == pf.sourceId),
        ∃ e ∈ fs, ∃ o, boundOrd b.isMin b.incl o ∧
          Fact sch row (Spec.lits e) pf.sourceId b.lit o := by
      intro b hb
      rw [List.mem_filter, List.mem_flatMap] at hb
      obtain ⟨⟨e, he, hm⟩, hid⟩ := hb
      have hid' : b.id = pf.sourceId := by simpa using hid
      obtain ⟨o, ho, hf⟩ := visitRange_fact (S.cast e he) (S.sat e he) hm
      rw [hid'] at hf
      exact ⟨e, he, o, ho, hf⟩
    have hmin : ∀ l incl, (rangeFor sch fs pf.sourceId).min = some (l, incl) →
        ∃ e ∈ fs, ∃ o, boundOrd true incl o ∧ Fact sch row (Spec.lits e) pf.sourceId l o := by
      intro l incl hx
      rcases facts.1 _ hx with h0 | ⟨b, hb, hm, he⟩
      · simp at h0
      · simp only [Prod.mk.injEq] at he
        obtain ⟨rfl, rfl⟩ := he
        have := fact b hb
        rw [hm] at this
        exact this
    have hmax : ∀ l incl, (rangeFor sch fs pf.sourceId).max = some (l, incl) →
        ∃ e ∈ fs, ∃ o, boundOrd false incl o ∧ Fact sch row (Spec.lits e) pf.sourceId l o := by
      intro l incl hx
      rcases facts.2 _ hx with h0 | ⟨b, hb, hm, he⟩
      · simp at h0
      · simp only [Prod.mk.injEq] at he
        obtain ⟨rfl, rfl⟩ := he
        have := fact b hb
        rw [hm] at this
        exact this
    have main : ∀ mn mx, ¬ (mn = none ∧ mx = none) →
        rangeSide h pf.transform src.ty true (rangeFor sch fs pf.sourceId).min = some mn →
        rangeSide h pf.transform src.ty false (rangeFor sch fs pf.sourceId).max = some mx →
        Good part ⟨i, .range ⟨mn, mx⟩⟩ := by
      intro mn mx hne hmn hmx v hv
      simp only at hv
      have low : ∀ q, mn = some q → q.2 = true ∧ ∃ w, v = some w ∧ q.1.cmp w ≠ .gt := by
        rintro q rfl
        obtain ⟨hq2, l, incl, hx, hb⟩ := rangeSide_some hmn
        obtain ⟨e, he, o, ho, hf⟩ := hmin l incl hx
        obtain ⟨w, s, hw, c⟩ := S.ctx hpf hsrc hv hn he hf
        exact ⟨hq2, w, hw, c.lower hord ho hb⟩
      have up : ∀ q, mx = some q → q.2 = true ∧ ∃ w, v = some w ∧ w.cmp q.1 ≠ .gt := by
        rintro q rfl
        obtain ⟨hq2, l, incl, hx, hb⟩ := rangeSide_some hmx
        obtain ⟨e, he, o, ho, hf⟩ := hmax l incl hx
        obtain ⟨w, s, hw, c⟩ := S.ctx hpf hsrc hv hn he hf
        exact ⟨hq2, w, hw, c.upper hord ho hb⟩
      have hex : ∃ w, v = some w := by
        cases mn with
        | some q => obtain ⟨_, w, hw, _⟩ := low q rfl; exact ⟨w, hw⟩
        | none =>
          cases mx with
          | some q => obtain ⟨_, w, hw, _⟩ := up q rfl; exact ⟨w, hw⟩
          | none => exact absurd ⟨rfl, rfl⟩ hne
      obtain ⟨w, rfl⟩ := hex
      refine ⟨w, rfl, ?_⟩
      apply litInRange_of
      · intro q hq
        obtain ⟨h1, w', hw', h2⟩ := low q hq
        simp only [Option.some.injEq] at hw'
        subst hw'
        exact ⟨h1, h2⟩
      · intro q hq
        obtain ⟨h1, w', hw', h2⟩ := up q hq
        simp only [Option.some.injEq] at hw'
        subst hw'
        exact ⟨h1, h2⟩
    split at hps
    · simp at hps; subst hps; simp
    · rename_i mn mx hnn hmn hmx
      simp only [Option.some.injEq] at hps
      subst hps
      intro p hp
      simp only [List.mem_singleton] at hp
      subst hp
      refine main mn mx ?_ hmn hmx
      rintro ⟨rfl, rfl⟩
      exact hnn rfl rfl
    · simp at hps
  · simp at hps; subst hps; simp

theorem fieldPreds_good {h : List Nat → Int} {sch : List Field} {spec : List PField}
    {fs : List Expr} {E : Env} {row : Row} {part : List (Option Lit)}
    (S : Sit h sch spec fs E row part) {i : Nat} {pf : PField} {ps : List Pred}
    (hpf : spec[i]? = some pf) (hps : fieldPreds h sch fs i pf = some ps) :
    ∀ p ∈ ps, Good part p := by
  unfold fieldPreds at hps
  split at hps
  · simp at hps; subst hps; simp
  · rename_i hvu
    have hn : pf.transform ≠ .void := fun hh => hvu (Or.inl hh)
    split at hps
    · simp at hps; subst hps; simp
    · rename_i src hsrc
      split at hps
      · rename_i es is rs hes his hrs
        simp only [Option.some.injEq] at hps
        subst hps
        intro p hp
        simp only [List.mem_append, List.mem_map] at hp
        rcases hp with (⟨q, hq, rfl⟩ | hp) | hp
        · intro v hv
          simp only at hv
          obtain ⟨l, hl, hql⟩ := (transformAll_mem hes).1 q hq
          rw [List.mem_map] at hl
          obtain ⟨⟨id, l'⟩, hl, rfl⟩ := hl
          rw [List.mem_filter] at hl
          obtain ⟨hl, hid⟩ := hl
          have hid' : id = pf.sourceId := by simpa using hid
          subst hid'
          unfold collectEq at hl
          rw [List.mem_flatMap] at hl
          obtain ⟨e, he, hm⟩ := hl
          have hf := visitEq_fact e (S.cast e he) (S.sat e he) hm
          obtain ⟨w, s, hw, c⟩ := S.ctx hpf hsrc hv hn he hf
          refine ⟨w, hw, ?_⟩
          simp [Constraint.holds, c.eq hql]
        · split at hp
          · simp at hp
          · rename_i hne
            simp only [List.mem_singleton] at hp
            subst hp
            intro v hv
            simp only at hv
            -- some extension of the entry of this column is not empty
            have hin : inFor sch fs pf.sourceId ≠ [] := by
              intro h0
              rw [h0] at his
              simp [transformAll] at his
              subst his
              exact hne rfl
            obtain ⟨x, hx⟩ := List.exists_mem_of_ne_nil _ hin
            unfold inFor at hx
            rw [List.mem_flatMap] at hx
            obtain ⟨⟨id, ls⟩, hx, hxl⟩ := hx
            rw [List.mem_filter, List.mem_flatMap] at hx
            obtain ⟨⟨e, he, hm⟩, hid⟩ := hx
            have hid' : id = pf.sourceId := by simpa using hid
            subst hid'
            obtain ⟨y, hy, hf⟩ := visitIn_fact e (S.cast e he) (S.ins e he) (S.sat e he) hm
              (List.ne_nil_of_mem hxl)
            obtain ⟨w, s, hw, c⟩ := S.ctx hpf hsrc hv hn he hf
            have hyin : y ∈ inFor sch fs pf.sourceId := by
              unfold inFor
              rw [List.mem_flatMap]
              refine ⟨(pf.sourceId, ls), ?_, hy⟩
              rw [List.mem_filter, List.mem_flatMap]
              exact ⟨⟨e, he, hm⟩, by simp⟩
            obtain ⟨q, hq, hqy⟩ := (transformAll_mem his).2 y hyin
            refine ⟨w, hw, ?_⟩
            simp only [Constraint.holds, List.contains_iff_mem, mem_dedup]
            rw [c.eq hqy]; exact hq
        · exact rangePreds_good S hpf hsrc hn hrs p hp
      · simp at hps

theorem predsFrom_good {h : List Nat → Int} {sch : List Field} {spec : List PField}
    {fs : List Expr} {E : Env} {row : Row} {part : List (Option Lit)}
    (S : Sit h sch spec fs E row part) : ∀ (rest : List PField) (i : Nat) (ps : List Pred),
    (∀ j, rest[j]? = spec[i + j]?) → predsFrom h sch fs i rest = some ps →
    ∀ p ∈ ps, Good part p
  | [], _, ps => by
    intro _ hps; simp [predsFrom] at hps; subst hps; simp
  | pf :: rest, i, ps => by
    intro hj hps
    simp only [predsFrom] at hps
    split at hps
    · rename_i a b ha hb
      simp only [Option.some.injEq] at hps
      subst hps
      have h0 : spec[i]? = some pf := by
        have := hj 0
        simp at this
        exact this.symm
      have hrest : ∀ j, rest[j]? = spec[i + 1 + j]? := by
        intro j
        have := hj (j + 1)
        simp at this
        rw [this]
        congr 1
        omega
      intro p hp
      rcases List.mem_append.1 hp with hp | hp
      · exact fieldPreds_good S h0 ha p hp
      · exact predsFrom_good S rest (i + 1) b hrest hb p hp
    · simp at hps

theorem preds_good {h : List Nat → Int} {sch : List Field} {spec : List PField}
    {fs : List Expr} {E : Env} {row : Row} {part : List (Option Lit)}
    (S : Sit h sch spec fs E row part) {ps : List Pred}
    (hps : predsFrom h sch fs 0 spec = some ps) : ∀ p ∈ ps, Good part p :=
  predsFrom_good S spec 0 ps (by simp) hps

theorem fieldPreds_idx {h : List Nat → Int} {sch : List Field} {fs : List Expr} {i : Nat}
    {pf : PField} {ps : List Pred} (hps : fieldPreds h sch fs i pf = some ps) :
    ∀ p ∈ ps, p.idx = i := by
  unfold fieldPreds at hps
  split at hps
  · simp at hps; subst hps; simp
  · split at hps
    · simp at hps; subst hps; simp
    · split at hps
      · rename_i es is rs hes his hrs
        simp only [Option.some.injEq] at hps
        subst hps
        intro p hp
        simp only [List.mem_append, List.mem_map] at hp
        rcases hp with (⟨q, hq, rfl⟩ | hp) | hp
        · rfl
        · split at hp
          · simp at hp
          · simp only [List.mem_singleton] at hp; subst hp; rfl
        · unfold rangePreds at hrs
          split at hrs
          · split at hrs
            · simp at hrs; subst hrs; simp at hp
            · simp only [Option.some.injEq] at hrs
              subst hrs
              simp only [List.mem_singleton] at hp; subst hp; rfl
            · simp at hrs
          · simp at hrs; subst hrs; simp at hp
      · simp at hps

theorem predsFrom_idx_aux {h : List Nat → Int} {sch : List Field} {fs : List Expr} :
    ∀ {rest : List PField} {i : Nat} {ps : List Pred}, predsFrom h sch fs i rest = some ps →
    ∀ p ∈ ps, p.idx < i + rest.length
  | [], _, ps => by
    intro hps; simp [predsFrom] at hps; subst hps; simp
  | pf :: rest, i, ps => by
    intro hps
    simp only [predsFrom] at hps
    split at hps
    · rename_i a b ha hb
      simp only [Option.some.injEq] at hps
      subst hps
      intro p hp
      simp only [List.length_cons]
      rcases List.mem_append.1 hp with hp | hp
      · have := fieldPreds_idx ha p hp; omega
      · have := predsFrom_idx_aux hb p hp; omega
    · simp at hps

theorem predsFrom_idx {h : List Nat → Int} {sch : List Field} {fs : List Expr}
    {rest : List PField} {ps : List Pred} (hps : predsFrom h sch fs 0 rest = some ps) :
    ∀ p ∈ ps, p.idx < rest.length := by
  intro p hp
  have := predsFrom_idx_aux hps p hp
  omega

theorem good_mayMatch {part : List (Option Lit)} {p : Pred} (h : Good part p) :
    p.mayMatch part = true := by
  unfold Pred.mayMatch
  split
  · rename_i v hv
    obtain ⟨w, hw, hh⟩ := h _ hv
    simp only [Option.some.injEq] at hw
    subst hw
    exact hh
  · rfl

theorem holds_bounds {c : Constraint} {w : Lit} {lower upper : Option Lit}
    (hh : c.holds w = true) (hl : ∀ l, lower = some l → l.cmp w ≠ .gt)
    (hu : ∀ u, upper = some u → w.cmp u ≠ .gt) : c.mayMatchBounds lower upper = true := by
  have one : litInBounds w lower upper = true := by
    unfold litInBounds
    rw [Bool.and_eq_true]
    constructor
    · split
      · rename_i l
        have : w.cmp l ≠ .lt := fun hlt => hl l rfl (Lit.cmp_swap.2 hlt)
        simp [this]
      · rfl
    · split
      · rename_i u
        simp [hu u rfl]
      · rfl
  cases c with
  | eq l =>
    simp only [Constraint.holds, beq_iff_eq] at hh
    subst hh
    exact one
  | inn ls =>
    simp only [Constraint.holds, List.contains_iff_mem] at hh
    simp only [Constraint.mayMatchBounds, List.any_eq_true]
    exact ⟨w, hh, one⟩
  | range r =>
    simp only [Constraint.holds, litInRange, Bool.and_eq_true] at hh
    obtain ⟨h1, h2⟩ := hh
    simp only [Constraint.mayMatchBounds, rangeInBounds, Bool.and_eq_true]
    constructor
    · split
      · rename_i m incl u hm
        rw [hm] at h1
        simp only [Bool.not_eq_true', Bool.or_eq_false_iff, beq_eq_false_iff_ne, ne_eq,
          Bool.and_eq_false_iff] at h1 ⊢
        obtain ⟨a, b⟩ := h1
        have a' : m.cmp w ≠ .gt := fun hg => a (Lit.cmp_swap.1 hg)
        refine ⟨Lit.cmp_trans a' (hu u rfl), ?_⟩
        rcases b with b | b
        · left
          intro e
          subst e
          have h3 := hu m rfl
          cases hc : w.cmp m with
          | lt => exact a hc
          | eq => exact b (Lit.cmp_eq.1 hc)
          | gt => exact h3 hc
        · exact Or.inr b
      · rfl
    · split
      · rename_i m incl l hm
        rw [hm] at h2
        simp only [Bool.not_eq_true', Bool.or_eq_false_iff, beq_eq_false_iff_ne, ne_eq,
          Bool.and_eq_false_iff] at h2 ⊢
        obtain ⟨a, b⟩ := h2
        refine ⟨fun hlt => Lit.cmp_trans (hl l rfl) a (Lit.cmp_swap.2 hlt), ?_⟩
        rcases b with b | b
        · left
          intro e
          subst e
          have h3 := hl m rfl
          cases hc : w.cmp m with
          | gt => exact a hc
          | eq => exact b (Lit.cmp_eq.1 hc)
          | lt => exact h3 (Lit.cmp_swap.2 hc)
        · exact Or.inr b
      · rfl

end Verif.Iceberg
