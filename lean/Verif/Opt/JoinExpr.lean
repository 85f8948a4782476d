import Verif.Opt.JoinProd
import Verif.Opt.JoinSpec
import Verif.Opt.JoinSetLemmas

/-! # Lemmas on predicates and edges -/

namespace Verif.Opt

set_option linter.unusedSectionVars false

open JoinSet

variable {α : Type} [DecidableEq α]

/-! ## Expressions -/

namespace Expr

variable {C D : Type}

theorem eval_map (g : C → D) (env : D → Option α) (e : Expr α C) :
    (e.map g).eval env = e.eval fun c => env (g c) := by
  induction e with
  | and l r ihl ihr => simp only [map, eval, ihl, ihr]
  | eq l r => rfl
  | other cs f => simp [map, eval, Function.comp_def]

theorem eval_congr {env env' : C → Option α} (e : Expr α C) (h : ∀ c ∈ e.cols, env c = env' c) :
    e.eval env = e.eval env' := by
  induction e with
  | and l r ihl ihr =>
    simp only [cols, List.mem_append] at h
    simp only [eval]
    rw [ihl fun c hc => h c (.inl hc), ihr fun c hc => h c (.inr hc)]
  | eq l r => simp only [eval]; rw [h l (by simp [cols]), h r (by simp [cols])]
  | other cs f =>
    have h2 : cs.map env = cs.map env' := List.map_congr_left h
    simp only [eval, h2]

theorem and3_true {a b : Option Bool} : and3 a b = some true ↔ a = some true ∧ b = some true := by
  rcases a with _ | _ | _ <;> rcases b with _ | _ | _ <;> simp [and3]

theorem eval_true {env : C → Option α} (e : Expr α C) :
    e.eval env = some true ↔ ∀ x ∈ e.conjuncts, x.eval env = some true := by
  induction e with
  | and l r ihl ihr =>
    simp only [eval, and3_true, conjuncts, List.mem_append, ihl, ihr]
    constructor
    · rintro ⟨h1, h2⟩ x (h | h)
      · exact h1 x h
      · exact h2 x h
    · exact fun h => ⟨fun x hx => h x (.inl hx), fun x hx => h x (.inr hx)⟩
  | eq l r => simp [conjuncts]
  | other cs f => simp [conjuncts]

theorem mem_cols {c : C} (e : Expr α C) : c ∈ e.cols ↔ ∃ x ∈ e.conjuncts, c ∈ x.cols := by
  induction e with
  | and l r ihl ihr =>
    simp only [cols, conjuncts, List.mem_append, ihl, ihr]
    constructor
    · rintro (⟨x, h, hc⟩ | ⟨x, h, hc⟩)
      · exact ⟨x, .inl h, hc⟩
      · exact ⟨x, .inr h, hc⟩
    · rintro ⟨x, h | h, hc⟩
      · exact .inl ⟨x, h, hc⟩
      · exact .inr ⟨x, h, hc⟩
  | eq l r => simp [conjuncts]
  | other cs f => simp [conjuncts]

theorem cols_map (g : C → D) (e : Expr α C) : (e.map g).cols = e.cols.map g := by
  induction e with
  | and l r ihl ihr => simp [map, cols, ihl, ihr]
  | eq l r => rfl
  | other cs f => rfl

/-- Neither a conjunction nor, possibly, an equality. -/
def IsAtom : Expr α C → Prop
  | .and _ _ => False
  | _ => True

theorem conjuncts_atom {x : Expr α C} (e : Expr α C) (h : x ∈ e.conjuncts) : x.IsAtom := by
  induction e with
  | and l r ihl ihr =>
    simp only [conjuncts, List.mem_append] at h
    exact h.elim ihl ihr
  | eq l r => simp only [conjuncts, List.mem_singleton] at h; subst h; trivial
  | other cs f => simp only [conjuncts, List.mem_singleton] at h; subst h; trivial

theorem IsAtom.conjuncts {x : Expr α C} (h : x.IsAtom) : x.conjuncts = [x] := by
  cases x with
  | and => cases h
  | eq => rfl
  | other => rfl

theorem noEquality_iff (e : Expr α C) : Spec.NoEquality e ↔ ∀ x ∈ e.conjuncts, Spec.NoEquality x := by
  induction e with
  | and l r ihl ihr =>
    simp only [conjuncts, List.mem_append, Spec.NoEquality]
    rw [ihl, ihr]
    constructor
    · rintro ⟨h1, h2⟩ x (h | h)
      · exact h1 x h
      · exact h2 x h
    · exact fun h => ⟨fun x hx => h x (.inl hx), fun x hx => h x (.inr hx)⟩
  | eq l r => simp [conjuncts]
  | other cs f => simp [conjuncts]

theorem noEquality_map (g : C → D) (e : Expr α C) : Spec.NoEquality (e.map g) ↔ Spec.NoEquality e := by
  induction e with
  | and l r ihl ihr => simp only [map, Spec.NoEquality, ihl, ihr]
  | eq l r => simp [map, Spec.NoEquality]
  | other cs f => simp [map, Spec.NoEquality]

theorem mapM_some [Inhabited D] {g : C → Option D} {e : Expr α C} {e' : Expr α D} (h : e.mapM g = some e') :
    (∀ c ∈ e.cols, ∃ d, g c = some d) ∧ e' = e.map fun c => (g c).getD default := by
  unfold mapM at h
  split at h
  · rename_i ha
    rw [List.all_eq_true] at ha
    exact ⟨fun c hc => Option.isSome_iff_exists.1 (ha c hc), (Option.some.inj h).symm⟩
  · cases h

end Expr

/-! ## Assignments -/

/-- The value of a column. -/
def envOf (h : Asg α) (c : Col) : Option α := (h c.1).at c.2

/-- The row of the columns in a map. -/
def proj (m : List Col) (h : Asg α) : Row α := m.map (envOf h)

omit [DecidableEq α] in
theorem proj_at (m : List Col) (h : Asg α) {i : Nat} {c : Col} (hc : m[i]? = some c) :
    Row.at (proj m h) i = envOf h c := by
  simp [Row.at, proj, hc]

omit [DecidableEq α] in
theorem proj_append (m n : List Col) (h : Asg α) : proj (m ++ n) h = proj m h ++ proj n h := by
  simp [proj]

omit [DecidableEq α] in
theorem proj_local {L : List Nat} {m : List Col} (hm : ∀ c ∈ m, c.1 ∈ L) : Local L (proj (α := α) m) := by
  intro f g hfg
  unfold proj
  apply List.map_congr_left
  intro c hc
  unfold envOf
  rw [hfg c.1 (hm c hc)]

omit [DecidableEq α] in
theorem proj_leaf (h : Asg α) (i w : Nat) (hl : (h i).length = w) :
    proj ((List.range w).map fun k => (i, k)) h = h i := by
  unfold proj
  rw [List.map_map]
  apply List.ext_getElem
  · simp [hl]
  · intro k h1 h2
    simp [envOf, Row.at, h2]

omit [DecidableEq α] in
theorem mem_prod (R : Nat → List (Row α)) {L : List Nat} {h : Asg α} (hh : h ∈ prod R L) {i : Nat} (hi : i ∈ L) :
    h i ∈ R i := by
  induction L generalizing h with
  | nil => cases hi
  | cons j L ih =>
    simp only [prod, List.mem_flatMap, List.mem_map] at hh
    obtain ⟨r, hr, f, hf, rfl⟩ := hh
    by_cases hij : i = j
    · subst hij; simpa [upd] using hr
    · have : i ∈ L := by simpa [hij] using hi
      simpa [upd, hij] using ih hf this

/-! ## Edges -/

def exprHolds (h : Asg α) (e : Expr α Col) : Bool := e.eval (envOf h) == some true

def pairHolds (ne : Bool) (h : Asg α) (p : Col × Col) : Bool := keyEq ne (envOf h p.1) (envOf h p.2)

def Edge.holds (h : Asg α) (e : Edge α) : Bool :=
  e.pairs.all (pairHolds e.nullEq h) && (residual e).all (exprHolds h)

theorem keyEq_comm (ne : Bool) (a b : Option α) : keyEq ne a b = keyEq ne b a := by
  rcases a with _ | a <;> rcases b with _ | b <;> simp only [keyEq]
  rw [Bool.eq_iff_iff, beq_iff_eq, beq_iff_eq]
  exact eq_comm

theorem keyEq_false {a b : Option α} : keyEq false a b = true ↔ eq3 a b = some true := by
  cases a <;> cases b <;> simp [keyEq, eq3]

/-- Whether a conjunct is taken for a key. -/
def matched (pairs : List (Col × Col)) : Expr α Col → Bool
  | .eq l r => isPair pairs l r
  | _ => false

theorem residual_eq (e : Edge α) : residual e = e.filter.conjuncts.filter fun x => !matched e.pairs x := by
  have key : ∀ x : Expr α Col, (match nonEqui e.pairs x with | none => [] | some y => y.conjuncts) =
      x.conjuncts.filter fun x => !matched e.pairs x := by
    intro x
    induction x with
    | and l r ihl ihr =>
      simp only [Expr.conjuncts, List.filter_append, ← ihl, ← ihr, nonEqui]
      cases nonEqui e.pairs l <;> cases nonEqui e.pairs r <;> simp [Expr.conjuncts]
    | eq l r =>
      by_cases h : isPair e.pairs l r <;> simp [nonEqui, h, Expr.conjuncts, matched]
    | other cs f => simp [nonEqui, Expr.conjuncts, matched]
  exact key _

end Verif.Opt
