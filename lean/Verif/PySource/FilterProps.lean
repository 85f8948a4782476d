import Verif.PySource.Filter

/-!
# C123: filters pushed to a Python data source lose no rows
-/

namespace Verif.PySource

namespace Spec

abbrev Row := String → Val

/-- Three-valued comparison of values of one kind; the planner coerces both sides to one type. -/
def order : Val → Val → Option Ordering
  | .bool a, .bool b => some (compare a b)
  | .int a, .int b => some (compare a b)
  | .str a, .str b => some (compareOfLessAndEq a b)
  | _, _ => none

/-- What a comparison says of an order. -/
def says : Cmp → Ordering → Bool
  | .eq, o => o = .eq
  | .ne, o => o ≠ .eq
  | .lt, o => o = .lt
  | .le, o => o ≠ .gt
  | .gt, o => o = .gt
  | .ge, o => o ≠ .lt

def not3 : Option Bool → Option Bool
  | some b => some (!b)
  | none => none

def and3 : Option Bool → Option Bool → Option Bool
  | some false, _ => some false
  | _, some false => some false
  | some true, some true => some true
  | _, _ => none

def or3 (a b : Option Bool) : Option Bool := not3 (and3 (not3 a) (not3 b))

/-- `v IN (vs)` is the disjunction of the equalities. -/
def in3 (v : Val) : List Val → Option Bool
  | [] => some false
  | w :: ws => or3 ((order v w).map (says .eq)) (in3 v ws)

/-- A part of a LIKE pattern. -/
inductive Tok
  | char (c : Char)
  | one
  | any

/-- The parts of a pattern: `%` is any text, `_` one character, and the character after the escape
character stands for itself. -/
def toks (esc : Char) : Text → List Tok
  | [] => []
  | [c] => [if c = '%' then .any else if c = '_' then .one else .char c]
  | c :: d :: r =>
    if c = esc then .char d :: toks esc r
    else (if c = '%' then .any else if c = '_' then .one else .char c) :: toks esc (d :: r)

/-- All ends of a text. -/
def ends : Text → List Text
  | [] => [[]]
  | c :: r => (c :: r) :: ends r

def matchesToks : List Tok → Text → Bool
  | [], s => s.isEmpty
  | .char _ :: _, [] => false
  | .char c :: ts, d :: s => c = d && matchesToks ts s
  | .one :: _, [] => false
  | .one :: ts, _ :: s => matchesToks ts s
  | .any :: ts, s => (ends s).any (matchesToks ts)

/-- `s LIKE p ESCAPE e` and `ILIKE`; the escape character is the backslash unless given. -/
def like (escape : Option Char) (ignoreCase : Bool) (s p : Text) : Bool :=
  if ignoreCase then matchesToks (toks (escape.getD '\\') (p.map Char.toLower)) (s.map Char.toLower)
  else matchesToks (toks (escape.getD '\\') p) s

def like3 (escape : Option Char) (ignoreCase : Bool) : Val → Val → Option Bool
  | .str s, .str p => some (like escape ignoreCase s p)
  | _, _ => none

/-- The value of an operand; `cast` is the engine's cast. -/
def eval (cast : Ty → Val → Val) (r : Row) : Scalar → Val
  | .col n => r n
  | .lit l => l.val
  | .cast e t => cast t (eval cast r e)
  | .other f => f r

def truth : Val → Option Bool
  | .bool b => some b
  | _ => none

/-- The truth value of a condition in SQL. -/
def sql (cast : Ty → Val → Val) (r : Row) : Pred → Option Bool
  | .scalar e => truth (eval cast r e)
  | .cmp op a b => (order (eval cast r a) (eval cast r b)).map (says op)
  | .and a b => and3 (sql cast r a) (sql cast r b)
  | .or a b => or3 (sql cast r a) (sql cast r b)
  | .isNull e => some (eval cast r e = .null)
  | .isNotNull e => some (eval cast r e ≠ .null)
  | .not p => not3 (sql cast r p)
  | .inList e items neg =>
    if neg then not3 (in3 (eval cast r e) (items.map (eval cast r))) else in3 (eval cast r e) (items.map (eval cast r))
  | .like neg e p esc ci =>
    if neg then not3 (like3 esc ci (eval cast r e) (eval cast r p)) else like3 esc ci (eval cast r e) (eval cast r p)

/-- The row is in the answer. -/
def keeps (cast : Ty → Val → Val) (p : Pred) (r : Row) : Bool := sql cast r p == some true

/-- Equality in Python: values of different kinds are different. Nothing is said about nulls. -/
def pyEq : Val → Val → Option Bool
  | .null, _ => none
  | _, .null => none
  | .bool a, .bool b => some (a == b)
  | .int a, .int b => some (a == b)
  | .str a, .str b => some (a == b)
  | .bool a, .int b => some ((if a then 1 else 0) == b)
  | .int a, .bool b => some (a == (if b then 1 else 0))
  | _, _ => some false

def pyIn (v : Val) : List Val → Option Bool
  | [] => some false
  | w :: ws => or3 (pyEq v w) (pyIn v ws)

def text? : Val → Option Text
  | .str s => some s
  | _ => none

/-- What the documentation of `pyspark.sql.datasource` says of a filter; `none` where it leaves the
answer to the reader, as for nulls. -/
def meaning (r : Row) : PyFilter → Option Bool
  | .equalTo c v => pyEq (r c) v.val
  | .greaterThan c v => (order (r c) v.val).map (says .gt)
  | .greaterThanOrEqual c v => (order (r c) v.val).map (says .ge)
  | .lessThan c v => (order (r c) v.val).map (says .lt)
  | .lessThanOrEqual c v => (order (r c) v.val).map (says .le)
  | .isNull c => some (r c = .null)
  | .isNotNull c => some (r c ≠ .null)
  | .isIn c vs => pyIn (r c) (vs.map Lit.val)
  | .not f => not3 (meaning r f)
  | .and f g => and3 (meaning r f) (meaning r g)
  | .or f g => or3 (meaning r f) (meaning r g)
  | .startsWith c s => (text? (r c)).map (fun t => s.isPrefixOf t)
  | .endsWith c s => (text? (r c)).map (fun t => s.isSuffixOf t)
  | .contains c s => (text? (r c)).map (fun t => (ends t).any (fun u => s.isPrefixOf u))

/-- A reader of the rows `rows`: it accepts some of the filters, and of all rows drops only those for
which an accepted filter is not true; where the meaning is open it may do as it likes. -/
structure Reader (rows : List Row) where
  accepts : PyFilter → Bool
  decide : PyFilter → Row → Bool
  right : ∀ f r b, meaning r f = some b → decide f r = b

def Reader.read {rows : List Row} (rd : Reader rows) (fs : List PyFilter) : List Row :=
  rows.filter (fun r => (fs.filter rd.accepts).all (fun f => rd.decide f r))

/-- The casts around an operand leave the value of the row as it is. -/
def castsKeep (cast : Ty → Val → Val) (r : Row) : Scalar → Prop
  | .cast e t => castsKeep cast r e ∧ cast t (eval cast r e) = eval cast r e
  | _ => True

/-- The pattern has no `_` and no escape character. -/
def plainPattern (esc : Option Char) : Scalar → Prop
  | .lit (.str p) => '_' ∉ p ∧ esc.getD '\\' ∉ p
  | _ => True

/-- No cast changes a value, and LIKE is neither negated nor case-insensitive and has a plain
pattern. -/
def plain (cast : Ty → Val → Val) (r : Row) : Pred → Prop
  | .cmp _ a b => castsKeep cast r a ∧ castsKeep cast r b
  | .isNull e => castsKeep cast r e
  | .isNotNull e => castsKeep cast r e
  | .not p => plain cast r p
  | .inList e items _ => castsKeep cast r e ∧ ∀ i ∈ items, castsKeep cast r i
  | .like neg e p esc ci => neg = false ∧ ci = false ∧ castsKeep cast r e ∧ plainPattern esc p
  | _ => True

end Spec

open Spec

/-! ## Operands -/

theorem column_eval (cast : Ty → Val → Val) (r : Row) (e : Scalar) (c : String) (h : exprToColumn e = some c)
    (hk : castsKeep cast r e) : eval cast r e = r c := by
  induction e with
  | col n => simp only [exprToColumn, Option.some.injEq] at h; subst h; rfl
  | lit l => simp [exprToColumn] at h
  | other f => simp [exprToColumn] at h
  | cast e t ih =>
    simp only [exprToColumn] at h
    exact hk.2.trans (ih h hk.1)

theorem fromScalar_eq (l v : Lit) (h : fromScalar l = some v) : v = l := by
  cases l with
  | int bits i =>
    simp only [fromScalar] at h
    split at h
    · exact (Option.some.inj h).symm
    · cases h
  | _ => simp [fromScalar] at h <;> exact h.symm

theorem value_eval (cast : Ty → Val → Val) (r : Row) (e : Scalar) (v : Lit) (h : exprToValue e = some v)
    (hk : castsKeep cast r e) : eval cast r e = v.val := by
  induction e with
  | col n => simp [exprToValue] at h
  | lit l => simp only [exprToValue] at h; rw [fromScalar_eq l v h]; rfl
  | other f => simp [exprToValue] at h
  | cast e t ih =>
    simp only [exprToValue] at h
    exact hk.2.trans (ih h hk.1)

theorem values_eval (cast : Ty → Val → Val) (r : Row) : ∀ (es : List Scalar) (vs : List Lit),
    exprsToValues es = some vs → (∀ e ∈ es, castsKeep cast r e) → es.map (eval cast r) = vs.map Lit.val
  | [], vs, h, _ => by simp only [exprsToValues, Option.some.injEq] at h; subst h; rfl
  | e :: es, vs, h, hk => by
    simp only [exprsToValues, Option.bind_eq_some_iff, Option.map_eq_some_iff] at h
    obtain ⟨v, hv, ws, hws, rfl⟩ := h
    simp only [List.map_cons]
    rw [value_eval cast r e v hv (hk e (by simp)), values_eval cast r es ws hws (fun x hx => hk x (by simp [hx]))]

/-! ## Comparisons -/

theorem compareOfLessAndEq_eq (a b : Text) : (compareOfLessAndEq a b = .eq) ↔ a = b := by
  unfold compareOfLessAndEq
  by_cases h : a < b
  · simp only [h, if_true, reduceCtorEq, false_iff]
    rintro rfl; exact absurd h (List.lt_irrefl a)
  · simp only [h, if_false]
    by_cases h2 : a = b <;> simp [h2]

theorem order_eq (v w : Val) (o : Ordering) (h : order v w = some o) : pyEq v w = some (decide (o = .eq)) := by
  cases v <;> cases w <;> simp only [order, Option.some.injEq, reduceCtorEq] at h
  · subst h
    rename_i a b
    cases a <;> cases b <;> rfl
  · subst h
    rename_i a b
    simp only [pyEq, Option.some.injEq, Int.compare_eq_eq]
    exact Bool.eq_iff_iff.2 (by simp)
  · subst h
    rename_i a b
    simp only [pyEq, Option.some.injEq, compareOfLessAndEq_eq]
    exact Bool.eq_iff_iff.2 (by simp)

/-- `b` says at least what `a` says. -/
def Sharper (a b : Option Bool) : Prop := ∀ x, a = some x → b = some x

theorem sharper_eq (v w : Val) : Sharper ((order v w).map (says .eq)) (pyEq v w) := fun x h => by
  obtain ⟨o, ho, rfl⟩ := Option.map_eq_some_iff.1 h
  rw [order_eq v w o ho]
  rfl

theorem Sharper.not {a b : Option Bool} (h : Sharper a b) : Sharper (not3 a) (not3 b) := fun x hx => by
  cases a with
  | none => simp [not3] at hx
  | some y => rw [h y rfl]; exact hx

theorem Sharper.or {a b c d : Option Bool} (h : Sharper a b) (k : Sharper c d) : Sharper (or3 a c) (or3 b d) := by
  intro x hx
  rcases a with _ | a <;> rcases c with _ | c
  · simp [or3, not3, and3] at hx
  · rw [k c rfl]
    cases c
    · simp [or3, not3, and3] at hx
    · rcases b with _ | _ | _ <;> simp [or3, not3, and3] at hx ⊢ <;> exact hx
  · rw [h a rfl]
    cases a
    · simp [or3, not3, and3] at hx
    · rcases d with _ | _ | _ <;> simp [or3, not3, and3] at hx ⊢ <;> exact hx
  · rw [h a rfl, k c rfl]; exact hx

theorem Sharper.refl (a : Option Bool) : Sharper a a := fun _ h => h

theorem sharper_in (v : Val) : ∀ ws : List Val, Sharper (in3 v ws) (pyIn v ws)
  | [] => Sharper.refl _
  | w :: ws => (sharper_eq v w).or (sharper_in v ws)

theorem sharper_cmp (op : Cmp) (r : Row) (c : String) (v : Lit) :
    Sharper ((order (r c) v.val).map (says op)) (meaning r (cmpFilter op c v)) := by
  cases op with
  | eq => exact sharper_eq _ _
  | ne =>
    intro x h
    obtain ⟨o, ho, rfl⟩ := Option.map_eq_some_iff.1 h
    simp only [cmpFilter, meaning, order_eq _ _ o ho, not3, says]
    cases o <;> rfl
  | _ => exact Sharper.refl _

/-! ## Patterns -/

theorem toks_plain (esc : Char) : ∀ p : Text, '%' ∉ p → '_' ∉ p → esc ∉ p → toks esc p = p.map .char
  | [], _, _, _ => rfl
  | [c], h1, h2, _ => by
    have a : c ≠ '%' := fun e => h1 (by simp [e])
    have b : c ≠ '_' := fun e => h2 (by simp [e])
    simp [toks, a, b]
  | c :: d :: r, h1, h2, h3 => by
    have a : c ≠ '%' := fun e => h1 (by simp [e])
    have b : c ≠ '_' := fun e => h2 (by simp [e])
    have e : c ≠ esc := fun e => h3 (by simp [e])
    simp only [toks, if_neg a, if_neg b, if_neg e, List.map_cons]
    rw [toks_plain esc (d :: r) (fun h => h1 (List.mem_cons_of_mem _ h)) (fun h => h2 (List.mem_cons_of_mem _ h))
      (fun h => h3 (List.mem_cons_of_mem _ h))]
    rfl

theorem toks_plain_append (esc : Char) : ∀ p q : Text, '%' ∉ p → '_' ∉ p → esc ∉ p → q ≠ [] →
    toks esc (p ++ q) = p.map .char ++ toks esc q
  | [], _, _, _, _, _ => rfl
  | c :: p, q, h1, h2, h3, hq => by
    have a : c ≠ '%' := fun e => h1 (by simp [e])
    have b : c ≠ '_' := fun e => h2 (by simp [e])
    have e : c ≠ esc := fun e => h3 (by simp [e])
    have ih := toks_plain_append esc p q (fun h => h1 (List.mem_cons_of_mem _ h)) (fun h => h2 (List.mem_cons_of_mem _ h))
      (fun h => h3 (List.mem_cons_of_mem _ h)) hq
    cases hpq : p ++ q with
    | nil => simp at hpq; exact absurd hpq.2 hq
    | cons d r =>
      rw [hpq] at ih
      simp only [List.cons_append, List.map_cons, hpq, toks, if_neg a, if_neg b, if_neg e, ih]

theorem toks_percent (esc : Char) (q : Text) (h : esc ≠ '%') : toks esc ('%' :: q) = .any :: toks esc q := by
  cases q with
  | nil => simp [toks]
  | cons d r => simp [toks, h.symm]

theorem matches_chars : ∀ (p : Text) (ts : List Tok) (s : Text),
    matchesToks (p.map .char ++ ts) s = true ↔ ∃ t, s = p ++ t ∧ matchesToks ts t = true
  | [], ts, s => by simp
  | c :: p, ts, [] => by simp [matchesToks]
  | c :: p, ts, d :: s => by
    simp only [List.map_cons, List.cons_append, matchesToks, Bool.and_eq_true, decide_eq_true_eq, matches_chars p ts s,
      List.cons.injEq]
    constructor
    · rintro ⟨rfl, t, rfl, h⟩; exact ⟨t, ⟨rfl, rfl⟩, h⟩
    · rintro ⟨t, ⟨rfl, rfl⟩, h⟩; exact ⟨rfl, t, rfl, h⟩

theorem mem_ends : ∀ (s t : Text), t ∈ ends s ↔ t <:+ s
  | [], t => by simp [ends]
  | c :: s, t => by simp [ends, mem_ends s t, List.suffix_cons_iff]

theorem matches_any (ts : List Tok) (s : Text) :
    matchesToks (.any :: ts) s = true ↔ ∃ t, t <:+ s ∧ matchesToks ts t = true := by
  simp [matchesToks, mem_ends]

theorem matches_any_nil (s : Text) : matchesToks [.any] s = true := by
  rw [matches_any]; exact ⟨[], List.nil_suffix, rfl⟩

theorem matches_nil (s : Text) : matchesToks [] s = true ↔ s = [] := by simp [matchesToks]

theorem not_mem_of_getLast {p : Text} (h : p.getLast? = some '%') : p = p.dropLast ++ ['%'] := by
  have hne : p ≠ [] := by rintro rfl; simp at h
  have := List.dropLast_concat_getLast hne
  rw [List.getLast?_eq_some_getLast hne] at h
  rw [Option.some.inj h] at this
  exact this.symm

theorem head_drop {p : Text} (h : p.head? = some '%') : p = '%' :: p.drop 1 := by
  cases p with
  | nil => simp at h
  | cons c r => simp at h; subst h; rfl

theorem sharper_like (r : Row) (c : String) (p : Text) (f : PyFilter) (esc : Option Char)
    (hf : likeFilter c p = some f) (hp : '_' ∉ p ∧ esc.getD '\\' ∉ p) :
    Sharper (like3 esc false (r c) (.str p)) (meaning r f) := by
  intro x hx
  cases hv : r c with
  | str s =>
    simp only [hv, like3, like, Bool.false_eq_true, if_false, Option.some.injEq] at hx
    generalize hE : esc.getD '\\' = E at hx hp
    unfold likeFilter at hf
    split at hf
    · rename_i h1
      obtain ⟨hh, hl, hlen⟩ := h1
      split at hf
      · rename_i h2
        cases hf
        have e1 := head_drop hh
        have hl2 : (p.drop 1).getLast? = some '%' := by
          rw [e1] at hl hlen
          rw [← hl]
          cases hd : p.drop 1 with
          | nil => rw [hd] at hlen; simp at hlen
          | cons a b => simp [List.getLast?_cons_cons]
        have e2 := not_mem_of_getLast hl2
        have hE' : E ≠ '%' := fun e => hp.2 (by rw [e, e1]; simp)
        have hEm : E ∉ (p.drop 1).dropLast := fun h => hp.2 (by
          rw [e1, e2]; simp only [List.mem_cons, List.mem_append]; exact Or.inr (Or.inl h))
        generalize hq : (p.drop 1).dropLast = q at *
        rw [e1, toks_percent E _ hE', e2, toks_plain_append E q ['%'] h2.1 h2.2 hEm (by simp)] at hx
        have ht : toks E ['%'] = [.any] := by simp [toks]
        rw [ht] at hx
        simp only [meaning, text?, hv, Option.map_some, Option.some.injEq]
        rw [← hx]
        apply Bool.eq_iff_iff.2
        rw [matches_any]
        simp only [List.any_eq_true, mem_ends, List.isPrefixOf_iff_prefix]
        constructor
        · rintro ⟨t, ht, hpre⟩
          refine ⟨t, ht, (matches_chars q [.any] t).2 ?_⟩
          obtain ⟨u, hu⟩ := hpre
          exact ⟨u, hu.symm, matches_any_nil u⟩
        · rintro ⟨t, ht, hm⟩
          obtain ⟨u, hu, _⟩ := (matches_chars q [.any] t).1 hm
          exact ⟨t, ht, u, hu.symm⟩
      · cases hf
    · split at hf
      · rename_i h2
        cases hf
        have e2 := not_mem_of_getLast h2.1
        have hm : ∀ c, c ∉ p → c ∉ p.dropLast := fun c h k => h ((List.dropLast_sublist p).subset k)
        have htk : toks E p = p.dropLast.map .char ++ toks E ['%'] := by
          have := toks_plain_append E p.dropLast ['%'] h2.2 (hm _ hp.1) (hm _ hp.2) (by simp)
          rw [← e2] at this
          exact this
        have ht : toks E ['%'] = [.any] := by simp [toks]
        rw [htk, ht] at hx
        simp only [meaning, text?, hv, Option.map_some, Option.some.injEq]
        rw [← hx]
        apply Bool.eq_iff_iff.2
        rw [matches_chars, List.isPrefixOf_iff_prefix]
        constructor
        · rintro ⟨u, hu⟩; exact ⟨u, hu.symm, matches_any_nil u⟩
        · rintro ⟨u, hu, _⟩; exact ⟨u, hu.symm⟩
      · split at hf
        · rename_i h3
          cases hf
          have e1 := head_drop h3.1
          have hE' : E ≠ '%' := fun e => hp.2 (by rw [e, e1]; simp)
          have hm : ∀ c, c ∉ p → c ∉ p.drop 1 := fun c h k => h (List.mem_of_mem_drop k)
          have htk : toks E p = .any :: (p.drop 1).map .char := by
            rw [← toks_plain E (p.drop 1) h3.2 (hm _ hp.1) (hm _ hp.2), ← toks_percent E _ hE', ← e1]
          rw [htk] at hx
          simp only [meaning, text?, hv, Option.map_some, Option.some.injEq]
          rw [← hx]
          apply Bool.eq_iff_iff.2
          rw [matches_any]
          simp only [List.isSuffixOf_iff_suffix]
          have key : ∀ t, matchesToks ((p.drop 1).map .char) t = true ↔ t = p.drop 1 := fun t => by
            have := matches_chars (p.drop 1) [] t
            rw [List.append_nil] at this
            rw [this]
            constructor
            · rintro ⟨u, hu, h0⟩; rw [(matches_nil u).1 h0, List.append_nil] at hu; exact hu
            · rintro rfl; exact ⟨[], by simp, rfl⟩
          constructor
          · intro h; exact ⟨_, h, (key _).2 rfl⟩
          · rintro ⟨t, ht, hk⟩; rw [(key t).1 hk] at ht; exact ht
        · cases hf
  | _ => simp [hv, like3] at hx

/-! ## Conditions -/

theorem and_not_pushed (l r : Pred) : exprToFilter (.and l r) = none := by
  cases l <;> simp [exprToFilter, Pred.scalar?]

theorem or_not_pushed (l r : Pred) : exprToFilter (.or l r) = none := by
  cases l <;> simp [exprToFilter, Pred.scalar?]

theorem filter_meaning (cast : Ty → Val → Val) (r : Row) (p : Pred) (f : PyFilter) (h : exprToFilter p = some f)
    (hp : plain cast r p) : Sharper (sql cast r p) (meaning r f) := by
  induction p generalizing f with
  | scalar e => simp [exprToFilter] at h
  | and a b => rw [and_not_pushed] at h; cases h
  | or a b => rw [or_not_pushed] at h; cases h
  | cmp op a b =>
    simp only [exprToFilter, Option.bind_eq_some_iff, Option.map_eq_some_iff] at h
    obtain ⟨c, hc, v, hv, rfl⟩ := h
    simp only [sql, column_eval cast r a c hc hp.1, value_eval cast r b v hv hp.2]
    exact sharper_cmp op r c v
  | isNull e =>
    simp only [exprToFilter, Option.map_eq_some_iff] at h
    obtain ⟨c, hc, rfl⟩ := h
    simp only [sql, column_eval cast r e c hc hp, meaning]
    exact Sharper.refl _
  | isNotNull e =>
    simp only [exprToFilter, Option.map_eq_some_iff] at h
    obtain ⟨c, hc, rfl⟩ := h
    simp only [sql, column_eval cast r e c hc hp, meaning]
    exact Sharper.refl _
  | not p ih =>
    simp only [exprToFilter, Option.map_eq_some_iff] at h
    obtain ⟨g, hg, rfl⟩ := h
    exact (ih g hg hp).not
  | inList e items neg =>
    simp only [exprToFilter, Option.bind_eq_some_iff, Option.map_eq_some_iff] at h
    obtain ⟨c, hc, vs, hvs, rfl⟩ := h
    have hs := sharper_in (r c) (vs.map Lit.val)
    simp only [sql, column_eval cast r e c hc hp.1, values_eval cast r items vs hvs hp.2]
    cases neg
    · exact hs
    · exact hs.not
  | like neg e p esc ci =>
    obtain ⟨rfl, rfl, hk, hpat⟩ := hp
    simp only [exprToFilter, Option.bind_eq_some_iff] at h
    obtain ⟨c, hc, h⟩ := h
    split at h
    · rename_i p
      simp only [sql, column_eval cast r e c hc hk]
      exact sharper_like r c p f esc h hpat
    · cases h

theorem filter_filter_of_imp {α : Type} (p q : α → Bool) (l : List α) (h : ∀ a ∈ l, q a = true → p a = true) :
    (l.filter p).filter q = l.filter q := by
  rw [List.filter_filter]
  apply List.filter_congr
  intro a ha
  cases hq : q a
  · simp
  · simp [h a ha hq]

/-- C123. Pushing the conditions to the reader does not change the answer, for conditions whose casts
keep the values and whose LIKE is plain. Missing for the full claim: the conditions below, for which
it is false. -/
theorem C123_no_rows_lost_partial (cast : Ty → Val → Val) (rows : List Row) (rd : Reader rows) (ps : List Pred)
    (h : ∀ p ∈ ps, ∀ r ∈ rows, plain cast r p) :
    scan rd.read (keeps cast) ps = rows.filter (fun r => ps.all (fun p => keeps cast p r)) := by
  refine filter_filter_of_imp _ _ _ (fun r hr hall => ?_)
  simp only [List.all_eq_true] at hall ⊢
  intro f hf
  obtain ⟨hf1, -⟩ := List.mem_filter.1 hf
  obtain ⟨p, hp, hpf⟩ := List.mem_filterMap.1 hf1
  have hk := hall p hp
  simp only [keeps, beq_iff_eq] at hk
  exact rd.right f r true (filter_meaning cast r p f hpf (h p hp r hr) true hk)

/-- A condition is handed to the reader whenever it is a comparison of a column with a supported
value, so the theorem above is not about nothing. -/
theorem C123_comparisons_are_pushed (op : Cmp) (c : String) (i : Int) :
    pushed [.cmp op (.col c) (.lit (.int 64 i))] = [cmpFilter op c (.int 64 i)] := by
  simp [pushed, exprToFilter, exprToColumn, exprToValue, fromScalar]

/-- A reader that accepts everything and drops whatever is not known to be true. -/
def Spec.strict (rows : List Row) : Reader rows where
  accepts := fun _ => true
  decide := fun f r => (meaning r f).getD false
  right := fun f r b h => by rw [h]; rfl

/-- C123, refuted for `NOT LIKE`: with a pattern of a text and a final `%`, a reader that accepts the
filter leaves nothing of the answer, whatever the rows are. -/
theorem C123_not_like_is_empty (cast : Ty → Val → Val) (rows : List Row) (rd : Reader rows) (c : String) (p : Text)
    (hp : '%' ∉ p ∧ '_' ∉ p ∧ '\\' ∉ p) (ha : ∀ f, rd.accepts f = true) :
    scan rd.read (keeps cast) [.like true (.col c) (.lit (.str (p ++ ['%']))) none false] = [] := by
  have hf : likeFilter c (p ++ ['%']) = some (.startsWith c p) := by
    unfold likeFilter
    rw [if_neg]
    · simp [hp.1]
    · rintro ⟨h1, -, h3⟩
      cases p with
      | nil => simp at h3
      | cons a b => simp at h1; exact hp.1 (by simp [h1])
  have hpu : pushed [.like true (.col c) (.lit (.str (p ++ ['%']))) none false] = [.startsWith c p] := by
    simp [pushed, exprToFilter, exprToColumn, hf]
  rw [scan, hpu]
  apply List.filter_eq_nil_iff.2
  intro r hr hk
  simp only [List.all_cons, List.all_nil, Bool.and_true, keeps, beq_iff_eq, sql, if_true, eval, Lit.val] at hk
  simp only [Reader.read, List.mem_filter, List.filter_cons, ha, if_true, List.filter_nil, List.all_cons, List.all_nil,
    Bool.and_true] at hr
  cases hl : like3 none false (r c) (.str (p ++ ['%'])) with
  | none => rw [hl] at hk; simp [not3] at hk
  | some b =>
    rw [hl] at hk
    simp only [not3, Option.some.injEq, Bool.not_eq_true'] at hk
    subst hk
    have hb : ('_' : Char) ∉ p ++ ['%'] ∧ (Option.getD none '\\' : Char) ∉ p ++ ['%'] := by
      simp only [List.mem_append, List.mem_singleton, Option.getD_none]
      exact ⟨fun h => h.elim hp.2.1 (by decide), fun h => h.elim hp.2.2 (by decide)⟩
    have := rd.right _ r false (sharper_like r c _ _ none hf hb false hl)
    rw [this] at hr
    exact absurd hr.2 (by simp)

/-- A row with one column. -/
def Spec.row1 (v : Val) : Row := fun _ => v

/-- The engine's cast to boolean, and nothing else. -/
def Spec.castBool : Ty → Val → Val
  | .bool, .int i => .bool (i ≠ 0)
  | _, v => v

/-- C123, refuted for `ILIKE`, for `_` in a pattern, for an escape character and for a cast that
changes the value: each loses the only row. -/
theorem C123_rows_lost :
    let lost (v : Val) (p : Pred) : Prop :=
      keeps castBool p (row1 v) = true ∧ scan (strict [row1 v]).read (keeps castBool) [p] = []
    lost (.str "Abc".toList) (.like false (.col "c") (.lit (.str "a%".toList)) none true) ∧
    lost (.str "abc".toList) (.like false (.col "c") (.lit (.str "a_%".toList)) none false) ∧
    lost (.str "a%".toList) (.like false (.col "c") (.lit (.str "a\\%".toList)) none false) ∧
    lost (.int 2) (.cmp .eq (.cast (.col "c") .bool) (.lit (.bool true))) := by
  refine ⟨⟨by decide +kernel, ?_⟩, ⟨by decide +kernel, ?_⟩, ⟨by decide +kernel, ?_⟩, ⟨by decide +kernel, ?_⟩⟩ <;>
  · apply List.length_eq_zero_iff.1
    decide +kernel

/-! ## Examples -/

/-- Conditions that are pushed, two rows that stay and two that go. -/
example :
    let rows : List Row := [row1 (.str "abc".toList), row1 .null, row1 (.str "xab".toList), row1 (.str "ab".toList)]
    let ps : List Pred := [.like false (.col "c") (.lit (.str "ab%".toList)) none false,
      .not (.inList (.col "c") [.lit (.str "ab".toList)] false)]
    (∀ p ∈ ps, ∀ r ∈ rows, plain castBool r p) ∧ (pushed ps).length = 2 ∧
    ((strict rows).read (pushed ps)).length = 1 := by
  refine ⟨?_, by decide +kernel, by decide +kernel⟩
  intro p hp r _
  simp only [List.mem_cons, List.not_mem_nil, or_false] at hp
  rcases hp with rfl | rfl
  · exact ⟨rfl, rfl, trivial, by decide, by decide⟩
  · exact ⟨trivial, fun i hi => by simp at hi; subst hi; trivial⟩

/-- A reader may keep null where the condition is unknown. -/
example : meaning (row1 .null) (.equalTo "c" (.int 32 1)) = none := rfl

example : pushed [.cmp .ne (.col "c") (.lit (.int 64 5))] = [.not (.equalTo "c" (.int 64 5))] := by decide

example : ('%' : Char) ∉ "ab".toList ∧ '_' ∉ "ab".toList ∧ '\\' ∉ "ab".toList := by decide

end Verif.PySource
