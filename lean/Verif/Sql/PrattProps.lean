import Verif.Sql.Pratt

/-!
# C92: operators bind by their powers
-/

namespace Verif.Sql.Pratt

namespace Spec

/-- The text of an expression, without any parentheses around its parts. -/
def text : Ex → List Tok
  | .atom a => [.atom a]
  | .pre s e => .op s :: text e
  | .inf s l r => text l ++ .op s :: text r
  | .post s e => text e ++ [.op s]
  | .between k e low high => text e ++ .op (.between k) :: (text low ++ .op .and :: text high)
  | .likeEscape k e p c => text e ++ .op (.like k) :: (text p ++ [.op (.escape c)])

/-- The rank of an operator in the table: unary operators 25, `*` 24, `+ - ||` 23, shifts 22, `&` 21, `^` 20,
`|` 19, comparisons 18, predicates 16, `NOT` 15, `AND` 14, `OR` 13; fields, subscripts and casts 26. -/
def rank (o : Option Nat) : Nat := o.getD 0

/-- Nothing looser than the rank is at the left edge of the expression, so an operand of this rank can begin
with it: the operators whose left operand is at the left edge have this rank or a tighter one, or stricter, a
tighter one. -/
def leftTight (strict : Bool) (n : Nat) : Ex → Prop
  | .atom _ => True
  | .pre _ _ => True
  | .inf s l _ => (if strict then n < rank s.inf else n ≤ rank s.inf) ∧ leftTight strict n l
  | .post s e => (if strict then n < rank s.post else n ≤ rank s.post) ∧ leftTight strict n e
  | .between _ e _ _ => (if strict then n < 16 else n ≤ 16) ∧ leftTight strict n e
  | .likeEscape _ e _ _ => (if strict then n < 16 else n ≤ 16) ∧ leftTight strict n e

/-- An operator of the rank that follows the expression takes all of it: the binary operators at its right edge
have this rank or a tighter one, the prefix operators a tighter one. The right operand of `BETWEEN` reaches as far
as that of `AND`. -/
def rightTight (n : Nat) : Ex → Prop
  | .atom _ => True
  | .pre s e => n < rank s.pre ∧ rightTight n e
  | .inf s _ r => n ≤ rank s.inf ∧ rightTight n r
  | .post _ _ => True
  | .between _ _ _ high => n ≤ 14 ∧ rightTight n high
  | .likeEscape _ _ _ _ => n ≤ 16

/-- No `BETWEEN` is at the right edge. -/
def noBetweenRight : Ex → Prop
  | .atom _ => True
  | .pre _ e => noBetweenRight e
  | .inf _ _ r => noBetweenRight r
  | .post _ _ => True
  | .between _ _ _ _ => False
  | .likeEscape _ _ _ _ => True

/-- No part needs parentheses. -/
def Clear : Ex → Prop
  | .atom _ => True
  | .pre s e => s.pre ≠ none ∧ Clear e ∧ leftTight false (rank s.pre) e
  | .inf s l r => s.inf ≠ none ∧ (∀ k, s ≠ .between k) ∧ Clear l ∧ Clear r ∧ rightTight (rank s.inf) l ∧
    leftTight true (rank s.inf) r
  | .post s e => s.post ≠ none ∧ (∀ c, s ≠ .escape c) ∧ Clear e ∧ rightTight (rank s.post) e
  | .between _ e low high => Clear e ∧ Clear low ∧ Clear high ∧ rightTight 16 e ∧ leftTight true 16 low ∧
    rightTight 14 low ∧ noBetweenRight low ∧ leftTight true 14 high
  | .likeEscape _ e p _ => Clear e ∧ Clear p ∧ rightTight 16 e ∧ leftTight true 16 p ∧ rightTight 17 p

end Spec

open Spec

/-! ## The fuel -/

theorem go_length : ∀ (f : Nat), (∀ {m : Nat} {ts : List Tok} {e : Frag} {r : List Tok},
      go f m ts = some (e, r) → r.length < ts.length) ∧
    (∀ {m : Nat} {l : Frag} {ts : List Tok}, (loop f m l ts).2.length ≤ ts.length) := by
  intro f
  induction f with
  | zero =>
    refine ⟨?_, ?_⟩
    · intro m ts e r h; cases ts <;> simp [go] at h
    · intro m l ts; cases ts <;> simp [loop]
  | succ f ih =>
    obtain ⟨ih1, ih2⟩ := ih
    refine ⟨?_, ?_⟩
    · intro m ts e r h
      match ts with
      | [] => simp [go] at h
      | .atom a :: t =>
        simp only [go, Option.some.injEq] at h
        have := ih2 (m := m) (l := .single (.atom a)) (ts := t)
        rw [h] at this
        have h2 : r.length ≤ t.length := this
        simp only [List.length_cons]
        omega
      | .op s :: t =>
        simp only [go] at h
        split at h
        · cases h
        · split at h
          · cases h
          · rename_i p _ e' r' h'
            simp only [Option.some.injEq] at h
            have h1 := ih1 h'
            have h2 := ih2 (m := m) (l := .pre s e') (ts := r')
            rw [h] at h2
            have h3 : r.length ≤ r'.length := h2
            simp only [List.length_cons]
            omega
    · intro m l ts
      match ts with
      | [] => simp [loop]
      | .atom a :: t => simp [loop]
      | .op s :: t =>
        simp only [loop]
        split
        · split
          · have := ih2 (m := m) (l := .post s l) (ts := t)
            simp only [List.length_cons]
            omega
          · exact Nat.le_refl _
        · split
          · exact Nat.le_refl _
          · split
            · split
              · exact Nat.le_refl _
              · rename_i e' r' h'
                have h1 := ih1 h'
                have h2 := ih2 (m := m) (l := .inf s l e') (ts := r')
                simp only [List.length_cons]
                omega
            · exact Nat.le_refl _

/-- More fuel than tokens is enough. -/
theorem go_fuel : ∀ (n : Nat) (ts : List Tok), ts.length ≤ n → ∀ (f g m : Nat), n < f → n < g →
    go f m ts = go g m ts ∧ ∀ l, loop f m l ts = loop g m l ts := by
  intro n
  induction n with
  | zero =>
    intro ts hl f g m hf hg
    have : ts = [] := List.length_eq_zero_iff.mp (by omega)
    subst this
    obtain ⟨f, rfl⟩ : ∃ f', f = f' + 1 := ⟨f - 1, by omega⟩
    obtain ⟨g, rfl⟩ : ∃ g', g = g' + 1 := ⟨g - 1, by omega⟩
    exact ⟨rfl, fun _ => rfl⟩
  | succ n ih =>
    intro ts hl f g m hf hg
    obtain ⟨f, rfl⟩ : ∃ f', f = f' + 1 := ⟨f - 1, by omega⟩
    obtain ⟨g, rfl⟩ : ∃ g', g = g' + 1 := ⟨g - 1, by omega⟩
    match ts with
    | [] => exact ⟨rfl, fun _ => rfl⟩
    | .atom a :: t =>
      simp only [List.length_cons] at hl
      refine ⟨?_, fun _ => rfl⟩
      simp only [go]
      rw [(ih t (by omega) f g m (by omega) (by omega)).2]
    | .op s :: t =>
      simp only [List.length_cons] at hl
      refine ⟨?_, ?_⟩
      · simp only [go]
        cases s.pre with
        | none => rfl
        | some p =>
          simp only
          rw [(ih t (by omega) f g (2 * p) (by omega) (by omega)).1]
          cases h : go g (2 * p) t with
          | none => rfl
          | some x =>
            have := (go_length g).1 h
            simp only
            rw [(ih x.2 (by omega) f g m (by omega) (by omega)).2]
      · intro l
        simp only [loop]
        cases s.post with
        | some p =>
          simp only
          rw [(ih t (by omega) f g m (by omega) (by omega)).2]
        | none =>
          cases s.inf with
          | none => rfl
          | some p =>
            simp only
            rw [(ih t (by omega) f g (2 * p + 1) (by omega) (by omega)).1]
            cases h : go g (2 * p + 1) t with
            | none => rfl
            | some x =>
              have := (go_length g).1 h
              simp only
              rw [(ih x.2 (by omega) f g m (by omega) (by omega)).2]

/-- The parser with enough fuel. -/
def goN (m : Nat) (ts : List Tok) : Option (Frag × List Tok) := go (ts.length + 1) m ts

/-- The loop with enough fuel. -/
def loopN (m : Nat) (l : Frag) (ts : List Tok) : Frag × List Tok := loop (ts.length + 1) m l ts

theorem goN_atom (m a : Nat) (r : List Tok) : goN m (.atom a :: r) = some (loopN m (.single (.atom a)) r) := by
  simp only [goN, List.length_cons, go, loopN]

theorem goN_pre {s : Sym} {p m : Nat} {r r' : List Tok} {e : Frag} (hs : s.pre = some p) (h : goN (2 * p) r = some (e, r')) :
    goN m (.op s :: r) = some (loopN m (.pre s e) r') := by
  have hl := (go_length _).1 h
  rw [goN] at h
  simp only [goN, List.length_cons, go, hs, h, loopN]
  rw [(go_fuel r.length r' (by omega) (r.length + 1) (r'.length + 1 + r.length) m (by omega) (by omega)).2,
    (go_fuel r'.length r' (by omega) (r'.length + 1 + r.length) (r'.length + 1) m (by omega) (by omega)).2]

theorem loopN_post {s : Sym} {p m : Nat} {l : Frag} {r : List Tok} (hs : s.post = some p) (hm : m ≤ 2 * p) :
    loopN m l (.op s :: r) = loopN m (.post s l) r := by
  simp only [loopN, List.length_cons, loop, hs, hm, if_true]

theorem loopN_inf {s : Sym} {p m : Nat} {l e : Frag} {r r' : List Tok} (hp : s.post = none) (hs : s.inf = some p)
    (hm : m ≤ 2 * p) (h : goN (2 * p + 1) r = some (e, r')) :
    loopN m l (.op s :: r) = loopN m (.inf s l e) r' := by
  have hl := (go_length _).1 h
  rw [goN] at h
  simp only [loopN, List.length_cons, loop, hp, hs, hm, if_true, h]
  rw [(go_fuel r.length r' (by omega) (r.length + 1) (r'.length + 1 + r.length) m (by omega) (by omega)).2,
    (go_fuel r'.length r' (by omega) (r'.length + 1 + r.length) (r'.length + 1) m (by omega) (by omega)).2]

/-- The operator that follows, if any, is looser than the power. -/
def Looser (m : Nat) : List Tok → Prop
  | .op s :: _ => (∀ p, s.post = some p → 2 * p < m) ∧ (∀ p, s.inf = some p → 2 * p < m)
  | _ => True

theorem loopN_stop {m : Nat} {l : Frag} {r : List Tok} (h : Looser m r) : loopN m l r = (l, r) := by
  match r, h with
  | [], _ => rfl
  | .atom a :: r, _ => rfl
  | .op s :: r, h =>
    simp only [loopN, List.length_cons, loop]
    cases hp : s.post with
    | some p =>
      have := h.1 p hp
      simp only
      rw [if_neg (by omega)]
    | none =>
      cases hi : s.inf with
      | none => rfl
      | some p =>
        have := h.2 p hi
        simp only
        rw [if_neg (by omega)]

/-! ## Fragments -/

/-- The tokens of a fragment. -/
def flat : Frag → List Tok
  | .single e => text e
  | .pre s e => .op s :: flat e
  | .inf s l r => flat l ++ .op s :: flat r
  | .post s e => flat e ++ [.op s]

/-- The operators at the left edge have at least the power. -/
def leftOk (m : Nat) : Frag → Prop
  | .single _ => True
  | .pre _ _ => True
  | .inf s l _ => m ≤ 2 * rank s.inf ∧ leftOk m l
  | .post s e => m ≤ 2 * rank s.post ∧ leftOk m e

/-- An operator of the power does not get into the right edge. -/
def rightOk (n : Nat) : Frag → Prop
  | .single _ => True
  | .pre s e => n < 2 * rank s.pre ∧ rightOk n e
  | .inf s _ r => n < 2 * rank s.inf + 1 ∧ rightOk n r
  | .post _ _ => True

/-- What the parser can return. -/
def WF : Frag → Prop
  | .single e => ∃ a, e = .atom a
  | .pre s e => s.pre ≠ none ∧ WF e ∧ leftOk (2 * rank s.pre) e
  | .inf s l r => s.inf ≠ none ∧ WF l ∧ WF r ∧ rightOk (2 * rank s.inf) l ∧ leftOk (2 * rank s.inf + 1) r
  | .post s e => s.post ≠ none ∧ WF e ∧ rightOk (2 * rank s.post) e

/-- The operator that follows does not get into the right edge. -/
def Ends (e : Frag) : List Tok → Prop
  | .op s :: _ => (∀ p, s.post = some p → rightOk (2 * p) e) ∧ (∀ p, s.inf = some p → rightOk (2 * p) e)
  | _ => True

theorem inf_post {s : Sym} {p : Nat} (h : s.inf = some p) : s.post = none := by
  cases s <;> first | rfl | cases h

theorem post_inf {s : Sym} {p : Nat} (h : s.post = some p) : s.inf = none := by
  cases s <;> first | rfl | cases h

/-- The parser finds every fragment that it can return. -/
theorem go_flat {e : Frag} (hw : WF e) : ∀ {m : Nat} {r : List Tok}, leftOk m e → Ends e r →
    goN m (flat e ++ r) = some (loopN m e r) := by
  induction e with
  | single e =>
    intro m r _ _
    obtain ⟨a, rfl⟩ := hw
    exact goN_atom m a r
  | pre s e ih =>
    intro m r _ hr
    obtain ⟨h1, h2, h3⟩ := hw
    obtain ⟨p, hp⟩ := Option.ne_none_iff_exists'.mp h1
    have hrank : rank s.pre = p := by rw [hp]; rfl
    rw [hrank] at h3
    have he : Ends e r := by
      match r, hr with
      | [], _ => trivial
      | .atom a :: r, _ => trivial
      | .op t :: r, hr => exact ⟨fun p hp => (hr.1 p hp).2, fun p hp => (hr.2 p hp).2⟩
    have hl : Looser (2 * p) r := by
      match r, hr with
      | [], _ => trivial
      | .atom a :: r, _ => trivial
      | .op t :: r, hr =>
        exact ⟨fun q hq => by have := (hr.1 q hq).1; omega, fun q hq => by have := (hr.2 q hq).1; omega⟩
    have := ih h2 h3 he
    rw [loopN_stop hl] at this
    exact goN_pre hp this
  | inf s l r ihl ihr =>
    intro m t hm ht
    obtain ⟨h1, h2, h3, h4, h5⟩ := hw
    obtain ⟨p, hp⟩ := Option.ne_none_iff_exists'.mp h1
    have hrank : rank s.inf = p := by rw [hp]; rfl
    rw [hrank] at h4 h5
    obtain ⟨hm1, hm2⟩ := hm
    rw [hrank] at hm1
    have he : Ends r t := by
      match t, ht with
      | [], _ => trivial
      | .atom a :: t, _ => trivial
      | .op x :: t, ht => exact ⟨fun q hq => (ht.1 q hq).2, fun q hq => (ht.2 q hq).2⟩
    have hl : Looser (2 * p + 1) t := by
      match t, ht with
      | [], _ => trivial
      | .atom a :: t, _ => trivial
      | .op x :: t, ht =>
        exact ⟨fun q hq => by have := (ht.1 q hq).1; omega, fun q hq => by have := (ht.2 q hq).1; omega⟩
    have e1 := ihr h3 h5 he
    rw [loopN_stop hl] at e1
    have e2 := ihl h2 (m := m) (r := .op s :: (flat r ++ t)) hm2
      ⟨(fun q hq => by rw [inf_post hp] at hq; cases hq), (fun q hq => by rw [hp] at hq; cases hq; exact h4)⟩
    rw [loopN_inf (inf_post hp) hp hm1 e1] at e2
    rw [flat, List.append_assoc, List.cons_append]
    exact e2
  | post s e ih =>
    intro m t hm ht
    obtain ⟨h1, h2, h3⟩ := hw
    obtain ⟨p, hp⟩ := Option.ne_none_iff_exists'.mp h1
    have hrank : rank s.post = p := by rw [hp]; rfl
    rw [hrank] at h3
    obtain ⟨hm1, hm2⟩ := hm
    rw [hrank] at hm1
    have e2 := ih h2 (m := m) (r := .op s :: t) hm2
      ⟨(fun q hq => by rw [hp] at hq; cases hq; exact h3), (fun q hq => by rw [post_inf hp] at hq; cases hq)⟩
    rw [loopN_post hp hm1] at e2
    rw [flat, List.append_assoc]
    exact e2

/-! ## The fragment of an expression -/

/-- A fragment and the operands of the `AND`s that follow. -/
def close (c : Frag) (hs : List Frag) : Frag := hs.foldl (fun a h => .inf .and a h) c

/-- The fragment that the parser finds for an expression: an upper bound gets out of all operators that are
tighter than `AND`. -/
def unb : Ex → Frag × List Frag
  | .atom a => (.single (.atom a), [])
  | .pre s e => (.pre s (unb e).1, (unb e).2)
  | .inf s l r =>
    if 14 ≤ rank s.inf then (.inf s (close (unb l).1 (unb l).2) (unb r).1, (unb r).2)
    else (.inf s (close (unb l).1 (unb l).2) (close (unb r).1 (unb r).2), [])
  | .post s e => (.post s (close (unb e).1 (unb e).2), [])
  | .between k e low high =>
    (.inf (.between k) (close (unb e).1 (unb e).2) (close (unb low).1 (unb low).2), (unb high).1 :: (unb high).2)
  | .likeEscape k e p c =>
    (.inf (.like k) (close (unb e).1 (unb e).2) (.post (.escape c) (close (unb p).1 (unb p).2)), [])

/-- The tokens of the operands that follow. -/
def flatHs (hs : List Frag) : List Tok := hs.flatMap (fun h => .op .and :: flat h)

theorem flatHs_nil : flatHs [] = [] := rfl

theorem flatHs_cons (h : Frag) (hs : List Frag) : flatHs (h :: hs) = .op .and :: (flat h ++ flatHs hs) := by
  rw [flatHs, List.flatMap_cons]; rfl

theorem flat_close (c : Frag) (hs : List Frag) : flat (close c hs) = flat c ++ flatHs hs := by
  induction hs generalizing c with
  | nil => simp [close, flatHs]
  | cons h hs ih =>
    rw [show close c (h :: hs) = close (.inf .and c h) hs from rfl, ih]
    simp [flat, flatHs, List.append_assoc]

theorem flat_unb (e : Ex) : flat (unb e).1 ++ flatHs (unb e).2 = text e := by
  induction e with
  | atom a => rfl
  | pre s e ih => simp only [unb, flat, text, List.cons_append, ih]
  | inf s l r ihl ihr =>
    rw [unb]
    split
    · simp only [flat, text, flat_close, ihl, List.append_assoc, List.cons_append, ihr]
    · simp only [flat, text, flat_close, ihl, ihr, flatHs_nil, List.append_nil]
  | post s e ih => simp only [unb, flat, text, flat_close, ih, flatHs_nil, List.append_nil]
  | between k e low high ih1 ih2 ih3 =>
    simp only [unb, flat, text, flat_close, ih1, ih2, flatHs_cons, ih3, List.append_assoc, List.cons_append]
  | likeEscape k e p c ih1 ih2 =>
    simp only [unb, flat, text, flat_close, ih1, ih2, flatHs_nil, List.append_nil]

/-- The right edge of a fragment with the operands that follow. -/
def rightOks (n : Nat) : Frag → List Frag → Prop
  | c, [] => rightOk n c
  | c, h :: hs => rightOk 28 c ∧ n < 29 ∧ rightOks n h hs

theorem rightOks_cons {n : Nat} {h : Frag} {hs : List Frag} : ∀ {c : Frag}, rightOks n c (h :: hs) →
    rightOks n (.inf .and c h) hs := by
  intro c hr
  obtain ⟨h1, h2, h3⟩ := hr
  cases hs with
  | nil => exact ⟨h2, h3⟩
  | cons a hs => exact ⟨⟨by decide, h3.1⟩, h3.2.1, h3.2.2⟩

theorem rightOk_close {n : Nat} {hs : List Frag} : ∀ {c : Frag}, rightOks n c hs → rightOk n (close c hs) := by
  induction hs with
  | nil => intro c h; exact h
  | cons a hs ih => intro c h; exact ih (rightOks_cons h)

theorem leftOk_close {m : Nat} {hs : List Frag} : ∀ {c : Frag}, leftOk m c → (hs = [] ∨ m ≤ 28) → leftOk m (close c hs) := by
  induction hs with
  | nil => intro c h _; exact h
  | cons a hs ih =>
    intro c h hm
    have : m ≤ 28 := by
      rcases hm with hm | hm
      · cases hm
      · exact hm
    exact ih ⟨this, h⟩ (.inr this)

theorem WF_close {n : Nat} {hs : List Frag} : ∀ {c : Frag}, WF c → (∀ h ∈ hs, WF h ∧ leftOk 29 h) → rightOks n c hs →
    WF (close c hs) := by
  induction hs with
  | nil => intro c h _ _; exact h
  | cons a hs ih =>
    intro c h hh hr
    refine ih ⟨by simp [Sym.inf], h, (hh a (by simp)).1, hr.1, (hh a (by simp)).2⟩
      (fun x hx => hh x (List.mem_cons_of_mem _ hx)) (rightOks_cons hr)

theorem noBetween_unb {e : Ex} (h : noBetweenRight e) : (unb e).2 = [] := by
  induction e with
  | atom a => rfl
  | pre s e ih => exact ih h
  | inf s l r ihl ihr =>
    rw [unb]
    split
    · exact ihr h
    · rfl
  | post s e ih => rfl
  | between k e low high => exact h.elim
  | likeEscape k e p c => rfl

/-- What is needed of the fragment of an expression. -/
structure Fits (e : Ex) : Prop where
  wf : WF (unb e).1
  hs : ∀ h ∈ (unb e).2, WF h ∧ leftOk 29 h
  left : ∀ n, leftTight false n e → leftOk (2 * n) (unb e).1
  leftStrict : ∀ n, leftTight true n e → leftOk (2 * n + 1) (unb e).1
  right : ∀ n, rightTight n e → rightOks (2 * n) (unb e).1 (unb e).2
  zero : rightTight 0 e

theorem Fits.closed {e : Ex} (h : Fits e) : WF (close (unb e).1 (unb e).2) := WF_close h.wf h.hs (h.right 0 h.zero)

theorem Fits.rightClosed {e : Ex} {n : Nat} (h : Fits e) (hn : rightTight n e) :
    rightOk (2 * n) (close (unb e).1 (unb e).2) := rightOk_close (h.right n hn)

theorem Fits.tight {e : Ex} {n : Nat} (h : Fits e) (hn : rightTight n e) : (unb e).2 = [] ∨ n ≤ 14 := by
  have := h.right n hn
  cases hc : (unb e).2 with
  | nil => exact .inl rfl
  | cons a b =>
    rw [hc] at this
    have := this.2.1
    right; omega

theorem fits {e : Ex} (h : Clear e) : Fits e := by
  induction e with
  | atom a => exact ⟨⟨a, rfl⟩, by simp [unb], fun _ _ => trivial, fun _ _ => trivial, fun _ _ => trivial, trivial⟩
  | pre s e ih =>
    obtain ⟨h1, h2, h3⟩ := h
    have f := ih h2
    have hr : 15 ≤ rank s.pre := by
      cases s <;> first | exact absurd rfl h1 | decide
    refine ⟨⟨h1, f.wf, f.left _ h3⟩, f.hs, fun _ _ => trivial, fun _ _ => trivial, ?_, ⟨by omega, f.zero⟩⟩
    intro n hn
    have := f.right n hn.2
    have hn1 := hn.1
    rw [unb]
    cases hc : (unb e).2 with
    | nil => rw [hc] at this; exact ⟨by omega, this⟩
    | cons a b => rw [hc] at this; exact ⟨⟨by omega, this.1⟩, this.2⟩
  | inf s l r ihl ihr =>
    obtain ⟨h1, h2, h3, h4, h5, h6⟩ := h
    have fl := ihl h3
    have fr := ihr h4
    have hl := fl.closed
    have hlr := fl.rightClosed h5
    have ht := fl.tight h5
    have lefts : ∀ m, m ≤ 2 * rank s.inf → leftOk m (unb l).1 → leftOk m (close (unb l).1 (unb l).2) := by
      intro m hm hlm
      refine leftOk_close hlm ?_
      rcases ht with ht | ht
      · exact .inl ht
      · right; omega
    by_cases hs : 14 ≤ rank s.inf
    · have e1 : unb (.inf s l r) = (.inf s (close (unb l).1 (unb l).2) (unb r).1, (unb r).2) := by
        rw [unb, if_pos hs]
      refine ⟨?_, ?_, ?_, ?_, ?_, ⟨by omega, fr.zero⟩⟩
      · rw [e1]; exact ⟨h1, hl, fr.wf, hlr, fr.leftStrict _ h6⟩
      · rw [e1]; exact fr.hs
      · intro n hn
        have hn1 : n ≤ rank s.inf := hn.1
        rw [e1]
        exact ⟨by omega, lefts _ (by omega) (fl.left n hn.2)⟩
      · intro n hn
        have hn1 : n < rank s.inf := hn.1
        rw [e1]
        exact ⟨by omega, lefts _ (by omega) (fl.leftStrict n hn.2)⟩
      · intro n hn
        have := fr.right n hn.2
        have hn1 := hn.1
        rw [e1]
        simp only
        cases hc : (unb r).2 with
        | nil => rw [hc] at this; exact ⟨by omega, this⟩
        | cons a b => rw [hc] at this; exact ⟨⟨by omega, this.1⟩, this.2⟩
    · have e1 : unb (.inf s l r) = (.inf s (close (unb l).1 (unb l).2) (close (unb r).1 (unb r).2), []) := by
        rw [unb, if_neg hs]
      refine ⟨?_, ?_, ?_, ?_, ?_, ⟨by omega, fr.zero⟩⟩
      · rw [e1]; exact ⟨h1, hl, fr.closed, hlr, leftOk_close (fr.leftStrict _ h6) (.inr (by omega))⟩
      · rw [e1]; simp
      · intro n hn
        have hn1 : n ≤ rank s.inf := hn.1
        rw [e1]
        exact ⟨by omega, lefts _ (by omega) (fl.left n hn.2)⟩
      · intro n hn
        have hn1 : n < rank s.inf := hn.1
        rw [e1]
        exact ⟨by omega, lefts _ (by omega) (fl.leftStrict n hn.2)⟩
      · intro n hn
        have hn1 := hn.1
        rw [e1]
        exact ⟨by omega, fr.rightClosed hn.2⟩
  | post s e ih =>
    obtain ⟨h1, h2, h3, h4⟩ := h
    have f := ih h3
    have ht := f.tight h4
    have lefts : ∀ m, m ≤ 2 * rank s.post → leftOk m (unb e).1 → leftOk m (close (unb e).1 (unb e).2) := by
      intro m hm hlm
      refine leftOk_close hlm ?_
      rcases ht with ht | ht
      · exact .inl ht
      · right; omega
    refine ⟨⟨h1, f.closed, f.rightClosed h4⟩, by simp [unb], ?_, ?_, fun _ _ => trivial, trivial⟩
    · intro n hn
      have hn1 : n ≤ rank s.post := hn.1
      exact ⟨by omega, lefts _ (by omega) (f.left n hn.2)⟩
    · intro n hn
      have hn1 : n < rank s.post := hn.1
      exact ⟨by omega, lefts _ (by omega) (f.leftStrict n hn.2)⟩
  | between k e low high ih1 ih2 ih3 =>
    obtain ⟨h1, h2, h3, h4, h5, h6, h7, h8⟩ := h
    have fe := ih1 h1
    have fl := ih2 h2
    have fh := ih3 h3
    have he : (unb e).2 = [] := by
      rcases fe.tight h4 with h | h
      · exact h
      · omega
    have hlow := noBetween_unb h7
    have hsym : rank (Sym.inf (.between k)) = 16 := rfl
    refine ⟨?_, ?_, ?_, ?_, ?_, ⟨by omega, fh.zero⟩⟩
    · refine ⟨by simp [Sym.inf], fe.closed, fl.closed, fe.rightClosed h4, ?_⟩
      exact leftOk_close (fl.leftStrict _ h5) (.inl hlow)
    · intro x hx
      rcases List.mem_cons.mp hx with rfl | hx
      · exact ⟨fh.wf, fh.leftStrict 14 h8⟩
      · exact fh.hs x hx
    · intro n hn
      have hn1 : n ≤ 16 := hn.1
      exact ⟨by rw [hsym]; omega, leftOk_close (fe.left n hn.2) (.inl he)⟩
    · intro n hn
      have hn1 : n < 16 := hn.1
      exact ⟨by rw [hsym]; omega, leftOk_close (fe.leftStrict n hn.2) (.inl he)⟩
    · intro n hn
      have hn1 := hn.1
      exact ⟨⟨by rw [hsym]; omega, fl.rightClosed h6⟩, by omega, fh.right n hn.2⟩
  | likeEscape k e p c ih1 ih2 =>
    obtain ⟨h1, h2, h3, h4, h5⟩ := h
    have fe := ih1 h1
    have fp := ih2 h2
    have he : (unb e).2 = [] := by
      rcases fe.tight h3 with h | h
      · exact h
      · omega
    have hp : (unb p).2 = [] := by
      rcases fp.tight h5 with h | h
      · exact h
      · omega
    have hsym : rank (Sym.inf (.like k)) = 16 := rfl
    have hesc : rank (Sym.post (.escape c)) = 17 := rfl
    refine ⟨?_, by simp [unb], ?_, ?_, ?_, Nat.zero_le _⟩
    · refine ⟨by simp [Sym.inf], fe.closed, ⟨by simp [Sym.post], fp.closed, fp.rightClosed h5⟩, fe.rightClosed h3, ?_⟩
      exact ⟨by rw [hsym, hesc]; omega, leftOk_close (fp.leftStrict _ h4) (.inl hp)⟩
    · intro n hn
      have hn1 : n ≤ 16 := hn.1
      exact ⟨by rw [hsym]; omega, leftOk_close (fe.left n hn.2) (.inl he)⟩
    · intro n hn
      have hn1 : n < 16 := hn.1
      exact ⟨by rw [hsym]; omega, leftOk_close (fe.leftStrict n hn.2) (.inl he)⟩
    · intro n hn
      have hn1 : n ≤ 16 := hn
      exact ⟨by rw [hsym]; omega, trivial⟩

/-! ## The conversion -/

theorem kind_between {s : Sym} {k : Nat} (h : s.kind = .between k) : s = .between k := by
  cases s <;> first | cases h | skip
  rfl

theorem build_pre {s : Sym} {f : Frag} {e : Ex} (h : build f = some e) : build (.pre s f) = some (.pre s e) := by
  rw [build, h]

theorem build_and_some {l r e low : Frag} {k : Nat} {e' low' high : Ex} (hp : pending l = some (e, k, low))
    (h1 : build e = some e') (h2 : build low = some low') (h3 : build r = some high) :
    build (.inf .and l r) = build (plug (.between k e' low' high) l) := by
  rw [build]
  simp only [Sym.kind]
  split
  · rename_i e0 k0 low0 hp0
    rw [hp] at hp0
    cases hp0
    rw [h1, h2, h3]
  · rename_i hp0
    rw [hp] at hp0
    cases hp0

theorem build_inf {s : Sym} {l r : Frag} {l' r' : Ex} (hk : ∀ k, s ≠ .between k) (hp : pending l = none)
    (hr : escapeOf r = none) (h1 : build l = some l') (h2 : build r = some r') :
    build (.inf s l r) = some (.inf s l' r') := by
  rw [build]
  split
  · split
    · rename_i hp0
      rw [hp] at hp0
      cases hp0
    · rw [h1, h2]
  · rename_i k hs
    exact absurd (kind_between hs) (hk k)
  · split
    · rename_i hr0
      rw [hr] at hr0
      cases hr0
    · rw [h2, h1]
  · rw [h1, h2]

theorem build_like {s : Sym} {k : Nat} {l r : Frag} (hs : s.kind = .like k) (hr : escapeOf r = none) :
    build (.inf s l r) =
      match build r with
      | none => none
      | some r' =>
        match build l with
        | none => none
        | some l' => some (.inf s l' r') := by
  rw [build, hs]
  simp only
  split
  · rename_i h0; rw [hr] at h0; cases h0
  · rfl

theorem build_post {s : Sym} {f : Frag} {e : Ex} (hs : ∀ c, s ≠ .escape c) (h : build f = some e) :
    build (.post s f) = some (.post s e) := by
  have : escapeOf (.post s f) = none := by
    cases s <;> first | rfl | exact absurd rfl (hs _)
  rw [build, this]
  simp only
  rw [h]

theorem build_likeEscape {k c : Nat} {l p : Frag} {l' p' : Ex} (h1 : build l = some l') (h2 : build p = some p') :
    build (.inf (.like k) l (.post (.escape c) p)) = some (.likeEscape k l' p' c) := by
  rw [build]
  simp only [Sym.kind]
  split
  · rename_i p0 c0 h0
    cases h0
    rw [h2, h1]
  · rename_i h0
    cases h0

theorem build_escape {f : Frag} {e : Ex} (h : build f = some e) : escapeOf f = none := by
  cases hc : escapeOf f with
  | none => rfl
  | some x =>
    unfold escapeOf at hc
    split at hc
    · rw [build] at h
      simp [escapeOf] at h
    · cases hc

/-- The places at the right edge of a fragment, where an operand can be replaced. -/
inductive IsCtx : (Frag → Frag) → Prop
  | id : IsCtx (fun x => x)
  | pre {K : Frag → Frag} (s : Sym) : IsCtx K → IsCtx (fun x => K (.pre s x))
  | inf {K : Frag → Frag} (s : Sym) (l : Frag) : (∀ k, s ≠ .between k) → IsCtx K → IsCtx (fun x => K (.inf s l x))

theorem pending_inf {s : Sym} {l r : Frag} (hk : ∀ k, s ≠ .between k) : pending (.inf s l r) = pending r := by
  simp only [pending]
  split
  · rename_i k h
    exact absurd (kind_between h) (hk k)
  · rfl

theorem plug_inf {s : Sym} {l r : Frag} {x : Ex} (hk : ∀ k, s ≠ .between k) : plug x (.inf s l r) = .inf s l (plug x r) := by
  simp only [plug]
  split
  · rename_i k h
    exact absurd (kind_between h) (hk k)
  · rfl

theorem pending_ctx {K : Frag → Frag} (h : IsCtx K) : ∀ f, pending (K f) = pending f := by
  induction h with
  | id => intro f; rfl
  | pre s _ ih => intro f; rw [ih]; rfl
  | inf s l hk _ ih => intro f; rw [ih, pending_inf hk]

theorem plug_ctx {K : Frag → Frag} (h : IsCtx K) (x : Ex) : ∀ f, plug x (K f) = K (plug x f) := by
  induction h with
  | id => intro f; rfl
  | pre s _ ih => intro f; rw [ih]; rfl
  | inf s l hk _ ih => intro f; rw [ih, plug_inf hk]

theorem build_ctx {K : Frag → Frag} (h : IsCtx K) : ∀ {f g : Frag}, build f = build g → escapeOf f = none →
    escapeOf g = none → build (K f) = build (K g) := by
  induction h with
  | id => intro f g h _ _; exact h
  | pre s _ ih =>
    intro f g h _ _
    refine ih ?_ rfl rfl
    rw [build, build, h]
  | inf s l hk _ ih =>
    intro f g h h1 h2
    refine ih ?_ rfl rfl
    rw [build, build, h]
    cases hs : s.kind with
    | and => rfl
    | between k => rfl
    | like k =>
      have e1 : build (.inf s l f) = build (.inf s l g) := by
        rw [build_like hs h1, build_like hs h2, h]
      rw [build, build, hs, h] at e1
      exact e1
    | other => rfl

theorem build_ctx_single {K : Frag → Frag} (h : IsCtx K) {f : Frag} {e : Ex} (hf : build f = some e) :
    build (K f) = build (K (.single e)) :=
  build_ctx h (by rw [hf, build]) (build_escape hf) rfl

/-- The `BETWEEN` without upper bound at the right edge. -/
def pendings : Frag → List Frag → Option (Frag × Nat × Frag)
  | c, [] => pending c
  | _, h :: hs => pendings h hs

theorem pending_close (hs : List Frag) : ∀ c, pending (close c hs) = pendings c hs := by
  induction hs with
  | nil => intro c; rfl
  | cons h hs ih =>
    intro c
    rw [show close c (h :: hs) = close (.inf .and c h) hs from rfl, ih]
    cases hs with
    | nil => exact pending_inf (by simp)
    | cons a hs => rfl

theorem pendings_congr {c d : Frag} (h : pending c = pending d) (hs : List Frag) : pendings c hs = pendings d hs := by
  cases hs with
  | nil => exact h
  | cons a b => rfl

theorem unb_pending {e : Ex} (h : Clear e) : pendings (unb e).1 (unb e).2 = none := by
  induction e with
  | atom a => rfl
  | pre s e ih =>
    rw [← ih h.2.1]
    exact pendings_congr (c := .pre s (unb e).1) (d := (unb e).1) rfl _
  | inf s l r ihl ihr =>
    obtain ⟨_, h2, _, h4, _⟩ := h
    rw [unb]
    split
    · rw [← ihr h4]
      exact pendings_congr (pending_inf h2) _
    · show pending _ = none
      rw [pending_inf h2, pending_close]
      exact ihr h4
  | post s e ih => rfl
  | between k e low high _ _ ih => exact ih h.2.2.1
  | likeEscape k e p c => rfl

/-- The conversion gives the expression, in every place at the right edge. -/
theorem build_unb {e : Ex} (h : Clear e) : ∀ {K : Frag → Frag}, IsCtx K →
    build (close (K (unb e).1) (unb e).2) = build (K (.single e)) := by
  induction e with
  | atom a => intro K hK; rfl
  | pre s e ih =>
    intro K hK
    rw [unb]
    simp only
    rw [ih h.2.1 (.pre s hK)]
    exact build_ctx_single hK (build_pre (by rw [build]))
  | inf s l r ihl ihr =>
    intro K hK
    obtain ⟨_, h2, h3, h4, _⟩ := h
    have hl : build (close (unb l).1 (unb l).2) = some l := by
      have := ihl h3 .id
      rw [this, build]
    have hp : pending (close (unb l).1 (unb l).2) = none := by rw [pending_close]; exact unb_pending h3
    rw [unb]
    split
    · simp only
      rw [ihr h4 (.inf s _ h2 hK)]
      exact build_ctx_single hK (build_inf h2 hp rfl hl (by rw [build]))
    · have hr : build (close (unb r).1 (unb r).2) = some r := by
        have := ihr h4 .id
        rw [this, build]
      exact build_ctx_single hK (build_inf h2 hp (build_escape hr) hl hr)
  | post s e ih =>
    intro K hK
    have he : build (close (unb e).1 (unb e).2) = some e := by
      have := ih h.2.2.1 .id
      rw [this, build]
    exact build_ctx_single hK (build_post h.2.1 he)
  | between k e low high ih1 ih2 ih3 =>
    intro K hK
    obtain ⟨h1, h2, h3, _⟩ := h
    have he : build (close (unb e).1 (unb e).2) = some e := by
      have := ih1 h1 .id
      rw [this, build]
    have hl : build (close (unb low).1 (unb low).2) = some low := by
      have := ih2 h2 .id
      rw [this, build]
    rw [unb]
    simp only
    rw [show ∀ c h hs, close c (h :: hs) = close (.inf .and c h) hs from fun _ _ _ => rfl]
    rw [ih3 h3 (.inf .and (K (.inf (.between k) (close (unb e).1 (unb e).2) (close (unb low).1 (unb low).2))) (by simp) .id)]
    rw [build_and_some (e := close (unb e).1 (unb e).2) (k := k) (low := close (unb low).1 (unb low).2)
      (by rw [pending_ctx hK]; rfl) he hl (by rw [build]), plug_ctx hK]
    rfl
  | likeEscape k e p c ih1 ih2 =>
    intro K hK
    obtain ⟨h1, h2, _⟩ := h
    have he : build (close (unb e).1 (unb e).2) = some e := by
      have := ih1 h1 .id
      rw [this, build]
    have hp : build (close (unb p).1 (unb p).2) = some p := by
      have := ih2 h2 .id
      rw [this, build]
    exact build_ctx_single hK (build_likeEscape he hp)

/-! ## The theorems -/

/-- What is not an infix or postfix operator. -/
def NoOperator : List Tok → Prop
  | .op s :: _ => s.post = none ∧ s.inf = none
  | _ => True

theorem noOperator_looser {m : Nat} {r : List Tok} (h : NoOperator r) : Looser m r := by
  match r, h with
  | [], _ => trivial
  | .atom a :: r, _ => trivial
  | .op s :: r, h =>
    exact ⟨(fun p hp => by rw [h.1] at hp; cases hp), (fun p hp => by rw [h.2] at hp; cases hp)⟩

theorem noOperator_ends {e : Frag} {r : List Tok} (h : NoOperator r) : Ends e r := by
  match r, h with
  | [], _ => trivial
  | .atom a :: r, _ => trivial
  | .op s :: r, h =>
    exact ⟨(fun p hp => by rw [h.1] at hp; cases hp), (fun p hp => by rw [h.2] at hp; cases hp)⟩

theorem leftOk_zero (f : Frag) : leftOk 0 f := by
  induction f with
  | single e => trivial
  | pre s e => trivial
  | inf s l r ih => exact ⟨Nat.zero_le _, ih⟩
  | post s e ih => exact ⟨Nat.zero_le _, ih⟩

/-- An expression in which no part needs parentheses is read back from its text. -/
theorem C92_round_trip {e : Ex} (h : Clear e) {r : List Tok} (hr : NoOperator r) :
    parseExpr (text e ++ r) = some (e, r) := by
  have f := fits h
  have hg := go_flat f.closed (m := 0) (r := r) (leftOk_zero _) (noOperator_ends hr)
  rw [flat_close, flat_unb, loopN_stop (noOperator_looser hr), goN] at hg
  have hb := build_unb h .id
  rw [parseExpr, hg]
  simp only
  rw [hb, build]

/-- So a text is read in one way only. -/
theorem C92_unique {e e' : Ex} (h : Clear e) (h' : Clear e') (ht : text e = text e') : e = e' := by
  have h1 := C92_round_trip h (r := []) trivial
  have h2 := C92_round_trip h' (r := []) trivial
  rw [ht, h2] at h1
  cases h1
  rfl

/-! ## Nothing is lost -/

theorem go_text : ∀ (f : Nat), (∀ {m : Nat} {ts : List Tok} {e : Frag} {r : List Tok},
      go f m ts = some (e, r) → ts = flat e ++ r) ∧
    (∀ {m : Nat} {l : Frag} {ts : List Tok}, flat l ++ ts = flat (loop f m l ts).1 ++ (loop f m l ts).2) := by
  intro f
  induction f with
  | zero =>
    refine ⟨?_, ?_⟩
    · intro m ts e r h; cases ts <;> simp [go] at h
    · intro m l ts; cases ts <;> rfl
  | succ f ih =>
    obtain ⟨ih1, ih2⟩ := ih
    refine ⟨?_, ?_⟩
    · intro m ts e r h
      match ts with
      | [] => simp [go] at h
      | .atom a :: t =>
        simp only [go, Option.some.injEq] at h
        have := ih2 (m := m) (l := .single (.atom a)) (ts := t)
        rw [h] at this
        exact this
      | .op s :: t =>
        simp only [go] at h
        split at h
        · cases h
        · split at h
          · cases h
          · rename_i p _ e' r' h'
            simp only [Option.some.injEq] at h
            have h1 := ih1 h'
            have h2 := ih2 (m := m) (l := .pre s e') (ts := r')
            rw [h] at h2
            rw [h1]
            exact h2
    · intro m l ts
      match ts with
      | [] => rfl
      | .atom a :: t => rfl
      | .op s :: t =>
        simp only [loop]
        split
        · split
          · have := ih2 (m := m) (l := .post s l) (ts := t)
            rw [← this, flat, List.append_assoc]
            rfl
          · rfl
        · split
          · rfl
          · split
            · split
              · rfl
              · rename_i e' r' h'
                have h1 := ih1 h'
                have h2 := ih2 (m := m) (l := .inf s l e') (ts := r')
                rw [← h2, h1, flat, List.append_assoc]
                rfl
            · rfl

theorem pending_text {f e low : Frag} {k : Nat} (h : pending f = some (e, k, low)) :
    ∃ t, flat f = t ++ (flat e ++ .op (.between k) :: flat low) ∧ ∀ x, flat (plug x f) = t ++ text x := by
  induction f with
  | single e => cases h
  | pre s f ih =>
    obtain ⟨t, h1, h2⟩ := ih h
    exact ⟨.op s :: t, by rw [flat, h1]; rfl, fun x => by rw [plug, flat, h2]; rfl⟩
  | inf s l r ihl ihr =>
    cases hs : s.kind with
    | between k' =>
      have hk := kind_between hs
      subst hk
      cases h
      exact ⟨[], rfl, fun x => rfl⟩
    | _ =>
      have hk : ∀ k, s ≠ .between k := by
        intro k e
        subst e
        cases hs
      rw [pending_inf hk] at h
      obtain ⟨t, h1, h2⟩ := ihr h
      exact ⟨flat l ++ .op s :: t, by rw [flat, h1, List.append_assoc]; rfl,
        fun x => by rw [plug_inf hk, flat, h2, List.append_assoc]; rfl⟩
  | post s f => cases h

theorem build_text : ∀ (n : Nat) (f : Frag), f.size ≤ n → ∀ e, build f = some e → text e = flat f := by
  intro n
  induction n with
  | zero => intro f hf; cases f <;> simp [Frag.size] at hf
  | succ n ih =>
    intro f hf e h
    cases f with
    | single x => rw [build] at h; cases h; rfl
    | pre s f =>
      simp only [Frag.size] at hf
      rw [build] at h
      split at h
      · cases h
      · rename_i e' he
        cases h
        rw [text, flat, ih f (by omega) e' he]
    | inf s l r =>
      simp only [Frag.size] at hf
      rw [build] at h
      split at h
      · rename_i hs
        have hs : s = .and := by cases s <;> first | (cases hs; rfl) | cases hs
        subst hs
        split at h
        · rename_i e0 k low hp
          have hsz := pending_size hp
          obtain ⟨t, ht1, ht2⟩ := pending_text hp
          split at h
          · cases h
          · rename_i e' he
            split at h
            · cases h
            · rename_i low' hlow
              split at h
              · cases h
              · rename_i high hhigh
                have hps := plug_size (.between k e' low' high) l
                rw [ih _ (by omega) e h, ht2, flat, ht1, text, ih e0 (by omega) e' he, ih low (by omega) low' hlow,
                  ih r (by omega) high hhigh]
                simp only [List.append_assoc, List.cons_append]
        · split at h
          · cases h
          · rename_i l' hl
            split at h
            · cases h
            · rename_i r' hr
              cases h
              rw [text, flat, ih l (by omega) l' hl, ih r (by omega) r' hr]
      · cases h
      · rename_i k hs
        have hs : s = .like k := by cases s <;> first | (cases hs; rfl) | cases hs
        subst hs
        split at h
        · rename_i p c hp
          have hsz := escapeOf_size hp
          have hr : r = .post (.escape c) p := by
            unfold escapeOf at hp
            split at hp
            · cases hp; rfl
            · cases hp
          split at h
          · cases h
          · rename_i p' hp'
            split at h
            · cases h
            · rename_i l' hl
              cases h
              rw [text, hr, flat, flat, ih l (by omega) l' hl, ih p (by omega) p' hp']
        · split at h
          · cases h
          · rename_i r' hr
            split at h
            · cases h
            · rename_i l' hl
              cases h
              rw [text, flat, ih l (by omega) l' hl, ih r (by omega) r' hr]
      · split at h
        · cases h
        · rename_i l' hl
          split at h
          · cases h
          · rename_i r' hr
            cases h
            rw [text, flat, ih l (by omega) l' hl, ih r (by omega) r' hr]
    | post s f =>
      simp only [Frag.size] at hf
      rw [build] at h
      split at h
      · cases h
      · split at h
        · cases h
        · rename_i e' he
          cases h
          rw [text, flat, ih f (by omega) e' he]

/-- Whatever is read has the tokens that were read, in their order. -/
theorem C92_text {ts r : List Tok} {e : Ex} (h : parseExpr ts = some (e, r)) : ts = text e ++ r := by
  rw [parseExpr] at h
  split at h
  · cases h
  · rename_i f r' hg
    split at h
    · cases h
    · rename_i e' hb
      cases h
      rw [build_text _ f (Nat.le_refl _) e hb]
      exact (go_text _).1 hg

end Verif.Sql.Pratt
