import Verif.Sql.NameProps
import Verif.Sql.IntervalMulti
import Verif.Sql.PrattProps
import Verif.Sql.DdlProps

/-!
# What is refused, and the tables

C88, C89: only texts of the syntax are read as strings and as names. C92, C93, C95: the tables of the front end
against their meaning.
-/

namespace Verif.Sql

open Verif.Sql.Spec

variable {uni : Char → Bool}

/-! ## Strings -/

theorem charsN_split {p : Text → Option (SChar × Text)} (hp : ∀ s x r, p s = some (x, r) → ∃ u, s = u ++ r) (n : Nat)
    (s : Text) : ∃ u, s = u ++ (charsN p n s).2 := by
  induction n generalizing s with
  | zero => exact ⟨[], rfl⟩
  | succ n ih =>
    rw [charsN]
    split
    · exact ⟨[], rfl⟩
    · next x r h =>
      obtain ⟨u, rfl⟩ := hp s x r h
      obtain ⟨v, hv⟩ := ih r
      exact ⟨u ++ v, by rw [List.append_assoc, ← hv]⟩

theorem escAfter_split {s : Text} {x : SChar} {r : Text} (h : escAfter s = some (x, r)) : ∃ u, s = u ++ r := by
  unfold escAfter at h
  split at h
  · cases h
  · next e t =>
    split at h
    · injection h with h
      injection h with _ h
      exact ⟨[e], by rw [h]; rfl⟩
    · split at h
      · injection h with h
        injection h with _ h
        exact ⟨_, by rw [← h]; exact (List.take_append_drop _ _).symm⟩
      · split at h
        · injection h with h
          injection h with _ h
          exact ⟨e :: _, by rw [← h]; exact congrArg (e :: ·) (List.take_append_drop _ _).symm⟩
        · split at h
          · injection h with h
            injection h with _ h
            exact ⟨e :: _, by rw [← h]; exact congrArg (e :: ·) (List.take_append_drop _ _).symm⟩
          · split at h
            · injection h with h
              injection h with _ h
              exact ⟨e :: _, by rw [← h]; exact congrArg (e :: ·) (List.take_append_drop _ _).symm⟩
            · injection h with h
              injection h with _ h
              exact ⟨[e], by rw [h]; rfl⟩

theorem escChar_split (d : Char) (s : Text) (x : SChar) (r : Text) (h : escChar d s = some (x, r)) : ∃ u, s = u ++ r := by
  unfold escChar at h
  split at h
  · cases h
  · next c t =>
    split at h
    · obtain ⟨u, rfl⟩ := escAfter_split h
      exact ⟨c :: u, rfl⟩
    · split at h
      · cases h
      · injection h with h
        injection h with _ h
        exact ⟨[c], by rw [h]; rfl⟩

theorem textVal_some {delim : Text} {p : Text → Option (SChar × Text)} {pre q : Option Char} {s v : Text}
    (h : textVal delim p pre s = .valid v q) :
    q = pre ∧ ∃ b, s = delim ++ b ∧ (charsN p b.length b).2 = delim ∧ collect (charsN p b.length b).1 = some v := by
  unfold textVal at h
  split at h
  · next hd =>
    obtain ⟨b, rfl⟩ := List.isPrefixOf_iff_prefix.1 hd
    simp only [List.drop_left] at h
    split at h
    · next he =>
      split at h
      · next w hw =>
        injection h with h1 h2
        subst h1
        exact ⟨h2.symm, b, rfl, eq_of_beq he, hw⟩
      · cases h
    · cases h
  · cases h

/-- A literal has a value only if it begins and ends with its quote: nothing follows the quote that closes it. -/
theorem C88_closed {q : Char} {raw v : Text} {p : Option Char} (h : parseStr (.quoted q none) raw = .valid v p) :
    p = none ∧ ∃ body, raw = q :: body ++ [q] := by
  obtain ⟨h1, b, rfl, h2, _⟩ := textVal_some h
  obtain ⟨u, hu⟩ := charsN_split (escChar_split q) b.length b
  rw [h2] at hu
  exact ⟨h1, u, by rw [hu]; rfl⟩

example : parseStr (.quoted '\'' none) "'a'b".toList = .invalid ∧ parseStr (.quoted '\'' none) "'a\\'".toList = .invalid := by
  decide +kernel

theorem plain_run (q : Char) (n : Nat) (s : Text) :
    ∃ v : Text, (charsN (plainChar q) n s).1 = v.map SChar.one ∧ s = v ++ (charsN (plainChar q) n s).2 ∧ q ∉ v := by
  induction n generalizing s with
  | zero => exact ⟨[], rfl, rfl, by simp⟩
  | succ n ih =>
    rw [charsN]
    split
    · exact ⟨[], rfl, rfl, by simp⟩
    · next x r h =>
      unfold plainChar at h
      split at h
      · cases h
      · next c t =>
        split at h
        · cases h
        · next hc =>
          injection h with h
          injection h with hx hr
          subst hx
          subst hr
          obtain ⟨v, h1, h2, h3⟩ := ih t
          refine ⟨c :: v, by rw [h1]; rfl, by rw [List.cons_append, ← h2], ?_⟩
          simp only [beq_iff_eq] at hc
          simp [h3, Ne.symm hc]

/-- A raw string has the value `v` only if it is `v` in quotes that do not occur in `v`. -/
theorem C88_raw_only {q p : Char} (hp : p = 'r' ∨ p = 'R') {raw v : Text} {pre : Option Char}
    (h : parseStr (.quoted q (some p)) raw = .valid v pre) :
    pre = some p ∧ q ∉ v ∧ ∃ blanks, (∀ c ∈ blanks, isBlank c = true) ∧ raw = p :: blanks ++ q :: v ++ [q] := by
  have hp' : isRawPrefix p = true := by rcases hp with rfl | rfl <;> decide
  unfold parseStr at h
  simp only at h
  split at h
  · cases h
  · next c r =>
    split at h
    · next hc =>
      obtain ⟨h1, b, h2, h3, h4⟩ := textVal_some h
      obtain ⟨w, k1, k2, k3⟩ := plain_run q b.length b
      rw [k1, collect_ones] at h4
      injection h4 with h4
      subst h4
      rw [h3] at k2
      refine ⟨h1, k3, r.takeWhile isBlank, ?_, ?_⟩
      · intro c hc
        have := List.all_takeWhile (p := isBlank) (l := r)
        exact List.all_eq_true.1 this c hc
      · rw [eq_of_beq hc]
        have e := List.takeWhile_append_dropWhile (p := isBlank) (l := r)
        rw [h2, k2] at e
        have e' : r = r.takeWhile isBlank ++ q :: w ++ [q] := by
          rw [List.append_assoc]
          exact e.symm
        exact congrArg (p :: ·) e'
    · cases h

example : parseStr (.quoted '"' (some 'r')) "r \"a\\\"".toList = .valid "a\\".toList (some 'r') := by decide +kernel

theorem tick_run (n : Nat) (s : Text) : ∃ v : Text, (charsN tickChar n s).1 = v.map SChar.one ∧
    s = v.flatMap (fun c => if c = '`' then ['`', '`'] else [c]) ++ (charsN tickChar n s).2 := by
  induction n generalizing s with
  | zero => exact ⟨[], rfl, rfl⟩
  | succ n ih =>
    rw [charsN]
    split
    · exact ⟨[], rfl, rfl⟩
    · next x r h =>
      obtain ⟨v, h1, h2⟩ := ih r
      unfold tickChar at h
      split at h
      · cases h
      · next c =>
        split at h
        · cases h
        · next hc =>
          injection h with h
          injection h with hx hr
          subst hx
          subst hr
          rw [beq_iff_eq] at hc
          refine ⟨c :: v, by rw [h1]; rfl, ?_⟩
          rw [List.flatMap_cons, if_neg hc, List.append_assoc, ← h2]
          rfl
      · next c e t =>
        split at h
        · next hc =>
          split at h
          · next he =>
            injection h with h
            injection h with hx hr
            subst hx
            subst hr
            refine ⟨'`' :: v, by rw [h1]; rfl, ?_⟩
            rw [List.flatMap_cons, if_pos rfl, List.append_assoc, ← h2, eq_of_beq hc, eq_of_beq he]
            rfl
          · cases h
        · next hc =>
          injection h with h
          injection h with hx hr
          subst hx
          subst hr
          rw [beq_iff_eq] at hc
          refine ⟨c :: v, by rw [h1]; rfl, ?_⟩
          rw [List.flatMap_cons, if_neg hc, List.append_assoc, ← h2]
          rfl

/-- A name in backticks is read only from the text of that name. -/
theorem C88_tick_only {raw v : Text} {p : Option Char} (h : parseStr .backtick raw = .valid v p) :
    p = none ∧ raw = tick v := by
  obtain ⟨h1, b, rfl, h3, h4⟩ := textVal_some h
  obtain ⟨w, k1, k2⟩ := tick_run b.length b
  rw [k1, collect_ones] at h4
  injection h4 with h4
  subst h4
  rw [h3] at k2
  exact ⟨h1, by rw [k2]; rfl⟩

example : parseStr .backtick "`a``b`".toList = .valid "a`b".toList none := by decide +kernel
example : parseStr .backtick "`a`b`".toList = .invalid := by decide +kernel

/-! ## Names -/

theorem skipWs_split (ts : List Tok) : ∃ a, Blank a ∧ ts = a ++ skipWs ts :=
  ⟨ts.takeWhile Tok.isWhitespace, fun t ht => List.all_eq_true.1 (List.all_takeWhile (p := Tok.isWhitespace) (l := ts)) t ht,
    (List.takeWhile_append_dropWhile ..).symm⟩

theorem parseIdent_some {ts r : List Tok} {n : Text} (h : parseIdent ts = some (n, r)) :
    ∃ t b, NameTok n t ∧ Blank b ∧ ts = t :: b ++ r := by
  unfold parseIdent at h
  split at h
  · next raw ts =>
    injection h with h
    injection h with h1 h2
    subst h1
    obtain ⟨b, hb, e⟩ := skipWs_split ts
    rw [h2] at e
    exact ⟨_, b, .word, hb, by rw [e]; rfl⟩
  · next raw ts =>
    split at h
    · next v hv =>
      injection h with h
      injection h with h1 h2
      subst h1
      obtain ⟨b, hb, e⟩ := skipWs_split ts
      rw [h2] at e
      obtain ⟨_, rfl⟩ := C88_tick_only hv
      exact ⟨_, b, .tick, hb, by rw [e]; rfl⟩
    · cases h
  · cases h

theorem blank_append {a b : List Tok} (ha : Blank a) (hb : Blank b) : Blank (a ++ b) := by
  intro t ht
  rcases List.mem_append.1 ht with h | h
  · exact ha t h
  · exact hb t h

theorem parts_blank {b ts : List Tok} {ns : List Text} (hb : Blank b) (h : Parts ns ts) : Parts ns (b ++ ts) := by
  cases h with
  | nil he => exact .nil (blank_append hb he)
  | cons h1 h2 h3 h4 =>
    have := Parts.cons (blank_append hb h1) h2 h3 h4
    simpa using this

theorem parseTail_some (n : Nat) (ts : List Tok) (h : skipWs (parseTail n ts).2 = []) : Parts (parseTail n ts).1 ts := by
  have hnil : ∀ ts : List Tok, skipWs ts = [] → Blank ts := by
    intro ts h
    obtain ⟨a, ha, e⟩ := skipWs_split ts
    rw [h, List.append_nil] at e
    rw [e]
    exact ha
  induction n generalizing ts with
  | zero => exact .nil (hnil _ h)
  | succ n ih =>
    rw [parseTail] at h ⊢
    split at h
    · exact .nil (hnil _ h)
    · next r hr =>
      split at h
      · exact .nil (hnil _ h)
      · next v r' hv =>
        obtain ⟨t, b, h1, h2, e⟩ := parseIdent_some hv
        unfold parsePeriod at hr
        split at hr
        · next c ts =>
          split at hr
          · next hc =>
            injection hr with hr
            obtain ⟨b', hb', e'⟩ := skipWs_split ts
            rw [hr, e] at e'
            have := Parts.cons (a := []) (fun t h => by cases h) hb' h1 (parts_blank h2 (ih r' h))
            rw [eq_of_beq hc, e']
            simpa using this
          · cases hr
        · cases hr

/-- Names are read only from parts with dots between them; a dot at the end is refused. -/
theorem C89_only {s : Text} {names : List Text} (h : parseObjectName uni s = some names) :
    ∃ a n t ns ts, lex uni s = some (a ++ t :: ts) ∧ Blank a ∧ NameTok n t ∧ Parts ns ts ∧ names = n :: ns := by
  unfold parseObjectName at h
  split at h
  · cases h
  · next ts hl =>
    unfold parseNameTokens at h
    split at h
    · cases h
    · next v r hv =>
      split at h
      · next he =>
        injection h with h
        obtain ⟨t, b, h1, h2, e⟩ := parseIdent_some hv
        obtain ⟨a, ha, e'⟩ := skipWs_split ts
        refine ⟨a, v, t, _, b ++ r, ?_, ha, h1, parts_blank h2 (parseTail_some r.length r (eq_of_beq he)), h.symm⟩
        rw [hl, e', e]
        rfl
      · cases h

example : parseObjectName (fun _ => false) "a . `b`".toList = some ["a".toList, "b".toList] := by decide +kernel
example : parseObjectName (fun _ => false) "a.b.".toList = none := by decide +kernel
example : parseObjectName (fun _ => false) "a..b".toList = none := by decide +kernel

/-! ## Signs of decimals -/

/-- The opposite decimal. -/
def Spec.oppositeDecimal {F32 F64 : Type} : Conv (NumLit F32 F64) → Conv (NumLit F32 F64)
  | .ok (.dec128 p s v) => .ok (.dec128 p s (-v))
  | .ok (.dec256 p s v) => .ok (.dec256 p s (-v))
  | x => x

theorem decimalOf_minus {F32 F64 : Type} (w f : Text) (e : Option Text) :
    (decimalOf ⟨['-'], w, f, e⟩ : Conv (NumLit F32 F64)) = Spec.oppositeDecimal (decimalOf ⟨[], w, f, e⟩) := by
  have hs : ∀ v, signedDigits ['-'] v = -signedDigits [] v := fun _ => rfl
  have hi : ∀ (p : Prop) [Decidable p] (x y : Conv (NumLit F32 F64)),
      Spec.oppositeDecimal (if p then x else y) = if p then Spec.oppositeDecimal x else Spec.oppositeDecimal y := by
    intro p _ x y
    split <;> rfl
  unfold decimalOf
  simp only
  cases capsExp e with
  | none => rfl
  | some e =>
    simp only [hi, hs]
    rfl

theorem decimalOf_plus {F32 F64 : Type} (w f : Text) (e : Option Text) :
    (decimalOf ⟨['+'], w, f, e⟩ : Conv (NumLit F32 F64)) = decimalOf ⟨[], w, f, e⟩ := rfl

theorem decimalCaps_sign {sg : Char} (hsg : sg = '-' ∨ sg = '+') {s : Text}
    (hs : s.head? ≠ some '-' ∧ s.head? ≠ some '+') :
    decimalCaps (sg :: s) = (decimalCaps s).map (fun c => { c with sign := [sg] }) := by
  have h1 : takeSign (sg :: s) = ([sg], s) := by rcases hsg with rfl | rfl <;> rfl
  have h2 : takeSign s = ([], s) := by
    cases s with
    | nil => rfl
    | cons c s =>
      have a : c ≠ '-' := fun h => hs.1 (by rw [h]; rfl)
      have b : c ≠ '+' := fun h => hs.2 (by rw [h]; rfl)
      simp [takeSign, a, b]
  unfold decimalCaps
  rw [h1, h2]
  simp only
  split
  · split
    · split <;> rfl
    · rfl
  · split
    · rfl
    · split
      · split
        · split <;> rfl
        · rfl
      · rfl

theorem decimalCaps_unsigned {s : Text} (hs : s.head? ≠ some '-' ∧ s.head? ≠ some '+') {c : Caps}
    (h : decimalCaps s = some c) : c.sign = [] := by
  have h2 : takeSign s = ([], s) := by
    cases s with
    | nil => rfl
    | cons c s =>
      have a : c ≠ '-' := fun h => hs.1 (by rw [h]; rfl)
      have b : c ≠ '+' := fun h => hs.2 (by rw [h]; rfl)
      simp [takeSign, a, b]
  unfold decimalCaps at h
  rw [h2] at h
  simp only at h
  repeat' split at h
  all_goals first | (cases h; done) | (injection h with h; rw [← h])

/-- A text with a minus sign is the opposite decimal, and a plus sign makes no difference. -/
theorem C90_sign {F32 F64 : Type} {s : Text} (hs : s.head? ≠ some '-' ∧ s.head? ≠ some '+') :
    (decimalString ('-' :: s) : Conv (NumLit F32 F64)) = Spec.oppositeDecimal (decimalString s) ∧
    (decimalString ('+' :: s) : Conv (NumLit F32 F64)) = decimalString s := by
  unfold decimalString
  rw [decimalCaps_sign (.inl rfl) hs, decimalCaps_sign (.inr rfl) hs]
  cases h : decimalCaps s with
  | none => exact ⟨rfl, rfl⟩
  | some c =>
    obtain ⟨sg, w, f, e⟩ := c
    have := decimalCaps_unsigned hs h
    simp only at this
    subst this
    exact ⟨decimalOf_minus w f e, decimalOf_plus w f e⟩

example : (decimalString "-12.50".toList : Conv (NumLit Unit Unit)) = .ok (.dec128 4 2 (-1250)) := by decide +kernel

/-! ## Operators -/

namespace Pratt

namespace Spec

/-- Where an operator stands. -/
inductive Place
  | before | between | after
  deriving DecidableEq

/-- The operators from the loosest to the tightest; those of one entry are read from the left. -/
def order : List (Place × Sym → Prop) :=
  [(· = (.between, .or)),
   (· = (.between, .and)),
   fun x => x = (.before, .not) ∨ x = (.before, .bang),
   fun x => ∃ k, x = (.between, .distinct k) ∨ x = (.between, .between k) ∨ x = (.between, .like k) ∨
     x = (.between, .regex k) ∨ x = (.after, .test k),
   fun x => ∃ k, x = (.after, .escape k),
   fun x => ∃ k, x = (.between, .cmp k),
   (· = (.between, .bar)),
   (· = (.between, .caret)),
   (· = (.between, .amp)),
   fun x => ∃ k, x = (.between, .shift k),
   fun x => x = (.between, .plus) ∨ x = (.between, .minus) ∨ x = (.between, .concat),
   fun x => ∃ k, x = (.between, .mul k),
   fun x => x = (.before, .plus) ∨ x = (.before, .minus) ∨ x = (.before, .tilde),
   fun x => ∃ k, x = (.after, .modifier k)]

end Spec

/-- The binding power of an operator in its place. -/
def power : Spec.Place × Sym → Option Nat
  | (.before, s) => s.pre
  | (.between, s) => s.inf
  | (.after, s) => s.post

/-- The operators are the ones of the list, and of two of them the later binds tighter. -/
theorem C92_order :
    (∀ x, power x ≠ none ↔ ∃ level ∈ Spec.order, level x) ∧
    ∀ i j x y (hi : i < Spec.order.length) (hj : j < Spec.order.length), Spec.order[i] x → Spec.order[j] y →
      ∀ p q, power x = some p → power y = some q → ((p < q ↔ i < j) ∧ (p = q ↔ i = j)) := by
  constructor
  · rintro ⟨place, s⟩
    cases place <;> cases s <;> simp [power, Sym.pre, Sym.inf, Sym.post, Spec.order]
  · have key : ∀ i x (hi : i < Spec.order.length), Spec.order[i] x → ∀ p, power x = some p → p = i + 13 := by
      intro i x hi h p hp
      have hi' : i < 14 := hi
      match i, hi' with
      | 0, _ => cases h; cases hp; rfl
      | 1, _ => cases h; cases hp; rfl
      | 2, _ => rcases h with rfl | rfl <;> (cases hp; rfl)
      | 3, _ => obtain ⟨k, rfl | rfl | rfl | rfl | rfl⟩ := h <;> (cases hp; rfl)
      | 4, _ => obtain ⟨k, rfl⟩ := h; cases hp; rfl
      | 5, _ => obtain ⟨k, rfl⟩ := h; cases hp; rfl
      | 6, _ => cases h; cases hp; rfl
      | 7, _ => cases h; cases hp; rfl
      | 8, _ => cases h; cases hp; rfl
      | 9, _ => obtain ⟨k, rfl⟩ := h; cases hp; rfl
      | 10, _ => rcases h with rfl | rfl | rfl <;> (cases hp; rfl)
      | 11, _ => obtain ⟨k, rfl⟩ := h; cases hp; rfl
      | 12, _ => rcases h with rfl | rfl | rfl <;> (cases hp; rfl)
      | 13, _ => obtain ⟨k, rfl⟩ := h; cases hp; rfl
    intro i j x y hi hj hx hy p q hp hq
    rw [key i x hi hx p hp, key j y hj hy q hq]
    omega

example : (Spec.order[0]) (.between, .or) ∧ (Spec.order[1]) (.between, .and) := ⟨rfl, rfl⟩

/-- The familiar cases. -/
theorem C92_familiar (a b c : Nat) (k : Nat) :
    parseExpr [.atom a, .op .or, .atom b, .op .and, .atom c] = some (.inf .or (.atom a) (.inf .and (.atom b) (.atom c)), []) ∧
    parseExpr [.atom a, .op .and, .atom b, .op .or, .atom c] = some (.inf .or (.inf .and (.atom a) (.atom b)) (.atom c), []) ∧
    parseExpr [.op .not, .atom a, .op (.test k), .op .and, .atom b] =
      some (.inf .and (.pre .not (.post (.test k) (.atom a))) (.atom b), []) ∧
    parseExpr [.op .not, .atom a, .op (.cmp k), .atom b, .op .or, .atom c] =
      some (.inf .or (.pre .not (.inf (.cmp k) (.atom a) (.atom b))) (.atom c), []) ∧
    parseExpr [.atom a, .op .minus, .atom b, .op (.mul k), .op .minus, .atom c] =
      some (.inf .minus (.atom a) (.inf (.mul k) (.atom b) (.pre .minus (.atom c))), []) ∧
    parseExpr [.atom a, .op .minus, .atom b, .op .minus, .atom c] =
      some (.inf .minus (.inf .minus (.atom a) (.atom b)) (.atom c), []) :=
  ⟨by with_unfolding_all rfl, by with_unfolding_all rfl, by with_unfolding_all rfl, by with_unfolding_all rfl,
    by with_unfolding_all rfl, by with_unfolding_all rfl⟩

end Pratt

/-! ## Intervals -/

/-- A single unit is the interval of that field. -/
theorem C93_single_unit (e : IExpr) (neg : Bool) :
    signedInterval neg (.multi (e, .year) []) = standardInterval e .year neg ∧
    signedInterval neg (.multi (e, .month) []) = standardInterval e .month neg ∧
    signedInterval neg (.multi (e, .day) []) = standardInterval e .day neg ∧
    signedInterval neg (.multi (e, .hour) []) = standardInterval e .hour neg ∧
    signedInterval neg (.multi (e, .minute) []) = standardInterval e .minute neg ∧
    signedInterval neg (.multi (e, .second) []) = standardInterval e .second neg := ⟨rfl, rfl, rfl, rfl, rfl, rfl⟩

example : signedInterval false (.multi (.lit "3".toList, .minute) []) = some (.micros 180000000) := by decide +kernel

/-! ## Types -/

open Verif.Sql.Ddl

/-- How many of the unit a second has. -/
def Spec.perSecond : TUnit → Nat
  | .second => 1
  | .milli => 1000
  | .micro => 1000000
  | .nano => 1000000000

/-- The precision of a time is the number of digits after the point. -/
theorem C95_precision (p : Nat) :
    (∀ u, toSpec uni (.time (some p)) = some (.time u) → Spec.perSecond u = 10 ^ p) ∧
    ((toSpec uni (.time (some p))).isSome ↔ p = 0 ∨ p = 3 ∨ p = 6 ∨ p = 9) := by
  have key : toSpec uni (.time (some p)) = match unitOf (some (p : Int)) with
      | none => none
      | some u => some (.time u) := by
    rw [toSpec]
    rfl
  rw [key]
  have hc : ∀ k : Nat, ((p : Int) = (k : Int)) ↔ p = k := fun k => by omega
  constructor
  · intro u h
    unfold unitOf at h
    simp only at h
    by_cases h0 : p = 0
    · subst h0; cases h; rfl
    · by_cases h3 : p = 3
      · subst h3; cases h; rfl
      · by_cases h6 : p = 6
        · subst h6; cases h; rfl
        · by_cases h9 : p = 9
          · subst h9; cases h; rfl
          · rw [if_neg (by omega), if_neg (by omega), if_neg (by omega), if_neg (by omega)] at h
            cases h
  · unfold unitOf
    simp only
    by_cases h0 : p = 0
    · subst h0; simp
    · by_cases h3 : p = 3
      · subst h3; simp
      · by_cases h6 : p = 6
        · subst h6; simp
        · by_cases h9 : p = 9
          · subst h9; simp
          · rw [if_neg (by omega), if_neg (by omega), if_neg (by omega), if_neg (by omega)]
            simp [h0, h3, h6, h9]

/-- A decimal type of at most 38 digits is the small one. -/
theorem C95_decimal_width (p s : Int) (wide : Bool) (p' s' : Int)
    (h : toSpec uni (.decimal (some p) (some s)) = some (.decimal wide p' s')) :
    p' = p ∧ s' = s ∧ (wide = true ↔ 38 < p) := by
  rw [toSpec] at h
  simp only [Option.getD_some, decimalType] at h
  split at h
  · injection h with h
    injection h with h1 h2 h3
    subst h1 h2 h3
    simp
  · cases h

example : toSpec uni (.decimal (some 38) (some 2)) = some (.decimal false 38 2) ∧
    toSpec uni (.decimal (some 39) (some 2)) = some (.decimal true 39 2) := ⟨rfl, rfl⟩

/-- Numbers are digits, and fit into 64 bits. -/
theorem C95_number (neg : Bool) (w : Text) (n : Int) :
    number neg w = some n ↔ w ≠ [] ∧ Digits w ∧ n = (if neg then -(digitsVal w : Int) else digitsVal w) ∧
      -(2 ^ 63) ≤ n ∧ n < 2 ^ 63 := by
  unfold number
  have hd : w.all Char.isDigit = true ↔ Digits w := by
    rw [List.all_eq_true]
    rfl
  by_cases hw : w ≠ [] ∧ w.all Char.isDigit = true
  · rw [if_pos hw]
    have h1 : w ≠ [] ∧ Digits w := ⟨hw.1, hd.1 hw.2⟩
    cases neg with
    | true =>
      simp only [if_true]
      split
      · constructor
        · intro h
          injection h with h
          subst h
          refine ⟨h1.1, h1.2, rfl, ?_, ?_⟩ <;> omega
        · rintro ⟨_, _, rfl, _, _⟩
          rfl
      · constructor
        · intro h; cases h
        · rintro ⟨_, _, rfl, _, _⟩
          omega
    | false =>
      simp only [Bool.false_eq_true, if_false]
      split
      · constructor
        · intro h
          injection h with h
          subst h
          refine ⟨h1.1, h1.2, rfl, ?_, ?_⟩ <;> omega
        · rintro ⟨_, _, rfl, _, _⟩
          rfl
      · constructor
        · intro h; cases h
        · rintro ⟨_, _, rfl, _, _⟩
          omega
  · rw [if_neg hw]
    constructor
    · intro h; cases h
    · rintro ⟨h1, h2, _⟩
      exact absurd ⟨h1, hd.2 h2⟩ hw

example : number false "9223372036854775808".toList = none ∧
    number true "9223372036854775808".toList = some (-9223372036854775808) := by decide +kernel

/-- The bits of an integer type. -/
def Spec.bitsOf : List (List String × Nat) :=
  [(["TINYINT", "BYTE", "INT8"], 8), (["SMALLINT", "SHORT", "INT16"], 16), (["INT", "INTEGER", "INT32"], 32),
   (["BIGINT", "LONG", "INT64"], 64)]

/-- The names of an integer type mean the same, and in any case of letters. -/
theorem C95_synonyms (names : List String) (bits : Nat) (h : (names, bits) ∈ Spec.bitsOf) (name : String) (hn : name ∈ names)
    (w : Text) (hw : kw w = name.toList) (n : Nat) (r : List Tok) :
    parseType (n + 1) (.word w :: r) = some (.int true bits, r) := by
  have : headOf (kw w) = .simple (.int true bits) := by
    rw [hw]
    simp only [Spec.bitsOf, List.mem_cons, Prod.mk.injEq, List.not_mem_nil, or_false] at h
    rcases h with ⟨rfl, rfl⟩ | ⟨rfl, rfl⟩ | ⟨rfl, rfl⟩ | ⟨rfl, rfl⟩ <;>
      (simp only [List.mem_cons, List.not_mem_nil, or_false] at hn
       rcases hn with rfl | rfl | rfl <;> rfl)
  exact parse_simple this (Nat.le_add_left ..)

example : kw "Long".toList = "LONG".toList := by decide +kernel

end Verif.Sql
