import Verif.Sql.NumberValue

/-!
# C90: number literals
-/

namespace Verif.Sql

variable {uni : Char → Bool} {F32 F64 : Type}

namespace Spec

/-- The ways to write a suffix. -/
def spellings : Suffix → List Text
  | .y => [['y'], ['Y']]
  | .s => [['s'], ['S']]
  | .l => [['l'], ['L']]
  | .f => [['f'], ['F']]
  | .d => [['d'], ['D']]
  | .bd => [['b', 'd'], ['b', 'D'], ['B', 'd'], ['B', 'D']]

/-- A number literal by its parts. The exponent is its letter, its sign and its digits. -/
structure Lit where
  whole : Text
  point : Bool
  frac : Text
  exp : Option (Char × Text × Text)
  suffix : Option (Suffix × Text)

/-- The exponent as it is written. -/
def Lit.expText (l : Lit) : Text :=
  match l.exp with
  | none => []
  | some (c, sg, ds) => c :: sg ++ ds

/-- The literal without its suffix. -/
def Lit.number (l : Lit) : Text :=
  l.whole ++ (if l.point then '.' :: l.frac else []) ++ l.expText

/-- The literal as it is written. -/
def Lit.text (l : Lit) : Text :=
  l.number ++ (match l.suffix with
    | none => []
    | some (_, t) => t)

/-- Digits with at most one point and at least one digit, an optional exponent, an optional suffix;
the suffixes of integers are for integers only. -/
structure Lit.Wf (l : Lit) : Prop where
  whole : Digits l.whole
  frac : Digits l.frac
  noFrac : l.point = false → l.frac = []
  nonempty : l.whole ≠ [] ∨ l.frac ≠ []
  exp : ∀ c sg ds, l.exp = some (c, sg, ds) → (c = 'e' ∨ c = 'E') ∧ (sg = [] ∨ sg = ['+'] ∨ sg = ['-']) ∧
    ds ≠ [] ∧ Digits ds
  suffix : ∀ k t, l.suffix = some (k, t) → t ∈ spellings k ∧
    (k = .y ∨ k = .s ∨ k = .l → l.point = false ∧ l.exp = none)

/-- The exponent as a number. -/
def Lit.expVal (l : Lit) : Int :=
  match l.exp with
  | none => 0
  | some (_, sg, ds) => if sg = ['-'] then -(digitsVal ds : Int) else digitsVal ds

/-- The digits as a number, without regard to the point. -/
def Lit.digits (l : Lit) : Nat := digitsVal (l.whole ++ l.frac)

/-- A decimal value: 128 bits up to a precision of 38, 256 bits up to 76. -/
inductive IsDecimal {F32 F64 : Type} (p : Nat) (sc v : Int) : NumLit F32 F64 → Prop
  | short : p ≤ 38 → IsDecimal p sc v (.dec128 p sc v)
  | long : 38 < p → p ≤ 76 → IsDecimal p sc v (.dec256 p sc v)

/-- A number with exactly `k` decimal digits, where zero has none. -/
def Size (k n : Nat) : Prop := n < 10 ^ k ∧ (k = 0 ∨ 10 ^ (k - 1) ≤ n)

end Spec

open Spec

/-! ## Reading -/

theorem next_whole {x ds : Text} (h : Digits ds) :
    (NumState.whole x).nextSlice ds = some (.whole (x ++ ds)) := by
  induction ds generalizing x with
  | nil => simp [NumState.nextSlice]
  | cons c r ih =>
    simp only [NumState.nextSlice, NumState.next, h c (by simp), if_true]
    rw [ih h.tail]; simp

theorem next_decimal {x ds : Text} (h : Digits ds) :
    (NumState.decimal x).nextSlice ds = some (.decimal (x ++ ds)) := by
  induction ds generalizing x with
  | nil => simp [NumState.nextSlice]
  | cons c r ih =>
    simp only [NumState.nextSlice, NumState.next, h c (by simp), if_true]
    rw [ih h.tail]; simp

theorem next_exponent {x ds : Text} (h : Digits ds) :
    (NumState.exponent x).nextSlice ds = some (.exponent (x ++ ds)) := by
  induction ds generalizing x with
  | nil => simp [NumState.nextSlice]
  | cons c r ih =>
    simp only [NumState.nextSlice, NumState.next, h c (by simp), if_true]
    rw [ih h.tail]; simp

theorem next_point {x : Text} : (NumState.whole x).next '.' = some (.decimal (x ++ ['.'])) := rfl

theorem next_point_digit {x : Text} {c : Char} (h : c.isDigit = true) :
    (NumState.point x).next c = some (.decimal (x ++ [c])) := by simp [NumState.next, h]

theorem next_sign_digit {x : Text} {c : Char} (h : c.isDigit = true) :
    (NumState.sign x).next c = some (.exponent (x ++ [c])) := by simp [NumState.next, h]

theorem next_marker_digit {x : Text} {c : Char} (h : c.isDigit = true) :
    (NumState.marker x).next c = some (.exponent (x ++ [c])) := by
  simp [NumState.next, h, digit_ne h (d := '+') (by decide), digit_ne h (d := '-') (by decide)]

theorem next_marker_sign {x : Text} {c : Char} (h : c = '+' ∨ c = '-') :
    (NumState.marker x).next c = some (.sign (x ++ [c])) := by
  rcases h with h | h <;> subst h <;> rfl

theorem next_start_point : NumState.start.next '.' = some (.point ['.']) := rfl

/-- The state after the digits and the point. -/
theorem next_mantissa {l : Lit} (h : l.Wf) :
    NumState.start.nextSlice (l.whole ++ (if l.point then '.' :: l.frac else [])) =
      some (if l.point then .decimal (l.whole ++ '.' :: l.frac) else .whole l.whole) := by
  cases hw : l.whole with
  | nil =>
    have hf : l.frac ≠ [] := by simpa [hw] using h.nonempty
    have hp : l.point = true := by
      cases hp : l.point with
      | true => rfl
      | false => exact absurd (h.noFrac hp) hf
    obtain ⟨c, r, hcr⟩ := List.exists_cons_of_ne_nil hf
    have hd := h.frac
    rw [hcr] at hd
    simp only [hp, if_true, List.nil_append, hcr]
    simp only [NumState.nextSlice, next_start_point, next_point_digit (hd c (by simp))]
    rw [next_decimal hd.tail]; rfl
  | cons c r =>
    have hd := h.whole
    rw [hw] at hd
    have h1 : NumState.start.nextSlice (c :: r) = some (.whole (c :: r)) := by
      simp only [NumState.nextSlice, NumState.next, hd c (by simp), if_true]
      rw [next_whole hd.tail]; rfl
    rw [nextSlice_append h1]
    cases hp : l.point with
    | false => rfl
    | true =>
      simp only [if_true]
      simp only [NumState.nextSlice, next_point]
      rw [next_decimal h.frac]
      simp

/-- The state after the number. -/
theorem next_number {l : Lit} (h : l.Wf) :
    NumState.start.nextSlice l.number =
      some (if l.exp.isSome then .exponent l.number else
        if l.point then .decimal l.number else .whole l.number) := by
  rw [Lit.number, nextSlice_append (next_mantissa h)]
  cases he : l.exp with
  | none => cases hp : l.point <;> simp [Lit.expText, he, NumState.nextSlice]
  | some x =>
    obtain ⟨c, sg, ds⟩ := x
    obtain ⟨hc, hs, hne, hd⟩ := h.exp c sg ds he
    simp only [Lit.expText, he, Option.isSome_some, if_true, List.cons_append]
    have h1 : ∀ y : Text, (NumState.marker y).nextSlice (sg ++ ds) = some (.exponent (y ++ sg ++ ds)) := by
      intro y
      obtain ⟨d, r, hdr⟩ := List.exists_cons_of_ne_nil hne
      subst hdr
      have hdd := hd d (by simp)
      rcases hs with hs | hs | hs <;> subst hs
      · simp only [List.nil_append, NumState.nextSlice, next_marker_digit hdd]
        rw [next_exponent hd.tail]; simp
      · simp only [List.cons_append, List.nil_append, NumState.nextSlice, next_marker_sign (.inl rfl),
          next_sign_digit hdd]
        rw [next_exponent hd.tail]; simp
      · simp only [List.cons_append, List.nil_append, NumState.nextSlice, next_marker_sign (.inr rfl),
          next_sign_digit hdd]
        rw [next_exponent hd.tail]; simp
    have h2 : ∀ y : Text, (NumState.whole y).next c = some (.marker (y ++ [c])) := by
      intro y; rcases hc with hc | hc <;> subst hc <;> rfl
    have h3 : ∀ y : Text, (NumState.decimal y).next c = some (.marker (y ++ [c])) := by
      intro y; rcases hc with hc | hc <;> subst hc <;> rfl
    cases hp : l.point with
    | true =>
      simp only [if_true, NumState.nextSlice, h3, h1]
      simp
    | false =>
      simp only [Bool.false_eq_true, if_false, NumState.nextSlice, h2, h1]
      simp

/-- The state after the suffix, if the state before it allows the suffix. -/
theorem next_suffix {k : Suffix} {t : Text} (h : t ∈ spellings k) {x : Text} {st : NumState}
    (hs : st = .whole x ∨ ((st = .decimal x ∨ st = .exponent x) ∧ ¬(k = .y ∨ k = .s ∨ k = .l))) :
    st.nextSlice t = some (.suffix k x) := by
  cases k <;> simp only [spellings, List.mem_cons, List.not_mem_nil, or_false] at h <;>
    (repeat' (first | subst h | rcases h with h | h)) <;>
    (rcases hs with hs | ⟨hs | hs, hk⟩ <;> subst hs <;>
      first
      | rfl
      | (exfalso; simp at hk; done))

theorem lit_numChar {l : Lit} (h : l.Wf) : ∀ c ∈ l.text, NumChar uni c ∧ c ≠ 'U' := by
  have hdig : ∀ c : Char, c.isDigit = true → NumChar uni c ∧ c ≠ 'U' := by
    intro c hc
    exact ⟨.inl (digit_word hc), digit_ne hc (by decide)⟩
  have hal : ∀ c : Char, c.isAlpha = true → c ≠ 'U' → NumChar uni c ∧ c ≠ 'U' :=
    fun c hc hu => ⟨.inl (alpha_word hc), hu⟩
  intro c hc
  rw [Lit.text] at hc
  rcases List.mem_append.mp hc with hc | hc
  · rw [Lit.number] at hc
    rcases List.mem_append.mp hc with hc | hc
    · rcases List.mem_append.mp hc with hc | hc
      · exact hdig c (h.whole c hc)
      · cases hp : l.point with
        | false => rw [hp] at hc; simp at hc
        | true =>
          rw [hp] at hc
          simp only [if_true, List.mem_cons] at hc
          rcases hc with hc | hc
          · subst hc; exact ⟨.inr (.inl rfl), by decide⟩
          · exact hdig c (h.frac c hc)
    · rw [Lit.expText] at hc
      cases he : l.exp with
      | none => rw [he] at hc; simp at hc
      | some x =>
        obtain ⟨m, sg, ds⟩ := x
        obtain ⟨h1, h2, h3, h4⟩ := h.exp m sg ds he
        rw [he] at hc
        simp only [List.cons_append, List.mem_cons, List.mem_append] at hc
        rcases hc with hc | hc | hc
        · subst hc
          rcases h1 with h1 | h1 <;> subst h1 <;> exact hal _ (by decide) (by decide)
        · rcases h2 with h2 | h2 | h2 <;> subst h2
          · cases hc
          · have : c = '+' := by simpa using hc
            subst this
            exact ⟨.inr (.inr (.inl rfl)), by decide⟩
          · have : c = '-' := by simpa using hc
            subst this
            exact ⟨.inr (.inr (.inr rfl)), by decide⟩
        · exact hdig c (h4 c hc)
  · cases hs : l.suffix with
    | none => rw [hs] at hc; cases hc
    | some x =>
      obtain ⟨k, t⟩ := x
      have := (h.suffix k t hs).1
      rw [hs] at hc
      simp only at hc
      cases k <;> simp only [spellings, List.mem_cons, List.not_mem_nil, or_false] at this <;>
        (repeat' (first | subst this | rcases this with this | this)) <;>
        simp only [List.mem_cons, List.not_mem_nil, or_false] at hc <;>
        (repeat' (first | subst hc | rcases hc with hc | hc)) <;> exact hal _ (by decide) (by decide)

/-- A minus sign occurs in front of the digits of an exponent only. -/
theorem lit_minus {l : Lit} (h : l.Wf) {a b : Text} (hab : l.text = a ++ '-' :: b) :
    ∃ d, b.head? = some d ∧ d.isDigit = true := by
  have hsuf : ∀ k t, l.suffix = some (k, t) → '-' ∉ t := by
    intro k t hk hm
    have := (h.suffix k t hk).1
    cases k <;> simp only [spellings, List.mem_cons, List.not_mem_nil, or_false] at this <;>
      (repeat' (first | subst this | rcases this with this | this)) <;> exact absurd hm (by decide)
  have hman : '-' ∉ l.whole ++ (if l.point then '.' :: l.frac else []) := by
    intro hm
    rcases List.mem_append.mp hm with hm | hm
    · exact absurd (h.whole _ hm) (by decide)
    · cases hp : l.point with
      | false => rw [hp] at hm; simp at hm
      | true =>
        rw [hp] at hm
        simp only [if_true, List.mem_cons] at hm
        rcases hm with hm | hm
        · exact absurd hm (by decide)
        · exact absurd (h.frac _ hm) (by decide)
  have hsuf' : '-' ∉ (match l.suffix with
      | none => ([] : Text)
      | some (_, t) => t) := by
    cases hs : l.suffix with
    | none => simp
    | some x => exact hsuf x.1 x.2 hs
  cases he : l.exp with
  | none =>
    exfalso
    have : '-' ∈ l.text := by rw [hab]; simp
    rw [Lit.text, Lit.number, Lit.expText, he, List.append_nil] at this
    rcases List.mem_append.mp this with hm | hm
    · exact hman hm
    · exact hsuf' hm
  | some x =>
    obtain ⟨m, sg, ds⟩ := x
    obtain ⟨h1, h2, h3, h4⟩ := h.exp m sg ds he
    obtain ⟨d, r, hdr⟩ := List.exists_cons_of_ne_nil h3
    have hm' : m ≠ '-' := by rcases h1 with h1 | h1 <;> subst h1 <;> decide
    -- the text up to the sign has no minus
    have key : ∀ (p q a b : Text), '-' ∉ p → p ++ q = a ++ '-' :: b → ∃ a', q = a' ++ '-' :: b := by
      intro p
      induction p with
      | nil => intro q a b _ h; exact ⟨a, h⟩
      | cons c p ih =>
        intro q a b hp h
        cases a with
        | nil =>
          simp only [List.cons_append, List.nil_append, List.cons.injEq] at h
          exact absurd (by rw [h.1]; simp) hp
        | cons c' a =>
          simp only [List.cons_append, List.cons.injEq] at h
          exact ih q a b (fun hm => hp (List.mem_cons_of_mem _ hm)) h.2
    generalize hS : (match l.suffix with
      | none => ([] : Text)
      | some (_, t) => t) = S at *
    rw [Lit.text, Lit.number, Lit.expText, he, hS] at hab
    simp only [List.append_assoc] at hab
    rw [← List.append_assoc] at hab
    obtain ⟨a1, ha1⟩ := key _ _ _ _ hman hab
    have hds : '-' ∉ ds := fun hm => absurd (h4 _ hm) (by decide)
    have htail : ∀ a' b', ds ++ S = a' ++ '-' :: b' → False := by
      intro a' b' hx
      obtain ⟨a2, ha2⟩ := key _ _ _ _ hds hx
      exact hsuf' (by rw [ha2]; simp)
    rcases h2 with h2 | h2 | h2 <;> subst h2
    · exact absurd (key [m] (ds ++ S) a1 b (by simp [hm'.symm]) ha1) (fun ⟨a2, h⟩ => htail a2 b h)
    · exact absurd (key [m, '+'] (ds ++ S) a1 b (by simp [hm'.symm]) ha1) (fun ⟨a2, h⟩ => htail a2 b h)
    · obtain ⟨a2, ha2⟩ := key [m] ('-' :: (ds ++ S)) a1 b (by simp [hm'.symm]) ha1
      cases a2 with
      | nil =>
        simp only [List.nil_append, List.cons.injEq, true_and] at ha2
        exact ⟨d, by rw [← ha2, hdr]; rfl, h4 d (by rw [hdr]; simp)⟩
      | cons c a2 =>
        simp only [List.cons_append, List.cons.injEq] at ha2
        exact absurd ha2.2 (fun h => htail _ _ h)

/-- Every number literal, followed by anything that does not continue it, is read as a whole, with its
suffix, over however many tokens it stretches. -/
theorem C90_read {l : Lit} (h : l.Wf) {rest : Text} {rts : List Tok} (hl : lex uni rest = some rts)
    (h1 : ∀ c, rest.head? = some c → isWordChar uni c = false ∧ c ≠ '.')
    (h2 : ∀ q, (rest.dropWhile isBlank).head? = some q → q ≠ '\'' ∧ q ≠ '"') :
    ∃ ts, lex uni (l.text ++ rest) = some ts ∧
      parseNumber ts = some ((l.number, l.suffix.map (·.1)), skipWs rts) := by
  have hends : Ends uni rest := by
    refine ⟨h1, fun q hq => ?_⟩
    have := h2 q hq
    simp [isQuote, this.1, this.2]
  have hnum := next_number h
  obtain ⟨st, hst, hfin⟩ : ∃ st, NumState.start.nextSlice l.text = some st ∧
      st.finalize = some (l.number, l.suffix.map (·.1)) := by
    cases hs : l.suffix with
    | none =>
      rw [Lit.text, hs]
      simp only [List.append_nil]
      refine ⟨_, hnum, ?_⟩
      cases l.exp.isSome <;> cases l.point <;> rfl
    | some x =>
      obtain ⟨k, t⟩ := x
      obtain ⟨h3, h4⟩ := h.suffix k t hs
      refine ⟨.suffix k l.number, ?_, rfl⟩
      rw [Lit.text, hs]
      simp only
      rw [nextSlice_append hnum]
      apply next_suffix h3
      by_cases hk : k = .y ∨ k = .s ∨ k = .l
      · obtain ⟨h5, h6⟩ := h4 hk
        left
        simp [h5, h6]
      · cases l.exp.isSome
        · cases l.point
          · left; rfl
          · right; exact ⟨.inl rfl, hk⟩
        · right; exact ⟨.inr rfl, hk⟩
  have hne : l.text ≠ [] := by
    intro hnil
    rw [hnil] at hst
    simp only [NumState.nextSlice, Option.some.injEq] at hst
    subst hst
    cases hfin
  obtain ⟨ts, h5, h6⟩ := parseNumber_text hne (fun c hc => (lit_numChar h c hc).1)
    (fun hU => (lit_numChar (uni := uni) h _ hU).2 rfl) (fun a b hab => lit_minus h hab) hst hfin
    (lex_iff.mp hl) hends
  exact ⟨ts, lex_iff.mpr h5, h6⟩

example : (lex (fun _ => false) "12.5e-3BD+x".toList).map parseNumber =
    some (some (("12.5e-3".toList, some .bd), [.punct '+', .word ['x']])) := by decide +kernel

/-- A suffix for integers after a decimal point: the literal ends at the point, and the digits with
the suffix are left over. -/
theorem C90_suffix_after_point :
    (lex (fun _ => false) "1.5L".toList).map parseNumber =
      some (some ((['1', '.'], none), [.word ['5', 'L']])) := by decide +kernel


/-! ## Values -/

theorem decimal_both (s : Text) :
    ((decimal128String s).orElse fun _ => decimal256String s : Conv (NumLit F32 F64)) = decimalString s := by
  rw [decimal128String, decimal256String]
  cases h : (decimalString s : Conv (NumLit F32 F64)) with
  | error => rfl
  | crash => rfl
  | ok x =>
    have : (∃ p sc v, x = .dec128 p sc v) ∨ ∃ p sc v, x = .dec256 p sc v := by
      rw [decimalString] at h
      split at h
      · cases h
      · simp only [decimalOf] at h
        (repeat' split at h) <;> cases h <;>
          first
          | exact .inr ⟨_, _, _, rfl⟩
          | exact .inl ⟨_, _, _, rfl⟩
    rcases this with ⟨p, sc, v, rfl⟩ | ⟨p, sc, v, rfl⟩ <;> rfl

theorem endOf_nil : EndOf [] none := ⟨rfl, fun c hc => by cases hc⟩

theorem endOf_exp {l : Lit} (h : l.Wf) : EndOf l.expText (l.exp.map (fun x => x.2.1 ++ x.2.2)) := by
  rw [Lit.expText]
  cases he : l.exp with
  | none => exact endOf_nil
  | some x =>
    obtain ⟨c, sg, ds⟩ := x
    obtain ⟨h1, h2, h3, h4⟩ := h.exp c sg ds he
    obtain ⟨d, r, hdr⟩ := List.exists_cons_of_ne_nil h3
    subst hdr
    have hd := h4 d (by simp)
    refine ⟨?_, fun x hx => by cases hx; exact h1⟩
    have hc : (c == 'e' || c == 'E') = true := by rcases h1 with h1 | h1 <;> subst h1 <;> rfl
    have hall := h4.all
    rcases h2 with h2 | h2 | h2 <;> subst h2
    · have e : (if (d == '+' || d == '-') = true then r else d :: r) = d :: r :=
        if_neg (by simp [digit_ne hd (d := '+') (by decide), digit_ne hd (d := '-') (by decide)])
      simp only [List.cons_append, List.nil_append, decimalEnd, hc, if_true, Option.map_some, e]
      exact if_pos ⟨by simp, hall⟩
    · have e : (if ('+' == '+' || '+' == '-') = true then d :: r else '+' :: d :: r) = d :: r := rfl
      simp only [List.cons_append, List.nil_append, decimalEnd, hc, if_true, Option.map_some, e]
      exact if_pos ⟨by simp, hall⟩
    · have e : (if ('-' == '+' || '-' == '-') = true then d :: r else '-' :: d :: r) = d :: r := rfl
      simp only [List.cons_append, List.nil_append, decimalEnd, hc, if_true, Option.map_some, e]
      exact if_pos ⟨by simp, hall⟩

theorem capsExp_lit {l : Lit} (h : l.Wf) :
    capsExp (l.exp.map (fun x => x.2.1 ++ x.2.2)) =
      if -128 ≤ l.expVal ∧ l.expVal ≤ 127 then some l.expVal else none := by
  rw [Lit.expVal]
  cases he : l.exp with
  | none => rfl
  | some x =>
    obtain ⟨c, sg, ds⟩ := x
    obtain ⟨h1, h2, h3, h4⟩ := h.exp c sg ds he
    simp only [Option.map_some, capsExp]
    have h27 : (2 ^ (8 - 1) : Int) = 128 := by decide
    rcases h2 with h2 | h2 | h2 <;> subst h2
    · rw [List.nil_append, parseInt_digits h4 h3, h27, if_neg (show ¬ ([] : Text) = ['-'] by simp)]
      by_cases hlt : (digitsVal ds : Int) < 128
      · rw [if_pos hlt, if_pos (by omega)]
      · rw [if_neg hlt, if_neg (by omega)]
    · have e : ('+' == '-') = false := rfl
      simp only [List.cons_append, List.nil_append, parseInt, parseDigits_eq h4 h3, Option.map_some, h27, e]
      rw [if_neg (show ¬ (['+'] : Text) = ['-'] by simp)]
      by_cases hlt : (digitsVal ds : Int) < 128
      · simp only [Bool.false_eq_true, if_false, beq_self_eq_true, if_true]
        rw [if_pos (by omega), if_pos (by omega)]
      · simp only [Bool.false_eq_true, if_false, beq_self_eq_true, if_true]
        rw [if_neg (by omega), if_neg (by omega)]
    · simp only [List.cons_append, List.nil_append, parseInt, parseDigits_eq h4 h3, Option.map_some, h27]
      by_cases hlt : (digitsVal ds : Int) ≤ 128
      · simp only [beq_self_eq_true, if_true]
        rw [if_pos (by omega), if_pos (by omega)]
      · simp only [beq_self_eq_true, if_true]
        rw [if_neg (by omega), if_neg (by omega)]

/-- The captures of a literal with not too many digits are its parts. -/
theorem decimalCaps_lit {l : Lit} (h : l.Wf) (hw : l.whole.length ≤ 38) (hf : l.frac.length ≤ 38) :
    decimalCaps l.number = some ⟨[], l.whole, l.frac, l.exp.map (fun x => x.2.1 ++ x.2.2)⟩ := by
  rw [Lit.number]
  cases hp : l.point with
  | true =>
    simp only [if_true, List.append_assoc, List.cons_append]
    exact decimalCaps_point h.whole h.frac h.nonempty hw hf (endOf_exp h)
  | false =>
    have hfr := h.noFrac hp
    have hne : l.whole ≠ [] := by simpa [hfr] using h.nonempty
    simp only [Bool.false_eq_true, if_false, List.append_nil]
    rw [decimalCaps_whole h.whole hne (endOf_exp h), if_pos (by omega), List.take_of_length_le hw,
      List.drop_eq_nil_of_le hw, hfr]

/-- When the decimal parser is asked: for the suffix `BD`, or for a number with a point and without an
exponent. -/
def DecimalLit (l : Lit) : Prop :=
  l.suffix.map (·.1) = some .bd ∨ (l.suffix = none ∧ l.point = true ∧ l.exp = none)

theorem numberLiteral_decimal {f32 : Text → Option F32} {f64 : Text → Option F64} {l : Lit} (h : l.Wf)
    (hd : DecimalLit l) :
    numberLiteral f32 f64 l.number (l.suffix.map (·.1)) = decimalString l.number := by
  rcases hd with hd | ⟨h1, h2, h3⟩
  · rw [hd]; exact decimal_both _
  · rw [h1]
    have hnum : l.number = l.whole ++ '.' :: l.frac := by simp [Lit.number, h2, Lit.expText, h3]
    have hpt : '.' ∈ l.number := by rw [hnum]; simp
    have hno : ∀ c : Char, c.isDigit = false → c ≠ '.' → c ∉ l.number := by
      intro c hc hne hm
      rw [hnum] at hm
      rcases List.mem_append.mp hm with hm | hm
      · rw [h.whole c hm] at hc; cases hc
      · rcases List.mem_cons.mp hm with hm | hm
        · exact hne hm
        · rw [h.frac c hm] at hc; cases hc
    have he : (l.number.contains 'e' || l.number.contains 'E') = false := by
      simp [hno 'e' (by decide) (by decide), hno 'E' (by decide) (by decide)]
    simp only [Option.map_none, numberLiteral, he, parseInt_point hpt, convOf]
    exact decimal_both _

theorem counted_lt {whole frac : Text} (h : Digits whole) (hf : Digits frac) :
    digitsVal (whole ++ frac) < 10 ^ (countedDigits whole frac + frac.length) := by
  rw [countedDigits]
  split
  · rename_i hz
    rw [hz.2, List.append_nil, ← digitsVal_strip, hz.1]
    decide
  · have : digitsVal (whole ++ frac) = digitsVal (whole.dropWhile (· == '0') ++ frac) := by
      rw [digitsVal_append, digitsVal_append, digitsVal_strip]
    rw [this, ← List.length_append]
    exact digitsVal_lt ((strip_digits h).append hf)

/-- A decimal has exactly the written value, the digits times the power of ten, and it fits its
precision. -/
theorem C90_decimal_value {f32 : Text → Option F32} {f64 : Text → Option F64} {l : Lit} (h : l.Wf)
    (hd : DecimalLit l) (hw : l.whole.length ≤ 38) (hf : l.frac.length ≤ 38) {x : NumLit F32 F64}
    (hx : numberLiteral f32 f64 l.number (l.suffix.map (·.1)) = .ok x) :
    ∃ (p : Nat) (sc v : Int), IsDecimal p sc v x ∧ 0 ≤ sc ∧ sc ≤ p ∧ v < 10 ^ p ∧
      0 ≤ sc + l.expVal - l.frac.length ∧
      v = l.digits * 10 ^ (sc + l.expVal - l.frac.length).toNat := by
  rw [numberLiteral_decimal h hd, decimalString, decimalCaps_lit h hw hf] at hx
  simp only at hx
  have hcap := capsExp_lit h
  by_cases hr : -128 ≤ l.expVal ∧ l.expVal ≤ 127
  · rw [if_pos hr] at hcap
    rw [decimalOf_eq hcap hr h.whole h.frac hw hf h.nonempty] at hx
    have hlt := counted_lt h.whole h.frac
    have hk0 : 1 ≤ countedDigits l.whole l.frac + l.frac.length := by
      cases Nat.eq_zero_or_pos (countedDigits l.whole l.frac + l.frac.length) with
      | inr h => exact h
      | inl hz =>
        exfalso
        rw [countedDigits] at hz
        split at hz
        · omega
        · rename_i hne
          exact hne ⟨List.eq_nil_of_length_eq_zero (by omega), List.eq_nil_of_length_eq_zero (by omega)⟩
    generalize hk : countedDigits l.whole l.frac = k at *
    generalize hn : l.frac.length = f at *
    generalize l.expVal = e at *
    rw [Lit.digits]
    split at hx
    · cases hx
    · split at hx
      · cases hx
      · split at hx
        · cases hx
        · cases hx
          generalize hp : (max ((k : Int) + max (f : Int) e) ((f : Int) - e)).toNat = p at *
          have h1 : max 0 ((f : Int) - e) + e - f = max 0 (e - f) := by omega
          have h2 : (max 0 (e - (f : Int))).toNat = (e - f).toNat := by omega
          refine ⟨p, max 0 ((f : Int) - e), _, ?_, by omega, by omega, ?_, by omega, by rw [h1, h2]⟩
          · rw [decimalLit]
            split
            · rename_i h38
              exact .long h38 (by omega)
            · exact .short (by omega)
          · have h3 : digitsVal (l.whole ++ l.frac) * 10 ^ (e - f).toNat < 10 ^ p := by
              calc _ < 10 ^ (k + f) * 10 ^ (e - (f : Int)).toNat :=
                    Nat.mul_lt_mul_of_pos_right hlt (Nat.pow_pos (by decide))
                _ = 10 ^ (k + f + (e - (f : Int)).toNat) := (Nat.pow_add _ _ _).symm
                _ ≤ 10 ^ p := Nat.pow_le_pow_right (by decide) (by omega)
            exact_mod_cast h3
  · rw [if_neg hr] at hcap
    simp only [decimalOf, hcap] at hx
    cases hx

example : numberLiteral (F32 := Unit) (F64 := Unit) (fun _ => none) (fun _ => none) "12.5e-3".toList
    (some .bd) = .ok (.dec128 4 4 125) := by decide +kernel

/-- Without an exponent, a decimal with up to 38 digits before and after the point is always accepted:
its scale is the number of digits after the point, and its precision is that plus the digits
of the whole part without leading zeros, at least one. -/
theorem C90_decimal_type {f32 : Text → Option F32} {f64 : Text → Option F64} {l : Lit} (h : l.Wf)
    (hd : DecimalLit l) (he : l.exp = none) (hw : l.whole.length ≤ 38) (hf : l.frac.length ≤ 38) :
    ∃ (x : NumLit F32 F64) (k : Nat), Size k (digitsVal l.whole) ∧
      numberLiteral f32 f64 l.number (l.suffix.map (·.1)) = .ok x ∧
      IsDecimal (max 1 (k + l.frac.length)) l.frac.length l.digits x := by
  have hev : l.expVal = 0 := by rw [Lit.expVal, he]
  have hcap := capsExp_lit h
  rw [hev, if_pos (by decide)] at hcap
  have hws := strip_length l.whole
  have hsize : Size (l.whole.dropWhile (· == '0')).length (digitsVal l.whole) := by
    refine ⟨?_, ?_⟩
    · rw [← digitsVal_strip]; exact digitsVal_lt (strip_digits h.whole)
    · by_cases hz : l.whole.dropWhile (· == '0') = []
      · left; rw [hz]; rfl
      · right; exact strip_lower h.whole hz
  have hk : max 1 ((l.whole.dropWhile (· == '0')).length + l.frac.length) =
      countedDigits l.whole l.frac + l.frac.length := by
    rw [countedDigits]
    split
    · rename_i hz; rw [hz.1, hz.2]; rfl
    · rename_i hz
      by_cases h1 : l.frac = []
      · have : l.whole.dropWhile (· == '0') ≠ [] := fun h => hz ⟨h, h1⟩
        have := List.length_pos_iff.mpr this
        omega
      · have := List.length_pos_iff.mpr h1
        omega
  have hc38 : countedDigits l.whole l.frac ≤ 38 := by
    rw [countedDigits]; split <;> omega
  refine ⟨decimalLit (max 1 ((l.whole.dropWhile (· == '0')).length + l.frac.length)) l.frac.length l.digits,
    _, hsize, ?_, ?_⟩
  · rw [numberLiteral_decimal h hd, decimalString, decimalCaps_lit h hw hf]
    simp only
    rw [decimalOf_eq hcap (by decide) h.whole h.frac hw hf h.nonempty, hk]
    rw [if_neg (by omega), if_neg (by omega), if_neg (by omega)]
    have e1 : (max ((countedDigits l.whole l.frac : Int) + max (l.frac.length : Int) 0)
        ((l.frac.length : Int) - 0)).toNat = countedDigits l.whole l.frac + l.frac.length := by omega
    have e2 : max 0 ((l.frac.length : Int) - 0) = l.frac.length := by omega
    have e3 : ((0 : Int) - l.frac.length).toNat = 0 := by omega
    rw [e1, e2, e3, Int.pow_zero, Int.mul_one]
    rfl
  · rw [decimalLit]
    split
    · exact .long ‹_› (by omega)
    · exact .short (by omega)

example : numberLiteral (F32 := Unit) (F64 := Unit) (fun _ => none) (fun _ => none) "007.250".toList none =
    .ok (.dec128 4 3 7250) := by decide +kernel

/-- The exact condition under which a decimal with an exponent crashes the server. -/
theorem C90_decimal_crash {f32 : Text → Option F32} {f64 : Text → Option F64} {l : Lit} (h : l.Wf)
    (hs : l.suffix.map (·.1) = some .bd) (hw : l.whole.length ≤ 38) (hf : l.frac.length ≤ 38) :
    numberLiteral f32 f64 l.number (some .bd) = (.crash : Conv (NumLit F32 F64)) ↔
      l.expVal ≤ l.frac.length + 76 ∧
      ∃ k, Size k (digitsVal l.whole) ∧ 127 < (k : Int) + l.expVal ∧ l.expVal ≤ 127 := by
  have hsize : Size (l.whole.dropWhile (· == '0')).length (digitsVal l.whole) := by
    refine ⟨?_, ?_⟩
    · rw [← digitsVal_strip]; exact digitsVal_lt (strip_digits h.whole)
    · by_cases hz : l.whole.dropWhile (· == '0') = []
      · left; rw [hz]; rfl
      · right; exact strip_lower h.whole hz
  have huniq : ∀ a b n, Size a n → Size b n → a = b := by
    have key : ∀ a b n, Size a n → Size b n → a ≤ b := by
      intro a b n ha hb
      rcases ha.2 with h0 | h0
      · omega
      · have h1 : 10 ^ (a - 1) < 10 ^ b := Nat.lt_of_le_of_lt h0 hb.1
        have := (Nat.pow_lt_pow_iff_right (by decide : 1 < 10)).mp h1
        omega
    intro a b n ha hb
    have := key a b n ha hb
    have := key b a n hb ha
    omega
  have hws := strip_length l.whole
  have hstep := numberLiteral_decimal (f32 := f32) (f64 := f64) h (.inl hs)
  rw [hs] at hstep
  rw [hstep, decimalString, decimalCaps_lit h hw hf]
  simp only
  have hcap := capsExp_lit h
  have hex : (∃ k, Size k (digitsVal l.whole) ∧ 127 < (k : Int) + l.expVal ∧ l.expVal ≤ 127) ↔
      127 < ((l.whole.dropWhile (· == '0')).length : Int) + l.expVal ∧ l.expVal ≤ 127 := by
    constructor
    · rintro ⟨k, h1, h2⟩
      rw [← huniq _ _ _ h1 hsize]; exact h2
    · intro h2; exact ⟨_, hsize, h2⟩
  rw [hex]
  by_cases hr : -128 ≤ l.expVal ∧ l.expVal ≤ 127
  · rw [if_pos hr] at hcap
    rw [decimalOf_eq hcap hr h.whole h.frac hw hf h.nonempty]
    have hcount : (countedDigits l.whole l.frac = (l.whole.dropWhile (· == '0')).length) ∨
        (countedDigits l.whole l.frac = 1 ∧ l.frac.length = 0 ∧ (l.whole.dropWhile (· == '0')).length = 0) := by
      rw [countedDigits]
      split
      · rename_i hz; right; rw [hz.1, hz.2]; exact ⟨rfl, rfl, rfl⟩
      · left; rfl
    constructor
    · intro hcr
      split at hcr
      · cases hcr
      · split at hcr
        · rcases hcount with hc | hc
          · refine ⟨by omega, ?_⟩
            omega
          · omega
        · split at hcr <;> cases hcr
    · intro hcr
      rcases hcount with hc | hc
      · rw [if_neg (by omega), if_pos (by rw [hc]; omega)]
      · omega
  · rw [if_neg hr] at hcap
    simp only [decimalOf, hcap]
    constructor
    · intro h; cases h
    · intro hcr
      exfalso
      omega

example : numberLiteral (F32 := Unit) (F64 := Unit) (fun _ => none) (fun _ => none)
    "12345678901234567890123456789012345678.12345678901234567890123456789012345678e114".toList
    (some .bd) = .crash := by decide +kernel

/-- A number of digits only is an INT if it fits, else a BIGINT, else a decimal with scale zero
and exactly its digits, up to 38 written digits; more than 76 are an error. -/
theorem C90_integer {f32 : Text → Option F32} {f64 : Text → Option F64} {ds : Text} (h : Digits ds)
    (hne : ds ≠ []) :
    (digitsVal ds < 2 ^ 31 →
      numberLiteral f32 f64 ds none = .ok (.int32 (digitsVal ds))) ∧
    (2 ^ 31 ≤ digitsVal ds → digitsVal ds < 2 ^ 63 →
      numberLiteral f32 f64 ds none = .ok (.int64 (digitsVal ds))) ∧
    (2 ^ 63 ≤ digitsVal ds → ds.length ≤ 38 → ∃ p, Size p (digitsVal ds) ∧
      numberLiteral f32 f64 ds none = .ok (.dec128 p 0 (digitsVal ds))) ∧
    (2 ^ 63 ≤ digitsVal ds → 76 < ds.length →
      numberLiteral f32 f64 ds none = (.error : Conv (NumLit F32 F64))) := by
  have hno : ∀ c : Char, c.isDigit = false → c ∉ ds := by
    intro c hc hm; rw [h c hm] at hc; cases hc
  have he : (ds.contains 'e' || ds.contains 'E') = false := by
    simp [hno 'e' (by decide), hno 'E' (by decide)]
  have h32 : (2 ^ (32 - 1) : Int) = (2 ^ 31 : Nat) := by decide
  have h64 : (2 ^ (64 - 1) : Int) = (2 ^ 63 : Nat) := by decide
  have hd : 2 ^ 63 ≤ digitsVal ds → numberLiteral f32 f64 ds none = decimalString ds := by
    intro hn
    have hn' : 2 ^ 31 ≤ digitsVal ds := Nat.le_trans (by decide) hn
    simp only [numberLiteral, he, parseInt_digits h hne, h32, h64]
    rw [if_neg (by decide), if_neg (by omega), if_neg (by omega)]
    exact decimal_both _
  refine ⟨fun hn => ?_, fun hn1 hn2 => ?_, fun hn hl => ?_, fun hn hl => ?_⟩
  · simp only [numberLiteral, he, parseInt_digits h hne, h32]
    rw [if_neg (by decide), if_pos (by omega)]
    rfl
  · simp only [numberLiteral, he, parseInt_digits h hne, h32, h64]
    rw [if_neg (by decide), if_neg (by omega), if_pos (by omega)]
    rfl
  · rw [hd hn]
    have hw : (⟨ds, false, [], none, some (.bd, ['b', 'd'])⟩ : Lit).Wf := {
      whole := h
      frac := by intro c hc; cases hc
      noFrac := fun _ => rfl
      nonempty := .inl hne
      exp := by intro c sg ds h; cases h
      suffix := by intro k t h; cases h; exact ⟨by simp [spellings], by intro h; simp at h⟩ }
    obtain ⟨x, k, h1, h2, h3⟩ := C90_decimal_type (f32 := f32) (f64 := f64) hw (.inl rfl) rfl hl (by simp)
    rw [numberLiteral_decimal hw (.inl rfl)] at h2
    have hnum : (⟨ds, false, [], none, some (.bd, ['b', 'd'])⟩ : Lit).number = ds := by
      simp [Lit.number, Lit.expText]
    rw [hnum] at h2
    have hk : 1 ≤ k ∧ k ≤ 38 := by
      constructor
      · cases Nat.eq_zero_or_pos k with
        | inr h => exact h
        | inl hz =>
          subst hz
          have := h1.1
          simp only [Nat.pow_zero] at this
          have h0 : (2 : Nat) ^ 63 ≤ 0 := by
            have : digitsVal ds = 0 := by omega
            omega
          omega
      · rcases h1.2 with h0 | h0
        · omega
        · have h4 : 10 ^ (k - 1) < 10 ^ ds.length := Nat.lt_of_le_of_lt h0 (digitsVal_lt h)
          have := (Nat.pow_lt_pow_iff_right (by decide : 1 < 10)).mp h4
          omega
    refine ⟨k, h1, ?_⟩
    rw [h2]
    have hmax : max 1 (k + ([] : Text).length) = k := by simp; omega
    simp only [hmax, Lit.digits, List.append_nil] at h3
    cases h3 with
    | short _ => rfl
    | long h38 _ => omega
  · rw [hd hn, decimalString]
    have := decimalCaps_whole h hne endOf_nil
    rw [List.append_nil, if_neg (by omega)] at this
    rw [this]

example : numberLiteral (F32 := Unit) (F64 := Unit) (fun _ => none) (fun _ => none) "9223372036854775808".toList
    none = .ok (.dec128 19 0 9223372036854775808) := by decide +kernel

/-- An integer of 39 to 76 digits that is not a BIGINT is accepted with a decimal point after its
first 38 digits. -/
theorem C90_integer_split {f32 : Text → Option F32} {f64 : Text → Option F64} {ds : Text} (h : Digits ds)
    (hn : 2 ^ 63 ≤ digitsVal ds) (h1 : 38 < ds.length) (h2 : ds.length ≤ 76) :
    ∃ (x : NumLit F32 F64) (p : Nat), numberLiteral f32 f64 ds none = .ok x ∧
      IsDecimal p ((ds.length : Int) - 38) (digitsVal ds) x := by
  have hne : ds ≠ [] := by intro h; rw [h] at h1; simp at h1
  have hno : ∀ c : Char, c.isDigit = false → c ∉ ds := by
    intro c hc hm; rw [h c hm] at hc; cases hc
  have he : (ds.contains 'e' || ds.contains 'E') = false := by
    simp [hno 'e' (by decide), hno 'E' (by decide)]
  have h32 : (2 ^ (32 - 1) : Int) = (2 ^ 31 : Nat) := by decide
  have h64 : (2 ^ (64 - 1) : Int) = (2 ^ 63 : Nat) := by decide
  have hd : numberLiteral f32 f64 ds none = decimalString ds := by
    have hn' : 2 ^ 31 ≤ digitsVal ds := Nat.le_trans (by decide) hn
    simp only [numberLiteral, he, parseInt_digits h hne, h32, h64]
    rw [if_neg (by decide), if_neg (by omega), if_neg (by omega)]
    exact decimal_both _
  have hc := decimalCaps_whole h hne endOf_nil
  rw [List.append_nil, if_pos h2] at hc
  have ht : Digits (ds.take 38) := fun c hc => h c (List.mem_of_mem_take hc)
  have hdr : Digits (ds.drop 38) := fun c hc => h c (List.mem_of_mem_drop hc)
  have hl1 : (ds.take 38).length = 38 := by rw [List.length_take]; omega
  have hl2 : (ds.drop 38).length = ds.length - 38 := List.length_drop
  have hc38 : countedDigits (ds.take 38) (ds.drop 38) ≤ 38 := by
    have := strip_length (ds.take 38)
    rw [countedDigits]; split <;> omega
  rw [hd, decimalString, hc]
  simp only
  rw [decimalOf_eq (ex := none) (e := 0) rfl (by decide) ht hdr (by omega) (by omega)
    (.inr (by intro h; rw [h] at hl2; simp at hl2; omega))]
  rw [List.take_append_drop, hl2]
  generalize countedDigits (ds.take 38) (ds.drop 38) = k at *
  rw [if_neg (by omega), if_neg (by omega), if_neg (by omega)]
  refine ⟨_, (max ((k : Int) + max ((ds.length - 38 : Nat) : Int) 0) (((ds.length - 38 : Nat) : Int) - 0)).toNat,
    rfl, ?_⟩
  have e2 : max 0 (((ds.length - 38 : Nat) : Int) - 0) = (ds.length : Int) - 38 := by omega
  have e3 : ((0 : Int) - (ds.length - 38 : Nat)).toNat = 0 := by omega
  rw [e2, e3, Int.pow_zero, Int.mul_one, decimalLit]
  split
  · exact .long ‹_› (by omega)
  · exact .short (by omega)

example : numberLiteral (F32 := Unit) (F64 := Unit) (fun _ => none) (fun _ => none)
    "123456789012345678901234567890123456789".toList none =
    .ok (.dec256 39 1 123456789012345678901234567890123456789) := by decide +kernel

/-- The suffixes of integers: the value if it is in the range of the type, else an error. -/
theorem C90_suffix {f32 : Text → Option F32} {f64 : Text → Option F64} {ds : Text} (h : Digits ds)
    (hne : ds ≠ []) :
    (numberLiteral f32 f64 ds (some .y) = if digitsVal ds < 2 ^ 7 then
      .ok (.int8 (digitsVal ds)) else .error) ∧
    (numberLiteral f32 f64 ds (some .s) = if digitsVal ds < 2 ^ 15 then
      .ok (.int16 (digitsVal ds)) else .error) ∧
    (numberLiteral f32 f64 ds (some .l) = if digitsVal ds < 2 ^ 63 then
      .ok (.int64 (digitsVal ds)) else .error) := by
  have k8 : (2 ^ (8 - 1) : Int) = (2 ^ 7 : Nat) := by decide
  have k16 : (2 ^ (16 - 1) : Int) = (2 ^ 15 : Nat) := by decide
  have k64 : (2 ^ (64 - 1) : Int) = (2 ^ 63 : Nat) := by decide
  refine ⟨?_, ?_, ?_⟩
  · simp only [numberLiteral, parseInt_digits h hne, k8, Int.ofNat_lt]
    by_cases hh : digitsVal ds < 2 ^ 7
    · rw [if_pos hh, if_pos hh]; rfl
    · rw [if_neg hh, if_neg hh]; rfl
  · simp only [numberLiteral, parseInt_digits h hne, k16, Int.ofNat_lt]
    by_cases hh : digitsVal ds < 2 ^ 15
    · rw [if_pos hh, if_pos hh]; rfl
    · rw [if_neg hh, if_neg hh]; rfl
  · simp only [numberLiteral, parseInt_digits h hne, k64, Int.ofNat_lt]
    by_cases hh : digitsVal ds < 2 ^ 63
    · rw [if_pos hh, if_pos hh]; rfl
    · rw [if_neg hh, if_neg hh]; rfl

example : numberLiteral (F32 := Unit) (F64 := Unit) (fun _ => none) (fun _ => none) "0127".toList
    (some .y) = .ok (.int8 127) := by decide +kernel

/-- The smallest value of an integer type cannot be written with its suffix: the sign is not part of
the literal, and the digits alone are out of range. -/
theorem C90_smallest_refused {f32 : Text → Option F32} {f64 : Text → Option F64} :
    numberLiteral f32 f64 ['1', '2', '8'] (some .y) = (.error : Conv (NumLit F32 F64)) ∧
    numberLiteral f32 f64 "32768".toList (some .s) = (.error : Conv (NumLit F32 F64)) ∧
    numberLiteral f32 f64 "9223372036854775808".toList (some .l) = (.error : Conv (NumLit F32 F64)) := by
  refine ⟨?_, ?_, ?_⟩ <;> rfl

end Verif.Sql
