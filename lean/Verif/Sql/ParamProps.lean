import Verif.Sql.Param
import Verif.Sql.StrLemmas

/-!
# C91: the k-th question mark takes the k-th argument
-/

namespace Verif.Sql

variable {uni : Char → Bool}

namespace Spec

/-- The number written in decimal. -/
def decimal (n : Nat) : Text := (toString n).toList

/-- The tokens of a statement with the first marker replaced by the variable `$k`, the second by
`$k+1`, and so on. -/
def mark : Nat → List Tok → List Tok
  | _, [] => []
  | k, t :: ts =>
    if t = .punct '?' then .punct '$' :: .word (decimal k) :: mark (k + 1) ts else t :: mark k ts

/-- The number of markers. -/
def markers (ts : List Tok) : Nat := ts.count (.punct '?')

/-- The statements for which positional parameters are read as written. -/
structure Clear (uni : Char → Bool) (s : Text) (ts : List Tok) : Prop where
  /-- No free-standing dollar sign. -/
  dollar : Tok.punct '$' ∉ ts
  /-- No dollar sign directly followed by a digit, not even inside of strings and comments. -/
  digit : ∀ a c b, s = a ++ '$' :: c :: b → c.isDigit = false
  /-- No marker directly followed by a letter, digit or underscore. -/
  after : ∀ A B, ts = A ++ .punct '?' :: B → ∀ c, ((B.map Tok.raw).flatten).head? = some c →
    isWordChar uni c = false
  /-- No comment that is never closed. -/
  comment : ∀ A B, ts ≠ A ++ .punct '/' :: .punct '*' :: B

end Spec

open Spec

theorem numeral_decimal (n : Nat) : numeral n = decimal n := by
  rw [numeral, decimal, Nat.toString_eq_ofList_toDigits]
  simp

theorem decimal_ne (n : Nat) : decimal n ≠ [] := by
  rw [← numeral_decimal]; exact Nat.toDigits_ne_nil

theorem decimal_digit {n : Nat} {c : Char} (h : c ∈ decimal n) : c.isDigit = true := by
  rw [← numeral_decimal] at h
  exact Nat.isDigit_of_mem_toDigits (by decide) (by decide) h

theorem decimal_value (n : Nat) : Nat.ofDigitChars 10 (decimal n) 0 = n := by
  rw [← numeral_decimal]; exact Nat.ofDigitChars_ten_toDigits

theorem decimal_inj {m n : Nat} (h : decimal m = decimal n) : m = n := by
  rw [← decimal_value m, h, decimal_value]

theorem digit_word {c : Char} (h : c.isDigit = true) : isWordChar uni c = true := by
  simp [isWordChar, Char.isAlphanum, h]

theorem digit_not_alpha {c : Char} (h : c.isDigit = true) : c.isAlpha = false := by
  cases ha : c.isAlpha with
  | false => rfl
  | true =>
    exfalso
    simp only [Char.isDigit, Char.isAlpha, Char.isUpper, Char.isLower, Bool.and_eq_true,
      Bool.or_eq_true, decide_eq_true_eq, UInt32.le_iff_toNat_le, ge_iff_le] at h ha
    have e1 : ('9'.val).toNat = 57 := rfl
    have e2 : ('A'.val).toNat = 65 := rfl
    have e3 : ('a'.val).toNat = 97 := rfl
    simp only [e1, e2, e3] at h ha
    omega

/-- The rewritten text of the tokens. -/
def marked (k : Nat) (ts : List Tok) : Text := ((mark k ts).map Tok.raw).flatten

/-- The text of the tokens. -/
def texts (ts : List Tok) : Text := (ts.map Tok.raw).flatten

theorem texts_cons (t : Tok) (ts : List Tok) : texts (t :: ts) = t.raw ++ texts ts := rfl

theorem marked_marker (k : Nat) (ts : List Tok) :
    marked k (.punct '?' :: ts) = '$' :: (decimal k ++ marked (k + 1) ts) := by
  simp [marked, mark, Tok.raw]

theorem marked_other {t : Tok} (h : t ≠ .punct '?') (k : Nat) (ts : List Tok) :
    marked k (t :: ts) = t.raw ++ marked k ts := by
  simp [marked, mark, h]

/-! ## The loop -/

theorem rewriteLoop_eq : ∀ (ts : List Tok) (done mid : Text) (count : Nat) (output : Text),
    rewriteLoop (done ++ mid ++ texts ts) ts (done ++ mid).length done.length count output =
      (output ++ mid ++ marked (count + 1) ts, count + markers ts)
  | [], done, mid, count, output => by
    simp [rewriteLoop, texts, marked, mark, markers]
  | t :: ts, done, mid, count, output => by
    rw [rewriteLoop]
    by_cases h : t = .punct '?'
    · subst h
      rw [if_pos rfl]
      have e : done ++ mid ++ texts (.punct '?' :: ts) =
          (done ++ mid ++ ['?']) ++ [] ++ texts ts := by simp [texts, Tok.raw]
      have e1 : ((done ++ mid ++ texts (.punct '?' :: ts)).drop done.length).take
          ((done ++ mid).length - done.length) = mid := by simp
      have e2 : (done ++ mid).length + (Tok.punct '?').raw.length = (done ++ mid ++ ['?']).length := by
        simp [Tok.raw]; omega
      rw [e1, e2, e]
      have := rewriteLoop_eq ts (done ++ mid ++ ['?']) [] (count + 1)
        (output ++ mid ++ ['$'] ++ numeral (count + 1))
      rw [List.append_nil (done ++ mid ++ ['?'])] at this
      rw [List.append_nil, this, marked_marker, numeral_decimal]
      simp [markers]
      omega
    · rw [if_neg h]
      have e : done ++ mid ++ texts (t :: ts) = done ++ (mid ++ t.raw) ++ texts ts := by
        simp [texts]
      have e2 : (done ++ mid).length + t.raw.length = (done ++ (mid ++ t.raw)).length := by simp; omega
      rw [e, e2, rewriteLoop_eq ts done (mid ++ t.raw) count output, marked_other h]
      simp [markers, h]

/-! ## The tokens of the rewritten text -/

theorem marked_split : ∀ (ts : List Tok) (k : Nat), marked k ts = texts ts ∨
    ∃ a x x', texts ts = a ++ '?' :: x ∧ marked k ts = a ++ '$' :: x'
  | [], _ => .inl rfl
  | t :: ts, k => by
    by_cases h : t = .punct '?'
    · subst h
      exact .inr ⟨[], texts ts, _, rfl, marked_marker k ts⟩
    · rw [marked_other h, texts_cons]
      rcases marked_split ts k with h1 | ⟨a, x, x', h1, h2⟩
      · rw [h1]; exact .inl rfl
      · exact .inr ⟨t.raw ++ a, x, x', by rw [h1, List.append_assoc], by rw [h2, List.append_assoc]⟩

theorem marked_head (ts : List Tok) (k : Nat) : (marked k ts).head? = (texts ts).head? ∨
    (marked k ts).head? = some '$' := by
  rcases marked_split ts k with h | ⟨a, x, x', h1, h2⟩
  · exact .inl (by rw [h])
  · rw [h1, h2]
    cases a with
    | nil => exact .inr rfl
    | cons c a => exact .inl rfl

theorem dollar_not_digit : '$'.isDigit = false := by decide

theorem dollar_not_word : isWordChar uni '$' = false := by
  cases h : isWordChar uni '$' with
  | false => rfl
  | true => exact absurd rfl (word_not_special h (d := '$') (by decide) (by decide) (by decide))

/-- After a dollar sign followed by a digit stands the number of a marker. -/
theorem marked_dollar : ∀ (ts : List Tok) (k : Nat),
    (∀ a c b, texts ts = a ++ '$' :: c :: b → c.isDigit = false) →
    (∀ A B, ts = A ++ .punct '?' :: B → ∀ c, (texts B).head? = some c → isWordChar uni c = false) →
    ∀ p d y, marked k ts = p ++ '$' :: d :: y → d.isDigit = true →
      ∃ j z, k ≤ j ∧ d :: y = decimal j ++ z ∧ ∀ c, z.head? = some c → c.isDigit = false
  | [], k, _, _, p, d, y, h, _ => by
    have : marked k [] = [] := rfl
    rw [this] at h
    have := congrArg List.length h
    simp at this
  | t :: ts, k, hd, hw, p, d, y, h, hdig => by
    have hd' : ∀ a c b, texts ts = a ++ '$' :: c :: b → c.isDigit = false := by
      intro a c b e
      exact hd (t.raw ++ a) c b (by rw [texts_cons, e, List.append_assoc])
    have hw' : ∀ A B, ts = A ++ .punct '?' :: B → ∀ c, (texts B).head? = some c →
        isWordChar uni c = false := by
      intro A B e
      exact hw (t :: A) B (by rw [e]; rfl)
    by_cases ht : t = .punct '?'
    · subst ht
      rw [marked_marker] at h
      cases p with
      | nil =>
        simp only [List.nil_append, List.cons.injEq, true_and] at h
        refine ⟨k, marked (k + 1) ts, Nat.le_refl _, h.symm, ?_⟩
        intro c hc
        rcases marked_head ts (k + 1) with e | e
        · rw [e] at hc
          have h1 := hw [] ts rfl c hc
          cases hcd : c.isDigit with
          | false => rfl
          | true => rw [digit_word hcd] at h1; cases h1
        · rw [e] at hc; cases hc; decide
      | cons x p =>
        simp only [List.cons_append, List.cons.injEq] at h
        have h := h.2
        rcases List.append_eq_append_iff.mp h with ⟨p', h1, h2⟩ | ⟨c', h1, h2⟩
        · obtain ⟨j, z, h3, h4, h5⟩ := marked_dollar ts (k + 1) hd' hw' p' d y h2 hdig
          exact ⟨j, z, by omega, h4, h5⟩
        · cases c' with
          | nil =>
            obtain ⟨j, z, h3, h4, h5⟩ := marked_dollar ts (k + 1) hd' hw' [] d y h2.symm hdig
            exact ⟨j, z, by omega, h4, h5⟩
          | cons c c' =>
            simp only [List.cons_append, List.cons.injEq] at h2
            have : c.isDigit = true := decimal_digit (n := k) (by rw [h1]; simp)
            rw [← h2.1] at this
            cases this
    · rw [marked_other ht] at h
      rcases List.append_eq_append_iff.mp h with ⟨p', h1, h2⟩ | ⟨c', h1, h2⟩
      · exact marked_dollar ts k hd' hw' p' d y h2 hdig
      · cases c' with
        | nil => exact marked_dollar ts k hd' hw' [] d y h2.symm hdig
        | cons c c' =>
          simp only [List.cons_append, List.cons.injEq] at h2
          obtain ⟨rfl, h2⟩ := h2
          cases c' with
          | nil =>
            simp only [List.nil_append] at h2
            have hh : (texts ts).head? = some d := by
              rcases marked_head ts k with e | e
              · rw [← e, ← h2]; rfl
              · rw [← h2] at e; cases e; cases hdig
            cases hx : texts ts with
            | nil => rw [hx] at hh; cases hh
            | cons e b =>
              rw [hx] at hh; cases hh
              have := hd p d b (by rw [texts_cons, hx, h1]; simp)
              rw [hdig] at this; cases this
          | cons e c' =>
            simp only [List.cons_append, List.cons.injEq] at h2
            obtain ⟨rfl, h2⟩ := h2
            have := hd p d (c' ++ texts ts) (by rw [texts_cons, h1]; simp)
            rw [hdig] at this; cases this

theorem findTag_infix {tag : Text} : ∀ {s : Text} {x : Text × Text}, findTag tag s = some x →
    ∃ a b, s = a ++ tag ++ b
  | [], _, h => by cases h
  | c :: s, x, h => by
    rw [findTag] at h
    split at h
    · rename_i hp
      obtain ⟨b, hb⟩ := List.isPrefixOf_iff_prefix.mp hp
      exact ⟨[], b, by rw [← hb]; rfl⟩
    · cases hf : findTag tag s with
      | none => rw [hf] at h; cases h
      | some y =>
        obtain ⟨a, b, e⟩ := findTag_infix hf
        exact ⟨c :: a, b, by rw [e]; rfl⟩

theorem decimal_prefix {j k : Nat} {z w : Text} (h : decimal j ++ z = decimal k ++ w)
    (hz : ∀ c, z.head? = some c → c.isDigit = false) (hw : ∀ c, w.head? = some c → c.isDigit = false) :
    j = k := by
  have h1 : (decimal j ++ z).takeWhile Char.isDigit = decimal j :=
    takeWhile_append_stop (fun c hc => decimal_digit hc) hz
  have h2 : (decimal k ++ w).takeWhile Char.isDigit = decimal k :=
    takeWhile_append_stop (fun c hc => decimal_digit hc) hw
  rw [h, h2] at h1
  exact decimal_inj h1.symm

/-- A marker is not the start of a dollar quoted string. -/
theorem dollarString_marker {ts : List Tok} {k : Nat}
    (hd : ∀ a c b, texts ts = a ++ '$' :: c :: b → c.isDigit = false)
    (hw : ∀ A B, ts = A ++ .punct '?' :: B → ∀ c, (texts B).head? = some c → isWordChar uni c = false)
    (hh : ∀ c, (marked (k + 1) ts).head? = some c → c.isDigit = false) :
    dollarString ('$' :: (decimal k ++ marked (k + 1) ts)) = none := by
  cases hs : dollarString ('$' :: (decimal k ++ marked (k + 1) ts)) with
  | none => rfl
  | some x =>
    exfalso
    simp only [dollarString, beq_self_eq_true, if_true] at hs
    have n1 : ∀ c ∈ decimal k, (c != '$') = true := by
      intro c hc
      have := decimal_digit hc
      have : c ≠ '$' := by rintro rfl; cases this
      simpa using this
    have dw : ∀ (l R : Text), (∀ c ∈ l, (c != '$') = true) →
        (l ++ R).dropWhile (· != '$') = R.dropWhile (· != '$') ∧
        (l ++ R).takeWhile (· != '$') = l ++ R.takeWhile (· != '$') := by
      intro l R hl
      induction l with
      | nil => exact ⟨rfl, rfl⟩
      | cons c l ih =>
        have hc := hl c (by simp)
        obtain ⟨i1, i2⟩ := ih (fun c hc => hl c (by simp [hc]))
        simp only [List.cons_append, List.dropWhile_cons, List.takeWhile_cons, hc, if_true]
        exact ⟨i1, by rw [i2]⟩
    obtain ⟨d1, d2⟩ := dw (decimal k) (marked (k + 1) ts) n1
    rw [d1, d2] at hs
    cases hR : (marked (k + 1) ts).dropWhile (· != '$') with
    | nil => rw [hR] at hs; cases hs
    | cons e r' =>
      rw [hR] at hs
      simp only at hs
      have he : e = '$' := by
        have := dropWhile_head (p := (· != '$')) (r := marked (k + 1) ts) (by rw [hR]; rfl)
        simpa using this
      subst he
      split at hs
      · rename_i y rest hf
        obtain ⟨a, b, hab⟩ := findTag_infix hf
        -- the rest of the text contains the tag
        have hm : marked (k + 1) ts = (marked (k + 1) ts).takeWhile (· != '$') ++ '$' :: r' := by
          rw [← hR, List.takeWhile_append_dropWhile]
        cases hk : decimal k with
        | nil => exact decimal_ne k hk
        | cons d ds =>
          have hdd : d.isDigit = true := decimal_digit (n := k) (by rw [hk]; simp)
          generalize hu : (marked (k + 1) ts).takeWhile (· != '$') = u at *
          have e1 : marked (k + 1) ts = (u ++ '$' :: a) ++ '$' :: d :: (ds ++ u ++ '$' :: b) := by
            rw [hm, hab, hk]; simp
          obtain ⟨j, z, h1, h2, h3⟩ := marked_dollar ts (k + 1) hd hw _ _ _ e1 hdd
          have e2 : d :: (ds ++ u ++ '$' :: b) = decimal k ++ (u ++ '$' :: b) := by
            rw [hk]; simp
          rw [e2] at h2
          have := decimal_prefix h2.symm h3 ?_
          · omega
          · intro c hc
            cases u with
            | nil => cases hc; decide
            | cons v u =>
              simp only [List.cons_append, List.head?_cons, Option.some.injEq] at hc
              subst hc
              exact hh v (by rw [hm]; rfl)
      · cases hs

theorem lexes_marked {s : Text} {ts : List Tok} (h : Lexes uni s ts) : ∀ (k : Nat),
    Clear uni s ts → Lexes uni (marked k ts) (mark k ts) := by
  induction h with
  | nil => intro k _; exact .nil
  | @cons s r t ts h1 h2 ih =>
    intro k hc
    obtain ⟨hs, ho⟩ := lexOne_iff.mp h1
    have ht : texts ts = r := h2.texts
    have hc' : Clear uni r ts :=
      ⟨fun hm => hc.dollar (List.mem_cons_of_mem _ hm),
        fun a c b e => hc.digit (t.raw ++ a) c b (by rw [hs, e, List.append_assoc]),
        fun A B e => hc.after (t :: A) B (by rw [e]; rfl),
        fun A B e => hc.comment (t :: A) B (by rw [e]; rfl)⟩
    by_cases hq : t = .punct '?'
    · subst hq
      rw [marked_marker]
      simp only [mark, if_true]
      have hh : ∀ c, (marked (k + 1) ts).head? = some c → isWordChar uni c = false := by
        intro c hc1
        rcases marked_head ts (k + 1) with e | e
        · rw [e] at hc1; exact hc.after [] ts rfl c hc1
        · rw [e] at hc1; cases hc1; exact dollar_not_word
      have hh' : ∀ c, (marked (k + 1) ts).head? = some c → c.isDigit = false := by
        intro c hc1
        have := hh c hc1
        cases hd : c.isDigit with
        | false => rfl
        | true => rw [digit_word hd] at this; cases this
      have hw : ∀ c ∈ decimal k, isWordChar uni c = true := fun c hc => digit_word (decimal_digit hc)
      refine .cons (r := decimal k ++ marked (k + 1) ts) (t := .punct '$') (ok_lexOne (t := .punct '$') ?_)
        (.cons (r := marked (k + 1) ts) (t := .word (decimal k)) (ok_lexOne (t := .word (decimal k)) ?_)
          (ih (k + 1) hc'))
      · exact ⟨by decide, (fun h => by cases h), (fun h => by cases h), fun _ =>
          dollarString_marker (ts := ts) (k := k) (by rw [ht]; exact hc'.digit) hc'.after hh'⟩
      · refine ⟨decimal_ne k, hw, hh, strTok_of_ahead (decimal_ne k) hw ⟨?_, ?_⟩⟩
        · intro c q e ha
          have := digit_not_alpha (decimal_digit (n := k) (c := c) (by rw [e]; simp))
          rw [ha] at this; cases this
        · intro q e
          have := decimal_digit (n := k) (c := 'U') (by rw [e]; simp)
          cases this
    · rw [marked_other hq]
      simp only [mark, hq, if_false]
      refine .cons (lexOne_iff.mpr ⟨rfl, ?_⟩) (ih k hc')
      rcases marked_split ts k with e | ⟨a, x, x', e1, e2⟩
      · rw [e, ht]; exact ho
      · rw [e2]
        rw [ht] at e1
        refine ok_similar (.inr ⟨rfl, rfl⟩) (by decide) (by decide) (e1 ▸ h2) ?_ ?_ (e1 ▸ ho)
        · intro e; exact hc.dollar (by rw [e]; simp)
        · intro e hhd
          rw [← e1] at hhd
          cases r with
          | nil => cases hhd
          | cons y r =>
            cases hhd
            obtain ⟨ts', h5, _⟩ := h2.punct_inv (by decide) (by decide) (by decide) (by decide)
            exact hc.comment [] ts' (by rw [e, h5]; rfl)

/-- The rewritten statement reads as the statement with the k-th marker replaced by the variable
`$k`; every other token stays the same. The number of markers is returned. -/
theorem C91_tokens {s : Text} {ts : List Tok} (h : lex uni s = some ts) (hc : Clear uni s ts) :
    ∃ t, rewriteMarkers uni s = some (t, markers ts) ∧ lex uni t = some (mark 1 ts) := by
  have hl := lex_iff.mp h
  refine ⟨marked 1 ts, ?_, lex_iff.mpr (lexes_marked hl 1 hc)⟩
  rw [rewriteMarkers, h]
  have := rewriteLoop_eq ts [] [] 0 []
  have ht : texts ts = s := hl.texts
  simp only [List.nil_append, List.length_nil, Nat.zero_add, ht] at this
  simp only [this]

theorem clear_of_bool {s : Text} {ts : List Tok} (h1 : Tok.punct '$' ∉ ts) (h2 : '$' ∉ s)
    (h3 : Tok.punct '/' ∉ ts)
    (h4 : ∀ A B, ts = A ++ .punct '?' :: B → ∀ c, ((B.map Tok.raw).flatten).head? = some c →
      isWordChar uni c = false) : Clear uni s ts :=
  ⟨h1, fun a c b e => absurd (by rw [e]; simp) h2, h4, fun A B e => h3 (by rw [e]; simp)⟩

example : lex (fun _ => false) "a=? OR b='?'".toList =
      some [.word ['a'], .punct '=', .punct '?', .ws ' ' 1, .word "OR".toList, .ws ' ' 1, .word ['b'],
        .punct '=', .str "'?'".toList (.quoted '\'' none)] ∧
    Clear (fun _ => false) "a=? OR b='?'".toList
      [.word ['a'], .punct '=', .punct '?', .ws ' ' 1, .word "OR".toList, .ws ' ' 1, .word ['b'],
        .punct '=', .str "'?'".toList (.quoted '\'' none)] := by
  refine ⟨by decide +kernel, clear_of_bool (by decide) (by decide) (by decide) ?_⟩
  intro A B e c hc
  match A, e with
  | [], e => cases e
  | [_], e => cases e
  | [_, _], e => cases e; cases hc; decide
  | [_, _, _], e => cases e
  | [_, _, _, _], e => cases e
  | [_, _, _, _, _], e => cases e
  | [_, _, _, _, _, _], e => cases e
  | [_, _, _, _, _, _, _], e => cases e
  | [_, _, _, _, _, _, _, _], e => cases e
  | _ :: _ :: _ :: _ :: _ :: _ :: _ :: _ :: _ :: A, e => cases A <;> cases e

/-- The variable `$k` stands for the k-th argument. -/
theorem C91_argument {α : Type} (args : List α) {k : Nat} (h : 0 < k) (hk : k < 2 ^ 64) :
    positionalValue args ('$' :: decimal k) = args[k - 1]? := by
  have : parseIndex (decimal k) = some k := by
    have hd : (decimal k).all Char.isDigit = true :=
      List.all_eq_true.mpr fun c hc => decimal_digit hc
    rw [parseIndex, decimal_value, if_pos ⟨decimal_ne k, hd, hk⟩]
  simp only [positionalValue, List.tail_cons, this]
  rw [if_pos h]

example : positionalValue [10, 20, 30] ('$' :: decimal 2) = some 20 := by decide +kernel

/-- The variable of a marker is read as a variable. -/
theorem C91_variable (k : Nat) (ts : List Tok) :
    namedVariable (mark k (.punct '?' :: ts)) = some ('$' :: decimal k, mark (k + 1) ts) := by
  simp [mark, namedVariable]

example : namedVariable (mark 3 [.punct '?', .ws ' ' 1]) = some ("$3".toList, [.ws ' ' 1]) := by
  decide +kernel

/-- The statement is refused exactly when there are more markers than arguments, and then the
first argument that is missing is reported. -/
theorem C91_unbound {α : Type} {s : Text} {ts : List Tok} (h : lex uni s = some ts) {args : List α}
    (ha : args ≠ []) :
    (markers ts > args.length → positionalText uni s args = .unbound args.length) ∧
    (markers ts ≤ args.length → ∃ t, positionalText uni s args = .ok t ∧
      (Clear uni s ts → lex uni t = some (mark 1 ts))) := by
  have hl := lex_iff.mp h
  have hr : rewriteMarkers uni s = some (marked 1 ts, markers ts) := by
    rw [rewriteMarkers, h]
    have := rewriteLoop_eq ts [] [] 0 []
    have ht : texts ts = s := hl.texts
    simp only [List.nil_append, List.length_nil, Nat.zero_add, ht] at this
    simp only [this]
  have he : args.isEmpty = false := by cases args with
    | nil => exact absurd rfl ha
    | cons _ _ => rfl
  constructor
  · intro hm
    rw [positionalText, he, hr]
    simp [hm]
  · intro hm
    refine ⟨marked 1 ts, ?_, fun hc => lex_iff.mpr (lexes_marked hl 1 hc)⟩
    rw [positionalText, he, hr]
    have : ¬ markers ts > args.length := by omega
    simp [this]

example : positionalText (fun _ => false) "f(?, '?') + ?".toList [1] = .unbound 1 ∧
    positionalText (fun _ => false) "f(?, '?') + ?".toList [1, 2] = .ok "f($1, '?') + $2".toList := by
  decide +kernel

/-- A marker directly followed by a word is read as one variable with another name. -/
theorem C91_marker_before_word :
    rewriteMarkers (fun _ => false) "?AS x".toList = some ("$1AS x".toList, 1) ∧
    lex (fun _ => false) "$1AS x".toList =
      some [.punct '$', .word "1AS".toList, .ws ' ' 1, .word ['x']] ∧
    positionalValue [7] "$1AS".toList = none := by
  decide +kernel

/-- A dollar sign and a digit inside of a string can make a marker the start of a dollar quoted
string: a valid statement is refused. -/
theorem C91_dollar_digit_swallows :
    lex (fun _ => false) "?||'$'||\"$1||'$\"".toList =
      some [.punct '?', .punct '|', .punct '|', .str "'$'".toList (.quoted '\'' none),
        .punct '|', .punct '|', .str "\"$1||'$\"".toList (.quoted '"' none)] ∧
    rewriteMarkers (fun _ => false) "?||'$'||\"$1||'$\"".toList =
      some ("$1||'$'||\"$1||'$\"".toList, 1) ∧
    lex (fun _ => false) "$1||'$'||\"$1||'$\"".toList = none := by
  decide +kernel

end Verif.Sql
