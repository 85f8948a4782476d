import Verif.Sql.Str
import Verif.Sql.LexerLocal

/-!
# Lemmas on decoding strings, and on replacing a part of a text
-/

namespace Verif.Sql

variable {uni : Char → Bool}

/-! ## Rounds of a character parser -/

/-- The parser consumes at least one character when it succeeds. -/
def Consumes (p : Text → Option (SChar × Text)) : Prop :=
  ∀ {s : Text} {x : SChar} {r : Text}, p s = some (x, r) → r.length < s.length

theorem charsN_fuel {p : Text → Option (SChar × Text)} (hp : Consumes p) :
    ∀ {n m : Nat} {s : Text}, s.length ≤ n → s.length ≤ m → charsN p n s = charsN p m s
  | 0, 0, _, _, _ => rfl
  | 0, m + 1, s, h, _ => by
    have : s = [] := by simpa using h
    subst this
    rw [charsN, charsN]
    cases h1 : p [] with
    | none => rfl
    | some q => obtain ⟨x, r⟩ := q; have := hp h1; simp at this
  | n + 1, 0, s, _, h => by
    have : s = [] := by simpa using h
    subst this
    rw [charsN, charsN]
    cases h1 : p [] with
    | none => rfl
    | some q => obtain ⟨x, r⟩ := q; have := hp h1; simp at this
  | n + 1, m + 1, s, h, h' => by
    rw [charsN, charsN]
    cases h1 : p s with
    | none => rfl
    | some q =>
      obtain ⟨x, r⟩ := q
      have := hp h1
      simp only
      rw [charsN_fuel hp (n := n) (m := m) (s := r) (by omega) (by omega)]

theorem charsN_none {p : Text → Option (SChar × Text)} {n : Nat} {s : Text} (h : p s = none) :
    charsN p n s = ([], s) := by
  cases n <;> simp [charsN, h]

theorem charsN_some {p : Text → Option (SChar × Text)} (hp : Consumes p) {s r : Text} {x : SChar}
    (h : p s = some (x, r)) :
    charsN p s.length s = (x :: (charsN p r.length r).1, (charsN p r.length r).2) := by
  have hl := hp h
  obtain ⟨n, hn⟩ : ∃ n, s.length = n + 1 := ⟨s.length - 1, by omega⟩
  rw [hn, charsN, h]
  simp only
  rw [charsN_fuel hp (n := n) (m := r.length) (by omega) (Nat.le_refl _)]

theorem takeUpTo_length_le {n : Nat} {p : Char → Bool} {s : Text} :
    (takeUpTo n p s).length ≤ s.length := by
  have h1 : (takeUpTo n p s).length ≤ (s.take n).length :=
    (List.takeWhile_prefix p).length_le
  have h2 : (s.take n).length ≤ s.length := by simp; omega
  omega

theorem escAfter_length {s r : Text} {x : SChar} (h : escAfter s = some (x, r)) :
    r.length < s.length := by
  cases s with
  | nil => cases h
  | cons e s =>
    rw [escAfter] at h
    split at h
    · cases h; simp
    · split at h
      · rename_i ho
        cases h
        have : 1 ≤ (takeUpTo 3 isOct (e :: s)).length := by
          simp [takeUpTo, ho]
        simp only [List.length_drop, List.length_cons] at this ⊢
        omega
      · split at h
        · cases h; simp only [List.length_drop, List.length_cons]; omega
        · split at h
          · cases h; simp only [List.length_drop, List.length_cons]; omega
          · split at h
            · cases h; simp only [List.length_drop, List.length_cons]; omega
            · cases h; simp

theorem escChar_consumes (d : Char) : Consumes (escChar d) := by
  intro s x r h
  cases s with
  | nil => cases h
  | cons c s =>
    simp only [escChar] at h
    split at h
    · have := escAfter_length h
      simp only [List.length_cons]; omega
    · split at h
      · cases h
      · cases h; simp

theorem plainChar_consumes (d : Char) : Consumes (plainChar d) := by
  intro s x r h
  cases s with
  | nil => cases h
  | cons c s =>
    simp only [plainChar] at h
    split at h
    · cases h
    · cases h; simp

theorem tickChar_consumes : Consumes tickChar := by
  intro s x r h
  match s, h with
  | [c], h =>
    simp only [tickChar] at h
    split at h
    · cases h
    · cases h; simp
  | c :: e :: s, h =>
    simp only [tickChar] at h
    split at h
    · split at h
      · cases h; simp only [List.length_cons]; omega
      · cases h
    · cases h; simp

theorem dollarChar_consumes (tag : Text) : Consumes (dollarChar tag) := by
  intro s x r h
  cases s with
  | nil => cases h
  | cons c s =>
    simp only [dollarChar] at h
    split at h
    · cases h
    · cases h; simp

theorem uniChar_consumes (d e : Char) : Consumes (uniChar d e) := by
  intro s x r h
  cases s with
  | nil => cases h
  | cons c s =>
    simp only [uniChar] at h
    split at h
    · split at h
      · cases h; simp only [List.length_drop, List.length_cons]; omega
      · split at h
        · cases h; simp only [List.length_drop, List.length_cons, List.length_tail]; omega
        · cases h; simp only [List.length_drop, List.length_cons]; omega
    · split at h
      · cases h
      · cases h; simp

theorem collect_ones (v : Text) : collect (v.map .one) = some v := by
  induction v with
  | nil => rfl
  | cons c v ih => simp [collect, ih]

theorem textVal_ones {delim : Text} {p : Text → Option (SChar × Text)} {pr : Option Char} {b v : Text}
    (h : charsN p b.length b = (v.map .one, delim)) :
    textVal delim p pr (delim ++ b) = .valid v pr := by
  rw [textVal, if_pos (by rw [List.isPrefixOf_iff_prefix]; exact List.prefix_append _ _)]
  simp only [List.drop_left]
  rw [h]
  simp [collect_ones]

/-! ## A quote always starts a string -/

theorem escBody_of_lexes {q : Char} {r : Text} {ts : List Tok} (hq : isQuote q = true)
    (h : Lexes uni (q :: r) ts) : escBody q r ≠ none := by
  intro hn
  obtain ⟨t, r', ts', _, h1, _⟩ := h.cons_inv
  have ho := lexOne_ok h1
  have he := (lexOne_eq h1).1
  have hq' : q ≠ '-' ∧ q ≠ '/' ∧ isWs q = false ∧ puncts.contains q = false ∧
      isWordChar uni q = false ∧ q.isAlpha = false := by
    simp only [isQuote, Bool.or_eq_true, beq_iff_eq] at hq
    have hw : ∀ c : Char, c.isAlphanum = false → c ≠ '_' → c.toNat < 128 →
        isWordChar uni c = false := by
      intro c h1 h2 h3
      simp only [isWordChar, h1, Bool.false_or, Bool.or_eq_false_iff, beq_eq_false_iff_ne,
        Bool.and_eq_false_iff, decide_eq_false_iff_not]
      exact ⟨h2, .inl (by omega)⟩
    rcases hq with rfl | rfl <;>
      exact ⟨by decide, by decide, by decide, by decide, hw _ (by decide) (by decide) (by decide),
        by decide⟩
  obtain ⟨q1, q2, q3, q4, q5, q6⟩ := hq'
  cases t with
  | lineComment raw =>
    obtain ⟨⟨b, rfl, _⟩, _⟩ := ho
    simp only [Tok.raw, List.cons_append, List.cons.injEq] at he
    exact q1 he.1.symm
  | blockComment raw =>
    obtain ⟨b, rfl, _⟩ := ho
    simp only [Tok.raw, List.cons_append, List.cons.injEq] at he
    exact q2 he.1.symm
  | str raw st =>
    have h2 := ho.2.2 r' ho.2.1
    simp only [Tok.raw] at he
    rw [he, strTok_eq_spec, strSpec, if_neg (by simp [q6]), if_pos hq, hn] at h2
    cases h2
  | word w =>
    cases w with
    | nil => exact ho.1 rfl
    | cons c w =>
      simp only [Tok.raw, List.cons_append, List.cons.injEq] at he
      have := ho.2.1 c (by simp)
      rw [he.1, q5] at this
      cases this
  | ws c n =>
    obtain ⟨h1, h2, _⟩ := ho
    obtain ⟨n, rfl⟩ : ∃ m, n = m + 1 := ⟨n - 1, by omega⟩
    simp only [Tok.raw, List.replicate_succ, List.cons_append, List.cons.injEq] at he
    rw [he.1, q3] at h2
    cases h2
  | punct c =>
    simp only [Tok.raw, List.cons_append, List.cons.injEq] at he
    have := ho.1
    rw [he.1, q4] at this
    cases this

theorem lexOne_punct {c : Char} {r : Text} (h : puncts.contains c = true) (h1 : c ≠ '-')
    (h2 : c ≠ '/') (h3 : c ≠ '$') : lexOne uni (c :: r) = some (.punct c, r) :=
  ok_lexOne (t := .punct c) ⟨h, fun h => absurd h h1, fun h => absurd h h2, fun h => absurd h h3⟩

theorem Lexes.punct_inv {c : Char} {r : Text} {ts : List Tok} (h : Lexes uni (c :: r) ts)
    (hc : puncts.contains c = true) (h1 : c ≠ '-') (h2 : c ≠ '/') (h3 : c ≠ '$') :
    ∃ ts', ts = .punct c :: ts' ∧ Lexes uni r ts' := by
  obtain ⟨t, r', ts', rfl, h4, h5⟩ := h.cons_inv
  rw [lexOne_punct hc h1 h2 h3] at h4
  cases h4
  exact ⟨ts', rfl, h5⟩

theorem wsTok_of_blank {c : Char} {r : Text} (hc : isWs c = true) :
    lexOne uni (c :: r) = some (.ws c ((r.takeWhile (· == c)).length + 1), r.dropWhile (· == c)) := by
  have e : c :: r = (Tok.ws c ((r.takeWhile (· == c)).length + 1)).raw ++ r.dropWhile (· == c) := by
    rw [Tok.raw, List.replicate_succ, ← takeWhile_eq_replicate]
    simp
  rw [e]
  apply ok_lexOne
  refine ⟨by omega, hc, ?_⟩
  intro h
  have := dropWhile_head h
  simp at this

theorem Lexes.drop_blanks : ∀ {n : Nat} {s : Text} {ts : List Tok}, s.length ≤ n →
    Lexes uni s ts → ∃ ts', Lexes uni (s.dropWhile isBlank) ts'
  | 0, s, ts, hn, h => by
    have : s = [] := by simpa using hn
    subst this
    exact ⟨_, h⟩
  | n + 1, [], ts, _, h => ⟨_, h⟩
  | n + 1, c :: s, ts, hn, h => by
    by_cases hc : isBlank c = true
    · have hw : isWs c = true := by
        simp only [isBlank, Bool.or_eq_true, beq_iff_eq] at hc
        rcases hc with rfl | rfl <;> decide
      obtain ⟨t, r, ts', rfl, h1, h2⟩ := h.cons_inv
      rw [wsTok_of_blank hw] at h1
      cases h1
      have hl : (s.dropWhile (· == c)).length ≤ n := by
        have := (List.dropWhile_suffix (l := s) (· == c)).length_le
        simp only [List.length_cons] at hn; omega
      obtain ⟨ts'', h3⟩ := Lexes.drop_blanks hl h2
      refine ⟨ts'', ?_⟩
      have : (c :: s).dropWhile isBlank = (s.dropWhile (· == c)).dropWhile isBlank := by
        rw [List.dropWhile_cons_of_pos hc]
        conv => lhs; rw [← List.takeWhile_append_dropWhile (p := (· == c)) (l := s)]
        generalize hR : s.dropWhile (· == c) = R
        have : ∀ x ∈ s.takeWhile (· == c), isBlank x = true := by
          intro x hx
          have := takeWhile_all hx
          have : x = c := by simpa using this
          rw [this]; exact hc
        generalize s.takeWhile (· == c) = l at this
        induction l with
        | nil => rfl
        | cons x l ih =>
          rw [List.cons_append, List.dropWhile_cons_of_pos (this x (by simp))]
          exact ih (fun y hy => this y (by simp [hy]))
      rw [this]; exact h3
    · rw [List.dropWhile_cons_of_neg hc]
      exact ⟨_, h⟩

/-! ## When a word is not the prefix of a string -/

/-- Nothing that follows the word makes it the prefix of a string. -/
def NoStrAhead (w r : Text) : Prop :=
  (∀ c q, w = [c] → c.isAlpha = true → (r.dropWhile isBlank).head? = some q → isQuote q = false) ∧
  (∀ q, w = ['U'] → r.head? = some '&' → r.tail.head? = some q → isQuote q = false)

theorem noStrAhead_of {w r : Text} {ts : List Tok} (h : Lexes uni r ts) (hs : strTok (w ++ r) = none) :
    NoStrAhead w r := by
  refine ⟨fun c q hw hc hd => ?_, fun q hw h1 h2 => ?_⟩
  · subst hw
    cases hq : isQuote q with
    | false => rfl
    | true =>
      exfalso
      rw [strTok_eq_spec] at hs
      simp only [List.cons_append, List.nil_append] at hs
      rw [strSpec, if_pos hc] at hs
      obtain ⟨ts', h'⟩ := Lexes.drop_blanks (Nat.le_refl _) h
      cases hr : r.dropWhile isBlank with
      | nil => rw [hr] at hd; cases hd
      | cons q' r' =>
        rw [hr] at hd
        cases hd
        rw [hr] at hs h'
        simp only [if_pos hq] at hs
        have h1 := escBody_of_lexes hq h'
        rw [bodyOf] at hs
        split at hs
        · cases hs
        · rename_i hb
          split at hb
          · exact h1 (escBody_plain (quote_ne_backslash hq) hb)
          · exact h1 hb
  · subst hw
    cases hq : isQuote q with
    | false => rfl
    | true =>
      exfalso
      match r, h1, h2 with
      | a :: b :: r, h1, h2 =>
        cases h1; cases h2
        obtain ⟨ts', _, h3⟩ := h.punct_inv (by decide) (by decide) (by decide) (by decide)
        have h4 := escBody_of_lexes hq h3
        rw [strTok_eq_spec] at hs
        simp only [List.cons_append, List.nil_append] at hs
        rw [strSpec, if_pos (by decide), List.dropWhile_cons_of_neg (by decide)] at hs
        simp only at hs
        rw [if_neg (by decide), orElse_none] at hs
        simp only [isQuote, Bool.or_eq_true, beq_iff_eq] at hq
        rcases hq with rfl | rfl
        · have h5 := hs.1
          simp only [unicodeString, beq_self_eq_true, Bool.and_self, if_true] at h5
          split at h5
          · cases h5
          · rename_i hp
            exact h4 (escBody_plain (by decide) hp)
        · have h5 := hs.2
          simp only [unicodeString, beq_self_eq_true, Bool.and_self, if_true] at h5
          split at h5
          · cases h5
          · rename_i hp
            exact h4 (escBody_plain (by decide) hp)

theorem strTok_of_ahead {w r : Text} (hne : w ≠ []) (hw : ∀ c ∈ w, isWordChar uni c = true)
    (h : NoStrAhead w r) : strTok (w ++ r) = none := by
  cases w with
  | nil => exact absurd rfl hne
  | cons c w =>
    have hc := hw c (by simp)
    rw [strTok_eq_spec]
    simp only [List.cons_append]
    rw [strSpec]
    by_cases ha : c.isAlpha = true
    · rw [if_pos ha]
      cases w with
      | nil =>
        simp only [List.nil_append]
        cases hd : r.dropWhile isBlank with
        | nil => rfl
        | cons q r' =>
          simp only
          have hq := h.1 c q rfl ha (by rw [hd]; rfl)
          rw [if_neg (by simp [hq]), orElse_none]
          have key : ∀ d, isQuote d = true → unicodeString d (c :: r) = none := by
            intro d hd'
            match r with
            | [] => rfl
            | [_] => rfl
            | a :: b :: r =>
              simp only [unicodeString]
              rw [if_neg]
              intro h'
              simp only [Bool.and_eq_true, beq_iff_eq] at h'
              obtain ⟨⟨rfl, rfl⟩, rfl⟩ := h'
              have := h.2 b rfl rfl rfl
              rw [hd'] at this
              cases this
          exact ⟨key _ (by decide), key _ (by decide)⟩
      | cons e w =>
        have he := hw e (by simp)
        have n1 : e ≠ ' ' := word_not_special he (by decide) (by decide) (by decide)
        have n2 : e ≠ '\t' := word_not_special he (by decide) (by decide) (by decide)
        have n3 : e ≠ '\'' := word_not_special he (by decide) (by decide) (by decide)
        have n4 : e ≠ '"' := word_not_special he (by decide) (by decide) (by decide)
        have n5 : e ≠ '&' := word_not_special he (by decide) (by decide) (by decide)
        simp only [List.cons_append]
        rw [List.dropWhile_cons_of_neg (by simp [isBlank, n1, n2])]
        simp only
        rw [if_neg (by simp [isQuote, n3, n4]), orElse_none]
        have key : ∀ d, unicodeString d (c :: e :: (w ++ r)) = none := by
          intro d
          cases h : w ++ r with
          | nil => rfl
          | cons z y =>
            simp [unicodeString, n5]
        exact ⟨key _, key _⟩
    · rw [if_neg ha]
      have n1 : c ≠ '\'' := word_not_special hc (by decide) (by decide) (by decide)
      have n2 : c ≠ '"' := word_not_special hc (by decide) (by decide) (by decide)
      have n3 : c ≠ '`' := word_not_special hc (by decide) (by decide) (by decide)
      have n4 : c ≠ '$' := word_not_special hc (by decide) (by decide) (by decide)
      rw [if_neg (by simp [isQuote, n1, n2]), if_neg (by simp [n3]), dollarString_not n4]

/-! ## Replacing a part of the text that follows a token -/

/-- A character of the text, and the one that takes its place. -/
def Similar (c c' : Char) : Prop := c = c' ∨ (c = '?' ∧ c' = '$')

theorem head_similar {a x x' : Text} {c c' : Char} (h : Similar c c') :
    (a ++ c :: x).head? = (a ++ c' :: x').head? ∨
      ((a ++ c :: x).head? = some '?' ∧ (a ++ c' :: x').head? = some '$') := by
  cases a with
  | nil =>
    rcases h with rfl | ⟨rfl, rfl⟩
    · exact .inl rfl
    · exact .inr ⟨rfl, rfl⟩
  | cons y a => exact .inl rfl

theorem dropWhile_similar {a x x' : Text} {c c' : Char} (h : Similar c c') (hc : isBlank c = false) :
    ((a ++ c :: x).dropWhile isBlank).head? = ((a ++ c' :: x').dropWhile isBlank).head? ∨
      (((a ++ c :: x).dropWhile isBlank).head? = some '?' ∧
        ((a ++ c' :: x').dropWhile isBlank).head? = some '$') := by
  induction a with
  | nil =>
    rcases h with rfl | ⟨rfl, rfl⟩
    · left
      simp [hc]
    · right
      exact ⟨rfl, rfl⟩
  | cons y a ih =>
    simp only [List.cons_append]
    by_cases hy : isBlank y = true
    · rw [List.dropWhile_cons_of_pos hy, List.dropWhile_cons_of_pos hy]
      exact ih
    · rw [List.dropWhile_cons_of_neg hy, List.dropWhile_cons_of_neg hy]
      exact .inl rfl

theorem tail_similar {a x x' : Text} {c c' : Char} (h : Similar c c') (hc' : c' ≠ '&')
    (ha : (a ++ c' :: x').head? = some '&') :
    (a ++ c :: x).tail.head? = (a ++ c' :: x').tail.head? ∨
      ((a ++ c :: x).tail.head? = some '?' ∧ (a ++ c' :: x').tail.head? = some '$') := by
  cases a with
  | nil => cases ha; exact absurd rfl hc'
  | cons y a => exact head_similar h

theorem noStrAhead_similar {w a x x' : Text} {c c' : Char} (h : Similar c c')
    (hc : isBlank c = false) (hc1 : c ≠ '&') (hn : NoStrAhead w (a ++ c :: x)) :
    NoStrAhead w (a ++ c' :: x') := by
  have hc2 : c' ≠ '&' := by
    rcases h with rfl | ⟨rfl, rfl⟩
    · exact hc1
    · decide
  refine ⟨fun e q hw he hd => ?_, fun q hw h1 h2 => ?_⟩
  · rcases dropWhile_similar (a := a) (x := x) (x' := x') h hc with h3 | ⟨_, h3⟩
    · exact hn.1 e q hw he (h3 ▸ hd)
    · rw [h3] at hd; cases hd; decide
  · have h4 : (a ++ c :: x).head? = some '&' := by
      rcases head_similar (a := a) (x := x) (x' := x') h with h3 | ⟨_, h3⟩
      · rw [h3]; exact h1
      · rw [h3] at h1; cases h1
    rcases tail_similar (x := x) h hc2 h1 with h3 | ⟨_, h3⟩
    · exact hn.2 q hw h4 (h3 ▸ h2)
    · rw [h3] at h2; cases h2; decide

theorem ok_similar {t : Tok} {a x x' : Text} {c c' : Char} {ts : List Tok} (h : Similar c c')
    (hc : isBlank c = false) (hc1 : c ≠ '&') (hl : Lexes uni (a ++ c :: x) ts)
    (h1 : t ≠ .punct '$') (h2 : t = .punct '/' → (a ++ c :: x).head? ≠ some '*')
    (ho : Ok uni t (a ++ c :: x)) : Ok uni t (a ++ c' :: x') := by
  have hh := head_similar (a := a) (x := x) (x' := x') h
  cases t with
  | lineComment raw =>
    refine ⟨ho.1, fun e he => ?_⟩
    rcases hh with hh | ⟨h3, _⟩
    · exact ho.2 e (hh ▸ he)
    · exact absurd (ho.2 _ h3) (by decide)
  | blockComment raw => exact ho
  | str raw st =>
    refine ⟨ho.1, fun hb => ?_, ho.2.2⟩
    rcases hh with hh | ⟨_, h4⟩
    · exact hh ▸ ho.2.1 hb
    · rw [h4]; decide
  | word w =>
    obtain ⟨o1, o2, o3, o4⟩ := ho
    refine ⟨o1, o2, fun e he => ?_, ?_⟩
    · rcases hh with hh | ⟨_, h4⟩
      · exact o3 e (hh ▸ he)
      · rw [h4] at he
        cases he
        cases hw : isWordChar uni '$' with
        | false => rfl
        | true => exact absurd rfl (word_not_special hw (d := '$') (by decide) (by decide) (by decide))
    · exact strTok_of_ahead o1 o2 (noStrAhead_similar h hc hc1 (noStrAhead_of hl o4))
  | ws w n =>
    refine ⟨ho.1, ho.2.1, ?_⟩
    rcases hh with hh | ⟨_, h4⟩
    · exact hh ▸ ho.2.2
    · rw [h4]
      intro he
      cases he
      have := ho.2.1
      revert this; decide
  | punct p =>
    obtain ⟨o1, o2, o3, o4⟩ := ho
    refine ⟨o1, fun hp => ?_, fun hp => ?_, fun hp => absurd (by rw [hp]) h1⟩
    · rcases hh with hh | ⟨_, h4⟩
      · exact hh ▸ o2 hp
      · rw [h4]; decide
    · subst hp
      have h5 : (a ++ c' :: x').head? ≠ some '*' := by
        rcases hh with hh | ⟨_, h4⟩
        · rw [← hh]; exact h2 rfl
        · rw [h4]; decide
      cases hr : a ++ c' :: x' with
      | nil => rfl
      | cons e r =>
        rw [hr] at h5
        have : e ≠ '*' := by simpa using h5
        simp [blockComment, this]

end Verif.Sql
