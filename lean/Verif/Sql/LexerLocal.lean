import Verif.Sql.LexerLemmas

/-!
# When the tokenizer reads a given token: a characterisation that tells what it depends on
-/

namespace Verif.Sql

variable {uni : Char → Bool}

def isQuote (c : Char) : Bool := c == '\'' || c == '"'

/-- The body read after a prefix. -/
def bodyOf (c q : Char) (r : Text) : Option (Text × Text) :=
  if isRawPrefix c then plainBody q r else escBody q r

/-- The choice between the string styles, decided by the first characters. -/
def strSpec : Text → Option (Tok × Text)
  | [] => none
  | c :: r =>
    if c.isAlpha then
      match r.dropWhile isBlank with
      | [] => none
      | q :: r' =>
        if isQuote q then
          match bodyOf c q r' with
          | some (x, rest) =>
            some (.str (c :: r.takeWhile isBlank ++ q :: x) (.quoted q (some c)), rest)
          | none => none
        else (unicodeString '\'' (c :: r) <|> unicodeString '"' (c :: r))
    else if isQuote c then
      match escBody c r with
      | some (x, rest) => some (.str (c :: x) (.quoted c none), rest)
      | none => none
    else if c == '`' then tickString (c :: r)
    else dollarString (c :: r)

theorem isAlpha_of_raw {c : Char} (h : isRawPrefix c = true) : c.isAlpha = true := by
  simp only [isRawPrefix, Bool.or_eq_true, beq_iff_eq] at h
  rcases h with rfl | rfl <;> decide

theorem not_alpha_of_quote {c : Char} (h : isQuote c = true) : c.isAlpha = false := by
  simp only [isQuote, Bool.or_eq_true, beq_iff_eq] at h
  rcases h with rfl | rfl <;> decide

theorem quote_ne_backslash {c : Char} (h : isQuote c = true) : c ≠ '\\' := by
  rintro rfl; revert h; decide

theorem quote_not_blank {c : Char} (h : isQuote c = true) : isBlank c = false := by
  simp only [isQuote, Bool.or_eq_true, beq_iff_eq] at h
  rcases h with rfl | rfl <;> decide

theorem rawString_not {d c : Char} {r : Text} (h : isRawPrefix c = false) :
    rawString d (c :: r) = none := by
  simp [rawString, prefixed, h]

theorem prefixed_body {p : Char → Bool} {c d q : Char} {body : Text → Option (Text × Text)}
    {r r' : Text} (hp : p c = true) (hd : r.dropWhile isBlank = q :: r') :
    prefixed p d body (c :: r) =
      if q == d then
        match body r' with
        | some (x, rest) => some (.str (c :: r.takeWhile isBlank ++ q :: x) (.quoted d (some c)), rest)
        | none => none
      else none := by
  rw [prefixed, if_pos hp, hd]
  rfl

theorem prefixed_blank {p : Char → Bool} {c d : Char} {body : Text → Option (Text × Text)}
    {r : Text} (hd : r.dropWhile isBlank = []) :
    prefixed p d body (c :: r) = none := by
  rw [prefixed, hd]
  split <;> rfl

theorem unicodeString_of_quote {d c : Char} {r : Text} {q : Char} {r' : Text}
    (hd : r.dropWhile isBlank = q :: r') (hq : isQuote q = true) :
    unicodeString d (c :: r) = none := by
  match r with
  | [] => rfl
  | [_] => rfl
  | b :: e :: r =>
    simp only [unicodeString]
    rw [if_neg]
    intro h
    simp only [Bool.and_eq_true, beq_iff_eq] at h
    obtain ⟨⟨_, rfl⟩, _⟩ := h
    rw [List.dropWhile_cons_of_neg (by decide)] at hd
    cases hd
    revert hq; decide

theorem unicodeString_blank {d c : Char} {r : Text} (hd : r.dropWhile isBlank = []) :
    unicodeString d (c :: r) = none := by
  match r with
  | [] => rfl
  | [_] => rfl
  | b :: e :: r =>
    simp only [unicodeString]
    rw [if_neg]
    intro h
    simp only [Bool.and_eq_true, beq_iff_eq] at h
    obtain ⟨⟨_, rfl⟩, _⟩ := h
    rw [List.dropWhile_cons_of_neg (by decide)] at hd
    cases hd

theorem unicodeString_not {d c : Char} {r : Text} (h : c ≠ 'U') :
    unicodeString d (c :: r) = none := by
  match r with
  | [] => rfl
  | [_] => rfl
  | b :: e :: r =>
    simp only [unicodeString]
    rw [if_neg]
    intro h'
    simp only [Bool.and_eq_true, beq_iff_eq] at h'
    exact h h'.1.1

theorem tickString_not {c : Char} {r : Text} (h : c ≠ '`') : tickString (c :: r) = none := by
  simp [tickString, h]

theorem dollarString_not {c : Char} {r : Text} (h : c ≠ '$') : dollarString (c :: r) = none := by
  simp [dollarString, h]

theorem alpha_ne {c d : Char} (h : c.isAlpha = true) (hd : d.isAlpha = false) : c ≠ d := by
  rintro rfl; rw [h] at hd; cases hd

theorem strTok_eq_spec (s : Text) : strTok s = strSpec s := by
  cases s with
  | nil => rfl
  | cons c r =>
    rw [strTok, strSpec]
    by_cases hc : c.isAlpha = true
    · rw [if_pos hc, tickString_not (alpha_ne hc (by decide)),
        dollarString_not (alpha_ne hc (by decide))]
      cases hd : r.dropWhile isBlank with
      | nil =>
        simp only [rawString, escString, if_pos hc, prefixed_blank hd, unicodeString_blank hd]
        rfl
      | cons q r' =>
        simp only
        by_cases hq : isQuote q = true
        · rw [if_pos hq, unicodeString_of_quote hd hq, unicodeString_of_quote hd hq]
          simp only [escString, if_pos hc]
          rw [prefixed_body hc hd, prefixed_body hc hd]
          by_cases hr : isRawPrefix c = true
          · rw [rawString, rawString, prefixed_body hr hd, prefixed_body hr hd]
            rw [bodyOf, if_pos hr]
            simp only [isQuote, Bool.or_eq_true, beq_iff_eq] at hq
            rcases hq with rfl | rfl
            · simp only [beq_self_eq_true, if_true]
              cases hb : plainBody '\'' r' with
              | none =>
                rw [escBody_plain (by decide) hb]
                rfl
              | some p => rfl
            · simp only [beq_self_eq_true, if_true]
              cases hb : plainBody '"' r' with
              | none =>
                rw [escBody_plain (by decide) hb]
                rfl
              | some p => rfl
          · have hr' : isRawPrefix c = false := by simpa using hr
            rw [rawString_not hr', rawString_not hr', bodyOf, if_neg hr]
            simp only [isQuote, Bool.or_eq_true, beq_iff_eq] at hq
            rcases hq with rfl | rfl
            · simp only [beq_self_eq_true, if_true]
              cases hb : escBody '\'' r' with
              | none => rfl
              | some p => rfl
            · simp only [beq_self_eq_true, if_true]
              cases hb : escBody '"' r' with
              | none => rfl
              | some p => rfl
        · rw [if_neg hq]
          have h1 : ∀ d, isQuote d = true → ∀ p body, prefixed p d body (c :: r) = none := by
            intro d hd' p body
            by_cases hp : p c = true
            · rw [prefixed_body hp hd, if_neg]
              intro h
              have : q = d := by simpa using h
              subst this
              exact hq hd'
            · rw [prefixed, if_neg hp]
          simp only [rawString, escString, if_pos hc]
          rw [h1 _ (by decide), h1 _ (by decide), h1 _ (by decide), h1 _ (by decide)]
          cases unicodeString '\'' (c :: r) <;> cases unicodeString '"' (c :: r) <;> rfl
    · rw [if_neg hc]
      have hr : isRawPrefix c = false := by
        cases h : isRawPrefix c
        · rfl
        · exact absurd (isAlpha_of_raw h) hc
      have hU : c ≠ 'U' := by rintro rfl; exact hc (by decide)
      rw [rawString_not hr, rawString_not hr, unicodeString_not hU, unicodeString_not hU]
      simp only [escString, if_neg hc]
      by_cases hq : isQuote c = true
      · rw [if_pos hq]
        have h1 : c ≠ '`' := by rintro rfl; revert hq; decide
        have h2 : c ≠ '$' := by rintro rfl; revert hq; decide
        rw [tickString_not h1, dollarString_not h2]
        simp only [isQuote, Bool.or_eq_true, beq_iff_eq] at hq
        rcases hq with rfl | rfl
        · simp only [beq_self_eq_true, if_true]
          cases escBody '\'' r <;> rfl
        · simp only [beq_self_eq_true, if_true]
          cases escBody '"' r <;> rfl
      · rw [if_neg hq]
        have h1 : ¬ (c == '\'') = true := by
          intro h; apply hq; simp [isQuote, h]
        have h2 : ¬ (c == '"') = true := by
          intro h; apply hq; simp [isQuote, h]
        rw [if_neg h1, if_neg h2]
        by_cases ht : c = '`'
        · subst ht
          rw [dollarString_not (by decide)]
          cases tickString ('`' :: r) <;> rfl
        · rw [tickString_not ht]
          simp [ht]

/-! ## Strings do not depend on what follows -/

theorem blanks_of (r : Text) : ∀ c ∈ r.takeWhile isBlank, isBlank c = true := fun _ h => takeWhile_all h

theorem bodyOf_eq {c q : Char} {s b r : Text} (h : bodyOf c q s = some (b, r)) : b ++ r = s := by
  rw [bodyOf] at h
  split at h
  · exact plainBody_eq h
  · exact escBody_eq h

theorem bodyOf_local {c q : Char} (hq : q ≠ '\\') {s b r : Text} (h : bodyOf c q s = some (b, r))
    (r' : Text) : bodyOf c q (b ++ r') = some (b, r') := by
  rw [bodyOf] at h ⊢
  split at h
  · rename_i hc
    rw [if_pos hc]; exact plainBody_local h r'
  · rename_i hc
    rw [if_neg hc]; exact escBody_local hq h r'

theorem unicodeString_inv {d : Char} {s r : Text} {t : Tok} (h : unicodeString d s = some (t, r)) :
    ∃ b, t = .str ('U' :: '&' :: d :: b) (.unicode d none) ∧
      ∀ r', unicodeString d ('U' :: '&' :: d :: b ++ r') = some (t, r') := by
  match s, h with
  | a :: b :: c :: s, h =>
    simp only [unicodeString] at h
    split at h
    · rename_i hc
      simp only [Bool.and_eq_true, beq_iff_eq] at hc
      obtain ⟨⟨rfl, rfl⟩, rfl⟩ := hc
      split at h
      · rename_i x rest hx
        cases h
        refine ⟨x, rfl, fun r' => ?_⟩
        simp [unicodeString, plainBody_local hx r']
      · cases h
    · cases h

/-- The string styles that end with the text that closes them. -/
theorem strSpec_local {s r : Text} {t : Tok} (h : strSpec s = some (t, r)) :
    ∃ raw st, t = .str raw st ∧ (st = .backtick → r.head? ≠ some '`') ∧
      ∀ r' : Text, (st = .backtick → r'.head? ≠ some '`') → strSpec (raw ++ r') = some (t, r') := by
  cases s with
  | nil => cases h
  | cons c s =>
    rw [strSpec] at h
    split at h
    · rename_i hc
      split at h
      · cases h
      · rename_i q x hd
        split at h
        · rename_i hq
          split at h
          · rename_i b rest hb
            cases h
            refine ⟨_, _, rfl, (fun h => nomatch h), fun r' _ => ?_⟩
            have e1 : (s.takeWhile isBlank ++ (q :: (b ++ r'))).takeWhile isBlank =
                s.takeWhile isBlank := by
              apply takeWhile_append_stop (blanks_of s)
              intro c hc; cases hc; exact quote_not_blank hq
            have e2 : (s.takeWhile isBlank ++ (q :: (b ++ r'))).dropWhile isBlank =
                q :: (b ++ r') := by
              apply dropWhile_append_stop (blanks_of s)
              intro c hc; cases hc; exact quote_not_blank hq
            simp only [List.cons_append, List.append_assoc]
            rw [strSpec, if_pos hc, e2]
            simp only
            rw [if_pos hq, bodyOf_local (quote_ne_backslash hq) hb r', e1]
            rfl
          · cases h
        · rename_i hq
          have key : ∀ d, isQuote d = true → ∀ b r',
              strSpec ('U' :: '&' :: d :: b ++ r') =
                (unicodeString '\'' ('U' :: '&' :: d :: b ++ r') <|>
                  unicodeString '"' ('U' :: '&' :: d :: b ++ r')) := by
            intro d _ b r'
            simp only [List.cons_append]
            rw [strSpec, if_pos (by decide), List.dropWhile_cons_of_neg (by decide)]
            simp only
            rw [if_neg (by decide)]
          rcases orElse_some h with h | ⟨_, h⟩
          · obtain ⟨b, h1, h2⟩ := unicodeString_inv h
            refine ⟨_, _, h1, (fun h => nomatch h), fun r' _ => ?_⟩
            rw [key _ (by decide), h2]; rfl
          · obtain ⟨b, h1, h2⟩ := unicodeString_inv h
            refine ⟨_, _, h1, (fun h => nomatch h), fun r' _ => ?_⟩
            rw [key _ (by decide), h2]
            simp [unicodeString]
    · rename_i hc
      split at h
      · rename_i hq
        split at h
        · rename_i b rest hb
          cases h
          refine ⟨_, _, rfl, (fun h => nomatch h), fun r' _ => ?_⟩
          simp only [List.cons_append]
          rw [strSpec, if_neg hc, if_pos hq, escBody_local (quote_ne_backslash hq) hb r']
        · cases h
      · rename_i hq
        split at h
        · rename_i ht
          simp only [tickString, if_pos ht] at h
          split at h
          · rename_i b rest hb
            cases h
            obtain ⟨i1, i2⟩ := tickBody_local hb
            refine ⟨_, _, rfl, fun _ => i1, fun r' hr' => ?_⟩
            simp only [List.cons_append]
            rw [strSpec, if_neg hc, if_neg hq, if_pos ht, tickString, if_pos ht, i2 r' (hr' rfl)]
          · cases h
        · rename_i ht
          simp only [dollarString] at h
          split at h
          · rename_i hc'
            split at h
            · cases h
            · rename_i e r1 he
              split at h
              · rename_i x rest hx
                cases h
                refine ⟨_, _, rfl, (fun h => nomatch h), fun r' _ => ?_⟩
                have hee : e = '$' := by
                  have := dropWhile_head (p := (· != '$')) (r := s) (c := e) (by rw [he]; rfl)
                  simpa using this
                have e1 : (s.takeWhile (· != '$') ++ (e :: (x ++ r'))).takeWhile (· != '$') =
                    s.takeWhile (· != '$') := by
                  apply takeWhile_append_stop (fun _ h => takeWhile_all h)
                  intro c hc; cases hc; simp [hee]
                have e2 : (s.takeWhile (· != '$') ++ (e :: (x ++ r'))).dropWhile (· != '$') =
                    e :: (x ++ r') := by
                  apply dropWhile_append_stop (fun _ h => takeWhile_all h)
                  intro c hc; cases hc; simp [hee]
                simp only [List.cons_append, List.append_assoc, List.nil_append]
                rw [strSpec, if_neg hc, if_neg hq, if_neg ht, dollarString, if_pos hc', e2]
                simp only
                rw [e1, findTag_local (by simp) hx r']
                simp
              · cases h
          · cases h

theorem strTok_local {s r : Text} {t : Tok} (h : strTok s = some (t, r)) :
    ∃ raw st, t = .str raw st ∧ (st = .backtick → r.head? ≠ some '`') ∧
      ∀ r' : Text, (st = .backtick → r'.head? ≠ some '`') → strTok (raw ++ r') = some (t, r') := by
  rw [strTok_eq_spec] at h
  obtain ⟨raw, st, h1, h2, h3⟩ := strSpec_local h
  exact ⟨raw, st, h1, h2, fun r' hr' => by rw [strTok_eq_spec]; exact h3 r' hr'⟩

/-- A string starts with a letter, a quote, a backtick or a dollar sign. -/
theorem strTok_first {c : Char} {s : Text} {t : Tok} {r : Text} (h : strTok (c :: s) = some (t, r)) :
    c.isAlpha = true ∨ isQuote c = true ∨ c = '`' ∨ c = '$' := by
  rw [strTok_eq_spec, strSpec] at h
  split at h
  · rename_i hc; exact .inl hc
  · split at h
    · rename_i hc; exact .inr (.inl hc)
    · split at h
      · rename_i hc; exact .inr (.inr (.inl (by simpa using hc)))
      · rename_i hc
        by_cases hd : c = '$'
        · exact .inr (.inr (.inr hd))
        · rw [dollarString_not hd] at h; cases h

/-! ## When a token is read -/

/-- White space characters of the tokenizer. -/
def isWs (c : Char) : Bool := c == ' ' || c == '\n' || c == '\r' || c == '\t'

/-- What it means that the tokenizer reads `t` when `r` follows the text of `t`. -/
def Ok (uni : Char → Bool) : Tok → Text → Prop
  | .lineComment raw, r => (∃ b, raw = '-' :: '-' :: b ∧ ∀ c ∈ b, notNewline c = true) ∧
      ∀ c, r.head? = some c → notNewline c = false
  | .blockComment raw, _ => ∃ b, raw = '/' :: '*' :: b ∧ ∀ r', blockBody 0 (b ++ r') = some (b, r')
  | .str raw st, r => raw ≠ [] ∧ (st = .backtick → r.head? ≠ some '`') ∧
      ∀ r' : Text, (st = .backtick → r'.head? ≠ some '`') →
        strTok (raw ++ r') = some (.str raw st, r')
  | .word w, r => w ≠ [] ∧ (∀ c ∈ w, isWordChar uni c = true) ∧
      (∀ c, r.head? = some c → isWordChar uni c = false) ∧ strTok (w ++ r) = none
  | .ws c n, r => 0 < n ∧ isWs c = true ∧ r.head? ≠ some c
  | .punct c, r => puncts.contains c = true ∧ (c = '-' → r.head? ≠ some '-') ∧
      (c = '/' → blockComment (c :: r) = none) ∧ (c = '$' → dollarString (c :: r) = none)

theorem lineComment_not {c : Char} {r : Text} (h : c ≠ '-') : lineComment (c :: r) = none := by
  cases r with
  | nil => rfl
  | cons b r => simp [lineComment, h]

theorem blockComment_not {c : Char} {r : Text} (h : c ≠ '/') : blockComment (c :: r) = none := by
  cases r with
  | nil => rfl
  | cons b r => simp [blockComment, h]

theorem wsTok_not {w c : Char} {r : Text} (h : c ≠ w) : wsTok w (c :: r) = none := by
  simp [wsTok, h]

theorem wsTok_mk {w : Char} {n : Nat} {r : Text} (h : r.head? ≠ some w) :
    wsTok w (List.replicate (n + 1) w ++ r) = some (.ws w (n + 1), r) := by
  rw [List.replicate_succ, List.cons_append, wsTok]
  have hb : ∀ c ∈ List.replicate n w, (c == w) = true := by
    intro c hc
    rw [List.mem_replicate] at hc
    simp [hc.2]
  have hr : ∀ c, r.head? = some c → (c == w) = false := by
    intro c hc
    rw [hc] at h
    simpa using h
  rw [takeWhile_append_stop hb hr, dropWhile_append_stop hb hr]
  simp

theorem alpha_word {c : Char} (h : c.isAlpha = true) : isWordChar uni c = true := by
  simp [isWordChar, Char.isAlphanum, h]

theorem word_not_special {c d : Char} (h : isWordChar uni c = true) (hd : d.isAlphanum = false)
    (hd' : d ≠ '_') (hn : d.toNat < 128) : c ≠ d := by
  rintro rfl
  simp only [isWordChar, hd, Bool.false_or, Bool.or_eq_true, beq_iff_eq, Bool.and_eq_true,
    decide_eq_true_eq] at h
  rcases h with h | h
  · exact hd' h
  · omega

theorem wsTok_inv {w : Char} {s r : Text} {t : Tok} (h : wsTok w s = some (t, r)) :
    ∃ n, t = .ws w (n + 1) ∧ r.head? ≠ some w := by
  cases s with
  | nil => cases h
  | cons c s =>
    simp only [wsTok] at h
    split at h
    · cases h
      refine ⟨_, rfl, ?_⟩
      intro h
      have := dropWhile_head h
      simp at this
    · cases h

theorem lexOne_ok {s r : Text} {t : Tok} (h : lexOne uni s = some (t, r)) : Ok uni t r := by
  have heq := lexOne_eq h
  rw [lexOne] at h
  rcases orElse_some h with h | ⟨h0, h⟩
  · match s, h with
    | a :: b :: s, h =>
      simp only [lineComment] at h
      split at h
      · rename_i hab
        simp only [Bool.and_eq_true, beq_iff_eq] at hab
        obtain ⟨rfl, rfl⟩ := hab
        cases h
        exact ⟨⟨_, rfl, fun _ h => takeWhile_all h⟩, fun c hc => dropWhile_head hc⟩
      · cases h
  rcases orElse_some h with h | ⟨h1, h⟩
  · match s, h with
    | a :: b :: s, h =>
      simp only [blockComment] at h
      split at h
      · rename_i hab
        simp only [Bool.and_eq_true, beq_iff_eq] at hab
        obtain ⟨rfl, rfl⟩ := hab
        split at h
        · rename_i x r' hx
          cases h
          exact ⟨_, rfl, fun r' => blockBody_local hx r'⟩
        · cases h
      · cases h
  rcases orElse_some h with h | ⟨h2, h⟩
  · obtain ⟨raw, st, rfl, i1, i2⟩ := strTok_local h
    exact ⟨heq.2, i1, i2⟩
  rcases orElse_some h with h | ⟨h3, h⟩
  · cases s with
    | nil => cases h
    | cons c s =>
      simp only [wordTok] at h
      split at h
      · rename_i hc
        cases h
        refine ⟨by simp, ?_, fun c hc => dropWhile_head hc, ?_⟩
        · intro c' hc'
          rcases List.mem_cons.mp hc' with rfl | h'
          · exact hc
          · exact takeWhile_all h'
        · simpa using h2
      · cases h
  rcases orElse_some h with h | ⟨_, h⟩
  · obtain ⟨n, rfl, h'⟩ := wsTok_inv h
    exact ⟨by omega, by decide, h'⟩
  rcases orElse_some h with h | ⟨_, h⟩
  · obtain ⟨n, rfl, h'⟩ := wsTok_inv h
    exact ⟨by omega, by decide, h'⟩
  rcases orElse_some h with h | ⟨_, h⟩
  · obtain ⟨n, rfl, h'⟩ := wsTok_inv h
    exact ⟨by omega, by decide, h'⟩
  rcases orElse_some h with h | ⟨_, h⟩
  · obtain ⟨n, rfl, h'⟩ := wsTok_inv h
    exact ⟨by omega, by decide, h'⟩
  · cases s with
    | nil => cases h
    | cons c s =>
      simp only [punctTok] at h
      split at h
      · rename_i hc
        cases h
        refine ⟨hc, ?_, fun _ => h1, ?_⟩
        · rintro rfl hr
          cases r with
          | nil => cases hr
          | cons e r =>
            cases hr
            simp [lineComment] at h0
        · rintro rfl
          rw [strTok_eq_spec, strSpec, if_neg (by decide), if_neg (by decide), if_neg (by decide)] at h2
          exact h2
      · cases h

theorem isWs_not_alpha {c : Char} (h : isWs c = true) :
    c.isAlpha = false ∧ isQuote c = false ∧ c ≠ '`' ∧ c ≠ '$' ∧ c ≠ '-' ∧ c ≠ '/' ∧
      isWordChar uni c = false := by
  simp only [isWs, Bool.or_eq_true, beq_iff_eq] at h
  have hw : ∀ c : Char, c.isAlphanum = false → c ≠ '_' → c.toNat < 128 →
      isWordChar uni c = false := by
    intro c h1 h2 h3
    simp only [isWordChar, h1, Bool.false_or, Bool.or_eq_false_iff, beq_eq_false_iff_ne,
      Bool.and_eq_false_iff, decide_eq_false_iff_not]
    exact ⟨h2, .inl (by omega)⟩
  rcases h with ((rfl | rfl) | rfl) | rfl <;>
    exact ⟨by decide, by decide, by decide, by decide, by decide, by decide,
      hw _ (by decide) (by decide) (by decide)⟩

theorem strTok_not {c : Char} {r : Text} (h1 : c.isAlpha = false) (h2 : isQuote c = false)
    (h3 : c ≠ '`') (h4 : c ≠ '$') : strTok (c :: r) = none := by
  cases h : strTok (c :: r) with
  | none => rfl
  | some p =>
    obtain ⟨t, r'⟩ := p
    rcases strTok_first h with h | h | h | h
    · rw [h1] at h; cases h
    · rw [h2] at h; cases h
    · exact absurd h h3
    · exact absurd h h4

theorem wordTok_not {c : Char} {r : Text} (h : isWordChar uni c = false) :
    wordTok uni (c :: r) = none := by
  simp [wordTok, h]

theorem orElse_none_left {α : Type} (b : Option α) : ((none : Option α) <|> b) = b := by
  cases b <;> rfl

theorem orElse_some_left {α : Type} (x : α) (b : Option α) : (some x <|> b) = some x := rfl

theorem ok_lexOne {t : Tok} {r : Text} (h : Ok uni t r) : lexOne uni (t.raw ++ r) = some (t, r) := by
  cases t with
  | lineComment raw =>
    obtain ⟨⟨b, rfl, hb⟩, hr⟩ := h
    have : lineComment ('-' :: '-' :: (b ++ r)) = some (.lineComment ('-' :: '-' :: b), r) := by
      simp [lineComment, takeWhile_append_stop hb hr, dropWhile_append_stop hb hr]
    simp only [Tok.raw, List.cons_append, lexOne]
    rw [this, orElse_some_left]
  | blockComment raw =>
    obtain ⟨b, rfl, hb⟩ := h
    have : blockComment ('/' :: '*' :: (b ++ r)) = some (.blockComment ('/' :: '*' :: b), r) := by
      simp [blockComment, hb r]
    simp only [Tok.raw, List.cons_append, lexOne]
    rw [lineComment_not (by decide), orElse_none_left, this, orElse_some_left]
  | str raw st =>
    obtain ⟨hne, h1, h2⟩ := h
    have h3 := h2 r h1
    cases raw with
    | nil => exact absurd rfl hne
    | cons c raw =>
      have hc := strTok_first h3
      have n1 : c ≠ '-' := by
        rintro rfl; revert hc; decide
      have n2 : c ≠ '/' := by
        rintro rfl; revert hc; decide
      simp only [Tok.raw, lexOne]
      simp only [List.cons_append] at h3 ⊢
      rw [lineComment_not n1, blockComment_not n2, orElse_none_left, orElse_none_left, h3,
        orElse_some_left]
  | word w =>
    obtain ⟨hne, hw, hr, hs⟩ := h
    cases w with
    | nil => exact absurd rfl hne
    | cons c w =>
      have hc := hw c (by simp)
      have hw' : ∀ c ∈ w, isWordChar uni c = true := fun x hx => hw x (by simp [hx])
      have n1 : c ≠ '-' := word_not_special hc (by decide) (by decide) (by decide)
      have n2 : c ≠ '/' := word_not_special hc (by decide) (by decide) (by decide)
      have : wordTok uni (c :: (w ++ r)) = some (.word (c :: w), r) := by
        rw [wordTok, if_pos hc, takeWhile_append_stop hw' hr, dropWhile_append_stop hw' hr]
      simp only [Tok.raw, lexOne]
      simp only [List.cons_append] at hs ⊢
      rw [lineComment_not n1, blockComment_not n2, hs, orElse_none_left, orElse_none_left,
        orElse_none_left, this, orElse_some_left]
  | ws c n =>
    obtain ⟨hn, hc, hr⟩ := h
    obtain ⟨n, rfl⟩ : ∃ m, n = m + 1 := ⟨n - 1, by omega⟩
    obtain ⟨a1, a2, a3, a4, a5, a6, a7⟩ := isWs_not_alpha (uni := uni) hc
    have h1 := wsTok_mk (n := n) hr
    simp only [Tok.raw, lexOne]
    rw [List.replicate_succ, List.cons_append] at h1 ⊢
    rw [lineComment_not a5, blockComment_not a6, strTok_not a1 a2 a3 a4, wordTok_not a7,
      orElse_none_left, orElse_none_left, orElse_none_left, orElse_none_left]
    simp only [isWs, Bool.or_eq_true, beq_iff_eq] at hc
    rcases hc with ((rfl | rfl) | rfl) | rfl
    · rw [h1, orElse_some_left]
    · rw [wsTok_not (by decide), h1, orElse_none_left, orElse_some_left]
    · rw [wsTok_not (by decide), wsTok_not (by decide), h1, orElse_none_left, orElse_none_left,
        orElse_some_left]
    · rw [wsTok_not (by decide), wsTok_not (by decide), wsTok_not (by decide), h1,
        orElse_none_left, orElse_none_left, orElse_none_left, orElse_some_left]
  | punct c =>
    obtain ⟨hc, h1, h2, h3⟩ := h
    have l1 : lineComment (c :: r) = none := by
      cases r with
      | nil => rfl
      | cons e r =>
        simp only [lineComment]
        rw [if_neg]
        intro h
        simp only [Bool.and_eq_true, beq_iff_eq] at h
        obtain ⟨rfl, rfl⟩ := h
        exact h1 rfl rfl
    have l2 : blockComment (c :: r) = none := by
      by_cases h : c = '/'
      · exact h2 h
      · exact blockComment_not h
    have hmem : c ∈ puncts := by simpa using hc
    have nw : isWordChar uni c = false := by
      cases hw : isWordChar uni c with
      | false => rfl
      | true =>
        exfalso
        revert hw
        simp only [puncts, List.mem_cons, List.not_mem_nil, or_false] at hmem
        have key : ∀ d : Char, d.isAlphanum = false → d ≠ '_' → d.toNat < 128 →
            ¬ isWordChar uni d = true := fun d h1 h2 h3 h => word_not_special h h1 h2 h3 rfl
        rcases hmem with rfl | rfl | rfl | rfl | rfl | rfl | rfl | rfl | rfl | rfl | rfl | rfl |
          rfl | rfl | rfl | rfl | rfl | rfl | rfl | rfl | rfl | rfl | rfl | rfl | rfl | rfl |
          rfl | rfl <;> exact key _ (by decide) (by decide) (by decide)
    have hfacts : c.isAlpha = false ∧ isQuote c = false ∧ c ≠ '`' ∧ isWs c = false := by
      simp only [puncts, List.mem_cons, List.not_mem_nil, or_false] at hmem
      rcases hmem with rfl | rfl | rfl | rfl | rfl | rfl | rfl | rfl | rfl | rfl | rfl | rfl |
          rfl | rfl | rfl | rfl | rfl | rfl | rfl | rfl | rfl | rfl | rfl | rfl | rfl | rfl |
          rfl | rfl <;> decide
    obtain ⟨f1, f2, f3, f4⟩ := hfacts
    have l3 : strTok (c :: r) = none := by
      by_cases h : c = '$'
      · subst h
        rw [strTok_eq_spec, strSpec, if_neg (by decide), if_neg (by decide), if_neg (by decide)]
        exact h3 rfl
      · exact strTok_not f1 f2 f3 h
    simp only [isWs, Bool.or_eq_false_iff, beq_eq_false_iff_ne] at f4
    simp only [Tok.raw, lexOne, List.cons_append, List.nil_append]
    rw [l1, l2, l3, wordTok_not nw, wsTok_not f4.1.1.1, wsTok_not f4.1.1.2, wsTok_not f4.1.2,
      wsTok_not f4.2]
    simp [punctTok, hmem]

theorem lexOne_iff {s r : Text} {t : Tok} :
    lexOne uni s = some (t, r) ↔ s = t.raw ++ r ∧ Ok uni t r :=
  ⟨fun h => ⟨(lexOne_eq h).1.symm, lexOne_ok h⟩, fun ⟨h1, h2⟩ => h1 ▸ ok_lexOne h2⟩

end Verif.Sql
