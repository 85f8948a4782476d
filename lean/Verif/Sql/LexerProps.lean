import Verif.Sql.StrLemmas

/-!
# C88: text inside a quoted SQL string stays text
-/

namespace Verif.Sql

variable {uni : Char → Bool}

namespace Spec

/-- A text with a backslash before every backslash and every quote. -/
def escape (q : Char) : Text → Text
  | [] => []
  | c :: v => if c = '\\' ∨ c = q then '\\' :: c :: escape q v else c :: escape q v

/-- The SQL literal for a text. -/
def quote (q : Char) (v : Text) : Text := q :: escape q v ++ [q]

/-- A name in backticks: every backtick inside is doubled. -/
def tick (v : Text) : Text := '`' :: v.flatMap (fun c => if c = '`' then ['`', '`'] else [c]) ++ ['`']

/-- What may stand in a comment: anything, with inner comments that are complete. -/
inductive CommentText : Text → Prop
  | nil : CommentText []
  | char {c : Char} {t : Text} : c ≠ '*' → c ≠ '/' → CommentText t → CommentText (c :: t)
  | star {t : Text} : t.head? ≠ some '/' → CommentText t → CommentText ('*' :: t)
  | slash {t : Text} : t ≠ [] → t.head? ≠ some '*' → CommentText t → CommentText ('/' :: t)
  | nested {t u : Text} : CommentText t → CommentText u →
      CommentText ('/' :: '*' :: t ++ '*' :: '/' :: u)

/-- A single or a double quote. -/
def IsQuote (q : Char) : Prop := q = '\'' ∨ q = '"'

/-- No token is a dollar sign on its own, and no slash is directly followed by an asterisk (which
is a comment that is never closed). -/
def Settled (ts : List Tok) : Prop :=
  Tok.punct '$' ∉ ts ∧ ∀ a b, ts ≠ a ++ .punct '/' :: .punct '*' :: b

end Spec

open Spec

theorem isQuote_iff {q : Char} : isQuote q = true ↔ IsQuote q := by
  simp [isQuote, IsQuote]

theorem escBody_quoted {q : Char} (hq : q ≠ '\\') (v r : Text) :
    escBody q (escape q v ++ q :: r) = some (escape q v ++ [q], r) := by
  induction v with
  | nil => exact escBody_delim hq
  | cons c v ih =>
    simp only [escape]
    split
    · simp only [List.cons_append]
      rw [escBody_escape, ih]
      rfl
    · rename_i h
      simp only [not_or] at h
      simp only [List.cons_append]
      rw [escBody_cons h.1 h.2, ih]
      rfl

theorem simpleEscape_backslash : simpleEscape '\\' = some (.one '\\') := by decide

theorem escChar_escape {q : Char} (hq : IsQuote q) (v : Text) :
    charsN (escChar q) (escape q v ++ [q]).length (escape q v ++ [q]) = (v.map .one, [q]) := by
  have hq' : (q == '\\') = false := by rcases hq with rfl | rfl <;> decide
  induction v with
  | nil => exact charsN_none (by simp [escape, escChar, hq'])
  | cons c v ih =>
    have : escChar q (escape q (c :: v) ++ [q]) = some (.one c, escape q v ++ [q]) := by
      simp only [escape]
      split
      · rename_i h
        have : simpleEscape c = some (.one c) := by
          rcases h with rfl | rfl
          · decide
          · rcases hq with rfl | rfl <;> decide
        simp [escChar, escAfter, this]
      · rename_i h
        simp only [not_or] at h
        simp [escChar, h.1, h.2]
    rw [charsN_some (escChar_consumes q) this, ih]
    rfl

/-! ## Nothing is lost -/

/-- The texts of the tokens, put together, are the statement, and every token covers some of it. -/
theorem C88_lossless {s : Text} {ts : List Tok} (h : lex uni s = some ts) :
    (ts.map Tok.raw).flatten = s ∧ ∀ t ∈ ts, t.raw ≠ [] := by
  rw [lex_iff] at h
  refine ⟨h.texts, ?_⟩
  induction h with
  | nil => simp
  | cons h1 _ ih =>
    intro t ht
    rcases List.mem_cons.mp ht with rfl | ht
    · exact (lexOne_eq h1).2
    · exact ih t ht

example : ∃ ts, lex (fun _ => false) "SELECT 'it\\'s' -- x\n/* a /* b */ */ FROM `a``b`".toList = some ts ∧
    ts.length = 11 := ⟨_, rfl, rfl⟩

/-! ## A quoted text is one token with that text as its value -/

theorem quote_isQuote {q : Char} (h : IsQuote q) :
    q.isAlpha = false ∧ q ≠ '\\' ∧ isQuote q = true := by
  rcases h with rfl | rfl <;> decide

/-- Whatever text is quoted and whatever follows, the tokenizer reads one literal and then goes on
with what follows. -/
theorem C88_quote_token {q : Char} (hq : IsQuote q) (v rest : Text) :
    lexOne uni (quote q v ++ rest) = some (.str (quote q v) (.quoted q none), rest) := by
  obtain ⟨h1, h2, h3⟩ := quote_isQuote hq
  have key : ∀ r, strTok (quote q v ++ r) = some (.str (quote q v) (.quoted q none), r) := by
    intro r
    rw [strTok_eq_spec]
    simp only [quote, List.cons_append, List.append_assoc, List.nil_append]
    rw [strSpec, if_neg (by simp [h1]), if_pos h3, escBody_quoted h2]
  have : Ok uni (.str (quote q v) (.quoted q none)) rest :=
    ⟨by simp [quote], (fun h => by cases h), fun r _ => key r⟩
  exact ok_lexOne this

/-- Its value is the text. -/
theorem C88_quote_value {q : Char} (hq : IsQuote q) (v : Text) :
    parseStr (.quoted q none) (quote q v) = .valid v none :=
  textVal_ones (delim := [q]) (escChar_escape hq v)

example : lex (fun _ => false) (quote '\'' "a'; DROP TABLE t; --\\".toList) =
    some [.str "'a\\'; DROP TABLE t; --\\\\'".toList (.quoted '\'' none)] := by decide +kernel

/-- A raw string `r'…'` has no escapes: any text without the delimiter is its own value. -/
theorem C88_raw {q p : Char} (hq : IsQuote q) (hp : p = 'r' ∨ p = 'R') {v : Text} (hv : q ∉ v)
    (rest : Text) :
    lexOne uni (p :: q :: v ++ q :: rest) =
        some (.str (p :: q :: v ++ [q]) (.quoted q (some p)), rest) ∧
      parseStr (.quoted q (some p)) (p :: q :: v ++ [q]) = .valid v (some p) := by
  obtain ⟨h1, h2, h3⟩ := quote_isQuote hq
  have hp' : isRawPrefix p = true ∧ p.isAlpha = true := by rcases hp with rfl | rfl <;> decide
  have hqb : isBlank q = false := by rcases hq with rfl | rfl <;> decide
  have hb : ∀ r, plainBody q (v ++ q :: r) = some (v ++ [q], r) := by
    intro r
    clear hp hp'
    induction v with
    | nil => simp [plainBody]
    | cons c v ih =>
      simp only [List.mem_cons, not_or] at hv
      simp only [List.cons_append, plainBody]
      rw [if_neg (by simp [Ne.symm hv.1]), ih hv.2]
      rfl
  constructor
  · have key : ∀ r, strTok ((p :: q :: v ++ [q]) ++ r) =
        some (.str (p :: q :: v ++ [q]) (.quoted q (some p)), r) := by
      intro r
      rw [strTok_eq_spec]
      simp only [List.cons_append, List.append_assoc, List.nil_append]
      rw [strSpec, if_pos hp'.2, List.dropWhile_cons_of_neg (by simp [hqb])]
      simp only
      rw [if_pos h3, bodyOf, if_pos hp'.1, hb]
      simp [hqb]
    have : Ok uni (.str (p :: q :: v ++ [q]) (.quoted q (some p))) rest :=
      ⟨by simp, (fun h => by cases h), fun r _ => key r⟩
    have := ok_lexOne this
    simpa [Tok.raw] using this
  · simp only [parseStr, List.cons_append, beq_self_eq_true, if_true, hp'.1]
    rw [List.dropWhile_cons_of_neg (by simp [hqb])]
    have hc : charsN (plainChar q) (v ++ [q]).length (v ++ [q]) = (v.map .one, [q]) := by
      clear hp hp' hb
      induction v with
      | nil => exact charsN_none (by simp [plainChar])
      | cons c v ih =>
        simp only [List.mem_cons, not_or] at hv
        have : plainChar q (c :: v ++ [q]) = some (.one c, v ++ [q]) := by
          simp [plainChar, Ne.symm hv.1]
        rw [charsN_some (plainChar_consumes q) this, ih hv.2]
        rfl
    exact textVal_ones (delim := [q]) hc

example : IsQuote '"' ∧ '"' ∉ "C:\\dir\\'x'".toList := ⟨.inr rfl, by decide⟩

/-- A name in backticks reads back as the name. -/
theorem C88_tick (v rest : Text) (h : rest.head? ≠ some '`') :
    lexOne uni (tick v ++ rest) = some (.str (tick v) .backtick, rest) ∧
      parseStr .backtick (tick v) = .valid v none := by
  have hb : ∀ r : Text, r.head? ≠ some '`' →
      tickBody (v.flatMap (fun c => if c = '`' then ['`', '`'] else [c]) ++ '`' :: r) =
        some (v.flatMap (fun c => if c = '`' then ['`', '`'] else [c]) ++ ['`'], r) := by
    intro r hr
    induction v with
    | nil => exact tickBody_close hr
    | cons c v ih =>
      simp only [List.flatMap_cons, List.append_assoc]
      split
      · simp only [List.cons_append, List.nil_append]
        rw [tickBody_pair, ih]; rfl
      · rename_i hc
        simp only [List.cons_append, List.nil_append]
        rw [tickBody_cons hc, ih]; rfl
  constructor
  · have key : ∀ r : Text, r.head? ≠ some '`' →
        strTok (tick v ++ r) = some (.str (tick v) .backtick, r) := by
      intro r hr
      rw [strTok_eq_spec]
      simp only [tick, List.cons_append, List.append_assoc, List.nil_append]
      rw [strSpec, if_neg (by decide), if_neg (by decide), if_pos (by decide), tickString, if_pos (by decide), hb r hr]
    have : Ok uni (.str (tick v) .backtick) rest :=
      ⟨by simp [tick], fun _ => h, fun r hr => key r (hr rfl)⟩
    exact ok_lexOne this
  · refine textVal_ones (delim := ['`']) ?_
    clear hb
    change charsN tickChar (v.flatMap (fun c => if c = '`' then ['`', '`'] else [c]) ++ ['`']).length
      (v.flatMap (fun c => if c = '`' then ['`', '`'] else [c]) ++ ['`']) = _
    induction v with
    | nil => exact charsN_none (by simp [tickChar])
    | cons c v ih =>
      have : tickChar ((c :: v).flatMap (fun c => if c = '`' then ['`', '`'] else [c]) ++ ['`']) =
          some (.one c, v.flatMap (fun c => if c = '`' then ['`', '`'] else [c]) ++ ['`']) := by
        simp only [List.flatMap_cons, List.append_assoc]
        split
        · rename_i hc; subst hc
          simp [tickChar]
        · rename_i hc
          simp only [List.cons_append, List.nil_append]
          generalize hR : v.flatMap (fun c => if c = '`' then ['`', '`'] else [c]) ++ ['`'] = R
          cases R with
          | nil => simp at hR
          | cons x R => simp [tickChar, hc]
      rw [charsN_some tickChar_consumes this, ih]
      rfl

example : (" AS x".toList).head? ≠ some '`' := by decide

/-! ## Escapes -/

/-- The escape of a letter of the table. -/
theorem C88_escapes {q : Char} (r : Text) :
    escChar q ('\\' :: 'n' :: r) = some (.one '\n', r) ∧
    escChar q ('\\' :: 't' :: r) = some (.one '\t', r) ∧
    escChar q ('\\' :: 'r' :: r) = some (.one '\r', r) ∧
    escChar q ('\\' :: 'b' :: r) = some (.one '\x08', r) ∧
    escChar q ('\\' :: 'Z' :: r) = some (.one '\x1a', r) ∧
    escChar q ('\\' :: '\\' :: r) = some (.one '\\', r) ∧
    escChar q ('\\' :: '\'' :: r) = some (.one '\'', r) ∧
    escChar q ('\\' :: '"' :: r) = some (.one '"', r) ∧
    escChar q ('\\' :: '%' :: r) = some (.two '\\' '%', r) ∧
    escChar q ('\\' :: '_' :: r) = some (.two '\\' '_', r) := by
  refine ⟨?_, ?_, ?_, ?_, ?_, ?_, ?_, ?_, ?_, ?_⟩ <;>
    (simp only [escChar, beq_self_eq_true, if_true, escAfter]; rfl)

namespace Spec

/-- A hexadecimal digit. -/
def hexDigit (n : Nat) : Char :=
  ['0', '1', '2', '3', '4', '5', '6', '7', '8', '9', 'a', 'b', 'c', 'd', 'e', 'f'].getD n '0'

/-- Eight hexadecimal digits. -/
def hex8 (n : Nat) : Text :=
  [n / 268435456 % 16, n / 16777216 % 16, n / 1048576 % 16, n / 65536 % 16, n / 4096 % 16,
    n / 256 % 16, n / 16 % 16, n % 16].map hexDigit

end Spec

theorem hexDigit_val : ∀ n < 16, digitVal (hexDigit n) = n ∧ isHex (hexDigit n) = true := by decide

theorem charOf_toNat (c : Char) : charOf c.toNat = .one c := by
  have h : c.toNat < 0xD800 ∨ (0xDFFF < c.toNat ∧ c.toNat < 0x110000) := c.valid
  rw [charOf, if_pos h, Char.ofNat_toNat]

/-- `\U` and eight hexadecimal digits stand for every character, and take no more than that. -/
theorem C88_unicode_escape {q : Char} (c : Char) (r : Text) :
    escChar q ('\\' :: 'U' :: hex8 c.toNat ++ r) = some (.one c, r) := by
  have hm : ∀ n : Nat, n % 16 < 16 := fun n => Nat.mod_lt _ (by decide)
  have ht : takeUpTo 8 isHex (hex8 c.toNat ++ r) = hex8 c.toNat := by
    have e : (hex8 c.toNat ++ r).take 8 = hex8 c.toNat := by simp [hex8]
    rw [takeUpTo, e]
    have : ∀ x ∈ hex8 c.toNat, isHex x = true := by
      intro x hx
      simp only [hex8, List.mem_map] at hx
      obtain ⟨n, hn, rfl⟩ := hx
      have : n < 16 := by
        simp only [List.mem_cons, List.not_mem_nil, or_false] at hn
        rcases hn with rfl | rfl | rfl | rfl | rfl | rfl | rfl | rfl <;> exact hm _
      exact (hexDigit_val n this).2
    generalize hex8 c.toNat = l at this
    clear e
    induction l with
    | nil => rfl
    | cons x l ih =>
      rw [List.takeWhile_cons_of_pos (this x (by simp)), ih (fun y hy => this y (by simp [hy]))]
  have hl : (hex8 c.toNat).length = 8 := rfl
  have hv : fromRadix 16 (hex8 c.toNat) = c.toNat := by
    have hb : c.toNat < 4294967296 := c.val.toNat_lt
    simp only [fromRadix, hex8, List.map_cons, List.map_nil, List.foldl_cons, List.foldl_nil,
      (hexDigit_val _ (hm _)).1]
    omega
  simp only [escChar, List.cons_append, beq_self_eq_true, if_true]
  rw [escAfter]
  have h1 : simpleEscape 'U' = none := by decide
  have h2 : isOct 'U' = false := by decide
  rw [h1]
  simp only [h2, ht, hl, hv]
  rw [charOf_toNat]
  simp [← hl]

example : escChar '\'' "\\U0001f600!".toList = some (.one '😀', ['!']) := by decide +kernel

/-! ## Comments -/

theorem blockBody_text {t : Text} (h : CommentText t) : ∀ (n : Nat) (r : Text),
    blockBody n (t ++ '*' :: '/' :: r) = pre t (blockBody n ('*' :: '/' :: r)) := by
  induction h with
  | nil => intro n r; cases h : blockBody n ('*' :: '/' :: r) <;> simp [pre, h]
  | @char c t h1 h2 _ ih =>
    intro n r
    have : blockBody n (c :: (t ++ '*' :: '/' :: r)) = pre [c] (blockBody n (t ++ '*' :: '/' :: r)) := by
      cases hx : t ++ '*' :: '/' :: r with
      | nil => simp at hx
      | cons x y => simp [blockBody, h1, h2]
    rw [List.cons_append, this, ih]
    cases blockBody n ('*' :: '/' :: r) <;> simp [pre]
  | @star t h1 _ ih =>
    intro n r
    have : blockBody n ('*' :: (t ++ '*' :: '/' :: r)) = pre ['*'] (blockBody n (t ++ '*' :: '/' :: r)) := by
      cases t with
      | nil => simp [blockBody]
      | cons x y =>
        have : x ≠ '/' := by simpa using h1
        simp [blockBody, this]
    rw [List.cons_append, this, ih]
    cases blockBody n ('*' :: '/' :: r) <;> simp [pre]
  | @slash t h0 h1 _ ih =>
    intro n r
    have : blockBody n ('/' :: (t ++ '*' :: '/' :: r)) = pre ['/'] (blockBody n (t ++ '*' :: '/' :: r)) := by
      cases t with
      | nil => exact absurd rfl h0
      | cons x y =>
        have : x ≠ '*' := by simpa using h1
        simp [blockBody, this]
    rw [List.cons_append, this, ih]
    cases blockBody n ('*' :: '/' :: r) <;> simp [pre]
  | @nested t u _ _ ih1 ih2 =>
    intro n r
    have e : '/' :: '*' :: t ++ '*' :: '/' :: u ++ '*' :: '/' :: r =
        '/' :: '*' :: (t ++ '*' :: '/' :: (u ++ '*' :: '/' :: r)) := by simp
    rw [e]
    have h1 : blockBody n ('/' :: '*' :: (t ++ '*' :: '/' :: (u ++ '*' :: '/' :: r))) =
        pre ['/', '*'] (blockBody (n + 1) (t ++ '*' :: '/' :: (u ++ '*' :: '/' :: r))) := by
      simp [blockBody]
    have h2 : blockBody (n + 1) ('*' :: '/' :: (u ++ '*' :: '/' :: r)) =
        pre ['*', '/'] (blockBody n (u ++ '*' :: '/' :: r)) := by
      simp [blockBody]
    rw [h1, ih1, h2, ih2]
    cases blockBody n ('*' :: '/' :: r) <;> simp [pre]

/-- A comment with complete comments inside is one token. -/
theorem C88_comment {t : Text} (h : CommentText t) (r : Text) :
    lexOne uni ('/' :: '*' :: t ++ '*' :: '/' :: r) =
      some (.blockComment ('/' :: '*' :: t ++ ['*', '/']), r) := by
  have hb : blockBody 0 (t ++ '*' :: '/' :: r) = some (t ++ ['*', '/'], r) := by
    rw [blockBody_text h]
    simp [blockBody, pre]
  simp [lexOne, lineComment, blockComment, hb]

example : CommentText "a /* '; ** */ b*".toList := by
  have h : CommentText " '; ** ".toList :=
    .char (by decide) (by decide) <| .char (by decide) (by decide) <| .char (by decide) (by decide) <|
    .char (by decide) (by decide) <| .star (by decide) <| .star (by decide) <|
    .char (by decide) (by decide) .nil
  exact .char (by decide) (by decide) <| .char (by decide) (by decide) <| .nested h <|
    .char (by decide) (by decide) <| .char (by decide) (by decide) <| .star (by decide) .nil

/-- A comment that starts with two dashes covers the rest of its line and nothing of the next. -/
theorem C88_line_comment {t r : Text} (h : ∀ c ∈ t, c ≠ '\n' ∧ c ≠ '\r')
    (hr : ∀ c, r.head? = some c → c = '\n' ∨ c = '\r') :
    lexOne uni ('-' :: '-' :: t ++ r) = some (.lineComment ('-' :: '-' :: t), r) := by
  have h1 : ∀ c ∈ t, notNewline c = true := by
    intro c hc; have := h c hc; simp [notNewline, this.1, this.2]
  have h2 : ∀ c, r.head? = some c → notNewline c = false := by
    intro c hc; rcases hr c hc with rfl | rfl <;> decide
  simp [lexOne, lineComment, takeWhile_append_stop h1 h2, dropWhile_append_stop h1 h2]

example : (∀ c ∈ "it's /* off".toList, c ≠ '\n' ∧ c ≠ '\r') ∧
    ∀ c, "\nSELECT 1".toList.head? = some c → c = '\n' ∨ c = '\r' :=
  ⟨by decide, by intro c h; cases h; exact .inl rfl⟩

/-! ## Replacing one quoted text by another -/

theorem lexes_replace {q : Char} (hq : IsQuote q) (v v' post : Text) : ∀ (A : List Tok) {pre : Text}
    {B : List Tok}, Settled A → (A.map Tok.raw).flatten = pre →
    Lexes uni (pre ++ quote q v ++ post) (A ++ .str (quote q v) (.quoted q none) :: B) →
    Lexes uni (pre ++ quote q v' ++ post) (A ++ .str (quote q v') (.quoted q none) :: B)
  | [], pre, B, _, hp, h => by
    subst hp
    simp only [List.map_nil, List.flatten_nil, List.nil_append] at h ⊢
    cases h with
    | cons h1 h2 =>
      rw [C88_quote_token hq] at h1
      cases h1
      exact .cons (C88_quote_token hq v' post) h2
  | t :: A, pre, B, hA, hp, h => by
    subst hp
    obtain ⟨hq1, hq2, hq3⟩ := quote_isQuote hq
    have e : ∀ w : Text, ((t :: A).map Tok.raw).flatten ++ quote q w ++ post =
        t.raw ++ ((A.map Tok.raw).flatten ++ q :: (escape q w ++ [q] ++ post)) := by
      intro w; simp [quote]
    have e' : ∀ w : Text, (A.map Tok.raw).flatten ++ quote q w ++ post =
        (A.map Tok.raw).flatten ++ q :: (escape q w ++ [q] ++ post) := by
      intro w; simp [quote]
    rw [e v] at h
    rw [e v']
    rw [List.cons_append] at h ⊢
    obtain ⟨c0, s0, hcs⟩ : ∃ c0 s0, t.raw ++ ((A.map Tok.raw).flatten ++
        q :: (escape q v ++ [q] ++ post)) = c0 :: s0 := by
      cases hx : t.raw ++ ((A.map Tok.raw).flatten ++ q :: (escape q v ++ [q] ++ post)) with
      | nil => simp at hx
      | cons c0 s0 => exact ⟨c0, s0, rfl⟩
    rw [hcs] at h
    obtain ⟨t', r, ts, h0, h1, h2⟩ := h.cons_inv
    rw [← hcs] at h1
    cases h0
    · obtain ⟨h3, h4⟩ := lexOne_iff.mp h1
      have h3 := List.append_cancel_left h3
      rw [← h3] at h2 h4 h1
      have hA' : Settled A := by
        refine ⟨fun hm => hA.1 (List.mem_cons_of_mem _ hm), fun a b hab => hA.2 (t :: a) b ?_⟩
        rw [hab]; rfl
      have ih := lexes_replace hq v v' post A hA' rfl (by rw [e' v]; exact h2)
      rw [e' v'] at ih
      refine .cons (lexOne_iff.mpr ⟨rfl, ?_⟩) ih
      refine ok_similar (c := q) (c' := q) (.inl rfl) ?_ ?_ h2 ?_ ?_ h4
      · rcases hq with rfl | rfl <;> decide
      · rcases hq with rfl | rfl <;> decide
      · intro ht; exact hA.1 (by simp [ht])
      · intro ht hs
        cases A with
        | nil =>
          simp only [List.map_nil, List.flatten_nil, List.nil_append, List.head?_cons] at hs
          cases hs
          rcases hq with h | h <;> revert h <;> decide
        | cons t2 A =>
          cases hr : (List.map Tok.raw (t2 :: A)).flatten ++ q :: (escape q v ++ [q] ++ post) with
          | nil => simp at hr
          | cons x y =>
            rw [hr] at hs h2
            cases hs
            obtain ⟨ts', h5, _⟩ := h2.punct_inv (by decide) (by decide) (by decide) (by decide)
            rw [List.cons_append] at h5
            cases h5
            exact hA.2 [] A (by rw [ht]; rfl)

/-- A quoted text at some place of a statement can be replaced by any other quoted text: that one
token changes its text, and every other token before and after stays the same. What stands before
it has no free-standing dollar sign and no comment that is never closed. -/
theorem C88_replace {q : Char} (hq : IsQuote q) (v v' : Text) {pre post : Text} {A B : List Tok}
    (hA : Settled A) (hp : (A.map Tok.raw).flatten = pre)
    (h : lex uni (pre ++ quote q v ++ post) = some (A ++ .str (quote q v) (.quoted q none) :: B)) :
    lex uni (pre ++ quote q v' ++ post) = some (A ++ .str (quote q v') (.quoted q none) :: B) := by
  rw [lex_iff] at h ⊢
  exact lexes_replace hq v v' post A hA hp h

example : IsQuote '\'' ∧ Settled [.word "SELECT".toList, .ws ' ' 1] ∧
    lex (fun _ => false) ("SELECT ".toList ++ quote '\'' "a".toList ++ " || x".toList) =
      some ([.word "SELECT".toList, .ws ' ' 1] ++ .str (quote '\'' "a".toList) (.quoted '\'' none) ::
        [.ws ' ' 1, .punct '|', .punct '|', .ws ' ' 1, .word "x".toList]) := by
  refine ⟨.inl rfl, ⟨by decide, ?_⟩, by decide +kernel⟩
  intro a b h
  match a, h with
  | [], h => cases h
  | [_], h => cases h
  | [_, _], h => cases h
  | _ :: _ :: _ :: _, h => cases h

/-- With a variable `$x` before it, replacing a quoted text by one with a dollar sign changes other
tokens: here the text between two dollar signs becomes the tag of a dollar quoted string, and the
contents of the last literal are read as part of the statement. -/
theorem C88_dollar_swallows :
    lex (fun _ => false) ("$x||".toList ++ quote '\'' ['1'] ++ ",$x||'$',' OR a --'".toList) =
      some ([.punct '$', .word ['x'], .punct '|', .punct '|'] ++
        .str (quote '\'' ['1']) (.quoted '\'' none) ::
        [.punct ',', .punct '$', .word ['x'], .punct '|', .punct '|',
        .str "'$'".toList (.quoted '\'' none), .punct ',',
        .str "' OR a --'".toList (.quoted '\'' none)]) ∧
    lex (fun _ => false) ("$x||".toList ++ quote '\'' ['$'] ++ ",$x||'$',' OR a --'".toList) =
      some [.str "$x||'$',$x||'$".toList (.dollar "$x||'$".toList),
        .str "','".toList (.quoted '\'' none), .ws ' ' 1, .word "OR".toList, .ws ' ' 1,
        .word "a".toList, .ws ' ' 1, .lineComment "--'".toList] := by
  decide +kernel

end Verif.Sql
