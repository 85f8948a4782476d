import Verif.Sql.Lexer

/-!
# Lemmas on the tokenizer
-/

namespace Verif.Sql

variable {uni : Char → Bool}

theorem pre_some {a b r : Text} {o : Option (Text × Text)} (h : pre a o = some (b, r)) :
    ∃ b', o = some (b', r) ∧ b = a ++ b' := by
  cases o with
  | none => cases h
  | some p =>
    obtain ⟨x, y⟩ := p
    simp only [pre, Option.some.injEq, Prod.mk.injEq] at h
    exact ⟨x, by rw [h.2], h.1.symm⟩

theorem pre_none {a : Text} {o : Option (Text × Text)} : pre a o = none ↔ o = none := by
  cases o <;> simp [pre]

/-! ## What was consumed, followed by the rest, is the input -/

theorem blockBody_eq : ∀ {s : Text} {n : Nat} {b r : Text}, blockBody n s = some (b, r) → b ++ r = s
  | [], _, _, _, h => by simp [blockBody] at h
  | [_], _, _, _, h => by simp [blockBody] at h
  | x :: y :: s, n, b, r, h => by
    rw [blockBody] at h
    split at h
    · split at h
      · cases h; rfl
      · obtain ⟨b', h1, rfl⟩ := pre_some h
        simp [blockBody_eq h1]
    · split at h
      · obtain ⟨b', h1, rfl⟩ := pre_some h
        simp [blockBody_eq h1]
      · obtain ⟨b', h1, rfl⟩ := pre_some h
        simp [blockBody_eq h1]

theorem plainBody_eq {d : Char} : ∀ {s b r : Text}, plainBody d s = some (b, r) → b ++ r = s
  | [], _, _, h => by simp [plainBody] at h
  | x :: s, b, r, h => by
    rw [plainBody] at h
    split at h
    · cases h; rfl
    · obtain ⟨b', h1, rfl⟩ := pre_some h
      simp [plainBody_eq h1]

theorem escBody_eq {d : Char} : ∀ {s b r : Text}, escBody d s = some (b, r) → b ++ r = s
  | [], _, _, h => by simp [escBody] at h
  | [x], b, r, h => by
    rw [escBody] at h
    split at h
    · cases h; rfl
    · cases h
  | x :: y :: s, b, r, h => by
    rw [escBody] at h
    split at h
    · obtain ⟨b', h1, rfl⟩ := pre_some h
      simp [escBody_eq h1]
    · split at h
      · cases h; rfl
      · obtain ⟨b', h1, rfl⟩ := pre_some h
        simp [escBody_eq h1]

theorem tickBody_eq : ∀ {s b r : Text}, tickBody s = some (b, r) → b ++ r = s
  | [], _, _, h => by simp [tickBody] at h
  | [x], b, r, h => by
    rw [tickBody] at h
    split at h
    · cases h; rfl
    · cases h
  | x :: y :: s, b, r, h => by
    rw [tickBody] at h
    split at h
    · split at h
      · obtain ⟨b', h1, rfl⟩ := pre_some h
        simp [tickBody_eq h1]
      · cases h; rfl
    · obtain ⟨b', h1, rfl⟩ := pre_some h
      simp [tickBody_eq h1]

theorem findTag_eq {tag : Text} : ∀ {s b r : Text}, findTag tag s = some (b, r) → b ++ r = s
  | [], _, _, h => by simp [findTag] at h
  | x :: s, b, r, h => by
    rw [findTag] at h
    split at h
    · rename_i hp
      cases h
      rw [List.isPrefixOf_iff_prefix] at hp
      obtain ⟨z, hz⟩ := hp
      rw [← hz]; simp
    · obtain ⟨b', h1, rfl⟩ := pre_some h
      simp [findTag_eq h1]

theorem prefixed_eq {p : Char → Bool} {d : Char} {body : Text → Option (Text × Text)}
    (hb : ∀ {s b r : Text}, body s = some (b, r) → b ++ r = s) {s r : Text} {t : Tok}
    (h : prefixed p d body s = some (t, r)) : t.raw ++ r = s ∧ t.raw ≠ [] := by
  cases s with
  | nil => cases h
  | cons c s =>
    simp only [prefixed] at h
    split at h
    · split at h
      · cases h
      · rename_i q r' hd
        split at h
        · split at h
          · rename_i x rest hx
            cases h
            refine ⟨?_, by simp [Tok.raw]⟩
            simp only [Tok.raw, List.cons_append, List.append_assoc, List.cons.injEq, true_and]
            rw [hb hx, ← hd, List.takeWhile_append_dropWhile]
          · cases h
        · cases h
    · cases h

theorem escString_eq {d : Char} {s r : Text} {t : Tok} (h : escString d s = some (t, r)) :
    t.raw ++ r = s ∧ t.raw ≠ [] := by
  cases s with
  | nil => cases h
  | cons c s =>
    simp only [escString] at h
    split at h
    · exact prefixed_eq escBody_eq h
    · split at h
      · split at h
        · rename_i x rest hx
          cases h
          exact ⟨by simp [Tok.raw, escBody_eq hx], by simp [Tok.raw]⟩
        · cases h
      · cases h

theorem unicodeString_eq {d : Char} {s r : Text} {t : Tok} (h : unicodeString d s = some (t, r)) :
    t.raw ++ r = s ∧ t.raw ≠ [] := by
  match s, h with
  | a :: b :: c :: s, h =>
    simp only [unicodeString] at h
    split at h
    · split at h
      · rename_i x rest hx
        cases h
        exact ⟨by simp [Tok.raw, plainBody_eq hx], by simp [Tok.raw]⟩
      · cases h
    · cases h

theorem tickString_eq {s r : Text} {t : Tok} (h : tickString s = some (t, r)) :
    t.raw ++ r = s ∧ t.raw ≠ [] := by
  cases s with
  | nil => cases h
  | cons c s =>
    simp only [tickString] at h
    split at h
    · split at h
      · rename_i x rest hx
        cases h
        exact ⟨by simp [Tok.raw, tickBody_eq hx], by simp [Tok.raw]⟩
      · cases h
    · cases h

theorem dollarString_eq {s r : Text} {t : Tok} (h : dollarString s = some (t, r)) :
    t.raw ++ r = s ∧ t.raw ≠ [] := by
  cases s with
  | nil => cases h
  | cons c s =>
    simp only [dollarString] at h
    split at h
    · split at h
      · cases h
      · rename_i e r' hd
        split at h
        · rename_i x rest hx
          cases h
          refine ⟨?_, by simp [Tok.raw]⟩
          simp only [Tok.raw, List.cons_append, List.append_assoc, List.cons.injEq, true_and,
            List.nil_append]
          rw [findTag_eq hx, ← hd, List.takeWhile_append_dropWhile]
        · cases h
    · cases h

theorem orElse_some {α : Type} {a b : Option α} {x : α} (h : (a <|> b) = some x) :
    a = some x ∨ (a = none ∧ b = some x) := by
  cases a with
  | none => exact .inr ⟨rfl, by simpa using h⟩
  | some y => exact .inl (by simpa using h)

theorem orElse_none {α : Type} {a b : Option α} : (a <|> b) = none ↔ a = none ∧ b = none := by
  cases a <;> simp

theorem strTok_eq {s r : Text} {t : Tok} (h : strTok s = some (t, r)) :
    t.raw ++ r = s ∧ t.raw ≠ [] := by
  rw [strTok] at h
  rcases orElse_some h with h | ⟨_, h⟩
  · exact prefixed_eq plainBody_eq h
  rcases orElse_some h with h | ⟨_, h⟩
  · exact prefixed_eq plainBody_eq h
  rcases orElse_some h with h | ⟨_, h⟩
  · exact escString_eq h
  rcases orElse_some h with h | ⟨_, h⟩
  · exact escString_eq h
  rcases orElse_some h with h | ⟨_, h⟩
  · exact unicodeString_eq h
  rcases orElse_some h with h | ⟨_, h⟩
  · exact unicodeString_eq h
  rcases orElse_some h with h | ⟨_, h⟩
  · exact tickString_eq h
  · exact dollarString_eq h

theorem takeWhile_all {p : Char → Bool} : ∀ {r : Text} {c : Char}, c ∈ r.takeWhile p → p c = true
  | [], _, h => by simp at h
  | x :: r, c, h => by
    rw [List.takeWhile_cons] at h
    split at h
    · rcases List.mem_cons.mp h with rfl | h
      · assumption
      · exact takeWhile_all h
    · simp at h

theorem dropWhile_head {p : Char → Bool} : ∀ {r : Text} {c : Char},
    (r.dropWhile p).head? = some c → p c = false
  | [], _, h => by simp at h
  | x :: r, c, h => by
    rw [List.dropWhile_cons] at h
    split at h
    · exact dropWhile_head h
    · rename_i hx
      simp only [List.head?_cons, Option.some.injEq] at h
      subst h; simpa using hx

theorem takeWhile_append_stop {p : Char → Bool} {b r : Text} (hb : ∀ c ∈ b, p c = true)
    (hr : ∀ c, r.head? = some c → p c = false) : (b ++ r).takeWhile p = b := by
  induction b with
  | nil =>
    cases r with
    | nil => rfl
    | cons x r => simp [hr x rfl]
  | cons x b ih =>
    simp [hb x (by simp), ih (fun c hc => hb c (by simp [hc]))]

theorem dropWhile_append_stop {p : Char → Bool} {b r : Text} (hb : ∀ c ∈ b, p c = true)
    (hr : ∀ c, r.head? = some c → p c = false) : (b ++ r).dropWhile p = r := by
  induction b with
  | nil =>
    cases r with
    | nil => rfl
    | cons x r => simp [hr x rfl]
  | cons x b ih =>
    simp [hb x (by simp), ih (fun c hc => hb c (by simp [hc]))]

theorem takeWhile_eq_replicate (w : Char) (r : Text) :
    r.takeWhile (· == w) = List.replicate (r.takeWhile (· == w)).length w := by
  rw [List.eq_replicate_iff]
  refine ⟨rfl, fun b hb => ?_⟩
  simpa using takeWhile_all hb

theorem wsTok_eq {w : Char} {s r : Text} {t : Tok} (h : wsTok w s = some (t, r)) :
    t.raw ++ r = s ∧ t.raw ≠ [] := by
  cases s with
  | nil => cases h
  | cons c s =>
    simp only [wsTok] at h
    split at h
    · rename_i hc
      cases h
      refine ⟨?_, by simp [Tok.raw]⟩
      rw [Tok.raw, List.replicate_succ, ← takeWhile_eq_replicate]
      have : c = w := by simpa using hc
      simp [this]
    · cases h

theorem lexOne_eq {s r : Text} {t : Tok} (h : lexOne uni s = some (t, r)) :
    t.raw ++ r = s ∧ t.raw ≠ [] := by
  rw [lexOne] at h
  rcases orElse_some h with h | ⟨_, h⟩
  · match s, h with
    | a :: b :: s, h =>
      simp only [lineComment] at h
      split at h
      · cases h
        exact ⟨by simp [Tok.raw], by simp [Tok.raw]⟩
      · cases h
  rcases orElse_some h with h | ⟨_, h⟩
  · match s, h with
    | a :: b :: s, h =>
      simp only [blockComment] at h
      split at h
      · split at h
        · rename_i x r' hx
          cases h
          exact ⟨by simp [Tok.raw, blockBody_eq hx], by simp [Tok.raw]⟩
        · cases h
      · cases h
  rcases orElse_some h with h | ⟨_, h⟩
  · exact strTok_eq h
  rcases orElse_some h with h | ⟨_, h⟩
  · cases s with
    | nil => cases h
    | cons c s =>
      simp only [wordTok] at h
      split at h
      · cases h
        exact ⟨by simp [Tok.raw], by simp [Tok.raw]⟩
      · cases h
  rcases orElse_some h with h | ⟨_, h⟩
  · exact wsTok_eq h
  rcases orElse_some h with h | ⟨_, h⟩
  · exact wsTok_eq h
  rcases orElse_some h with h | ⟨_, h⟩
  · exact wsTok_eq h
  rcases orElse_some h with h | ⟨_, h⟩
  · exact wsTok_eq h
  · cases s with
    | nil => cases h
    | cons c s =>
      simp only [punctTok] at h
      split at h
      · cases h
        exact ⟨rfl, by simp [Tok.raw]⟩
      · cases h

theorem lexOne_length {s r : Text} {t : Tok} (h : lexOne uni s = some (t, r)) :
    r.length < s.length := by
  obtain ⟨h1, h2⟩ := lexOne_eq h
  have : t.raw.length ≠ 0 := by simpa using h2
  rw [← h1, List.length_append]; omega

/-! ## Tokens of a text as a relation -/

/-- The rounds of the tokenizer, without the bound. -/
inductive Lexes (uni : Char → Bool) : Text → List Tok → Prop
  | nil : Lexes uni [] []
  | cons {s r : Text} {t : Tok} {ts : List Tok} :
    lexOne uni s = some (t, r) → Lexes uni r ts → Lexes uni s (t :: ts)

theorem lexN_lexes : ∀ {n : Nat} {s : Text} {ts : List Tok}, lexN uni n s = some ts → Lexes uni s ts
  | n, [], ts, h => by
    simp only [lexN, Option.some.injEq] at h
    subst h; exact .nil
  | 0, _ :: _, _, h => by cases h
  | n + 1, c :: s, ts, h => by
    rw [lexN] at h
    split at h
    · cases h
    · rename_i t rest h1
      split at h
      · cases h
      · rename_i ts' h2
        cases h
        exact .cons h1 (lexN_lexes h2)

theorem lexes_lexN {s : Text} {ts : List Tok} (h : Lexes uni s ts) :
    ∀ {n : Nat}, s.length ≤ n → lexN uni n s = some ts := by
  induction h with
  | nil => intro n _; cases n <;> rfl
  | @cons s r t ts h1 h2 ih =>
    intro n hn
    have hl := lexOne_length h1
    cases s with
    | nil => simp at hl
    | cons c s =>
      cases n with
      | zero => simp at hn
      | succ n =>
        rw [lexN, h1]
        simp only
        rw [ih (by simp only [List.length_cons] at hl hn; omega)]

theorem lex_iff {s : Text} {ts : List Tok} : lex uni s = some ts ↔ Lexes uni s ts :=
  ⟨lexN_lexes, fun h => lexes_lexN h (Nat.le_refl _)⟩

theorem Lexes.texts {s : Text} {ts : List Tok} (h : Lexes uni s ts) :
    (ts.map Tok.raw).flatten = s := by
  induction h with
  | nil => rfl
  | cons h1 _ ih => simp [ih, (lexOne_eq h1).1]

theorem Lexes.unique {s : Text} {ts ts' : List Tok} (h : Lexes uni s ts) (h' : Lexes uni s ts') :
    ts = ts' := by
  rw [← lex_iff] at h h'
  rw [h] at h'
  exact Option.some.inj h'

theorem lexOne_nil : lexOne uni [] = none := by
  simp [lexOne, lineComment, blockComment, strTok, rawString, prefixed, escString, unicodeString,
    tickString, dollarString, wordTok, wsTok, punctTok]

theorem Lexes.nil_inv {ts : List Tok} (h : Lexes uni [] ts) : ts = [] := by
  cases h with
  | nil => rfl
  | cons h1 _ => rw [lexOne_nil] at h1; cases h1

theorem Lexes.cons_inv {c : Char} {s : Text} {ts : List Tok} (h : Lexes uni (c :: s) ts) :
    ∃ t r ts', ts = t :: ts' ∧ lexOne uni (c :: s) = some (t, r) ∧ Lexes uni r ts' := by
  cases h with
  | cons h1 h2 => exact ⟨_, _, _, rfl, h1, h2⟩

/-! ## Bodies of strings and comments do not depend on what follows -/

theorem blockBody_local : ∀ {s : Text} {n : Nat} {b r : Text}, blockBody n s = some (b, r) →
    ∀ r', blockBody n (b ++ r') = some (b, r')
  | [], _, _, _, h => by simp [blockBody] at h
  | [_], _, _, _, h => by simp [blockBody] at h
  | x :: y :: s, n, b, r, h => by
    intro r'
    rw [blockBody] at h
    split at h
    · rename_i hxy
      split at h
      · rename_i hn
        cases h
        simp [blockBody, hxy, hn]
      · rename_i hn
        obtain ⟨b', h1, rfl⟩ := pre_some h
        simp [blockBody, hxy, hn, blockBody_local h1 r', pre]
    · rename_i hxy
      split at h
      · rename_i hc
        obtain ⟨b', h1, rfl⟩ := pre_some h
        simp [blockBody, hxy, hc, blockBody_local h1 r', pre]
      · rename_i hc
        obtain ⟨b', h1, rfl⟩ := pre_some h
        have h2 := blockBody_eq h1
        cases b' with
        | nil =>
          exfalso
          have h3 := blockBody_local h1 []
          simp [blockBody] at h3
        | cons z b' =>
          simp only [List.cons_append, List.cons.injEq] at h2
          have h3 := blockBody_local h1 r'
          obtain ⟨rfl, h2⟩ := h2
          simp only [List.cons_append, List.nil_append] at h3 ⊢
          rw [blockBody, if_neg hxy, if_neg hc, h3]
          rfl

theorem plainBody_local {d : Char} : ∀ {s b r : Text}, plainBody d s = some (b, r) →
    ∀ r', plainBody d (b ++ r') = some (b, r')
  | [], _, _, h => by simp [plainBody] at h
  | x :: s, b, r, h => by
    intro r'
    rw [plainBody] at h
    split at h
    · rename_i hx
      cases h; simp [plainBody, hx]
    · rename_i hx
      obtain ⟨b', h1, rfl⟩ := pre_some h
      simp [plainBody, hx, plainBody_local h1 r', pre]

theorem escBody_cons {d c : Char} {r : Text} (h1 : c ≠ '\\') (h2 : c ≠ d) :
    escBody d (c :: r) = pre [c] (escBody d r) := by
  cases r with
  | nil => simp [escBody, h2, pre]
  | cons e r => simp [escBody, h1, h2]

theorem escBody_delim {d : Char} {r : Text} (h1 : d ≠ '\\') :
    escBody d (d :: r) = some ([d], r) := by
  cases r with
  | nil => simp [escBody]
  | cons e r => simp [escBody, h1]

theorem escBody_escape {d e : Char} {r : Text} :
    escBody d ('\\' :: e :: r) = pre ['\\', e] (escBody d r) := by
  simp [escBody]

theorem escBody_local {d : Char} (hd : d ≠ '\\') : ∀ {s b r : Text}, escBody d s = some (b, r) →
    ∀ r', escBody d (b ++ r') = some (b, r')
  | [], _, _, h => by simp [escBody] at h
  | [x], b, r, h => by
    intro r'
    rw [escBody] at h
    split at h
    · rename_i hx
      have hx : x = d := by simpa using hx
      cases h
      subst hx
      exact escBody_delim hd
    · cases h
  | x :: y :: s, b, r, h => by
    intro r'
    rw [escBody] at h
    split at h
    · rename_i hx
      have hx : x = '\\' := by simpa using hx
      obtain ⟨b', h1, rfl⟩ := pre_some h
      subst hx
      simp only [List.cons_append, List.nil_append]
      rw [escBody_escape, escBody_local hd h1 r']
      rfl
    · rename_i hx
      have hx : x ≠ '\\' := by simpa using hx
      split at h
      · rename_i hxd
        have hxd : x = d := by simpa using hxd
        cases h
        subst hxd
        exact escBody_delim hd
      · rename_i hxd
        have hxd : x ≠ d := by simpa using hxd
        obtain ⟨b', h1, rfl⟩ := pre_some h
        simp only [List.cons_append, List.nil_append]
        rw [escBody_cons hx hxd, escBody_local hd h1 r']
        rfl

theorem escBody_plain {d : Char} (hd : d ≠ '\\') : ∀ {s : Text}, plainBody d s = none →
    escBody d s = none
  | [], _ => rfl
  | [x], h => by
    rw [plainBody] at h
    split at h
    · cases h
    · rename_i hx
      simp [escBody, hx]
  | x :: y :: s, h => by
    rw [plainBody] at h
    split at h
    · cases h
    · rename_i hx
      rw [pre_none] at h
      rw [escBody]
      split
      · rw [pre_none]
        rw [plainBody] at h
        split at h
        · cases h
        · rw [pre_none] at h
          exact escBody_plain hd h
      · rw [pre_none]
        exact escBody_plain hd h

theorem tickBody_cons {c : Char} {r : Text} (h1 : c ≠ '`') :
    tickBody (c :: r) = pre [c] (tickBody r) := by
  cases r with
  | nil => simp [tickBody, h1, pre]
  | cons e r => simp [tickBody, h1]

theorem tickBody_close {r : Text} (h : r.head? ≠ some '`') :
    tickBody ('`' :: r) = some (['`'], r) := by
  cases r with
  | nil => simp [tickBody]
  | cons e r =>
    simp only [List.head?_cons, ne_eq, Option.some.injEq] at h
    simp [tickBody, h]

theorem tickBody_pair {r : Text} :
    tickBody ('`' :: '`' :: r) = pre ['`', '`'] (tickBody r) := by
  simp [tickBody]

theorem tickBody_local : ∀ {s b r : Text}, tickBody s = some (b, r) →
    r.head? ≠ some '`' ∧ ∀ r' : Text, r'.head? ≠ some '`' → tickBody (b ++ r') = some (b, r')
  | [], _, _, h => by simp [tickBody] at h
  | [x], b, r, h => by
    rw [tickBody] at h
    split at h
    · rename_i hx
      have hx : x = '`' := by simpa using hx
      cases h
      subst hx
      exact ⟨by simp, fun r' hr' => tickBody_close hr'⟩
    · cases h
  | x :: y :: s, b, r, h => by
    rw [tickBody] at h
    split at h
    · rename_i hx
      have hx : x = '`' := by simpa using hx
      subst hx
      split at h
      · rename_i hy
        have hy : y = '`' := by simpa using hy
        subst hy
        obtain ⟨b', h1, rfl⟩ := pre_some h
        obtain ⟨i1, i2⟩ := tickBody_local h1
        refine ⟨i1, fun r' hr' => ?_⟩
        simp only [List.cons_append, List.nil_append]
        rw [tickBody_pair, i2 r' hr']
        rfl
      · rename_i hy
        cases h
        exact ⟨by simpa using hy, fun r' hr' => tickBody_close hr'⟩
    · rename_i hx
      have hx : x ≠ '`' := by simpa using hx
      obtain ⟨b', h1, rfl⟩ := pre_some h
      obtain ⟨i1, i2⟩ := tickBody_local h1
      refine ⟨i1, fun r' hr' => ?_⟩
      simp only [List.cons_append, List.nil_append]
      rw [tickBody_cons hx, i2 r' hr']
      rfl

theorem findTag_length {tag : Text} : ∀ {s b r : Text}, findTag tag s = some (b, r) →
    tag.length ≤ b.length
  | [], _, _, h => by simp [findTag] at h
  | x :: s, b, r, h => by
    rw [findTag] at h
    split at h
    · cases h; exact Nat.le_refl _
    · obtain ⟨b', h1, rfl⟩ := pre_some h
      have := findTag_length h1
      simp only [List.length_append]; omega

theorem prefix_append_of_length {tag a b : Text} (h : tag.length ≤ a.length) :
    tag <+: a ++ b ↔ tag <+: a := by
  constructor
  · intro h1
    exact List.prefix_of_prefix_length_le h1 (List.prefix_append a b) h
  · intro h1
    exact h1.trans (List.prefix_append a b)

theorem findTag_local {tag : Text} : ∀ {s b r : Text}, tag ≠ [] → findTag tag s = some (b, r) →
    ∀ r', findTag tag (b ++ r') = some (b, r')
  | [], _, _, _, h => by simp [findTag] at h
  | x :: s, b, r, ht, h => by
    intro r'
    rw [findTag] at h
    split at h
    · cases h
      cases tag with
      | nil => exact absurd rfl ht
      | cons y tag =>
        have : (y :: tag).isPrefixOf (y :: (tag ++ r')) = true := by
          rw [List.isPrefixOf_iff_prefix]; exact List.prefix_append (y :: tag) r'
        simp only [List.cons_append]
        rw [findTag, if_pos this]
        simp
    · rename_i hp
      obtain ⟨b', h1, rfl⟩ := pre_some h
      have hl := findTag_length h1
      have he := findTag_eq h1
      have : ¬ tag.isPrefixOf (x :: (b' ++ r')) = true := by
        rw [List.isPrefixOf_iff_prefix] at hp ⊢
        rw [← he] at hp
        intro hq
        apply hp
        rw [← List.cons_append, prefix_append_of_length (by simp; omega)] at hq ⊢
        exact hq
      simp only [List.cons_append, List.nil_append]
      rw [findTag, if_neg this, findTag_local ht h1 r']
      rfl

end Verif.Sql
