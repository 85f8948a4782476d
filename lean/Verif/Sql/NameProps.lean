import Verif.Sql.Name
import Verif.Sql.LexerProps

/-!
# C89: a printed object name reads back as the same name
-/

namespace Verif.Sql

variable {uni : Char → Bool}

namespace Spec

/-- A way to write a name: as it is when it consists of letters, digits and underscores, or in
backticks with every backtick doubled. -/
inductive Written (uni : Char → Bool) : Text → Text → Prop
  | plain {n : Text} : n ≠ [] → (∀ c ∈ n, isWordChar uni c = true) → Written uni n n
  | ticks {n : Text} : Written uni n (tick n)

/-- White space and comments. -/
def Blank (ts : List Tok) : Prop := ∀ t ∈ ts, t.isWhitespace = true

end Spec

open Spec

namespace Spec

/-- The token for a part of a name. -/
inductive NameTok : Text → Tok → Prop
  | word {n : Text} : NameTok n (.word n)
  | tick {n : Text} : NameTok n (.str (tick n) .backtick)

/-- Tokens of the parts after the first: blanks, a dot, blanks, a part. -/
inductive Parts : List Text → List Tok → Prop
  | nil {e : List Tok} : Blank e → Parts [] e
  | cons {a b : List Tok} {n : Text} {t : Tok} {ns : List Text} {ts : List Tok} :
    Blank a → Blank b → NameTok n t → Parts ns ts → Parts (n :: ns) (a ++ .punct '.' :: b ++ t :: ts)

end Spec

open Spec

theorem skipWs_blank {a ts : List Tok} (h : Blank a) (h' : ∀ t, ts.head? = some t → t.isWhitespace = false) :
    skipWs (a ++ ts) = ts := by
  induction a with
  | nil =>
    cases ts with
    | nil => rfl
    | cons t ts => exact List.dropWhile_cons_of_neg (by simp [h' t rfl])
  | cons x a ih =>
    rw [skipWs, List.cons_append, List.dropWhile_cons_of_pos (h x (by simp))]
    exact ih (fun t ht => h t (by simp [ht]))

theorem tick_value (n : Text) : parseStr .backtick (tick n) = .valid n none :=
  (C88_tick (uni := fun _ => false) n [] (by simp)).2

theorem parseIdent_tok {n : Text} {t : Tok} (h : NameTok n t) (ts : List Tok) :
    parseIdent (t :: ts) = some (n, skipWs ts) := by
  cases h with
  | word => rfl
  | tick => rw [parseIdent, tick_value]

theorem Spec.NameTok.notBlank {n : Text} {t : Tok} (h : NameTok n t) : t.isWhitespace = false := by
  cases h <;> rfl

theorem parts_head {ns : List Text} {ts : List Tok} (h : Parts ns ts) :
    ∀ {n : Nat}, ts.length ≤ n → skipWs (parseTail n (skipWs ts)).2 = [] ∧
      (parseTail n (skipWs ts)).1 = ns := by
  induction h with
  | @nil e he =>
    intro n _
    have : skipWs e = [] := by
      have := skipWs_blank (ts := []) he (by simp)
      simpa using this
    rw [this]
    cases n <;> simp [parseTail, parsePeriod, skipWs]
  | @cons a b x t ns ts ha hb ht _ ih =>
    intro n hn
    rw [List.append_assoc, skipWs_blank ha (by intro t h; cases h; rfl)]
    cases n with
    | zero => simp at hn
    | succ n =>
      have h1 : parsePeriod (.punct '.' :: b ++ t :: ts) = some (t :: ts) := by
        simp only [List.cons_append, parsePeriod, beq_self_eq_true, if_true]
        rw [skipWs_blank hb (by intro t' h; cases h; exact ht.notBlank)]
      obtain ⟨i1, i2⟩ := ih (n := n) (by simp only [List.length_append, List.length_cons] at hn; omega)
      rw [parseTail, h1]
      simp only [parseIdent_tok ht]
      exact ⟨i1, by rw [i2]⟩

/-- White space and comments around the parts and the dots make no difference. -/
theorem parseNameTokens_parts {a : List Tok} (ha : Blank a) {n : Text} {t : Tok} (ht : NameTok n t)
    {ns : List Text} {ts : List Tok} (h : Parts ns ts) :
    parseNameTokens (a ++ t :: ts) = some (n :: ns) := by
  rw [parseNameTokens, skipWs_blank ha (by intro t' h; cases h; exact ht.notBlank)]
  simp only [parseIdent_tok ht]
  -- the bound on the rounds is the length after skipping white space
  have key : skipWs (parseTail (skipWs ts).length (skipWs ts)).2 = [] ∧
      (parseTail (skipWs ts).length (skipWs ts)).1 = ns := by
    cases h with
    | nil he =>
      have : skipWs ts = [] := by
        have := skipWs_blank (ts := []) he (by simp)
        simpa using this
      rw [this]
      exact ⟨rfl, rfl⟩
    | @cons a b x t ns ts ha hb ht h =>
      have e : skipWs (a ++ .punct '.' :: b ++ t :: ts) = .punct '.' :: b ++ t :: ts := by
        rw [List.append_assoc, skipWs_blank ha (by intro t h; cases h; rfl)]
      have h2 : Parts (x :: ns) ([] ++ .punct '.' :: b ++ t :: ts) :=
        .cons (by intro t h; cases h) hb ht h
      have := parts_head h2 (n := (skipWs (a ++ .punct '.' :: b ++ t :: ts)).length) (by rw [e]; simp)
      rw [List.nil_append] at this
      have e' : skipWs (.punct '.' :: b ++ t :: ts) = .punct '.' :: b ++ t :: ts := rfl
      rw [e'] at this
      rw [e] at this ⊢
      exact this
  rw [key.1, key.2]
  rfl

theorem written_token {n x : Text} (h : Written uni n x) {r : Text}
    (hr : ∀ c, r.head? = some c → c = '.') : ∃ t, NameTok n t ∧ lexOne uni (x ++ r) = some (t, r) := by
  cases h with
  | plain h1 h2 =>
    refine ⟨_, .word, ok_lexOne (t := .word n) ⟨h1, h2, ?_, ?_⟩⟩
    · intro c hc
      have := hr c hc
      subst this
      cases hw : isWordChar uni '.' with
      | false => rfl
      | true => exact absurd rfl (word_not_special hw (d := '.') (by decide) (by decide) (by decide))
    · apply strTok_of_ahead h1 h2
      refine ⟨fun c q _ _ hd => ?_, fun q _ hd _ => ?_⟩
      · cases r with
        | nil => cases hd
        | cons y r =>
          have := hr y rfl
          subst this
          cases hd
          decide
      · have := hr _ hd
        cases this
  | ticks =>
    refine ⟨_, .tick, (C88_tick n r ?_).1⟩
    intro h
    have := hr _ h
    cases this

/-- The parts after the first, each preceded by a dot. -/
theorem lexes_tail : ∀ {l : List (Text × Text)}, (∀ p ∈ l, Written uni p.1 p.2) →
    ∃ ts, Lexes uni (l.flatMap (fun p => '.' :: p.2)) ts ∧ Parts (l.map (·.1)) ts
  | [], _ => ⟨[], .nil, .nil (by intro t h; cases h)⟩
  | p :: l, h => by
    obtain ⟨ts, h1, h2⟩ := lexes_tail (l := l) (fun q hq => h q (List.mem_cons_of_mem _ hq))
    have hr : ∀ c, (l.flatMap (fun p => '.' :: p.2)).head? = some c → c = '.' := by
      intro c hc
      cases l with
      | nil => cases hc
      | cons q l => simp at hc; exact hc.symm
    obtain ⟨t, h3, h4⟩ := written_token (h p (by simp)) hr
    refine ⟨[] ++ Tok.punct '.' :: [] ++ t :: ts, ?_, Parts.cons (a := []) (b := [])
      (by intro t h; cases h) (by intro t h; cases h) h3 h2⟩
    simp only [List.flatMap_cons, List.nil_append, List.cons_append]
    exact .cons (lexOne_punct (by decide) (by decide) (by decide) (by decide)) (.cons h4 h1)

/-- However each part is written, plainly or in backticks, a name reads back as its parts. -/
theorem C89_written {n x : Text} (h : Written uni n x) {l : List (Text × Text)}
    (hl : ∀ p ∈ l, Written uni p.1 p.2) :
    parseObjectName uni (x ++ l.flatMap (fun p => '.' :: p.2)) = some (n :: l.map (·.1)) := by
  obtain ⟨ts, h1, h2⟩ := lexes_tail hl
  have hr : ∀ c, (l.flatMap (fun p => '.' :: p.2)).head? = some c → c = '.' := by
    intro c hc
    cases l with
    | nil => cases hc
    | cons q l => simp at hc; exact hc.symm
  obtain ⟨t, h3, h4⟩ := written_token h hr
  rw [parseObjectName, lex_iff.mpr (.cons h4 h1)]
  exact parseNameTokens_parts (a := []) (by intro t h; cases h) h3 h2

example : parseObjectName (fun _ => false) "a.`b.c``d`.`select`.1x".toList =
    some ["a".toList, "b.c`d".toList, "select".toList, "1x".toList] := by decide +kernel

theorem doubleTicks_eq (n : Text) : '`' :: doubleTicks n ++ ['`'] = tick n := by
  have : ∀ n : Text, doubleTicks n = n.flatMap (fun c => if c = '`' then ['`', '`'] else [c]) := by
    intro n
    induction n with
    | nil => rfl
    | cons c n ih =>
      simp only [doubleTicks, List.flatMap_cons, ih]
      by_cases h : c = '`' <;> simp [h]
  rw [this]; rfl

theorem quote_written (n : Text) : Written uni n (quoteNameIfNeeded n) := by
  rw [quoteNameIfNeeded]
  split
  · rename_i h
    have hc : ∀ c, isNameChar c = true → isWordChar uni c = true := by
      intro c h
      simp only [isNameChar, Bool.or_eq_true, beq_iff_eq] at h
      simp only [isWordChar, Bool.or_eq_true, beq_iff_eq]
      exact .inl h
    cases n with
    | nil => cases h
    | cons c r =>
      simp only [validIdentifier, Bool.and_eq_true, List.all_eq_true] at h
      refine .plain (by simp) ?_
      intro d hd
      rcases List.mem_cons.mp hd with rfl | hd
      · apply hc
        have := h.1
        simp only [isNameStart, Bool.or_eq_true, beq_iff_eq] at this
        simp only [isNameChar, Char.isAlphanum, Bool.or_eq_true, beq_iff_eq]
        rcases this with h | h
        · exact .inl (.inl h)
        · exact .inr h
      · exact hc d (h.2 d hd)
  · rw [doubleTicks_eq]
    exact .ticks

theorem quoteNames_eq (n : Text) : ∀ ns : List Text, quoteNamesIfNeeded (n :: ns) =
    quoteNameIfNeeded n ++ (ns.map (fun x => (x, quoteNameIfNeeded x))).flatMap (fun p => '.' :: p.2) := by
  intro ns
  induction ns generalizing n with
  | nil => simp [quoteNamesIfNeeded]
  | cons m ns ih => rw [quoteNamesIfNeeded, ih] <;> simp

theorem quoteNamespace_eq (n : Text) (ns : List Text) :
    quoteNamespaceIfNeeded n ns = quoteNamesIfNeeded (n :: ns) := by
  rw [quoteNames_eq, quoteNamespaceIfNeeded]
  generalize quoteNameIfNeeded n = a
  induction ns generalizing a with
  | nil => simp
  | cons m ns ih => simp only [List.foldl_cons]; rw [ih]; simp

/-- A name that the catalog prints reads back as the same parts. -/
theorem C89_roundtrip {names : List Text} (h : names ≠ []) :
    parseObjectName uni (quoteNamesIfNeeded names) = some names := by
  cases names with
  | nil => exact absurd rfl h
  | cons n ns =>
    rw [quoteNames_eq, C89_written (quote_written n)
      (l := ns.map (fun x => (x, quoteNameIfNeeded x)))]
    · rw [List.map_map]
      have : ((fun x : Text × Text => x.1) ∘ fun x => (x, quoteNameIfNeeded x)) = id := rfl
      rw [this, List.map_id]
    · intro p hp
      obtain ⟨x, _, rfl⟩ := List.mem_map.mp hp
      exact quote_written x

example : ["a b".toList, "".toList, "x`.`y".toList, "select".toList] ≠ [] ∧
    quoteNamesIfNeeded ["a b".toList, "".toList, "x`.`y".toList, "select".toList] =
      "`a b`.``.`x``.``y`.select".toList := ⟨by simp, by decide +kernel⟩

/-- So does a namespace. -/
theorem C89_namespace (head : Text) (tail : List Text) :
    parseObjectName uni (quoteNamespaceIfNeeded head tail) = some (head :: tail) := by
  rw [quoteNamespace_eq]
  exact C89_roundtrip (by simp)

example : parseObjectName (fun _ => false) (quoteNamespaceIfNeeded "r".toList ["'x'".toList]) =
    some ["r".toList, "'x'".toList] := by decide +kernel

/-- Different names print differently. -/
theorem C89_injective {a b : List Text} (ha : a ≠ []) (hb : b ≠ [])
    (h : quoteNamesIfNeeded a = quoteNamesIfNeeded b) : a = b := by
  have h1 := C89_roundtrip (uni := fun _ => false) ha
  rw [h, C89_roundtrip hb] at h1
  exact (Option.some.inj h1).symm

example : quoteNamesIfNeeded ["a.b".toList] ≠ quoteNamesIfNeeded ["a".toList, "b".toList] := by
  decide +kernel

/-- White space and comments around the parts and the dots make no difference. -/
theorem C89_layout {s : Text} {a : List Tok} (ha : Blank a) {n : Text} {t : Tok} (ht : NameTok n t)
    {ns : List Text} {ts : List Tok} (h : Parts ns ts) (hs : lex uni s = some (a ++ t :: ts)) :
    parseObjectName uni s = some (n :: ns) := by
  rw [parseObjectName, hs]
  exact parseNameTokens_parts ha ht h

example : parseObjectName (fun _ => false) " a /* x.y */ .\n `b` -- c".toList =
    some ["a".toList, "b".toList] := by decide +kernel

end Verif.Sql
