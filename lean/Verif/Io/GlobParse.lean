import Verif.Io.Glob

/-!
# The syntax of glob patterns
-/

namespace Verif.Io.Glob

namespace Spec

/-- The text inside the brackets of a class, read from the left: `a-b` is a range wherever it can be. -/
inductive ClassText : List Choice → List Char → Prop
  | nil : ClassText [] []
  | range (a b : Char) {cs : List Choice} {t : List Char} (h : ClassText cs t) :
      ClassText (.range a b :: cs) (a :: '-' :: b :: t)
  | single (a : Char) {cs : List Choice} {t : List Char} (hno : ∀ b r, t ≠ '-' :: b :: r) (h : ClassText cs t) :
      ClassText (.single a :: cs) (a :: t)

mutual

/-- How segments are written, in an alternative if `nested`. -/
inductive Written : Bool → List Seg → List Char → Prop
  | nil (nested : Bool) : Written nested [] []
  | asterisk {nested : Bool} {segs : List Seg} {t : List Char} (h : Written nested segs t) :
      Written nested (.asterisk :: segs) ('*' :: t)
  | questionMark {nested : Bool} {segs : List Seg} {t : List Char} (h : Written nested segs t) :
      Written nested (.questionMark :: segs) ('?' :: t)
  | character {nested : Bool} {segs : List Seg} {t : List Char} (c : Char) (hc : c ∉ ['*', '?', '[', '{'])
      (hn : nested = true → c ∉ [',', '}'] ∧ isWhitespace c = false) (h : Written nested segs t) :
      Written nested (.character c :: segs) (c :: t)
  | characterClass {nested : Bool} {segs : List Seg} {t : List Char} (negated : Bool) {choices : List Choice}
      (first : Char) (inner : List Char) (hc : ClassText choices (first :: inner)) (hi : ']' ∉ inner)
      (hf : negated = false → first ≠ '^') (h : Written nested segs t) :
      Written nested (.characterClass negated choices :: segs)
        ('[' :: ((if negated then ['^'] else []) ++ first :: inner ++ ']' :: t))
  | alternation {nested : Bool} {segs : List Seg} {t : List Char} {patterns : List (List Seg)} {u : List Char}
      (hp : Alternatives patterns u) (h : Written nested segs t) :
      Written nested (.alternation patterns :: segs) ('{' :: (u ++ '}' :: t))

/-- How alternatives are written, with white space around them. -/
inductive Alternatives : List (List Seg) → List Char → Prop
  | one {p : List Seg} {t : List Char} (before after : List Char) (hb : ∀ c ∈ before, isWhitespace c = true)
      (ha : ∀ c ∈ after, isWhitespace c = true) (hp : p ≠ []) (h : Written true p t) :
      Alternatives [p] (before ++ t ++ after)
  | more {p : List Seg} {t : List Char} {ps : List (List Seg)} {u : List Char} (before after : List Char)
      (hb : ∀ c ∈ before, isWhitespace c = true) (ha : ∀ c ∈ after, isWhitespace c = true) (hp : p ≠ [])
      (h : Written true p t) (hu : Alternatives ps u) : Alternatives (p :: ps) (before ++ t ++ after ++ ',' :: u)

end

end Spec

open Spec

/-! ## Classes -/

theorem parseChoices_single (a : Char) (t : List Char) (h : ∀ b r, t ≠ '-' :: b :: r) :
    parseChoices (a :: t) = .single a :: parseChoices t := by
  cases t with
  | nil => rfl
  | cons b t =>
    cases t with
    | nil => rfl
    | cons c t =>
      rw [parseChoices]
      split
      · next hb => exact absurd (by rw [hb]) (h c t)
      · rfl

theorem parseChoices_range (a b : Char) (t : List Char) : parseChoices (a :: '-' :: b :: t) = .range a b :: parseChoices t := by
  rw [parseChoices, if_pos rfl]

theorem parseChoices_of {cs : List Choice} {t : List Char} (h : ClassText cs t) : parseChoices t = cs := by
  induction h with
  | nil => rfl
  | range a b _ ih => rw [parseChoices_range, ih]
  | single a hno _ ih => rw [parseChoices_single a _ hno, ih]

theorem classText_parse (n : Nat) (t : List Char) (h : t.length ≤ n) : ClassText (parseChoices t) t := by
  induction n generalizing t with
  | zero =>
    obtain rfl := List.length_eq_zero_iff.1 (Nat.le_zero.1 h)
    exact .nil
  | succ n ih =>
    cases t with
    | nil => exact .nil
    | cons a t =>
      by_cases hx : ∃ b r, t = '-' :: b :: r
      · obtain ⟨b, r, rfl⟩ := hx
        rw [parseChoices_range]
        refine .range a b (ih r ?_)
        simp only [List.length_cons] at h
        omega
      · have hno : ∀ b r, t ≠ '-' :: b :: r := fun b r e => hx ⟨b, r, e⟩
        rw [parseChoices_single a t hno]
        refine .single a hno (ih t ?_)
        simp only [List.length_cons] at h
        omega

theorem mem_takeWhile {p : Char → Bool} {c : Char} {s : List Char} (h : c ∈ s.takeWhile p) : p c = true := by
  induction s with
  | nil => cases h
  | cons a s ih =>
    rw [List.takeWhile_cons] at h
    split at h
    · next ha =>
      rcases List.mem_cons.1 h with rfl | h
      · exact ha
      · exact ih h
    · cases h

theorem untilBracket_of (inner rest : List Char) (h : ']' ∉ inner) :
    untilBracket (inner ++ ']' :: rest) = (inner, ']' :: rest) := by
  have h' : ∀ c ∈ inner, (decide (c ≠ ']')) = true := by
    intro c hc
    simp only [decide_eq_true_eq]
    rintro rfl
    exact h hc
  unfold untilBracket
  rw [List.takeWhile_append_of_pos h', List.dropWhile_append_of_pos h']
  simp

theorem untilBracket_spec (s inner rest : List Char) (h : untilBracket s = (inner, rest)) :
    s = inner ++ rest ∧ ']' ∉ inner := by
  unfold untilBracket at h
  simp only [Prod.mk.injEq] at h
  obtain ⟨h1, h2⟩ := h
  refine ⟨by rw [← h1, ← h2, List.takeWhile_append_dropWhile], ?_⟩
  intro hm
  rw [← h1] at hm
  have := mem_takeWhile hm
  simp at this

theorem parseClassText_of (first : Char) (inner rest : List Char) (h : ']' ∉ inner) :
    parseClassText (first :: inner ++ ']' :: rest) = some (first :: inner, rest) := by
  rw [List.cons_append]
  by_cases hf : first = ']'
  · subst hf
    rw [parseClassText, untilBracket_of _ _ h]
    rfl
  · have hn : ']' ∉ first :: inner := by
      simp only [List.mem_cons, not_or]
      exact ⟨fun e => hf e.symm, h⟩
    rw [parseClassText]
    · rw [← List.cons_append, untilBracket_of _ _ hn]
      rfl
    · intro s e
      injection e with e1
      exact hf e1

theorem parseClassText_spec (s text rest : List Char) (h : parseClassText s = some (text, rest)) :
    ∃ first inner, text = first :: inner ∧ ']' ∉ inner ∧ s = text ++ ']' :: rest := by
  unfold parseClassText at h
  split at h
  · next s' =>
    split at h
    · next inner rest' hu =>
      simp only [Option.some.injEq, Prod.mk.injEq] at h
      obtain ⟨rfl, rfl⟩ := h
      obtain ⟨h1, h2⟩ := untilBracket_spec _ _ _ hu
      exact ⟨']', inner, rfl, h2, by rw [h1]; rfl⟩
    · cases h
  · split at h
    · cases h
    · next inner rest' hne hu =>
      simp only [Option.some.injEq, Prod.mk.injEq] at h
      obtain ⟨rfl, rfl⟩ := h
      obtain ⟨h1, h2⟩ := untilBracket_spec _ _ _ hu
      cases inner with
      | nil => exact (hne rfl).elim
      | cons a inner =>
        exact ⟨a, inner, rfl, fun hm => h2 (List.mem_cons_of_mem _ hm), h1⟩
    · cases h

theorem parseClass_of (negated : Bool) (choices : List Choice) (first : Char) (inner rest : List Char)
    (hc : ClassText choices (first :: inner)) (hi : ']' ∉ inner) (hf : negated = false → first ≠ '^') :
    parseClass ((if negated then ['^'] else []) ++ first :: inner ++ ']' :: rest) =
      some (.characterClass negated choices, rest) := by
  cases negated with
  | true =>
    change parseClass ('^' :: (first :: inner ++ ']' :: rest)) = _
    rw [parseClass, parseClassText_of _ _ _ hi]
    simp only [Option.map_some, parseChoices_of hc]
  | false =>
    simp only [Bool.false_eq_true, if_false, List.nil_append, List.cons_append]
    rw [parseClass]
    · rw [← List.cons_append, parseClassText_of _ _ _ hi]
      simp only [Option.map_some, parseChoices_of hc]
    · intro s e
      injection e with e1
      exact hf rfl e1

theorem parseClass_spec (s rest : List Char) (seg : Seg) (h : parseClass s = some (seg, rest)) (nested : Bool) :
    ∃ t, s = t ++ rest ∧ Written nested [seg] ('[' :: t) := by
  unfold parseClass at h
  split at h
  · next s =>
    rw [Option.map_eq_some_iff] at h
    obtain ⟨⟨text, rest'⟩, h1, h2⟩ := h
    simp only [Prod.mk.injEq] at h2
    obtain ⟨rfl, rfl⟩ := h2
    obtain ⟨first, inner, rfl, h3, h4⟩ := parseClassText_spec _ _ _ h1
    refine ⟨'^' :: first :: inner ++ [']'], by rw [h4]; simp, ?_⟩
    have := Written.characterClass (nested := nested) (segs := []) (t := []) true first inner
      (classText_parse _ _ (Nat.le_refl _)) h3 (by intro h; cases h) (.nil _)
    simpa using this
  · next hne =>
    rw [Option.map_eq_some_iff] at h
    obtain ⟨⟨text, rest'⟩, h1, h2⟩ := h
    simp only [Prod.mk.injEq] at h2
    obtain ⟨rfl, rfl⟩ := h2
    obtain ⟨first, inner, rfl, h3, h4⟩ := parseClassText_spec _ _ _ h1
    refine ⟨first :: inner ++ [']'], by rw [h4]; simp, ?_⟩
    have := Written.characterClass (nested := nested) (segs := []) (t := []) false first inner
      (classText_parse _ _ (Nat.le_refl _)) h3 (by rintro _ rfl; exact hne _ (by rw [h4]; rfl)) (.nil _)
    simpa using this

/-! ## White space -/

theorem skipBlank_spec (s : List Char) : ∃ b, s = b ++ skipBlank s ∧ ∀ c ∈ b, isWhitespace c = true := by
  refine ⟨s.takeWhile isWhitespace, (List.takeWhile_append_dropWhile).symm, ?_⟩
  intro c hc
  exact mem_takeWhile hc

theorem skipBlank_of (b s : List Char) (hb : ∀ c ∈ b, isWhitespace c = true)
    (hs : ∀ c r, s = c :: r → isWhitespace c = false) : skipBlank (b ++ s) = s := by
  unfold skipBlank
  rw [List.dropWhile_append_of_pos hb]
  cases s with
  | nil => rfl
  | cons c s => rw [List.dropWhile_cons_of_neg (by rw [hs c s rfl]; simp)]

/-! ## What is written is read -/

theorem written_head {p : List Seg} {t : List Char} (h : Written true p t) (hp : p ≠ []) :
    ∃ c r, t = c :: r ∧ c ∉ [',', '}'] ∧ isWhitespace c = false := by
  cases h with
  | nil => exact absurd rfl hp
  | asterisk => exact ⟨_, _, rfl, by decide, by decide⟩
  | questionMark => exact ⟨_, _, rfl, by decide, by decide⟩
  | character c _ hn => exact ⟨_, _, rfl, hn rfl⟩
  | characterClass => exact ⟨_, _, rfl, by decide, by decide⟩
  | alternation => exact ⟨_, _, rfl, by decide, by decide⟩

mutual

theorem parsePattern_of {nested : Bool} {seg : Seg} {segs : List Seg} {s : List Char}
    (h : Written nested (seg :: segs) s) (n : Nat) (rest : List Char) (hn : 4 * (s.length + rest.length) < n) :
    ∃ t, Written nested segs t ∧ t.length < s.length ∧ parsePattern n (s ++ rest) = some (seg, t ++ rest) := by
  match n, h with
  | 0, _ => omega
  | n + 1, .asterisk h => exact ⟨_, h, by simp, rfl⟩
  | n + 1, .questionMark h => exact ⟨_, h, by simp, rfl⟩
  | n + 1, .character c hc hno h =>
    simp only [List.mem_cons, List.not_mem_nil, or_false, not_or] at hc
    refine ⟨_, h, by simp, ?_⟩
    rw [List.cons_append, parsePattern, if_neg hc.1, if_neg hc.2.1, if_neg hc.2.2.1, if_neg hc.2.2.2]
  | n + 1, .characterClass negated first inner hc hi hf h =>
    refine ⟨_, h, by simp; omega, ?_⟩
    rw [List.cons_append, parsePattern, if_neg (by decide), if_neg (by decide), if_pos rfl]
    simpa using parseClass_of negated _ first inner _ hc hi hf
  | n + 1, .alternation (t := t) (u := u) hp h =>
    refine ⟨_, h, by simp; omega, ?_⟩
    rw [List.cons_append, parsePattern, if_neg (by decide), if_neg (by decide), if_neg (by decide), if_pos rfl]
    simp only [List.length_cons, List.length_append] at hn
    cases n with
    | zero => omega
    | succ n =>
      have := parseAlternatives_of hp n (t ++ rest) (by simp only [List.length_append]; omega)
      rw [parseAlternation]
      simp only [List.append_assoc, List.cons_append] at this ⊢
      rw [this]
termination_by n

theorem parseAlternatives_of {ps : List (List Seg)} {u : List Char} (h : Alternatives ps u) (n : Nat) (rest : List Char)
    (hn : 4 * (u.length + rest.length) + 6 < n) : parseAlternatives n (u ++ '}' :: rest) = some (ps, rest) := by
  match n, h with
  | 0, _ => omega
  | n + 1, .one (t := t) before after hb ha hp h =>
    obtain ⟨c, r, rfl, hc1, hc2⟩ := written_head h hp
    have e1 : skipBlank (before ++ c :: r ++ after ++ '}' :: rest) = c :: r ++ (after ++ '}' :: rest) := by
      rw [List.append_assoc before, List.append_assoc before, skipBlank_of before _ hb]
      · simp
      · intro c' r' e
        injection e with e1
        rw [← e1]
        exact hc2
    have e2 : skipBlank (after ++ '}' :: rest) = '}' :: rest :=
      skipBlank_of after _ ha (by
        intro c' r' e
        injection e with e1
        rw [← e1]
        decide)
    have e3 := parseAlternative_of h n (after ++ '}' :: rest) (by
        simp only [List.length_append, List.length_cons] at hn ⊢
        omega)
      (by
        cases after with
        | nil => exact ⟨_, _, rfl, Or.inl (by decide)⟩
        | cons d after => exact ⟨_, _, rfl, Or.inr (ha d (by simp))⟩)
    rw [parseAlternatives, e1, e3]
    simp only [List.isEmpty_iff, hp, if_false, e2]
  | n + 1, .more (t := t) (u := u) before after hb ha hp h hu =>
    obtain ⟨c, r, rfl, hc1, hc2⟩ := written_head h hp
    have e1 : skipBlank (before ++ c :: r ++ after ++ ',' :: u ++ '}' :: rest) =
        c :: r ++ (after ++ ',' :: (u ++ '}' :: rest)) := by
      rw [show before ++ c :: r ++ after ++ ',' :: u ++ '}' :: rest =
        before ++ (c :: r ++ (after ++ ',' :: (u ++ '}' :: rest))) by simp, skipBlank_of before _ hb]
      intro c' r' e
      injection e with e1
      rw [← e1]
      exact hc2
    have e2 : skipBlank (after ++ ',' :: (u ++ '}' :: rest)) = ',' :: (u ++ '}' :: rest) :=
      skipBlank_of after _ ha (by
        intro c' r' e
        injection e with e1
        rw [← e1]
        decide)
    have e3 := parseAlternative_of h n (after ++ ',' :: (u ++ '}' :: rest)) (by
        simp only [List.length_append, List.length_cons] at hn ⊢
        omega)
      (by
        cases after with
        | nil => exact ⟨_, _, rfl, Or.inl (by decide)⟩
        | cons d after => exact ⟨_, _, rfl, Or.inr (ha d (by simp))⟩)
    have e4 := parseAlternatives_of hu n rest (by
      simp only [List.length_append, List.length_cons] at hn
      omega)
    rw [parseAlternatives, e1, e3]
    simp only [List.isEmpty_iff, hp, if_false, e2, e4]
termination_by n

theorem parseAlternative_of {p : List Seg} {t : List Char} (h : Written true p t) (n : Nat) (rest : List Char)
    (hn : 4 * (t.length + rest.length) + 1 < n)
    (hr : ∃ c r, rest = c :: r ∧ (c ∈ [',', '}'] ∨ isWhitespace c = true)) :
    parseAlternative n (t ++ rest) = some (p, rest) := by
  match n, p, h with
  | 0, _, _ => omega
  | n + 1, _, .nil _ =>
    obtain ⟨c, r, rfl, hc⟩ := hr
    rw [List.nil_append, parseAlternative, if_pos]
    rcases hc with hc | hc
    · simp only [List.mem_cons, List.not_mem_nil, or_false] at hc
      rcases hc with rfl | rfl <;> simp
    · simp [hc]
  | n + 1, seg :: segs, h =>
    obtain ⟨t', h1, h2, h3⟩ := parsePattern_of h n rest (by omega)
    have h4 := parseAlternative_of h1 n rest (by omega) hr
    obtain ⟨c, r, rfl, hc1, hc2⟩ := written_head h (by simp)
    simp only [List.mem_cons, List.not_mem_nil, or_false, not_or] at hc1
    rw [List.cons_append] at h3 ⊢
    rw [parseAlternative, if_neg (by simp [hc1, hc2]), h3]
    simp only [h4]
termination_by n

end

theorem parseSequence_of {segs : List Seg} {s : List Char} (h : Written false segs s) (fuel n : Nat) (hn : s.length < n)
    (hf : 4 * s.length < fuel) : parseSequence fuel n s = some segs := by
  induction n generalizing segs s with
  | zero => omega
  | succ n ih =>
    cases segs with
    | nil =>
      cases h
      rfl
    | cons seg segs =>
      obtain ⟨t, h1, h2, h3⟩ := parsePattern_of h fuel [] (by simpa using hf)
      rw [List.append_nil, List.append_nil] at h3
      cases s with
      | nil => simp at h2
      | cons c s =>
        rw [parseSequence, h3]
        simp only [ih h1 (by omega) (by omega)]

theorem parse_of {segs : List Seg} {s : List Char} (h : Written false segs s) (hne : segs ≠ []) : parse s = some segs := by
  unfold parse
  rw [if_neg, parseSequence_of h _ _ (Nat.lt_succ_self _) (by omega)]
  intro he
  rw [List.isEmpty_iff] at he
  subst he
  cases h
  exact hne rfl

/-! ## What is read is written -/

theorem written_append {nested : Bool} {a b : List Seg} {s t : List Char} (h : Written nested a s)
    (h' : Written nested b t) : Written nested (a ++ b) (s ++ t) := by
  match h with
  | .nil _ => exact h'
  | .asterisk h => exact .asterisk (written_append h h')
  | .questionMark h => exact .questionMark (written_append h h')
  | .character c hc hn h => exact .character c hc hn (written_append h h')
  | .characterClass negated first inner hc hi hf h =>
    have := Written.characterClass negated first inner hc hi hf (written_append h h')
    simpa using this
  | .alternation hp h =>
    have := Written.alternation hp (written_append h h')
    simpa using this

theorem written_nested {seg : Seg} {c : Char} {t : List Char} (h : Written false [seg] (c :: t))
    (hc : c ∉ [',', '}'] ∧ isWhitespace c = false) : Written true [seg] (c :: t) := by
  cases h with
  | asterisk h => cases h; exact .asterisk (.nil _)
  | questionMark h => cases h; exact .questionMark (.nil _)
  | character _ hc' hn h => cases h; exact .character _ hc' (fun _ => hc) (.nil _)
  | characterClass negated first inner hcls hi hf h => cases h; exact .characterClass negated first inner hcls hi hf (.nil _)
  | alternation hp h => cases h; exact .alternation hp (.nil _)

/-- The four parsers read what is written. -/
theorem parse_sound (n : Nat) :
    (∀ s seg rest, parsePattern n s = some (seg, rest) → ∃ t, s = t ++ rest ∧ Written false [seg] t) ∧
    (∀ s seg rest, parseAlternation n s = some (seg, rest) → ∃ t, s = t ++ rest ∧ Written false [seg] ('{' :: t)) ∧
    (∀ s ps rest, parseAlternatives n s = some (ps, rest) → ∃ u, s = u ++ '}' :: rest ∧ Alternatives ps u) ∧
    (∀ s p rest, parseAlternative n s = some (p, rest) → ∃ t, s = t ++ rest ∧ Written true p t) := by
  induction n with
  | zero =>
    refine ⟨?_, ?_, ?_, ?_⟩
    · intro s seg rest h; simp [parsePattern] at h
    · intro s seg rest h; simp [parseAlternation] at h
    · intro s seg rest h; simp [parseAlternatives] at h
    · intro s seg rest h; simp [parseAlternative] at h
  | succ n ih =>
    obtain ⟨i1, i2, i3, i4⟩ := ih
    refine ⟨?_, ?_, ?_, ?_⟩
    · intro s seg rest h
      cases s with
      | nil => simp [parsePattern] at h
      | cons c s =>
        rw [parsePattern] at h
        split at h
        · next hc =>
          simp only [Option.some.injEq, Prod.mk.injEq] at h
          obtain ⟨rfl, rfl⟩ := h
          subst hc
          exact ⟨['*'], rfl, .asterisk (.nil _)⟩
        next h1 =>
        split at h
        · next hc =>
          simp only [Option.some.injEq, Prod.mk.injEq] at h
          obtain ⟨rfl, rfl⟩ := h
          subst hc
          exact ⟨['?'], rfl, .questionMark (.nil _)⟩
        next h2 =>
        split at h
        · next hc =>
          subst hc
          obtain ⟨t, e, ht⟩ := parseClass_spec _ _ _ h false
          exact ⟨_, by rw [e]; rfl, ht⟩
        next h3 =>
        split at h
        · next hc =>
          subst hc
          obtain ⟨t, e, ht⟩ := i2 _ _ _ h
          exact ⟨_, by rw [e]; rfl, ht⟩
        next h4 =>
        simp only [Option.some.injEq, Prod.mk.injEq] at h
        obtain ⟨rfl, rfl⟩ := h
        refine ⟨[c], rfl, .character c ?_ (by intro h; cases h) (.nil _)⟩
        simp [h1, h2, h3, h4]
    · intro s seg rest h
      rw [parseAlternation] at h
      split at h
      · cases h
      · next ps s' hp =>
        simp only [Option.some.injEq, Prod.mk.injEq] at h
        obtain ⟨rfl, rfl⟩ := h
        obtain ⟨u, e, hu⟩ := i3 _ _ _ hp
        exact ⟨u ++ ['}'], by rw [e]; simp, .alternation hu (.nil _)⟩
    · intro s ps rest h
      rw [parseAlternatives] at h
      split at h
      · cases h
      next segs s1 hp =>
      split at h
      · cases h
      next hne =>
      have hne' : segs ≠ [] := by
        rintro rfl
        exact hne rfl
      obtain ⟨before, e0, hb⟩ := skipBlank_spec s
      obtain ⟨t, e1, ht⟩ := i4 _ _ _ hp
      obtain ⟨after, e2, ha⟩ := skipBlank_spec s1
      split at h
      · next s2 he =>
        split at h
        · cases h
        next more s3 hm =>
        simp only [Option.some.injEq, Prod.mk.injEq] at h
        obtain ⟨rfl, rfl⟩ := h
        obtain ⟨u, e3, hu⟩ := i3 _ _ _ hm
        refine ⟨_, ?_, .more before after hb ha hne' ht hu⟩
        rw [e0, e1, e2, he, e3]
        simp
      · next s2 he =>
        simp only [Option.some.injEq, Prod.mk.injEq] at h
        obtain ⟨rfl, rfl⟩ := h
        refine ⟨_, ?_, .one before after hb ha hne' ht⟩
        rw [e0, e1, e2, he]
        simp
      · cases h
    · intro s p rest h
      cases s with
      | nil =>
        simp only [parseAlternative, Option.some.injEq, Prod.mk.injEq] at h
        obtain ⟨rfl, rfl⟩ := h
        exact ⟨[], rfl, .nil _⟩
      | cons c s =>
        rw [parseAlternative] at h
        split at h
        · simp only [Option.some.injEq, Prod.mk.injEq] at h
          obtain ⟨rfl, rfl⟩ := h
          exact ⟨[], rfl, .nil _⟩
        next hc =>
        simp only [Bool.or_eq_true, decide_eq_true_eq, not_or, Bool.not_eq_true] at hc
        split at h
        · simp only [Option.some.injEq, Prod.mk.injEq] at h
          obtain ⟨rfl, rfl⟩ := h
          exact ⟨[], rfl, .nil _⟩
        next seg r hp =>
        split at h
        · cases h
        next segs r' hs =>
        simp only [Option.some.injEq, Prod.mk.injEq] at h
        obtain ⟨rfl, rfl⟩ := h
        obtain ⟨t, e1, ht⟩ := i1 _ _ _ hp
        obtain ⟨t', e2, ht'⟩ := i4 _ _ _ hs
        cases t with
        | nil => cases ht
        | cons d t =>
          injection e1 with e3 e4
          subst e3
          refine ⟨c :: t ++ t', by rw [e4, e2]; simp, ?_⟩
          exact written_append (written_nested ht (by simp [hc])) ht'

theorem parseSequence_sound (fuel n : Nat) (s : List Char) (segs : List Seg) (h : parseSequence fuel n s = some segs) :
    Written false segs s := by
  induction n generalizing s segs with
  | zero => simp [parseSequence] at h
  | succ n ih =>
    cases s with
    | nil =>
      simp only [parseSequence, Option.some.injEq] at h
      subst h
      exact .nil _
    | cons c s =>
      rw [parseSequence] at h
      split at h
      · cases h
      next seg rest hp =>
      split at h
      · cases h
      next segs' hs =>
      simp only [Option.some.injEq] at h
      subst h
      obtain ⟨t, e, ht⟩ := (parse_sound fuel).1 _ _ _ hp
      rw [e]
      exact written_append ht (ih _ _ hs)

theorem parse_spec {s : List Char} {segs : List Seg} (h : parse s = some segs) : Written false segs s ∧ segs ≠ [] := by
  unfold parse at h
  split at h
  · cases h
  next hne =>
  have hw := parseSequence_sound _ _ _ _ h
  refine ⟨hw, ?_⟩
  rintro rfl
  cases hw
  exact hne rfl

end Verif.Io.Glob
