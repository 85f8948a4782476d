import Verif.Io.GlobParse

/-!
# Lemmas about the expansion of glob patterns
-/

namespace Verif.Io.Glob

namespace Spec

/-- A character is one of a choice. -/
def In (c : Char) : Choice → Prop
  | .single d => c = d
  | .range first last => first ≤ c ∧ c ≤ last

/-- What a pattern matches: `*` anything, `?` one character, a class one of its characters, or none if negated, and an
alternation what one of its alternatives matches. -/
inductive Matches : List Seg → List Char → Prop
  | nil : Matches [] []
  | asterisk {segs : List Seg} {s : List Char} (u : List Char) (h : Matches segs s) : Matches (.asterisk :: segs) (u ++ s)
  | questionMark {segs : List Seg} {s : List Char} (c : Char) (h : Matches segs s) : Matches (.questionMark :: segs) (c :: s)
  | character {segs : List Seg} {s : List Char} (c : Char) (h : Matches segs s) : Matches (.character c :: segs) (c :: s)
  | characterClass {segs : List Seg} {s : List Char} {negated : Bool} {choices : List Choice} (c : Char)
      (hc : negated = false ↔ ∃ x ∈ choices, In c x) (h : Matches segs s) :
      Matches (.characterClass negated choices :: segs) (c :: s)
  | alternation {segs p : List Seg} {patterns : List (List Seg)} {s u : List Char} (hp : p ∈ patterns) (hu : Matches p u)
      (h : Matches segs s) : Matches (.alternation patterns :: segs) (u ++ s)

/-- The pattern with one alternative chosen in each alternation. -/
inductive Chosen : List Seg → List Seg → Prop
  | nil : Chosen [] []
  | keep {seg : Seg} {segs f : List Seg} (hs : ∀ ps, seg ≠ .alternation ps) (h : Chosen segs f) :
      Chosen (seg :: segs) (seg :: f)
  | alternation {p : List Seg} {patterns : List (List Seg)} {segs f g : List Seg} (hp : p ∈ patterns) (hf : Chosen p f)
      (hg : Chosen segs g) : Chosen (.alternation patterns :: segs) (f ++ g)

/-- The ranges of the classes go upwards, and no two asterisks come together. -/
def Fine (f : List Seg) : Prop :=
  (∀ negated choices, .characterClass negated choices ∈ f → ∀ a b, .range a b ∈ choices → a < b) ∧
  ∀ before after, f ≠ before ++ .asterisk :: .asterisk :: after

end Spec

open Spec

/-! ## Alternatives -/

theorem matches_append {a b : List Seg} {s t : List Char} (h : Matches a s) (h' : Matches b t) :
    Matches (a ++ b) (s ++ t) := by
  induction h with
  | nil => exact h'
  | asterisk u _ ih => rw [List.append_assoc]; exact .asterisk u ih
  | questionMark c _ ih => exact .questionMark c ih
  | character c _ ih => exact .character c ih
  | characterClass c hc _ ih => exact .characterClass c hc ih
  | alternation hp hu _ _ ih => rw [List.append_assoc]; exact .alternation hp hu ih

theorem matches_split {a b : List Seg} {s : List Char} (h : Matches (a ++ b) s) :
    ∃ u v, s = u ++ v ∧ Matches a u ∧ Matches b v := by
  induction a generalizing s with
  | nil => exact ⟨[], s, rfl, .nil, h⟩
  | cons x a ih =>
    rw [List.cons_append] at h
    cases h with
    | asterisk u h =>
      obtain ⟨v, w, rfl, h1, h2⟩ := ih h
      exact ⟨u ++ v, w, by simp, .asterisk u h1, h2⟩
    | questionMark c h =>
      obtain ⟨v, w, rfl, h1, h2⟩ := ih h
      exact ⟨c :: v, w, rfl, .questionMark c h1, h2⟩
    | character c h =>
      obtain ⟨v, w, rfl, h1, h2⟩ := ih h
      exact ⟨c :: v, w, rfl, .character c h1, h2⟩
    | characterClass c hc h =>
      obtain ⟨v, w, rfl, h1, h2⟩ := ih h
      exact ⟨c :: v, w, rfl, .characterClass c hc h1, h2⟩
    | alternation hp hu h =>
      obtain ⟨v, w, rfl, h1, h2⟩ := ih h
      exact ⟨_ ++ v, w, by simp, .alternation hp hu h1, h2⟩

theorem matches_chosen {segs : List Seg} {s : List Char} (h : Matches segs s) : ∃ f, Chosen segs f ∧ Matches f s := by
  induction h with
  | nil => exact ⟨[], .nil, .nil⟩
  | asterisk u _ ih =>
    obtain ⟨f, h1, h2⟩ := ih
    exact ⟨_ :: f, .keep (by simp) h1, .asterisk u h2⟩
  | questionMark c _ ih =>
    obtain ⟨f, h1, h2⟩ := ih
    exact ⟨_ :: f, .keep (by simp) h1, .questionMark c h2⟩
  | character c _ ih =>
    obtain ⟨f, h1, h2⟩ := ih
    exact ⟨_ :: f, .keep (by simp) h1, .character c h2⟩
  | characterClass c hc _ ih =>
    obtain ⟨f, h1, h2⟩ := ih
    exact ⟨_ :: f, .keep (by simp) h1, .characterClass c hc h2⟩
  | alternation hp _ _ ih1 ih2 =>
    obtain ⟨f, h1, h2⟩ := ih1
    obtain ⟨g, h3, h4⟩ := ih2
    exact ⟨f ++ g, .alternation hp h1 h3, matches_append h2 h4⟩

theorem chosen_matches {segs f : List Seg} (h : Chosen segs f) {s : List Char} (hm : Matches f s) : Matches segs s := by
  induction h generalizing s with
  | nil => exact hm
  | keep hs _ ih =>
    cases hm with
    | asterisk u h => exact .asterisk u (ih h)
    | questionMark c h => exact .questionMark c (ih h)
    | character c h => exact .character c (ih h)
    | characterClass c hc h => exact .characterClass c hc (ih h)
    | alternation hp => exact absurd rfl (hs _)
  | alternation hp _ _ ih1 ih2 =>
    obtain ⟨u, v, rfl, h1, h2⟩ := matches_split hm
    exact .alternation hp (ih1 h1) (ih2 h2)

/-- How a segment that is no alternation is expanded. -/
def write : Seg → List Char
  | .character c => [c]
  | .asterisk => ['*']
  | .questionMark => ['?']
  | .characterClass negated choices => expandClass negated choices
  | .alternation _ => []

theorem mem_product {acc x : List (List Char)} {e : List Char} :
    e ∈ product acc x ↔ ∃ y ∈ acc, ∃ z ∈ x, e = y ++ z := by
  unfold product
  simp only [List.mem_flatMap, List.mem_map]
  constructor
  · rintro ⟨y, hy, z, hz, rfl⟩
    exact ⟨y, hy, z, hz, rfl⟩
  · rintro ⟨y, hy, z, hz, rfl⟩
    exact ⟨y, hy, z, hz, rfl⟩

theorem expand_keep {seg : Seg} (h : ∀ ps, seg ≠ .alternation ps) : expand seg = [write seg] := by
  cases seg with
  | alternation ps => exact absurd rfl (h ps)
  | _ => simp [expand, write]

mutual

theorem mem_expandFrom (segs : List Seg) (acc : List (List Char)) (e : List Char) :
    e ∈ expandFrom acc segs ↔ ∃ y ∈ acc, ∃ f, Chosen segs f ∧ e = y ++ f.flatMap write := by
  match segs with
  | [] =>
    rw [expandFrom]
    constructor
    · intro h
      exact ⟨e, h, [], .nil, by simp⟩
    · rintro ⟨y, hy, f, hf, rfl⟩
      cases hf
      simpa using hy
  | seg :: segs =>
    rw [expandFrom, mem_expandFrom segs]
    match seg with
    | .alternation ps =>
      constructor
      · rintro ⟨y, hy, f, hf, rfl⟩
        obtain ⟨y', hy', z, hz, rfl⟩ := mem_product.1 hy
        rw [expand, mem_expandAll] at hz
        obtain ⟨p, hp, g, hg, rfl⟩ := hz
        exact ⟨y', hy', g ++ f, .alternation hp hg hf, by simp⟩
      · rintro ⟨y, hy, f, hf, rfl⟩
        cases hf with
        | keep hs => exact absurd rfl (hs _)
        | alternation hp hf hg =>
          refine ⟨_, mem_product.2 ⟨y, hy, _, ?_, rfl⟩, _, hg, by simp; rfl⟩
          rw [expand, mem_expandAll]
          exact ⟨_, hp, _, hf, rfl⟩
    | .asterisk | .questionMark | .character c | .characterClass n cs =>
      constructor
      · rintro ⟨y, hy, f, hf, rfl⟩
        obtain ⟨y', hy', z, hz, rfl⟩ := mem_product.1 hy
        rw [expand_keep (by simp), List.mem_singleton] at hz
        subst hz
        exact ⟨y', hy', _ :: f, .keep (by simp) hf, by simp⟩
      · rintro ⟨y, hy, f, hf, rfl⟩
        cases hf with
        | keep hs hf =>
          exact ⟨_, mem_product.2 ⟨y, hy, _, by rw [expand_keep (by simp)]; exact List.mem_singleton.2 rfl, rfl⟩, _, hf,
            by simp⟩

theorem mem_expandAll (ps : List (List Seg)) (e : List Char) :
    e ∈ expandAll ps ↔ ∃ p ∈ ps, ∃ f, Chosen p f ∧ e = f.flatMap write := by
  match ps with
  | [] => simp [expandAll]
  | p :: ps =>
    rw [expandAll, List.mem_append, mem_expandFrom p, mem_expandAll ps]
    constructor
    · rintro (⟨y, hy, f, hf, rfl⟩ | ⟨q, hq, f, hf, rfl⟩)
      · rw [List.mem_singleton] at hy
        subst hy
        exact ⟨p, by simp, f, hf, by simp⟩
      · exact ⟨q, by simp [hq], f, hf, rfl⟩
    · rintro ⟨q, hq, f, hf, rfl⟩
      rcases List.mem_cons.1 hq with rfl | hq
      · exact Or.inl ⟨[], by simp, f, hf, by simp⟩
      · exact Or.inr ⟨q, hq, f, hf, rfl⟩

end

/-! ## Classes -/

theorem char_le {a b : Char} : a ≤ b ↔ a.toNat ≤ b.toNat := Iff.rfl

theorem char_lt {a b : Char} : a < b ↔ a.toNat < b.toNat := Iff.rfl

theorem char_eq {a b : Char} : a = b ↔ a.toNat = b.toNat :=
  ⟨fun h => by rw [h], fun h => Char.toNat_inj.1 h⟩

/-- What one choice adds. -/
def one (x : Choice) : Collected := Collected.add ⟨[], false, false, false⟩ x

theorem add_eq (s : Collected) (x : Choice) : s.add x =
    ⟨s.normal ++ (one x).normal, s.exclamation || (one x).exclamation, s.hyphen || (one x).hyphen,
      s.bracket || (one x).bracket⟩ := by
  cases x with
  | single c =>
    by_cases h1 : c = '!'
    · subst h1; simp [one, Collected.add]
    by_cases h2 : c = '-'
    · subst h2; simp [one, Collected.add]
    by_cases h3 : c = ']'
    · subst h3; simp [one, Collected.add]
    · simp [one, Collected.add]
  | range a b =>
    simp only [one, Collected.add]
    split
    · simp
    · split
      · split <;> simp
      · split
        · split <;> simp
        · split
          · split <;> simp
          · simp

theorem foldl_add (xs : List Choice) (s : Collected) : xs.foldl Collected.add s =
    ⟨s.normal ++ xs.flatMap (fun x => (one x).normal), s.exclamation || xs.any (fun x => (one x).exclamation),
      s.hyphen || xs.any (fun x => (one x).hyphen), s.bracket || xs.any (fun x => (one x).bracket)⟩ := by
  induction xs generalizing s with
  | nil => simp
  | cons x xs ih => simp [ih, add_eq s x, Bool.or_assoc]

/-- The class that is collected is the same. -/
theorem one_in (c : Char) (x : Choice) (hx : ∀ a b, x = .range a b → a < b) :
    In c x ↔ (∃ y ∈ (one x).normal, In c y) ∨ ((one x).exclamation = true ∧ c = '!') ∨
      ((one x).hyphen = true ∧ c = '-') ∨ ((one x).bracket = true ∧ c = ']') := by
  cases x with
  | single d =>
    by_cases h1 : d = '!'
    · subst h1; simp [one, Collected.add, In]
    by_cases h2 : d = '-'
    · subst h2; simp [one, Collected.add, In]
    by_cases h3 : d = ']'
    · subst h3; simp [one, Collected.add, In]
    · simp [one, Collected.add, In]
  | range a b =>
    have hab := hx a b rfl
    simp only [one, Collected.add]
    have e1 : ('!' : Char).toNat = 33 := rfl
    have e2 : ('"' : Char).toNat = 34 := rfl
    have e3 : (']' : Char).toNat = 93 := rfl
    have e4 : ('\\' : Char).toNat = 92 := rfl
    have e5 : ('^' : Char).toNat = 94 := rfl
    split
    · next h =>
      obtain ⟨rfl, rfl⟩ := h
      simp [In, char_le, char_eq]
      omega
    · split
      · next h =>
        subst h
        rw [if_pos hab]
        simp [In, char_le, char_eq]
        rw [char_lt] at hab
        omega
      · split
        · next h =>
          subst h
          rw [if_pos hab]
          simp [In, char_le, char_eq]
          rw [char_lt] at hab
          omega
        · split
          · next h =>
            subst h
            rw [if_pos hab]
            simp [In, char_le, char_eq]
            rw [char_lt] at hab
            omega
          · simp [In]


/-- What is collected for ranges and characters. -/
theorem one_single (c : Char) (h1 : c ≠ '!') (h2 : c ≠ '-') (h3 : c ≠ ']') : one (.single c) = ⟨[.single c], false, false, false⟩ := by
  simp [one, Collected.add]

theorem one_range (a b : Char) (h : a < b) : ∃ a' b', (one (.range a b)).normal = [.range a' b'] ∧ a' ≠ '!' ∧ a' ≠ ']' ∧
    b' ≠ ']' ∧ (a' = '-' → a = '-') ∧ (a ≠ ']' → b ≠ ']' → (one (.range a b)).bracket = false) ∧ (a = ']' → a' = '^') := by
  simp only [one, Collected.add]
  have e1 : ('!' : Char).toNat = 33 := rfl
  have e3 : (']' : Char).toNat = 93 := rfl
  split
  · next h' =>
    obtain ⟨rfl, rfl⟩ := h'
    exact ⟨'"', '\\', rfl, by decide, by decide, by decide, by decide, by simp, by decide⟩
  next hn =>
  split
  · next h' =>
    subst h'
    rw [if_pos h]
    refine ⟨'"', b, rfl, by decide, by decide, ?_, by decide, by simp, by decide⟩
    rintro rfl
    exact hn ⟨rfl, rfl⟩
  next h1 =>
  split
  · next h' =>
    subst h'
    rw [if_pos h]
    refine ⟨'^', b, rfl, by decide, by decide, ?_, by decide, by simp, by simp⟩
    rintro rfl
    exact absurd h (by decide)
  next h2 =>
  split
  · next h' =>
    subst h'
    rw [if_pos h]
    exact ⟨a, '\\', rfl, h1, h2, by decide, fun h => h, by simp, fun h => absurd h h2⟩
  next h3 => exact ⟨a, b, rfl, h1, h2, h3, fun h => h, by simp, fun h => absurd h h2⟩

/-- The choices that are written between the special characters. -/
def norm (xs : List Choice) : List Choice := xs.flatMap fun x => (one x).normal

/-- All ranges of the class go upwards. -/
def Up (xs : List Choice) : Prop := ∀ a b, .range a b ∈ xs → a < b

theorem up_tail {x : Choice} {xs : List Choice} (h : Up (x :: xs)) : Up xs := fun a b hm => h a b (List.mem_cons_of_mem _ hm)

theorem norm_cons (x : Choice) (xs : List Choice) : norm (x :: xs) = (one x).normal ++ norm xs := rfl

theorem norm_shape {xs : List Choice} (h : Up xs) : ∀ y ∈ norm xs,
    (∃ c, y = .single c ∧ c ≠ '!' ∧ c ≠ '-' ∧ c ≠ ']') ∨ ∃ a b, y = .range a b ∧ a ≠ '!' ∧ a ≠ ']' ∧ b ≠ ']' := by
  intro y hy
  obtain ⟨x, hx, hy⟩ := List.mem_flatMap.1 hy
  cases x with
  | single c =>
    by_cases h1 : c = '!'
    · subst h1; simp [one, Collected.add] at hy
    by_cases h2 : c = '-'
    · subst h2; simp [one, Collected.add] at hy
    by_cases h3 : c = ']'
    · subst h3; simp [one, Collected.add] at hy
    rw [one_single c h1 h2 h3] at hy
    simp only [List.mem_singleton] at hy
    exact Or.inl ⟨c, hy, h1, h2, h3⟩
  | range a b =>
    obtain ⟨a', b', e, h1, h2, h3, _⟩ := one_range a b (h a b hx)
    rw [e, List.mem_singleton] at hy
    exact Or.inr ⟨a', b', hy, h1, h2, h3⟩

theorem norm_head {xs : List Choice} {t : List Char} (h : ClassText xs t) (hup : Up xs) (b : Char) (ys : List Choice)
    (hn : norm xs = .range '-' b :: ys) : ∃ c r, t = '-' :: '-' :: c :: r := by
  induction h generalizing ys with
  | nil => cases hn
  | range a c _ ih =>
    obtain ⟨a', b', e, _, _, _, h4, _⟩ := one_range a c (hup a c (by simp))
    rw [norm_cons, e, List.singleton_append, List.cons.injEq, Choice.range.injEq] at hn
    rw [h4 hn.1.1]
    exact ⟨c, _, rfl⟩
  | single a hno h ih =>
    rw [norm_cons] at hn
    cases ho : (one (.single a)).normal with
    | nil =>
      rw [ho, List.nil_append] at hn
      obtain ⟨c, r, rfl⟩ := ih (up_tail hup) ys hn
      exact absurd rfl (hno _ _)
    | cons y l =>
      have hs : a ≠ '!' ∧ a ≠ '-' ∧ a ≠ ']' := by
        refine ⟨?_, ?_, ?_⟩ <;> · rintro rfl; simp [one, Collected.add] at ho
      rw [one_single a hs.1 hs.2.1 hs.2.2, List.singleton_append, List.cons.injEq] at hn
      cases hn.1

/-- What is written is not read as a range that begins with the character before it. -/
theorem norm_text_head {xs : List Choice} {t : List Char} (h : ClassText xs t) (hup : Up xs) (tail : List Char)
    (ht : ∀ b r, tail ≠ '-' :: b :: r) (hno : ∀ b r, t ≠ '-' :: b :: r) :
    ∀ b r, (norm xs).flatMap Choice.write ++ tail ≠ '-' :: b :: r := by
  intro b r e
  cases hn : norm xs with
  | nil =>
    rw [hn] at e
    exact ht b r e
  | cons y ys =>
    rw [hn] at e
    rcases norm_shape hup y (by rw [hn]; simp) with ⟨c, rfl, _, hc, _⟩ | ⟨a', b', rfl, _⟩
    · simp only [List.flatMap_cons, Choice.write, List.cons_append, List.cons.injEq] at e
      exact hc e.1
    · simp only [List.flatMap_cons, Choice.write, List.cons_append, List.cons.injEq] at e
      obtain ⟨rfl, _⟩ := e
      obtain ⟨c, r', rfl⟩ := norm_head h hup b' ys hn
      exact hno _ _ rfl

theorem parse_norm {xs : List Choice} {t : List Char} (h : ClassText xs t) (hup : Up xs) (tail : List Char)
    (ht : ∀ b r, tail ≠ '-' :: b :: r) :
    parseChoices ((norm xs).flatMap Choice.write ++ tail) = norm xs ++ parseChoices tail := by
  induction h with
  | nil => rfl
  | range a c _ ih =>
    obtain ⟨a', b', e, _⟩ := one_range a c (hup a c (by simp))
    rw [norm_cons, e]
    simp only [List.flatMap_cons, Choice.write, List.cons_append, List.nil_append]
    rw [parseChoices_range, ih (up_tail hup)]
  | single a hno h ih =>
    rw [norm_cons]
    cases ho : (one (.single a)).normal with
    | nil => exact ih (up_tail hup)
    | cons y l =>
      have hs : a ≠ '!' ∧ a ≠ '-' ∧ a ≠ ']' := by
        refine ⟨?_, ?_, ?_⟩ <;> · rintro rfl; simp [one, Collected.add] at ho
      rw [← ho, one_single a hs.1 hs.2.1 hs.2.2]
      simp only [List.flatMap_cons, Choice.write, List.cons_append, List.nil_append]
      rw [parseChoices_single a _ (norm_text_head h (up_tail hup) tail ht hno), ih (up_tail hup)]

theorem bracket_false {xs : List Choice} {t : List Char} (h : ClassText xs t) (hup : Up xs) (ht : ']' ∉ t) :
    (xs.any fun x => (one x).bracket) = false := by
  induction h with
  | nil => rfl
  | range a c _ ih =>
    simp only [List.mem_cons, not_or] at ht
    obtain ⟨a', b', _, _, _, _, _, hb, _⟩ := one_range a c (hup a c (by simp))
    rw [List.any_cons, hb (fun e => ht.1 e.symm) (fun e => ht.2.2.1 e.symm), ih (up_tail hup) ht.2.2.2]
    rfl
  | single a hno h ih =>
    simp only [List.mem_cons, not_or] at ht
    rw [List.any_cons, ih (up_tail hup) ht.2, Bool.or_false]
    by_cases h1 : a = '!'
    · subst h1; simp [one, Collected.add]
    by_cases h2 : a = '-'
    · subst h2; simp [one, Collected.add]
    · rw [one_single a h1 h2 (fun e => ht.1 e.symm)]

theorem bracket_head {xs : List Choice} {first : Char} {inner : List Char} (h : ClassText xs (first :: inner)) (hup : Up xs)
    (hi : ']' ∉ inner) (hb : (xs.any fun x => (one x).bracket) = true) (tail : List Char)
    (ht : ∀ b r, tail ≠ '-' :: b :: r) : ∀ b r, (norm xs).flatMap Choice.write ++ tail ≠ '-' :: b :: r := by
  cases h with
  | @range a c cs t h =>
    obtain ⟨a', b', e, h1, h2, h3, h4, h5, h6⟩ := one_range first c (hup first c (by simp))
    intro b r he
    rw [norm_cons, e] at he
    simp only [List.flatMap_cons, Choice.write, List.cons_append, List.cons.injEq] at he
    obtain ⟨rfl, _⟩ := he
    have hf : first ≠ ']' := fun h => absurd (h6 h) (by decide)
    simp only [List.mem_cons, not_or] at hi
    rw [List.any_cons, h5 hf (fun e => hi.2.1 e.symm), bracket_false h (up_tail hup) hi.2.2] at hb
    cases hb
  | single a hno h =>
    have h0 := bracket_false h (up_tail hup) hi
    rw [List.any_cons, h0, Bool.or_false] at hb
    have hf : first = ']' := by
      refine Decidable.byContradiction fun hf => ?_
      by_cases h1 : first = '!'
      · subst h1; simp [one, Collected.add] at hb
      by_cases h2 : first = '-'
      · subst h2; simp [one, Collected.add] at hb
      · rw [one_single first h1 h2 hf] at hb
        cases hb
    subst hf
    rw [norm_cons, show (one (.single ']')).normal = [] by rfl]
    exact norm_text_head h (up_tail hup) tail ht hno

theorem in_norm (xs : List Choice) (hup : Up xs) (c : Char) : (∃ x ∈ xs, In c x) ↔
    (∃ y ∈ norm xs, In c y) ∨ ((xs.any fun x => (one x).exclamation) = true ∧ c = '!') ∨
      ((xs.any fun x => (one x).hyphen) = true ∧ c = '-') ∨ ((xs.any fun x => (one x).bracket) = true ∧ c = ']') := by
  induction xs with
  | nil => simp [norm]
  | cons x xs ih =>
    have h1 := one_in c x (fun a b e => hup a b (by simp [e]))
    have h2 := ih (up_tail hup)
    have h3 : (∃ y ∈ x :: xs, In c y) ↔ In c x ∨ ∃ y ∈ xs, In c y := by simp
    simp only [norm_cons, List.mem_append, List.any_cons, Bool.or_eq_true]
    rw [h3, h1, h2]
    constructor
    · rintro ((⟨y, hy, h⟩ | h | h | h) | (⟨y, hy, h⟩ | h | h | h))
      · exact Or.inl ⟨y, Or.inl hy, h⟩
      · exact Or.inr (Or.inl ⟨Or.inl h.1, h.2⟩)
      · exact Or.inr (Or.inr (Or.inl ⟨Or.inl h.1, h.2⟩))
      · exact Or.inr (Or.inr (Or.inr ⟨Or.inl h.1, h.2⟩))
      · exact Or.inl ⟨y, Or.inr hy, h⟩
      · exact Or.inr (Or.inl ⟨Or.inr h.1, h.2⟩)
      · exact Or.inr (Or.inr (Or.inl ⟨Or.inr h.1, h.2⟩))
      · exact Or.inr (Or.inr (Or.inr ⟨Or.inr h.1, h.2⟩))
    · rintro (⟨y, hy | hy, h⟩ | ⟨h | h, h'⟩ | ⟨h | h, h'⟩ | ⟨h | h, h'⟩)
      · exact Or.inl (Or.inl ⟨y, hy, h⟩)
      · exact Or.inr (Or.inl ⟨y, hy, h⟩)
      · exact Or.inl (Or.inr (Or.inl ⟨h, h'⟩))
      · exact Or.inr (Or.inr (Or.inl ⟨h, h'⟩))
      · exact Or.inl (Or.inr (Or.inr (Or.inl ⟨h, h'⟩)))
      · exact Or.inr (Or.inr (Or.inr (Or.inl ⟨h, h'⟩)))
      · exact Or.inl (Or.inr (Or.inr (Or.inr ⟨h, h'⟩)))
      · exact Or.inr (Or.inr (Or.inr (Or.inr ⟨h, h'⟩)))

theorem any_has (xs : List Choice) (c : Char) : xs.any (Choice.has c) = true ↔ ∃ x ∈ xs, In c x := by
  rw [List.any_eq_true]
  refine exists_congr fun x => and_congr_right fun _ => ?_
  cases x <;> simp [Choice.has, In]

/-- The characters of a token. -/
def Token.Has (c : Char) : Token → Prop
  | .char d => c = d
  | .anyWithin cs => ∃ x ∈ cs, In c x
  | .anyExcept cs => ¬ ∃ x ∈ cs, In c x
  | _ => False

theorem match_has (tok : Token) (ts : List Token) (s : List Char) (ht : (∃ c, tok = .char c) ∨ (∃ cs, tok = .anyWithin cs) ∨
    ∃ cs, tok = .anyExcept cs) : Match (tok :: ts) s ↔ ∃ c r, s = c :: r ∧ tok.Has c ∧ Match ts r := by
  rcases ht with ⟨c, rfl⟩ | ⟨cs, rfl⟩ | ⟨cs, rfl⟩
  · simp only [Match, Token.Has]
    constructor
    · rintro ⟨r, rfl, h⟩
      exact ⟨c, r, rfl, rfl, h⟩
    · rintro ⟨d, r, rfl, rfl, h⟩
      exact ⟨r, rfl, h⟩
  · simp only [Match, Token.Has, any_has]
  · simp only [Match, Token.Has]
    refine exists_congr fun c => exists_congr fun r => and_congr_right fun _ => and_congr_left fun _ => ?_
    rw [← any_has, Bool.not_eq_true]

/-- The special characters at the end of a class. -/
theorem tail_text (e h : Bool) : (∀ b r, (if e then ['!'] else []) ++ (if h then ['-'] else []) ≠ '-' :: b :: r) ∧
    parseChoices ((if e then ['!'] else []) ++ (if h then ['-'] else [])) =
      (if e then [Choice.single '!'] else []) ++ (if h then [Choice.single '-'] else []) := by
  cases e <;> cases h <;> simp [parseChoices]

/-- How a class is written from what is collected. -/
def writeClass (negated : Bool) (N : List Choice) (E H B : Bool) : List Char :=
  if (N.isEmpty && !B && !negated) = true then
    match E, H with
    | true, true => "[-!]".toList
    | true, false => "!".toList
    | false, true => "-".toList
    | false, false => []
  else
    '[' :: (if negated then ['!'] else []) ++ (if B then [']'] else []) ++ N.flatMap Choice.write ++
      (if E then ['!'] else []) ++ (if H then ['-'] else []) ++ [']']

theorem expandClass_eq (negated : Bool) (xs : List Choice) : expandClass negated xs =
    writeClass negated (norm xs) (xs.any fun x => (one x).exclamation) (xs.any fun x => (one x).hyphen)
      (xs.any fun x => (one x).bracket) := by
  unfold expandClass writeClass
  rw [foldl_add]
  rfl

theorem bracket_within (c : Char) (inner rest : List Char) (hc : c ≠ '!') (hi : ']' ∉ inner) :
    bracket (c :: (inner ++ ']' :: rest)) = some (.anyWithin (parseChoices (c :: inner)), rest) := by
  unfold bracket
  simp only
  rw [if_neg hc, untilBracket_of _ _ hi]
  rfl

theorem bracket_except (c : Char) (inner rest : List Char) (hi : ']' ∉ inner) :
    bracket ('!' :: c :: (inner ++ ']' :: rest)) = some (.anyExcept (parseChoices (c :: inner)), rest) := by
  unfold bracket
  simp only
  rw [if_pos trivial, untilBracket_of _ _ hi]
  rfl

/-- A class is one token with the same characters. -/
theorem tokens_class (negated : Bool) (xs : List Choice) (first : Char) (inner : List Char)
    (h : ClassText xs (first :: inner)) (hi : ']' ∉ inner) (hup : Up xs) :
    ∃ tok p, ((∃ c, tok = .char c) ∨ (∃ cs, tok = .anyWithin cs) ∨ ∃ cs, tok = .anyExcept cs) ∧
      (∀ n prev rest, tokens (n + 1) prev (expandClass negated xs ++ rest) = (tokens n p rest).map (tok :: ·)) ∧
      (∀ c, tok.Has c ↔ (negated = false ↔ ∃ x ∈ xs, In c x)) ∧
      ∃ c r, expandClass negated xs = c :: r ∧ c ≠ '*' := by
  have hin := in_norm xs hup
  have hshape := norm_shape hup
  have hparse := parse_norm h hup
  have hbr := bracket_head h hup hi
  have hne : norm xs ≠ [] ∨ (xs.any fun x => (one x).exclamation) = true ∨ (xs.any fun x => (one x).hyphen) = true ∨
      (xs.any fun x => (one x).bracket) = true := by
    have : ∃ c, ∃ x ∈ xs, In c x := by
      cases h with
      | range a b h =>
        have := hup first b (by simp)
        rw [char_lt] at this
        exact ⟨first, .range first b, by simp, by simp only [In, char_le]; omega⟩
      | single a _ h => exact ⟨first, .single first, by simp, rfl⟩
    obtain ⟨c, hc⟩ := this
    rcases (hin c).1 hc with ⟨y, hy, _⟩ | h | h | h
    · left
      intro e
      rw [e] at hy
      cases hy
    · exact Or.inr (Or.inl h.1)
    · exact Or.inr (Or.inr (Or.inl h.1))
    · exact Or.inr (Or.inr (Or.inr h.1))
  rw [expandClass_eq]
  generalize (xs.any fun x => (one x).exclamation) = E at *
  generalize (xs.any fun x => (one x).hyphen) = H at *
  generalize (xs.any fun x => (one x).bracket) = B at *
  generalize hN : norm xs = N at *
  unfold writeClass
  by_cases hsp : (N.isEmpty && !B && !negated) = true
  · rw [if_pos hsp]
    simp only [Bool.and_eq_true, List.isEmpty_iff, Bool.not_eq_eq_eq_not, Bool.not_true] at hsp
    obtain ⟨⟨rfl, rfl⟩, rfl⟩ := hsp
    match E, H, hne with
    | true, true, _ =>
      refine ⟨.anyWithin [.single '-', .single '!'], some ']', Or.inr (Or.inl ⟨_, rfl⟩), ?_, ?_, _, _, rfl, by decide⟩
      · intro n prev rest
        change tokens (n + 1) prev ('[' :: '-' :: (['!'] ++ ']' :: rest)) = _
        simp only [tokens, bracket_within '-' ['!'] rest (by decide) (by decide)]
        simp [parseChoices]
      · intro c
        simp only [Token.Has, hin c]
        simp [In, or_comm]
    | true, false, _ =>
      refine ⟨.char '!', some '!', Or.inl ⟨_, rfl⟩, ?_, ?_, _, _, rfl, by decide⟩
      · intro n prev rest
        rfl
      · intro c
        simp only [Token.Has, hin c]
        simp
    | false, true, _ =>
      refine ⟨.char '-', some '-', Or.inl ⟨_, rfl⟩, ?_, ?_, _, _, rfl, by decide⟩
      · intro n prev rest
        rfl
      · intro c
        simp only [Token.Has, hin c]
        simp
    | false, false, h => simp at h
  · rw [if_neg hsp]
    obtain ⟨ht1, ht2⟩ := tail_text E H
    generalize hT : (if E = true then ['!'] else []) ++ (if H = true then ['-'] else []) = T at ht1 ht2
    generalize hTc : (if E = true then [Choice.single '!'] else []) ++ (if H = true then [Choice.single '-'] else []) = Tc
      at ht2
    have hread : parseChoices ((if B then [']'] else []) ++ N.flatMap Choice.write ++ T) =
        (if B then [.single ']'] else []) ++ N ++ Tc := by
      cases B with
      | false => simpa [ht2] using hparse T ht1
      | true =>
        have := hbr rfl T ht1
        simp only [if_true, List.cons_append, List.nil_append]
        rw [parseChoices_single _ _ this, hparse T ht1, ht2]
    have hset : ∀ c, (∃ x ∈ (if B then [.single ']'] else []) ++ N ++ Tc, In c x) ↔ ∃ x ∈ xs, In c x := by
      intro c
      rw [hin c, ← hTc]
      cases B <;> cases E <;> cases H <;> simp [In, or_comm, or_left_comm, or_and_right, exists_or]
    have hnb : ']' ∉ N.flatMap Choice.write ++ T := by
      intro hm
      rcases List.mem_append.1 hm with hm | hm
      · obtain ⟨y, hy, hm⟩ := List.mem_flatMap.1 hm
        rcases hshape y hy with ⟨c, rfl, _, _, hc⟩ | ⟨a, b, rfl, _, ha, hb⟩
        · simp only [Choice.write, List.mem_singleton] at hm
          exact hc hm.symm
        · simp only [Choice.write, List.mem_cons, List.not_mem_nil, or_false] at hm
          rcases hm with hm | hm | hm
          · exact ha hm.symm
          · exact absurd hm (by decide)
          · exact hb hm.symm
      · rw [← hT] at hm
        revert hm
        cases E <;> cases H <;> decide
    have hbody : ∃ c0 b1, (if B then [']'] else []) ++ N.flatMap Choice.write ++ T = c0 :: b1 ∧ ']' ∉ b1 ∧
        (negated = false → c0 ≠ '!') := by
      cases B with
      | true => exact ⟨']', _, rfl, hnb, fun _ => by decide⟩
      | false =>
        cases hNN : N with
        | nil =>
          subst hNN
          have hneg : negated = true := by
            cases negated with
            | true => rfl
            | false => simp at hsp
          cases hTT : T with
          | nil =>
            rw [hTT] at hT
            revert hT hne
            cases E <;> cases H <;> simp
          | cons c0 b1 =>
            refine ⟨c0, b1, rfl, ?_, fun h => by rw [hneg] at h; cases h⟩
            intro hm
            exact hnb (by rw [hTT]; simp [hm])
        | cons y ys =>
          rw [hNN] at hnb
          rcases hshape y (by rw [hNN]; simp) with ⟨c, rfl, hc, _⟩ | ⟨a, b, rfl, ha, _⟩
          · refine ⟨c, _, rfl, ?_, fun _ => hc⟩
            intro hm
            exact hnb (List.mem_cons_of_mem _ hm)
          · refine ⟨a, _, rfl, ?_, fun _ => ha⟩
            intro hm
            exact hnb (List.mem_cons_of_mem _ hm)
    obtain ⟨c0, b1, hb1, hb2, hb3⟩ := hbody
    have htext : ∀ rest, ('[' :: (if negated then ['!'] else []) ++ (if B then [']'] else []) ++ N.flatMap Choice.write ++
        (if E then ['!'] else []) ++ (if H then ['-'] else []) ++ [']']) ++ rest =
        '[' :: ((if negated then ['!'] else []) ++ c0 :: (b1 ++ ']' :: rest)) := by
      intro rest
      have : (if B then [']'] else []) ++ N.flatMap Choice.write ++ ((if E then ['!'] else []) ++ (if H then ['-'] else [])) =
          c0 :: b1 := by rw [hT, hb1]
      have h2 : '[' :: ((if negated then ['!'] else []) ++ (((if B then [']'] else []) ++ N.flatMap Choice.write ++
        ((if E then ['!'] else []) ++ (if H then ['-'] else []))) ++ ']' :: rest)) =
        '[' :: ((if negated then ['!'] else []) ++ c0 :: (b1 ++ ']' :: rest)) := by rw [this]; rfl
      rw [← h2]
      simp
    rw [hb1] at hread
    cases negated with
    | true =>
      refine ⟨.anyExcept (parseChoices (c0 :: b1)), some ']', Or.inr (Or.inr ⟨_, rfl⟩), ?_, ?_, '[', _, rfl, by decide⟩
      · intro n prev rest
        rw [htext]
        change tokens (n + 1) prev ('[' :: '!' :: c0 :: (b1 ++ ']' :: rest)) = _
        simp only [tokens, bracket_except c0 b1 rest hb2]
      · intro c
        simp only [Token.Has, hread, hset c]
        simp
    | false =>
      refine ⟨.anyWithin (parseChoices (c0 :: b1)), some ']', Or.inr (Or.inl ⟨_, rfl⟩), ?_, ?_, '[', _, rfl, by decide⟩
      · intro n prev rest
        rw [htext]
        change tokens (n + 1) prev ('[' :: c0 :: (b1 ++ ']' :: rest)) = _
        simp only [tokens, bracket_within c0 b1 rest (hb3 rfl) hb2]
      · intro c
        simp only [Token.Has, hread, hset c]
        simp

/-! ## Patterns without alternation -/

/-- What the parser makes of a segment. -/
def SegOk : Seg → Prop
  | .character c => c ∉ ['*', '?', '[', '{']
  | .characterClass _ xs => ∃ first inner, ClassText xs (first :: inner) ∧ ']' ∉ inner
  | .alternation _ => False
  | _ => True

theorem fine_tail {x : Seg} {f : List Seg} (h : Fine (x :: f)) : Fine f := by
  refine ⟨fun n cs hm => h.1 n cs (List.mem_cons_of_mem _ hm), fun before after e => h.2 (x :: before) after ?_⟩
  rw [e]
  rfl

theorem tokens_star (n : Nat) (prev : Option Char) (t : List Char) (ht : ∀ r, t ≠ '*' :: r) :
    tokens (n + 1) prev ('*' :: t) = (tokens n (some '*') t).map (.anySequence :: ·) := by
  rw [tokens]
  · intro tail e
    exact ht _ e
  · intro tail e
    exact ht _ e

theorem tokens_char (n : Nat) (prev : Option Char) (c : Char) (t : List Char) (hc : c ∉ ['*', '?', '[', '{']) :
    tokens (n + 1) prev (c :: t) = (tokens n (some c) t).map (.char c :: ·) := by
  simp only [List.mem_cons, List.not_mem_nil, or_false, not_or] at hc
  rw [tokens]
  · exact hc.2.1
  · exact hc.1
  · exact hc.2.2.1

theorem write_head {seg : Seg} (h : SegOk seg) (hup : ∀ n xs, seg = .characterClass n xs → Up xs)
    (hs : seg ≠ .asterisk) : ∃ c r, write seg = c :: r ∧ c ≠ '*' := by
  cases seg with
  | asterisk => exact absurd rfl hs
  | questionMark => exact ⟨_, _, rfl, by decide⟩
  | character c =>
    simp only [SegOk, List.mem_cons, List.not_mem_nil, or_false, not_or] at h
    exact ⟨_, _, rfl, h.1⟩
  | characterClass n xs =>
    obtain ⟨first, inner, h1, h2⟩ := h
    obtain ⟨_, _, _, _, _, h⟩ := tokens_class n xs first inner h1 h2 (hup n xs rfl)
    exact h
  | alternation => exact h.elim

theorem tokens_flat (f : List Seg) (hok : ∀ seg ∈ f, SegOk seg) (hfine : Fine f) (n : Nat) (prev : Option Char)
    (hn : (f.flatMap write).length < n) :
    ∃ ts, tokens n prev (f.flatMap write) = some ts ∧ ∀ s, Match ts s ↔ Matches f s := by
  induction f generalizing n prev with
  | nil =>
    cases n with
    | zero => omega
    | succ n =>
      refine ⟨[], rfl, fun s => ?_⟩
      simp only [Match]
      constructor
      · rintro rfl
        exact .nil
      · intro h
        cases h
        rfl
  | cons seg f ih =>
    cases n with
    | zero => omega
    | succ n =>
      have hok' : ∀ seg ∈ f, SegOk seg := fun x hx => hok x (List.mem_cons_of_mem _ hx)
      have hseg := hok seg (by simp)
      simp only [List.flatMap_cons, List.length_append] at hn ⊢
      cases seg with
      | asterisk =>
        have ht : ∀ r, f.flatMap write ≠ '*' :: r := by
          intro r e
          cases f with
          | nil => cases e
          | cons x f =>
            by_cases hx : x = .asterisk
            · subst hx
              exact hfine.2 [] f rfl
            · obtain ⟨c, r', e', hc⟩ := write_head (hok' x (by simp))
                (fun n xs e a b hm => hfine.1 n xs (by simp [e]) a b hm) hx
              rw [List.flatMap_cons, e', List.cons_append] at e
              injection e with e
              exact hc e
        obtain ⟨ts, h1, h2⟩ := ih hok' (fine_tail hfine) n (some '*') (by simp only [write, List.length_singleton] at hn; omega)
        refine ⟨.anySequence :: ts, ?_, fun s => ?_⟩
        · change tokens (n + 1) prev ('*' :: f.flatMap write) = _
          rw [tokens_star n prev _ ht, h1]
          rfl
        · simp only [Match]
          constructor
          · rintro ⟨u, r, rfl, h⟩
            exact .asterisk u ((h2 r).1 h)
          · intro h
            cases h with
            | asterisk u h => exact ⟨u, _, rfl, (h2 _).2 h⟩
      | questionMark =>
        obtain ⟨ts, h1, h2⟩ := ih hok' (fine_tail hfine) n (some '?') (by simp only [write, List.length_singleton] at hn; omega)
        refine ⟨.anyChar :: ts, ?_, fun s => ?_⟩
        · change tokens (n + 1) prev ('?' :: f.flatMap write) = _
          rw [tokens, h1]
          rfl
        · simp only [Match]
          constructor
          · rintro ⟨c, r, rfl, h⟩
            exact .questionMark c ((h2 r).1 h)
          · intro h
            cases h with
            | questionMark c h => exact ⟨c, _, rfl, (h2 _).2 h⟩
      | character c =>
        obtain ⟨ts, h1, h2⟩ := ih hok' (fine_tail hfine) n (some c) (by simp only [write, List.length_singleton] at hn; omega)
        refine ⟨.char c :: ts, ?_, fun s => ?_⟩
        · change tokens (n + 1) prev (c :: f.flatMap write) = _
          rw [tokens_char n prev c _ hseg, h1]
          rfl
        · simp only [Match]
          constructor
          · rintro ⟨r, rfl, h⟩
            exact .character c ((h2 r).1 h)
          · intro h
            cases h with
            | character c h => exact ⟨_, rfl, (h2 _).2 h⟩
      | characterClass negated xs =>
        obtain ⟨first, inner, hc1, hc2⟩ := hseg
        obtain ⟨tok, p, k1, k2, k3, c, r, k4, _⟩ := tokens_class negated xs first inner hc1 hc2
          (fun a b hm => hfine.1 negated xs (by simp) a b hm)
        obtain ⟨ts, h1, h2⟩ := ih hok' (fine_tail hfine) n p (by
          simp only [write, k4, List.length_cons] at hn
          omega)
        refine ⟨tok :: ts, ?_, fun s => ?_⟩
        · simp only [write]
          rw [k2, h1]
          rfl
        · rw [match_has tok ts s k1]
          constructor
          · rintro ⟨c, r, rfl, hc, h⟩
            exact .characterClass c ((k3 c).1 hc) ((h2 r).1 h)
          · intro h
            cases h with
            | characterClass c hc h => exact ⟨c, _, rfl, (k3 c).2 hc, (h2 _).2 h⟩
      | alternation => exact hseg.elim

theorem alternatives_written {ps : List (List Seg)} {u : List Char} (h : Alternatives ps u) {p : List Seg} (hp : p ∈ ps) :
    ∃ t, Written true p t := by
  induction ps generalizing u with
  | nil => cases hp
  | cons q ps ih =>
    cases h with
    | one _ _ _ _ _ h =>
      rw [List.mem_singleton] at hp
      subst hp
      exact ⟨_, h⟩
    | more _ _ _ _ _ h hu =>
      rcases List.mem_cons.1 hp with e | hp
      · subst e
        exact ⟨_, h⟩
      · exact ih hu hp

theorem chosen_ok {segs f : List Seg} (hf : Chosen segs f) {nested : Bool} {t : List Char} (h : Written nested segs t) :
    ∀ seg ∈ f, SegOk seg := by
  induction hf generalizing nested t with
  | nil => simp
  | keep hs _ ih =>
    intro x hx
    cases h with
    | asterisk h =>
      rcases List.mem_cons.1 hx with rfl | hx
      · trivial
      · exact ih h x hx
    | questionMark h =>
      rcases List.mem_cons.1 hx with rfl | hx
      · trivial
      · exact ih h x hx
    | character c hc _ h =>
      rcases List.mem_cons.1 hx with rfl | hx
      · exact hc
      · exact ih h x hx
    | characterClass _ first inner hc hi _ h =>
      rcases List.mem_cons.1 hx with rfl | hx
      · exact ⟨first, inner, hc, hi⟩
      · exact ih h x hx
    | alternation => exact absurd rfl (hs _)
  | alternation hp _ _ ih1 ih2 =>
    cases h with
    | alternation ha h =>
      intro x hx
      rcases List.mem_append.1 hx with hx | hx
      · obtain ⟨t, ht⟩ := alternatives_written ha hp
        exact ih1 ht x hx
      · exact ih2 h x hx

/-! ## Paths -/

theorem splitLoop_spec (pre part s : List Char) :
    (splitLoop pre part s).1 ++ (splitLoop pre part s).2 = pre ++ part ++ s := by
  induction s generalizing pre part with
  | nil => simp [splitLoop]
  | cons c s ih =>
    rw [splitLoop]
    split
    · rw [ih]; simp
    · split
      · simp
      · rw [ih]; simp

theorem splitLoop_prefix (pre part s : List Char) (hp : ∀ c ∈ pre ++ part, c ∉ ['*', '?', '[']) :
    ∀ c ∈ (splitLoop pre part s).1, c ∉ ['*', '?', '['] := by
  induction s generalizing pre part with
  | nil => simpa [splitLoop] using hp
  | cons d s ih =>
    rw [splitLoop]
    split
    · next hd =>
      refine ih _ _ ?_
      intro c hc
      simp only [List.append_nil, List.mem_append, List.mem_singleton] at hc
      rcases hc with hc | rfl
      · exact hp c (List.mem_append.2 hc)
      · simp only [Bool.or_eq_true, decide_eq_true_eq] at hd
        rcases hd with rfl | rfl <;> decide
    · split
      · intro c hc
        exact hp c (List.mem_append_left _ hc)
      · next hd =>
        refine ih _ _ ?_
        intro c hc
        rw [← List.append_assoc] at hc
        rcases List.mem_append.1 hc with hc | hc
        · exact hp c hc
        · rw [List.mem_singleton] at hc
          subst hc
          simp only [Bool.or_eq_true, decide_eq_true_eq, not_or] at hd
          simp [hd]

/-- The pattern begins in the component where the first special character is. -/
theorem splitLoop_suffix (pre part s : List Char) (hp : ∀ c ∈ part, c ∉ ['*', '?', '[', '/', '\\'])
    (hpre : pre = [] ∨ ∃ r c, pre = r ++ [c] ∧ (c = '/' ∨ c = '\\')) (hs : (splitLoop pre part s).2 ≠ []) :
    ((splitLoop pre part s).1 = [] ∨ ∃ r c, (splitLoop pre part s).1 = r ++ [c] ∧ (c = '/' ∨ c = '\\')) ∧
    ∃ a c b, (splitLoop pre part s).2 = a ++ c :: b ∧ c ∈ ['*', '?', '['] ∧ ∀ x ∈ a, x ∉ ['*', '?', '[', '/', '\\'] := by
  induction s generalizing pre part with
  | nil => simp [splitLoop] at hs
  | cons d s ih =>
    rw [splitLoop] at hs ⊢
    split
    · next hd =>
      rw [if_pos hd] at hs
      simp only [Bool.or_eq_true, decide_eq_true_eq] at hd
      exact ih _ _ (by simp) (Or.inr ⟨_, d, rfl, hd⟩) hs
    · next hd =>
      rw [if_neg hd] at hs
      split
      · next hd' =>
        refine ⟨hpre, part, d, s, rfl, ?_, hp⟩
        simp only [Bool.or_eq_true, decide_eq_true_eq] at hd'
        simpa [or_assoc] using hd'
      · next hd' =>
        rw [if_neg hd'] at hs
        refine ih _ _ ?_ hpre hs
        intro c hc
        rcases List.mem_append.1 hc with hc | hc
        · exact hp c hc
        · rw [List.mem_singleton] at hc
          subst hc
          simp only [Bool.or_eq_true, decide_eq_true_eq, not_or] at hd hd'
          simp [hd, hd']

/-! ## A comparison for the examples -/

mutual

def Seg.same : Seg → Seg → Bool
  | .asterisk, .asterisk => true
  | .questionMark, .questionMark => true
  | .character c, .character d => c = d
  | .characterClass n cs, .characterClass m ds => n = m && cs = ds
  | .alternation ps, .alternation qs => sameAll ps qs
  | _, _ => false

def sameList : List Seg → List Seg → Bool
  | [], [] => true
  | a :: as, b :: bs => a.same b && sameList as bs
  | _, _ => false

def sameAll : List (List Seg) → List (List Seg) → Bool
  | [], [] => true
  | a :: as, b :: bs => sameList a b && sameAll as bs
  | _, _ => false

end

mutual

theorem Seg.same_eq (a b : Seg) (h : a.same b = true) : a = b := by
  cases a <;> cases b <;> simp only [Seg.same, Bool.and_eq_true, decide_eq_true_eq, reduceCtorEq] at h
  · rfl
  · rfl
  · rw [h]
  · rw [h.1, h.2]
  · rw [sameAll_eq _ _ h]

theorem sameList_eq (a b : List Seg) (h : sameList a b = true) : a = b := by
  match a, b with
  | [], [] => rfl
  | [], _ :: _ => simp [sameList] at h
  | _ :: _, [] => simp [sameList] at h
  | x :: a, y :: b =>
    simp only [sameList, Bool.and_eq_true] at h
    rw [Seg.same_eq x y h.1, sameList_eq a b h.2]

theorem sameAll_eq (a b : List (List Seg)) (h : sameAll a b = true) : a = b := by
  match a, b with
  | [], [] => rfl
  | [], _ :: _ => simp [sameAll] at h
  | _ :: _, [] => simp [sameAll] at h
  | x :: a, y :: b =>
    simp only [sameAll, Bool.and_eq_true] at h
    rw [sameList_eq x y h.1, sameAll_eq a b h.2]

end

theorem parse_run {s : List Char} {segs : List Seg} (h : (parse s).any (sameList · segs) = true) : parse s = some segs := by
  cases hp : parse s with
  | none => rw [hp] at h; cases h
  | some x =>
    rw [hp] at h
    rw [sameList_eq x segs h]

end Verif.Io.Glob
