import Verif.Io.GlobLemmas

/-!
# C99: glob patterns of paths
-/

namespace Verif.Io.Glob

open Verif.Io.Glob.Spec

/-- Exactly the texts of the syntax are read, each in one way. -/
theorem C99_parse (s : List Char) (segs : List Seg) : parse s = some segs ↔ Written false segs s ∧ segs ≠ [] :=
  ⟨fun h => parse_spec h, fun h => parse_of h.1 h.2⟩

example : Written false [.alternation [[.character 'a', .asterisk], [.characterClass true [.range 'a' 'c', .single '-']]]]
    "{a* , [^a-c-]}".toList := by
  have h : parse "{a* , [^a-c-]}".toList = some [.alternation [[.character 'a', .asterisk],
    [.characterClass true [.range 'a' 'c', .single '-']]]] := parse_run (by decide +kernel)
  exact ((C99_parse _ _).1 h).1

example : parse "{a,}".toList = none := by rfl
example : parse "[]".toList = none := by rfl
example : parse "a{b,c".toList = none := by rfl

/-- If the ranges of a pattern go upwards, and no asterisks come together whatever alternatives are chosen, every
expansion is a pattern of the `glob` crate, and some expansion matches exactly what the pattern matches. -/
theorem C99_expand_partial (s : List Char) (segs : List Seg) (hp : Written false segs s) (hne : segs ≠ [])
    (hfine : ∀ f, Chosen segs f → Fine f) :
    ∃ es, expandGlob s = some es ∧ (∀ e ∈ es, (patternNew e).isSome) ∧
      ∀ path, (∃ e ∈ es, ∃ ts, patternNew e = some ts ∧ Match ts path) ↔ Matches segs path := by
  refine ⟨expandSequence segs, by rw [expandGlob, parse_of hp hne]; rfl, ?_, ?_⟩
  · intro e he
    obtain ⟨y, hy, f, hf, rfl⟩ := (mem_expandFrom segs [[]] e).1 he
    rw [List.mem_singleton] at hy
    subst hy
    obtain ⟨ts, h, _⟩ := tokens_flat f (chosen_ok hf hp) (hfine f hf) _ none (Nat.lt_succ_self _)
    rw [List.nil_append, patternNew, h]
    rfl
  · intro path
    constructor
    · rintro ⟨e, he, ts, hts, hm⟩
      obtain ⟨y, hy, f, hf, rfl⟩ := (mem_expandFrom segs [[]] e).1 he
      rw [List.mem_singleton] at hy
      subst hy
      obtain ⟨ts', h, h'⟩ := tokens_flat f (chosen_ok hf hp) (hfine f hf) _ none (Nat.lt_succ_self _)
      rw [List.nil_append, patternNew, h] at hts
      injection hts with hts
      subst hts
      exact chosen_matches hf ((h' path).1 hm)
    · intro hm
      obtain ⟨f, hf, hm⟩ := matches_chosen hm
      obtain ⟨ts, h, h'⟩ := tokens_flat f (chosen_ok hf hp) (hfine f hf) _ none (Nat.lt_succ_self _)
      refine ⟨f.flatMap write, (mem_expandFrom segs [[]] _).2 ⟨[], by simp, f, hf, rfl⟩, ts, h, (h' path).2 hm⟩

/-- The hypotheses are met by a pattern with an alternation and a class. -/
example : ∃ segs, Written false segs "/{a*,[^b-d!]}.csv".toList ∧ segs ≠ [] ∧ ∀ f, Chosen segs f → Fine f := by
  refine ⟨[.character '/', .alternation [[.character 'a', .asterisk], [.characterClass true [.range 'b' 'd', .single '!']]],
    .character '.', .character 'c', .character 's', .character 'v'], ?_, by simp, ?_⟩
  · have h : parse "/{a*,[^b-d!]}.csv".toList = some [.character '/', .alternation [[.character 'a', .asterisk],
        [.characterClass true [.range 'b' 'd', .single '!']]], .character '.', .character 'c', .character 's',
        .character 'v'] := parse_run (by decide +kernel)
    exact ((C99_parse _ _).1 h).1
  · intro f hf
    have key : f = [.character '/', .character 'a', .asterisk, .character '.', .character 'c', .character 's', .character 'v'] ∨
        f = [.character '/', .characterClass true [.range 'b' 'd', .single '!'], .character '.', .character 'c',
          .character 's', .character 'v'] := by
      cases hf with
      | keep _ hf =>
        cases hf with
        | keep hs _ => exact absurd rfl (hs _)
        | alternation hp h1 h2 =>
          have e2 : ∀ g, Chosen [.character '.', .character 'c', .character 's', .character 'v'] g →
              g = [.character '.', .character 'c', .character 's', .character 'v'] := by
            intro g hg
            cases hg with
            | keep _ hg => cases hg with
              | keep _ hg => cases hg with
                | keep _ hg => cases hg with
                  | keep _ hg => cases hg with
                    | nil => rfl
          rw [e2 _ h2]
          simp only [List.mem_cons, List.not_mem_nil, or_false] at hp
          rcases hp with rfl | rfl
          · left
            cases h1 with
            | keep _ h1 => cases h1 with
              | keep _ h1 => cases h1 with
                | nil => rfl
          · right
            cases h1 with
            | keep _ h1 => cases h1 with
              | nil => rfl
    constructor
    · intro n cs hm a b hr
      rcases key with rfl | rfl
      · simp at hm
      · simp only [List.mem_cons, List.not_mem_nil, or_false, reduceCtorEq, false_or, Seg.characterClass.injEq] at hm
        obtain ⟨rfl, rfl⟩ := hm
        simp only [List.mem_cons, List.not_mem_nil, or_false, reduceCtorEq, Choice.range.injEq] at hr
        obtain ⟨rfl, rfl⟩ := hr
        decide
    · intro before after e
      have hl : f.length ≤ 7 := by rcases key with rfl | rfl <;> decide
      have hb : before.length ≤ 5 := by
        rw [e] at hl
        simp only [List.length_append, List.length_cons] at hl
        omega
      have h1 : f[before.length]? = some .asterisk := by rw [e]; simp
      have h2 : f[before.length + 1]? = some .asterisk := by rw [e]; simp
      generalize before.length = k at hb h1 h2
      match k, hb with
      | 0, _ | 1, _ | 2, _ | 3, _ | 4, _ | 5, _ => rcases key with rfl | rfl <;> simp at h1 h2

/-- The expansions are the choices of one alternative in each alternation. -/
theorem C99_alternatives (s : List Char) (segs : List Seg) (hp : Written false segs s) (hne : segs ≠ [])
    (e : List Char) : (∃ es, expandGlob s = some es ∧ e ∈ es) ↔ ∃ f, Chosen segs f ∧ e = f.flatMap write := by
  have h : expandGlob s = some (expandSequence segs) := by
    rw [expandGlob, parse_of hp hne]
    rfl
  rw [h]
  constructor
  · rintro ⟨es, he, hm⟩
    injection he with he
    subst he
    obtain ⟨y, hy, f, hf, rfl⟩ := (mem_expandFrom segs [[]] e).1 hm
    rw [List.mem_singleton] at hy
    subst hy
    exact ⟨f, hf, rfl⟩
  · rintro ⟨f, hf, rfl⟩
    exact ⟨_, rfl, (mem_expandFrom segs [[]] _).2 ⟨[], by simp, f, hf, rfl⟩⟩

example : expandGlob "/x{a,b{c,d}}y{1,2}".toList =
    some (["/xay1", "/xay2", "/xbcy1", "/xbcy2", "/xbdy1", "/xbdy2"].map String.toList) := by decide +kernel
example : expandGlob "[^!]-]]{*.csv,[!--x]}".toList = some (["[!!]-]]*.csv", "[!!]-]][\"--x!]"].map String.toList) := by decide +kernel

/-- A path is divided before the component of the first special character. -/
theorem C99_split (s path pattern : List Char) (h : splitGlobPath s = some (path, pattern)) :
    path ++ pattern = s ∧ path ≠ [] ∧ (∀ c ∈ path, c ∉ ['*', '?', '[']) ∧
    (pattern = [] ∨
      (∃ r c, path = r ++ [c] ∧ (c = '/' ∨ c = '\\')) ∧
      ∃ a c b, pattern = a ++ c :: b ∧ c ∈ ['*', '?', '['] ∧ ∀ x ∈ a, x ∉ ['*', '?', '[', '/', '\\']) := by
  unfold splitGlobPath at h
  simp only at h
  split at h
  · cases h
  · next hne =>
    injection h with h
    have h1 : (splitLoop [] [] s).1 = path := by rw [h]
    have h2 : (splitLoop [] [] s).2 = pattern := by rw [h]
    rw [h1] at hne
    have hne' : path ≠ [] := by
      rintro rfl
      exact hne rfl
    refine ⟨?_, hne', ?_, ?_⟩
    · have := splitLoop_spec [] [] s
      rw [h1, h2] at this
      simpa using this
    · have := splitLoop_prefix [] [] s (by simp)
      rwa [h1] at this
    · by_cases hp : pattern = []
      · exact Or.inl hp
      · refine Or.inr ?_
        have := splitLoop_suffix [] [] s (by simp) (Or.inl rfl) (by rwa [h2])
        rw [h1, h2] at this
        exact ⟨this.1.resolve_left hne', this.2⟩

example : splitGlobPath "/data/y=2024/m*/[a-c].csv".toList = some ("/data/y=2024/".toList, "m*/[a-c].csv".toList) := by decide +kernel
example : splitGlobPath "/data/part.csv".toList = some ("/data/part.csv".toList, []) := by decide +kernel

/-- A path that begins with a component with special characters is refused. -/
theorem C99_relative (s a b : List Char) (c : Char) (ha : ∀ x ∈ a, x ∉ ['*', '?', '[', '/', '\\'])
    (hc : c ∈ ['*', '?', '[']) (hs : s = a ++ c :: b) : splitGlobPath s = none := by
  subst hs
  have : ∀ part, splitLoop [] part (a ++ c :: b) = ([], part ++ a ++ c :: b) := by
    induction a with
    | nil =>
      intro part
      simp only [List.mem_cons, List.not_mem_nil, or_false] at hc
      rcases hc with rfl | rfl | rfl <;> simp [splitLoop]
    | cons x a ih =>
      intro part
      have hx := ha x (by simp)
      simp only [List.mem_cons, List.not_mem_nil, or_false, not_or] at hx
      rw [List.cons_append, splitLoop, if_neg (by simp [hx]), if_neg (by simp [hx]),
        ih (fun y hy => ha y (List.mem_cons_of_mem _ hy))]
      simp
  rw [splitGlobPath, this]
  rfl

example : splitGlobPath "part-*.csv".toList = none :=
  C99_relative _ "part-".toList ".csv".toList '*' (by decide) (by decide) rfl

/-- Asterisks that come together by the choice of an alternative make a pattern that is refused. -/
theorem C99_asterisks : parse "/{a*,b}*".toList = some [.character '/', .alternation [[.character 'a', .asterisk],
      [.character 'b']], .asterisk] ∧
    expandGlob "/{a*,b}*".toList = some ["/a**".toList, "/b*".toList] ∧ patternNew "/a**".toList = none ∧
    Matches [.character '/', .alternation [[.character 'a', .asterisk], [.character 'b']], .asterisk] "/a".toList :=
  ⟨parse_run (by decide +kernel), by decide +kernel, by decide +kernel, .character _ (.alternation (p := [.character 'a', .asterisk]) (u := ['a']) (by simp)
    (.character _ (.asterisk [] .nil)) (.asterisk [] .nil))⟩

/-- A class whose ranges go downwards has no characters, and matches the empty text. -/
theorem C99_empty_class : parse "/[!- ]".toList = some [.character '/', .characterClass false [.range '!' ' ']] ∧
    expandGlob "/[!- ]".toList = some ["/".toList] ∧ (∃ ts, patternNew "/".toList = some ts ∧ Match ts "/".toList) ∧
    ∀ s, ¬ Matches [.character '/', .characterClass false [.range '!' ' ']] s := by
  refine ⟨parse_run (by decide +kernel), by decide +kernel, ⟨[.char '/'], by decide +kernel, by simp [Match]⟩, ?_⟩
  intro s h
  cases h with
  | character _ h =>
    cases h with
    | characterClass c hc h =>
      obtain ⟨x, hx, hin⟩ := hc.1 rfl
      rw [List.mem_singleton] at hx
      subst hx
      exact absurd (Char.le_trans hin.1 hin.2) (by decide)

end Verif.Io.Glob
