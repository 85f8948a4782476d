import Verif.Func.Like
import Verif.Func.ListArray

/-!
# C70: LIKE with a custom escape character means what it says
-/
namespace Verif.Func.Like

namespace Spec

/-- The escape character is followed by something it can escape. -/
def Escapes (e : Char) : List Char → Prop
  | c :: _ => c = '%' ∨ c = '_' ∨ c = e
  | [] => False

/-- The strings a pattern describes: the escape character makes a following `%`, `_` or escape
character literal; otherwise `%` stands for any string, `_` for any character, and everything else
for itself, an escape character that escapes nothing included. -/
inductive Like (e : Char) : List Char → List Char → Prop
  | done : Like e [] []
  | escaped {c : Char} {p s : List Char} : Escapes e (c :: p) → Like e p s → Like e (e :: c :: p) (c :: s)
  | many {p u s : List Char} : '%' ≠ e → Like e p s → Like e ('%' :: p) (u ++ s)
  | one {p s : List Char} {c : Char} : '_' ≠ e → Like e p s → Like e ('_' :: p) (c :: s)
  | itself {c : Char} {p s : List Char} : c ≠ e → c ≠ '%' → c ≠ '_' → Like e p s → Like e (c :: p) (c :: s)
  | stray {p s : List Char} : ¬ Escapes e p → Like e p s → Like e (e :: p) (e :: s)

/-- Every escape character in the pattern escapes something. -/
inductive Valid (e : Char) : List Char → Prop
  | done : Valid e []
  | escaped {c : Char} {p : List Char} : Escapes e (c :: p) → Valid e p → Valid e (e :: c :: p)
  | other {c : Char} {p : List Char} : c ≠ e → Valid e p → Valid e (c :: p)

end Spec

open Spec

/-! ## The kernel -/

theorem kernel_nil (s : List Char) : kernelLike [] s = true ↔ s = [] := by
  simp [kernelLike]

theorem kernel_last (s : List Char) : kernelLike ['\\'] s = true ↔ s = ['\\'] := by
  simp [kernelLike]

theorem kernel_escaped (c : Char) (p s : List Char) :
    kernelLike ('\\' :: c :: p) s = true ↔ ∃ t, s = c :: t ∧ kernelLike p t = true := by
  cases s with
  | nil => simp [kernelLike]
  | cons d t =>
    simp only [kernelLike, Bool.and_eq_true, beq_iff_eq]
    constructor
    · rintro ⟨rfl, h⟩; exact ⟨t, rfl, h⟩
    · rintro ⟨t', h, h'⟩; cases h; exact ⟨rfl, h'⟩

theorem kernel_many (p s : List Char) :
    kernelLike ('%' :: p) s = true ↔ ∃ u t, s = u ++ t ∧ kernelLike p t = true := by
  simp only [kernelLike, List.any_eq_true, List.mem_range]
  constructor
  · rintro ⟨n, -, h⟩
    exact ⟨s.take n, s.drop n, (List.take_append_drop n s).symm, h⟩
  · rintro ⟨u, t, rfl, h⟩
    exact ⟨u.length, by simp; omega, by simpa using h⟩

theorem kernel_one (p s : List Char) :
    kernelLike ('_' :: p) s = true ↔ ∃ c t, s = c :: t ∧ kernelLike p t = true := by
  cases s with
  | nil => simp [kernelLike]
  | cons d t =>
    simp only [kernelLike]
    constructor
    · intro h; exact ⟨d, t, rfl, h⟩
    · rintro ⟨c, t', h, h'⟩; cases h; exact h'

theorem kernel_lit {c : Char} (h1 : c ≠ '\\') (h2 : c ≠ '%') (h3 : c ≠ '_') (p s : List Char) :
    kernelLike (c :: p) s = true ↔ ∃ t, s = c :: t ∧ kernelLike p t = true := by
  cases s with
  | nil => simp [kernelLike, h1]
  | cons d t =>
    rw [kernelLike.eq_def]
    split <;> simp_all
    constructor
    · rintro ⟨rfl, h⟩; exact ⟨t, ⟨rfl, rfl⟩, h⟩
    · rintro ⟨t', ⟨rfl, rfl⟩, h'⟩; exact ⟨rfl, h'⟩

/-! ## The meaning of patterns, read from the front -/

variable {e : Char}

theorem like_nil (s : List Char) : Like e [] s ↔ s = [] := by
  constructor
  · intro h; cases h; rfl
  · rintro rfl; exact .done

theorem like_escaped {c : Char} {p : List Char} (h : Escapes e (c :: p)) (s : List Char) :
    Like e (e :: c :: p) s ↔ ∃ t, s = c :: t ∧ Like e p t := by
  constructor
  · intro hl
    generalize hq : e :: c :: p = q at hl
    cases hl with
    | done => cases hq
    | escaped _ h2 => cases hq; exact ⟨_, rfl, h2⟩
    | many h1 => cases hq; exact absurd rfl h1
    | one h1 => cases hq; exact absurd rfl h1
    | itself h1 => cases hq; exact absurd rfl h1
    | stray h1 => cases hq; exact absurd h h1
  · rintro ⟨t, rfl, h'⟩; exact .escaped h h'

theorem like_stray {p : List Char} (h : ¬ Escapes e p) (s : List Char) :
    Like e (e :: p) s ↔ ∃ t, s = e :: t ∧ Like e p t := by
  constructor
  · intro hl
    generalize hq : e :: p = q at hl
    cases hl with
    | done => cases hq
    | escaped h1 h2 => cases hq; exact absurd h1 h
    | many h1 => cases hq; exact absurd rfl h1
    | one h1 => cases hq; exact absurd rfl h1
    | itself h1 => cases hq; exact absurd rfl h1
    | stray _ h2 => cases hq; exact ⟨_, rfl, h2⟩
  · rintro ⟨t, rfl, h'⟩; exact .stray h h'

theorem like_many {p : List Char} (h : '%' ≠ e) (s : List Char) :
    Like e ('%' :: p) s ↔ ∃ u t, s = u ++ t ∧ Like e p t := by
  constructor
  · intro hl
    generalize hq : '%' :: p = q at hl
    cases hl with
    | done => cases hq
    | escaped => cases hq; exact absurd rfl h
    | many _ h2 => cases hq; exact ⟨_, _, rfl, h2⟩
    | one => exact absurd (List.head_eq_of_cons_eq hq) (by decide)
    | itself _ h1 => cases hq; exact absurd rfl h1
    | stray => cases hq; exact absurd rfl h
  · rintro ⟨u, t, rfl, h'⟩; exact .many h h'

theorem like_one {p : List Char} (h : '_' ≠ e) (s : List Char) :
    Like e ('_' :: p) s ↔ ∃ c t, s = c :: t ∧ Like e p t := by
  constructor
  · intro hl
    generalize hq : '_' :: p = q at hl
    cases hl with
    | done => cases hq
    | escaped => cases hq; exact absurd rfl h
    | one _ h2 => cases hq; exact ⟨_, _, rfl, h2⟩
    | many => exact absurd (List.head_eq_of_cons_eq hq) (by decide)
    | itself _ _ h1 => cases hq; exact absurd rfl h1
    | stray => cases hq; exact absurd rfl h
  · rintro ⟨u, t, rfl, h'⟩; exact .one h h'

theorem like_itself {c : Char} {p : List Char} (h : c ≠ e) (h1 : c ≠ '%') (h2 : c ≠ '_')
    (s : List Char) : Like e (c :: p) s ↔ ∃ t, s = c :: t ∧ Like e p t := by
  constructor
  · intro hl
    generalize hq : c :: p = q at hl
    cases hl with
    | done => cases hq
    | escaped => cases hq; exact absurd rfl h
    | one => cases hq; exact absurd rfl h2
    | many => cases hq; exact absurd rfl h1
    | itself _ _ _ h' => cases hq; exact ⟨_, rfl, h'⟩
    | stray => cases hq; exact absurd rfl h
  · rintro ⟨t, rfl, h'⟩; exact .itself h h1 h2 h'

/-! ## The rewrite -/

/-- The rewritten pattern, for a pattern whose stray escape characters, if it has any, are not
wildcards themselves. -/
theorem kernel_rewrite (he : e ≠ '\\') (p : List Char) :
    ∀ (s : List Char), (e ≠ '%' ∧ e ≠ '_') ∨ Valid e p →
      (kernelLike (rewriteLoop e p) s = true ↔ Like e p s) := by
  induction p using rewriteLoop.induct (escape := e) with
  | case1 =>
    intro s _
    rw [rewriteLoop, kernel_nil, like_nil]
  | case2 =>
    intro s _
    rw [rewriteLoop, if_pos rfl, kernel_escaped, like_itself (Ne.symm he) (by decide) (by decide)]
    simp only [kernel_nil, like_nil]
  | case3 c hc =>
    intro s hv
    rw [rewriteLoop, if_neg hc]
    by_cases h1 : c = e
    · subst h1
      rw [like_stray (by simp [Escapes])]
      rcases hv with hv | hv
      · rw [kernel_lit hc hv.1 hv.2]
        simp only [kernel_nil, like_nil]
      · exfalso
        generalize hq : [c] = q at hv
        cases hv with
        | done => cases hq
        | escaped => cases hq
        | other h => cases hq; exact h rfl
    · by_cases h2 : c = '%'
      · subst h2
        rw [kernel_many, like_many h1]
        simp only [kernel_nil, like_nil]
      · by_cases h3 : c = '_'
        · subst h3
          rw [kernel_one, like_one h1]
          simp only [kernel_nil, like_nil]
        · rw [kernel_lit hc h2 h3, like_itself h1 h2 h3]
          simp only [kernel_nil, like_nil]
  | case4 next rest ih =>
    intro s hv
    rw [rewriteLoop, if_pos rfl, kernel_escaped, like_itself (Ne.symm he) (by decide) (by decide)]
    have hv' : (e ≠ '%' ∧ e ≠ '_') ∨ Valid e (next :: rest) := by
      rcases hv with hv | hv
      · exact .inl hv
      · generalize hq : '\\' :: next :: rest = q at hv
        cases hv with
        | done => cases hq
        | escaped => cases hq; exact absurd rfl he
        | other _ h => cases hq; exact .inr h
    simp only [ih _ hv']
  | case5 next rest hn hc ih =>
    intro s hv
    have hesc : Escapes e (next :: rest) := hn
    rw [rewriteLoop, if_neg hc, if_pos rfl, if_pos hn, kernel_escaped, like_escaped hesc]
    have hv' : (e ≠ '%' ∧ e ≠ '_') ∨ Valid e rest := by
      rcases hv with hv | hv
      · exact .inl hv
      · generalize hq : e :: next :: rest = q at hv
        cases hv with
        | done => cases hq
        | escaped _ h => cases hq; exact .inr h
        | other h => cases hq; exact absurd rfl h
    simp only [ih _ hv']
  | case6 rest hc hn ih =>
    intro s hv
    have hesc : ¬ Escapes e ('\\' :: rest) := hn
    rw [rewriteLoop, if_neg hc, if_pos rfl, if_neg hn, if_pos rfl, like_stray hesc]
    have hv' : e ≠ '%' ∧ e ≠ '_' := by
      rcases hv with hv | hv
      · exact hv
      · generalize hq : e :: '\\' :: rest = q at hv
        cases hv with
        | done => cases hq
        | escaped h => cases hq; exact absurd h hesc
        | other h => cases hq; exact absurd rfl h
    rw [kernel_lit hc hv'.1 hv'.2]
    simp only [kernel_escaped, like_itself (Ne.symm hc) (show '\\' ≠ '%' by decide)
      (show '\\' ≠ '_' by decide), ih _ (.inl hv')]
  | case7 next rest hn hb hc ih =>
    intro s hv
    have hesc : ¬ Escapes e (next :: rest) := hn
    rw [rewriteLoop, if_neg hc, if_pos rfl, if_neg hn, if_neg hb, like_stray hesc]
    have hv' : e ≠ '%' ∧ e ≠ '_' := by
      rcases hv with hv | hv
      · exact hv
      · generalize hq : e :: next :: rest = q at hv
        cases hv with
        | done => cases hq
        | escaped h => cases hq; exact absurd h hesc
        | other h => cases hq; exact absurd rfl h
    rw [kernel_lit hc hv'.1 hv'.2]
    have h1 : next ≠ '%' := fun h => hn (.inl h)
    have h2 : next ≠ '_' := fun h => hn (.inr (.inl h))
    have h3 : next ≠ e := fun h => hn (.inr (.inr h))
    simp only [kernel_lit hb h1 h2, like_itself h3 h1 h2, ih _ (.inl hv')]
  | case8 c next rest hc hce ih =>
    intro s hv
    have hv' : (e ≠ '%' ∧ e ≠ '_') ∨ Valid e (next :: rest) := by
      rcases hv with hv | hv
      · exact .inl hv
      · generalize hq : c :: next :: rest = q at hv
        cases hv with
        | done => cases hq
        | escaped => cases hq; exact absurd rfl hce
        | other _ h => cases hq; exact .inr h
    rw [rewriteLoop, if_neg hc, if_neg hce]
    by_cases h2 : c = '%'
    · subst h2
      rw [kernel_many, like_many hce]
      simp only [ih _ hv']
    · by_cases h3 : c = '_'
      · subst h3
        rw [kernel_one, like_one hce]
        simp only [ih _ hv']
      · rw [kernel_lit hc h2 h3, like_itself hce h2 h3]
        simp only [ih _ hv']

/-- The kernel itself reads a pattern whose backslashes all escape something as intended. -/
theorem kernel_backslash (p s : List Char) (hv : Valid '\\' p) :
    kernelLike p s = true ↔ Like '\\' p s := by
  induction hv generalizing s with
  | done => rw [kernel_nil, like_nil]
  | escaped h _ ih =>
    rw [kernel_escaped, like_escaped h]
    simp only [ih]
  | @other c p hc _ ih =>
    by_cases h2 : c = '%'
    · subst h2
      rw [kernel_many, like_many hc]
      simp only [ih]
    · by_cases h3 : c = '_'
      · subst h3
        rw [kernel_one, like_one hc]
        simp only [ih]
      · rw [kernel_lit hc h2 h3, like_itself hc h2 h3]
        simp only [ih]

/-- C70 (partial): `value LIKE pattern ESCAPE e` is true exactly for the values the pattern
describes, for every pattern if `e` is none of `\`, `%` and `_`, and for every pattern in which each
escape character escapes something if it is one of them.  For other patterns the claim is refuted by
`C70_wildcard_escape` and `C70_stray_backslash`. -/
theorem C70_like_partial (value pattern : List Char) (e : Char)
    (h : (e ≠ '\\' ∧ e ≠ '%' ∧ e ≠ '_') ∨ Valid e pattern) (b : Bool)
    (hl : like value pattern (some (.string [e])) = .ok b) :
    b = true ↔ Like e pattern value := by
  simp only [like, extractEscape] at hl
  split at hl
  · rename_i he
    cases hl
    rw [rewrite, if_neg he]
    exact kernel_rewrite he pattern value (h.elim (fun h => .inl h.2) .inr)
  · rename_i he
    cases hl
    have he' : e = '\\' := Classical.byContradiction he
    subst he'
    rcases h with h | h
    · exact absurd rfl h.1
    · exact kernel_backslash pattern value h

/-- C70: without an ESCAPE clause the backslash is the escape character. -/
theorem C70_default_escape (value pattern : List Char) :
    like value pattern none = like value pattern (some (.string ['\\'])) := by
  simp [like, extractEscape]

/-- C70: exactly the single characters are accepted as escape characters. -/
theorem C70_escape_accepted (value pattern : List Char) (e : Escape) :
    (∃ b, like value pattern (some e) = .ok b) ↔ ∃ c, e = .string [c] := by
  cases e with
  | other => simp [like, extractEscape]
  | string s =>
    match s with
    | [] => simp [like, extractEscape]
    | [c] =>
      simp only [like, extractEscape]
      constructor
      · intro _; exact ⟨c, rfl⟩
      · intro _; split <;> exact ⟨_, rfl⟩
    | _ :: _ :: _ => simp [like, extractEscape]

example : like "50%\\x off".toList "50!%\\_ %".toList (some (.string ['!'])) = .ok true ∧
    like "500\\x off".toList "50!%\\_ %".toList (some (.string ['!'])) = .ok false ∧
    like "a!b".toList "a!b".toList (some (.string ['!'])) = .ok true ∧
    like "a%b".toList "a%%b".toList (some (.string ['%'])) = .ok true ∧
    like "axb".toList "a%%b".toList (some (.string ['%'])) = .ok false := by decide +kernel

example : Like '!' "50!%\\_ %".toList "50%\\x off".toList :=
  .itself (by decide) (by decide) (by decide) <| .itself (by decide) (by decide) (by decide) <|
    .escaped (.inl rfl) <| .itself (by decide) (by decide) (by decide) <| .one (by decide) <|
    .itself (by decide) (by decide) (by decide) <| .many (u := "off".toList) (by decide) .done

/-- C70, a negation: a `%` that is the escape character and escapes nothing is a wildcard
nevertheless. -/
theorem C70_wildcard_escape :
    like ['x', 'a'] ['%', 'a'] (some (.string ['%'])) = .ok true ∧ ¬ Like '%' ['%', 'a'] ['x', 'a'] := by
  refine ⟨by decide +kernel, fun h => ?_⟩
  rw [like_stray (by simp only [Escapes]; decide)] at h
  obtain ⟨t, h, -⟩ := h
  exact absurd (List.head_eq_of_cons_eq h) (by decide)

/-- C70, a negation: a backslash that escapes nothing vanishes when it is the escape character. -/
theorem C70_stray_backslash :
    like ['a'] ['\\', 'a'] none = .ok true ∧ ¬ Like '\\' ['\\', 'a'] ['a'] := by
  refine ⟨by decide +kernel, fun h => ?_⟩
  rw [like_stray (by simp only [Escapes]; decide)] at h
  obtain ⟨t, h, -⟩ := h
  exact absurd (List.head_eq_of_cons_eq h) (by decide)

end Verif.Func.Like
