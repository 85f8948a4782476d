import Verif.Sql.Number
import Verif.Sql.ParamProps
import Verif.Sql.NameProps

/-!
# Lemmas on number literals
-/

namespace Verif.Sql

variable {uni : Char → Bool}

/-! ## Tokens of a text of digits, letters, points and signs -/

/-- Characters of number literals: of words, points and signs. -/
def NumChar (uni : Char → Bool) (c : Char) : Prop :=
  isWordChar uni c = true ∨ c = '.' ∨ c = '+' ∨ c = '-'

theorem not_word {d : Char} (h1 : d.isAlphanum = false) (h2 : d ≠ '_') (h3 : d.toNat < 128) :
    isWordChar uni d = false := by
  cases h : isWordChar uni d with
  | false => rfl
  | true => exact absurd rfl (word_not_special h h1 h2 h3)

/-- What may follow a number literal: not a character of a word or a point, and no quote behind blanks,
which would make a letter the prefix of a string. -/
def Ends (uni : Char → Bool) (rest : Text) : Prop :=
  (∀ c, rest.head? = some c → isWordChar uni c = false ∧ c ≠ '.') ∧
  ∀ q, (rest.dropWhile isBlank).head? = some q → isQuote q = false

theorem lexes_numberish {rest : Text} {rts : List Tok} (hl : Lexes uni rest rts) (hr : Ends uni rest) :
    ∀ (n : Nat) (u : Text), u.length ≤ n → (∀ c ∈ u, NumChar uni c) → 'U' ∉ u →
      (∀ a b, u = a ++ '-' :: b → ∃ d, b.head? = some d ∧ d.isDigit = true) →
      ∃ ts, Lexes uni (u ++ rest) (ts ++ rts) ∧ (∀ t ∈ ts, numRaw t = some t.raw) ∧
        (ts.map Tok.raw).flatten = u ∧ (u ≠ [] → ts ≠ [])
  | n, [], _, _, _, _ => ⟨[], by simpa using hl, by simp, rfl, by simp⟩
  | 0, c :: u, hn, _, _, _ => by simp at hn
  | n + 1, c :: u, hn, hc, hU, hm => by
    by_cases hw : isWordChar uni c = true
    · let w := c :: u.takeWhile (isWordChar uni)
      let u2 := u.dropWhile (isWordChar uni)
      have hsplit : c :: u = w ++ u2 := by simp [w, u2, List.takeWhile_append_dropWhile]
      have hww : ∀ x ∈ w, isWordChar uni x = true := by
        intro x hx
        rcases List.mem_cons.mp hx with h | hx
        · rw [h]; exact hw
        · exact takeWhile_all hx
      have hsub : ∀ x ∈ u2, x ∈ c :: u := by
        intro x hx; rw [hsplit]; exact List.mem_append_right _ hx
      obtain ⟨ts, h1, h2, h3, _⟩ := lexes_numberish hl hr n u2 (by
          have : u2.length ≤ u.length := (List.dropWhile_suffix _).length_le
          simp at hn; omega)
        (fun x hx => hc x (hsub x hx)) (fun h => hU (hsub _ h))
        (fun a b hab => hm (w ++ a) b (by rw [hsplit, hab, List.append_assoc]))
      have hhead : ∀ x, (u2 ++ rest).head? = some x → isWordChar uni x = false := by
        intro x hx
        by_cases hu2 : u2 = []
        · rw [hu2] at hx
          exact (hr.1 x hx).1
        · obtain ⟨y, z, hyz⟩ := List.exists_cons_of_ne_nil hu2
          rw [hyz] at hx
          simp at hx
          subst hx
          exact dropWhile_head (p := isWordChar uni) (r := u) (c := y) (by
            show (List.dropWhile _ u).head? = _
            have : u.dropWhile (isWordChar uni) = y :: z := hyz
            rw [this]; rfl)
      have hstr : strTok (w ++ (u2 ++ rest)) = none := by
        apply strTok_of_ahead (uni := uni) (by simp [w]) hww
        refine ⟨fun x q _ _ hq => ?_, fun q hU' _ _ => ?_⟩
        · by_cases hu2 : u2 = []
          · rw [hu2] at hq
            exact hr.2 q hq
          · obtain ⟨y, z, hyz⟩ := List.exists_cons_of_ne_nil hu2
            have hy := hhead y (by rw [hyz]; rfl)
            have hy' : NumChar uni y := hc y (hsub y (by rw [hyz]; simp))
            have hnum : y = '.' ∨ y = '+' ∨ y = '-' := by
              rcases hy' with h | h
              · rw [hy] at h; cases h
              · exact h
            have hb : isBlank y = false ∧ isQuote y = false := by
              rcases hnum with h | h | h <;> subst h <;> decide
            rw [hyz, List.cons_append, List.dropWhile_cons_of_neg (by simp [hb.1])] at hq
            simp at hq
            rw [← hq]; exact hb.2
        · exact absurd (show 'U' ∈ c :: u by rw [hsplit, hU']; simp) hU
      refine ⟨.word w :: ts, ?_, ?_, ?_, by simp⟩
      · have : (c :: u) ++ rest = Tok.raw (.word w) ++ (u2 ++ rest) := by
          rw [hsplit, List.append_assoc]; rfl
        rw [this]
        exact .cons (ok_lexOne (t := .word w) ⟨by simp [w], hww, hhead, hstr⟩) h1
      · intro t ht
        cases ht with
        | head => rfl
        | tail _ ht => exact h2 t ht
      · rw [List.map_cons, List.flatten_cons, h3, hsplit]; rfl
    · have hnum : c = '.' ∨ c = '+' ∨ c = '-' := by
        rcases hc c (by simp) with h | h
        · exact absurd h hw
        · exact h
      obtain ⟨ts, h1, h2, h3, _⟩ := lexes_numberish hl hr n u (by simp at hn; omega)
        (fun x hx => hc x (List.mem_cons_of_mem _ hx)) (fun h => hU (List.mem_cons_of_mem _ h))
        (fun a b hab => hm (c :: a) b (by rw [hab]; rfl))
      refine ⟨.punct c :: ts, ?_, ?_, ?_, by simp⟩
      · refine .cons (ok_lexOne (t := .punct c) ⟨?_, ?_, ?_, ?_⟩) h1
        · rcases hnum with h | h | h <;> subst h <;> decide
        · intro hc'
          subst hc'
          obtain ⟨d, hd, hdd⟩ := hm [] u rfl
          obtain ⟨y, z, hyz⟩ : ∃ y z, u = y :: z := by
            cases u with
            | nil => cases hd
            | cons y z => exact ⟨y, z, rfl⟩
          subst hyz
          simp at hd
          subst hd
          intro h
          have h : y = '-' := Option.some.inj h
          subst h
          revert hdd; decide
        · intro h; rcases hnum with h' | h' | h' <;> rw [h'] at h <;> cases h
        · intro h; rcases hnum with h' | h' | h' <;> rw [h'] at h <;> cases h
      · intro t ht
        cases ht with
        | head => rcases hnum with h | h | h <;> subst h <;> rfl
        | tail _ ht => exact h2 t ht
      · rw [List.map_cons, List.flatten_cons, h3]; rfl

/-! ## The state machine on several tokens -/

theorem nextSlice_append {st st' : NumState} {a b : Text} (h : st.nextSlice a = some st') :
    st.nextSlice (a ++ b) = st'.nextSlice b := by
  induction a generalizing st with
  | nil => simp only [NumState.nextSlice, Option.some.injEq] at h; subst h; rfl
  | cons c a ih =>
    simp only [List.cons_append, NumState.nextSlice] at h ⊢
    cases hc : st.next c with
    | none => rw [hc] at h; cases h
    | some s => rw [hc] at h; exact ih h

theorem nextSlice_prefix {st st' : NumState} {a b : Text} (h : st.nextSlice (a ++ b) = some st') :
    ∃ s, st.nextSlice a = some s ∧ s.nextSlice b = some st' := by
  induction a generalizing st with
  | nil => exact ⟨st, rfl, h⟩
  | cons c a ih =>
    simp only [List.cons_append, NumState.nextSlice] at h ⊢
    cases hc : st.next c with
    | none => rw [hc] at h; cases h
    | some s => rw [hc] at h; exact ih h

theorem numberLoop_stop {st : NumState} {cand : Option ((Text × Option Suffix) × List Tok)}
    {rts : List Tok}
    (hs : ∀ t raw, rts.head? = some t → numRaw t = some raw → st.nextSlice raw = none) :
    numberLoop st cand rts = cand := by
  cases rts with
  | nil => rfl
  | cons t ts =>
    simp only [numberLoop]
    cases hr : numRaw t with
    | none => rfl
    | some raw => simp only [hs t raw rfl hr]

theorem numberLoop_all {st st' : NumState} {v : Text × Option Suffix} {rts : List Tok}
    (hf : st'.finalize = some v)
    (hs : ∀ t raw, rts.head? = some t → numRaw t = some raw → st'.nextSlice raw = none) :
    ∀ {ts : List Tok} {cand : Option ((Text × Option Suffix) × List Tok)}, ts ≠ [] →
      (∀ t ∈ ts, numRaw t = some t.raw) → st.nextSlice (ts.map Tok.raw).flatten = some st' →
      numberLoop st cand (ts ++ rts) = some (v, rts) := by
  intro ts
  induction ts generalizing st with
  | nil => intro cand h; exact absurd rfl h
  | cons t ts ih =>
    intro cand _ hraw hn
    rw [List.map_cons, List.flatten_cons] at hn
    obtain ⟨s, h1, h2⟩ := nextSlice_prefix hn
    simp only [List.cons_append, numberLoop, hraw t (by simp), h1]
    by_cases hts : ts = []
    · subst hts
      simp only [List.map_nil, List.flatten_nil, NumState.nextSlice, Option.some.injEq] at h2
      subst h2
      simp only [hf, List.nil_append]
      exact numberLoop_stop hs
    · cases s.finalize with
      | none => exact ih hts (fun x hx => hraw x (List.mem_cons_of_mem _ hx)) h2
      | some x => exact ih hts (fun x hx => hraw x (List.mem_cons_of_mem _ hx)) h2

theorem finalize_next {st : NumState} {v : Text × Option Suffix} (hf : st.finalize = some v) {c : Char}
    (hc : c = '+' ∨ c = '-') : st.next c = none := by
  cases st <;> simp only [NumState.finalize] at hf <;>
    first
    | cases hf; done
    | (rcases hc with h | h <;> subst h <;> rfl)

/-- A literal text followed by something else is read as one literal. -/
theorem parseNumber_text {u rest : Text} {st : NumState} {v : Text × Option Suffix} {rts : List Tok}
    (hu : u ≠ []) (hc : ∀ c ∈ u, NumChar uni c) (hU : 'U' ∉ u)
    (hm : ∀ a b, u = a ++ '-' :: b → ∃ d, b.head? = some d ∧ d.isDigit = true)
    (hn : NumState.start.nextSlice u = some st) (hf : st.finalize = some v)
    (hl : Lexes uni rest rts) (hr : Ends uni rest) :
    ∃ ts, Lexes uni (u ++ rest) ts ∧ parseNumber ts = some (v, skipWs rts) := by
  obtain ⟨ts, h1, h2, h3, h4⟩ := lexes_numberish hl hr u.length u (Nat.le_refl _) hc hU hm
  refine ⟨_, h1, ?_⟩
  rw [parseNumber, numberLoop_all hf (rts := rts) ?_ (h4 hu) h2 (by rw [h3]; exact hn)]
  intro t raw ht hraw
  cases rest with
  | nil =>
    rw [hl.nil_inv] at ht
    cases ht
  | cons c rest =>
    obtain ⟨t', r', ts', h7, h5, h6⟩ := hl.cons_inv
    have htt : t' = t := by
      rw [h7] at ht
      simpa using ht
    subst htt
    have h8 := hr.1 c rfl
    have h9 := lexOne_eq h5
    have h10 := lexOne_ok h5
    cases t' with
    | word w =>
      cases w with
      | nil => exact absurd rfl h10.1
      | cons x w =>
        have : x = c := by
          have := h9.1
          simp only [Tok.raw, List.cons_append, List.cons.injEq] at this
          exact this.1
        subst this
        have := h10.2.1 x (by simp)
        rw [h8.1] at this
        cases this
    | punct x =>
      have : x = c := by
        have := h9.1
        simp only [Tok.raw, List.cons_append, List.cons.injEq] at this
        exact this.1
      subst this
      simp only [numRaw] at hraw
      split at hraw
      · rename_i hx
        cases hraw
        simp only [NumState.nextSlice]
        rw [finalize_next hf (by
          simp only [Bool.or_eq_true, beq_iff_eq] at hx
          rcases hx with (h | h) | h
          · exact absurd h h8.2
          · exact .inl h
          · exact .inr h)]
      · cases hraw
    | lineComment _ => cases hraw
    | blockComment _ => cases hraw
    | str _ _ => cases hraw
    | ws _ _ => cases hraw

end Verif.Sql
