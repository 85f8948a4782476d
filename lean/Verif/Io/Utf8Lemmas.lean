import Verif.Io.Utf8

/-! # Lemmas about UTF-8 -/

namespace Verif.Io

namespace Spec

/-- The encoding of a character, of the standard library of this language. -/
def enc (c : Char) : Bytes := (String.utf8EncodeChar c).map UInt8.toNat

/-- The bytes are the encoding of a text. -/
def IsText (bytes : Bytes) : Prop := ∃ cs : List Char, bytes = cs.flatMap enc

/-- The same bits for every number with more than seven bits, surrogates included. -/
def bits (n : Nat) : Bytes :=
  if n ≤ 0x7ff then [n / 64 + 0xc0, n % 64 + 0x80]
  else if n ≤ 0xffff then [n / 4096 + 0xe0, n / 64 % 64 + 0x80, n % 64 + 0x80]
  else [n / 262144 + 0xf0, n / 4096 % 64 + 0x80, n / 64 % 64 + 0x80, n % 64 + 0x80]

/-- The beginning of the bits of a number, or all of them. -/
def Begins (bytes : Bytes) : Prop := ∃ n, 0x7f < n ∧ n < 0x110000 ∧ bytes <+: bits n

end Spec

open Spec

theorem char_bound (c : Char) : c.toNat < 0xd800 ∨ (0xdfff < c.toNat ∧ c.toNat < 0x110000) := c.valid

theorem enc_one {c : Char} (h : c.toNat ≤ 0x7f) : enc c = [c.toNat] := by
  unfold enc String.utf8EncodeChar
  have h' : c.val.toNat ≤ 0x7f := h
  simp only [if_pos h', List.map_cons, List.map_nil, UInt8.toNat_ofNat']
  rw [show c.val.toNat = c.toNat from rfl, Nat.mod_eq_of_lt (by omega)]

theorem enc_two {c : Char} (h1 : 0x7f < c.toNat) (h2 : c.toNat ≤ 0x7ff) :
    enc c = [c.toNat / 64 + 0xc0, c.toNat % 64 + 0x80] := by
  unfold enc String.utf8EncodeChar
  have h1' : ¬ c.val.toNat ≤ 0x7f := by have : c.val.toNat = c.toNat := rfl; omega
  have h2' : c.val.toNat ≤ 0x7ff := h2
  simp only [if_neg h1', if_pos h2', List.map_cons, List.map_nil, UInt8.toNat_ofNat']
  rw [show c.val.toNat = c.toNat from rfl]
  congr 1
  · omega
  · congr 1; omega

theorem enc_three {c : Char} (h1 : 0x7ff < c.toNat) (h2 : c.toNat ≤ 0xffff) :
    enc c = [c.toNat / 4096 + 0xe0, c.toNat / 64 % 64 + 0x80, c.toNat % 64 + 0x80] := by
  unfold enc String.utf8EncodeChar
  have e : c.val.toNat = c.toNat := rfl
  have h0' : ¬ c.val.toNat ≤ 0x7f := by omega
  have h1' : ¬ c.val.toNat ≤ 0x7ff := by omega
  have h2' : c.val.toNat ≤ 0xffff := h2
  simp only [if_neg h0', if_neg h1', if_pos h2', List.map_cons, List.map_nil, UInt8.toNat_ofNat']
  rw [e]
  congr 1
  · omega
  · congr 1
    · omega
    · congr 1; omega

theorem enc_four {c : Char} (h1 : 0xffff < c.toNat) :
    enc c = [c.toNat / 262144 + 0xf0, c.toNat / 4096 % 64 + 0x80, c.toNat / 64 % 64 + 0x80, c.toNat % 64 + 0x80] := by
  unfold enc String.utf8EncodeChar
  have e : c.val.toNat = c.toNat := rfl
  have hb := char_bound c
  have h0' : ¬ c.val.toNat ≤ 0x7f := by omega
  have h1' : ¬ c.val.toNat ≤ 0x7ff := by omega
  have h2' : ¬ c.val.toNat ≤ 0xffff := by omega
  simp only [if_neg h0', if_neg h1', if_neg h2', List.map_cons, List.map_nil, UInt8.toNat_ofNat']
  rw [e]
  congr 1
  · omega
  · congr 1
    · omega
    · congr 1
      · omega
      · congr 1; omega

theorem ofNat_toNat {n : Nat} (h : n < 0xd800 ∨ (0xdfff < n ∧ n < 0x110000)) : (Char.ofNat n).toNat = n := by
  have : n.isValidChar := h
  unfold Char.ofNat
  rw [dif_pos this]
  rfl

theorem isCont_iff {b : Nat} : isCont b = true ↔ 0x80 ≤ b ∧ b < 0xc0 := by simp [isCont]

/-- The forms of the encodings of characters. -/
theorem enc_cases (c : Char) :
    (∃ a, enc c = [a] ∧ a ≤ 0x7f) ∨
    (∃ a b, enc c = [a, b] ∧ 0xc2 ≤ a ∧ a ≤ 0xdf ∧ 0x80 ≤ b ∧ b < 0xc0) ∨
    (∃ a b d, enc c = [a, b, d] ∧ 0xe0 ≤ a ∧ a ≤ 0xef ∧ 0x80 ≤ b ∧ b < 0xc0 ∧ 0x80 ≤ d ∧ d < 0xc0 ∧
      (a = 0xe0 → 0xa0 ≤ b) ∧ (a = 0xed → b ≤ 0x9f)) ∨
    (∃ a b d e, enc c = [a, b, d, e] ∧ 0xf0 ≤ a ∧ a ≤ 0xf4 ∧ 0x80 ≤ b ∧ b < 0xc0 ∧ 0x80 ≤ d ∧ d < 0xc0 ∧
      0x80 ≤ e ∧ e < 0xc0 ∧ (a = 0xf0 → 0x90 ≤ b) ∧ (a = 0xf4 → b ≤ 0x8f)) := by
  have hb := char_bound c
  by_cases h1 : c.toNat ≤ 0x7f
  · exact .inl ⟨_, enc_one h1, h1⟩
  by_cases h2 : c.toNat ≤ 0x7ff
  · exact .inr (.inl ⟨_, _, enc_two (by omega) h2, by omega, by omega, by omega, by omega⟩)
  by_cases h3 : c.toNat ≤ 0xffff
  · exact .inr (.inr (.inl ⟨_, _, _, enc_three (by omega) h3, by omega, by omega, by omega, by omega, by omega,
      by omega, by omega, by omega⟩))
  · exact .inr (.inr (.inr ⟨_, _, _, _, enc_four (by omega), by omega, by omega, by omega, by omega, by omega,
      by omega, by omega, by omega, by omega, by omega⟩))

theorem exists_char {n : Nat} (h : n < 0xd800 ∨ (0xdfff < n ∧ n < 0x110000)) : ∃ c : Char, c.toNat = n :=
  ⟨Char.ofNat n, ofNat_toNat h⟩

theorem enc_of_one {a : Nat} (h : a ≤ 0x7f) : ∃ c, enc c = [a] := by
  obtain ⟨c, hc⟩ := exists_char (n := a) (by omega)
  exact ⟨c, by rw [enc_one (by omega), hc]⟩

theorem enc_of_two {a b : Nat} (h1 : 0xc2 ≤ a) (h2 : a ≤ 0xdf) (h3 : 0x80 ≤ b) (h4 : b < 0xc0) :
    ∃ c, enc c = [a, b] := by
  obtain ⟨c, hc⟩ := exists_char (n := (a - 0xc0) * 64 + (b - 0x80)) (by omega)
  refine ⟨c, ?_⟩
  rw [enc_two (by omega) (by omega)]
  congr 1
  · omega
  · congr 1; omega

theorem enc_of_three {a b d : Nat} (h1 : 0xe0 ≤ a) (h2 : a ≤ 0xef) (h3 : 0x80 ≤ b) (h4 : b < 0xc0) (h5 : 0x80 ≤ d)
    (h6 : d < 0xc0) (h7 : a = 0xe0 → 0xa0 ≤ b) (h8 : a = 0xed → b ≤ 0x9f) : ∃ c, enc c = [a, b, d] := by
  obtain ⟨c, hc⟩ := exists_char (n := (a - 0xe0) * 4096 + (b - 0x80) * 64 + (d - 0x80)) (by omega)
  refine ⟨c, ?_⟩
  rw [enc_three (by omega) (by omega)]
  congr 1
  · omega
  · congr 1
    · omega
    · congr 1; omega

theorem enc_of_four {a b d e : Nat} (h1 : 0xf0 ≤ a) (h2 : a ≤ 0xf4) (h3 : 0x80 ≤ b) (h4 : b < 0xc0) (h5 : 0x80 ≤ d)
    (h6 : d < 0xc0) (h9 : 0x80 ≤ e) (h10 : e < 0xc0) (h7 : a = 0xf0 → 0x90 ≤ b) (h8 : a = 0xf4 → b ≤ 0x8f) :
    ∃ c, enc c = [a, b, d, e] := by
  obtain ⟨c, hc⟩ :=
    exists_char (n := (a - 0xf0) * 262144 + (b - 0x80) * 4096 + (d - 0x80) * 64 + (e - 0x80)) (by omega)
  refine ⟨c, ?_⟩
  rw [enc_four (by omega)]
  congr 1
  · omega
  · congr 1
    · omega
    · congr 1
      · omega
      · congr 1; omega

/-! ## The validity check of the library -/

theorem isText_nil : IsText [] := ⟨[], rfl⟩

theorem isText_enc_append (c : Char) {bytes : Bytes} (h : IsText bytes) : IsText (enc c ++ bytes) := by
  obtain ⟨cs, rfl⟩ := h
  exact ⟨c :: cs, rfl⟩

theorem isText_append {a b : Bytes} (ha : IsText a) (hb : IsText b) : IsText (a ++ b) := by
  obtain ⟨cs, rfl⟩ := ha
  obtain ⟨ds, rfl⟩ := hb
  exact ⟨cs ++ ds, by simp⟩

theorem isUtf8N_text (n : Nat) (bytes : Bytes) (h : isUtf8N n bytes = true) : IsText bytes := by
  induction n generalizing bytes with
  | zero =>
    cases bytes with
    | nil => exact isText_nil
    | cons a r => cases h
  | succ n ih =>
    cases bytes with
    | nil => exact isText_nil
    | cons a r =>
      simp only [isUtf8N] at h
      split at h
      · next h1 =>
        obtain ⟨c, hc⟩ := enc_of_one h1
        have := isText_enc_append c (ih _ h)
        rwa [hc] at this
      split at h
      · next h1 =>
        cases r with
        | nil => cases h
        | cons b r =>
          simp only [Bool.and_eq_true, isCont_iff] at h
          obtain ⟨c, hc⟩ := enc_of_two h1.1 h1.2 h.1.1 h.1.2
          have := isText_enc_append c (ih _ h.2)
          rwa [hc] at this
      split at h
      · next h1 =>
        match r, h with
        | [], h => cases h
        | [_], h => cases h
        | b :: d :: r, h =>
          simp only [Bool.and_eq_true, isCont_iff, Bool.or_eq_true, bne_iff_ne, decide_eq_true_eq] at h
          obtain ⟨⟨⟨⟨h3, h4⟩, h5⟩, h6⟩, h7⟩ := h
          obtain ⟨c, hc⟩ := enc_of_three h1.1 h1.2 h3.1 h3.2 h4.1 h4.2 (by omega) (by omega)
          have := isText_enc_append c (ih _ h7)
          rwa [hc] at this
      split at h
      · next h1 =>
        match r, h with
        | [], h => cases h
        | [_], h => cases h
        | [_, _], h => cases h
        | b :: d :: e :: r, h =>
          simp only [Bool.and_eq_true, isCont_iff, Bool.or_eq_true, bne_iff_ne, decide_eq_true_eq] at h
          obtain ⟨⟨⟨⟨⟨h3, h4⟩, h8⟩, h5⟩, h6⟩, h7⟩ := h
          obtain ⟨c, hc⟩ := enc_of_four h1.1 h1.2 h3.1 h3.2 h4.1 h4.2 h8.1 h8.2 (by omega) (by omega)
          have := isText_enc_append c (ih _ h7)
          rwa [hc] at this
      · cases h

theorem isUtf8N_enc (n : Nat) (c : Char) (r : Bytes) : isUtf8N (n + 1) (enc c ++ r) = isUtf8N n r := by
  rcases enc_cases c with ⟨a, he, h⟩ | ⟨a, b, he, h⟩ | ⟨a, b, d, he, h⟩ | ⟨a, b, d, e, he, h⟩ <;> rw [he]
  · simp only [List.cons_append, List.nil_append, isUtf8N, if_pos h]
  · have hb : isCont b = true := isCont_iff.2 (by omega)
    simp only [List.cons_append, List.nil_append, isUtf8N]
    rw [if_neg (by omega), if_pos (by omega), hb, Bool.true_and]
  · have hb : isCont b = true := isCont_iff.2 (by omega)
    have hd : isCont d = true := isCont_iff.2 (by omega)
    have h1 : (a != 0xe0 || decide (0xa0 ≤ b)) = true := by
      simp only [Bool.or_eq_true, bne_iff_ne, decide_eq_true_eq]; omega
    have h2 : (a != 0xed || decide (b ≤ 0x9f)) = true := by
      simp only [Bool.or_eq_true, bne_iff_ne, decide_eq_true_eq]; omega
    simp only [List.cons_append, List.nil_append, isUtf8N]
    rw [if_neg (by omega), if_neg (by omega), if_pos (by omega), hb, hd, h1, h2]
    simp
  · have hb : isCont b = true := isCont_iff.2 (by omega)
    have hd : isCont d = true := isCont_iff.2 (by omega)
    have hee : isCont e = true := isCont_iff.2 (by omega)
    have h1 : (a != 0xf0 || decide (0x90 ≤ b)) = true := by
      simp only [Bool.or_eq_true, bne_iff_ne, decide_eq_true_eq]; omega
    have h2 : (a != 0xf4 || decide (b ≤ 0x8f)) = true := by
      simp only [Bool.or_eq_true, bne_iff_ne, decide_eq_true_eq]; omega
    simp only [List.cons_append, List.nil_append, isUtf8N]
    rw [if_neg (by omega), if_neg (by omega), if_neg (by omega), if_pos (by omega), hb, hd, hee, h1, h2]
    simp

theorem enc_ne_nil (c : Char) : enc c ≠ [] := by
  rcases enc_cases c with ⟨a, he, _⟩ | ⟨a, b, he, _⟩ | ⟨a, b, d, he, _⟩ | ⟨a, b, d, e, he, _⟩ <;> rw [he] <;>
    exact List.cons_ne_nil _ _

theorem isUtf8N_flatMap (cs : List Char) (n : Nat) (h : cs.length ≤ n) : isUtf8N n (cs.flatMap enc) = true := by
  induction cs generalizing n with
  | nil => cases n <;> rfl
  | cons c cs ih =>
    cases n with
    | zero => simp at h
    | succ n =>
      rw [List.flatMap_cons, isUtf8N_enc]
      exact ih n (by simpa using h)

theorem length_flatMap_enc (cs : List Char) : cs.length ≤ (cs.flatMap enc).length := by
  induction cs with
  | nil => exact Nat.le_refl _
  | cons c cs ih =>
    rw [List.flatMap_cons, List.length_append, List.length_cons]
    have := List.length_pos_iff.2 (enc_ne_nil c)
    omega

theorem isUtf8_iff {bytes : Bytes} : isUtf8 bytes = true ↔ IsText bytes :=
  ⟨isUtf8N_text _ _, fun ⟨cs, h⟩ => h ▸ isUtf8N_flatMap cs _ (length_flatMap_enc cs)⟩

/-! ## Classification -/

theorem classify_enc (c : Char) (a : Nat) (t r : Bytes) (eoi : Bool) (h : enc c = a :: t) :
    classify a (t ++ r) eoi = .valid (enc c).length := by
  rcases enc_cases c with ⟨a', he, hh⟩ | ⟨a', b, he, hh⟩ | ⟨a', b, d, he, hh⟩ | ⟨a', b, d, e, he, hh⟩ <;>
    rw [he] at h ⊢ <;> cases h
  · simp only [classify, if_pos hh]; rfl
  · have hb : isCont b = true := isCont_iff.2 (by omega)
    simp only [classify, List.cons_append, List.nil_append]
    rw [if_neg (by omega), if_pos (by omega), if_pos hb]; rfl
  · have hb : isCont b = true := isCont_iff.2 (by omega)
    have hd : isCont d = true := isCont_iff.2 (by omega)
    have h1 : (a == 0xe0 && decide (b < 0xa0)) = false := by
      simp only [Bool.and_eq_false_iff, beq_eq_false_iff_ne, decide_eq_false_iff_not]; omega
    have h2 : (a == 0xed && decide (0xa0 ≤ b)) = false := by
      simp only [Bool.and_eq_false_iff, beq_eq_false_iff_ne, decide_eq_false_iff_not]; omega
    simp only [classify, List.cons_append, List.nil_append, classifyLast]
    rw [if_neg (by omega), if_neg (by omega), if_pos (by omega), hb, hd, h1, h2]; rfl
  · have hb : isCont b = true := isCont_iff.2 (by omega)
    have hd : isCont d = true := isCont_iff.2 (by omega)
    have hee : isCont e = true := isCont_iff.2 (by omega)
    have h1 : (a == 0xf0 && decide (b < 0x90)) = false := by
      simp only [Bool.and_eq_false_iff, beq_eq_false_iff_ne, decide_eq_false_iff_not]; omega
    have h2 : (a == 0xf4 && decide (0x8f < b)) = false := by
      simp only [Bool.and_eq_false_iff, beq_eq_false_iff_ne, decide_eq_false_iff_not]; omega
    simp only [classify, List.cons_append, List.nil_append, classifyThird, classifyFourth]
    rw [if_neg (by omega), if_neg (by omega), if_neg (by omega), if_pos (by omega), hb, hd, hee, h1, h2]; rfl

/-- What the classification says about the first bytes. -/
def Sound (bytes : Bytes) : Utf8Unit → Prop
  | .valid k => 0 < k ∧ k ≤ bytes.length ∧ ∃ c, enc c = bytes.take k
  | .malformed k => 0 < k ∧ k ≤ bytes.length ∧ (∀ b ∈ bytes.take k, 0x80 ≤ b) ∧ (k ≠ 1 → Begins (bytes.take k)) ∧
      (k < bytes.length → ¬ Begins (bytes.take (k + 1)))
  | .incomplete => True

theorem bits_two {n : Nat} (h : n ≤ 0x7ff) : bits n = [n / 64 + 0xc0, n % 64 + 0x80] := if_pos h

theorem bits_three {n : Nat} (h1 : 0x7ff < n) (h2 : n ≤ 0xffff) :
    bits n = [n / 4096 + 0xe0, n / 64 % 64 + 0x80, n % 64 + 0x80] := by
  unfold bits
  rw [if_neg (by omega), if_pos h2]

theorem bits_four {n : Nat} (h1 : 0xffff < n) :
    bits n = [n / 262144 + 0xf0, n / 4096 % 64 + 0x80, n / 64 % 64 + 0x80, n % 64 + 0x80] := by
  unfold bits
  rw [if_neg (by omega), if_neg (by omega)]

/-- A beginning of two bytes. -/
theorem begins_two {a b : Nat} (h : Begins [a, b]) :
    0x80 ≤ b ∧ b < 0xc0 ∧ ((0xc2 ≤ a ∧ a ≤ 0xdf) ∨ (0xe0 ≤ a ∧ a ≤ 0xef ∧ (a = 0xe0 → 0xa0 ≤ b)) ∨
      (0xf0 ≤ a ∧ a ≤ 0xf4 ∧ (a = 0xf0 → 0x90 ≤ b) ∧ (a = 0xf4 → b ≤ 0x8f))) := by
  obtain ⟨n, h1, h2, h3⟩ := h
  by_cases ha : n ≤ 0x7ff
  · rw [bits_two ha] at h3
    simp only [List.cons_prefix_cons] at h3
    omega
  by_cases hb : n ≤ 0xffff
  · rw [bits_three (by omega) hb] at h3
    simp only [List.cons_prefix_cons] at h3
    omega
  · rw [bits_four (by omega)] at h3
    simp only [List.cons_prefix_cons] at h3
    omega

theorem begins_three {a b c : Nat} (h : Begins [a, b, c]) : 0x80 ≤ c ∧ c < 0xc0 ∧ 0xe0 ≤ a := by
  obtain ⟨n, h1, h2, h3⟩ := h
  by_cases ha : n ≤ 0x7ff
  · rw [bits_two ha] at h3
    simp only [List.cons_prefix_cons, List.prefix_nil] at h3
    obtain ⟨_, _, h⟩ := h3
    cases h
  by_cases hb : n ≤ 0xffff
  · rw [bits_three (by omega) hb] at h3
    simp only [List.cons_prefix_cons] at h3
    omega
  · rw [bits_four (by omega)] at h3
    simp only [List.cons_prefix_cons] at h3
    omega

theorem begins_four {a b c d : Nat} (h : Begins [a, b, c, d]) : 0x80 ≤ d ∧ d < 0xc0 ∧ 0xf0 ≤ a := by
  obtain ⟨n, h1, h2, h3⟩ := h
  by_cases ha : n ≤ 0x7ff
  · rw [bits_two ha] at h3
    simp only [List.cons_prefix_cons, List.prefix_nil] at h3
    obtain ⟨_, _, h⟩ := h3
    cases h
  by_cases hb : n ≤ 0xffff
  · rw [bits_three (by omega) hb] at h3
    simp only [List.cons_prefix_cons, List.prefix_nil] at h3
    obtain ⟨_, _, _, h⟩ := h3
    cases h
  · rw [bits_four (by omega)] at h3
    simp only [List.cons_prefix_cons] at h3
    omega

theorem begins_of_three {a b c : Nat} (h1 : 0xe0 ≤ a) (h2 : a ≤ 0xef) (h3 : 0x80 ≤ b) (h4 : b < 0xc0)
    (h5 : 0x80 ≤ c) (h6 : c < 0xc0) (h7 : a = 0xe0 → 0xa0 ≤ b) : Begins [a, b, c] := by
  refine ⟨(a - 0xe0) * 4096 + (b - 0x80) * 64 + (c - 0x80), by omega, by omega, ?_⟩
  rw [bits_three (by omega) (by omega)]
  simp only [List.cons_prefix_cons, List.nil_prefix, and_true]
  omega

theorem begins_of_four {a b c d : Nat} (h1 : 0xf0 ≤ a) (h2 : a ≤ 0xf4) (h3 : 0x80 ≤ b) (h4 : b < 0xc0)
    (h5 : 0x80 ≤ c) (h6 : c < 0xc0) (h5' : 0x80 ≤ d) (h6' : d < 0xc0) (h7 : a = 0xf0 → 0x90 ≤ b)
    (h8 : a = 0xf4 → b ≤ 0x8f) : Begins [a, b, c, d] := by
  refine ⟨(a - 0xf0) * 262144 + (b - 0x80) * 4096 + (c - 0x80) * 64 + (d - 0x80), by omega, by omega, ?_⟩
  rw [bits_four (by omega)]
  simp only [List.cons_prefix_cons, List.nil_prefix, and_true]
  omega

theorem begins_prefix {a b : Bytes} (h : a <+: b) (hb : Begins b) : Begins a := by
  obtain ⟨n, h1, h2, h3⟩ := hb
  exact ⟨n, h1, h2, h.trans h3⟩

theorem mal_one {a : Nat} {r : Bytes} (h : 0x80 ≤ a) (hr : ∀ b t, r = b :: t → ¬ Begins [a, b]) :
    Sound (a :: r) (.malformed 1) := by
  refine ⟨by omega, by simp, by simpa using h, fun h => absurd rfl h, fun hl => ?_⟩
  cases r with
  | nil => simp at hl
  | cons b t => exact hr b t rfl

theorem mal_two {a b : Nat} {r : Bytes} (ha : 0x80 ≤ a) (hb : 0x80 ≤ b) (h : Begins [a, b])
    (hr : ∀ c t, r = c :: t → ¬ Begins [a, b, c]) : Sound (a :: b :: r) (.malformed 2) := by
  refine ⟨by omega, by simp, by simp; omega, fun _ => h, fun hl => ?_⟩
  cases r with
  | nil => simp at hl
  | cons c t => exact hr c t rfl

theorem mal_three {a b c : Nat} {r : Bytes} (ha : 0x80 ≤ a) (hb : 0x80 ≤ b) (hc : 0x80 ≤ c) (h : Begins [a, b, c])
    (hr : ∀ d t, r = d :: t → ¬ Begins [a, b, c, d]) : Sound (a :: b :: c :: r) (.malformed 3) := by
  refine ⟨by omega, by simp, by simp; omega, fun _ => h, fun hl => ?_⟩
  cases r with
  | nil => simp at hl
  | cons d t => exact hr d t rfl

theorem short_sound {bytes : Bytes} {k : Nat} (eoi : Bool) (h : Sound bytes (.malformed k)) :
    Sound bytes (short k eoi) := by
  cases eoi
  · exact trivial
  · exact h

theorem classify_sound (a : Nat) (r : Bytes) (eoi : Bool) : Sound (a :: r) (classify a r eoi) := by
  unfold classify
  split
  · next h => exact ⟨by omega, by simp, by simpa using enc_of_one h⟩
  next h0 =>
  split
  · next h1 =>
    cases r with
    | nil => exact short_sound eoi (mal_one (by omega) (by intro b t h; cases h))
    | cons b r =>
      simp only
      split
      · next hb =>
        rw [isCont_iff] at hb
        exact ⟨by omega, by simp, by simpa using enc_of_two h1.1 h1.2 hb.1 hb.2⟩
      · next hb =>
        rw [isCont_iff] at hb
        refine mal_one (by omega) ?_
        intro b' t e hbeg
        cases e
        have := begins_two hbeg
        omega
  split
  · next h1 =>
    cases r with
    | nil => exact short_sound eoi (mal_one (by omega) (by intro b t h; cases h))
    | cons b r =>
      simp only
      split
      · next hb =>
        simp only [Bool.or_eq_true, Bool.not_eq_eq_eq_not, Bool.not_true, Bool.and_eq_true, beq_iff_eq,
          decide_eq_true_eq] at hb
        refine mal_one (by omega) ?_
        intro b' t e hbeg
        cases e
        have := begins_two hbeg
        rcases hb with hb | hb
        · have : isCont b = true := isCont_iff.2 (by omega)
          rw [hb] at this
          cases this
        · omega
      next hb =>
      simp only [Bool.not_eq_true, Bool.or_eq_false_iff, Bool.not_eq_eq_eq_not, Bool.not_false, isCont_iff,
        Bool.and_eq_false_iff, beq_eq_false_iff_ne, decide_eq_false_iff_not] at hb
      have hbeg : ∀ c, 0x80 ≤ c → c < 0xc0 → Begins [a, b, c] := fun c hc hc' =>
        begins_of_three h1.1 h1.2 hb.1.1 hb.1.2 hc hc' (by omega)
      have hbeg2 : Begins [a, b] := begins_prefix (by simp) (hbeg 0x80 (by omega) (by omega))
      unfold classifyLast
      cases r with
      | nil => exact short_sound eoi (mal_two (by omega) (by omega) hbeg2 (by intro b t h; cases h))
      | cons d r =>
        simp only
        by_cases hd : isCont d = true
        · rw [hd, Bool.not_true, if_neg (by simp)]
          rw [isCont_iff] at hd
          split
          · refine mal_three (by omega) (by omega) (by omega) (hbeg d hd.1 hd.2) ?_
            intro x t e hx
            cases e
            have := begins_four hx
            omega
          next h2 =>
          simp only [Bool.not_eq_true, Bool.and_eq_false_iff, beq_eq_false_iff_ne, decide_eq_false_iff_not] at h2
          exact ⟨by omega, by simp, by
            simpa using enc_of_three h1.1 h1.2 hb.1.1 hb.1.2 hd.1 hd.2 (by omega) (by omega)⟩
        · have hd' := hd
          rw [isCont_iff] at hd'
          rw [Bool.not_eq_true] at hd
          rw [hd, Bool.not_false, if_pos rfl]
          refine mal_two (by omega) (by omega) hbeg2 ?_
          intro x t e hx
          cases e
          have := begins_three hx
          omega
  split
  · next h1 =>
    cases r with
    | nil => exact short_sound eoi (mal_one (by omega) (by intro b t h; cases h))
    | cons b r =>
      simp only
      split
      · next hb =>
        simp only [Bool.or_eq_true, Bool.not_eq_eq_eq_not, Bool.not_true, Bool.and_eq_true, beq_iff_eq,
          decide_eq_true_eq] at hb
        refine mal_one (by omega) ?_
        intro b' t e hbeg
        cases e
        have := begins_two hbeg
        rcases hb with (hb | hb) | hb
        · have : isCont b = true := isCont_iff.2 (by omega)
          rw [hb] at this
          cases this
        · omega
        · omega
      next hb =>
      simp only [Bool.not_eq_true, Bool.or_eq_false_iff, Bool.not_eq_eq_eq_not, Bool.not_false, isCont_iff,
        Bool.and_eq_false_iff, beq_eq_false_iff_ne, decide_eq_false_iff_not] at hb
      have hbeg : ∀ c d, 0x80 ≤ c → c < 0xc0 → 0x80 ≤ d → d < 0xc0 → Begins [a, b, c, d] := fun c d hc hc' hd hd' =>
        begins_of_four h1.1 h1.2 hb.1.1.1 hb.1.1.2 hc hc' hd hd' (by omega) (by omega)
      have hbeg2 : Begins [a, b] :=
        begins_prefix (by simp) (hbeg 0x80 0x80 (by omega) (by omega) (by omega) (by omega))
      unfold classifyThird
      cases r with
      | nil => exact short_sound eoi (mal_two (by omega) (by omega) hbeg2 (by intro b t h; cases h))
      | cons d r =>
        simp only
        split
        · next hd =>
          rw [isCont_iff] at hd
          have hbeg3 : Begins [a, b, d] := begins_prefix (by simp) (hbeg d 0x80 hd.1 hd.2 (by omega) (by omega))
          unfold classifyFourth
          cases r with
          | nil => exact short_sound eoi (mal_three (by omega) (by omega) (by omega) hbeg3 (by intro b t h; cases h))
          | cons e r =>
            simp only
            split
            · next hee =>
              rw [isCont_iff] at hee
              exact ⟨by omega, by simp, by
                simpa using enc_of_four h1.1 h1.2 hb.1.1.1 hb.1.1.2 hd.1 hd.2 hee.1 hee.2 (by omega) (by omega)⟩
            · next hee =>
              rw [isCont_iff] at hee
              refine mal_three (by omega) (by omega) (by omega) hbeg3 ?_
              intro x t e' hx
              cases e'
              have := begins_four hx
              omega
        · next hd =>
          rw [isCont_iff] at hd
          refine mal_two (by omega) (by omega) hbeg2 ?_
          intro x t e hx
          cases e
          have := begins_three hx
          omega
  · refine mal_one (by omega) ?_
    intro x t e hx
    cases e
    have := begins_two hx
    omega

theorem short_append {k : Nat} (h : short k false ≠ .incomplete) : False := h rfl

/-- Once the classification is known, further bytes do not change it. -/
theorem classify_append (a : Nat) (r s : Bytes) (eoi : Bool) (h : classify a r false ≠ .incomplete) :
    classify a (r ++ s) eoi = classify a r false := by
  unfold classify at h ⊢
  split
  · rfl
  split
  · cases r with
    | nil =>
      rw [if_neg (by omega), if_pos (by omega)] at h
      exact absurd rfl h
    | cons b r => rfl
  split
  · cases r with
    | nil =>
      rw [if_neg (by omega), if_neg (by omega), if_pos (by omega)] at h
      exact absurd rfl h
    | cons b r =>
      rw [if_neg (by omega), if_neg (by omega), if_pos (by omega)] at h
      simp only [List.cons_append] at h ⊢
      split
      · rfl
      next hb =>
      rw [if_neg hb] at h
      cases r with
      | nil => exact absurd rfl h
      | cons d r => rfl
  split
  · cases r with
    | nil =>
      rw [if_neg (by omega), if_neg (by omega), if_neg (by omega), if_pos (by omega)] at h
      exact absurd rfl h
    | cons b r =>
      rw [if_neg (by omega), if_neg (by omega), if_neg (by omega), if_pos (by omega)] at h
      simp only [List.cons_append] at h ⊢
      split
      · rfl
      next hb =>
      rw [if_neg hb] at h
      cases r with
      | nil => exact absurd rfl h
      | cons d r =>
        simp only [classifyThird, List.cons_append] at h ⊢
        split
        · next hd =>
          rw [if_pos hd] at h
          cases r with
          | nil => exact absurd rfl h
          | cons e r => rfl
        · rfl
  · rfl

theorem classify_end (a : Nat) (r : Bytes) : classify a r true ≠ .incomplete := by
  unfold classify
  intro h
  repeat' split at h
  all_goals first
    | cases h
    | (unfold classifyLast at h; repeat' split at h
       all_goals cases h)
    | (unfold classifyThird at h; repeat' split at h
       all_goals first
        | cases h
        | (unfold classifyFourth at h; repeat' split at h
           all_goals cases h))

/-! ## Repair -/

/-- The loop with enough fuel. -/
def rep (bytes : Bytes) (eoi : Bool) : Bytes × Bytes := repairN bytes.length bytes eoi

theorem repairN_two (n m : Nat) (bytes : Bytes) (eoi : Bool) (h : bytes.length ≤ n) (h' : bytes.length ≤ m) :
    repairN n bytes eoi = repairN m bytes eoi := by
  induction n generalizing bytes m with
  | zero =>
    cases bytes with
    | nil => cases m <;> rfl
    | cons a r => simp at h
  | succ n ih =>
    cases bytes with
    | nil => cases m <;> rfl
    | cons a r =>
      cases m with
      | zero => simp at h'
      | succ m =>
        simp only [List.length_cons] at h h'
        have hs := classify_sound a r eoi
        simp only [repairN]
        generalize classify a r eoi = u at hs ⊢
        cases u with
        | valid k =>
          have hk : ((a :: r).drop k).length ≤ r.length := by
            rw [List.length_drop, List.length_cons]; have := hs.1; omega
          simp only [ih m ((a :: r).drop k) (by omega) (by omega)]
        | malformed k =>
          have hk : ((a :: r).drop k).length ≤ r.length := by
            rw [List.length_drop, List.length_cons]; have := hs.1; omega
          simp only [ih m ((a :: r).drop k) (by omega) (by omega)]
        | incomplete => rfl

theorem rep_nil (eoi : Bool) : rep [] eoi = ([], []) := rfl

theorem rep_cons (a : Nat) (r : Bytes) (eoi : Bool) :
    rep (a :: r) eoi =
      match classify a r eoi with
      | .valid k => ((a :: r).take k ++ (rep ((a :: r).drop k) eoi).1, (rep ((a :: r).drop k) eoi).2)
      | .malformed k => (replacement ++ (rep ((a :: r).drop k) eoi).1, (rep ((a :: r).drop k) eoi).2)
      | .incomplete => ([], a :: r) := by
  have hs := classify_sound a r eoi
  unfold rep
  simp only [List.length_cons, repairN]
  generalize classify a r eoi = u at hs ⊢
  cases u with
  | valid k =>
    have hk : ((a :: r).drop k).length ≤ r.length := by
      rw [List.length_drop, List.length_cons]; have := hs.1; omega
    simp only [repairN_two r.length _ ((a :: r).drop k) eoi hk (Nat.le_refl _)]
  | malformed k =>
    have hk : ((a :: r).drop k).length ≤ r.length := by
      rw [List.length_drop, List.length_cons]; have := hs.1; omega
    simp only [repairN_two r.length _ ((a :: r).drop k) eoi hk (Nat.le_refl _)]
  | incomplete => rfl

theorem rep_text (cs : List Char) (eoi : Bool) : rep (cs.flatMap enc) eoi = (cs.flatMap enc, []) := by
  induction cs with
  | nil => rfl
  | cons c cs ih =>
    rw [List.flatMap_cons]
    cases he : enc c with
    | nil => exact absurd he (enc_ne_nil c)
    | cons a t =>
      have hc := classify_enc c a t (cs.flatMap enc) eoi he
      rw [List.cons_append, rep_cons, hc]
      simp only
      have e : a :: (t ++ cs.flatMap enc) = enc c ++ cs.flatMap enc := by rw [he]; rfl
      rw [e, List.drop_left, List.take_left, ih]

theorem repair_eq (bytes : Bytes) (eoi : Bool) : repair bytes eoi = rep bytes eoi := by
  unfold repair
  split
  · next h =>
    obtain ⟨cs, rfl⟩ := isUtf8_iff.1 h
    exact (rep_text cs eoi).symm
  · rfl

theorem decodeBytes_eq (inc input : Bytes) : decodeBytes inc input = rep (inc ++ input) false := by
  unfold decodeBytes
  split
  · next h =>
    obtain ⟨rfl, h⟩ := h
    obtain ⟨cs, rfl⟩ := isUtf8_iff.1 h
    exact (rep_text cs false).symm
  · exact repair_eq _ _

/-- What is not yet decoded, together with what follows, is decoded as the whole would be. -/
theorem rep_append (n : Nat) (x y : Bytes) (eoi : Bool) (h : x.length ≤ n) :
    rep (x ++ y) eoi = ((rep x false).1 ++ (rep ((rep x false).2 ++ y) eoi).1, (rep ((rep x false).2 ++ y) eoi).2) := by
  induction n generalizing x with
  | zero =>
    cases x with
    | nil => rfl
    | cons a r => simp at h
  | succ n ih =>
    cases x with
    | nil => rfl
    | cons a r =>
      simp only [List.length_cons] at h
      by_cases hi : classify a r false = .incomplete
      · rw [rep_cons a r false, hi]
        rfl
      · have hc := classify_append a r y eoi hi
        have hs := classify_sound a r false
        rw [List.cons_append, rep_cons a (r ++ y) eoi, hc, rep_cons a r false]
        generalize classify a r false = u at hs hi ⊢
        cases u with
        | valid k =>
          have hk : ((a :: r).drop k).length ≤ n := by
            rw [List.length_drop, List.length_cons]; have := hs.1; omega
          simp only [← List.cons_append]
          rw [List.drop_append_of_le_length hs.2.1, List.take_append_of_le_length hs.2.1, ih _ hk]
          simp
        | malformed k =>
          have hk : ((a :: r).drop k).length ≤ n := by
            rw [List.length_drop, List.length_cons]; have := hs.1; omega
          simp only [← List.cons_append]
          rw [List.drop_append_of_le_length hs.2.1, ih _ hk]
          simp
        | incomplete => exact absurd rfl hi

/-- The output of the decoder for the whole input at once. -/
def whole (bytes : Bytes) : Bytes := (rep bytes true).1

theorem whole_append (inc c y : Bytes) :
    whole (inc ++ c ++ y) = (rep (inc ++ c) false).1 ++ whole ((rep (inc ++ c) false).2 ++ y) := by
  unfold whole
  rw [rep_append _ _ _ _ (Nat.le_refl _)]

theorem decodeStream_flatten (inc : Bytes) (cs : List Bytes) :
    (decodeStream inc cs).flatten = whole (inc ++ cs.flatten) := by
  induction cs generalizing inc with
  | nil =>
    simp only [decodeStream, List.flatten_nil, List.append_nil, finish, repair_eq]
    split
    · next h => exact h.symm
    · simp [whole]
  | cons c cs ih =>
    simp only [decodeStream, decodeBytes_eq]
    rw [List.flatten_cons, ← List.append_assoc, whole_append]
    split
    · next h => rw [ih, h, List.nil_append]
    · rw [List.flatten_cons, ih]

theorem decodeStream_ne (inc : Bytes) (cs : List Bytes) : [] ∉ decodeStream inc cs := by
  induction cs generalizing inc with
  | nil =>
    simp only [decodeStream]
    split
    · simp
    · next h => simpa using h
  | cons c cs ih =>
    simp only [decodeStream]
    split
    · exact ih _
    · next h =>
      rw [List.mem_cons]
      exact fun hh => hh.elim (fun e => h e.symm) (ih _)

theorem replacement_text : IsText replacement := ⟨[Char.ofNat 0xfffd], by decide⟩

theorem take_add_one_of_drop {α : Type} {l : List α} {k : Nat} {b : α} {r : List α} (h : l.drop k = b :: r) :
    l.take (k + 1) = l.take k ++ [b] := by
  rw [List.take_add, h]
  rfl

/-- The input is made of characters, which are kept, and of other bytes, none of which is ASCII. Where no character
begins, as many bytes as can begin one, surrogates included, are replaced, or else a single byte. -/
inductive Spec.Repaired : Bytes → Bytes → Prop
  | nil : Repaired [] []
  | keep (c : Char) {i o : Bytes} (h : Repaired i o) : Repaired (enc c ++ i) (enc c ++ o)
  | replace (bad : Bytes) {i o : Bytes} (hne : bad ≠ []) (hbad : ∀ b ∈ bad, 0x80 ≤ b)
      (hstart : ∀ (c : Char) (r : Bytes), bad ++ i ≠ enc c ++ r) (hbeg : bad.length ≠ 1 → Begins bad)
      (hmax : ∀ b r, i = b :: r → ¬ Begins (bad ++ [b])) (h : Repaired i o) :
      Repaired (bad ++ i) (enc '\uFFFD' ++ o)

theorem enc_replacement : enc '\uFFFD' = replacement := by decide

theorem whole_repaired (n : Nat) (bytes : Bytes) (h : bytes.length ≤ n) : Repaired bytes (whole bytes) := by
  induction n generalizing bytes with
  | zero =>
    cases bytes with
    | nil => exact .nil
    | cons a r => simp at h
  | succ n ih =>
    cases bytes with
    | nil => exact .nil
    | cons a r =>
      simp only [List.length_cons] at h
      have hs := classify_sound a r true
      have hi := classify_end a r
      unfold whole
      rw [rep_cons]
      generalize hu : classify a r true = u at hs hi
      cases u with
      | valid k =>
        have hk : ((a :: r).drop k).length ≤ n := by
          rw [List.length_drop, List.length_cons]; have := hs.1; omega
        obtain ⟨c, hc⟩ := hs.2.2
        have := Repaired.keep c (ih _ hk)
        rw [hc, List.take_append_drop] at this
        exact this
      | malformed k =>
        have hk : ((a :: r).drop k).length ≤ n := by
          rw [List.length_drop, List.length_cons]; have := hs.1; omega
        have := Repaired.replace ((a :: r).take k) (i := (a :: r).drop k) (o := whole ((a :: r).drop k))
          (by
            intro e
            have := congrArg List.length e
            rw [List.length_take] at this
            have h1 := hs.1
            have h2 := hs.2.1
            simp at this
            omega)
          hs.2.2.1
          (by
            intro c r' e
            rw [List.take_append_drop] at e
            cases he : enc c with
            | nil => exact enc_ne_nil c he
            | cons a' t =>
              rw [he, List.cons_append] at e
              cases e
              have := classify_enc c a t r' true he
              rw [hu] at this
              cases this)
          (by
            intro hl
            rw [List.length_take, Nat.min_eq_left hs.2.1] at hl
            exact hs.2.2.2.1 hl)
          (by
            intro b r' e
            have hl : k < (a :: r).length := by
              have := congrArg List.length e
              rw [List.length_drop, List.length_cons (a := b)] at this
              omega
            have := hs.2.2.2.2 hl
            rwa [take_add_one_of_drop e] at this)
          (ih _ hk)
        rw [List.take_append_drop, enc_replacement] at this
        exact this
      | incomplete => exact absurd rfl hi

theorem repaired_text {i o : Bytes} (h : Repaired i o) : IsText o := by
  induction h with
  | nil => exact isText_nil
  | keep c _ ih => exact isText_enc_append c ih
  | replace bad _ _ _ _ _ _ ih => exact isText_enc_append _ ih

theorem enc_ascii (c : Char) : (∃ a, a < 0x80 ∧ enc c = [a]) ∨ ∀ b ∈ enc c, 0x80 ≤ b := by
  rcases enc_cases c with ⟨a, he, h⟩ | ⟨a, b, he, h⟩ | ⟨a, b, d, he, h⟩ | ⟨a, b, d, e, he, h⟩
  · exact .inl ⟨a, by omega, he⟩
  all_goals
    refine .inr fun x hx => ?_
    rw [he] at hx
    simp only [List.mem_cons, List.not_mem_nil, or_false] at hx
    omega

theorem filter_big {l : Bytes} (h : ∀ b ∈ l, 0x80 ≤ b) : l.filter (· < 0x80) = [] := by
  rw [List.filter_eq_nil_iff]
  intro a ha
  have := h a ha
  simp; omega

theorem repaired_ascii {i o : Bytes} (h : Repaired i o) : o.filter (· < 0x80) = i.filter (· < 0x80) := by
  induction h with
  | nil => rfl
  | keep c _ ih => rw [List.filter_append, List.filter_append, ih]
  | replace bad _ hbad _ _ _ _ ih =>
    rw [List.filter_append, List.filter_append, ih, filter_big hbad, enc_replacement]
    rfl

theorem enc_append_inj {c d : Char} {i j : Bytes} (h : enc c ++ i = enc d ++ j) : enc c = enc d ∧ i = j := by
  cases hc : enc c with
  | nil => exact absurd hc (enc_ne_nil c)
  | cons a t =>
    cases hd : enc d with
    | nil => exact absurd hd (enc_ne_nil d)
    | cons a' t' =>
      have h1 := classify_enc c a t i true hc
      have h2 := classify_enc d a' t' j true hd
      rw [hc, hd, List.cons_append, List.cons_append, List.cons.injEq] at h
      obtain ⟨rfl, h⟩ := h
      rw [h, h2] at h1
      have hl : (enc d).length = (enc c).length := by injection h1
      rw [hc, hd, List.length_cons, List.length_cons, Nat.add_right_cancel_iff] at hl
      obtain ⟨e1, e2⟩ := List.append_inj h hl.symm
      exact ⟨by rw [e1], e2⟩

theorem replaced_le {bad bad' i i' : Bytes} (h : bad ++ i = bad' ++ i') (hbeg : bad'.length ≠ 1 → Begins bad')
    (hne : bad ≠ []) (hmax : ∀ b r, i = b :: r → ¬ Begins (bad ++ [b])) : bad'.length ≤ bad.length := by
  refine Decidable.byContradiction fun hlt => ?_
  have hlt : bad.length < bad'.length := by omega
  have hpos := List.length_pos_iff.2 hne
  have hb' : Begins bad' := hbeg (by omega)
  cases i with
  | nil =>
    have := congrArg List.length h
    simp at this
    omega
  | cons b r =>
    refine hmax b r rfl (begins_prefix ?_ hb')
    have h1 : bad ++ [b] <+: bad' ++ i' := ⟨r, by rw [← h]; simp⟩
    have h2 : bad' <+: bad' ++ i' := List.prefix_append _ _
    exact List.prefix_of_prefix_length_le h1 h2 (by simp; omega)

theorem repaired_unique {i o o' : Bytes} (h : Repaired i o) (h' : Repaired i o') : o = o' := by
  induction h generalizing o' with
  | nil =>
    generalize he : ([] : Bytes) = x at h'
    cases h' with
    | nil => rfl
    | keep c h => exact absurd (List.append_eq_nil_iff.1 he.symm).1 (enc_ne_nil c)
    | replace bad hne => exact absurd (List.append_eq_nil_iff.1 he.symm).1 hne
  | keep c h ih =>
    generalize he : enc c ++ _ = x at h'
    cases h' with
    | nil => exact absurd (List.append_eq_nil_iff.1 he).1 (enc_ne_nil c)
    | keep d h =>
      obtain ⟨e1, rfl⟩ := enc_append_inj he
      rw [e1, ih h]
    | replace bad _ _ hstart => exact absurd he.symm (hstart _ _)
  | replace bad hne hbad hstart hbeg hmax h ih =>
    generalize he : bad ++ _ = x at h'
    cases h' with
    | nil => exact absurd (List.append_eq_nil_iff.1 he).1 hne
    | keep d h => exact absurd he (hstart _ _)
    | replace bad' hne' hbad' hstart' hbeg' hmax' h' =>
      have l1 := replaced_le he hbeg' hne hmax
      have l2 := replaced_le he.symm hbeg hne' hmax'
      obtain ⟨rfl, rfl⟩ := List.append_inj he (by omega)
      rw [ih h']

/-! ## The reader -/

/-- What a reader will still give. -/
def Reader.pending (r : Reader) : Bytes :=
  r.decoded ++ if r.finished then [] else whole (r.incomplete ++ r.input.flatten)

theorem readFrom_pending (n : Nat) (hn : 0 < n) (input : List Bytes) (inc decoded : Bytes) (fin : Bool) :
    Reader.pending ⟨input, inc, decoded, fin⟩ =
        (readFrom n input inc decoded fin).1 ++ (readFrom n input inc decoded fin).2.pending ∧
      ((readFrom n input inc decoded fin).1 = [] → Reader.pending ⟨input, inc, decoded, fin⟩ = []) := by
  induction input generalizing inc decoded with
  | nil =>
    cases decoded with
    | cons d ds =>
      refine ⟨?_, ?_⟩
      · simp only [readFrom, Reader.pending, ← List.append_assoc, List.take_append_drop]
        rfl
      · simp only [readFrom]
        intro h
        have := congrArg List.length h
        rw [List.length_take] at this
        simp at this
        omega
    | nil =>
      cases fin with
      | true => simp [readFrom, Reader.pending]
      | false =>
        simp only [readFrom, Reader.pending, finish, repair_eq]
        simp [whole]
        exact fun h => h.resolve_left (by omega)
  | cons c cs ih =>
    cases decoded with
    | cons d ds =>
      refine ⟨?_, ?_⟩
      · simp only [readFrom, Reader.pending, ← List.append_assoc, List.take_append_drop]
        rfl
      · simp only [readFrom]
        intro h
        have := congrArg List.length h
        rw [List.length_take] at this
        simp at this
        omega
    | nil =>
      cases fin with
      | true => simp [readFrom, Reader.pending]
      | false =>
        have e : Reader.pending ⟨c :: cs, inc, [], false⟩ =
            Reader.pending ⟨cs, (decode inc c).2, (decode inc c).1, false⟩ := by
          simp only [Reader.pending, decode, repair_eq, List.flatten_cons, List.nil_append, Bool.false_eq_true, if_false]
          rw [← List.append_assoc, whole_append]
        rw [e]
        simp only [readFrom]
        exact ih _ _

theorem readAll_pending (ns : List Nat) (r : Reader) (hns : ∀ n ∈ ns, 0 < n) (hl : r.pending.length < ns.length) :
    r.readAll ns = some r.pending := by
  induction ns generalizing r with
  | nil => simp at hl
  | cons n ns ih =>
    have hn := hns n (List.mem_cons_self ..)
    have hp := readFrom_pending n hn r.input r.incomplete r.decoded r.finished
    have hr : r.read n = readFrom n r.input r.incomplete r.decoded r.finished := by
      unfold Reader.read
      rw [if_neg (by omega)]
    rw [← hr] at hp
    have hp1 : r.pending = (r.read n).1 ++ (r.read n).2.pending := hp.1
    have hp2 : (r.read n).1 = [] → r.pending = [] := hp.2
    simp only [Reader.readAll]
    split
    · next h => rw [hp2 h]
    · next h =>
      have hpos := List.length_pos_iff.2 h
      rw [ih _ (fun m hm => hns m (List.mem_cons_of_mem _ hm)) (by
        have := congrArg List.length hp1
        rw [List.length_append] at this
        simp only [List.length_cons] at hl
        omega)]
      simp only
      rw [← hp1]

end Verif.Io
