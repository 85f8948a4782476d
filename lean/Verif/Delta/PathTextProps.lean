import Verif.Delta.PathText
/-!
# C115: file paths in the Delta log
-/

namespace Verif.Delta.PathText

namespace Spec

/-- A hexadecimal digit, in upper or lower case, and its value. -/
def IsHex (c v : Nat) : Prop :=
  (v < 10 ∧ c = 0x30 + v) ∨ (10 ≤ v ∧ v < 16 ∧ (c = 0x37 + v ∨ c = 0x57 + v))

/-- The percent-encodings of a byte string: every byte stands for itself or is escaped, and a percent
sign is escaped. -/
inductive Encodes : List Nat → List Nat → Prop
  | nil : Encodes [] []
  | plain {b : Nat} {p t : List Nat} (ne : b ≠ 0x25) (r : Encodes p t) : Encodes (b :: p) (b :: t)
  | escape {x y h l : Nat} {p t : List Nat} (hh : IsHex h x) (hl : IsHex l y) (r : Encodes p t) :
      Encodes ((x * 16 + y) :: p) (0x25 :: h :: l :: t)

end Spec

open Spec

theorem digit_hex {c v : Nat} (h : IsHex c v) : digit c = some v := by
  unfold digit
  rcases h with ⟨h, rfl⟩ | ⟨h1, h2, rfl | rfl⟩
  · rw [if_pos (by omega)]
    congr 1
    omega
  · rw [if_neg (by omega), if_pos (by omega)]
    congr 1
    omega
  · rw [if_neg (by omega), if_neg (by omega), if_pos (by omega)]
    congr 1
    omega

theorem decodeFuel_encodes {p t : List Nat} (h : Encodes p t) :
    ∀ n, t.length ≤ n → decodeFuel n t = p := by
  induction h with
  | nil =>
    intro n _
    cases n <;> rfl
  | plain ne r ih =>
    intro n hn
    cases n with
    | zero => simp at hn
    | succ n =>
      unfold decodeFuel
      rw [if_neg ne, ih n (by simpa using hn)]
  | escape hh hl r ih =>
    intro n hn
    cases n with
    | zero => simp at hn
    | succ n =>
      rw [decodeFuel, if_pos rfl]
      simp only [digit_hex hh, digit_hex hl]
      rw [ih n (by simp only [List.length_cons] at hn; omega)]

theorem hexDigit_hex {d : Nat} (h : d < 16) : IsHex (hexDigit d) d := by
  unfold hexDigit IsHex
  split
  · left
    exact ⟨by assumption, rfl⟩
  · right
    exact ⟨by omega, h, Or.inl rfl⟩

theorem encode_encodes (p : List Nat) (bytes : ∀ b ∈ p, b < 256) : Encodes p (encode p) := by
  induction p with
  | nil => exact .nil
  | cons b r ih =>
    have ih := ih (fun x hx => bytes x (List.mem_cons_of_mem _ hx))
    have hb := bytes b List.mem_cons_self
    rw [encode]
    split
    · have := Encodes.escape (hexDigit_hex (d := b / 16) (by omega))
        (hexDigit_hex (d := b % 16) (by omega)) ih
      rwa [Nat.div_add_mod'] at this
    · rename_i e
      refine .plain ?_ ih
      rintro rfl
      exact e (by decide)

/-- **C115, any encoding.** Every percent-encoding of a path, with digits in either case and whatever
characters it escapes besides the percent sign, is read as that path. -/
theorem C115_decode {p t : List Nat} (h : Encodes p t) : decode t = p :=
  decodeFuel_encodes h _ (Nat.le_refl _)

/-- `a b` encoded as `a%20b`, and `%` as `%25`. -/
example : Encodes [0x61, 0x20, 0x25] [0x61, 0x25, 0x32, 0x30, 0x25, 0x32, 0x35] :=
  .plain (by decide) (.escape (x := 2) (y := 0) (Or.inl (by decide)) (Or.inl (by decide))
    (.escape (x := 2) (y := 5) (Or.inl (by decide)) (Or.inl (by decide)) .nil))

/-- **C115.** A path that is written to the log is read back unchanged. -/
theorem C115_round_trip {p : List Nat} (bytes : ∀ b ∈ p, b < 256) : decode (encode p) = p :=
  C115_decode (encode_encodes p bytes)

/-- `x=%2F/é.parquet` without the extension. -/
example : (∀ b ∈ [0x78, 0x3D, 0x25, 0x32, 0x46, 0x2F, 0xC3, 0xA9], b < 256) ∧
    encode [0x78, 0x3D, 0x25, 0x32, 0x46, 0x2F, 0xC3, 0xA9] =
      [0x78, 0x3D, 0x25, 0x32, 0x35, 0x32, 0x46, 0x2F, 0x25, 0x43, 0x33, 0x25, 0x41, 0x39] := by
  decide

/-- **C115, distinct files.** Different paths are written differently. -/
theorem C115_injective {p q : List Nat} (hp : ∀ b ∈ p, b < 256) (hq : ∀ b ∈ q, b < 256)
    (h : encode p = encode q) : p = q := by
  rw [← C115_round_trip hp, h, C115_round_trip hq]

example : encode [0x25] ≠ encode [0x25, 0x32, 0x35] := by decide

theorem mem_encode {p : List Nat} {c : Nat} (hc : c ∈ encode p) :
    (c ∈ p ∧ escaped c = false) ∨ c = 0x25 ∨ ∃ d, c = hexDigit d ∧ ∃ b ∈ p, d = b / 16 ∨ d = b % 16 := by
  induction p with
  | nil => simp [encode] at hc
  | cons b r ih =>
    have lift : ((c ∈ r ∧ escaped c = false) ∨ c = 0x25 ∨
        ∃ d, c = hexDigit d ∧ ∃ b ∈ r, d = b / 16 ∨ d = b % 16) →
        (c ∈ b :: r ∧ escaped c = false) ∨ c = 0x25 ∨
        ∃ d, c = hexDigit d ∧ ∃ x ∈ b :: r, d = x / 16 ∨ d = x % 16 := by
      rintro (⟨h, k⟩ | h | ⟨d, h, x, hx, k⟩)
      · exact Or.inl ⟨List.mem_cons_of_mem _ h, k⟩
      · exact Or.inr (Or.inl h)
      · exact Or.inr (Or.inr ⟨d, h, x, List.mem_cons_of_mem _ hx, k⟩)
    rw [encode] at hc
    split at hc
    · simp only [List.mem_cons] at hc
      rcases hc with h | h | h | h
      · exact Or.inr (Or.inl h)
      · exact Or.inr (Or.inr ⟨b / 16, h, b, List.mem_cons_self, Or.inl rfl⟩)
      · exact Or.inr (Or.inr ⟨b % 16, h, b, List.mem_cons_self, Or.inr rfl⟩)
      · exact lift (ih h)
    · rename_i e
      rcases List.mem_cons.1 hc with h | h
      · refine Or.inl ⟨h ▸ List.mem_cons_self, ?_⟩
        rw [h]
        simpa using e
      · exact lift (ih h)

/-- **C115, safe characters.** What is written consists of printable ASCII characters, and of those
`\`, `{`, `^`, `}`, the backtick, `]`, `"`, `>`, `[`, `<`, `#`, `|`, `*` and `?` do not occur. -/
theorem C115_safe {p : List Nat} (bytes : ∀ b ∈ p, b < 256) {c : Nat} (hc : c ∈ encode p) :
    0x20 ≤ c ∧ c ≤ 0x7E ∧
    c ∉ [0x5C, 0x7B, 0x5E, 0x7D, 0x60, 0x5D, 0x22, 0x3E, 0x5B, 0x3C, 0x23, 0x7C, 0x2A, 0x3F] := by
  rcases mem_encode hc with ⟨-, h⟩ | rfl | ⟨d, rfl, b, hb, k⟩
  · simp only [escaped, added, Bool.or_eq_false_iff, decide_eq_false_iff_not, List.contains_eq_mem,
      List.mem_cons, List.not_mem_nil, or_false, not_or] at h
    simp only [List.mem_cons, List.not_mem_nil, or_false, not_or]
    omega
  · decide
  · have hd : d < 16 := by
      have := bytes b hb
      omega
    unfold hexDigit
    simp only [List.mem_cons, List.not_mem_nil, or_false, not_or]
    split <;> omega

example : ∀ b ∈ [0x00, 0x5C, 0xFF, 0x7F, 0x61], b < 256 := by decide

/-- **C115, directories.** The parts of a path are written one by one, with the separators between
them as they are. -/
theorem C115_directories (a b : List Nat) :
    encode (a ++ 0x2F :: b) = encode a ++ 0x2F :: encode b := by
  induction a with
  | nil => rfl
  | cons c r ih =>
    simp only [List.cons_append, encode, ih]
    split <;> rfl

example : encode ([0x25] ++ 0x2F :: [0x41]) = [0x25, 0x32, 0x35, 0x2F, 0x41] := by decide

end Verif.Delta.PathText
