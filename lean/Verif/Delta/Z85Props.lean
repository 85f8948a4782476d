import Verif.Delta.Z85

/-
C44: deletion vectors survive their text encoding.
-/

namespace Verif.Delta.Z85

/-! ### Alphabet -/

theorem chars_length : chars.length = 85 := by decide

theorem chars_roundtrip : ∀ i : Fin 85, chars.idxOf? (chars.getD i.val 0) = some i.val := by decide

theorem charValue_getD (i : Nat) (h : i < 85) : charValue (chars.getD i 0) = .ok i := by
  have := chars_roundtrip ⟨i, h⟩
  simp only at this
  simp only [charValue, this]

theorem charValue_ok {c : Byte} {i : Nat} (h : charValue c = .ok i) : i < 85 ∧ chars.getD i 0 = c := by
  unfold charValue at h
  split at h
  · rename_i j hj
    cases h
    rw [List.idxOf?, List.findIdx?_eq_some_iff_getElem] at hj
    obtain ⟨hl, hc, -⟩ := hj
    rw [chars_length] at hl
    refine ⟨hl, ?_⟩
    rw [List.getD_eq_getElem?_getD, List.getElem?_eq_getElem (by rw [chars_length]; exact hl)]
    simpa using hc
  · cases h

/-! ### Groups -/

theorem groupValue_five {a b c d e : Byte} {i j k l m : Nat}
    (ha : charValue a = .ok i) (hb : charValue b = .ok j) (hc : charValue c = .ok k)
    (hd : charValue d = .ok l) (he : charValue e = .ok m) :
    groupValue [a, b, c, d, e] = .ok ((((i * 85 + j) * 85 + k) * 85 + l) * 85 + m) := by
  simp [groupValue, List.foldlM, ha, hb, hc, hd, he, bind, Except.bind, pure, Except.pure]

theorem digits_five (v : Nat) :
    digits 5 v = [v / 85 / 85 / 85 / 85 % 85, v / 85 / 85 / 85 % 85, v / 85 / 85 % 85, v / 85 % 85, v % 85] := by
  simp [digits]

theorem fromBe_lt (a b c d : Byte) : fromBe a b c d < 2 ^ 32 := by
  have := a.toNat_lt; have := b.toNat_lt; have := c.toNat_lt; have := d.toNat_lt
  unfold fromBe; omega

theorem groupValue_digits {v : Nat} (h : v < 2 ^ 32) :
    groupValue ((digits 5 v).map fun i => chars.getD i 0) = .ok v := by
  rw [digits_five]
  simp only [List.map_cons, List.map_nil]
  rw [groupValue_five (charValue_getD _ (Nat.mod_lt _ (by decide))) (charValue_getD _ (Nat.mod_lt _ (by decide)))
    (charValue_getD _ (Nat.mod_lt _ (by decide))) (charValue_getD _ (Nat.mod_lt _ (by decide)))
    (charValue_getD _ (Nat.mod_lt _ (by decide)))]
  congr 1
  omega

theorem toBe_fromBe (a b c d : Byte) : toBe (fromBe a b c d) = [a, b, c, d] := by
  have ha := a.toNat_lt; have hb := b.toNat_lt; have hc := c.toNat_lt; have hd := d.toNat_lt
  have h := fromBe_lt a b c d
  have key : ∀ (x : Byte) (n : Nat), n % 256 = x.toNat → UInt8.ofNat n = x := by
    intro x n hn
    apply UInt8.toNat_inj.mp
    rw [UInt8.toNat_ofNat']
    exact hn
  simp only [toBe, Nat.mod_eq_of_lt h]
  rw [key a, key b, key c, key d] <;> unfold fromBe <;> omega

theorem fromBe_toBe {v : Nat} (h : v < 2 ^ 32) :
    ∃ a b c d, toBe v = [a, b, c, d] ∧ fromBe a b c d = v := by
  refine ⟨_, _, _, _, rfl, ?_⟩
  simp only [fromBe, UInt8.toNat_ofNat', Nat.mod_eq_of_lt h]
  omega

theorem decode_chunk (a b c d : Byte) (rest : List Byte) :
    decodeChunks ((digits 5 (fromBe a b c d)).map (fun i => chars.getD i 0) ++ rest)
      = (decodeChunks rest).map ([a, b, c, d] ++ ·) := by
  have hg := groupValue_digits (fromBe_lt a b c d)
  rw [digits_five] at hg ⊢
  simp only [List.map_cons, List.map_nil] at hg ⊢
  simp only [List.cons_append, List.nil_append, decodeChunks, hg, toBe_fromBe, bind, Except.bind, pure, Except.pure]
  cases decodeChunks rest <;> rfl

theorem decode_encodeChunks (data : List Byte) (h : data.length % 4 = 0) :
    decodeChunks (encodeChunks data) = .ok data ∧ (encodeChunks data).length % 5 = 0 := by
  induction data using encodeChunks.induct with
  | case1 a b c d rest ih =>
    have h' : rest.length % 4 = 0 := by simp only [List.length_cons] at h; omega
    obtain ⟨h1, h2⟩ := ih h'
    rw [encodeChunks, decode_chunk, h1]
    refine ⟨rfl, ?_⟩
    simp [digits_five]; omega
  | case2 data hne =>
    match data, hne, h with
    | [], _, _ => exact ⟨rfl, rfl⟩
    | [_], _, h => simp at h
    | [_, _], _, h => simp at h
    | [_, _, _], _, h => simp at h
    | a :: b :: c :: d :: rest, hne, _ => exact (hne a b c d rest rfl).elim

/-! ### C44 -/

/-- Encoding is refused exactly for lengths that are no multiple of four; otherwise decoding the text
returns the bytes. -/
theorem C44_round_trip (data : List Byte) (h : data.length % 4 = 0) :
    ∃ text, encode data = .ok text ∧ decode text = .ok data := by
  obtain ⟨h1, h2⟩ := decode_encodeChunks data h
  exact ⟨encodeChunks data, by simp [encode, h], by simp [decode, h1, h2]⟩

example : (encode [0x86, 0x4F, 0xD2, 0x6F, 0xB5, 0x59, 0xF7, 0x5B]).bind decode
    = .ok [0x86, 0x4F, 0xD2, 0x6F, 0xB5, 0x59, 0xF7, 0x5B] := by decide

/-- For any length, decoding the text of the padded encoder returns the bytes followed by fewer than
four zero bytes. -/
theorem C44_padded_round_trip (data : List Byte) :
    ∃ text pad, encodePadded data = .ok text ∧ decode text = .ok (data ++ List.replicate pad 0)
      ∧ pad < 4 ∧ (data.length + pad) % 4 = 0 := by
  by_cases h : data.length % 4 = 0
  · obtain ⟨text, h1, h2⟩ := C44_round_trip data h
    exact ⟨text, 0, by simp [encodePadded, h, h1], by simpa using h2, by decide, by omega⟩
  · obtain ⟨text, h1, h2⟩ := C44_round_trip (data ++ List.replicate (4 - data.length % 4) 0)
      (by simp only [List.length_append, List.length_replicate]; omega)
    exact ⟨text, 4 - data.length % 4, by simp [encodePadded, h, h1], h2, by omega, by omega⟩

example : (encodePadded [1, 2, 3]).bind decode = .ok [1, 2, 3, 0] := by decide

/-- Different inputs have different encodings. -/
theorem C44_encode_injective (d₁ d₂ text : List Byte) (h₁ : encode d₁ = .ok text) (h₂ : encode d₂ = .ok text) :
    d₁ = d₂ := by
  have key : ∀ d, encode d = .ok text → decode text = .ok d := by
    intro d hd
    by_cases h : d.length % 4 = 0
    · obtain ⟨t, h1, h2⟩ := C44_round_trip d h
      rw [hd] at h1; cases h1; exact h2
    · simp [encode, h] at hd
  have := (key d₁ h₁).symm.trans (key d₂ h₂)
  exact Except.ok.inj this

example : encode [0, 0, 0, 1] ≠ encode [0, 0, 1, 0] := by decide

/-- Text with a character outside the alphabet, or of a length that is no multiple of five, is
refused. -/
theorem C44_bad_text_refused (text : List Byte)
    (h : text.length % 5 ≠ 0 ∨ ∃ c ∈ text, c ∉ chars) : ∀ d, decode text ≠ .ok d := by
  intro d hd
  unfold decode at hd
  split at hd
  · cases hd
  rename_i hl
  obtain h | ⟨c, hc, hn⟩ := h
  · exact hl h
  have hl : text.length % 5 = 0 := by omega
  induction text using decodeChunks.induct generalizing d with
  | case1 a b c' d' e rest ih =>
    have hl' : rest.length % 5 = 0 := by simp only [List.length_cons] at hl; omega
    have none_of : ∀ x, x ∉ chars → charValue x = .error .character := by
      intro x hx
      unfold charValue
      split
      · rename_i i hi
        rw [List.idxOf?, List.findIdx?_eq_some_iff_getElem] at hi
        obtain ⟨hl, hc, -⟩ := hi
        have : chars[i] = x := by simpa using hc
        exact (hx (this ▸ List.getElem_mem hl)).elim
      · rfl
    simp only [decodeChunks, bind, Except.bind] at hd
    split at hd
    · cases hd
    rename_i v hv
    split at hd
    · cases hd
    rename_i t ht
    by_cases hr : c ∈ rest
    · exact ih _ (by omega) ht hr hl'
    · simp only [List.mem_cons, hr, or_false] at hc
      simp only [groupValue, List.foldlM, bind, Except.bind, pure, Except.pure] at hv
      obtain rfl | rfl | rfl | rfl | rfl := hc <;> rw [none_of _ hn] at hv <;>
        (repeat' split at hv) <;> simp_all
  | case2 text hne =>
    match text, hne, hl with
    | [], _, _ => cases hc
    | [_], _, hl => simp at hl
    | [_, _], _, hl => simp at hl
    | [_, _, _], _, hl => simp at hl
    | [_, _, _, _], _, hl => simp at hl
    | a :: b :: c :: d :: e :: rest, hne, _ => exact hne a b c d e rest rfl

example : decode [48, 48, 48, 48, 32] = .error .character := by decide

/-- The last part of C44 is false for groups whose value exceeds 32 bits: `#####` is not the encoding of
any bytes, but it is decoded. -/
theorem C44_overflow_accepted :
    decode [35, 35, 35, 35, 35] = .ok [8, 120, 14, 196] ∧ ∀ d, encode d ≠ .ok [35, 35, 35, 35, 35] := by
  have h : decode [35, 35, 35, 35, 35] = .ok [8, 120, 14, 196] := by decide
  refine ⟨h, fun d hd => ?_⟩
  have hl : d.length % 4 = 0 := by
    refine Decidable.byContradiction fun hn => ?_
    simp [encode, hn] at hd
  obtain ⟨t, h1, h2⟩ := C44_round_trip d hl
  rw [hd] at h1; cases h1
  rw [h] at h2; cases h2
  revert hd
  decide

/-- The value of every group of five characters fits 32 bits. -/
def Spec.Fits (text : List Byte) : Prop :=
  ∀ k v, groupValue ((text.drop (5 * k)).take 5) = .ok v → v < 2 ^ 32

/-- What holds of the last part: text whose groups all fit 32 bits is decoded only if it is the encoding
of the decoded bytes.  Missing: groups above 32 bits are accepted (`C44_overflow_accepted`). -/
theorem C44_decode_canonical_partial (text d : List Byte) (hf : Spec.Fits text) (hd : decode text = .ok d) :
    encode d = .ok text := by
  unfold decode at hd
  split at hd
  · cases hd
  rename_i hl
  have hl : text.length % 5 = 0 := by omega
  suffices h : d.length % 4 = 0 ∧ encodeChunks d = text by simp [encode, h.1, h.2]
  induction text using decodeChunks.induct generalizing d with
  | case1 a b c d' e rest ih =>
    have hl' : rest.length % 5 = 0 := by simp only [List.length_cons] at hl; omega
    simp only [decodeChunks, bind, Except.bind, pure, Except.pure] at hd
    split at hd
    · cases hd
    rename_i v hv
    split at hd
    · cases hd
    rename_i t ht
    cases hd
    have hf' : Spec.Fits rest := by
      intro k w hw
      refine hf (k + 1) w ?_
      have : 5 * (k + 1) = 5 * k + 1 + 1 + 1 + 1 + 1 := by omega
      rw [this]
      exact hw
    obtain ⟨h1, h2⟩ := ih _ hf' (by omega) ht hl'
    have hv32 : v < 2 ^ 32 := hf 0 v (by simpa using hv)
    obtain ⟨w, x, y, z, hb, hfb⟩ := fromBe_toBe hv32
    rw [hb]
    refine ⟨by simp only [List.length_append, List.length_cons, List.length_nil]; omega, ?_⟩
    simp only [List.cons_append, List.nil_append, encodeChunks, h2, hfb]
    -- the group
    simp only [groupValue, List.foldlM, bind, Except.bind, pure, Except.pure] at hv
    cases ha : charValue a with
    | error => simp [ha] at hv
    | ok i =>
    cases hb' : charValue b with
    | error => simp [ha, hb'] at hv
    | ok j =>
    cases hc : charValue c with
    | error => simp [ha, hb', hc] at hv
    | ok k =>
    cases hd' : charValue d' with
    | error => simp [ha, hb', hc, hd'] at hv
    | ok l =>
    cases he : charValue e with
    | error => simp [ha, hb', hc, hd', he] at hv
    | ok m =>
    simp only [ha, hb', hc, hd', he, Except.ok.injEq] at hv
    obtain ⟨i1, i2⟩ := charValue_ok ha
    obtain ⟨j1, j2⟩ := charValue_ok hb'
    obtain ⟨k1, k2⟩ := charValue_ok hc
    obtain ⟨l1, l2⟩ := charValue_ok hd'
    obtain ⟨m1, m2⟩ := charValue_ok he
    rw [digits_five]
    have e1 : v / 85 / 85 / 85 / 85 % 85 = i := by omega
    have e2 : v / 85 / 85 / 85 % 85 = j := by omega
    have e3 : v / 85 / 85 % 85 = k := by omega
    have e4 : v / 85 % 85 = l := by omega
    have e5 : v % 85 = m := by omega
    rw [e1, e2, e3, e4, e5]
    simp only [List.map_cons, List.map_nil, i2, j2, k2, l2, m2, List.cons_append, List.nil_append]
  | case2 text hne =>
    match text, hne, hl with
    | [], _, _ => simp [decodeChunks] at hd; subst hd; exact ⟨rfl, rfl⟩
    | [_], _, hl => simp at hl
    | [_, _], _, hl => simp at hl
    | [_, _, _], _, hl => simp at hl
    | [_, _, _, _], _, hl => simp at hl
    | a :: b :: c :: d :: e :: rest, hne, _ => exact (hne a b c d e rest rfl).elim

example : Spec.Fits [48, 48, 48, 49, 50] ∧ decode [48, 48, 48, 49, 50] = .ok [0, 0, 0, 87] := by
  refine ⟨fun k v h => ?_, by decide⟩
  cases k with
  | zero =>
    have : groupValue [48, 48, 48, 49, 50] = .ok 87 := by decide
    have h' : groupValue [48, 48, 48, 49, 50] = .ok v := h
    rw [this] at h'; cases h'; decide
  | succ k =>
    have hl : List.drop (5 * (k + 1)) ([48, 48, 48, 49, 50] : List Byte) = [] :=
      List.drop_eq_nil_of_le (by simp only [List.length_cons, List.length_nil]; omega)
    rw [hl] at h
    have h' : (Except.ok 0 : Except Err Nat) = .ok v := h
    cases h'; decide

end Verif.Delta.Z85
