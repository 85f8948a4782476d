import Verif.Delta.PartValue

/-!
# C122: partition values are read back from the Delta log as they were written
-/

namespace Verif.Delta.PartValue

namespace Spec

/-- The value can be the value of a column of the type. -/
def hasType : PVal → PTy → Prop
  | .null, _ => True
  | .text _, .text => True
  | .int _, .int => True
  | .bool _, .bool => True
  | .decimal _ s, .decimal s' => s = s'
  | .binary _, .binary => True
  | _, _ => False

/-- No empty text, no text that marks null, no binary value, no negative decimal with a fraction. -/
def good : PVal → Prop
  | .null => True
  | .text s => s ≠ [] ∧ s ≠ hiveNull
  | .int _ => True
  | .bool _ => True
  | .decimal bits scale => 0 ≤ bits ∨ scale ≤ 0 ∨ (10 : Int) ^ scale.toNat ∣ bits
  | .binary _ => False

end Spec

/-- A text of digits. -/
def Digits (t : Text) : Prop := ∀ c ∈ t, c.isDigit = true

theorem digits_toDigits (n : Nat) : Digits (Nat.toDigits 10 n) := fun _ h =>
  Nat.isDigit_of_mem_toDigits (by decide) (by decide) h

theorem digits_replicate (k : Nat) : Digits (List.replicate k '0') := fun c h => by
  rw [(List.mem_replicate.mp h).2]; decide

theorem digits_append {a b : Text} (ha : Digits a) (hb : Digits b) : Digits (a ++ b) := fun c h => by
  rcases List.mem_append.mp h with h | h
  · exact ha c h
  · exact hb c h

theorem readNat_digits (t : Text) (h : Digits t) (hne : t ≠ []) : readNat t = some (Nat.ofDigitChars 10 t 0) :=
  if_pos ⟨hne, List.all_eq_true.2 h⟩

theorem readNat_bad (t : Text) (c : Char) (hc : c ∈ t) (hd : c.isDigit = false) : readNat t = none :=
  if_neg (by
    rintro ⟨_, h⟩
    have := List.all_eq_true.1 h c hc
    rw [hd] at this
    cases this)

theorem not_dash {c : Char} (h : c.isDigit = true) : c ≠ '-' := by rintro rfl; revert h; decide
theorem not_point {c : Char} (h : c.isDigit = true) : c ≠ '.' := by rintro rfl; revert h; decide
theorem not_underscore {c : Char} (h : c.isDigit = true) : c ≠ '_' := by rintro rfl; revert h; decide

/-- Reading a text that begins with a digit takes the case without a sign. -/
theorem readInt_digits (t : Text) (h : Digits t) (hne : t ≠ []) :
    readInt t = some (Nat.ofDigitChars 10 t 0 : Int) := by
  cases t with
  | nil => exact absurd rfl hne
  | cons c t =>
    have : c ≠ '-' := not_dash (h c List.mem_cons_self)
    rw [readInt.eq_2 _ (by rintro t' ⟨rfl, _⟩; exact this rfl), readNat_digits _ h hne]
    rfl

theorem readInt_intText (i : Int) : readInt (intText i) = some i := by
  by_cases hi : i < 0
  · simp only [intText, hi, if_true, List.cons_append, List.nil_append, readInt,
      readNat_digits _ (digits_toDigits _) Nat.toDigits_ne_nil, Nat.ofDigitChars_ten_toDigits, Option.map_some]
    congr 1; omega
  · simp only [intText, hi, if_false, List.nil_append]
    rw [readInt_digits _ (digits_toDigits _) Nat.toDigits_ne_nil, Nat.ofDigitChars_ten_toDigits]
    congr 1; omega

/-- Texts of numbers are not empty and do not mark null. -/
def numberLike : Text → Prop
  | [] => False
  | c :: _ => c = '-' ∨ c.isDigit = true

theorem numberLike_ok (t : Text) (h : numberLike t) : ¬ (t = [] ∨ t = hiveNull) := by
  rintro (rfl | rfl)
  · exact h
  · rcases (show '_' = '-' ∨ '_'.isDigit = true from h) with h | h <;> revert h <;> decide

theorem numberLike_append (a b : Text) (h : numberLike a) : numberLike (a ++ b) := by
  cases a with
  | nil => exact h.elim
  | cons c a => exact h

theorem numberLike_intText (i : Int) : numberLike (intText i) := by
  simp only [intText]
  split
  · exact .inl rfl
  · have h := digits_toDigits i.natAbs
    have hne : Nat.toDigits 10 i.natAbs ≠ [] := Nat.toDigits_ne_nil
    simp only [List.nil_append]
    cases ht : Nat.toDigits 10 i.natAbs with
    | nil => exact absurd ht hne
    | cons c t => exact .inr (h c (ht ▸ List.mem_cons_self))

theorem takeWhile_digits (a f : Text) (h : Digits a) :
    (a ++ '.' :: f).takeWhile (· ≠ '.') = a ∧ (a ++ '.' :: f).dropWhile (· ≠ '.') = '.' :: f := by
  induction a with
  | nil => simp
  | cons c a ih =>
    have hc : c ≠ '.' := not_point (h c List.mem_cons_self)
    have ih := ih (fun x hx => h x (List.mem_cons_of_mem _ hx))
    rw [List.cons_append, List.takeWhile_cons_of_pos (by simpa using hc), List.dropWhile_cons_of_pos (by simpa using hc)]
    exact ⟨by rw [ih.1], ih.2⟩

theorem dropWhile_all (a : Text) (h : Digits a) : a.dropWhile (· ≠ '.') = [] := by
  induction a with
  | nil => rfl
  | cons c a ih =>
    rw [List.dropWhile_cons_of_pos (by simpa using not_point (h c List.mem_cons_self))]
    exact ih (fun x hx => h x (List.mem_cons_of_mem _ hx))

theorem readUnsigned_whole (scale : Int) (t : Text) (h : Digits t) (hne : t ≠ []) :
    readUnsigned scale t = atScale (Nat.ofDigitChars 10 t 0) 0 scale := by
  simp only [readUnsigned, dropWhile_all t h, readNat_digits t h hne, Option.bind_some]

theorem readUnsigned_point (scale : Int) (a f : Text) (ha : Digits a) (hf : Digits f) (hne : f ≠ []) :
    readUnsigned scale (a ++ '.' :: f) = atScale (Nat.ofDigitChars 10 (a ++ f) 0) f.length scale := by
  simp only [readUnsigned, (takeWhile_digits a f ha).1, (takeWhile_digits a f ha).2, readNat_digits f hf hne,
    Option.isNone_some, Bool.false_eq_true, if_false,
    readNat_digits (a ++ f) (digits_append ha hf) (by simp [hne]), Option.bind_some]

theorem readDecimal_pos (scale : Int) (t : Text) (h : ∀ c r, t = c :: r → c ≠ '-') :
    readDecimal scale t = (readUnsigned scale t).map (fun n : Nat => (n : Int)) := by
  cases t with
  | nil => rfl
  | cons c r => exact readDecimal.eq_2 _ _ (by rintro t' ⟨rfl, _⟩; exact h _ _ rfl rfl)

theorem padLeft_digits (s n : Nat) (hs : 0 < s) (hn : n < 10 ^ s) :
    Digits (padLeft s (Nat.toDigits 10 n)) ∧ (padLeft s (Nat.toDigits 10 n)).length = s ∧
      Nat.ofDigitChars 10 (padLeft s (Nat.toDigits 10 n)) 0 = n := by
  refine ⟨digits_append (digits_replicate _) (digits_toDigits _), ?_, ?_⟩
  · have := (Nat.length_toDigits_le_iff (b := 10) (n := n) (k := s) (by decide) hs).mpr hn
    simp only [padLeft, List.length_append, List.length_replicate]; omega
  · rw [padLeft, Nat.ofDigitChars_append, Nat.ofDigitChars_replicate_zero, Nat.mul_zero, Nat.ofDigitChars_ten_toDigits]

/-- A number with `s` digits after the point. -/
theorem readUnsigned_digits (s n : Nat) (hs : 0 < s) :
    readUnsigned s (Nat.toDigits 10 (n / 10 ^ s) ++ '.' :: padLeft s (Nat.toDigits 10 (n % 10 ^ s))) = some n := by
  have hp : 0 < 10 ^ s := Nat.pow_pos (by decide)
  obtain ⟨h1, h2, h3⟩ := padLeft_digits s (n % 10 ^ s) hs (Nat.mod_lt _ hp)
  rw [readUnsigned_point _ _ _ (digits_toDigits _) h1 (by intro e; rw [e] at h2; simp at h2; omega),
    Nat.ofDigitChars_append, Nat.ofDigitChars_ten_toDigits, Nat.ofDigitChars_eq_ofDigitChars_zero, h3, h2]
  simp only [atScale, Int.le_refl, if_true, Int.sub_self, Int.toNat_zero, Nat.pow_zero, Nat.mul_one]
  rw [Nat.div_add_mod]

theorem head_digits (t u : Text) (h : Digits t) (hne : t ≠ []) : ∀ c r, t ++ u = c :: r → c ≠ '-' := by
  intro c r e
  cases t with
  | nil => exact absurd rfl hne
  | cons d t =>
    cases e
    exact not_dash (h _ List.mem_cons_self)

theorem readDecimal_decimalText (bits scale : Int)
    (h : 0 ≤ bits ∨ scale ≤ 0 ∨ (10 : Int) ^ scale.toNat ∣ bits) :
    readDecimal scale (decimalText bits scale) = some bits := by
  -- a whole number of units, followed by zeros
  have whole : ∀ k : Nat, scale = -(k : Int) →
      readDecimal scale (intText bits ++ List.replicate k '0') = some bits := by
    intro k hk
    have hd : Digits (Nat.toDigits 10 bits.natAbs ++ List.replicate k '0') :=
      digits_append (digits_toDigits _) (digits_replicate _)
    have hne : Nat.toDigits 10 bits.natAbs ++ List.replicate k '0' ≠ [] := by simp [Nat.toDigits_ne_nil]
    have hu : readUnsigned scale (Nat.toDigits 10 bits.natAbs ++ List.replicate k '0') = some bits.natAbs := by
      rw [readUnsigned_whole _ _ hd hne, Nat.ofDigitChars_append, Nat.ofDigitChars_ten_toDigits,
        Nat.ofDigitChars_replicate_zero]
      have hp : 0 < 10 ^ k := Nat.pow_pos (by decide)
      by_cases h0 : k = 0
      · subst h0; simp [atScale, hk]
      · rw [atScale, if_neg (by simp only [hk]; omega)]
        rw [show (((0 : Nat) : Int) - scale).toNat = k by omega, Nat.mul_mod_right, if_pos rfl, Nat.mul_div_cancel_left _ hp]
    by_cases hb : bits < 0
    · simp only [intText, hb, if_true, List.cons_append, List.nil_append, readDecimal, hu, Option.map_some]
      congr 1; omega
    · simp only [intText, hb, if_false, List.nil_append]
      rw [readDecimal_pos _ _ (head_digits _ _ (digits_toDigits _) Nat.toDigits_ne_nil), hu, Option.map_some]
      congr 1; omega
  by_cases h0 : scale = 0
  · have := whole 0 (by omega)
    simpa [decimalText, h0] using this
  by_cases hp : 0 < scale
  · obtain ⟨s, rfl⟩ : ∃ s : Nat, scale = s := ⟨scale.toNat, by omega⟩
    have hs : 0 < s := by omega
    have hpow : ((10 : Int) ^ s) = ((10 ^ s : Nat) : Int) := by simp
    simp only [decimalText, h0, hp, if_false, if_true, Int.toNat_natCast]
    have hP : 0 < 10 ^ s := Nat.pow_pos (by decide)
    by_cases hb : 0 ≤ bits
    · obtain ⟨n, rfl⟩ : ∃ n : Nat, bits = n := ⟨bits.toNat, by omega⟩
      rw [hpow, ← Int.ofNat_tdiv, ← Int.ofNat_tmod]
      simp only [intText, show ∀ k : Nat, ¬ ((k : Int) < 0) from fun k => by omega, if_false, List.nil_append, Int.natAbs_natCast]
      rw [readDecimal_pos _ _ (head_digits _ _ (digits_toDigits _) Nat.toDigits_ne_nil), readUnsigned_digits s n hs]
      rfl
    · have hdvd : (10 : Int) ^ s ∣ bits := by
        rcases h with h | h | h
        · exact absurd h hb
        · omega
        · simpa using h
      obtain ⟨q, hq⟩ := hdvd
      have hqn : q < 0 := by
        rcases Int.lt_or_le q 0 with h | h
        · exact h
        · exact absurd (Int.mul_nonneg (show (0 : Int) ≤ 10 ^ s by rw [hpow]; omega) h) (by rw [← hq]; exact hb)
      obtain ⟨n, hn⟩ : ∃ n : Nat, q = -(n : Int) := ⟨(-q).toNat, by omega⟩
      have hn0 : n ≠ 0 := by omega
      have e1 : bits.tdiv (10 ^ s) = -(n : Int) := by
        rw [hq, Int.mul_tdiv_cancel_left _ (by rw [hpow]; omega), hn]
      have e2 : bits.tmod (10 ^ s) = 0 := by rw [hq, Int.mul_tmod_right]
      have hbits : bits.natAbs = 10 ^ s * n := by rw [hq, hn, hpow, Int.natAbs_mul, Int.natAbs_neg]; simp
      rw [e1, e2]
      have t0 : intText 0 = Nat.toDigits 10 0 := rfl
      have t1 : intText (-(n : Int)) = '-' :: Nat.toDigits 10 n := by
        simp only [intText, show -(n : Int) < 0 by omega, if_true, List.cons_append, List.nil_append, Int.natAbs_neg, Int.natAbs_natCast]
      rw [t0, t1, List.cons_append]
      simp only [readDecimal]
      have := readUnsigned_digits s bits.natAbs hs
      rw [hbits, Nat.mul_div_cancel_left _ hP, Nat.mul_mod_right] at this
      rw [this, ← hbits, Option.map_some]
      congr 1; omega
  · have := whole (-scale).toNat (by omega)
    simpa [decimalText, h0, hp] using this

theorem numberLike_decimalText (bits scale : Int) : numberLike (decimalText bits scale) := by
  simp only [decimalText]
  split
  · exact numberLike_intText _
  · split
    · exact numberLike_append _ _ (numberLike_intText _)
    · exact numberLike_append _ _ (numberLike_intText _)

/-- C122, part: every partition value is read back as it was written, except empty texts, the text that
marks null, binary values and negative decimals with a fraction (`C122_negative_fraction`,
`C122_null_texts`, `C122_binary`). -/
theorem C122_read_back_partial (v : PVal) (ty : PTy) (ht : Spec.hasType v ty) (hg : Spec.good v) :
    parse ty (serialize v) = some v := by
  cases v with
  | null => rfl
  | text s =>
    cases ty <;> try exact ht.elim
    simp only [serialize, parse, castText]
    rw [if_neg (by exact fun h => h.elim hg.1 hg.2)]
  | int i =>
    cases ty <;> try exact ht.elim
    simp only [serialize, parse, castText, if_neg (numberLike_ok _ (numberLike_intText i)), readInt_intText, Option.map_some]
  | bool b =>
    cases ty <;> try exact ht.elim
    cases b <;> decide
  | decimal bits scale =>
    cases ty <;> try exact ht.elim
    cases (show scale = _ from ht)
    simp only [serialize, parse, castText, if_neg (numberLike_ok _ (numberLike_decimalText bits scale)),
      readDecimal_decimalText bits scale hg, Option.map_some]
  | binary _ => exact hg.elim

example : parse (.decimal 2) (serialize (.decimal (-1500) 2)) = some (.decimal (-1500) 2) ∧
    serialize (.decimal (-1500) 2) = some "-15.00".toList ∧
    serialize (.decimal 7 3) = some "0.007".toList ∧ serialize (.decimal (-7) (-2)) = some "-700".toList :=
  ⟨C122_read_back_partial _ _ rfl (.inr (.inr ⟨-15, by decide⟩)), by decide, by decide, by decide⟩

example : parse .text (serialize (.text "__HIVE".toList)) = some (.text "__HIVE".toList) :=
  C122_read_back_partial _ _ trivial ⟨by decide, by decide⟩

/-- C122 fails for every negative decimal with a fraction: the fraction is written with a sign of its
own, and the text is no number. -/
theorem C122_negative_fraction (bits : Int) (s : Nat) (h0 : bits < 0) (hs : 0 < s) (h : ¬ (10 : Int) ^ s ∣ bits) :
    parse (.decimal s) (serialize (.decimal bits s)) = none := by
  have hne : bits.tmod (10 ^ s) ≠ 0 := fun e => h (Int.dvd_of_tmod_eq_zero e)
  have hP : (0 : Int) < 10 ^ s := Int.pow_pos (by decide)
  have hlt : bits.tmod (10 ^ s) < 0 := by
    have := Int.tmod_nonneg (a := -bits) ((10 : Int) ^ s) (by omega)
    rw [Int.neg_tmod] at this
    omega
  simp only [serialize, parse, if_neg (numberLike_ok _ (numberLike_decimalText bits s)), castText]
  have e : decimalText bits s = intText (bits.tdiv (10 ^ s)) ++ '.' :: padLeft s (intText (bits.tmod (10 ^ s))) := by
    simp only [decimalText, show ¬ ((s : Int) = 0) by omega, show (0 : Int) < s by omega, if_true, if_false, Int.toNat_natCast]
  have hmem : '-' ∈ padLeft s (intText (bits.tmod (10 ^ s))) := by
    simp [padLeft, intText, hlt]
  have hbad := readNat_bad _ '-' hmem (by decide)
  have key : ∀ a : Text, Digits a → readUnsigned s (a ++ '.' :: padLeft s (intText (bits.tmod (10 ^ s)))) = none := by
    intro a ha
    simp only [readUnsigned, (takeWhile_digits a _ ha).2, hbad, Option.isNone_none, if_true]
  rw [e]
  by_cases hq : bits.tdiv (10 ^ s) < 0
  · simp only [intText, hq, if_true, List.cons_append, List.nil_append, readDecimal]
    rw [show ((if bits.tmod (10 ^ s) < 0 then ['-'] else []) ++ Nat.toDigits 10 (bits.tmod (10 ^ s)).natAbs) =
      intText (bits.tmod (10 ^ s)) from rfl, key _ (digits_toDigits _)]
    rfl
  · have ei : intText (bits.tdiv (10 ^ s)) = Nat.toDigits 10 (bits.tdiv (10 ^ s)).natAbs := by
      simp [intText, hq]
    rw [ei, readDecimal_pos _ _ (head_digits _ _ (digits_toDigits _) Nat.toDigits_ne_nil), key _ (digits_toDigits _)]
    rfl

example : serialize (.decimal (-150) 2) = some "-1.-50".toList ∧ serialize (.decimal (-5) 2) = some "0.-5".toList ∧
    parse (.decimal 2) (serialize (.decimal (-150) 2)) = none :=
  ⟨by decide, by decide, C122_negative_fraction (-150) 2 (by decide) (by decide) (by decide)⟩

/-- C122 fails for empty texts and for the text that marks null: both are read as null. -/
theorem C122_null_texts : parse .text (serialize (.text [])) = some .null ∧
    parse .text (serialize (.text hiveNull)) = some .null := by decide

theorem binaryText_length (bytes : List Nat) : (binaryText bytes).length = 6 * bytes.length := by
  induction bytes with
  | nil => rfl
  | cons b bytes ih =>
    simp only [binaryText, List.flatMap_cons, List.length_append] at ih ⊢
    rw [ih]; simp; omega

/-- C122 fails for every binary value: an empty one is read as null, another one as a value of six
times the length. -/
theorem C122_binary (bytes : List Nat) :
    parse .binary (serialize (.binary bytes)) ≠ some (.binary bytes) ∧
      (bytes ≠ [] → ∃ b', parse .binary (serialize (.binary bytes)) = some (.binary b') ∧ b'.length = 6 * bytes.length) := by
  cases bytes with
  | nil => exact ⟨by decide, fun h => absurd rfl h⟩
  | cons b bytes =>
    have hp : parse .binary (serialize (.binary (b :: bytes))) = some (.binary (utf8 (binaryText (b :: bytes)))) := by
      simp only [serialize, parse, castText]
      rw [if_neg]
      rintro (h | h)
      · exact List.cons_ne_nil _ _ h
      · have := (List.cons.inj (h.trans (show hiveNull = '_' :: "_HIVE_DEFAULT_PARTITION__".toList by decide))).1
        revert this; decide
    rw [hp]
    refine ⟨?_, fun _ => ⟨_, rfl, by rw [utf8, List.length_map, binaryText_length]⟩⟩
    intro e
    have e := congrArg List.length (PVal.binary.inj (Option.some.inj e))
    rw [utf8, List.length_map, binaryText_length] at e
    simp only [List.length_cons] at e
    omega

example : serialize (.binary [171]) = some "\\u00AB".toList := by decide

end Verif.Delta.PartValue
