import Verif.Func.Digits
import Verif.Func.ListArray

/-!
# C71: hex, unhex, bin and conv are faithful
-/
namespace Verif.Func.Digits

namespace Spec

/-- The number written by digits, the first of them the most significant. -/
def val (base : Nat) : List Nat → Nat
  | [] => 0
  | d :: ds => d * base ^ ds.length + val base ds

/-- `c` is the digit `d`, a decimal digit or a capital letter. -/
def Prints (c d : Nat) : Prop := (d ≤ 9 ∧ c = '0'.toNat + d) ∨ (10 ≤ d ∧ d ≤ 35 ∧ c + 10 = 'A'.toNat + d)

/-- `c` is the digit `d`, a decimal digit or a letter of either case. -/
def IsDigit (c d : Nat) : Prop :=
  (d ≤ 9 ∧ c = '0'.toNat + d) ∨
    (10 ≤ d ∧ d ≤ 35 ∧ (c + 10 = 'A'.toNat + d ∨ c + 10 = 'a'.toNat + d))

/-- Texts and digits, one for one. -/
inductive All (R : Nat → Nat → Prop) : Text → List Nat → Prop
  | nil : All R [] []
  | cons {c d : Nat} {cs : Text} {ds : List Nat} : R c d → All R cs ds → All R (c :: cs) (d :: ds)

/-- Digits of a base, at least one, and no zero in front. -/
def Canonical (base : Nat) (ds : List Nat) : Prop :=
  ds ≠ [] ∧ (∀ d ∈ ds, d < base) ∧ (ds.head? = some 0 → ds = [0])

/-- A text written in a base: an optional sign and at least one digit. -/
def Reads (base : Nat) (t : Text) (v : Int) : Prop :=
  ∃ cs ds, ds ≠ [] ∧ All IsDigit cs ds ∧ (∀ d ∈ ds, d < base) ∧
    (((t = cs ∨ t = '+'.toNat :: cs) ∧ v = val base ds) ∨ (t = '-'.toNat :: cs ∧ v = -(val base ds)))

/-- The one way to print a number in a base. -/
def IsPrinted (base : Nat) (t : Text) (v : Int) : Prop :=
  ∃ cs ds, All Prints cs ds ∧ Canonical base ds ∧
    ((t = cs ∧ v = val base ds) ∨ (t = '-'.toNat :: cs ∧ v = -(val base ds) ∧ v ≠ 0))

def IsI64 (v : Int) : Prop := -2 ^ 63 ≤ v ∧ v < 2 ^ 63

end Spec

open Spec

/-! ## Numbers and digits -/

theorem val_append (b : Nat) (xs ys : List Nat) :
    val b (xs ++ ys) = val b xs * b ^ ys.length + val b ys := by
  induction xs with
  | nil => simp [val]
  | cons x xs ih =>
    simp only [List.cons_append, val, ih, List.length_append, Nat.pow_add]
    rw [Nat.add_mul, Nat.mul_assoc]
    omega

theorem natDigits_small {r n : Nat} (h : n < r) : natDigits r n = [n] := by
  rw [natDigits, dif_pos (.inl h)]

theorem natDigits_big {r n : Nat} (hr : 2 ≤ r) (h : r ≤ n) :
    natDigits r n = natDigits r (n / r) ++ [n % r] := by
  rw [natDigits, dif_neg (by omega)]

theorem natDigits_spec {r : Nat} (hr : 2 ≤ r) (n : Nat) :
    val r (natDigits r n) = n ∧ Canonical r (natDigits r n) ∧
      ((natDigits r n).head? = some 0 → n = 0) := by
  induction n using Nat.strongRecOn with
  | ind n ih =>
    by_cases h : n < r
    · rw [natDigits_small h]
      refine ⟨by simp [val], ⟨by simp, by simpa using h, ?_⟩, by simp⟩
      intro h0
      simpa using h0
    · obtain ⟨h1, ⟨h2, h3, h4⟩, h5⟩ := ih (n / r) (Nat.div_lt_self (by omega) (by omega))
      have hne : 0 < n / r := Nat.div_pos (by omega) (by omega)
      rw [natDigits_big hr (by omega)]
      have hh : (natDigits r (n / r) ++ [n % r]).head? = some 0 → False := by
        intro h0
        cases hd : natDigits r (n / r) with
        | nil => exact h2 hd
        | cons x xs =>
          rw [hd] at h0 h5
          simp only [List.cons_append, List.head?_cons] at h0 h5
          have := h5 h0
          omega
      refine ⟨?_, ⟨by simp, ?_, fun h0 => (hh h0).elim⟩, fun h0 => (hh h0).elim⟩
      · rw [val_append, h1]
        simp only [List.length_singleton, Nat.pow_one, val, Nat.pow_zero, List.length_nil]
        have := Nat.div_add_mod n r
        rw [Nat.mul_comm] at this
        omega
      · intro d hd
        simp only [List.mem_append, List.mem_singleton] at hd
        rcases hd with hd | rfl
        · exact h3 d hd
        · exact Nat.mod_lt _ (by omega)

theorem val_lt {b : Nat} (hb : 0 < b) : ∀ (ds : List Nat), (∀ d ∈ ds, d < b) → val b ds < b ^ ds.length
  | [], _ => by simp [val]
  | d :: ds, h => by
    have := val_lt hb ds fun x hx => h x (List.mem_cons_of_mem _ hx)
    have hd := h d (List.mem_cons_self ..)
    simp only [val, List.length_cons, Nat.pow_succ]
    have : (d + 1) * b ^ ds.length ≤ b * b ^ ds.length := Nat.mul_le_mul_right _ hd
    rw [Nat.add_mul, Nat.one_mul] at this
    rw [Nat.mul_comm (b ^ ds.length)]
    omega

theorem val_pos {b : Nat} (hb : 0 < b) {ds : List Nat} (h : Canonical b ds) (h0 : ds ≠ [0]) : 0 < val b ds := by
  obtain ⟨h1, h2, h3⟩ := h
  cases ds with
  | nil => exact absurd rfl h1
  | cons d ds =>
    have : d ≠ 0 := by
      rintro rfl
      exact h0 (h3 rfl)
    have : 0 < d * b ^ ds.length := Nat.mul_pos (by omega) (Nat.pow_pos hb)
    simp only [val]
    omega

/-- Only one list of digits writes a number without a zero in front. -/
theorem natDigits_unique {r : Nat} (hr : 2 ≤ r) (ds : List Nat) (h : Canonical r ds) :
    natDigits r (val r ds) = ds := by
  generalize hn : ds.length = n
  induction n using Nat.strongRecOn generalizing ds with
  | ind n ih =>
    rcases List.eq_nil_or_concat ds with rfl | ⟨xs, x, rfl⟩
    · exact absurd rfl h.1
    · simp only [List.concat_eq_append] at *
      obtain ⟨h1, h2, h3⟩ := h
      have hx : x < r := h2 x (by simp)
      have hv : val r (xs ++ [x]) = val r xs * r + x := by
        rw [val_append]
        simp [val]
      cases hxs : xs with
      | nil =>
        simp only [List.nil_append, val, List.length_nil, Nat.pow_zero, Nat.mul_one, Nat.add_zero]
        exact natDigits_small hx
      | cons y ys =>
        have hc : Canonical r xs := by
          refine ⟨by simp [hxs], fun d hd => h2 d (by simp [hd]), ?_⟩
          intro h0
          rw [hxs] at h0
          have := h3 (by rw [hxs]; simpa using h0)
          rw [hxs] at this
          simp at this
        have hne : xs ≠ [0] := by
          intro h0
          have := h3 (by rw [h0]; rfl)
          rw [h0] at this
          simp at this
        have hp := val_pos (by omega) hc hne
        rw [← hxs, hv, natDigits_big hr (by
          have := Nat.mul_le_mul_right r (show 1 ≤ val r xs from hp)
          omega)]
        have e1 : (val r xs * r + x) / r = val r xs := by
          rw [Nat.mul_comm, Nat.mul_add_div (by omega), Nat.div_eq_of_lt hx, Nat.add_zero]
        have e2 : (val r xs * r + x) % r = x := by
          rw [Nat.mul_comm, Nat.mul_add_mod, Nat.mod_eq_of_lt hx]
        rw [e1, e2, ih xs.length (by rw [← hn]; simp) xs hc rfl]

theorem prints_digitChar {d : Nat} (h : d < 36) : Prints (digitChar d) d := by
  unfold digitChar Prints
  simp only [Char.reduceToNat]
  split <;> omega

theorem all_map {ds : List Nat} (h : ∀ d ∈ ds, d < 36) : All Prints (ds.map digitChar) ds := by
  induction ds with
  | nil => exact .nil
  | cons d ds ih =>
    exact .cons (prints_digitChar (h d (by simp))) (ih fun x hx => h x (by simp [hx]))

theorem prints_eq {c d : Nat} (h : Prints c d) : c = digitChar d := by
  unfold digitChar
  unfold Prints at h
  simp only [Char.reduceToNat] at h
  split <;> omega

theorem all_prints_eq {cs : Text} {ds : List Nat} (h : All Prints cs ds) : cs = ds.map digitChar := by
  induction h with
  | nil => rfl
  | cons h _ ih => rw [prints_eq h, ih]; rfl

theorem digitChar_inj {a b : Nat} (h : digitChar a = digitChar b) (ha : a < 36) (hb : b < 36) : a = b := by
  unfold digitChar at h
  split at h <;> split at h <;> omega

theorem map_digitChar_inj : ∀ {xs ys : List Nat}, xs.map digitChar = ys.map digitChar →
    (∀ d ∈ xs, d < 36) → (∀ d ∈ ys, d < 36) → xs = ys
  | [], [], _, _, _ => rfl
  | [], _ :: _, h, _, _ => by simp at h
  | _ :: _, [], h, _, _ => by simp at h
  | x :: xs, y :: ys, h, hx, hy => by
    simp only [List.map_cons, List.cons.injEq] at h
    rw [digitChar_inj h.1 (hx x (by simp)) (hy y (by simp)),
      map_digitChar_inj h.2 (fun d hd => hx d (by simp [hd])) (fun d hd => hy d (by simp [hd]))]

/-! ## hex and bin of integers -/

/-- C71: hex of an integer prints its two's complement of 64 bits in capital digits without a zero
in front. -/
theorem C71_hex_integer (v : Int) (h : IsI64 v) :
    IsPrinted 16 (hexInt64 v) (if v < 0 then v + 2 ^ 64 else v) := by
  obtain ⟨h1, h2, -⟩ := natDigits_spec (r := 16) (by omega) (asU64 v)
  refine ⟨_, _, all_map fun d hd => by have := h2.2.1 d hd; omega, h2, .inl ⟨rfl, ?_⟩⟩
  rw [h1]
  unfold asU64
  obtain ⟨h3, h4⟩ := h
  split <;> omega

theorem printed_unique {b : Nat} (hb : 2 ≤ b) {t : Text} {v w : Int} (h1 : IsPrinted b t v)
    (h2 : IsPrinted b t w) (hb' : b ≤ 36) : v = w := by
  obtain ⟨cs, ds, ha, hc, h⟩ := h1
  obtain ⟨cs', ds', ha', hc', h'⟩ := h2
  have e := all_prints_eq ha
  have e' := all_prints_eq ha'
  have hd : ∀ x ∈ ds, x < 36 := fun x hx => by have := hc.2.1 x hx; omega
  have hd' : ∀ x ∈ ds', x < 36 := fun x hx => by have := hc'.2.1 x hx; omega
  have nominus : ∀ {xs ys : List Nat}, xs.map digitChar = '-'.toNat :: ys → False := by
    intro xs ys hxs
    cases xs with
    | nil => simp at hxs
    | cons x xs =>
      simp only [List.map_cons, List.cons.injEq, Char.reduceToNat] at hxs
      have := hxs.1
      unfold digitChar at this
      split at this <;> omega
  rcases h with ⟨rfl, hv⟩ | ⟨rfl, hv, -⟩
  · rcases h' with ⟨rfl, hw⟩ | ⟨ht, -, -⟩
    · rw [hv, hw, map_digitChar_inj (e.symm.trans e') hd hd']
    · rw [e] at ht
      exact (nominus ht).elim
  · rcases h' with ⟨ht, hw⟩ | ⟨ht, hw, -⟩
    · rw [e'] at ht
      exact (nominus ht.symm).elim
    · simp only [List.cons.injEq, true_and] at ht
      rw [hv, hw, map_digitChar_inj (e.symm.trans (ht.trans e')) hd hd']

/-- C71: integers with the same hex are equal. -/
theorem C71_hex_integer_distinct (v w : Int) (hv : IsI64 v) (hw : IsI64 w)
    (h : hexInt64 v = hexInt64 w) : v = w := by
  have h1 := C71_hex_integer v hv
  have h2 := C71_hex_integer w hw
  rw [h] at h1
  have := printed_unique (by omega) h1 h2 (by omega)
  unfold IsI64 at *
  split at this <;> split at this <;> omega

theorem val_bits (u n : Nat) :
    val 2 ((List.range n).reverse.map fun (i : Nat) => u / 2 ^ i % 2) = u % 2 ^ n := by
  induction n with
  | zero => simp [val, Nat.mod_one]
  | succ n ih =>
    rw [List.range_succ, List.reverse_append]
    simp only [List.reverse_singleton, List.singleton_append, List.map_cons, val, ih,
      List.length_map, List.length_reverse, List.length_range]
    rw [Nat.mod_pow_succ, Nat.mul_comm]
    omega

/-- C71: bin of an integer prints its two's complement of 64 bits without a zero in front. -/
theorem C71_bin (v : Int) (h : IsI64 v) :
    IsPrinted 2 (bin v) (if v < 0 then v + 2 ^ 64 else v) := by
  obtain ⟨h3, h4⟩ := h
  have hbit : ∀ d ∈ binBits v, d < 2 := by
    intro d hd
    unfold binBits at hd
    simp only [List.mem_map] at hd
    obtain ⟨i, -, rfl⟩ := hd
    omega
  have hlt : asU64 v < 2 ^ 64 := by unfold asU64; omega
  have hval : val 2 (binBits v) = asU64 v := by
    unfold binBits
    simp only
    rw [val_bits]
    apply Nat.mod_eq_of_lt
    by_cases h0 : v ≥ 0
    · simp only [if_pos h0]
      by_cases hu : asU64 v = 0
      · simp [hu]
      · simp only [if_neg hu]
        rw [Nat.max_eq_left (by omega)]
        exact Nat.lt_log2_self
    · simp only [if_neg h0]
      exact hlt
  have hhead : (binBits v).head? = some 0 → binBits v = [0] := by
    unfold binBits
    simp only
    generalize hb : (if v ≥ 0 then max (if asU64 v = 0 then 0 else Nat.log2 (asU64 v) + 1) 1 else 64) = b
    have hb1 : 1 ≤ b := by subst hb; split <;> omega
    obtain ⟨n, rfl⟩ : ∃ n, b = n + 1 := ⟨b - 1, by omega⟩
    rw [List.range_succ, List.reverse_append]
    simp only [List.reverse_singleton, List.singleton_append, List.map_cons, List.head?_cons,
      Option.some.injEq]
    intro h0
    cases n with
    | zero => simpa using h0
    | succ n =>
      exfalso
      by_cases hv : v ≥ 0
      · simp only [if_pos hv] at hb
        have hu : asU64 v ≠ 0 := by intro hu; simp [hu] at hb
        simp only [if_neg hu] at hb
        have hl : Nat.log2 (asU64 v) = n + 1 := by omega
        have l1 := Nat.log2_self_le hu
        have l2 := Nat.lt_log2_self (n := asU64 v)
        rw [hl] at l1 l2
        have : asU64 v / 2 ^ (n + 1) = 1 := by
          apply Nat.div_eq_of_lt_le
          · omega
          · rw [Nat.pow_succ] at l2; omega
        rw [this] at h0
        omega
      · simp only [if_neg hv] at hb
        have : n = 62 := by omega
        subst this
        unfold asU64 at h0
        omega
  have hne : binBits v ≠ [] := by
    unfold binBits
    simp only
    intro h0
    have := congrArg List.length h0
    simp only [List.length_map, List.length_reverse, List.length_range, List.length_nil] at this
    split at this <;> omega
  refine ⟨_, _, all_map fun d hd => by have := hbit d hd; omega, ⟨hne, hbit, hhead⟩, .inl ⟨rfl, ?_⟩⟩
  rw [hval]
  unfold asU64
  split <;> omega

/-- C71: integers with the same bin are equal. -/
theorem C71_bin_distinct (v w : Int) (hv : IsI64 v) (hw : IsI64 w) (h : bin v = bin w) : v = w := by
  have h1 := C71_bin v hv
  have h2 := C71_bin w hw
  rw [h] at h1
  have := printed_unique (by omega) h1 h2 (by omega)
  unfold IsI64 at *
  split at this <;> split at this <;> omega

example : hexInt64 (-1) = "FFFFFFFFFFFFFFFF".toList.map Char.toNat ∧
    hexInt64 2748 = "ABC".toList.map Char.toNat ∧ hexInt64 0 = "0".toList.map Char.toNat ∧
    bin 13 = "1101".toList.map Char.toNat ∧ bin 0 = "0".toList.map Char.toNat ∧
    bin (-2 ^ 63) = '1'.toNat :: List.replicate 63 '0'.toNat := by
  refine ⟨by decide +kernel, by decide +kernel, by decide +kernel, by decide +kernel,
    by decide +kernel, by decide +kernel⟩

/-! ## unhex -/

/-- The capital letter of a hexadecimal digit. -/
def Spec.upper (c : Nat) : Nat := if 'a'.toNat ≤ c ∧ c ≤ 'f'.toNat then c - 32 else c

/-- A text of hexadecimal digits. -/
def Spec.IsHex (s : Text) : Prop :=
  ∀ c ∈ s, ('0'.toNat ≤ c ∧ c ≤ '9'.toNat) ∨ ('A'.toNat ≤ c ∧ c ≤ 'F'.toNat) ∨
    ('a'.toNat ≤ c ∧ c ≤ 'f'.toNat)

/-- With a zero in front if the length is odd. -/
def Spec.padded (s : Text) : Text := if s.length % 2 = 0 then s else '0'.toNat :: s

theorem unhexDigit_spec (c d : Nat) :
    unhexDigit c = some d ↔ d < 16 ∧ digitChar d = upper c := by
  unfold unhexDigit digitChar upper
  simp only [Char.reduceToNat]
  constructor
  · intro h
    split at h
    · cases h
      rw [if_pos (by omega), if_neg (by omega)]
      omega
    · split at h
      · cases h
        rw [if_neg (by omega), if_neg (by omega)]
        omega
      · split at h
        · cases h
          rw [if_neg (by omega), if_pos (by omega)]
          omega
        · cases h
  · rintro ⟨h1, h2⟩
    split at h2 <;> split at h2
    · omega
    · rw [if_pos (by omega)]; congr 1; omega
    · rw [if_neg (by omega), if_neg (by omega), if_pos (by omega)]; congr 1; omega
    · rw [if_neg (by omega), if_pos (by omega)]; congr 1; omega

theorem unhexDigit_none (c : Nat) : unhexDigit c = none ↔ ¬ IsHex [c] := by
  unfold unhexDigit IsHex
  simp only [Char.reduceToNat, List.mem_singleton, forall_eq]
  split
  · simp; omega
  · split
    · simp; omega
    · split
      · simp; omega
      · simp; omega

theorem isHex_cons {c : Nat} {s : Text} : IsHex (c :: s) ↔ IsHex [c] ∧ IsHex s := by
  unfold IsHex
  constructor
  · intro h
    exact ⟨fun x hx => h x (by simp at hx; simp [hx]), fun x hx => h x (by simp [hx])⟩
  · rintro ⟨h1, h2⟩ x hx
    rcases List.mem_cons.1 hx with rfl | hx
    · exact h1 x (by simp)
    · exact h2 x hx

theorem hexEncode_append (a b : List Nat) : hexEncode (a ++ b) = hexEncode a ++ hexEncode b := by
  induction a with
  | nil => rfl
  | cons x a ih => simp [hexEncode, ih]

/-- The loop over pairs. -/
theorem unhexPairs_spec : ∀ (s : Text) (buffer : List Nat), s.length % 2 = 0 →
    ((unhexPairs s buffer).1 = true ↔ IsHex s) ∧
    ((unhexPairs s buffer).1 = true → ∃ bs, (unhexPairs s buffer).2 = buffer ++ bs ∧
      (∀ b ∈ bs, b < 256) ∧ hexEncode bs = s.map upper)
  | [], buffer, _ => by
    simp [unhexPairs, IsHex, hexEncode]
  | [_], _, h => by simp at h
  | c :: d :: rest, buffer, h => by
    rw [unhexPairs, isHex_cons, isHex_cons (s := rest)]
    cases hc : unhexDigit c with
    | none =>
      have := (unhexDigit_none c).1 hc
      simp [this]
    | some x =>
      have hc1 : IsHex [c] := by
        apply Classical.byContradiction
        intro hn
        rw [(unhexDigit_none c).2 hn] at hc
        cases hc
      obtain ⟨x1, x2⟩ := (unhexDigit_spec c x).1 hc
      cases hd : unhexDigit d with
      | none =>
        have := (unhexDigit_none d).1 hd
        simp [this]
      | some y =>
        have hd1 : IsHex [d] := by
          apply Classical.byContradiction
          intro hn
          rw [(unhexDigit_none d).2 hn] at hd
          cases hd
        obtain ⟨y1, y2⟩ := (unhexDigit_spec d y).1 hd
        obtain ⟨i1, i2⟩ := unhexPairs_spec rest (buffer ++ [x * 16 + y]) (by simp at h; omega)
        simp only [hc1, hd1, true_and]
        refine ⟨i1, fun ht => ?_⟩
        obtain ⟨bs, h1, h2, h3⟩ := i2 ht
        refine ⟨(x * 16 + y) :: bs, by simpa using h1, ?_, ?_⟩
        · intro b hb
          rcases List.mem_cons.1 hb with rfl | hb
          · omega
          · exact h2 b hb
        · simp only [hexEncode, h3, List.map_cons]
          rw [show (x * 16 + y) / 16 = x by omega, show (x * 16 + y) % 16 = y by omega, x2, y2]

theorem unhexInto_spec (s : Text) :
    ((unhexInto s []).1 = true ↔ IsHex s) ∧
    ((unhexInto s []).1 = true → (∀ b ∈ (unhexInto s []).2, b < 256) ∧
      hexEncode (unhexInto s []).2 = (padded s).map upper) := by
  cases s with
  | nil => simp [unhexInto, IsHex, padded, hexEncode]
  | cons c rest =>
    unfold unhexInto padded
    by_cases hl : (c :: rest).length % 2 = 0
    · simp only [hl, ne_eq, not_true, if_false, if_true]
      obtain ⟨h1, h2⟩ := unhexPairs_spec (c :: rest) [] hl
      refine ⟨h1, fun ht => ?_⟩
      obtain ⟨bs, e, h3, h4⟩ := h2 ht
      simp only [List.nil_append] at e
      rw [e]
      exact ⟨h3, h4⟩
    · simp only [hl, ne_eq, not_false_eq_true, if_true, if_false]
      rw [isHex_cons]
      cases hc : unhexDigit c with
      | none =>
        have := (unhexDigit_none c).1 hc
        simp [this]
      | some x =>
        have hc1 : IsHex [c] := by
          apply Classical.byContradiction
          intro hn
          rw [(unhexDigit_none c).2 hn] at hc
          cases hc
        obtain ⟨x1, x2⟩ := (unhexDigit_spec c x).1 hc
        simp only [hc1, true_and, List.nil_append]
        obtain ⟨h1, h2⟩ := unhexPairs_spec rest [x] (by simp at hl; omega)
        refine ⟨h1, fun ht => ?_⟩
        obtain ⟨bs, e, h3, h4⟩ := h2 ht
        rw [e]
        refine ⟨?_, ?_⟩
        · intro b hb
          rcases List.mem_cons.1 (by simpa using hb : b ∈ x :: bs) with rfl | hb
          · omega
          · exact h3 b hb
        · simp only [List.singleton_append, hexEncode, h4, List.map_cons, Char.reduceToNat]
          rw [show x / 16 = 0 by omega, show x % 16 = x by omega, x2]
          rfl

theorem hexEncode_inj : ∀ {a b : List Nat}, (∀ x ∈ a, x < 256) → (∀ x ∈ b, x < 256) →
    hexEncode a = hexEncode b → a = b
  | [], [], _, _, _ => rfl
  | [], _ :: _, _, _, h => by simp [hexEncode] at h
  | _ :: _, [], _, _, h => by simp [hexEncode] at h
  | x :: a, y :: b, ha, hb, h => by
    simp only [hexEncode, List.cons.injEq] at h
    have hx := ha x (by simp)
    have hy := hb y (by simp)
    have e1 := digitChar_inj h.1 (by omega) (by omega)
    have e2 := digitChar_inj h.2.1 (by omega) (by omega)
    rw [hexEncode_inj (fun z hz => ha z (by simp [hz])) (fun z hz => hb z (by simp [hz])) h.2.2,
      show x = y by omega]

/-- What unhex answers for one row: NULL for NULL and for a text with something else than hexadecimal
digits, and otherwise the bytes whose hex is the text in capitals, with a zero in front if the length
is odd. -/
def Spec.IsUnhex (row : Option Text) (out : Option (List Nat)) : Prop :=
  match row with
  | none => out = none
  | some s => (¬ IsHex s ∧ out = none) ∨
      (IsHex s ∧ ∃ bs, out = some bs ∧ (∀ b ∈ bs, b < 256) ∧ hexEncode bs = (padded s).map upper)

theorem unhexRows_spec (fail : Bool) : ∀ (rows : List (Option Text)) (acc out : List (Option (List Nat))),
    unhexRows fail rows [] acc = some out →
      ∃ res, out = acc ++ res ∧ res.length = rows.length ∧
        ∀ (i : Nat) (r : Option Text), rows[i]? = some r → ∃ o, res[i]? = some o ∧ IsUnhex r o := by
  intro rows
  induction rows with
  | nil =>
    intro acc out h
    simp only [unhexRows, Option.some.injEq] at h
    exact ⟨[], by simp [h], rfl, by simp⟩
  | cons r rows ih =>
    intro acc out h
    have step : ∀ o, IsUnhex r o → unhexRows fail rows [] (acc ++ [o]) = some out →
        ∃ res, out = acc ++ res ∧ res.length = (r :: rows).length ∧
        ∀ (i : Nat) (r' : Option Text), (r :: rows)[i]? = some r' → ∃ o, res[i]? = some o ∧ IsUnhex r' o := by
      intro o ho h
      obtain ⟨res, h1, h2, h3⟩ := ih _ _ h
      refine ⟨o :: res, by simp [h1], by simp [h2], ?_⟩
      intro i r' hr
      cases i with
      | zero =>
        simp only [List.getElem?_cons_zero, Option.some.injEq] at hr
        subst hr
        exact ⟨o, rfl, ho⟩
      | succ i => exact h3 i r' (by simpa using hr)
    cases r with
    | none =>
      rw [unhexRows] at h
      exact step none rfl h
    | some s =>
      rw [unhexRows] at h
      obtain ⟨h1, h2⟩ := unhexInto_spec s
      split at h
      · rename_i bs he
        rw [he] at h1 h2
        obtain ⟨h3, h4⟩ := h2 rfl
        exact step _ (.inr ⟨h1.1 rfl, bs, rfl, h3, h4⟩) h
      · rename_i bs he
        rw [he] at h1
        split at h
        · cases h
        · exact step _ (.inl ⟨fun hh => by simpa using h1.2 hh, rfl⟩) h

/-- C71: unhex of a column answers every row by itself. -/
theorem C71_unhex (rows : List (Option Text)) :
    ∃ out, unhexRows false rows [] [] = some out ∧ out.length = rows.length ∧
      ∀ (i : Nat) (r : Option Text), rows[i]? = some r → ∃ o, out[i]? = some o ∧ IsUnhex r o := by
  have total : ∀ (rows : List (Option Text)) (b : List Nat) (acc : List (Option (List Nat))),
      ∃ out, unhexRows false rows b acc = some out := by
    intro rows
    induction rows with
    | nil => intro b acc; exact ⟨acc, rfl⟩
    | cons r rows ih =>
      intro b acc
      cases r with
      | none => exact ih _ _
      | some s =>
        rw [unhexRows]
        split
        · exact ih _ _
        · simp only [Bool.false_eq_true, if_false]
          exact ih _ _
  obtain ⟨out, h⟩ := total rows [] []
  obtain ⟨res, h1, h2, h3⟩ := unhexRows_spec false rows [] out h
  simp only [List.nil_append] at h1
  subst h1
  exact ⟨out, h, h2, h3⟩

/-- C71: when unhex is asked to fail, it fails exactly if a row is not hexadecimal. -/
theorem C71_unhex_fails (rows : List (Option Text)) :
    unhexRows true rows [] [] = none ↔ ∃ s, some s ∈ rows ∧ ¬ IsHex s := by
  have gen : ∀ (rows : List (Option Text)) (acc : List (Option (List Nat))),
      unhexRows true rows [] acc = none ↔ ∃ s, some s ∈ rows ∧ ¬ IsHex s := by
    intro rows
    induction rows with
    | nil => intro acc; simp [unhexRows]
    | cons r rows ih =>
      intro acc
      cases r with
      | none => rw [unhexRows, ih]; simp
      | some s =>
        rw [unhexRows]
        obtain ⟨h1, -⟩ := unhexInto_spec s
        split
        · rename_i bs he
          rw [he] at h1
          rw [ih]
          have hs := h1.1 rfl
          constructor
          · rintro ⟨t, ht, hn⟩; exact ⟨t, by simp [ht], hn⟩
          · rintro ⟨t, ht, hn⟩
            rcases List.mem_cons.1 ht with ht | ht
            · cases ht; exact absurd hs hn
            · exact ⟨t, ht, hn⟩
        · rename_i bs he
          rw [he] at h1
          simp only [if_true, true_iff]
          exact ⟨s, by simp, fun hh => by simpa using h1.2 hh⟩
  exact gen rows []

theorem isHex_hexEncode : ∀ (bs : List Nat), (∀ b ∈ bs, b < 256) → IsHex (hexEncode bs)
  | [], _ => by simp [hexEncode, IsHex]
  | b :: bs, h => by
    have hb := h b (by simp)
    rw [hexEncode, isHex_cons, isHex_cons (s := hexEncode bs)]
    refine ⟨?_, ?_, isHex_hexEncode bs fun x hx => h x (by simp [hx])⟩
    · unfold IsHex digitChar
      simp only [List.mem_singleton, forall_eq, Char.reduceToNat]
      split <;> omega
    · unfold IsHex digitChar
      simp only [List.mem_singleton, forall_eq, Char.reduceToNat]
      split <;> omega

theorem upper_hexEncode : ∀ (bs : List Nat), (∀ b ∈ bs, b < 256) → (hexEncode bs).map upper = hexEncode bs
  | [], _ => rfl
  | b :: bs, h => by
    have hb := h b (by simp)
    simp only [hexEncode, List.map_cons, upper_hexEncode bs fun x hx => h x (by simp [hx])]
    have up : ∀ d, d < 16 → upper (digitChar d) = digitChar d := by
      intro d hd
      unfold upper digitChar
      simp only [Char.reduceToNat]
      split <;> split <;> omega
    rw [up _ (by omega), up _ (by omega)]

theorem length_hexEncode : ∀ (bs : List Nat), (hexEncode bs).length = 2 * bs.length
  | [] => rfl
  | b :: bs => by simp [hexEncode, length_hexEncode bs]; omega

/-- C71: unhex gives back the bytes that hex printed. -/
theorem C71_unhex_hex (bs : List Nat) (h : ∀ b ∈ bs, b < 256) :
    unhexRows false [some (hexEncode bs)] [] [] = some [some bs] := by
  obtain ⟨out, h1, h2, h3⟩ := C71_unhex [some (hexEncode bs)]
  obtain ⟨o, h4, h5⟩ := h3 0 _ rfl
  rcases h5 with ⟨hn, -⟩ | ⟨-, bs', rfl, hb, he⟩
  · exact absurd (isHex_hexEncode bs h) hn
  · have hp : padded (hexEncode bs) = hexEncode bs := by
      unfold padded
      rw [if_pos (by rw [length_hexEncode]; omega)]
    rw [hp, upper_hexEncode bs h] at he
    have := hexEncode_inj hb h he
    subst this
    rw [h1]
    match out, h2, h4 with
    | [x], _, h4 => simpa using h4

example : unhexRows false [some ("4Ff".toList.map Char.toNat), none, some ("4x41".toList.map Char.toNat),
      some ("41".toList.map Char.toNat), some []] [] [] =
    some [some [4, 255], none, none, some [65], some []] := by decide +kernel

/-! ## conv -/

theorem charDigit_spec (c d : Nat) : charDigit c = some d ↔ IsDigit c d := by
  unfold charDigit IsDigit
  simp only [Char.reduceToNat]
  constructor
  · intro h
    split at h
    · cases h; omega
    · split at h
      · cases h; omega
      · split at h
        · cases h; omega
        · cases h
  · intro h
    split
    · congr 1; omega
    · split
      · congr 1; omega
      · split
        · congr 1; omega
        · omega

theorem readDigits_spec (r : Nat) : ∀ (t : Text) (acc n : Nat),
    readDigits r t acc = some n ↔
      ∃ ds, All IsDigit t ds ∧ (∀ d ∈ ds, d < r) ∧ n = acc * r ^ ds.length + val r ds := by
  intro t
  induction t with
  | nil =>
    intro acc n
    rw [readDigits]
    constructor
    · intro h; cases h; exact ⟨[], .nil, by simp, by simp [val]⟩
    · rintro ⟨ds, ha, -, rfl⟩
      cases ha
      simp [val]
  | cons c t ih =>
    intro acc n
    rw [readDigits]
    have hmul : ∀ (d : Nat) (ds : List Nat), (acc * r + d) * r ^ ds.length + val r ds =
        acc * r ^ (d :: ds).length + val r (d :: ds) := by
      intro d ds
      simp only [List.length_cons, val, Nat.pow_succ, Nat.add_mul]
      rw [Nat.mul_comm (r ^ ds.length) r, ← Nat.mul_assoc]
      omega
    cases hc : charDigit c with
    | none =>
      simp only [reduceCtorEq, false_iff]
      rintro ⟨ds, ha, -⟩
      cases ha with
      | cons h _ =>
        rw [(charDigit_spec c _).2 h] at hc
        cases hc
    | some d =>
      simp only
      by_cases hd : d < r
      · rw [if_pos hd, ih]
        constructor
        · rintro ⟨ds, h1, h2, rfl⟩
          refine ⟨d :: ds, .cons ((charDigit_spec c d).1 hc) h1, ?_, hmul d ds⟩
          intro x hx
          rcases List.mem_cons.1 hx with rfl | hx
          · exact hd
          · exact h2 x hx
        · rintro ⟨ds, ha, h2, rfl⟩
          cases ha with
          | @cons _ d' _ ds h h1 =>
            have := (charDigit_spec c _).2 h
            rw [hc] at this
            cases this
            exact ⟨ds, h1, fun x hx => h2 x (by simp [hx]), (hmul d ds).symm⟩
      · rw [if_neg hd]
        simp only [reduceCtorEq, false_iff]
        rintro ⟨ds, ha, h2, -⟩
        cases ha with
        | @cons _ d' _ ds h h1 =>
          have := (charDigit_spec c _).2 h
          rw [hc] at this
          cases this
          exact hd (h2 d (by simp))

theorem all_length {R : Nat → Nat → Prop} {cs : Text} {ds : List Nat} (h : All R cs ds) :
    cs.length = ds.length := by
  induction h with
  | nil => rfl
  | cons _ _ ih => simp [ih]

theorem not_sign {cs : Text} {ds : List Nat} (h : All IsDigit cs ds) (x : Nat) (rest : Text)
    (hx : x = 45 ∨ x = 43) : cs ≠ x :: rest := by
  rintro rfl
  cases h with
  | cons h _ =>
    unfold IsDigit at h
    simp only [Char.reduceToNat] at h
    omega

/-- The library function reads exactly the texts written in the base whose value fits. -/
theorem fromStrRadix_spec (r : Nat) (t : Text) (v : Int) :
    fromStrRadix r t = some v ↔ Reads r t v ∧ IsI64 v := by
  have main : ∀ (cs : Text) (sign : Int) (w : Int), cs ≠ [] →
      (((readDigits r cs 0).bind fun n => if -2 ^ 63 ≤ sign * (n : Int) ∧ sign * (n : Int) < 2 ^ 63 then
        some (sign * (n : Int)) else none) = some w ↔
      (∃ ds, ds ≠ [] ∧ All IsDigit cs ds ∧ (∀ d ∈ ds, d < r) ∧ w = sign * (val r ds : Nat)) ∧ IsI64 w) := by
    intro cs sign w hne
    rw [Option.bind_eq_some_iff]
    constructor
    · rintro ⟨n, hn, h⟩
      obtain ⟨ds, h1, h2, rfl⟩ := (readDigits_spec r cs 0 n).1 hn
      split at h
      · rename_i hf
        cases h
        refine ⟨⟨ds, ?_, h1, h2, by simp⟩, hf⟩
        rintro rfl
        have := all_length h1
        exact hne (List.length_eq_zero_iff.1 this)
      · cases h
    · rintro ⟨⟨ds, -, h1, h2, rfl⟩, hf⟩
      refine ⟨val r ds, (readDigits_spec r cs 0 _).2 ⟨ds, h1, h2, by simp⟩, ?_⟩
      exact if_pos hf
  have neg : ∀ n : Nat, -(n : Int) = (-1) * (n : Int) := by intro n; omega
  have pos : ∀ n : Nat, (n : Int) = 1 * (n : Int) := by intro n; omega
  unfold Reads
  simp only [Char.reduceToNat]
  rw [fromStrRadix.eq_def]
  simp only
  split
  · constructor
    · intro h; cases h
    · rintro ⟨⟨cs, ds, h1, h2, -, h | h⟩, -⟩
      · rcases h.1 with h | h
        · subst h; cases h2; exact absurd rfl h1
        · cases h
      · exact absurd h.1 (by simp)
  · constructor
    · intro h; cases h
    · rintro ⟨⟨cs, ds, h1, h2, -, h | h⟩, -⟩
      · rcases h.1 with h | h
        · exact absurd h.symm (not_sign h2 _ _ (.inl rfl))
        · simp at h
      · have : cs = [] := by simpa using h.1.symm
        subst this; cases h2; exact absurd rfl h1
  · constructor
    · intro h; cases h
    · rintro ⟨⟨cs, ds, h1, h2, -, h | h⟩, -⟩
      · rcases h.1 with h | h
        · exact absurd h.symm (not_sign h2 _ _ (.inr rfl))
        · have : cs = [] := by simpa using h.symm
          subst this; cases h2; exact absurd rfl h1
      · simp at h
  · rename_i rest hne
    simp only [neg]
    rw [main rest (-1) v (by intro h; exact hne h)]
    constructor
    · rintro ⟨⟨ds, h1, h2, h3, h4⟩, hf⟩
      exact ⟨⟨rest, ds, h1, h2, h3, .inr ⟨rfl, h4⟩⟩, hf⟩
    · rintro ⟨⟨cs, ds, h1, h2, h3, h | h⟩, hf⟩
      · rcases h.1 with h | h
        · exact absurd h.symm (not_sign h2 _ _ (.inl rfl))
        · simp at h
      · have : cs = rest := by simpa using h.1.symm
        subst this
        exact ⟨⟨ds, h1, h2, h3, h.2⟩, hf⟩
  · rename_i rest hne
    rw [show (fun n : Nat => if -2 ^ 63 ≤ (n : Int) ∧ (n : Int) < 2 ^ 63 then some (n : Int) else none) =
      fun n : Nat => if -2 ^ 63 ≤ 1 * (n : Int) ∧ 1 * (n : Int) < 2 ^ 63 then some (1 * (n : Int)) else none by
        funext n; rw [← pos]]
    rw [main rest 1 v (by intro h; exact hne h)]
    constructor
    · rintro ⟨⟨ds, h1, h2, h3, h4⟩, hf⟩
      exact ⟨⟨rest, ds, h1, h2, h3, .inl ⟨.inr rfl, by rw [h4, ← pos]⟩⟩, hf⟩
    · rintro ⟨⟨cs, ds, h1, h2, h3, h | h⟩, hf⟩
      · rcases h with ⟨h | h, hv⟩
        · exact absurd h.symm (not_sign h2 _ _ (.inr rfl))
        · have : cs = rest := by simpa using h.symm
          subst this
          exact ⟨⟨ds, h1, h2, h3, by rw [hv, ← pos]⟩, hf⟩
      · simp at h
  · rename_i hn _ _ n45 n43
    rw [show (fun n : Nat => if -2 ^ 63 ≤ (n : Int) ∧ (n : Int) < 2 ^ 63 then some (n : Int) else none) =
      fun n : Nat => if -2 ^ 63 ≤ 1 * (n : Int) ∧ 1 * (n : Int) < 2 ^ 63 then some (1 * (n : Int)) else none by
        funext n; rw [← pos]]
    rw [main t 1 v (by intro h; exact hn h)]
    constructor
    · rintro ⟨⟨ds, h1, h2, h3, h4⟩, hf⟩
      exact ⟨⟨t, ds, h1, h2, h3, .inl ⟨.inl rfl, by rw [h4, ← pos]⟩⟩, hf⟩
    · rintro ⟨⟨cs, ds, h1, h2, h3, h | h⟩, hf⟩
      · rcases h with ⟨h | h, hv⟩
        · subst h
          exact ⟨⟨ds, h1, h2, h3, by rw [hv, ← pos]⟩, hf⟩
        · exact absurd h (n43 _)
      · exact absurd h.1 (n45 _)

theorem radixLoop_spec {r : Nat} (hr : 2 ≤ r) (hr' : r ≤ 36) : ∀ (fuel n : Nat), n < 2 ^ fuel → 0 < n →
    radixLoop r fuel (n : Int) = ((natDigits r n).map digitChar).reverse := by
  intro fuel
  induction fuel with
  | zero => intro n h1 h2; simp at h1; omega
  | succ fuel ih =>
    intro n h1 h2
    have e1 : ((n : Int).tmod (r : Int)) = ((n % r : Nat) : Int) := by
      rw [Int.tmod_eq_emod_of_nonneg (by omega)]; rfl
    have e2 : ((n : Int).tdiv (r : Int)) = ((n / r : Nat) : Int) := by
      rw [Int.tdiv_eq_ediv_of_nonneg (by omega)]; rfl
    have hlt : n % r < r := Nat.mod_lt _ (by omega)
    have e3 : (((n % r : Nat) : Int) % 256).toNat = n % r := by omega
    rw [radixLoop]
    simp only [e1, e2, e3]
    have hc : (if n % r < 36 then digitChar (n % r) else 63) = digitChar (n % r) := if_pos (by omega)
    rw [hc]
    by_cases hq : n < r
    · rw [if_pos (by rw [Nat.div_eq_of_lt hq]; rfl), natDigits_small hq, Nat.mod_eq_of_lt hq]
      simp
    · have hp : 0 < n / r := Nat.div_pos (by omega) (by omega)
      rw [if_neg (show ¬ ((n / r : Nat) : Int) = 0 from fun h => by
        have := Int.ofNat_eq_zero.1 h; omega), natDigits_big hr (by omega), ih (n / r) ?_ hp]
      · simp
      · apply Nat.div_lt_of_lt_mul
        rw [Nat.pow_succ] at h1
        have := Nat.mul_le_mul_right (2 ^ fuel) hr
        omega

/-- Printing in a base, except for the least integer. -/
theorem toRadixString_spec {r : Nat} (hr : 2 ≤ r) (hr' : r ≤ 36) (v : Int) (hv : IsI64 v)
    (hm : v ≠ -2 ^ 63) : IsPrinted r (toRadixString v r) v := by
  obtain ⟨h1, h2⟩ := hv
  obtain ⟨d1, d2, -⟩ := natDigits_spec hr v.natAbs
  have hall := all_map (ds := natDigits r v.natAbs) fun d hd => by
    have := d2.2.1 d hd
    omega
  unfold toRadixString absI64
  by_cases h0 : v = 0
  · subst h0
    exact ⟨[48], [0], .cons (by unfold Prints; simp) .nil,
      ⟨by simp, by simpa using (by omega : 0 < r), fun _ => rfl⟩, .inl ⟨rfl, by simp [val]⟩⟩
  · rw [if_neg h0]
    simp only [if_neg hm]
    by_cases hneg : v < 0
    · simp only [if_pos hneg]
      rw [show -v = ((v.natAbs : Nat) : Int) by omega,
        radixLoop_spec hr hr' 64 v.natAbs (by omega) (by omega)]
      exact ⟨_, _, hall, d2, .inr ⟨by simp, by rw [d1]; omega, h0⟩⟩
    · simp only [if_neg hneg]
      have hl := radixLoop_spec hr hr' 64 v.natAbs (by omega) (by omega)
      rw [show ((v.natAbs : Nat) : Int) = v by omega] at hl
      rw [hl]
      exact ⟨_, _, hall, d2, .inl ⟨by simp, by rw [d1]; omega⟩⟩

theorem printed_reads {r : Nat} {t : Text} {v : Int} (h : IsPrinted r t v) : Reads r t v := by
  obtain ⟨cs, ds, h1, ⟨h2, h3, -⟩, h4⟩ := h
  refine ⟨cs, ds, h2, ?_, h3, ?_⟩
  · clear h2 h3 h4
    induction h1 with
    | nil => exact .nil
    | cons h _ ih =>
      refine .cons ?_ ih
      unfold Prints at h
      unfold IsDigit
      omega
  · rcases h4 with h4 | h4
    · exact .inl ⟨.inl h4.1, h4.2⟩
    · exact .inr ⟨h4.1, h4.2.1⟩

theorem printed_same {r : Nat} (hr : 2 ≤ r) {t u : Text} {v : Int} (h1 : IsPrinted r t v)
    (h2 : IsPrinted r u v) : t = u := by
  obtain ⟨cs, ds, ha, hc, h⟩ := h1
  obtain ⟨cs', ds', ha', hc', h'⟩ := h2
  have same : val r ds = val r ds' → cs = cs' := by
    intro e
    have e1 := natDigits_unique hr ds hc
    have e2 := natDigits_unique hr ds' hc'
    rw [e] at e1
    have : ds = ds' := e1.symm.trans e2
    subst this
    exact (all_prints_eq ha).trans (all_prints_eq ha').symm
  rcases h with ⟨rfl, hv⟩ | ⟨rfl, hv, h0⟩ <;> rcases h' with ⟨rfl, hw⟩ | ⟨rfl, hw, h0'⟩
  · exact same (by omega)
  · omega
  · omega
  · rw [same (by omega)]

/-- C71 (partial): conv of a text written in one base prints its number in the other base, and conv
of anything else, or between bases that are not 2 to 36, is NULL.  Missing: the least 64-bit integer,
refuted by `C71_conv_least`. -/
theorem C71_conv_partial (s : Text) (a b : Int) :
    (∀ v, 2 ≤ a ∧ a ≤ 36 ∧ 2 ≤ b ∧ b ≤ 36 → Reads a.toNat s v → IsI64 v → v ≠ -2 ^ 63 →
      ∃ t, conv (some s) a b = some t ∧ IsPrinted b.toNat t v) ∧
    (¬ (2 ≤ a ∧ a ≤ 36 ∧ 2 ≤ b ∧ b ≤ 36) ∨ (¬ ∃ v, Reads a.toNat s v ∧ IsI64 v) →
      conv (some s) a b = none) ∧
    conv none a b = none := by
  refine ⟨?_, ?_, ?_⟩
  · intro v hb hr hv hm
    refine ⟨toRadixString v b.toNat, ?_, toRadixString_spec (by omega) (by omega) v hv hm⟩
    unfold conv
    rw [if_pos hb, Option.bind_some, (fromStrRadix_spec _ _ _).2 ⟨hr, hv⟩]
    rfl
  · intro h
    unfold conv
    split
    · rename_i hb
      rcases h with h | h
      · exact absurd hb h
      · rw [Option.bind_some]
        cases hf : fromStrRadix a.toNat s with
        | none => rfl
        | some v => exact absurd ⟨v, (fromStrRadix_spec _ _ _).1 hf⟩ h
    · rfl
  · unfold conv
    split <;> rfl

/-- C71 (partial): conv there and back gives the text back, if it was printed in the first place.
Missing: the least 64-bit integer. -/
theorem C71_conv_round_trip_partial (s : Text) (v a b : Int)
    (hb : 2 ≤ a ∧ a ≤ 36 ∧ 2 ≤ b ∧ b ≤ 36) (hs : IsPrinted a.toNat s v) (hv : IsI64 v)
    (hm : v ≠ -2 ^ 63) : conv (conv (some s) a b) b a = some s := by
  obtain ⟨t, h1, h2⟩ := (C71_conv_partial s a b).1 v hb (printed_reads hs) hv hm
  obtain ⟨u, h3, h4⟩ := (C71_conv_partial t b a).1 v ⟨hb.2.2.1, hb.2.2.2, hb.1, hb.2.1⟩ (printed_reads h2) hv hm
  rw [h1, h3, printed_same (by omega) h4 hs]

example : conv (some ("-ff".toList.map Char.toNat)) 16 10 = some ("-255".toList.map Char.toNat) ∧
    conv (some ("+zz".toList.map Char.toNat)) 36 2 = some ("10100001111".toList.map Char.toNat) ∧
    conv (some ("12".toList.map Char.toNat)) 2 10 = none ∧
    conv (some ("9223372036854775808".toList.map Char.toNat)) 10 16 = none := by decide +kernel

/-- C71, a negation: the least 64-bit integer is printed with question marks. -/
theorem C71_conv_least :
    conv (some ("-9223372036854775808".toList.map Char.toNat)) 10 16 =
      some ("-?000000000000000".toList.map Char.toNat) ∧
    Reads 10 ("-9223372036854775808".toList.map Char.toNat) (-2 ^ 63) := by
  refine ⟨by decide +kernel, ?_⟩
  exact ((fromStrRadix_spec 10 _ _).1 (by decide +kernel)).1

/-- C71, a negation: conv of a NULL literal from a base above 30 is the number that the letters NULL
write in this base. -/
theorem C71_conv_null_literal :
    convLiteral none 36 10 = some ("1112745".toList.map Char.toNat) ∧ conv none 36 10 = none := by
  decide +kernel

/-- C71, a negation: for a column of integers the base they are written in is ignored, so that the
literal 10 and a column of tens are converted differently. -/
theorem C71_conv_integers :
    convLiteral (some ("10".toList.map Char.toNat)) 2 10 = some ("2".toList.map Char.toNat) ∧
    convInts (some 10) 2 10 = some ("10".toList.map Char.toNat) := by decide +kernel

end Verif.Func.Digits
