import Verif.Iceberg.TransformLemmas

/-!
# C49: partition values are those of the Iceberg specification
-/

namespace Verif.Iceberg

open Verif.Calendar Spec

/-- **C49** (partial). For every transform other than `void`, every column type and every value
for which the specification defines a partition value, the code computes a value and it is
the one of the specification. Left out: the values `Spec.Sane` excludes (decimals under
bucket and truncate, binaries under truncate, integers within one width of the lower end of
their range, timestamps some 190 000 years away) and dates before 1970 under year and month,
for which the claim is false (see the witnesses below); and `uuid` and `fixed` values, which
have no literal here. -/
theorem C49_follows_specification_partial (h : List Nat → Int) (tr : Transform) (ty : PType)
    (s : Scalar) (l : Lit) (p : Option Lit) (hv : tr ≠ .void) (ht : HasType ty s)
    (hs : Sane tr s) (hl : toLit s = some l) (hp : IsPart h tr s p)
    (hd : (tr = .year ∨ tr = .month) → ∀ v, s = .date32 v → 0 ≤ v ∧ v ≤ 95026236) :
    ∃ q, applyTransform h tr ty l = some q ∧ p = some q := by
  have hn : s ≠ .null := by rintro rfl; simp [toLit] at hl
  have ha := allowed_of_isPart hp hn hv
  obtain ⟨q, hq⟩ := applyTransform_total h (ty := ty) hs ha hl hd
  exact ⟨q, hq, isPart_unique hp (applyTransform_isPart hs ha ht hl hq)⟩

-- 2024-02-29 23:59:59.999999 in hours and months; 1969-12-31 in days; -7 truncated to 5.
example (h : List Nat → Int) :
    IsPart h .month (.tsUs 1709251199999999) (some (.int 649)) ∧
    HasType .timestamp (.tsUs 1709251199999999) ∧ Sane .month (.tsUs 1709251199999999) ∧
    applyTransform h .month .timestamp (.long 1709251199999999) = some (.int 649) ∧
    IsPart h .day (.tsUs (-1)) (some (.int (-1))) ∧
    IsPart h (.truncate 5) (.int32 (-7)) (some (.int (-10))) ∧
    applyTransform h (.truncate 5) .int (.int (-7)) = some (.int (-10)) ∧
    applyTransform h .hour .timestampNs (.long (-1)) = some (.int (-1)) := by
  refine ⟨⟨649, ⟨by decide, by decide⟩, rfl⟩, ⟨by decide, by decide⟩, ⟨by decide, by decide⟩,
    rfl, ⟨-1, ⟨by decide, by decide⟩, rfl⟩,
    ⟨by decide, -10, ⟨⟨-2, rfl⟩, by decide, by decide⟩, rfl⟩, rfl, rfl⟩

/-- **C49** (partial). The transforms the code declares to preserve the order do: of two values
of one column, the smaller one has no larger partition value. Left out: the values `Sane`
excludes. -/
theorem C49_order_is_preserved_partial (h : List Nat → Int) (tr : Transform) (ty : PType)
    (a b : Scalar) (la lb qa qb : Lit) (o : Ordering)
    (ht : tr.preservesOrder = true) (hsa : Sane tr a) (hsb : Sane tr b)
    (hta : HasType ty a) (htb : HasType ty b) (hla : toLit a = some la) (hlb : toLit b = some lb)
    (hqa : applyTransform h tr ty la = some qa) (hqb : applyTransform h tr ty lb = some qb)
    (hal : ∃ p, IsPart h tr a p) (hc : Spec.cmp a b = some o) (ho : o ≠ .gt) :
    qa.cmp qb ≠ .gt := by
  obtain ⟨p, hp⟩ := hal
  have hn : a ≠ .null := by rintro rfl; simp [toLit] at hla
  have hv : tr ≠ .void := by rintro rfl; simp [Transform.preservesOrder] at ht
  have haa := allowed_of_isPart hp hn hv
  exact isPart_mono ht (applyTransform_isPart hsa haa hta hla hqa)
    (applyTransform_isPart hsb (allowed_cmp hc haa) htb hlb hqb) hc ho

example (h : List Nat → Int) :
    (Transform.year).preservesOrder = true ∧
    applyTransform h .year .timestamp (.long (-1)) = some (.int (-1)) ∧
    applyTransform h .year .timestamp (.long 0) = some (.int 0) ∧
    Spec.cmp (.tsUs (-1)) (.tsUs 0) = some .lt ∧ (Lit.int (-1)).cmp (.int 0) = .lt :=
  ⟨rfl, rfl, rfl, rfl, rfl⟩

/-- The bucket of a value is one of `0, …, n - 1`, for every hash. -/
theorem C49_bucket_in_range (h : List Nat → Int) (n : Nat) (ty : PType) (s : Scalar) (l q : Lit)
    (hn : n ≤ 2147483647) (hl : toLit s = some l) (ha : ∃ p, IsPart h (.bucket n) s p)
    (hq : applyTransform h (.bucket n) ty l = some q) :
    ∃ k, q = .int k ∧ 0 ≤ k ∧ k < n := by
  obtain ⟨p, hp⟩ := ha
  have hnn : s ≠ .null := by rintro rfl; simp [toLit] at hl
  have haa := allowed_of_isPart hp hnn (by simp)
  have key : ∀ x : Int, bucketN x n = some q → ∃ k, q = .int k ∧ 0 ≤ k ∧ k < n := by
    intro x hx
    rw [bucketN_eq haa.1 hn, Option.some.injEq] at hx
    have h0 := haa.1
    exact ⟨_, hx.symm, Int.emod_nonneg _ (by omega), Int.emod_lt_of_pos _ (by omega)⟩
  cases s <;> first
    | exact haa.2.elim
    | (simp [toLit] at hl; done)
    | (simp only [toLit, Option.some.injEq] at hl
       subst hl
       simp only [applyTransform, bucketLit] at hq
       exact key _ hq)

example : applyTransform (fun b => -(b.sum : Int)) (.bucket 7) .string (.str [105, 99, 101]) =
    some (.int 5) := by decide

/-! ### Where the claim is false -/

/-- **C49** is false for dates before 1970: the specification gives a year and a month for each
of them, and the code panics. -/
theorem C49_dates_before_1970_panic (h : List Nat → Int) (v : Int) (hv : v < 0) :
    (∃ y m, IsPart h .year (.date32 v) (some (.int y)) ∧
      IsPart h .month (.date32 v) (some (.int m))) ∧
    applyTransform h .year .date (.int v) = none ∧
    applyTransform h .month .date (.int v) = none := by
  refine ⟨⟨_, _, ⟨_, isYear_of v, rfl⟩, ⟨_, isMonth_of v, rfl⟩⟩, ?_, ?_⟩
  · simp only [applyTransform, yearLit, daysToYear, addDays, if_true]
    rw [if_neg (by omega)]; rfl
  · simp only [applyTransform, monthLit, daysToMonths, addDays, if_true]
    rw [if_neg (by omega)]; rfl

/-- **C49** is false for truncated decimals: the code leaves them as they are. -/
theorem C49_decimals_are_not_truncated (h : List Nat → Int) (w : Nat) (v : Int) (sc : Nat)
    (p : Lit) (hp : IsPart h (.truncate w) (.dec v sc) (some p)) (hw : ¬ (w : Int) ∣ v) :
    applyTransform h (.truncate w) (.decimal sc) (.i128 v) ≠ some p := by
  obtain ⟨_, q, ⟨⟨k, hk⟩, _, _⟩, hq⟩ := hp
  simp only [Option.some.injEq] at hq
  subst hq
  simp only [applyTransform, truncateLit, ne_eq, Option.some.injEq, Lit.i128.injEq]
  rintro rfl
  exact hw ⟨k, by rw [hk, Int.mul_comm]⟩

-- 10.65 truncated to a width of 50 is 10.50.
example (h : List Nat → Int) :
    IsPart h (.truncate 50) (.dec 1065 2) (some (.i128 1050)) ∧ ¬ ((50 : Nat) : Int) ∣ 1065 :=
  ⟨⟨by decide, 1050, ⟨⟨21, rfl⟩, by decide, by decide⟩, rfl⟩, by decide⟩

/-- **C49** is false for decimals under bucket: for 1.28 with two digits (unscaled 128) and for
every negative one-byte number the code hashes other bytes than the specification. -/
theorem C49_decimals_are_hashed_otherwise :
    (∀ b, HashInput (.dec 128 2) b → b ≠ decimalBytes 128) ∧
    (∀ v : Int, -128 ≤ v → v < 0 → ∀ b, HashInput (.dec v 2) b → b ≠ decimalBytes v) := by
  refine ⟨?_, ?_⟩
  · intro b hb
    have : b = [0, 128] := isMinimalBE_unique hb ⟨2, by decide, by decide, by decide, by decide,
      by decide⟩
    rw [this]; decide
  · intro v h1 h2 b hb
    have e : b = (leBytes 1 v).reverse := isMinimalBE_unique hb ⟨1, by decide, rfl, by omega,
      by omega, Or.inl rfl⟩
    intro hd
    have hl : b.length = 1 := by rw [e]; rfl
    have h3 : ((leBytes 16 v).reverse.dropWhile (· == 0)).length ≠ 1 := by
      have hh : (leBytes 16 v).reverse =
          255 :: (leBytes 15 v).reverse := by
        have : v / 256 = -1 := by omega
        simp [leBytes, this]
      rw [hh]
      simp [leBytes]
    have h4 : ((leBytes 16 v).reverse.dropWhile (· == 0)) ≠ [] := by
      have hh : (leBytes 16 v).reverse = 255 :: (leBytes 15 v).reverse := by
        have : v / 256 = -1 := by omega
        simp [leBytes, this]
      rw [hh]; simp
    rw [hd] at hl
    unfold decimalBytes at hl
    split at hl
    · rename_i hx; exact h4 hx
    · exact h3 hl

/-- **C49** is false for `void`: the code passes the value on where the specification has
NULL. -/
theorem C49_void_is_not_null (h : List Nat → Int) (ty : PType) (s : Scalar) (l : Lit)
    (hl : toLit s = some l) :
    IsPart h .void s none ∧ applyTransform h .void ty l = some l := by
  refine ⟨?_, rfl⟩
  cases s <;> rfl

example : toLit (.int32 5) = some (.int 5) := rfl

/-- **C49** is false near the ends of the ranges: the smallest `i32` truncated to tens becomes
a large positive number, and an hour 260 000 years ago becomes the last hour of the future,
so that the order is not preserved either. -/
theorem C49_ends_of_ranges (h : List Nat → Int) :
    applyTransform h (.truncate 10) .int (.int (-2147483648)) = some (.int 2147483646) ∧
    applyTransform h (.truncate 10) .int (.int (-2147483640)) = some (.int (-2147483640)) ∧
    applyTransform h .hour .timestamp (.long (-8000000000000000000)) =
      some (.int 2147483647) := ⟨rfl, rfl, rfl⟩

/-- The bytes of strings are those of UTF-8. -/
theorem C49_bytes_of_strings (s : List Char) :
    utf8 (s.map Char.toNat) = (s.flatMap String.utf8EncodeChar).map UInt8.toNat := by
  have hc : ∀ c : Char, utf8Char c.toNat = (String.utf8EncodeChar c).map UInt8.toNat := by
    intro c
    have hlt : c.val.toNat < 1114112 := by
      rcases c.valid with h | h <;> omega
    have hn : c.toNat = c.val.toNat := rfl
    simp only [utf8Char, String.utf8EncodeChar, hn]
    generalize c.val.toNat = n at hlt ⊢
    split_ifs <;> first | omega | skip
    all_goals
      simp only [List.map_cons, List.map_nil, UInt8.toNat_ofNat', List.cons.injEq, and_true]
      omega
  simp only [utf8]
  induction s with
  | nil => rfl
  | cons c s ih => simp only [List.map_cons, List.flatMap_cons, List.map_append, hc, ih]

example : utf8 ("aé€😀".toList.map Char.toNat) =
    [97, 195, 169, 226, 130, 172, 240, 159, 152, 128] := by decide

end Verif.Iceberg
