import Verif.Sql.Datetime
import Verif.Sql.NumberValue

/-!
# C94: date, time and timestamp literals
-/

namespace Verif.Sql

open Verif.Calendar

namespace Spec

/-- A number of at least `a` and at most `b` digits. -/
def Num (a b : Nat) (n : Nat) (s : Text) : Prop := Digits s ∧ a ≤ s.length ∧ s.length ≤ b ∧ n = digitsVal s

/-- An optional field: nothing, or the separator and one or two digits. -/
inductive Part (sep : Char) : Option Nat → Text → Prop
  | none : Part sep none []
  | some {n : Nat} {t : Text} : Num 1 2 n t → Part sep (some n) (sep :: t)

/-- The year: a sign, if any, and four to seven digits. -/
inductive YearText : Int → Text → Prop
  | plain {n : Nat} {t : Text} : Num 4 7 n t → YearText n t
  | plus {n : Nat} {t : Text} : Num 4 7 n t → YearText n ('+' :: t)
  | minus {n : Nat} {t : Text} : Num 4 7 n t → YearText (-(n : Int)) ('-' :: t)

/-- A date: a year, a year and a month, or a year, a month and a day. -/
inductive DateText : Int → Option Nat → Option Nat → Text → Prop
  | mk {y : Int} {m d : Option Nat} {ys ms ds : Text} : YearText y ys → Part '-' m ms → Part '-' d ds →
    (m = none → d = none) → DateText y m d (ys ++ ms ++ ds)

/-- A fraction of a second: nothing, or a point and at most nine digits, in nanoseconds. -/
inductive NanosText : Nat → Text → Prop
  | none : NanosText 0 []
  | some {t : Text} : Digits t → t.length ≤ 9 → NanosText (digitsVal t * 10 ^ (9 - t.length)) ('.' :: t)

/-- A time: an hour, then a minute, a second and a fraction, each if any. -/
inductive TimeText : TimeValue → Text → Prop
  | mk {h n : Nat} {m x : Option Nat} {hs ms xs fs : Text} : Num 1 2 h hs → Part ':' m ms → Part ':' x xs →
    (m = none → x = none) → NanosText n fs → TimeText ⟨h, m.getD 0, x.getD 0, n⟩ (hs ++ ms ++ xs ++ fs)

/-- Only spaces. -/
def Spaces (s : Text) : Prop := ∀ c ∈ s, c = ' '

/-- Between date and time: spaces, or a `T` with spaces around. -/
inductive SepText94 : Text → Prop
  | spaces {s : Text} : Spaces s → s ≠ [] → SepText94 s
  | t {a b : Text} {c : Char} : Spaces a → Spaces b → (c = 'T' ∨ c = 't') → SepText94 (a ++ c :: b)

/-- A text with spaces around it. -/
def Around (z t : Text) : Prop := ∃ a b, z = a ++ t ++ b ∧ Spaces a ∧ Spaces b ∧
  (∀ c, t.head? = some c → c ≠ ' ') ∧ (∀ c, t.getLast? = some c → c ≠ ' ')

/-- The time zone of a text: `Z` and `z` are `UTC`, `UTC` before a sign is left out. -/
inductive ZoneText : Text → Text → Prop
  | zulu {z : Text} {c : Char} : Around z [c] → (c = 'Z' ∨ c = 'z') → ZoneText z ['U', 'T', 'C']
  | utc {z t : Text} {c : Char} : Around z ('U' :: 'T' :: 'C' :: c :: t) → (c = '+' ∨ c = '-') → ZoneText z (c :: t)
  | other {z t : Text} : Around z t → t ≠ ['Z'] → t ≠ ['z'] →
    (∀ c t', t = 'U' :: 'T' :: 'C' :: c :: t' → c ≠ '+' ∧ c ≠ '-') → ZoneText z t

/-- A valid date of the calendar, of the years that are supported, and its day number. -/
def IsDay (y : Int) (m d : Nat) (days : Int) : Prop :=
  -262143 ≤ y ∧ y ≤ 262142 ∧ 1 ≤ m ∧ 1 ≤ d ∧ yearOf days = y ∧ month0 days = (m : Int) - 1 ∧
    days - monthFirst (monthOf days) = (d : Int) - 1

end Spec

open Spec

/-! ## Numbers -/

theorem digitsUpTo_num {a b n : Nat} {s r : Text} (h : Num a b n s)
    (hr : ∀ c, r.head? = some c → c.isDigit = false) : digitsUpTo b (s ++ r) = s := by
  rw [digitsUpTo, takeWhile_digits h.1 hr, List.take_of_length_le h.2.2.1]

theorem unsigned_num {a b n : Nat} {s r : Text} (h : Num a b n s)
    (hr : ∀ c, r.head? = some c → c.isDigit = false) : unsigned a b (s ++ r) = some (n, r) := by
  rw [unsigned, digitsUpTo_num h hr, if_neg (by have := h.2.1; omega), List.drop_left, h.2.2.2]

theorem unsigned_some {a b n : Nat} {s r : Text} (h : unsigned a b s = some (n, r)) :
    ∃ t, s = t ++ r ∧ Num a b n t := by
  rw [unsigned] at h
  split at h
  · cases h
  · rename_i hlen
    cases h
    have hp : digitsUpTo b s <+: s := (List.take_prefix _ _).trans (List.takeWhile_prefix _)
    obtain ⟨r', hr'⟩ := hp
    refine ⟨digitsUpTo b s, ?_, ?_, by omega, ?_, rfl⟩
    · have e : (digitsUpTo b s ++ r').drop (digitsUpTo b s).length = r' := List.drop_left
      rw [hr'] at e
      rw [e, hr']
    · intro c hc
      exact takeWhile_all (List.mem_of_mem_take hc)
    · rw [digitsUpTo, List.length_take]; exact Nat.min_le_left _ _

/-- The texts that cannot be the rest of a field. -/
def Stops (seps : List Char) (r : Text) : Prop := ∀ c, r.head? = some c → c.isDigit = false ∧ c ∉ seps

theorem optField_stop {sep : Char} {r : Text} (hr : Stops [sep] r) : optField sep r = (none, r) := by
  cases r with
  | nil => rfl
  | cons c r =>
    have := (hr c rfl).2
    simp only [List.mem_singleton] at this
    simp [optField, this]

theorem optField_num {sep : Char} {n : Nat} {t r : Text} (h : Num 1 2 n t)
    (hr : ∀ c, r.head? = some c → c.isDigit = false) : optField sep (sep :: (t ++ r)) = (some n, r) := by
  simp only [optField, beq_self_eq_true, if_true]
  rw [unsigned_num h hr]

/-- Two fields with the same separator, the second only after the first. -/
theorem optField_two {sep : Char} {m d : Option Nat} {ms ds r : Text} (hsep : sep.isDigit = false)
    (h1 : Part sep m ms) (h2 : Part sep d ds) (h : m = none → d = none) (hr : Stops [sep] r) :
    (optField sep (ms ++ (ds ++ r))).1 = m ∧
      (optField sep (optField sep (ms ++ (ds ++ r))).2).1 = d ∧
      (optField sep (optField sep (ms ++ (ds ++ r))).2).2 = r := by
  cases h1 with
  | none =>
    have := h rfl
    subst this
    cases h2
    simp only [List.nil_append, optField_stop hr, and_self]
  | some g1 =>
    have hh : ∀ c, (ds ++ r).head? = some c → c.isDigit = false := by
      intro c hc
      cases h2 with
      | none => exact (hr c hc).1
      | some _ => cases hc; exact hsep
    rw [List.cons_append, optField_num g1 hh]
    refine ⟨rfl, ?_⟩
    cases h2 with
    | none => simp only [List.nil_append, optField_stop hr, and_self]
    | some g2 =>
      simp only
      rw [List.cons_append, optField_num g2 (fun c hc => (hr c hc).1)]
      exact ⟨rfl, rfl⟩

theorem optField_some {sep : Char} {s r : Text} {m : Option Nat} (h : optField sep s = (m, r)) :
    ∃ ms, s = ms ++ r ∧ Part sep m ms := by
  cases s with
  | nil => cases h; exact ⟨[], rfl, .none⟩
  | cons c s =>
    simp only [optField] at h
    split at h
    · rename_i hc
      split at h
      · cases h; exact ⟨[], rfl, .none⟩
      · rename_i n r' hn
        cases h
        obtain ⟨t, e, g⟩ := unsigned_some hn
        exact ⟨sep :: t, by rw [e, eq_of_beq hc]; rfl, .some g⟩
    · cases h; exact ⟨[], rfl, .none⟩

theorem optField_none {sep : Char} {s : Text} (h : (optField sep s).1 = none) : (optField sep s).2 = s := by
  obtain ⟨ms, e, g⟩ := optField_some (sep := sep) (s := s) (m := (optField sep s).1) (r := (optField sep s).2) rfl
  rw [h] at g
  cases g
  exact e.symm

theorem optField_both {sep : Char} {s : Text} : ∃ ms ds,
    s = ms ++ ds ++ (optField sep (optField sep s).2).2 ∧ Part sep (optField sep s).1 ms ∧
    Part sep (optField sep (optField sep s).2).1 ds ∧
    ((optField sep s).1 = none → (optField sep (optField sep s).2).1 = none) := by
  obtain ⟨ms, e1, g1⟩ := optField_some (sep := sep) (s := s) (m := (optField sep s).1) (r := (optField sep s).2) rfl
  obtain ⟨ds, e2, g2⟩ := optField_some (sep := sep) (s := (optField sep s).2)
    (m := (optField sep (optField sep s).2).1) (r := (optField sep (optField sep s).2).2) rfl
  refine ⟨ms, ds, ?_, g1, g2, ?_⟩
  · rw [List.append_assoc, ← e2]; exact e1
  · intro h
    rw [optField_none h]
    exact h

/-! ## Dates -/

theorem signedYear_text {y : Int} {ys r : Text} (h : YearText y ys)
    (hr : ∀ c, r.head? = some c → c.isDigit = false) : signedYear (ys ++ r) = some (y, r) := by
  cases h with
  | plain g =>
    have hne : ys ≠ [] := by
      intro h
      have := g.2.1
      rw [h] at this
      simp at this
    obtain ⟨c, t', rfl⟩ := List.exists_cons_of_ne_nil hne
    have hc : c.isDigit = true := g.1 c (by simp)
    have e : takeSign (c :: t' ++ r) = ([], c :: t' ++ r) := takeSign_digit (.inl hc)
    rw [signedYear, e, unsigned_num g hr]
    rfl
  | plus g =>
    rename_i n t
    have e : takeSign ('+' :: t ++ r) = (['+'], t ++ r) := rfl
    rw [signedYear, e, unsigned_num g hr]
    rfl
  | minus g =>
    rename_i n t
    have e : takeSign ('-' :: t ++ r) = (['-'], t ++ r) := rfl
    rw [signedYear, e, unsigned_num g hr]
    rfl

theorem signedYear_some {y : Int} {s r : Text} (h : signedYear s = some (y, r)) :
    ∃ ys, s = ys ++ r ∧ YearText y ys := by
  rw [signedYear] at h
  split at h
  · cases h
  · rename_i n r' hn
    obtain ⟨t, e, g⟩ := unsigned_some hn
    cases h
    cases s with
    | nil => exact ⟨t, e, .plain g⟩
    | cons c s' =>
      by_cases hp : c = '+'
      · subst hp
        have e : s' = t ++ r := e
        exact ⟨'+' :: t, by rw [e]; rfl, .plus g⟩
      · by_cases hm : c = '-'
        · subst hm
          have e : s' = t ++ r := e
          exact ⟨'-' :: t, by rw [e]; rfl, .minus g⟩
        · have ht : takeSign (c :: s') = ([], c :: s') := by simp [takeSign, hp, hm]
          rw [ht] at e ⊢
          exact ⟨t, e, .plain g⟩

theorem dateP_text {y : Int} {m d : Option Nat} {s r : Text} (h : DateText y m d s) (hr : Stops ['-'] r) :
    dateP (s ++ r) = some (⟨y, m.getD 1, d.getD 1⟩, r) := by
  cases h with
  | @mk ys ms ds h1 h2 h3 h4 =>
    have hh : ∀ c, (ms ++ (ds ++ r)).head? = some c → c.isDigit = false := by
      intro c hc
      cases h2 with
      | none =>
        have := h4 rfl
        subst this
        cases h3
        exact (hr c hc).1
      | some _ => cases hc; decide
    obtain ⟨e1, e2, e3⟩ := optField_two (by decide) h2 h3 h4 hr
    rw [show ys ++ ms ++ ds ++ r = ys ++ (ms ++ (ds ++ r)) by simp only [List.append_assoc], dateP,
      signedYear_text h1 hh]
    simp only [e1, e2, e3]

theorem dateP_some {v : DateValue} {s r : Text} (h : dateP s = some (v, r)) :
    ∃ y m d t, s = t ++ r ∧ DateText y m d t ∧ v = ⟨y, m.getD 1, d.getD 1⟩ := by
  rw [dateP] at h
  split at h
  · cases h
  · rename_i y r' hy
    cases h
    obtain ⟨ys, e, g⟩ := signedYear_some hy
    obtain ⟨ms, ds, e1, g1, g2, g3⟩ := optField_both (sep := '-') (s := r')
    refine ⟨y, _, _, ys ++ ms ++ ds, ?_, .mk g g1 g2 g3, rfl⟩
    rw [e, List.append_assoc, List.append_assoc, ← List.append_assoc ms, ← e1]

theorem asciiSpace_stops {c : Char} {r : Text} (h : isAsciiSpace c = true) : Stops ['-'] (c :: r) := by
  intro x hx
  cases hx
  simp only [isAsciiSpace, Bool.or_eq_true, beq_iff_eq] at h
  rcases h with (((h | h) | h) | h) | h <;> subst h <;> decide

/-- A text is read as a date exactly if it is a date, alone or with a white space and anything after
it, and then it is read as these fields; missing fields are one. -/
theorem C94_date (s : Text) (v : DateValue) : parseDate s = some v ↔
    ∃ y m d t r, s = t ++ r ∧ DateText y m d t ∧ v = ⟨y, m.getD 1, d.getD 1⟩ ∧
      (r = [] ∨ ∃ c r', r = c :: r' ∧ isAsciiSpace c = true) := by
  constructor
  · intro h
    rw [parseDate] at h
    split at h
    · cases h
    · rename_i v' hd
      cases h
      obtain ⟨y, m, d, t, e, g1, g2⟩ := dateP_some hd
      exact ⟨y, m, d, t, [], e, g1, g2, .inl rfl⟩
    · rename_i v' c r hd
      split at h
      · rename_i hc
        cases h
        obtain ⟨y, m, d, t, e, g1, g2⟩ := dateP_some hd
        exact ⟨y, m, d, t, c :: r, e, g1, g2, .inr ⟨c, r, rfl, hc⟩⟩
      · cases h
  · rintro ⟨y, m, d, t, r, rfl, h, rfl, hr | ⟨c, r', rfl, hc⟩⟩
    · subst hr
      rw [parseDate, dateP_text h (by intro c hc; cases hc)]
    · rw [parseDate, dateP_text h (asciiSpace_stops hc)]
      simp only
      rw [if_pos hc]

theorem year_of_monthFirst {y m days : Int} (h0 : 0 ≤ m) (h1 : m ≤ 11)
    (hlo : monthFirst ((y - 1970) * 12 + m) ≤ days) (hhi : days < monthFirst ((y - 1970) * 12 + m + 1)) :
    yearOf days = y ∧ month0 days = m ∧ monthOf days = (y - 1970) * 12 + m := by
  have hs := monthOf_spec days
  have hm : monthOf days = (y - 1970) * 12 + m := by
    have : ¬ monthOf days < (y - 1970) * 12 + m := by
      intro h
      have := monthFirst_mono (show monthOf days + 1 ≤ (y - 1970) * 12 + m by omega)
      omega
    have : ¬ (y - 1970) * 12 + m < monthOf days := by
      intro h
      have := monthFirst_mono (show (y - 1970) * 12 + m + 1 ≤ monthOf days by omega)
      omega
    omega
  have hr : 0 ≤ month0 days ∧ month0 days ≤ 11 := by
    have hy := yearOf_spec days
    have hs := jan1_succ (yearOf days)
    have hl := leapDay_range (yearOf days)
    have := month0Of_spec (leapDay (yearOf days)) (days - jan1 (yearOf days)) hl (by omega) (by omega)
    exact ⟨this.1, this.2.1⟩
  have hd : monthOf days = (yearOf days - 1970) * 12 + month0 days := rfl
  exact ⟨by omega, by omega, hm⟩

/-- A date literal is the day of the calendar with these fields; it is an error exactly if there is no
such day. -/
theorem C94_date_value (v : DateValue) (days : Int) :
    naiveDate v = some days ↔ IsDay v.year v.month v.day days := by
  constructor
  · intro h
    simp only [naiveDate] at h
    split at h
    · rename_i hc
      obtain ⟨c1, c2, c3, c4, c5, c6⟩ := hc
      cases h
      obtain ⟨e1, e2, e3⟩ := year_of_monthFirst (y := v.year) (m := (v.month : Int) - 1)
        (days := monthFirst ((v.year - 1970) * 12 + ((v.month : Int) - 1)) + ((v.day : Int) - 1))
        (by omega) (by omega) (by omega) (by omega)
      exact ⟨c1, c2, c3, c5, e1, e2, by rw [e3]; omega⟩
    · cases h
  · rintro ⟨c1, c2, c3, c4, c5, c6, c7⟩
    have hs := monthOf_spec days
    have hd : monthOf days = (yearOf days - 1970) * 12 + month0 days := rfl
    have hr : month0 days ≤ 11 := by
      have hy := yearOf_spec days
      have hs := jan1_succ (yearOf days)
      have hl := leapDay_range (yearOf days)
      exact (month0Of_spec (leapDay (yearOf days)) (days - jan1 (yearOf days)) hl (by omega) (by omega)).2.1
    rw [c5, c6] at hd
    simp only [naiveDate]
    rw [← hd, if_pos ⟨c1, c2, c3, by omega, c4, by omega⟩]
    refine congrArg some ?_
    omega

example : dateLiteral "2024-2-29 BC".toList = some 19782 := by decide +kernel
example : dateLiteral "2023-2-29".toList = none := by decide +kernel
example : dateLiteral "-0001".toList = some (-719893) := by decide +kernel
example : IsDay 2024 2 29 19782 := (C94_date_value ⟨2024, 2, 29⟩ 19782).mp (by decide +kernel)

/-! ## Times -/

theorem nanos_value {t : Text} (hl : t.length ≤ 9) :
    Nat.ofDigitChars 10 ((t ++ List.replicate 9 '0').take 9) 0 = digitsVal t * 10 ^ (9 - t.length) := by
  have e : (t ++ List.replicate 9 '0').take 9 = t ++ List.replicate (9 - t.length) '0' := by
    rw [List.take_append, List.take_of_length_le hl, List.take_replicate]
    congr 2
    omega
  have hz : digitsVal (List.replicate (9 - t.length) '0') = 0 := by
    rw [digitsVal, Nat.ofDigitChars_replicate_zero, Nat.mul_zero]
  rw [e]
  show digitsVal _ = _
  rw [digitsVal_append, hz, List.length_replicate, Nat.add_zero, Nat.mul_comm]

theorem optFraction_text {n : Nat} {fs r : Text} (h : NanosText n fs) (hr : Stops ['.'] r) :
    (optFraction (fs ++ r)).1.getD 0 = n ∧ (optFraction (fs ++ r)).2 = r := by
  cases h with
  | none =>
    cases r with
    | nil => exact ⟨rfl, rfl⟩
    | cons c r =>
      have := (hr c rfl).2
      simp only [List.mem_singleton] at this
      simp [optFraction, this]
  | @some t h1 h2 =>
    have hd : digitsUpTo 9 (t ++ r) = t := digitsUpTo_num (a := 0) ⟨h1, Nat.zero_le _, h2, rfl⟩ (fun c hc => (hr c hc).1)
    simp only [List.cons_append, optFraction, beq_self_eq_true, if_true, hd]
    rw [nanos_value h2, List.drop_left]
    exact ⟨rfl, rfl⟩

theorem optFraction_some (s : Text) : ∃ fs, s = fs ++ (optFraction s).2 ∧ NanosText ((optFraction s).1.getD 0) fs := by
  cases s with
  | nil => exact ⟨[], rfl, .none⟩
  | cons c s =>
    simp only [optFraction]
    split
    · rename_i hc
      have hc := eq_of_beq hc
      subst hc
      have hu : unsigned 0 9 s = some (Nat.ofDigitChars 10 (digitsUpTo 9 s) 0, s.drop (digitsUpTo 9 s).length) := by
        rw [unsigned, if_neg (by omega)]
      obtain ⟨t, e, g⟩ := unsigned_some hu
      have ht : digitsUpTo 9 s = t := by
        have : digitsUpTo 9 s <+: s := (List.take_prefix _ _).trans (List.takeWhile_prefix _)
        obtain ⟨r', hr'⟩ := this
        have e2 : (digitsUpTo 9 s ++ r').drop (digitsUpTo 9 s).length = r' := List.drop_left
        rw [hr'] at e2
        rw [e2] at e
        exact List.append_cancel_right (by rw [hr']; exact e)
      rw [ht, nanos_value g.2.2.1]
      refine ⟨'.' :: t, ?_, .some g.1 g.2.2.1⟩
      rw [ht] at e
      rw [List.cons_append, ← e]
    · exact ⟨[], rfl, .none⟩

theorem timeP_text {v : TimeValue} {s r : Text} (h : TimeText v s) (hr : Stops [':', '.'] r) :
    timeP (s ++ r) = some (v, r) := by
  cases h with
  | @mk hh n m x hs ms xs fs h1 h2 h3 h4 h5 =>
    have hr1 : Stops [':'] r := fun c hc => ⟨(hr c hc).1, fun hm => (hr c hc).2 (by simp at hm; simp [hm])⟩
    have hr2 : Stops ['.'] r := fun c hc => ⟨(hr c hc).1, fun hm => (hr c hc).2 (by simp at hm; simp [hm])⟩
    have hf : Stops [':'] (fs ++ r) := by
      intro c hc
      cases h5 with
      | none => exact hr1 c hc
      | some _ _ => cases hc; decide
    have hd : ∀ c, (ms ++ (xs ++ (fs ++ r))).head? = some c → c.isDigit = false := by
      intro c hc
      cases h2 with
      | none =>
        have := h4 rfl
        subst this
        cases h3
        exact (hf c hc).1
      | some _ => cases hc; decide
    obtain ⟨e1, e2, e3⟩ := optField_two (by decide) h2 h3 h4 hf
    obtain ⟨e4, e5⟩ := optFraction_text h5 hr2
    rw [show hs ++ ms ++ xs ++ fs ++ r = hs ++ (ms ++ (xs ++ (fs ++ r))) by simp only [List.append_assoc], timeP,
      unsigned_num h1 hd]
    simp only [e1, e2, e3, e4, e5]

theorem timeP_some {v : TimeValue} {s r : Text} (h : timeP s = some (v, r)) : ∃ t, s = t ++ r ∧ TimeText v t := by
  rw [timeP] at h
  split at h
  · cases h
  · rename_i hh r' hn
    cases h
    obtain ⟨hs, e, g⟩ := unsigned_some hn
    obtain ⟨ms, ds, e1, g1, g2, g3⟩ := optField_both (sep := ':') (s := r')
    obtain ⟨fs, e2, g4⟩ := optFraction_some (optField ':' (optField ':' r').2).2
    refine ⟨hs ++ ms ++ ds ++ fs, ?_, .mk g g1 g2 g3 g4⟩
    rw [List.append_assoc, ← e2, List.append_assoc, List.append_assoc, ← List.append_assoc ms, ← e1]
    exact e

/-- A text is read as a time exactly if it is one, and then as these fields. -/
theorem C94_time (s : Text) (v : TimeValue) : parseTime s = some v ↔ TimeText v s := by
  constructor
  · intro h
    rw [parseTime] at h
    split at h
    · rename_i v' hv
      cases h
      obtain ⟨t, e, g⟩ := timeP_some hv
      rw [e, List.append_nil]
      exact g
    · cases h
  · intro h
    have := timeP_text (r := []) h (by intro c hc; cases hc)
    rw [List.append_nil] at this
    rw [parseTime, this]

/-- A time has a value exactly if the fields are in their ranges, or it is 23:59:60. -/
theorem C94_time_value {v : TimeValue} {s : Text} (h : TimeText v s) :
    naiveTime v = if v.hour < 24 ∧ v.minute < 60 ∧ v.second < 60 then
      some (v.hour * 3600000000000 + v.minute * 60000000000 + v.second * 1000000000 + v.nanos)
    else if v.hour = 23 ∧ v.minute = 59 ∧ v.second = 60 then
      some (23 * 3600000000000 + 59 * 60000000000 + 59 * 1000000000 + v.nanos)
    else none := by
  have hn : v.nanos < 1000000000 := by
    cases h with
    | mk _ _ _ _ h5 =>
      simp only
      cases h5 with
      | none => decide
      | @some t h1 h2 =>
        have := digitsVal_lt h1
        have e : (1000000000 : Nat) = 10 ^ t.length * 10 ^ (9 - t.length) := by
          rw [← Nat.pow_add, Nat.add_sub_cancel' h2]
        rw [e]
        exact Nat.mul_lt_mul_of_pos_right this (Nat.pow_pos (by decide))
  obtain ⟨hh, mm, ss, nn⟩ := v
  simp only [naiveTime] at *
  clear h
  by_cases h60 : ss = 60
  · subst h60
    by_cases hb : hh = 23 ∧ mm = 59
    · obtain ⟨rfl, rfl⟩ := hb
      have h2 : nn < 2000000000 := by omega
      simp [h2]
    · rw [if_pos (by omega), if_neg (by omega), if_neg (by omega)]
  · rw [if_neg (by omega)]
    simp only [if_neg h60]
    by_cases hc : hh < 24 ∧ mm < 60 ∧ ss < 60
    · rw [if_pos (by omega), if_pos hc]
      refine congrArg some ?_
      omega
    · rw [if_neg (by omega), if_neg hc, if_neg (by omega)]

/-- The time 23:59:60 is the second before. -/
theorem C94_time_leap (f : Text) (h1 : Digits f) (h2 : f.length ≤ 9) :
    timeLiteral ("23:59:60.".toList ++ f) = timeLiteral ("23:59:59.".toList ++ f) := by
  have d23 : Num 1 2 23 ['2', '3'] := ⟨by intro c hc; revert c; decide, by decide, by decide, by decide⟩
  have d59 : Num 1 2 59 ['5', '9'] := ⟨by intro c hc; revert c; decide, by decide, by decide, by decide⟩
  have d60 : Num 1 2 60 ['6', '0'] := ⟨by intro c hc; revert c; decide, by decide, by decide, by decide⟩
  have e1 : "23:59:60.".toList = ['2', '3', ':', '5', '9', ':', '6', '0', '.'] := by decide
  have e2 : "23:59:59.".toList = ['2', '3', ':', '5', '9', ':', '5', '9', '.'] := by decide
  rw [e1, e2]
  have t1 : TimeText ⟨23, 59, 60, _⟩ (['2', '3', ':', '5', '9', ':', '6', '0', '.'] ++ f) :=
    .mk (m := some 59) (x := some 60) (xs := [':', '6', '0']) (fs := '.' :: f) d23 (.some d59) (.some d60) (fun h => by cases h) (.some h1 h2)
  have t2 : TimeText ⟨23, 59, 59, _⟩ (['2', '3', ':', '5', '9', ':', '5', '9', '.'] ++ f) :=
    .mk (m := some 59) (x := some 59) (xs := [':', '5', '9']) (fs := '.' :: f) d23 (.some d59) (.some d59) (fun h => by cases h) (.some h1 h2)
  rw [timeLiteral, timeLiteral, (C94_time _ _).mpr t1, (C94_time _ _).mpr t2]
  simp only [C94_time_value t1, C94_time_value t2]
  rfl

example : timeLiteral "1:2:3.4567891".toList = some 3723456789 := by decide +kernel
example : timeLiteral "12.5".toList = some 43200500000 := by decide +kernel
example : timeLiteral "12:30:00.1234567891".toList = none := by decide +kernel

/-! ## Timestamps -/

theorem spaces_drop {a r : Text} (h : Spaces a) (hr : ∀ c, r.head? = some c → c ≠ ' ') :
    (a ++ r).dropWhile (· == ' ') = r ∧ (a ++ r).takeWhile (· == ' ') = a := by
  have h1 : ∀ c ∈ a, (c == ' ') = true := fun c hc => by rw [h c hc]; rfl
  have h2 : ∀ c, r.head? = some c → (c == ' ') = false := fun c hc => by simpa using hr c hc
  exact ⟨dropWhile_append_stop (p := (· == ' ')) h1 h2, takeWhile_append_stop (p := (· == ' ')) h1 h2⟩

theorem trimSpaces_around {z t : Text} (h : Around z t) : trimSpaces z = t := by
  obtain ⟨a, b, rfl, ha, hb, h1, h2⟩ := h
  rw [trimSpaces, List.append_assoc]
  cases t with
  | nil =>
    have hab : Spaces (a ++ b) := fun c hc => by
      rcases List.mem_append.mp hc with h | h
      · exact ha c h
      · exact hb c h
    have := (spaces_drop (a := a ++ b) (r := []) hab (by intro c hc; cases hc)).1
    rw [List.append_nil] at this
    rw [List.nil_append, this]
    rfl
  | cons x t' =>
    rw [(spaces_drop (a := a) (r := x :: t' ++ b) ha (by intro c hc; exact h1 c hc)).1]
    rw [List.reverse_append]
    have hb' : Spaces b.reverse := fun c hc => hb c (List.mem_reverse.mp hc)
    rw [(spaces_drop hb' (by intro c hc; rw [List.head?_reverse] at hc; exact h2 c hc)).1, List.reverse_reverse]

theorem around_trimSpaces (z : Text) : Around z (trimSpaces z) := by
  have e1 : z = z.takeWhile (· == ' ') ++ z.dropWhile (· == ' ') := (List.takeWhile_append_dropWhile).symm
  have e2 := (List.takeWhile_append_dropWhile (p := (· == ' ')) (l := (z.dropWhile (· == ' ')).reverse)).symm
  have e3 : z.dropWhile (· == ' ') = trimSpaces z ++ ((z.dropWhile (· == ' ')).reverse.takeWhile (· == ' ')).reverse := by
    have := congrArg List.reverse e2
    rw [List.reverse_reverse, List.reverse_append] at this
    exact this
  refine ⟨z.takeWhile (· == ' '), ((z.dropWhile (· == ' ')).reverse.takeWhile (· == ' ')).reverse, ?_, ?_, ?_, ?_, ?_⟩
  · rw [List.append_assoc, ← e3]; exact e1
  · intro c hc
    exact eq_of_beq (takeWhile_all (p := (· == ' ')) hc)
  · intro c hc
    exact eq_of_beq (takeWhile_all (p := (· == ' ')) (List.mem_reverse.mp hc))
  · intro c hc
    have : (z.dropWhile (· == ' ')).head? = some c := by
      rw [e3]
      cases ht : trimSpaces z with
      | nil => rw [ht] at hc; cases hc
      | cons x y => rw [ht] at hc; exact hc
    have := dropWhile_head (p := (· == ' ')) this
    simpa using this
  · intro c hc
    rw [trimSpaces, List.getLast?_reverse] at hc
    have := dropWhile_head (p := (· == ' ')) hc
    simpa using this

theorem timezoneOf_zone (z : Text) : ZoneText z (timezoneOf z) := by
  have ha := around_trimSpaces z
  rw [timezoneOf]
  by_cases h1 : trimSpaces z = ['Z'] ∨ trimSpaces z = ['z']
  · rw [if_pos h1]
    rcases h1 with h1 | h1 <;> rw [h1] at ha
    · exact .zulu ha (.inl rfl)
    · exact .zulu ha (.inr rfl)
  · rw [if_neg h1]
    by_cases h2 : (trimSpaces z).take 4 = ['U', 'T', 'C', '+'] ∨ (trimSpaces z).take 4 = ['U', 'T', 'C', '-']
    · rw [if_pos h2]
      generalize trimSpaces z = t at *
      match t, h2 with
      | c1 :: c2 :: c3 :: c4 :: r, h2 =>
        rcases h2 with h2 | h2
        · cases h2; exact .utc ha (.inl rfl)
        · cases h2; exact .utc ha (.inr rfl)
    · rw [if_neg h2]
      refine .other ha (fun h => h1 (.inl h)) (fun h => h1 (.inr h)) ?_
      intro c t' ht
      rw [ht] at h2
      constructor
      · intro hc; exact h2 (.inl (by rw [hc]; rfl))
      · intro hc; exact h2 (.inr (by rw [hc]; rfl))

theorem timezoneOf_unique {z n : Text} (h : ZoneText z n) : timezoneOf z = n := by
  cases h with
  | zulu ha hc =>
    rw [timezoneOf, trimSpaces_around ha]
    rcases hc with rfl | rfl <;> rfl
  | utc ha hc =>
    rw [timezoneOf, trimSpaces_around ha]
    rcases hc with rfl | rfl <;> rfl
  | other ha h1 h2 h3 =>
    rw [timezoneOf, trimSpaces_around ha]
    rw [if_neg (by intro h; rcases h with h | h <;> contradiction), if_neg]
    intro h
    match n, h with
    | c1 :: c2 :: c3 :: c4 :: r, h =>
      rcases h with h | h
      · cases h; exact (h3 _ _ rfl).1 rfl
      · cases h; exact (h3 _ _ rfl).2 rfl

theorem dateTimeSep_text {sep r : Text} (h : SepText94 sep) (hr : ∀ c, r.head? = some c → c.isDigit = true) (hne : r ≠ []) :
    dateTimeSep (sep ++ r) = some r := by
  obtain ⟨c, r', rfl⟩ := List.exists_cons_of_ne_nil hne
  have hc := hr c rfl
  have hsp : ∀ x, (c :: r').head? = some x → x ≠ ' ' := by
    intro x hx; cases hx; exact digit_ne hc (by decide)
  cases h with
  | spaces h1 h2 =>
    rw [dateTimeSep, (spaces_drop h1 hsp).1, (spaces_drop h1 hsp).2]
    simp only
    rw [if_neg, if_neg h2]
    simp only [Bool.or_eq_true, beq_iff_eq, not_or]
    exact ⟨digit_ne hc (by decide), digit_ne hc (by decide)⟩
  | @t a b x h1 h2 h3 =>
    rw [List.append_assoc, dateTimeSep, (spaces_drop h1 (by
      intro y hy; cases hy; rcases h3 with rfl | rfl <;> decide)).1]
    simp only [List.cons_append]
    rw [if_pos (by rcases h3 with rfl | rfl <;> decide), (spaces_drop h2 hsp).1]

theorem timeText_head {v : TimeValue} {s : Text} (h : TimeText v s) (r : Text) :
    (s ++ r) ≠ [] ∧ ∀ c, (s ++ r).head? = some c → c.isDigit = true := by
  cases h with
  | @mk hh n m x hs ms xs fs h1 h2 h3 h4 h5 =>
    have : hs ≠ [] := by
      intro h
      have := h1.2.1
      rw [h] at this
      simp at this
    obtain ⟨c, t, rfl⟩ := List.exists_cons_of_ne_nil this
    exact ⟨by simp, by intro x hx; cases hx; exact h1.1 c (by simp)⟩

theorem sepText_stops {sep r : Text} (h : SepText94 sep) : Stops ['-'] (sep ++ r) := by
  intro c hc
  cases h with
  | spaces h1 h2 =>
    obtain ⟨x, y, rfl⟩ := List.exists_cons_of_ne_nil h2
    cases hc
    rw [h1 c (by simp)]
    decide
  | @t a b x h1 h2 h3 =>
    cases a with
    | nil => cases hc; rcases h3 with rfl | rfl <;> decide
    | cons y a => cases hc; rw [h1 c (by simp)]; decide

/-- A date, a separator, a time and a time zone are read as these fields. -/
theorem C94_timestamp {y : Int} {m d : Option Nat} {t sep ts z n : Text} {v : TimeValue} (h1 : DateText y m d t)
    (h2 : SepText94 sep) (h3 : TimeText v ts) (hz : Stops [':', '.'] z) (h4 : ZoneText z n) :
    parseTimestamp (t ++ (sep ++ (ts ++ z))) = some ⟨⟨y, m.getD 1, d.getD 1⟩, v, n⟩ := by
  obtain ⟨g1, g2⟩ := timeText_head h3 z
  rw [parseTimestamp, dateP_text h1 (sepText_stops h2)]
  simp only
  rw [timeAndZone, dateTimeSep_text h2 g2 g1]
  simp only
  rw [timeP_text h3 hz]
  simp only
  rw [timezoneOf_unique h4]

/-- A date alone, maybe with spaces after it, is the midnight of the day. -/
theorem C94_timestamp_date {y : Int} {m d : Option Nat} {t b : Text} (h1 : DateText y m d t) (h2 : Spaces b) :
    parseTimestamp (t ++ b) = some ⟨⟨y, m.getD 1, d.getD 1⟩, ⟨0, 0, 0, 0⟩, []⟩ := by
  have hb := spaces_drop (a := b) (r := []) h2 (by intro c hc; cases hc)
  rw [List.append_nil] at hb
  have hs : Stops ['-'] b := by
    intro c hc
    cases b with
    | nil => cases hc
    | cons x b => cases hc; rw [h2 c (by simp)]; decide
  rw [parseTimestamp, dateP_text h1 hs]
  simp only
  have : timeAndZone b = none := by
    rw [timeAndZone, dateTimeSep, hb.1]
    simp only
    by_cases h : b.takeWhile (· == ' ') = []
    · rw [if_pos h]
    · rw [if_neg h]; rfl
  rw [this]
  simp only
  rw [if_pos hb.1]

theorem dateTimeSep_some {s r : Text} (h : dateTimeSep s = some r) : ∃ sep, s = sep ++ r ∧ SepText94 sep := by
  have e : s = s.takeWhile (· == ' ') ++ s.dropWhile (· == ' ') := (List.takeWhile_append_dropWhile).symm
  have hsp : ∀ x : Text, Spaces (x.takeWhile (· == ' ')) := fun x c hc =>
    eq_of_beq (takeWhile_all (p := (· == ' ')) hc)
  rw [dateTimeSep] at h
  split at h
  · rename_i c r' hc
    rw [hc] at e
    split at h
    · rename_i hT
      cases h
      refine ⟨s.takeWhile (· == ' ') ++ c :: r'.takeWhile (· == ' '), ?_, .t (hsp s) (hsp r') ?_⟩
      · rw [List.append_assoc, List.cons_append, List.takeWhile_append_dropWhile]; exact e
      · simpa [Bool.or_eq_true] using hT
    · split at h
      · cases h
      · rename_i hne
        cases h
        exact ⟨_, e, .spaces (hsp s) hne⟩
  · rename_i hc
    rw [hc] at e
    split at h
    · cases h
    · rename_i hne
      cases h
      exact ⟨_, e, .spaces (hsp s) hne⟩

/-- Whatever is read as a timestamp is a date with spaces after it, or a date, a separator, a time and
a time zone text; the time zone text is all that follows. -/
theorem C94_timestamp_only {s : Text} {v : TimestampValue} (h : parseTimestamp s = some v) :
    ∃ y m d t r, s = t ++ r ∧ DateText y m d t ∧ v.date = ⟨y, m.getD 1, d.getD 1⟩ ∧
      ((Spaces r ∧ v.time = ⟨0, 0, 0, 0⟩ ∧ v.timezone = []) ∨
       ∃ sep ts z, r = sep ++ (ts ++ z) ∧ SepText94 sep ∧ TimeText v.time ts ∧ ZoneText z v.timezone) := by
  rw [parseTimestamp] at h
  split at h
  · cases h
  · rename_i dv r hd
    obtain ⟨y, m, d, t, e, g1, g2⟩ := dateP_some hd
    split at h
    · rename_i tv z hz
      cases h
      refine ⟨y, m, d, t, r, e, g1, g2, .inr ?_⟩
      rw [timeAndZone] at hz
      split at hz
      · cases hz
      · rename_i r1 h1
        split at hz
        · cases hz
        · rename_i tv' r2 h2
          cases hz
          obtain ⟨sep, e1, k1⟩ := dateTimeSep_some h1
          obtain ⟨ts, e2, k2⟩ := timeP_some h2
          exact ⟨sep, ts, r2, by rw [e1, e2], k1, k2, timezoneOf_zone r2⟩
    · split at h
      · rename_i hb
        cases h
        refine ⟨y, m, d, t, r, e, g1, g2, .inl ⟨?_, rfl, rfl⟩⟩
        have e : r = r.takeWhile (· == ' ') ++ r.dropWhile (· == ' ') := (List.takeWhile_append_dropWhile).symm
        rw [hb, List.append_nil] at e
        intro c hc
        rw [e] at hc
        exact eq_of_beq (takeWhile_all (p := (· == ' ')) hc)
      · cases h

/-- The local time of a timestamp: nanoseconds since the start of 1970. The second 23:59:60 is the first of
the next day, where there is one. -/
theorem C94_timestamp_value {v : TimestampValue} {s : Text} (ht : TimeText v.time s) :
    (∀ n, intoNaive v = .ok n ↔ ∃ days, IsDay v.date.year v.date.month v.date.day days ∧
      ((v.time.hour < 24 ∧ v.time.minute < 60 ∧ v.time.second < 60 ∧
        n = days * 86400000000000 + v.time.hour * 3600000000000 + v.time.minute * 60000000000 +
          v.time.second * 1000000000 + v.time.nanos) ∨
       (v.time.hour = 23 ∧ v.time.minute = 59 ∧ v.time.second = 60 ∧ days < lastDay ∧
        n = (days + 1) * 86400000000000 + v.time.nanos))) ∧
    (intoNaive v = .panic ↔ ∃ days, IsDay v.date.year v.date.month v.date.day days ∧
      v.time.hour = 23 ∧ v.time.minute = 59 ∧ v.time.second = 60 ∧ lastDay ≤ days) := by
  have hn : v.time.nanos < 1000000000 := by
    cases h : v.time with
    | mk a b c n =>
      rw [h] at ht
      cases ht with
      | mk _ _ _ _ h5 =>
        simp only
        cases h5 with
        | none => decide
        | @some t h1 h2 =>
          have := digitsVal_lt h1
          have e : (1000000000 : Nat) = 10 ^ t.length * 10 ^ (9 - t.length) := by
            rw [← Nat.pow_add, Nat.add_sub_cancel' h2]
          rw [e]
          exact Nat.mul_lt_mul_of_pos_right this (Nat.pow_pos (by decide))
  have hv := C94_time_value ht
  rw [intoNaive]
  cases hd : naiveDate v.date with
  | none =>
    have hno : ∀ days, ¬ IsDay v.date.year v.date.month v.date.day days := by
      intro days h
      rw [(C94_date_value v.date days).mpr h] at hd
      cases hd
    simp only [reduceCtorEq, false_iff]
    exact ⟨fun n ⟨days, h, _⟩ => hno days h, fun ⟨days, h, _⟩ => hno days h⟩
  | some days =>
    have hday := (C94_date_value v.date days).mp hd
    have huniq : ∀ days', IsDay v.date.year v.date.month v.date.day days' → days' = days := by
      intro days' h
      rw [(C94_date_value v.date days').mpr h] at hd
      cases hd
      rfl
    simp only
    rw [hv]
    generalize v.time.hour = H at *
    generalize v.time.minute = M at *
    generalize v.time.second = S at *
    generalize v.time.nanos = N at *
    generalize lastDay = L at *
    by_cases h1 : H < 24 ∧ M < 60 ∧ S < 60
    · rw [if_pos h1]
      simp only
      rw [if_neg (by omega)]
      constructor
      · intro n
        constructor
        · intro h
          cases h
          exact ⟨days, hday, .inl ⟨h1.1, h1.2.1, h1.2.2, by omega⟩⟩
        · rintro ⟨days', h', hh⟩
          cases huniq days' h'
          refine congrArg Outcome.ok ?_
          omega
      · constructor
        · intro h; cases h
        · rintro ⟨_, _, _, _, h, _⟩; omega
    · rw [if_neg h1]
      by_cases h2 : H = 23 ∧ M = 59 ∧ S = 60
      · rw [if_pos h2]
        simp only
        rw [if_pos h2.2.2]
        by_cases h3 : days < L
        · rw [if_pos (by omega)]
          constructor
          · intro n
            constructor
            · intro h
              cases h
              exact ⟨days, hday, .inr ⟨h2.1, h2.2.1, h2.2.2, h3, by omega⟩⟩
            · rintro ⟨days', h', hh⟩
              cases huniq days' h'
              refine congrArg Outcome.ok ?_
              omega
          · constructor
            · intro h; cases h
            · rintro ⟨days', h', _, _, _, h⟩
              cases huniq days' h'
              omega
        · rw [if_neg (by omega)]
          constructor
          · intro n
            constructor
            · intro h; cases h
            · rintro ⟨days', h', hh⟩
              cases huniq days' h'
              omega
          · constructor
            · intro _
              exact ⟨days, hday, h2.1, h2.2.1, h2.2.2, by omega⟩
            · intro _; rfl
      · rw [if_neg h2]
        constructor
        · intro n
          constructor
          · intro h; cases h
          · rintro ⟨days', h', hh⟩
            omega
        · constructor
          · intro h; cases h
          · rintro ⟨_, _, h⟩; omega

example : timestampLiteral "2024-02-29T23:59:60.5 UTC+01:00 ".toList =
    .ok (1709251200500000, "+01:00".toList) := by decide +kernel
example : timestampLiteral "262142-12-31 23:59:60".toList = .panic := by decide +kernel
example : timestampLiteral "1969-12-31 t 23:59:59.999999999z".toList = .ok (-1, "UTC".toList) := by decide +kernel
example : timestampLiteral "2020-01-01 123".toList = .ok (1577880000000000, "3".toList) := by decide +kernel

/-- The statement fails for one second: the leap second of the last day stops the server thread. -/
theorem C94_timestamp_crash : timestampLiteral "262142-12-31 23:59:60".toList = .panic := by decide +kernel

/-- Digits after a full field are taken as the name of a time zone, so the text is not refused here. -/
theorem C94_digits_left_as_zone :
    parseTimestamp "2020-01-01 123".toList = some ⟨⟨2020, 1, 1⟩, ⟨12, 0, 0, 0⟩, "3".toList⟩ ∧
    parseTimestamp "2020-01-01 00:00:00.1234567891".toList =
      some ⟨⟨2020, 1, 1⟩, ⟨0, 0, 0, 123456789⟩, "1".toList⟩ := by decide +kernel

end Verif.Sql
