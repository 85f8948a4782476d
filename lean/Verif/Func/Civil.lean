import Verif.Base.Calendar
/-!
# Days and civil dates

The conversions of `crates/sail-function/src/scalar/array/spark_sequence.rs` between days since
1970-01-01 and year, month and day, and their agreement with the Gregorian calendar of
`Verif/Base/Calendar.lean`.  Integers are unbounded.
-/
namespace Verif.Func.Civil

open Verif.Calendar

/-- spark_sequence.rs 898-910 (`days_in_month`); the month is in 1..12. -/
def daysInMonth (year month : Int) : Int :=
  if month = 1 ∨ month = 3 ∨ month = 5 ∨ month = 7 ∨ month = 8 ∨ month = 10 ∨ month = 12 then 31
  else if month = 4 ∨ month = 6 ∨ month = 9 ∨ month = 11 then 30
  else if year % 4 = 0 ∧ (year % 100 ≠ 0 ∨ year % 400 = 0) then 29
  else 28

/-- spark_sequence.rs 912-920 (`days_from_civil`).  `div_euclid` and, on the nonnegative numbers
where it is used, `/` are Lean's `/`. -/
def daysFromCivil (year month day : Int) : Int :=
  let year := year - (if month ≤ 2 then 1 else 0)
  let era := year / 400
  let yearOfEra := year - era * 400
  let shiftedMonth := month + (if month > 2 then -3 else 9)
  let dayOfYear := (153 * shiftedMonth + 2) / 5 + day - 1
  let dayOfEra := yearOfEra * 365 + yearOfEra / 4 - yearOfEra / 100 + dayOfYear
  era * 146097 + dayOfEra - 719468

/-- spark_sequence.rs 922-935 (`civil_from_days`): year, month (1..12) and day (1..31). -/
def civilFromDays (days : Int) : Int × Int × Int :=
  let days := days + 719468
  let era := days / 146097
  let dayOfEra := days - era * 146097
  let yearOfEra := (dayOfEra - dayOfEra / 1460 + dayOfEra / 36524 - dayOfEra / 146096) / 365
  let year := yearOfEra + era * 400
  let dayOfYear := dayOfEra - (365 * yearOfEra + yearOfEra / 4 - yearOfEra / 100)
  let shiftedMonth := (5 * dayOfYear + 2) / 153
  let day := dayOfYear - (153 * shiftedMonth + 2) / 5 + 1
  let month := shiftedMonth + (if shiftedMonth < 10 then 3 else -9)
  let year := year + (if month ≤ 2 then 1 else 0)
  (year, month, day)

/-! ## From civil dates to days -/

theorem leapDay_eq (y : Int) :
    leapDay y = y / 4 - (y - 1) / 4 - (y / 100 - (y - 1) / 100) + (y / 400 - (y - 1) / 400) := by
  have := jan1_succ y
  unfold jan1 at this
  rw [Int.add_sub_cancel] at this
  omega

/-- The day number of a civil date is the first day of its month and the days after that. -/
theorem daysFromCivil_eq (y m d : Int) (h1 : 1 ≤ m) (h2 : m ≤ 12) :
    daysFromCivil y m d = monthFirst ((y - 1970) * 12 + (m - 1)) + (d - 1) := by
  have e1 : 1970 + ((y - 1970) * 12 + (m - 1)) / 12 = y := by omega
  have e2 : ((y - 1970) * 12 + (m - 1)) % 12 = m - 1 := by omega
  unfold monthFirst
  rw [e1, e2, leapDay_eq]
  unfold daysFromCivil jan1
  rcases (by omega : m = 1 ∨ m = 2 ∨ m = 3 ∨ m = 4 ∨ m = 5 ∨ m = 6 ∨ m = 7 ∨ m = 8 ∨ m = 9 ∨
    m = 10 ∨ m = 11 ∨ m = 12) with rfl | rfl | rfl | rfl | rfl | rfl | rfl | rfl | rfl | rfl | rfl | rfl
  all_goals
    simp only [Int.reduceSub, Int.reduceLE, Int.reduceLT, Int.reduceMul, Int.reduceAdd,
      Int.reduceDiv, Int.reduceGT, Int.reduceNeg, if_true, if_false, monthStart]
    omega

theorem daysInMonth_eq (y m : Int) (h1 : 1 ≤ m) (h2 : m ≤ 12) :
    daysInMonth y m = monthFirst ((y - 1970) * 12 + (m - 1) + 1) - monthFirst ((y - 1970) * 12 + (m - 1)) := by
  have e1 : 1970 + ((y - 1970) * 12 + (m - 1)) / 12 = y := by omega
  have e2 : ((y - 1970) * 12 + (m - 1)) % 12 = m - 1 := by omega
  have el : (y % 4 = 0 ∧ (y % 100 ≠ 0 ∨ y % 400 = 0)) ↔ leapDay y = 1 := by
    unfold leapDay isLeap
    simp only [Bool.and_eq_true, Bool.or_eq_true, beq_iff_eq, bne_iff_ne]
    split <;> simp [*]
  have lr := leapDay_range y
  unfold monthFirst daysInMonth
  rw [e1, e2]
  simp only [el]
  rcases (by omega : m = 1 ∨ m = 2 ∨ m = 3 ∨ m = 4 ∨ m = 5 ∨ m = 6 ∨ m = 7 ∨ m = 8 ∨ m = 9 ∨
    m = 10 ∨ m = 11 ∨ m = 12) with rfl | rfl | rfl | rfl | rfl | rfl | rfl | rfl | rfl | rfl | rfl | rfl
  all_goals
    first
    | (have f1 : 1970 + ((y - 1970) * 12 + (12 - 1) + 1) / 12 = y + 1 := by omega
       have f2 : ((y - 1970) * 12 + (12 - 1) + 1) % 12 = 0 := by omega
       rw [f1, f2, jan1_succ]
       simp only [Int.reduceSub, Int.reduceEq, monthStart, or_true, or_false, if_true]
       omega)
    | (have f1 : ∀ k : Int, 0 ≤ k → k ≤ 11 → 1970 + ((y - 1970) * 12 + k) / 12 = y := by omega
       have f2 : ∀ k : Int, 0 ≤ k → k ≤ 11 → ((y - 1970) * 12 + k) % 12 = k := by omega
       simp only [Int.add_assoc, Int.reduceSub, Int.reduceAdd]
       rw [f1 _ (by decide) (by decide), f2 _ (by decide) (by decide)]
       simp only [Int.reduceEq, monthStart, or_true, or_false, true_or, false_or, if_true, if_false]
       first | omega | (split <;> omega))

/-! ## From days to civil dates -/

/-- First day of the `y`-th year of an era, counted from a first of March. -/
def yearStart (y : Nat) : Nat := 365 * y + y / 4 - y / 100 + y / 400

/-- The estimate of the year before the division. -/
def estimate (doe : Nat) : Nat := doe - doe / 1460 + doe / 36524 - doe / 146096

theorem estimate_mono {a b : Nat} (h : a ≤ b) : estimate a ≤ estimate b := by
  unfold estimate
  have e : ∀ x : Nat, x / 146096 = x / 36524 / 4 := fun x => by
    rw [Nat.div_div_eq_div_mul]
  rw [e, e]
  have h1 : a / 36524 ≤ b / 36524 := Nat.div_le_div_right h
  have h2 : a - a / 1460 ≤ b - b / 1460 := by omega
  have h3 : a / 1460 ≤ a := Nat.div_le_self _ _
  omega

theorem estimate_ends : ∀ y : Fin 400, 365 * y.val ≤ estimate (yearStart y) ∧
    estimate (yearStart (y + 1 : Nat) - 1) < 365 * (y + 1 : Nat) := by
  decide +kernel

theorem year_exists (n : Nat) (hn : n ≤ 400) (doe : Nat) (h : doe < yearStart n) :
    ∃ y, y < n ∧ yearStart y ≤ doe ∧ doe < yearStart (y + 1) := by
  induction n with
  | zero => exact absurd h (by simp [yearStart])
  | succ n ih =>
    by_cases hc : doe < yearStart n
    · obtain ⟨y, h1, h2⟩ := ih (by omega) hc
      exact ⟨y, by omega, h2⟩
    · exact ⟨n, by omega, by omega, h⟩

theorem year_of_era (doe : Nat) (h : doe < 146097) :
    ∃ y, y < 400 ∧ estimate doe / 365 = y ∧ yearStart y ≤ doe ∧ doe < yearStart (y + 1) := by
  obtain ⟨y, h1, h2, h3⟩ := year_exists 400 (by omega) doe (by simpa [yearStart] using h)
  refine ⟨y, h1, ?_, h2, h3⟩
  have e := estimate_ends ⟨y, h1⟩
  have m1 := estimate_mono h2
  have m2 := estimate_mono (show doe ≤ yearStart (y + 1) - 1 by omega)
  simp only at e
  omega

/-- What the era computation yields: a year of the era and a day of the year, counted from March. -/
theorem era_spec (days : Int) :
    let z := days + 719468
    let doe := z - z / 146097 * 146097
    let y := (doe - doe / 1460 + doe / 36524 - doe / 146096) / 365
    let doy := doe - (365 * y + y / 4 - y / 100)
    0 ≤ y ∧ y < 400 ∧ 0 ≤ doy ∧ doy < 365 + ((y + 1) / 4 - y / 4) - ((y + 1) / 100 - y / 100) + ((y + 1) / 400) ∧
      days = z / 146097 * 146097 + (y * 365 + y / 4 - y / 100) + doy - 719468 := by
  intro z doe y doy
  have h0 : 0 ≤ doe ∧ doe < 146097 := by
    simp only [doe]
    omega
  obtain ⟨n, hn⟩ := Int.eq_ofNat_of_zero_le h0.1
  obtain ⟨k, h1, h2, h3, h4⟩ := year_of_era n (by omega)
  have hy : y = k := by
    simp only [y]
    rw [hn, ← h2]
    unfold estimate
    have : n / 1460 ≤ n := Nat.div_le_self _ _
    have : n / 146096 ≤ n / 36524 := by omega
    omega
  have hz : z = days + 719468 := rfl
  have hd : doe = z - z / 146097 * 146097 := rfl
  have hdy : doy = doe - (365 * y + y / 4 - y / 100) := rfl
  unfold yearStart at h3 h4
  clear_value z doe y doy
  subst hy
  refine ⟨by omega, by omega, ?_, ?_, by omega⟩
  · omega
  · have c4 : (((k + 1 : Nat) / 4 : Nat) : Int) = ((k : Int) + 1) / 4 := by omega
    have c100 : (((k + 1 : Nat) / 100 : Nat) : Int) = ((k : Int) + 1) / 100 := by omega
    have c400 : (((k + 1 : Nat) / 400 : Nat) : Int) = ((k : Int) + 1) / 400 := by omega
    have d400 : k / 400 = 0 := by omega
    have le4 : k / 100 ≤ k / 4 := by omega
    rw [← c4, ← c100, ← c400]
    generalize (k + 1) / 4 = x1 at *
    generalize (k + 1) / 100 = x2 at *
    generalize (k + 1) / 400 = x3 at *
    omega

/-- The month and the day of the month from the day of the year, counted from March. -/
theorem month_spec (doy : Int) (h0 : 0 ≤ doy) (h1 : doy ≤ 365) :
    let sm := (5 * doy + 2) / 153
    0 ≤ sm ∧ sm ≤ 11 ∧ (153 * sm + 2) / 5 ≤ doy ∧
      (sm < 11 → doy < (153 * (sm + 1) + 2) / 5) := by
  intro sm
  have : sm = (5 * doy + 2) / 153 := rfl
  omega

/-- The length of a year counted from March: it ends with the February of the next. -/
theorem march_year (y era : Int) (h0 : 0 ≤ y) (h1 : y < 400) :
    365 + ((y + 1) / 4 - y / 4) - ((y + 1) / 100 - y / 100) + (y + 1) / 400 =
      365 + (if (y + era * 400 + 1) % 4 = 0 ∧
        ((y + era * 400 + 1) % 100 ≠ 0 ∨ (y + era * 400 + 1) % 400 = 0) then 1 else 0) := by
  have e4 : (y + era * 400 + 1) % 4 = (y + 1) % 4 := by omega
  have e1 : (y + era * 400 + 1) % 100 = (y + 1) % 100 := by omega
  have e5 : (y + era * 400 + 1) % 400 = (y + 1) % 400 := by omega
  rw [e4, e1, e5]
  by_cases h4 : (y + 1) % 4 = 0 <;> by_cases hh : (y + 1) % 100 = 0 <;>
    by_cases h5 : (y + 1) % 400 = 0 <;> simp [h4, hh, h5] <;> omega

/-- The civil date of a day lies in the month of the day, and is counted from its first. -/
theorem civilFromDays_eq (days : Int) :
    civilFromDays days = (yearOf days, month0 days + 1, days - monthFirst (monthOf days) + 1) := by
  obtain ⟨y0, y1, d0, d1, hd⟩ := era_spec days
  unfold civilFromDays
  simp only at y0 y1 d0 d1 hd ⊢
  generalize hz : (days + 719468) / 146097 = era at *
  generalize hdoe : days + 719468 - era * 146097 = doe at *
  generalize hy : (doe - doe / 1460 + doe / 36524 - doe / 146096) / 365 = y at *
  generalize hdoy : doe - (365 * y + y / 4 - y / 100) = doy at *
  have hl : doy ≤ 365 := by omega
  obtain ⟨m0, m1, m2, m3⟩ := month_spec doy d0 hl
  generalize hsm : (5 * doy + 2) / 153 = sm at *
  -- the date found, as year and month
  generalize hM : sm + (if sm < 10 then 3 else -9) = M
  generalize hY : y + era * 400 + (if M ≤ 2 then 1 else 0) = Y
  have hM1 : 1 ≤ M ∧ M ≤ 12 := by rw [← hM]; split <;> omega
  have hback : daysFromCivil Y M (doy - (153 * sm + 2) / 5 + 1) = days := by
    unfold daysFromCivil
    simp only
    have e1 : Y - (if M ≤ 2 then 1 else 0) = y + era * 400 := by omega
    have e2 : M + (if M > 2 then -3 else 9) = sm := by
      rw [← hM]; repeat' split <;> omega
    have e3 : (y + era * 400) / 400 = era := by omega
    rw [e1, e2, e3]
    have e4 : y + era * 400 - era * 400 = y := by omega
    rw [e4]
    clear hy hdoy hdoe hz hsm hM hY e1 e2 e3 e4
    omega
  have hlo : 0 ≤ doy - (153 * sm + 2) / 5 := by omega
  have hmonth := daysFromCivil_eq Y M (doy - (153 * sm + 2) / 5 + 1) hM1.1 hM1.2
  rw [hback] at hmonth
  have hdim : doy - (153 * sm + 2) / 5 < daysInMonth Y M := by
    unfold daysInMonth
    rcases (by omega : sm = 0 ∨ sm = 1 ∨ sm = 2 ∨ sm = 3 ∨ sm = 4 ∨ sm = 5 ∨ sm = 6 ∨ sm = 7 ∨ sm = 8 ∨
      sm = 9 ∨ sm = 10 ∨ sm = 11) with h | h | h | h | h | h | h | h | h | h | h | h
    all_goals
      rw [h] at m3 hM ⊢
      simp only [Int.reduceLT, Int.reduceAdd, Int.reduceNeg, Int.reduceMul, Int.reduceDiv, if_true,
        if_false, forall_const] at hM m3
      subst hM
      simp only [Int.reduceLE, if_true, if_false] at hY
      simp only [Int.reduceEq, or_true, or_false, true_or, false_or, if_true, if_false,
        Int.reduceMul, Int.reduceAdd, Int.reduceDiv]
      first
      | (clear hy hdoy hdoe hz hd hback hmonth d1; omega)
      | (rw [march_year y era y0 y1] at d1
         rw [← hY]
         clear hy hdoy hdoe hz hd hback hmonth
         split at d1 <;> simp [*] <;> omega)
  have hnext := daysInMonth_eq Y M hM1.1 hM1.2
  -- the month is determined
  have hspec := monthOf_spec days
  have hmo : (Y - 1970) * 12 + (M - 1) = monthOf days := by
    apply Classical.byContradiction
    intro hne
    rcases Int.lt_or_gt_of_ne hne with h | h
    · have := monthFirst_mono (show (Y - 1970) * 12 + (M - 1) + 1 ≤ monthOf days by omega)
      omega
    · have := monthFirst_mono (show monthOf days + 1 ≤ (Y - 1970) * 12 + (M - 1) by omega)
      omega
  have hm0 : 0 ≤ month0 days ∧ month0 days ≤ 11 := by
    have hy := yearOf_spec days
    rw [jan1_succ] at hy
    have := month0Of_spec (leapDay (yearOf days)) (days - jan1 (yearOf days)) (leapDay_range _)
      (by omega) (by omega)
    exact ⟨this.1, this.2.1⟩
  have hmo' := hmo
  unfold monthOf at hmo'
  rw [← hmo]
  simp only [Prod.mk.injEq]
  refine ⟨by omega, by omega, by omega⟩

end Verif.Func.Civil
