import Verif.Func.TemporalSeq
import Verif.Func.SequenceProps
/-!
# C68: `sequence` over dates and timestamps follows the calendar
-/
namespace Verif.Func.TemporalSeq

open Verif.Calendar Verif.Func.Sequence Verif.Func.Civil

namespace Spec

/-- The day `months` later in the calendar: the same day of the month, or the last of a month that
is too short. -/
def moveMonths (day months : Int) : Int :=
  let m := monthOf day + months
  min (monthFirst m + (day - monthFirst (monthOf day))) (monthFirst (m + 1) - 1)

/-- A timestamp moved by an interval: the months, then the days, then the microseconds. -/
def move (ts months days micros : Int) : Int :=
  (moveMonths (ts / 86400000000) months + days) * 86400000000 + ts % 86400000000 + micros

/-- The months, days and microseconds of a step. -/
def months : Step → Int
  | .calendar m _ _ => m
  | .yearMonth m => m
  | .dayTime _ => 0
def days : Step → Int
  | .calendar _ d _ => d
  | .yearMonth _ => 0
  | .dayTime _ => 0
def micros : Step → Int
  | .calendar _ _ u => u
  | .yearMonth _ => 0
  | .dayTime u => u

/-- The `k`-th multiple of the step fits the machine types. -/
def Fits (s : Step) (k : Nat) : Prop :=
  -2 ^ 31 ≤ months s * k ∧ months s * k < 2 ^ 31 ∧ -2 ^ 31 ≤ days s * k ∧ days s * k < 2 ^ 31 ∧
    -2 ^ 63 ≤ micros s * k ∧ micros s * k < 2 ^ 63

/-- The nominal length of the step, with months of 28 days: its sign is the direction. -/
def nominal (s : Step) : Int := (months s * 28 + days s) * 86400000000 + micros s

end Spec

open Spec

/-! ## The calendar -/

/-- C68: the conversion between days and civil dates is the Gregorian calendar: the date found for a
day is the year and month that contain it and the day counted from the first of the month. -/
theorem C68_civil_dates (d : Int) :
    let c := civilFromDays d
    1 ≤ c.2.1 ∧ c.2.1 ≤ 12 ∧ 1 ≤ c.2.2 ∧ c.2.2 ≤ daysInMonth c.1 c.2.1 ∧
      monthFirst ((c.1 - 1970) * 12 + (c.2.1 - 1)) + (c.2.2 - 1) = d ∧
      daysFromCivil c.1 c.2.1 c.2.2 = d := by
  intro c
  have hc : c = _ := civilFromDays_eq d
  have hm0 : 0 ≤ month0 d ∧ month0 d ≤ 11 := by
    have hy := yearOf_spec d
    rw [jan1_succ] at hy
    have := month0Of_spec (leapDay (yearOf d)) (d - jan1 (yearOf d)) (leapDay_range _)
      (by omega) (by omega)
    exact ⟨this.1, this.2.1⟩
  have hs := monthOf_spec d
  have hmo : (yearOf d - 1970) * 12 + (month0 d + 1 - 1) = monthOf d := by unfold monthOf; omega
  rw [hc]
  simp only
  rw [daysInMonth_eq _ _ (by omega) (by omega), daysFromCivil_eq _ _ _ (by omega) (by omega), hmo]
  omega

/-- Leap days, the last day before the epoch, and a century that has no leap day. -/
example : civilFromDays 0 = (1970, 1, 1) ∧ civilFromDays (-1) = (1969, 12, 31) ∧
    civilFromDays 11016 = (2000, 2, 29) ∧ civilFromDays (-719529) = (-1, 12, 31) ∧
    civilFromDays 47540 = (2100, 2, 28) ∧ civilFromDays 47541 = (2100, 3, 1) := by decide

/-- C68: every civil date with an existing month and day is the date of its day number. -/
theorem C68_civil_round_trip (y m d : Int) (h1 : 1 ≤ m) (h2 : m ≤ 12) (h3 : 1 ≤ d)
    (h4 : d ≤ daysInMonth y m) : civilFromDays (daysFromCivil y m d) = (y, m, d) := by
  obtain ⟨a1, a2, a3, a4, a5, -⟩ := C68_civil_dates (daysFromCivil y m d)
  generalize hc : civilFromDays (daysFromCivil y m d) = c at *
  obtain ⟨cy, cm, cd⟩ := c
  simp only at a1 a2 a3 a4 a5
  rw [daysFromCivil_eq y m d h1 h2] at a5
  rw [daysInMonth_eq y m h1 h2] at h4
  rw [daysInMonth_eq cy cm a1 a2] at a4
  have : (cy - 1970) * 12 + (cm - 1) = (y - 1970) * 12 + (m - 1) := by
    apply Classical.byContradiction
    intro hne
    rcases Int.lt_or_gt_of_ne hne with h | h
    · have := monthFirst_mono (show (cy - 1970) * 12 + (cm - 1) + 1 ≤ (y - 1970) * 12 + (m - 1) by omega)
      omega
    · have := monthFirst_mono (show (y - 1970) * 12 + (m - 1) + 1 ≤ (cy - 1970) * 12 + (cm - 1) by omega)
      omega
  rw [this] at a5
  simp only [Prod.mk.injEq]
  omega

example : civilFromDays (daysFromCivil 2024 2 29) = (2024, 2, 29) ∧
    civilFromDays (daysFromCivil 2023 2 29) = (2023, 3, 1) := by decide

/-- Adding an interval moves a timestamp as the calendar says. -/
theorem addWide_eq (ts months days micros : Int) :
    addWide ts months days micros = move ts months days micros := by
  unfold addWide move microsPerDay
  simp only
  rw [civilFromDays_eq]
  simp only
  generalize ts / 86400000000 = d
  have hm0 : 0 ≤ month0 d ∧ month0 d ≤ 11 := by
    have hy := yearOf_spec d
    rw [jan1_succ] at hy
    have := month0Of_spec (leapDay (yearOf d)) (d - jan1 (yearOf d)) (leapDay_range _)
      (by omega) (by omega)
    exact ⟨this.1, this.2.1⟩
  generalize hy' : (yearOf d * 12 + (month0 d + 1 - 1) + months) / 12 = y'
  generalize hm' : (yearOf d * 12 + (month0 d + 1 - 1) + months) % 12 = m'
  have hm : (y' - 1970) * 12 + m' = monthOf d + months := by unfold monthOf; omega
  rw [daysInMonth_eq _ _ (by omega) (by omega), daysFromCivil_eq _ _ _ (by omega) (by omega)]
  rw [show m' + 1 - 1 = m' by omega, hm]
  unfold moveMonths
  simp only
  congr 4
  omega

/-- C68: the end of January moved by months: clipped in February, not in March. -/
example : addWide (daysFromCivil 2024 1 31 * microsPerDay + 5) 1 0 0 =
      daysFromCivil 2024 2 29 * microsPerDay + 5 ∧
    addWide (daysFromCivil 2024 1 31 * microsPerDay + 5) 2 0 0 =
      daysFromCivil 2024 3 31 * microsPerDay + 5 ∧
    addWide (daysFromCivil 2024 3 31 * microsPerDay) (-13) (-1) (-1) =
      daysFromCivil 2023 2 27 * microsPerDay - 1 := by decide

/-! ## Machine arithmetic -/

theorem wrap_of_fits {bits : Nat} (hb : 0 < bits) {v : Int} (h : inTy bits v = true) :
    wrap bits v = v := by
  simp only [inTy, decide_eq_true_eq] at h
  unfold wrap
  have e : (2 : Int) ^ bits = 2 * 2 ^ (bits - 1) := by
    obtain ⟨n, rfl⟩ : ∃ n, bits = n + 1 := ⟨bits - 1, by omega⟩
    rw [Nat.add_sub_cancel, Int.pow_succ, Int.mul_comm]
  rw [Int.emod_eq_of_lt (by omega) (by omega)]
  omega

/-- The parts of a step are its months, days and microseconds; a day-time step is split in whole
days and the rest, which comes to the same. -/
theorem parts_spec {s : Step} {m d u : Int} (h : s.parts = .ok (m, d, u)) (ts : Int) (k : Nat) :
    move ts (m * k) (d * k) (u * k) = move ts (Spec.months s * k) (Spec.days s * k) (Spec.micros s * k) := by
  cases s with
  | calendar m' d' u' =>
    simp only [Step.parts, Except.ok.injEq, Prod.mk.injEq] at h
    obtain ⟨rfl, rfl, rfl⟩ := h
    rfl
  | yearMonth m' =>
    simp only [Step.parts, Except.ok.injEq, Prod.mk.injEq] at h
    obtain ⟨rfl, rfl, rfl⟩ := h
    rfl
  | dayTime u' =>
    simp only [Step.parts] at h
    split at h
    · simp only [Except.ok.injEq, Prod.mk.injEq] at h
      obtain ⟨rfl, rfl, rfl⟩ := h
      simp only [Spec.months, Spec.days, Spec.micros, Int.zero_mul, Int.add_zero, move, microsPerDay]
      rw [Int.sub_mul, Int.add_mul, Int.add_assoc, Int.add_assoc, Int.add_assoc]
      congr 1
      have : u'.tdiv 86400000000 * 86400000000 * (k : Int) = u'.tdiv 86400000000 * (k : Int) * 86400000000 := by
        rw [Int.mul_assoc, Int.mul_comm 86400000000, ← Int.mul_assoc]
      omega
    · cases h


theorem estimatedStep_eq (m d u : Int) :
    estimatedStep m d u = wrap 64 ((m * 28 + d) * 86400000000 + u) := by
  unfold estimatedStep wrap microsPerMonth microsPerDay
  simp only [Nat.reduceSub, Int.reducePow]
  omega

/-! ## The loop -/

theorem loop_spec {α : Type} {value : Nat → Except TErr Int} {into : Int → Bool}
    {conv : Int → Except TErr α} {full : TErr} :
    ∀ (room index : Nat) (acc l : List α), loop value into conv full room index acc = .ok l →
      ∃ xs, l = acc ++ xs ∧ xs.length ≤ room ∧
        (∀ (k : Nat) (x : α), xs[k]? = some x →
          ∃ v, value (index + k) = .ok v ∧ into v = true ∧ conv v = .ok x) ∧
        ∃ v, value (index + xs.length) = .ok v ∧ into v = false := by
  intro room
  induction room with
  | zero =>
    intro index acc l h
    unfold loop at h
    split at h
    · cases h
    · rename_i v hv
      split at h
      · rename_i hi
        cases h
        exact ⟨[], by simp, by simp, by simp, v, by simpa using hv, by simpa using hi⟩
      · cases h
  | succ room ih =>
    intro index acc l h
    unfold loop at h
    split at h
    · cases h
    · rename_i v hv
      split at h
      · rename_i hi
        cases h
        exact ⟨[], by simp, by simp, by simp, v, by simpa using hv, by simpa using hi⟩
      · rename_i hi
        simp only at h
        split at h
        · cases h
        · rename_i x hx
          obtain ⟨xs, rfl, h1, h2, w, h3, h4⟩ := ih _ _ _ h
          refine ⟨x :: xs, by simp, by simp; omega, ?_, w, ?_, h4⟩
          · intro k y hk
            cases k with
            | zero =>
              simp only [List.getElem?_cons_zero, Option.some.injEq] at hk
              subst hk
              exact ⟨v, by simpa using hv, by simpa using hi, hx⟩
            | succ k =>
              obtain ⟨z, hz⟩ := h2 k y (by simpa using hk)
              refine ⟨z, ?_, hz.2⟩
              rw [show index + (k + 1) = index + 1 + k by omega]
              exact hz.1
          · rw [show index + (x :: xs).length = index + 1 + xs.length by simp; omega]
            exact h3

/-- More room does not change an answer. -/
theorem loop_mono {α : Type} {value : Nat → Except TErr Int} {into : Int → Bool}
    {conv : Int → Except TErr α} {full full' : TErr} :
    ∀ (room room' index : Nat) (acc l : List α), room ≤ room' →
      loop value into conv full room index acc = .ok l →
      loop value into conv full' room' index acc = .ok l := by
  intro room
  induction room with
  | zero =>
    intro room' index acc l _ h
    unfold loop at h ⊢
    split at h
    · cases h
    · split at h
      · rename_i v hv hi
        simp only [hv, hi, if_true]
        exact h
      · cases h
  | succ room ih =>
    intro room' index acc l hr h
    unfold loop at h ⊢
    split at h
    · cases h
    · rename_i v hv
      split at h
      · rename_i hi
        simp only [hv, hi, if_true]
        exact h
      · rename_i hi
        simp only at h
        split at h
        · cases h
        · rename_i x hx
          obtain ⟨r, rfl⟩ : ∃ r, room' = r + 1 := ⟨room' - 1, by omega⟩
          simp only [hv, hi, hx]
          exact ih r _ _ _ (by omega) h

theorem moveMonths_zero (d : Int) : moveMonths d 0 = d := by
  have := monthOf_spec d
  unfold moveMonths
  simp only [Int.add_zero]
  omega

theorem move_micros (ts u : Int) : move ts 0 0 u = ts + u := by
  unfold move
  rw [moveMonths_zero]
  omega

/-- Between zero and a number that fits, everything fits. -/
theorem tdiv_parts (u : Int) :
    let d := u.tdiv 86400000000
    let r := u - d * 86400000000
    (0 ≤ u → 0 ≤ d ∧ 0 ≤ r) ∧ (u ≤ 0 → d ≤ 0 ∧ r ≤ 0) := by
  intro d r
  refine ⟨fun h => ?_, fun h => ?_⟩
  · have e : d = u / 86400000000 := Int.tdiv_eq_ediv_of_nonneg h
    have hr : r = u - d * 86400000000 := rfl
    omega
  · have e : d = -((-u) / 86400000000) := by
      rw [← Int.tdiv_eq_ediv_of_nonneg (by omega), Int.neg_tdiv, Int.neg_neg]
    have hr : r = u - d * 86400000000 := rfl
    omega

/-- The multiples of the parts of a step fit when those of the step do. -/
theorem fits_parts {s : Step} {m d u : Int} (h : s.parts = .ok (m, d, u)) {k : Nat} (hf : Fits s k) :
    inTy 32 (m * k) = true ∧ inTy 32 (d * k) = true ∧ inTy 64 (u * k) = true := by
  obtain ⟨f1, f2, f3, f4, f5, f6⟩ := hf
  simp only [inTy, decide_eq_true_eq]
  cases s with
  | calendar m' d' u' =>
    simp only [Step.parts, Except.ok.injEq, Prod.mk.injEq] at h
    obtain ⟨rfl, rfl, rfl⟩ := h
    simp only [Spec.months, Spec.days, Spec.micros] at *
    omega
  | yearMonth m' =>
    simp only [Step.parts, Except.ok.injEq, Prod.mk.injEq] at h
    obtain ⟨rfl, rfl, rfl⟩ := h
    simp only [Spec.months, Spec.days, Spec.micros] at *
    omega
  | dayTime u' =>
    simp only [Step.parts] at h
    split at h
    · simp only [Except.ok.injEq, Prod.mk.injEq] at h
      obtain ⟨rfl, rfl, rfl⟩ := h
      simp only [Spec.months, Spec.days, Spec.micros, microsPerDay] at *
      obtain ⟨t1, t2⟩ := tdiv_parts u'
      generalize hd : u'.tdiv 86400000000 = d at *
      generalize hr : u' - d * 86400000000 = r at *
      have e : u' * k = d * k * 86400000000 + r * k := by
        rw [show u' = d * 86400000000 + r by omega, Int.add_mul, Int.mul_assoc d,
          Int.mul_comm 86400000000, ← Int.mul_assoc]
      rcases Int.le_total 0 u' with h0 | h0
      · have a1 : 0 ≤ d * (k : Int) := Int.mul_nonneg (t1 h0).1 (by omega)
        have a2 : 0 ≤ r * (k : Int) := Int.mul_nonneg (t1 h0).2 (by omega)
        omega
      · have a1 : 0 ≤ -d * (k : Int) := Int.mul_nonneg (by have := t2 h0; omega) (by omega)
        have a2 : 0 ≤ -r * (k : Int) := Int.mul_nonneg (by have := t2 h0; omega) (by omega)
        rw [Int.neg_mul] at a1 a2
        omega
    · cases h

theorem addTemporal_eq {s : Step} {m d u : Int} (h : s.parts = .ok (m, d, u)) {k : Nat}
    (hf : Fits s k) {ts v : Int} (hv : addTemporal ts k m d u = .ok v) :
    v = move ts (Spec.months s * k) (Spec.days s * k) (Spec.micros s * k) := by
  obtain ⟨h1, h2, h3⟩ := fits_parts h hf
  unfold addTemporal at hv
  rw [wrap_of_fits (by omega) h1, wrap_of_fits (by omega) h2, wrap_of_fits (by omega) h3,
    addWide_eq, parts_spec h] at hv
  simp only at hv
  split at hv
  · cases hv; rfl
  · cases hv

/-- The nominal step is the same for the parts. -/
theorem nominal_parts {s : Step} {m d u : Int} (h : s.parts = .ok (m, d, u)) :
    (m * 28 + d) * 86400000000 + u = nominal s := by
  cases s with
  | calendar m' d' u' =>
    simp only [Step.parts, Except.ok.injEq, Prod.mk.injEq] at h
    obtain ⟨rfl, rfl, rfl⟩ := h
    rfl
  | yearMonth m' =>
    simp only [Step.parts, Except.ok.injEq, Prod.mk.injEq] at h
    obtain ⟨rfl, rfl, rfl⟩ := h
    rfl
  | dayTime u' =>
    simp only [Step.parts] at h
    split at h
    · simp only [Except.ok.injEq, Prod.mk.injEq] at h
      obtain ⟨rfl, rfl, rfl⟩ := h
      simp only [nominal, Spec.months, Spec.days, Spec.micros, microsPerDay]
      omega
    · cases h

theorem inside_up {stop est v : Int} (h : 0 < est) (hs : stop < 2 ^ 63 - 1) (hs' : -2 ^ 63 ≤ stop) :
    inside stop est v = true ↔ v ≤ stop := by
  unfold inside
  simp only [if_pos h]
  rw [wrap_of_fits (by omega) (by simp only [inTy, decide_eq_true_eq]; omega)]
  simp
  omega

theorem inside_down {stop est v : Int} (h : ¬ 0 < est) (hs : stop < 2 ^ 63) (hs' : -2 ^ 63 < stop) :
    inside stop est v = true ↔ stop - 1 ≤ v := by
  unfold inside
  simp only [gt_iff_lt, if_neg h]
  rw [wrap_of_fits (by omega) (by simp only [inTy, decide_eq_true_eq]; omega)]
  simp
  omega

/-! ## Timestamps -/

/-- C68 (partial): a sequence of timestamps that succeeds has the start moved by `k` times the step
as its `k`-th element, counted from the start and not from clipped elements.  Going up it ends with
the last one not after the stop.  Going down it ends with the last one not before the stop *less one
microsecond*; without this surplus the claim is refuted by `C68_descending_overshoots`.  The stop
must not be the first or last timestamp of all, and the multiples of the step must fit the machine
types (`C68_wrapped_multiples`, `C68_last_timestamp`). -/
theorem C68_timestamps_partial (start stop : Int) (step : Step) (maxValues : Nat) (l : List Int)
    (h : timestampRow start stop step maxValues = .ok l)
    (hs : inTy 64 start = true) (hstop : -2 ^ 63 < stop ∧ stop < 2 ^ 63 - 1)
    (hn : inTy 64 (nominal step) = true) (hf : ∀ k, k ≤ l.length → Fits step k) :
    (∀ (k : Nat) (v : Int), l[k]? = some v →
      v = move start (Spec.months step * k) (Spec.days step * k) (Spec.micros step * k) ∧
      (0 < nominal step → v ≤ stop) ∧ (nominal step ≤ 0 → stop - 1 ≤ v)) ∧
    (nominal step ≠ 0 →
      let next := move start (Spec.months step * l.length) (Spec.days step * l.length)
        (Spec.micros step * l.length)
      (0 < nominal step → stop < next) ∧ (nominal step < 0 → next < stop)) ∧
    (0 < nominal step → start ≤ stop) ∧ (nominal step < 0 → stop ≤ start) ∧
    (nominal step = 0 → start = stop) := by
  unfold timestampRow at h
  split at h
  · cases h
  · rename_i m d u hp
    have hnom := nominal_parts hp
    split at h
    · rename_i hz
      obtain ⟨rfl, rfl⟩ := hz
      split at h
      · cases h
      · rename_i l' hr
        cases h
        have hst : inTy 64 stop = true := by simp only [inTy, decide_eq_true_eq]; omega
        obtain ⟨⟨hleg, -, -⟩, hpr, -⟩ :=
          (C67_sequence_is_progression 64 (by omega) start stop u maxValues hs hst l).1 hr
        have hnu : nominal step = u := by rw [← hnom]; omega
        have hmv : ∀ k : Nat, move start (Spec.months step * k) (Spec.days step * k)
            (Spec.micros step * k) = start + k * u := by
          intro k
          rw [← parts_spec hp, Int.zero_mul, move_micros, Int.mul_comm]
        rw [hnu]
        obtain ⟨⟨hl1, hl2⟩, hl3⟩ := hleg
        refine ⟨?_, ?_, hl1, hl2, fun h0 => by rw [hl3 h0]⟩
        · intro k v hk
          rw [hmv]
          obtain ⟨rfl, ⟨⟨hb1, hb2⟩, hb3⟩⟩ := (hpr k v).1 hk
          refine ⟨rfl, hb1, fun h0 => ?_⟩
          rcases Int.lt_or_eq_of_le h0 with h0 | h0
          · have := hb2 h0; omega
          · have := hb3 h0; have := hl3 h0; subst h0; omega
        · intro h0
          rw [hmv]
          have hnb : ¬ Sequence.Spec.Belongs start stop u l.length := by
            intro hb
            have := (hpr l.length _).2 ⟨rfl, hb⟩
            simp at this
          simp only
          constructor
          · intro hu
            apply Classical.byContradiction
            intro hc
            exact hnb ⟨⟨fun _ => by omega, fun h' => by omega⟩, fun h' => by omega⟩
          · intro hu
            apply Classical.byContradiction
            intro hc
            exact hnb ⟨⟨fun _ => by omega, fun h' => by omega⟩, fun h' => by omega⟩
    · simp only at h
      split at h
      · cases h
      · rename_i n hlen
        have hest : estimatedStep m d u = nominal step := by
          rw [estimatedStep_eq, hnom, wrap_of_fits (by omega) hn]
        rw [hest] at h hlen
        obtain ⟨xs, hx, -, h2, w, h3, h4⟩ := loop_spec _ _ _ _ h
        simp only [List.nil_append] at hx
        subst hx
        simp only [Nat.zero_add] at h2 h3
        have hst : inTy 64 stop = true := by simp only [inTy, decide_eq_true_eq]; omega
        obtain ⟨⟨⟨⟨hl1, hl2⟩, hl3⟩, -, -⟩, -⟩ := (length_iff hs hst n).1 hlen
        refine ⟨?_, ?_, hl1, hl2, hl3⟩
        · intro k v hk
          obtain ⟨v', hv, hin, hc⟩ := h2 k v hk
          cases hc
          refine ⟨addTemporal_eq hp (hf k ?_) hv, fun h0 => ?_, fun h0 => ?_⟩
          · have := (List.getElem?_eq_some_iff.1 hk).1
            omega
          · exact (inside_up h0 hstop.2 (by omega)).1 hin
          · exact (inside_down (by omega) (by omega) hstop.1).1 hin
        · intro h0
          have e := addTemporal_eq hp (hf l.length (Nat.le_refl _)) h3
          simp only
          rw [← e]
          constructor
          · intro hpos
            apply Classical.byContradiction
            intro hc
            have := (inside_up hpos hstop.2 (by omega)).2 (show w ≤ stop by omega)
            rw [h4] at this
            cases this
          · intro hneg
            apply Classical.byContradiction
            intro hc
            have := (inside_down (est := nominal step) (by omega) (by omega) hstop.1).2
              (show stop - 1 ≤ w by omega)
            rw [h4] at this
            cases this

/-- The last days of the months of a leap year. -/
example : (timestampRow (daysFromCivil 2024 1 31 * microsPerDay) (daysFromCivil 2024 5 31 * microsPerDay)
      (.yearMonth 1) 1000) =
    .ok ([daysFromCivil 2024 1 31, daysFromCivil 2024 2 29, daysFromCivil 2024 3 31,
      daysFromCivil 2024 4 30, daysFromCivil 2024 5 31].map (· * microsPerDay)) := by decide +kernel

/-- Down by a day and an hour, given as a day-time interval. -/
example : timestampRow (3 * microsPerDay) 7200000000 (.dayTime (-90000000000)) 1000 =
    .ok [259200000000, 169200000000, 79200000000] := by decide +kernel

/-- C68, a negation: a descending sequence contains a timestamp past the stop, namely one microsecond
before it. -/
theorem C68_descending_overshoots :
    timestampRow 86400000000 1 (.calendar 0 (-1) 0) 1000 = .ok [86400000000, 0] ∧ (0 : Int) < 1 := by
  decide +kernel

/-- C68, a negation: the sequence to the very last timestamp is empty although it should contain the
start. -/
theorem C68_last_timestamp :
    timestampRow (2 ^ 63 - 10) (2 ^ 63 - 1) (.calendar 0 1 0) 1000 = .ok [] := by
  decide +kernel

/-- C68, a negation: when a multiple of the step does not fit 64 bits, the sequence goes on with a
timestamp before the start. -/
theorem C68_wrapped_multiples :
    (timestampRow 0 (2 ^ 62 + 2 * 86400000000) (.calendar 0 1 (2 ^ 62)) 3) = .error (.seq .capacity) ∧
    addTemporal 0 2 0 1 (2 ^ 62) = .ok (-2 ^ 63 + 2 * 86400000000) ∧
    inside (2 ^ 62 + 2 * 86400000000) (estimatedStep 0 1 (2 ^ 62)) (-2 ^ 63 + 2 * 86400000000) = true := by
  decide +kernel

/-! ## Dates -/

theorem move_day (d m n : Int) : move (d * 86400000000) m n 0 / 86400000000 = moveMonths d m + n := by
  unfold move
  rw [show d * 86400000000 / 86400000000 = d by omega]
  omega

theorem move_day_mod (d m n : Int) :
    move (d * 86400000000) m n 0 = (moveMonths d m + n) * 86400000000 := by
  unfold move
  rw [show d * 86400000000 / 86400000000 = d by omega]
  omega

theorem dateToMicros_ok {d v : Int} (h : dateToMicros d = .ok v) :
    v = d * 86400000000 ∧ inTy 64 (d * 86400000000) = true := by
  unfold dateToMicros microsPerDay at h
  by_cases hc : inTy 64 (d * 86400000000) = true
  · rw [if_pos hc] at h
    cases h
    exact ⟨rfl, hc⟩
  · rw [if_neg hc] at h
    cases h

/-- C68: a sequence of dates by months and days that succeeds has the start moved by `k` times the
step as its `k`-th element and ends with the last one not past the stop, in both directions. -/
theorem C68_dates (start stop : Int) (step : Step) (maxValues : Nat) (l : List Int)
    (h : dateRow start stop step maxValues = .ok l)
    (hs : inTy 32 start = true) (he : inTy 32 stop = true)
    (hu : Spec.micros step = 0) (hm : inTy 32 (Spec.months step) = true)
    (hd : inTy 32 (Spec.days step) = true)
    (hn : inTy 64 (nominal step) = true) (hf : ∀ k, k ≤ l.length → Fits step k) :
    (∀ (k : Nat) (v : Int), l[k]? = some v →
      v = moveMonths start (Spec.months step * k) + Spec.days step * k ∧
      (0 < nominal step → v ≤ stop) ∧ (nominal step ≤ 0 → stop ≤ v)) ∧
    (nominal step ≠ 0 →
      let next := moveMonths start (Spec.months step * l.length) + Spec.days step * l.length
      (0 < nominal step → stop < next) ∧ (nominal step < 0 → next < stop)) ∧
    (0 < nominal step → start ≤ stop) ∧ (nominal step < 0 → stop ≤ start) ∧
    (nominal step = 0 → start = stop) := by
  have hs' := hs
  have he' := he
  simp only [inTy, decide_eq_true_eq] at hs' he'
  unfold dateRow at h
  split at h
  · cases h
  · rename_i m d u hp
    have hparts : m = Spec.months step ∧ d = Spec.days step ∧ u = 0 := by
      cases step with
      | calendar m' d' u' =>
        simp only [Step.parts, Except.ok.injEq, Prod.mk.injEq] at hp
        simp only [Spec.micros] at hu
        obtain ⟨rfl, rfl, rfl⟩ := hp
        exact ⟨rfl, rfl, hu⟩
      | yearMonth m' =>
        simp only [Step.parts, Except.ok.injEq, Prod.mk.injEq] at hp
        obtain ⟨rfl, rfl, rfl⟩ := hp
        exact ⟨rfl, rfl, rfl⟩
      | dayTime u' =>
        simp only [Spec.micros] at hu
        subst hu
        have : Step.parts (.dayTime 0) = .ok (0, 0, 0) := by decide
        rw [this] at hp
        simp only [Except.ok.injEq, Prod.mk.injEq] at hp
        obtain ⟨rfl, rfl, rfl⟩ := hp
        exact ⟨rfl, rfl, rfl⟩
    obtain ⟨e1, e2, rfl⟩ := hparts
    have hnom := nominal_parts hp
    split at h
    · cases h
    · split at h
      · rename_i hz
        obtain ⟨hz, -⟩ := hz
        split at h
        · cases h
        · rename_i l' hr
          cases h
          obtain ⟨⟨hleg, -, -⟩, hpr, -⟩ :=
            (C67_sequence_is_progression 32 (by omega) start stop d maxValues hs he l).1 hr
          have hnu : nominal step = d * 86400000000 := by rw [← hnom, hz]; omega
          have hmv : ∀ k : Nat, moveMonths start (Spec.months step * k) + Spec.days step * k =
              start + k * d := by
            intro k
            rw [← e1, ← e2, hz, Int.zero_mul, moveMonths_zero, Int.mul_comm]
          rw [hnu]
          obtain ⟨⟨hl1, hl2⟩, hl3⟩ := hleg
          refine ⟨?_, ?_, fun h0 => hl1 (by omega), fun h0 => hl2 (by omega),
            fun h0 => hl3 (by omega)⟩
          · intro k v hk
            rw [hmv]
            obtain ⟨rfl, ⟨⟨hb1, hb2⟩, hb3⟩⟩ := (hpr k v).1 hk
            refine ⟨rfl, fun h0 => hb1 (by omega), fun h0 => ?_⟩
            rcases Int.lt_or_eq_of_le (show d ≤ 0 by omega) with h0 | h0
            · exact hb2 h0
            · have := hb3 h0; have := hl3 h0; subst h0; omega
          · intro h0
            rw [hmv]
            have hnb : ¬ Sequence.Spec.Belongs start stop d l.length := by
              intro hb
              have := (hpr l.length _).2 ⟨rfl, hb⟩
              simp at this
            simp only
            constructor
            · intro hu
              apply Classical.byContradiction
              intro hc
              exact hnb ⟨⟨fun _ => by omega, fun h' => by omega⟩, fun h' => by omega⟩
            · intro hu
              apply Classical.byContradiction
              intro hc
              exact hnb ⟨⟨fun _ => by omega, fun h' => by omega⟩, fun h' => by omega⟩
      · split at h
        · cases h
        rename_i s' hs1
        obtain ⟨rfl, hsM⟩ := dateToMicros_ok hs1
        split at h
        · cases h
        rename_i s' hs2
        obtain ⟨rfl, heM⟩ := dateToMicros_ok hs2
        simp only at h
        split at h
        · cases h
        · rename_i n hlen
          have hsM' := hsM
          have heM' := heM
          simp only [inTy, decide_eq_true_eq] at hsM' heM'
          have hest : estimatedStep m d 0 = nominal step := by
            rw [estimatedStep_eq, hnom, wrap_of_fits (by omega) hn]
          rw [hest] at h hlen
          obtain ⟨xs, hx, -, h2, w, h3, h4⟩ := loop_spec _ _ _ _ h
          simp only [List.nil_append] at hx
          subst hx
          simp only [Nat.zero_add] at h2 h3
          obtain ⟨⟨⟨⟨hl1, hl2⟩, hl3⟩, -, -⟩, -⟩ := (length_iff hsM heM n).1 hlen
          have hval : ∀ k v, k ≤ l.length → addTemporal (start * 86400000000) k m d 0 = .ok v →
              v = (moveMonths start (Spec.months step * k) + Spec.days step * k) * 86400000000 := by
            intro k v hk hv
            have := addTemporal_eq hp (hf k hk) hv
            rw [hu, Int.zero_mul, move_day_mod] at this
            exact this
          refine ⟨?_, ?_, fun h0 => by have := hl1 h0; omega, fun h0 => by have := hl2 h0; omega,
            fun h0 => by have := hl3 h0; omega⟩
          · intro k v hk
            obtain ⟨v', hv, hin, hc⟩ := h2 k v hk
            have hkl := (List.getElem?_eq_some_iff.1 hk).1
            have e := hval k v' (by omega) hv
            unfold microsToDate at hc
            split at hc
            · cases hc
              rw [e]
              simp only [microsPerDay]
              rw [e] at hin
              refine ⟨by omega, fun h0 => ?_, fun h0 => ?_⟩
              · have := (inside_up h0 (by omega) (by omega)).1 hin
                omega
              · have := (inside_down (by omega) (by omega) (by omega)).1 hin
                omega
            · cases hc
          · intro h0
            have e := hval l.length w (Nat.le_refl _) h3
            simp only
            constructor
            · intro hpos
              apply Classical.byContradiction
              intro hc
              have := (inside_up (est := nominal step) hpos (by omega) (by omega)).2
                (show w ≤ stop * 86400000000 by omega)
              rw [h4] at this
              cases this
            · intro hneg
              apply Classical.byContradiction
              intro hc
              have := (inside_down (est := nominal step) (by omega) (by omega) (by omega)).2
                (show stop * 86400000000 - 1 ≤ w by omega)
              rw [h4] at this
              cases this

/-- Down by a month and a day from the last of March. -/
example : dateRow (daysFromCivil 2023 3 31) (daysFromCivil 2022 12 28) (.calendar (-1) (-1) 0) 1000 =
    .ok [daysFromCivil 2023 3 31, daysFromCivil 2023 2 27, daysFromCivil 2023 1 29,
      daysFromCivil 2022 12 28] := by decide +kernel

example : dateRow 0 5 (defaultStep 0 5) 1000 = .ok [0, 1, 2, 3, 4, 5] ∧
    dateRow 2 0 (defaultStep 2 0) 1000 = .ok [2, 1, 0] ∧
    dateRow 2 0 (.dayTime 3600000000) 1000 = .error .granularity := by decide +kernel

/-- C68, a negation: with a step of a day and a microsecond a descending sequence of dates contains a
date past the stop. -/
theorem C68_descending_dates_overshoot :
    dateRow 1 0 (.dayTime (-86400000001)) 1000 = .ok [1, -1] := by decide +kernel

/-! ## Batches -/

theorem integralRow_mono {bits : Nat} {start stop step : Int} {n n' : Nat} {l : List Int}
    (h : integralRow bits start stop step n = .ok l) (hn : n ≤ n') :
    integralRow bits start stop step n' = .ok l := by
  unfold integralRow at h ⊢
  split at h
  · cases h
  · split at h
    · cases h
    · rw [if_neg (by omega)]
      exact h

theorem timestampRow_mono {start stop : Int} {step : Step} {n n' : Nat} {l : List Int}
    (h : timestampRow start stop step n = .ok l) (hn : n ≤ n') :
    timestampRow start stop step n' = .ok l := by
  unfold timestampRow at h ⊢
  split at h
  · cases h
  · simp only
    split at h
    · rename_i hz
      rw [if_pos hz]
      split at h
      · cases h
      · rename_i hr
        rw [integralRow_mono hr hn]
        exact h
    · rename_i hz
      rw [if_neg hz]
      simp only at h
      split at h
      · cases h
      · exact loop_mono _ _ _ _ _ (by unfold room; omega) h

theorem dateRow_mono {start stop : Int} {step : Step} {n n' : Nat} {l : List Int}
    (h : dateRow start stop step n = .ok l) (hn : n ≤ n') :
    dateRow start stop step n' = .ok l := by
  unfold dateRow at h ⊢
  split at h
  · cases h
  · simp only
    split at h
    · cases h
    · rename_i hz
      rw [if_neg hz]
      split at h
      · rename_i hz'
        rw [if_pos hz']
        split at h
        · cases h
        · rename_i hr
          rw [integralRow_mono hr hn]
          exact h
      · rename_i hz'
        rw [if_neg hz']
        split at h
        · cases h
        rename_i hd1
        split at h
        · cases h
        rename_i hd2
        simp only [hd1, hd2] at h ⊢
        split at h
        · cases h
        · exact loop_mono _ _ _ _ _ (by unfold room; omega) h

/-- What the cell of a row must hold. -/
def Spec.IsCell (row : Int → Int → Step → Nat → Except TErr (List Int)) (three : Bool) (r : TArgs)
    (c : Option (List Int)) : Prop :=
  match r.start, r.stop with
  | some start, some stop =>
    match (if three then r.step else some (defaultStep start stop)) with
    | some step => ∃ l, c = some l ∧ row start stop step 2147483647 = .ok l
    | none => c = none
  | _, _ => c = none

theorem genRows_spec {row : Int → Int → Step → Nat → Except TErr (List Int)} {three : Bool}
    (hmono : ∀ s e st n l, row s e st n = .ok l → n ≤ 2147483647 → row s e st 2147483647 = .ok l) :
    ∀ (rs : List TArgs) (a b : ListArr Int), genRows row three rs a = .ok b →
      ∃ cs, Rel (Spec.IsCell row three) rs cs ∧ b = cs.foldl ListArr.push a := by
  intro rs
  induction rs with
  | nil =>
    intro a b h
    simp only [genRows, Except.ok.injEq] at h
    exact ⟨[], .nil, by simp [h]⟩
  | cons r rs ih =>
    intro a b h
    have nullCase : Spec.IsCell row three r none → genRows row three rs a.pushNull = .ok b →
        ∃ cs, Rel (Spec.IsCell row three) (r :: rs) cs ∧ b = cs.foldl ListArr.push a := by
      intro hc h
      obtain ⟨cs, h1, h2⟩ := ih _ _ h
      exact ⟨none :: cs, .cons hc h1, by simpa [ListArr.push] using h2⟩
    match hs : r.start, he : r.stop with
    | none, _ =>
      simp only [genRows, hs] at h
      exact nullCase (by simp [Spec.IsCell, hs]) h
    | some start, none =>
      simp only [genRows, hs, he] at h
      exact nullCase (by simp [Spec.IsCell, hs, he]) h
    | some start, some stop =>
      match hst : (if three then r.step else some (defaultStep start stop)) with
      | none =>
        simp only [genRows, hs, he, hst] at h
        exact nullCase (by simp [Spec.IsCell, hs, he, hst]) h
      | some step =>
        simp only [genRows, hs, he, hst] at h
        split at h
        · cases h
        · rename_i l hl
          split at h
          · cases h
          · split at h
            · cases h
            · obtain ⟨cs, h1, h2⟩ := ih _ _ h
              refine ⟨some l :: cs, .cons ?_ h1, by simpa [ListArr.push] using h2⟩
              simp only [Spec.IsCell, hs, he, hst]
              exact ⟨l, rfl, hmono _ _ _ _ _ hl (by omega)⟩

/-- C68: in a batch every row reads as its own sequence, and as NULL if one of its arguments is
NULL; without a step the sequence goes by days towards the stop. -/
theorem C68_batches (three : Bool) (rows : List TArgs) (a : ListArr Int)
    (row : Int → Int → Step → Nat → Except TErr (List Int))
    (hrow : row = timestampRow ∨ row = dateRow) (h : genRows row three rows .empty = .ok a)
    (i : Nat) (r : TArgs) (hr : rows[i]? = some r) :
    ∃ c, a.row i = some c ∧ Spec.IsCell row three r c := by
  obtain ⟨cs, h1, rfl⟩ := genRows_spec (by
    intro s e st n l hl hn
    rcases hrow with rfl | rfl
    · exact timestampRow_mono hl hn
    · exact dateRow_mono hl hn) rows _ _ h
  obtain ⟨c, h2, h3⟩ := h1.get.2 i r hr
  exact ⟨c, by rw [ListArr.row_foldl, h2], h3⟩

example :
    let a := genRows dateRow true [⟨some 0, some 70, some (.yearMonth 1)⟩, ⟨some 0, some 1, none⟩,
      ⟨some 3, some 1, some (.calendar 0 (-2) 0)⟩] .empty
    (a.toOption.map fun a => [a.row 0, a.row 1, a.row 2, a.row 3]) =
      some [some (some [0, 31, 59]), some none, some (some [3, 1]), none] := by decide +kernel

end Verif.Func.TemporalSeq
