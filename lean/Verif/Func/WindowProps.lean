import Verif.Func.Window
/-!
# C69: time windows contain their rows
-/
namespace Verif.Func.Window

theorem foldl_filter {α β : Type} (f : α → β) (p : α → Prop) [DecidablePred p] (l : List α)
    (acc : List β) :
    l.foldl (fun acc j => if p j then acc ++ [f j] else acc) acc =
      acc ++ ((l.filter (fun j => decide (p j))).map f) := by
  induction l generalizing acc with
  | nil => simp
  | cons x l ih =>
    simp only [List.foldl_cons, ih]
    by_cases h : p x <;> simp [h]

theorem rowWindows_eq (w : WindowSpec) (ts : Int) :
    rowWindows w ts = (((List.range (overlapping w.window w.slide).toNat).filter fun (j : Nat) =>
      decide (ts - (ts - w.start).emod w.slide - (j : Int) * w.slide ≤ ts ∧
        ts < ts - (ts - w.start).emod w.slide - (j : Int) * w.slide + w.window)).map fun (j : Nat) =>
      (ts - (ts - w.start).emod w.slide - (j : Int) * w.slide,
        ts - (ts - w.start).emod w.slide - (j : Int) * w.slide + w.window)) := by
  unfold rowWindows
  have := foldl_filter (fun (j : Nat) => (ts - (ts - w.start).emod w.slide - (j : Int) * w.slide,
        ts - (ts - w.start).emod w.slide - (j : Int) * w.slide + w.window))
    (fun (j : Nat) => ts - (ts - w.start).emod w.slide - (j : Int) * w.slide ≤ ts ∧
        ts < ts - (ts - w.start).emod w.slide - (j : Int) * w.slide + w.window)
    (List.range (overlapping w.window w.slide).toNat) []
  simpa using this

theorem parse_ok {window : Int} {slide start : Option Int} {w : WindowSpec}
    (h : parseSpec window slide start = .ok w) :
    w.window = window ∧ w.slide = slide.getD window ∧ w.start = start.getD 0 ∧
    0 < w.slide ∧ w.slide ≤ w.window ∧ overlapping w.window w.slide ≤ 1000000 ∧
    -w.slide < w.start ∧ w.start < w.slide := by
  unfold parseSpec at h
  simp only at h
  repeat' split at h
  all_goals first | contradiction | skip
  injection h with h
  subst h
  simp
  omega

theorem overlapping_eq {w s : Int} (hw : 0 < w) (hs : 0 < s) :
    overlapping w s = (w + s - 1) / s := by
  unfold overlapping
  rw [Int.tdiv_eq_ediv_of_nonneg (by omega)]

/-- For every accepted window specification, a timestamp is given exactly the windows
`[a, a + length)` that contain it and start a multiple of the slide away from the start offset. -/
theorem C69_exactly_the_windows {window : Int} {slide start : Option Int} {w : WindowSpec}
    (h : parseSpec window slide start = .ok w) (ts a b : Int) :
    (a, b) ∈ rowWindows w ts ↔
      b = a + window ∧ a ≤ ts ∧ ts < b ∧ (slide.getD window) ∣ (a - start.getD 0) := by
  obtain ⟨h1, h2, h3, hs, hsw, -, -, -⟩ := parse_ok h
  rw [← h2, ← h3, ← h1, rowWindows_eq]
  generalize w.window = W at *
  generalize w.slide = S at *
  generalize w.start = T at *
  have hm : (ts - T).emod S = (ts - T) % S := rfl
  rw [hm]
  have e := Int.mul_ediv_add_emod (ts - T) S
  have r0 := Int.emod_nonneg (ts - T) (by omega : S ≠ 0)
  have r1 := Int.emod_lt_of_pos (ts - T) hs
  rw [overlapping_eq (by omega) hs]
  simp only [List.mem_map, List.mem_filter, List.mem_range, decide_eq_true_eq, Prod.mk.injEq]
  constructor
  · rintro ⟨j, ⟨hj, hc1, hc2⟩, rfl, rfl⟩
    refine ⟨rfl, hc1, hc2, ⟨(ts - T) / S - j, ?_⟩⟩
    rw [Int.mul_sub]
    have : S * (j : Int) = (j : Int) * S := Int.mul_comm _ _
    omega
  · rintro ⟨rfl, ha, hb, k, hk⟩
    generalize hq : (ts - T) / S = q at *
    generalize hr : (ts - T) % S = r at *
    -- a = T + S k, ts = T + S q + r
    have hqk : k ≤ q := by
      apply Classical.byContradiction
      intro hn
      have : S * (q + 1) ≤ S * k := Int.mul_le_mul_of_nonneg_left (by omega) (by omega)
      rw [Int.mul_add] at this
      omega
    refine ⟨(q - k).toNat, ⟨?_, ?_, ?_⟩, ?_, ?_⟩
    · have h1 : S * (q - k) < W := by rw [Int.mul_sub]; omega
      have h2 : S * (q - k + 1) ≤ W + S - 1 := by rw [Int.mul_add]; omega
      have h3 : q - k + 1 ≤ (W + S - 1) / S := by
        rw [Int.le_ediv_iff_mul_le hs, Int.mul_comm]
        exact h2
      omega
    all_goals
      rw [Int.toNat_of_nonneg (by omega), Int.sub_mul, Int.mul_comm q S, Int.mul_comm k S]
      omega

/-- Hourly windows sliding by a quarter of an hour, with an offset of five minutes, around a
timestamp before the epoch. -/
example : parseSpec 3600 (some 900) (some 300) = .ok ⟨3600, 900, 300⟩ ∧
    rowWindows ⟨3600, 900, 300⟩ (-100) =
      [(-600, 3000), (-1500, 2100), (-2400, 1200), (-3300, 300)] := by decide

/-- A slide that does not divide the length: here one candidate is discarded. -/
example : parseSpec 10 (some 4) none = .ok ⟨10, 4, 0⟩ ∧
    rowWindows ⟨10, 4, 0⟩ 7 = [(4, 14), (0, 10)] ∧
    rowWindows ⟨10, 4, 0⟩ 8 = [(8, 18), (4, 14), (0, 10)] := by decide

/-- The windows of a row come latest first, so none is reported twice. -/
theorem C69_latest_first {window : Int} {slide start : Option Int} {w : WindowSpec}
    (h : parseSpec window slide start = .ok w) (ts : Int) :
    (rowWindows w ts).Pairwise (fun p q => q.1 < p.1) := by
  obtain ⟨h1, h2, h3, hs, hsw, -, -, -⟩ := parse_ok h
  rw [rowWindows_eq, List.pairwise_map]
  apply List.Pairwise.filter
  apply List.Pairwise.imp _ List.pairwise_lt_range
  intro i j hij
  simp only
  have : ((i : Int) + 1) * w.slide ≤ (j : Int) * w.slide :=
    Int.mul_le_mul_of_nonneg_right (by omega) (by omega)
  rw [Int.add_mul] at this
  omega

/-- Every timestamp is in at least one window. -/
theorem C69_never_empty {window : Int} {slide start : Option Int} {w : WindowSpec}
    (h : parseSpec window slide start = .ok w) (ts : Int) : rowWindows w ts ≠ [] := by
  obtain ⟨h1, h2, h3, hs, hsw, -, -, -⟩ := parse_ok h
  intro he
  have r0 := Int.emod_nonneg (ts - w.start) (by omega : w.slide ≠ 0)
  have r1 := Int.emod_lt_of_pos (ts - w.start) hs
  have := (C69_exactly_the_windows h ts (ts - (ts - w.start) % w.slide)
    (ts - (ts - w.start) % w.slide + window)).2 ⟨rfl, by omega, by omega, by
      rw [← h2, ← h3]
      have e := Int.mul_ediv_add_emod (ts - w.start) w.slide
      exact ⟨(ts - w.start) / w.slide, by omega⟩⟩
  rw [he] at this
  simp at this

/-- Without a slide every timestamp is in exactly one window. -/
theorem C69_tumbling {window : Int} {start : Option Int} {w : WindowSpec}
    (h : parseSpec window none start = .ok w) (ts : Int) :
    ∃ a, rowWindows w ts = [(a, a + window)] ∧ a ≤ ts ∧ ts < a + window ∧
      window ∣ (a - start.getD 0) := by
  obtain ⟨h1, h2, h3, hs, hsw, -, -, -⟩ := parse_ok h
  simp only [Option.getD_none] at h2
  have hx := C69_exactly_the_windows h ts
  simp only [Option.getD_none] at hx
  match hl : rowWindows w ts with
  | [] => exact absurd hl (C69_never_empty h ts)
  | [(a, b)] =>
    obtain ⟨rfl, x1, x2, x3⟩ := (hx a b).1 (by simp [hl])
    exact ⟨a, rfl, x1, x2, x3⟩
  | (a, b) :: (c, d) :: t =>
    exfalso
    have p := C69_latest_first h ts
    rw [hl] at p
    have hac : c < a := (List.pairwise_cons.1 p).1 (c, d) (by simp)
    obtain ⟨rfl, x1, x2, k, hk⟩ := (hx a b).1 (by simp [hl])
    obtain ⟨rfl, y1, y2, m, hm⟩ := (hx c d).1 (by simp [hl])
    have : m < k := by
      apply Classical.byContradiction
      intro hn
      have : window * k ≤ window * m := Int.mul_le_mul_of_nonneg_left (by omega) (by omega)
      omega
    have : window * (m + 1) ≤ window * k := Int.mul_le_mul_of_nonneg_left (by omega) (by omega)
    rw [Int.mul_add] at this
    omega

example : parseSpec 600 none (some 60) = .ok ⟨600, 600, 60⟩ ∧
    rowWindows ⟨600, 600, 60⟩ (-1) = [(-540, 60)] := by decide

theorem windowBuckets_row (w : WindowSpec) (times : List (Option Int)) (i : Nat) :
    (windowBuckets w times).row i =
      times[i]?.map fun t => some ((t.map (rowWindows w)).getD []) := by
  have : windowBuckets w times =
      (times.map fun t => some ((t.map (rowWindows w)).getD [])).foldl ListArr.push .empty := by
    rw [List.foldl_map]
    unfold windowBuckets
    congr 1
    funext a t
    cases t <;> rfl
  rw [this, ListArr.row_foldl, List.getElem?_map]

/-- In a batch every row is grouped by its own windows and nothing else; rows whose timestamp is
NULL are in no group. -/
theorem C69_rows_of_a_batch {window : Int} {slide start : Option Int} {w : WindowSpec}
    (h : parseSpec window slide start = .ok w) (times : List (Option Int)) (i : Nat) (a b : Int) :
    (i, a, b) ∈ exploded (windowBuckets w times) times.length ↔
      ∃ ts, times[i]? = some (some ts) ∧ b = a + window ∧ a ≤ ts ∧ ts < b ∧
        (slide.getD window) ∣ (a - start.getD 0) := by
  unfold exploded
  simp only [List.mem_flatMap, List.mem_range, windowBuckets_row]
  constructor
  · rintro ⟨j, hj, hm⟩
    match ht : times[j]? with
    | none => simp [ht] at hm
    | some none => simp [ht] at hm
    | some (some ts) =>
      simp only [ht, Option.map_some, Option.getD_some, List.mem_map, Prod.mk.injEq] at hm
      obtain ⟨⟨c, d⟩, hm, e1, e2⟩ := hm
      obtain ⟨rfl, rfl⟩ := Prod.mk.inj e2
      subst e1
      exact ⟨ts, ht, (C69_exactly_the_windows h ts c d).1 hm⟩
  · rintro ⟨ts, ht, hr⟩
    refine ⟨i, (List.getElem?_eq_some_iff.1 ht).1, ?_⟩
    simp only [ht, Option.map_some, Option.getD_some, List.mem_map]
    exact ⟨(a, b), (C69_exactly_the_windows h ts a b).2 hr, rfl⟩

example : exploded (windowBuckets ⟨10, 5, 0⟩ [some 7, none, some (-1)]) 3 =
    [(0, 5, 15), (0, 0, 10), (2, -5, 5), (2, -10, 0)] := by decide

/-- `window_time` of a window of a row is an instant of that window, and the same window is found
again for it: aggregating aggregated windows again does not move them. -/
theorem C69_window_time_is_inside {window : Int} {slide start : Option Int} {w : WindowSpec}
    (h : parseSpec window slide start = .ok w) (ts : Int) (p : Int × Int)
    (hp : p ∈ rowWindows w ts) : p ∈ rowWindows w (windowTime p) := by
  obtain ⟨a, b⟩ := p
  rw [C69_exactly_the_windows h] at hp ⊢
  obtain ⟨rfl, h1, h2, h3⟩ := hp
  obtain ⟨e1, e2, e3, hs, hsw, -, -, -⟩ := parse_ok h
  refine ⟨rfl, ?_, ?_, h3⟩ <;> simp only [windowTime] <;> omega

example : (5, 15) ∈ rowWindows ⟨10, 5, 0⟩ 7 ∧ windowTime (5, 15) = 14 := by decide

/-- The specifications that are accepted. -/
theorem C69_accepted (window : Int) (slide start : Option Int) :
    (∃ w, parseSpec window slide start = .ok w) ↔
      0 < slide.getD window ∧ slide.getD window ≤ window ∧
      -(slide.getD window) < start.getD 0 ∧ start.getD 0 < slide.getD window ∧
      window ≤ 1000000 * slide.getD window := by
  unfold parseSpec
  generalize hs : slide.getD window = s
  generalize hst : start.getD 0 = st
  simp only
  constructor
  · rintro ⟨w, h⟩
    repeat' split at h
    all_goals first | contradiction | skip
    rename_i a b c d e
    rw [overlapping_eq (by omega) (by omega)] at e
    have : ¬ (1000001 ≤ (window + s - 1) / s) := by omega
    rw [Int.le_ediv_iff_mul_le (by omega)] at this
    omega
  · rintro ⟨h1, h2, h3, h4, h5⟩
    have : overlapping window s ≤ 1000000 := by
      rw [overlapping_eq (by omega) (by omega)]
      have : ¬ (1000001 ≤ (window + s - 1) / s) := by
        rw [Int.le_ediv_iff_mul_le (by omega)]; omega
      omega
    refine ⟨⟨window, s, st⟩, ?_⟩
    rw [if_neg (by omega), if_neg (by omega), if_neg (by omega), if_neg (by omega),
      if_neg (by omega)]

example : parseSpec 10 (some 20) none = .error .slideTooLong ∧
    parseSpec 10 (some 5) (some 5) = .error .start := by decide

/-- No intermediate value of the enumeration leaves 64 bits when the timestamp and the length stay
below a quarter of the range (more than 73000 years). -/
theorem C69_no_overflow {window : Int} {slide start : Option Int} {w : WindowSpec}
    (h : parseSpec window slide start = .ok w) (ts : Int)
    (h1 : -2 ^ 61 ≤ ts) (h2 : ts ≤ 2 ^ 61) (h3 : window ≤ 2 ^ 61) :
    -2 ^ 63 ≤ ts - w.start ∧ ts - w.start < 2 ^ 63 ∧
    w.window + w.slide - 1 < 2 ^ 63 ∧
    ∀ j : Nat, (j : Int) < overlapping w.window w.slide →
      (j : Int) * w.slide < 2 ^ 63 ∧
      -2 ^ 63 ≤ ts - (ts - w.start) % w.slide - j * w.slide ∧
      ts - (ts - w.start) % w.slide - j * w.slide < 2 ^ 63 ∧
      ts - (ts - w.start) % w.slide - j * w.slide + w.window < 2 ^ 63 := by
  obtain ⟨e1, e2, e3, hs, hsw, -, hst1, hst2⟩ := parse_ok h
  have r0 := Int.emod_nonneg (ts - w.start) (by omega : w.slide ≠ 0)
  have r1 := Int.emod_lt_of_pos (ts - w.start) hs
  refine ⟨by omega, by omega, by omega, fun j hj => ?_⟩
  rw [overlapping_eq (by omega) hs] at hj
  have hj' : (j : Int) + 1 ≤ (w.window + w.slide - 1) / w.slide := by omega
  rw [Int.le_ediv_iff_mul_le hs, Int.add_mul] at hj'
  have : 0 ≤ (j : Int) * w.slide := Int.mul_nonneg (by omega) (by omega)
  omega

example : parseSpec (2 ^ 61) (some (2 ^ 60)) none = .ok ⟨2 ^ 61, 2 ^ 60, 0⟩ := by decide

end Verif.Func.Window
