import Verif.Io.Rate

/-!
# C148: the rate source
-/

namespace Verif.Io.Rate

/-- The column that a projection index means. -/
def Spec.column (now : Int) (offset size : Nat) : Nat → Col
  | 0 => .time (List.replicate size now)
  | _ => .value (List.range' offset size)

theorem value_column (offset size : Nat) : (List.range size).map (fun i => offset + i) = List.range' offset size := by
  rw [List.range_eq_range', List.map_add_range']
  simp

/-- The columns so far are those of the indices so far, and the positions are those of the first ones. -/
structure Good (now : Int) (offset size : Nat) (done : List Nat) (acts : List Act) (ts v : Option Nat) : Prop where
  cols : columns now offset size acts [] = some (done.map (Spec.column now offset size))
  len : acts.length = done.length
  ts : ∀ j, ts = some j → done[j]? = some 0
  v : ∀ j, v = some j → done[j]? = some 1

theorem columns_append {now : Int} {offset size : Nat} : ∀ (a b : List Act) (cols : List Col),
    columns now offset size (a ++ b) cols = (columns now offset size a cols).bind (columns now offset size b)
  | [], b, cols => rfl
  | .timestamp :: a, b, cols => columns_append a b _
  | .value :: a, b, cols => columns_append a b _
  | .copy j :: a, b, cols => by
    simp only [List.cons_append, columns]
    split
    · exact columns_append a b _
    · rfl

theorem get_snoc {l : List Nat} {j x y : Nat} (h : l[j]? = some x) : (l ++ [y])[j]? = some x := by
  have := (List.getElem?_eq_some_iff.1 h).1
  rw [List.getElem?_append_left this, h]

theorem good_push {now : Int} {offset size : Nat} {done : List Nat} {acts : List Act} {ts v : Option Nat}
    (g : Good now offset size done acts ts v) {i : Nat} {act : Act}
    (col : columns now offset size [act] (done.map (Spec.column now offset size))
      = some (done.map (Spec.column now offset size) ++ [Spec.column now offset size i])) {ts' v' : Option Nat}
    (hts : ∀ j, ts' = some j → ts = some j ∨ (j = done.length ∧ i = 0))
    (hv : ∀ j, v' = some j → v = some j ∨ (j = done.length ∧ i = 1)) :
    Good now offset size (done ++ [i]) (acts ++ [act]) ts' v' := by
  refine ⟨?_, by simp [g.len], ?_, ?_⟩
  · rw [columns_append, g.cols, Option.bind_some, col]
    simp
  · intro j h
    rcases hts j h with h | ⟨rfl, rfl⟩
    · exact get_snoc (g.ts j h)
    · simp
  · intro j h
    rcases hv j h with h | ⟨rfl, rfl⟩
    · exact get_snoc (g.v j h)
    · simp

theorem copy_column {now : Int} {offset size : Nat} {done : List Nat} {j i : Nat} (h : done[j]? = some i) :
    columns now offset size [.copy j] (done.map (Spec.column now offset size))
      = some (done.map (Spec.column now offset size) ++ [Spec.column now offset size i]) := by
  simp [columns, List.getElem?_map, h]

theorem plan_good {now : Int} {offset size : Nat} : ∀ (projection : List Nat) {done : List Nat} {acts out : List Act}
    {ts v : Option Nat}, Good now offset size done acts ts v → plan projection acts ts v = some out →
    columns now offset size out [] = some ((done ++ projection).map (Spec.column now offset size))
      ∧ ∀ i ∈ projection, i < 2
  | [], done, acts, out, ts, v, g, h => by
    simp only [plan, Option.some.injEq] at h
    subst h
    simpa using g.cols
  | 0 :: rest, done, acts, out, ts, v, g, h => by
    cases ts with
    | some j =>
      simp only [plan] at h
      have := plan_good rest (good_push (i := 0) (ts' := some j) (v' := v) g (copy_column (g.ts j rfl)) (fun k e => .inl e)
        (fun k e => .inl e)) h
      simpa using this
    | none =>
      simp only [plan] at h
      have := plan_good rest (good_push (i := 0) (act := .timestamp) (ts' := some acts.length) (v' := v) g (by simp [columns, Spec.column])
        (fun k e => .inr (by simp at e; rw [← e, g.len]; simp)) (fun k e => .inl e)) h
      simpa using this
  | 1 :: rest, done, acts, out, ts, v, g, h => by
    cases v with
    | some j =>
      simp only [plan] at h
      have := plan_good rest (good_push (i := 1) (ts' := ts) (v' := some j) g (copy_column (g.v j rfl)) (fun k e => .inl e)
        (fun k e => .inl e)) h
      simpa using this
    | none =>
      simp only [plan] at h
      have := plan_good rest (good_push (i := 1) (act := .value) (ts' := ts) (v' := some acts.length) g
        (by simp only [columns, value_column, Spec.column])
        (fun k e => .inl e) (fun k e => .inr (by simp at e; rw [← e, g.len]; simp))) h
      simpa using this
  | (n + 2) :: rest, done, acts, out, ts, v, g, h => by simp [plan] at h

theorem plan_total : ∀ (projection : List Nat) (acts : List Act) (ts v : Option Nat), (∀ i ∈ projection, i < 2) →
    ∃ out, plan projection acts ts v = some out
  | [], acts, _, _, _ => ⟨acts, rfl⟩
  | 0 :: rest, acts, ts, v, h => by
    cases ts <;> simp only [plan] <;> exact plan_total rest _ _ _ fun i hi => h i (List.mem_cons_of_mem _ hi)
  | 1 :: rest, acts, ts, v, h => by
    cases v <;> simp only [plan] <;> exact plan_total rest _ _ _ fun i hi => h i (List.mem_cons_of_mem _ hi)
  | (n + 2) :: rest, _, _, _, h => by
    have := h (n + 2) (List.mem_cons_self ..)
    omega

/-- What a partition generates, batch by batch: for every selected column, in its place and as often as it is
selected, the timestamp of the batch or the next values. -/
def Spec.stream (size : Nat) (projection : List Nat) : List Int → Nat → List (Option (List Col))
  | [], _ => []
  | now :: rest, k =>
    some (projection.map (Spec.column now (k * size) size)) :: Spec.stream size projection rest (k + 1)

theorem batches_spec {projection : List Nat} {acts : List Act} (planned : plan projection [] none none = some acts)
    (some_column : projection ≠ []) (size : Nat) : ∀ (clock : List Int) (k : Nat),
      batches acts size clock (k * size) = Spec.stream size projection clock k
  | [], _ => rfl
  | now :: rest, k => by
    have c := (plan_good (now := now) (offset := k * size) (size := size) projection (done := [])
      ⟨rfl, rfl, by simp, by simp⟩ planned).1
    simp only [List.nil_append] at c
    have g : (generate acts now (k * size) size).1 = some (projection.map (Spec.column now (k * size) size)) := by
      simp [generate, c, some_column]
    have e : (generate acts now (k * size) size).2 = (k + 1) * size := by simp [generate, Nat.add_mul]
    rw [batches, Spec.stream, g, e, batches_spec planned some_column size rest (k + 1)]

/-- Every partition generates what it should, whatever columns are selected, if there is one. -/
theorem C148_columns_partial {rate partitions partition : Nat} {projection : List Nat} (exists_ : partition < partitions)
    (positive : rate ≠ 0) (some_column : projection ≠ []) (columns_exist : ∀ i ∈ projection, i < 2) (clock : List Int) :
    execute rate partitions projection partition clock
      = some (Spec.stream (batchSize rate partitions) projection clock 0) := by
  obtain ⟨acts, h⟩ := plan_total projection [] none none columns_exist
  have := batches_spec h some_column (batchSize rate partitions) clock 0
  rw [Nat.zero_mul] at this
  rw [execute, if_neg (by omega), if_neg positive, h, Option.map_some, this]

/-- A column that does not exist is refused. -/
theorem C148_wrong_column {rate partitions partition : Nat} {projection : List Nat} (positive : rate ≠ 0) {i : Nat}
    (selected : i ∈ projection) (wrong : 2 ≤ i) (clock : List Int) :
    execute rate partitions projection partition clock = none := by
  unfold execute
  split
  · rfl
  · cases h : plan projection [] none none with
    | none => rfl
    | some acts =>
      have := (plan_good (now := 0) (offset := 0) (size := 0) projection (done := []) ⟨rfl, rfl, by simp, by simp⟩ h).2 i selected
      omega

/-- The values of a column in a list of batches. -/
def Spec.values (column : Nat) (out : List (Option (List Col))) : List Nat :=
  out.flatMap fun b =>
    match b.bind fun cols => cols[column]? with
    | some (.value rows) => rows
    | _ => []

theorem stream_values {size : Nat} {projection : List Nat} {c : Nat} (selected : projection[c]? = some 1) :
    ∀ (clock : List Int) (k : Nat), Spec.values c (Spec.stream size projection clock k) = List.range' (k * size) (clock.length * size)
  | [], k => by simp [Spec.stream, Spec.values]
  | now :: rest, k => by
    have ih := stream_values (size := size) selected rest (k + 1)
    simp only [Spec.values] at ih
    simp only [Spec.stream, Spec.values, List.flatMap_cons, Option.bind_some, List.getElem?_map, selected, Option.map_some,
      Spec.column, ih, List.length_cons]
    rw [Nat.add_mul, Nat.add_mul, Nat.one_mul, Nat.add_comm (rest.length * size) size, List.range'_append_1]

/-- The values of a partition, in any column that shows them, are 0, 1, 2, ... without gaps and repetitions. -/
theorem C148_values {rate partitions partition : Nat} {projection : List Nat} (exists_ : partition < partitions)
    (positive : rate ≠ 0) (columns_exist : ∀ i ∈ projection, i < 2) {c : Nat} (selected : projection[c]? = some 1)
    (clock : List Int) : ∃ out, execute rate partitions projection partition clock = some out
      ∧ Spec.values c out = List.range (clock.length * batchSize rate partitions) := by
  have some_column : projection ≠ [] := by rintro rfl; simp at selected
  refine ⟨_, C148_columns_partial exists_ positive some_column columns_exist clock, ?_⟩
  rw [stream_values selected, Nat.zero_mul, List.range_eq_range']

/-- Three rows per batch, the value selected twice around the timestamp. -/
example : batchSize 3000 1 = 3 ∧ execute 3000 1 [1, 0, 1] 0 [50, 60]
    = some [some [.value [0, 1, 2], .time [50, 50, 50], .value [0, 1, 2]],
        some [.value [3, 4, 5], .time [60, 60, 60], .value [3, 4, 5]]] := by decide

/-- With more than one partition every value is generated once in each of them. -/
theorem C148_partitions_repeat {rate partitions p q : Nat} (hp : p < partitions) (hq : q < partitions) (projection : List Nat)
    (clock : List Int) : execute rate partitions projection p clock = execute rate partitions projection q clock := by
  rw [execute, execute, if_neg (Nat.not_le.2 hp), if_neg (Nat.not_le.2 hq)]

/-- If no column is selected every batch is an error. -/
theorem C148_no_columns {rate partitions partition : Nat} (exists_ : partition < partitions) (positive : rate ≠ 0) (clock : List Int) :
    execute rate partitions [] partition clock = some (clock.map fun _ => none) := by
  rw [execute, if_neg (by omega), if_neg positive]
  simp only [plan, Option.map_some, Option.some.injEq]
  suffices ∀ (clock : List Int) (n : Nat), batches [] (batchSize rate partitions) clock n = clock.map fun _ => none from
    this clock 0
  intro clock
  induction clock with
  | nil => intro n; rfl
  | cons now rest ih => intro n; simp [batches, generate, columns, ih]

/-- The rate 0 generates nothing. -/
theorem C148_zero {partitions partition : Nat} (exists_ : partition < partitions) (projection : List Nat) (clock : List Int) :
    execute 0 partitions projection partition clock = some [] := by
  rw [execute, if_neg (by omega), if_pos rfl]

/-! ### Rates -/

/-- Rows per second in all partitions. -/
def Spec.total (rate partitions : Nat) : Nat :=
  partitions * (batchSize rate partitions * batchesPerSecond rate partitions)

theorem partition_rows (rate partitions : Nat) :
    batchSize rate partitions * batchesPerSecond rate partitions ≤ partitionRate rate partitions
    ∧ partitionRate rate partitions < 2 * (batchSize rate partitions * batchesPerSecond rate partitions)
    ∧ (partitionRate rate partitions ≤ 1000 ∨ 1000 ∣ partitionRate rate partitions →
        batchSize rate partitions * batchesPerSecond rate partitions = partitionRate rate partitions) := by
  have pos : 1 ≤ partitionRate rate partitions := Nat.le_max_right ..
  unfold batchSize batchesPerSecond
  generalize partitionRate rate partitions = r at pos ⊢
  have hb : 0 < min r 1000 := by omega
  have hle : min r 1000 ≤ r := Nat.min_le_left ..
  have h1 := Nat.div_mul_le_self r (min r 1000)
  have h2 : 1 ≤ r / min r 1000 := (Nat.one_le_div_iff hb).2 hle
  have h3 := Nat.div_add_mod r (min r 1000)
  have h4 := Nat.mod_lt r hb
  have h5 : min r 1000 ≤ r / min r 1000 * min r 1000 := Nat.le_mul_of_pos_left _ h2
  refine ⟨h1, ?_, ?_⟩
  · rw [Nat.mul_comm] at h3
    omega
  · rintro (h | h)
    · have e : min r 1000 = r := by omega
      rw [e, Nat.div_self (by omega), Nat.one_mul]
    · have : 1000 ≤ r := Nat.le_of_dvd (by omega) h
      have e : min r 1000 = 1000 := by omega
      rw [e, Nat.div_mul_cancel h]

/-- If there are at least as many rows per second as partitions, not more rows than configured are generated, and more
than a quarter of them. -/
theorem C148_rate_partial {rate partitions : Nat} (some_partition : 0 < partitions) (enough : partitions ≤ rate) :
    Spec.total rate partitions ≤ rate ∧ rate < 4 * Spec.total rate partitions := by
  obtain ⟨h1, h2, -⟩ := partition_rows rate partitions
  have q : 1 ≤ rate / partitions := (Nat.one_le_div_iff some_partition).2 enough
  have e : partitionRate rate partitions = rate / partitions := Nat.max_eq_left q
  rw [e] at h1 h2
  unfold Spec.total
  generalize batchSize rate partitions * batchesPerSecond rate partitions = g at h1 h2 ⊢
  have d1 : partitions * (rate / partitions) ≤ rate := Nat.mul_div_le rate partitions
  have m1 : partitions * g ≤ partitions * (rate / partitions) := Nat.mul_le_mul_left _ h1
  have d2 : rate < partitions * (rate / partitions) + partitions := by
    have := Nat.div_add_mod rate partitions
    have := Nat.mod_lt rate some_partition
    omega
  have m2 : partitions * (rate / partitions + 1) ≤ partitions * (2 * g) := Nat.mul_le_mul_left _ h2
  have e2 : partitions * (2 * g) = 2 * (partitions * g) := Nat.mul_left_comm ..
  rw [Nat.mul_add, Nat.mul_one, e2] at m2
  omega

example : 0 < 3 ∧ 3 ≤ 100 ∧ Spec.total 100 3 = 99 := by decide

/-- It is exactly the configured number if it can be divided among the partitions and if a partition generates up to a
thousand rows, or thousands of rows. -/
theorem C148_exact_rate {rate partitions : Nat} (some_partition : 0 < partitions) (positive : 0 < rate) (divides : partitions ∣ rate)
    (even : rate / partitions ≤ 1000 ∨ 1000 ∣ rate / partitions) : Spec.total rate partitions = rate := by
  have enough : partitions ≤ rate := Nat.le_of_dvd positive divides
  have q : 1 ≤ rate / partitions := (Nat.one_le_div_iff some_partition).2 enough
  have e : partitionRate rate partitions = rate / partitions := Nat.max_eq_left q
  rw [Spec.total, (partition_rows rate partitions).2.2 (by rw [e]; exact even), e, Nat.mul_div_cancel' divides]

example : (4 : Nat) ∣ 8000 ∧ 1000 ∣ 8000 / 4 := by decide

/-- With more partitions than rows per second, too many rows are generated: one per partition. -/
theorem C148_over_rate {rate partitions : Nat} (few : rate < partitions) : Spec.total rate partitions = partitions := by
  have z : rate / partitions = 0 := Nat.div_eq_of_lt few
  have e : partitionRate rate partitions = 1 := by simp [partitionRate, z]
  rw [Spec.total, (partition_rows rate partitions).2.2 (by rw [e]; omega), e, Nat.mul_one]

/-- For 1999 rows per second in one partition, 1000 are generated. -/
theorem C148_under_rate : Spec.total 1999 1 = 1000 := by decide

end Verif.Io.Rate
