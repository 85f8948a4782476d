import Verif.Checkpoint.Rows

/-!
# C146: a checkpoint gives back its rows
-/

namespace Verif.Checkpoint

/-! ### The writer -/

section
variable {R : Type}

theorem leading_zero : ∀ (batches : List (List R)) (n : Nat),
    leading true (batches.map some) n = some (n + batches.flatten.length, none)
  | [], n => by simp [leading]
  | b :: rest, n => by
    simp only [List.map_cons, leading, Bool.true_or, if_true, leading_zero rest, List.flatten_cons, List.length_append]
    rw [Nat.add_assoc]

theorem leading_columns : ∀ (batches : List (List R)) (n : Nat),
    (batches.flatten = [] ∧ leading false (batches.map some) n = some (n, none))
    ∨ ∃ (first : List R) (rest : List (List R)), first ++ rest.flatten = batches.flatten ∧ first ≠ []
      ∧ leading false (batches.map some) n = some (n + first.length, some (first, rest.map some))
  | [], n => .inl ⟨rfl, rfl⟩
  | [] :: rest, n => by
    rcases leading_columns rest n with ⟨h, e⟩ | ⟨f, r, h, ne, e⟩
    · exact .inl ⟨by simpa using h, by simpa [leading] using e⟩
    · exact .inr ⟨f, r, by simpa using h, ne, by simpa [leading] using e⟩
  | (x :: xs) :: rest, n => .inr ⟨x :: xs, rest, by simp, by simp, by simp [leading]⟩

theorem sink_some : ∀ batches : List (List R), sink (batches.map some) = some batches.flatten
  | [] => rfl
  | b :: rest => by simp [sink, sink_some rest]

/-- What the writer of a partition reports and stores: the number of rows; and, if there are columns and rows, a
file with all rows in their order. -/
theorem C146_writer (zeroColumns : Bool) (size : List R → Nat) (n : Nat) (location : List (List Char)) (batches : List (List R)) :
    writePartition zeroColumns size n location (batches.map some)
      = some (if zeroColumns = true ∨ batches.flatten = [] then (⟨n, none, 0, batches.flatten.length⟩, none)
        else (⟨n, some location, size batches.flatten, batches.flatten.length⟩, some batches.flatten)) := by
  cases zeroColumns with
  | true => simp [writePartition, leading_zero]
  | false =>
    rcases leading_columns batches 0 with ⟨h, e⟩ | ⟨f, r, h, ne, e⟩
    · simp [writePartition, e, h]
    · have : batches.flatten ≠ [] := by
        rw [← h]
        intro c
        exact ne (List.append_eq_nil_iff.1 c).1
      simp [writePartition, e, sink, sink_some, h, this]

theorem sink_error : ∀ {input : List (Option (List R))}, none ∈ input → sink input = none
  | none :: _, _ => rfl
  | some b :: rest, h => by simp [sink, sink_error (by simpa using h : none ∈ rest)]

theorem leading_error (z : Bool) : ∀ {input : List (Option (List R))} (n : Nat), none ∈ input →
    leading z input n = none ∨ ∃ k first rest, none ∈ rest ∧ leading z input n = some (k, some (first, rest))
  | none :: _, n, _ => .inl rfl
  | some b :: rest, n, h => by
    have h' : none ∈ rest := by simpa using h
    simp only [leading]
    split
    · exact leading_error z _ h'
    · exact .inr ⟨_, _, _, h', rfl⟩

/-- If the input of a partition fails, so does the writer, wherever in the stream the error is. -/
theorem C146_input_error (zeroColumns : Bool) (size : List R → Nat) (n : Nat) (location : List (List Char))
    {input : List (Option (List R))} (error : none ∈ input) : writePartition zeroColumns size n location input = none := by
  rcases leading_error zeroColumns 0 error with e | ⟨k, f, r, h, e⟩
  · simp [writePartition, e]
  · simp [writePartition, e, sink, sink_error h]

example : none ∈ [some [1], some [], none, some [(2 : Nat)]] := by simp

end

/-! ### File names -/

theorem stripPrefix_iff : ∀ {p s rest : List Char}, stripPrefix p s = some rest ↔ s = p ++ rest
  | [], s, rest => by simp [stripPrefix]
  | a :: p, [], rest => by simp [stripPrefix]
  | a :: p, b :: s, rest => by
    simp only [stripPrefix, List.cons_append, List.cons.injEq]
    split
    · rename_i h; subst h; simp [stripPrefix_iff]
    · rename_i h
      simp only [reduceCtorEq, false_iff, not_and]
      intro e; exact absurd e.symm h

theorem stripSuffix_iff {p s rest : List Char} : stripSuffix p s = some rest ↔ s = rest ++ p := by
  simp only [stripSuffix, Option.map_eq_some_iff, stripPrefix_iff]
  constructor
  · rintro ⟨a, h, rfl⟩
    rw [← List.reverse_reverse s, h]
    simp
  · rintro rfl
    exact ⟨rest.reverse, by simp, by simp⟩

/-- The file of a partition is accepted iff it lies directly below the path of the checkpoint and has the name that
the writer of this partition gives to its file, with some UUID. -/
theorem C146_location {uuid : List Char → Bool} {root location : List (List Char)} {n : Nat} :
    validLocation uuid root n location = true ↔ ∃ id, uuid id = true ∧ location = fileLocation root n id := by
  unfold validLocation
  constructor
  · intro h
    split at h
    · simp at h
    · rename_i name hl
      simp only [Bool.and_eq_true, decide_eq_true_eq, Option.any_eq_true, Option.bind_eq_some_iff] at h
      obtain ⟨⟨hp, len⟩, id, ⟨mid, h1, h2⟩, hu⟩ := h
      refine ⟨id, hu, ?_⟩
      rw [stripPrefix_iff] at h1
      rw [stripSuffix_iff] at h2
      obtain ⟨t, ht⟩ := List.isPrefixOf_iff_prefix.1 hp
      rw [← ht, List.length_append] at len
      obtain ⟨x, hx⟩ := List.length_eq_one_iff.1 (by omega : t.length = 1)
      subst hx
      rw [← ht] at hl
      simp at hl
      rw [← ht, hl, h1, h2, fileLocation]
      simp
  · rintro ⟨id, hu, rfl⟩
    have e : (fileLocation root n id).getLast? = some (partPrefix n ++ id ++ ".parquet".toList) := by
      simp [fileLocation]
    rw [e]
    have s1 : stripPrefix (partPrefix n) (partPrefix n ++ id ++ ".parquet".toList) = some (id ++ ".parquet".toList) :=
      stripPrefix_iff.2 (by simp)
    have s2 : stripSuffix ".parquet".toList (id ++ ".parquet".toList) = some id := stripSuffix_iff.2 rfl
    simp only [Bool.and_eq_true, decide_eq_true_eq]
    refine ⟨⟨List.isPrefixOf_iff_prefix.2 ⟨_, rfl⟩, by simp [fileLocation]⟩, ?_⟩
    rw [s1, Option.bind_some, s2]
    simpa using hu

theorem until_dash : ∀ {a b x y : List Char}, '-' ∉ a → '-' ∉ b → a ++ '-' :: x = b ++ '-' :: y → a = b
  | [], [], _, _, _, _, _ => rfl
  | [], c :: b, _, _, _, hb, h => by
    simp at h
    exact absurd (by rw [h.1]; simp) hb
  | c :: a, [], _, _, ha, _, h => by
    simp at h
    exact absurd (by rw [← h.1]; simp) ha
  | c :: a, d :: b, _, _, ha, hb, h => by
    simp only [List.cons_append, List.cons.injEq] at h
    rw [h.1, until_dash (fun m => ha (List.mem_cons_of_mem _ m)) (fun m => hb (List.mem_cons_of_mem _ m)) h.2]

theorem no_dash (n : Nat) : '-' ∉ fiveDigits n := by
  intro h
  rcases List.mem_append.1 h with h | h
  · have := List.eq_of_mem_replicate h
    simp at this
  · have := Nat.isDigit_of_mem_toDigits (by decide) (by decide) h
    exact absurd this (by decide)

theorem fiveDigits_value (n : Nat) : Nat.ofDigitChars 10 (fiveDigits n) 0 = n := by
  rw [fiveDigits, Nat.ofDigitChars_append, Nat.ofDigitChars_replicate_zero, Nat.mul_zero, Nat.ofDigitChars_ten_toDigits]

/-- The files of different partitions have different locations, whatever their UUIDs. -/
theorem C146_location_unique {root : List (List Char)} {n m : Nat} {a b : List Char}
    (same : fileLocation root n a = fileLocation root m b) : n = m := by
  simp only [fileLocation, List.append_cancel_left_eq, List.cons.injEq, and_true] at same
  simp only [partPrefix, List.append_assoc, List.append_cancel_left_eq] at same
  have := until_dash (no_dash n) (no_dash m) (by simpa using same)
  rw [← fiveDigits_value n, ← fiveDigits_value m, this]

example : fileLocation ["s".toList] 12 "u".toList = ["s".toList, "part-00012-u.parquet".toList]
    ∧ fileLocation [] 1234567 "u".toList = ["part-1234567-u.parquet".toList] := by decide

/-! ### The commit -/

/-- What is accepted of a report, in words: without a file there are no rows, or no columns; with a file there are
columns and rows, and the file is one of this partition. -/
theorem C146_report {uuid : List Char → Bool} {root : List (List Char)} {zeroColumns : Bool} {r : Report} {p : Part} :
    acceptReport uuid root zeroColumns r = some p ↔
      p.partition = r.partition ∧ p.rowCount = r.rowCount ∧
      ((r.location = none ∧ p.file = none ∧ r.size = 0 ∧ (r.rowCount = 0 ∨ zeroColumns = true))
      ∨ (∃ id, uuid id = true ∧ r.location = some (fileLocation root r.partition id)
        ∧ p.file = some (fileLocation root r.partition id, r.size) ∧ r.size ≠ 0 ∧ r.rowCount ≠ 0 ∧ zeroColumns = false)) := by
  obtain ⟨n, loc, size, count⟩ := r
  obtain ⟨pn, pc, pf⟩ := p
  cases loc with
  | none =>
    simp only [acceptReport]
    constructor
    · intro h
      repeat' split at h
      all_goals first
        | (simp at h; done)
        | skip
      rename_i h1 h2
      simp only [Option.some.injEq, Part.mk.injEq] at h
      refine ⟨h.1.symm, h.2.1.symm, .inl ⟨trivial, h.2.2.symm, by omega, ?_⟩⟩
      cases zeroColumns <;> simp_all
    · rintro ⟨rfl, rfl, ⟨_, rfl, rfl, h⟩ | ⟨id, _, h, _⟩⟩
      · rcases h with h | h <;> simp_all
      · simp at h
  | some l =>
    simp only [acceptReport]
    constructor
    · intro h
      repeat' split at h
      all_goals first
        | (simp at h; done)
        | skip
      rename_i h1 h2 h3
      obtain ⟨id, hu, rfl⟩ := C146_location.1 h3
      simp only [Option.some.injEq, Part.mk.injEq] at h
      refine ⟨h.1.symm, h.2.1.symm, .inr ⟨id, hu, rfl, h.2.2.symm, ?_⟩⟩
      simp at h1
      exact ⟨fun e => h2 (.inl e), fun e => h2 (.inr e), h1⟩
    · rintro ⟨rfl, rfl, ⟨h, _⟩ | ⟨id, hu, h, rfl, h1, h2, rfl⟩⟩
      · simp at h
      · simp only [Option.some.injEq] at h
        subst h
        simp [h1, h2, C146_location.2 ⟨id, hu, rfl⟩]

abbrev Sorted (parts : List Part) : Prop := parts.Pairwise fun a b => a.partition < b.partition

theorem insertPart_spec {p : Part} : ∀ {parts out : List Part}, Sorted parts → insertPart p parts = some out →
    out.Perm (p :: parts) ∧ Sorted out
  | [], out, _, h => by
    simp only [insertPart, Option.some.injEq] at h
    subst h
    exact ⟨.refl _, by simp⟩
  | q :: rest, out, hs, h => by
    simp only [insertPart] at h
    have hq := List.pairwise_cons.1 hs
    split at h
    · rename_i lt
      simp only [Option.some.injEq] at h
      subst h
      refine ⟨.refl _, List.pairwise_cons.2 ⟨?_, hs⟩⟩
      intro x hx
      rcases List.mem_cons.1 hx with hx | hx
      · subst hx; exact lt
      · exact Nat.lt_trans lt (hq.1 x hx)
    · split at h
      · simp at h
      · rename_i nlt ne
        simp only [Option.map_eq_some_iff] at h
        obtain ⟨l, hl, rfl⟩ := h
        obtain ⟨pm, st⟩ := insertPart_spec hq.2 hl
        refine ⟨(List.Perm.cons q pm).trans (List.Perm.swap p q rest), List.pairwise_cons.2 ⟨?_, st⟩⟩
        intro x hx
        rcases List.mem_cons.1 (pm.mem_iff.1 hx) with hx | hx
        · subst hx; omega
        · exact hq.1 x hx

theorem insertPart_new {p : Part} : ∀ {parts : List Part}, (∀ q ∈ parts, q.partition ≠ p.partition) →
    ∃ out, insertPart p parts = some out
  | [], _ => ⟨_, rfl⟩
  | q :: rest, h => by
    simp only [insertPart]
    split
    · exact ⟨_, rfl⟩
    · split
      · rename_i e
        exact absurd e.symm (h q (List.mem_cons_self ..))
      · obtain ⟨out, ho⟩ := insertPart_new (parts := rest) fun x hx => h x (List.mem_cons_of_mem _ hx)
        exact ⟨q :: out, by simp [ho]⟩

theorem collectInto_spec {uuid : List Char → Bool} {root : List (List Char)} {z : Bool} :
    ∀ {reports : List (Option Report)} {parts out : List Part}, Sorted parts →
      collectInto uuid root z reports parts = some out →
      Sorted out ∧ ∃ (rs : List Report) (ps : List Part), reports = rs.map some ∧ rs.map (acceptReport uuid root z) = ps.map some ∧ out.Perm (ps ++ parts)
  | [], parts, out, hs, h => by
    simp only [collectInto, Option.some.injEq] at h
    subst h
    exact ⟨hs, [], [], rfl, rfl, .refl _⟩
  | none :: _, _, _, _, h => by simp [collectInto] at h
  | some r :: rest, parts, out, hs, h => by
    simp only [collectInto, Option.bind_eq_some_iff] at h
    obtain ⟨p, hp, parts', hi, h⟩ := h
    obtain ⟨pm, st⟩ := insertPart_spec hs hi
    obtain ⟨so, rs, ps, e1, e2, pm'⟩ := collectInto_spec st h
    refine ⟨so, r :: rs, p :: ps, by simp [e1], by simp [hp, e2], ?_⟩
    refine pm'.trans ?_
    refine (List.Perm.append_left ps pm).trans ?_
    exact List.perm_middle

theorem collectInto_total {uuid : List Char → Bool} {root : List (List Char)} {z : Bool} :
    ∀ {rs : List Report} {ps parts : List Part}, Sorted parts → rs.map (acceptReport uuid root z) = ps.map some →
      (ps.map Part.partition ++ parts.map Part.partition).Nodup → ∃ out, collectInto uuid root z (rs.map some) parts = some out
  | [], ps, parts, _, _, _ => ⟨parts, rfl⟩
  | r :: rs, [], parts, _, h, _ => by simp at h
  | r :: rs, p :: ps, parts, hs, h, d => by
    simp only [List.map_cons, List.cons.injEq] at h
    simp only [List.map_cons, List.cons_append, List.nodup_cons, List.mem_append, not_or] at d
    obtain ⟨parts', hi⟩ := insertPart_new (p := p) (parts := parts)
      (fun q hq e => d.1.2 (List.mem_map.2 ⟨q, hq, e⟩))
    obtain ⟨pm, st⟩ := insertPart_spec hs hi
    obtain ⟨out, ho⟩ := collectInto_total (rs := rs) st h.2 (by
      have : (ps.map Part.partition ++ parts'.map Part.partition).Perm
          (p.partition :: (ps.map Part.partition ++ parts.map Part.partition)) := by
        refine (List.Perm.append_left _ (pm.map Part.partition)).trans ?_
        exact List.perm_middle
      exact this.nodup_iff.2 (List.nodup_cons.2 ⟨by simpa using d.1, d.2⟩))
    exact ⟨out, by simp [collectInto, h.1, hi, ho]⟩

theorem numbered_iff : ∀ {parts : List Part} {n : Nat},
    numbered parts n = true ↔ parts.map Part.partition = List.range' n parts.length
  | [], n => by simp [numbered]
  | p :: rest, n => by
    simp only [numbered, Bool.and_eq_true, decide_eq_true_eq, numbered_iff, List.map_cons, List.length_cons,
      List.range'_succ, List.cons.injEq]

/-- What a successful commit has seen: no error, acceptable reports only, and from each of the partitions 0 up to the
last exactly one report; the checkpoint has these partitions in the order of their numbers. -/
theorem C146_collected {uuid : List Char → Bool} {root : List (List Char)} {zeroColumns : Bool} {reports : List (Option Report)}
    {parts : List Part} (success : collect uuid root zeroColumns reports = some parts) :
    0 < parts.length ∧ parts.map Part.partition = List.range parts.length
    ∧ ∃ (rs : List Report) (ps : List Part), reports = rs.map some ∧ rs.map (acceptReport uuid root zeroColumns) = ps.map some ∧ parts.Perm ps := by
  simp only [collect, Option.bind_eq_some_iff] at success
  obtain ⟨out, ho, h⟩ := success
  obtain ⟨_, rs, ps, e1, e2, pm⟩ := collectInto_spec (by simp) ho
  split at h
  · simp at h
  · split at h
    · rename_i ne num
      simp only [Option.some.injEq] at h
      subst h
      refine ⟨List.length_pos_iff.2 (by simpa using ne), ?_, rs, ps, e1, e2, by simpa using pm⟩
      rw [numbered_iff.1 num, List.range_eq_range']
    · simp at h

/-- A commit with exactly one acceptable report of each partition succeeds, whatever the order, with the partitions
in the order of their numbers. -/
theorem C146_commit {uuid : List Char → Bool} {root : List (List Char)} {zeroColumns : Bool} {n : Nat} (some_partition : 0 < n)
    {report : Nat → Report} {part : Nat → Part} (numbers : ∀ i < n, (report i).partition = i)
    (acceptable : ∀ i < n, acceptReport uuid root zeroColumns (report i) = some (part i))
    {arrival : List Report} (arrived : arrival.Perm ((List.range n).map report)) :
    collect uuid root zeroColumns (arrival.map some) = some ((List.range n).map part) := by
  have number : ∀ i < n, (part i).partition = i := fun i hi =>
    ((C146_report.1 (acceptable i hi)).1).trans (numbers i hi)
  -- the parts in the order of arrival
  have exists_ps : ∃ ps : List Part, arrival.map (acceptReport uuid root zeroColumns) = ps.map some
      ∧ ps.Perm ((List.range n).map part) := by
    have e : ((List.range n).map report).map (acceptReport uuid root zeroColumns) = ((List.range n).map part).map some := by
      rw [List.map_map, List.map_map]
      exact List.map_congr_left fun i hi => acceptable i (List.mem_range.1 hi)
    have pm : (arrival.map (acceptReport uuid root zeroColumns)).Perm (((List.range n).map part).map some) :=
      e ▸ arrived.map _
    refine ⟨(arrival.map (acceptReport uuid root zeroColumns)).filterMap id, ?_, ?_⟩
    · have all : ∀ x ∈ arrival.map (acceptReport uuid root zeroColumns), ∃ p, x = some p := by
        intro x hx
        obtain ⟨p, _, hp⟩ := List.mem_map.1 (pm.mem_iff.1 hx)
        exact ⟨p, hp.symm⟩
      revert all
      generalize arrival.map (acceptReport uuid root zeroColumns) = l
      intro all
      induction l with
      | nil => rfl
      | cons x l ih =>
        obtain ⟨p, rfl⟩ := all x (List.mem_cons_self ..)
        simp only [List.filterMap_cons, id_eq, List.map_cons, List.cons.injEq, true_and]
        exact ih fun y hy => all y (List.mem_cons_of_mem _ hy)
    · have := pm.filterMap id
      simpa [List.filterMap_map] using this
  obtain ⟨ps, e2, pm⟩ := exists_ps
  have parts_numbers : ((List.range n).map part).map Part.partition = List.range n := by
    rw [List.map_map]
    conv => rhs; rw [← List.map_id (List.range n)]
    exact List.map_congr_left fun i hi => number i (List.mem_range.1 hi)
  have nodup : (ps.map Part.partition).Nodup := by
    refine (pm.map Part.partition).nodup_iff.2 ?_
    rw [parts_numbers]
    exact List.nodup_range
  obtain ⟨out, ho⟩ := collectInto_total (parts := []) (by simp) e2 (by simpa using nodup)
  obtain ⟨so, rs, ps', e1, e2', pm'⟩ := collectInto_spec (by simp) ho
  have ers : rs = arrival := by
    have := congrArg (List.filterMap id) e1
    simpa [List.filterMap_map] using this.symm
  subst ers
  have eps : ps' = ps := by
    have := congrArg (List.filterMap id) (e2'.symm.trans e2)
    simpa [List.filterMap_map] using this
  subst eps
  have pout : out.Perm ((List.range n).map part) := (by simpa using pm' : out.Perm ps').trans pm
  have sorted : Sorted ((List.range n).map part) := by
    have h : (List.range n).Pairwise fun a b => a < b := List.pairwise_lt_range
    refine List.pairwise_map.2 (h.imp_of_mem ?_)
    intro a b ha hb hab
    rw [number a (List.mem_range.1 ha), number b (List.mem_range.1 hb)]
    exact hab
  have eq : out = (List.range n).map part := by
    refine List.Perm.eq_of_pairwise (le := fun a b => a.partition < b.partition) ?_ so sorted pout
    intro a b _ _ h1 h2
    omega
  have ne : out.isEmpty = false := by
    rw [eq]
    cases n with
    | zero => omega
    | succ n => simp [List.range_succ_eq_map]
  have num : numbered out 0 = true := by
    rw [numbered_iff, eq, parts_numbers]
    simp [List.range_eq_range']
  rw [collect, ho, Option.bind_some, if_neg (by simp [ne]), if_pos num, eq]

/-! ### Reading back -/

theorem scan_map {R : Type} {z : Bool} {unit : R} {store : List (List Char) → Option (List R)} {part : Nat → Part}
    {rows : Nat → List R} : ∀ {l : List Nat}, (∀ i ∈ l, scanPart z unit store (part i) = some (rows i)) →
      scan z unit store (l.map part) = some (l.map rows)
  | [], _ => rfl
  | i :: l, h => by
    simp [scan, h i (List.mem_cons_self ..), scan_map fun j hj => h j (List.mem_cons_of_mem _ hj)]

/-- If every partition is written, the files are there, and the reports arrive in any order, then the checkpoint is
made, and it gives back the rows of every partition in their order and the right row counts. -/
theorem C146_roundtrip {R : Type} {uuid : List Char → Bool} {root : List (List Char)} {zeroColumns : Bool}
    {size : List R → Nat} (nonzero : ∀ rows, rows ≠ [] → size rows ≠ 0)
    {unit : R} (no_columns : zeroColumns = true → ∀ r : R, r = unit)
    {n : Nat} (some_partition : 0 < n) {input : Nat → List (List R)} {id : Nat → List Char} (ids : ∀ i < n, uuid (id i) = true)
    {report : Nat → Report} {file : Nat → Option (List R)}
    (written : ∀ i < n, writePartition zeroColumns size i (fileLocation root i (id i)) ((input i).map some)
      = some (report i, file i))
    {store : List (List Char) → Option (List R)}
    (stored : ∀ i < n, ∀ rows, file i = some rows → store (fileLocation root i (id i)) = some rows)
    {arrival : List Report} (arrived : arrival.Perm ((List.range n).map report)) :
    ∃ parts, collect uuid root zeroColumns (arrival.map some) = some parts
      ∧ scan zeroColumns unit store parts = some ((List.range n).map fun i => (input i).flatten)
      ∧ parts.map Part.rowCount = (List.range n).map fun i => (input i).flatten.length := by
  let part : Nat → Part := fun i =>
    if zeroColumns = true ∨ (input i).flatten = [] then ⟨i, (input i).flatten.length, none⟩
    else ⟨i, (input i).flatten.length, some (fileLocation root i (id i), size (input i).flatten)⟩
  have out : ∀ i < n, (if zeroColumns = true ∨ (input i).flatten = []
      then ((⟨i, none, 0, (input i).flatten.length⟩ : Report), (none : Option (List R)))
      else (⟨i, some (fileLocation root i (id i)), size (input i).flatten, (input i).flatten.length⟩,
        some (input i).flatten)) = (report i, file i) := by
    intro i hi
    have := written i hi
    rw [C146_writer] at this
    exact Option.some.inj this
  refine ⟨(List.range n).map part, C146_commit some_partition ?_ ?_ arrived, ?_, ?_⟩
  · intro i hi
    have := congrArg (fun x => x.1.partition) (out i hi)
    simp only at this
    rw [← this]
    split <;> rfl
  · intro i hi
    have h := congrArg Prod.fst (out i hi)
    simp only at h
    rw [← h, C146_report]
    simp only [part]
    split
    · rename_i c
      refine ⟨rfl, rfl, .inl ⟨rfl, rfl, rfl, ?_⟩⟩
      rcases c with c | c
      · exact .inr c
      · left; simp [c]
    · rename_i c
      simp only [not_or, Bool.not_eq_true] at c
      exact ⟨rfl, rfl, .inr ⟨id i, ids i hi, rfl, rfl, nonzero _ c.2, fun e => c.2 (List.length_eq_zero_iff.1 e), c.1⟩⟩
  · refine scan_map fun i hi => ?_
    have hi := List.mem_range.1 hi
    simp only [scanPart, part]
    cases hz : zeroColumns with
    | true =>
      simp only [true_or, if_true]
      congr 1
      symm
      refine List.eq_replicate_iff.2 ⟨rfl, fun r _ => no_columns hz r⟩
    | false =>
      have o := out i hi
      simp only [hz, Bool.false_eq_true, false_or, if_false] at o ⊢
      split
      · rename_i f c
        split at c
        · rename_i e; rw [e]
        · simp at c
      · rename_i f c
        split at c
        · simp at c
        · rename_i e
          simp only [Option.some.injEq, Prod.mk.injEq] at c
          rw [if_neg e] at o
          rw [← c.1]
          exact stored i hi _ (congrArg Prod.snd o).symm
  · rw [List.map_map]
    refine List.map_congr_left fun i _ => ?_
    simp only [Function.comp, part]
    split <;> rfl

/-- Three partitions, the second one without rows; the reports arrive in another order. -/
example :
    let uuid : List Char → Bool := fun s => s == "u".toList
    let w := fun (i : Nat) (b : List (List Nat)) => writePartition false List.length i (fileLocation [['r']] i ['u']) (b.map some)
    w 0 [[], [1, 2], [], [3]] = some (⟨0, some (fileLocation [['r']] 0 ['u']), 3, 3⟩, some [1, 2, 3])
    ∧ w 1 [[], []] = some (⟨1, none, 0, 0⟩, none)
    ∧ collect uuid [['r']] false [some ⟨2, some (fileLocation [['r']] 2 ['u']), 1, 1⟩,
        some ⟨0, some (fileLocation [['r']] 0 ['u']), 3, 3⟩, some ⟨1, none, 0, 0⟩]
      = some [⟨0, 3, some (fileLocation [['r']] 0 ['u'], 3)⟩, ⟨1, 0, none⟩, ⟨2, 1, some (fileLocation [['r']] 2 ['u'], 1)⟩] := by
  decide +kernel

/-- The commit does not know the number of partitions: without the report of the last one it succeeds. -/
theorem C146_last_unreported {uuid : List Char → Bool} {root : List (List Char)} {zeroColumns : Bool} {n : Nat} (some_partition : 0 < n)
    {report : Nat → Report} {part : Nat → Part} (numbers : ∀ i < n + 1, (report i).partition = i)
    (acceptable : ∀ i < n + 1, acceptReport uuid root zeroColumns (report i) = some (part i)) :
    (collect uuid root zeroColumns (((List.range n).map report).map some)).map List.length = some n := by
  rw [C146_commit some_partition (fun i hi => numbers i (by omega)) (fun i hi => acceptable i (by omega)) (.refl _)]
  simp

/-- The partitioning that is recorded has the number of partitions of the checkpoint, and is a hash partitioning
only if the data was partitioned by the same expressions into as many partitions. -/
theorem C146_partitioning (p : Partitioning) (n : Nat) :
    (∀ m, withCount p n = .roundRobin m → m = n) ∧ (∀ m, withCount p n = .unknown m → m = n)
    ∧ (∀ e m, withCount p n = .hash e m ↔ m = n ∧ p = .hash e n) := by
  cases p with
  | roundRobin k => simp [withCount]
  | unknown k => simp [withCount]
  | hash e k =>
    simp only [withCount]
    split
    · rename_i h; subst h
      simp only [reduceCtorEq, false_implies, implies_true, true_and, Partitioning.hash.injEq]
      intro e' m
      constructor
      · rintro ⟨rfl, rfl⟩; simp
      · rintro ⟨rfl, rfl, _⟩; simp
    · rename_i h
      simp only [reduceCtorEq, false_implies, implies_true, Partitioning.unknown.injEq, true_and, false_iff, not_and,
        Partitioning.hash.injEq]
      exact ⟨fun m e => e.symm, fun _ _ _ _ c => h c⟩

end Verif.Checkpoint
