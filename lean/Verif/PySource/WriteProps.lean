import Verif.PySource.Write

/-!
# C124: a Python write is committed exactly when every partition wrote all its rows
-/

namespace Verif.PySource.Write

variable {R M : Type}

namespace Spec

/-- The rows received before the first error of the stream. -/
def heard : List (Except String (WBatch M)) → List (WRow M)
  | [] => []
  | .error _ :: _ => []
  | .ok (.bad _) :: r => heard r
  | .ok (.rows l) :: r => l ++ heard r

/-- Nothing but batches that can be decoded. -/
def clean : List (Except String (WBatch M)) → Prop
  | [] => True
  | .error _ :: _ => False
  | .ok (.bad _) :: _ => False
  | .ok (.rows _) :: r => clean r

/-- The message of the first report of a partition, if it reported success. -/
def message (rows : List (WRow M)) (p : Nat) : Option M :=
  match rows.find? (fun r => r.pid == p) with
  | some r => if r.err.isSome then none else r.msg
  | none => none

/-- Each of the expected partitions reported success, once. -/
def allDone (expected : Nat) (rows : List (WRow M)) : Prop :=
  (rows.map (·.pid)).Perm (List.range expected) ∧ ∀ r ∈ rows, r.err = none

/-- The input of a partition came to its end. -/
def complete (input : List (In R)) : Prop := ∀ i ∈ input, ∃ b, i = In.batch b

/-- All its rows. -/
def allRows (input : List (In R)) : List R :=
  input.flatMap (fun i => match i with | .batch b => b | _ => [])

end Spec

open Spec

/-! ## The loop -/

/-- What the variables say after the reports `rows`; `bad` if anything else went wrong. -/
structure Inv (n : Nat) (rows : List (WRow M)) (bad : Prop) (s : CState M) : Prop where
  msgs : s.msgs = (List.range n).map (message rows)
  seen : s.seen = (List.range n).map (fun i => rows.any (fun r => r.pid == i))
  first : s.first = none ↔ ¬ bad ∧ (∀ r ∈ rows, r.pid < n ∧ r.err = none) ∧ (rows.map (·.pid)).Nodup

theorem fail_first (s : CState M) (e : String) : (s.fail e).first ≠ none := by
  unfold CState.fail
  cases s.first <;> simp

theorem fail_msgs (s : CState M) (e : String) : (s.fail e).msgs = s.msgs := rfl
theorem fail_seen (s : CState M) (e : String) : (s.fail e).seen = s.seen := rfl

theorem inv_start (n : Nat) : Inv (M := M) n [] False ⟨List.replicate n none, List.replicate n false, none⟩ := by
  refine ⟨?_, ?_, by simp⟩
  · apply List.ext_getElem <;> simp [message]
  · apply List.ext_getElem <;> simp

theorem inv_bad {n : Nat} {rows : List (WRow M)} {bad : Prop} {s : CState M} (h : Inv n rows bad s) (e : String) :
    Inv n rows True (s.fail e) :=
  ⟨h.msgs, h.seen, iff_of_false (fail_first s e) (fun h => h.1 trivial)⟩

theorem set_map_range {α : Type} (n p : Nat) (f : Nat → α) (v : α) :
    ((List.range n).map f).set p v = (List.range n).map (fun i => if i = p then v else f i) := by
  apply List.ext_getElem
  · simp
  · intro i h1 h2
    simp only [List.getElem_set, List.getElem_map, List.getElem_range, eq_comm]

theorem message_append (rows : List (WRow M)) (r : WRow M) (p : Nat) :
    message (rows ++ [r]) p =
      if rows.any (fun r => r.pid == p) then message rows p
      else if r.pid = p then (if r.err.isSome then none else r.msg) else none := by
  unfold message
  rw [List.find?_append]
  cases hf : rows.find? (fun r => r.pid == p) with
  | some x =>
    have : rows.any (fun r => r.pid == p) = true := List.any_eq_true.2
      ⟨x, List.mem_of_find?_eq_some hf, by have := List.find?_some hf; exact this⟩
    simp [this]
  | none =>
    have : rows.any (fun r => r.pid == p) = false := by
      rw [List.any_eq_false]
      intro x hx
      exact List.find?_eq_none.1 hf x hx
    simp only [this, Option.none_or, List.find?_cons, List.find?_nil]
    by_cases hp : r.pid = p
    · simp [hp]
    · have hb : (r.pid == p) = false := by simp [hp]
      simp [hb, hp]

theorem message_unseen (rows : List (WRow M)) (p : Nat) (h : rows.any (fun r => r.pid == p) = false) :
    message rows p = none := by
  unfold message
  have : rows.find? (fun r => r.pid == p) = none := by
    rw [List.find?_eq_none]
    intro x hx
    exact List.any_eq_false.1 h x hx
  rw [this]

theorem inv_row {n : Nat} {rows : List (WRow M)} {bad : Prop} {s : CState M} (h : Inv n rows bad s) (row : WRow M) :
    Inv n (rows ++ [row]) bad (decodeRow s row) := by
  have hlen : s.msgs.length = n := by rw [h.msgs]; simp
  unfold decodeRow
  by_cases h1 : s.msgs.length ≤ row.pid
  · rw [if_pos h1]
    rw [hlen] at h1
    refine ⟨?_, ?_, iff_of_false (fail_first s _) (fun hh => ?_)⟩
    · rw [fail_msgs, h.msgs]
      apply List.map_congr_left
      intro i hi
      rw [message_append]
      have : row.pid ≠ i := by have := List.mem_range.1 hi; omega
      cases hany : rows.any (fun r => r.pid == i)
      · simp [this, message_unseen rows i hany]
      · simp
    · rw [fail_seen, h.seen]
      apply List.map_congr_left
      intro i hi
      have : row.pid ≠ i := by have := List.mem_range.1 hi; omega
      simp [this]
    · have := (hh.2.1 row (by simp)).1
      omega
  · rw [if_neg h1]
    have hlt : row.pid < n := by omega
    have hseen : s.seen[row.pid]?.getD false = rows.any (fun r => r.pid == row.pid) := by
      rw [h.seen]; simp [hlt]
    rw [hseen]
    cases hany : rows.any (fun r => r.pid == row.pid)
    · simp only [Bool.false_eq_true, if_false]
      have hset : ∀ v, v = (if row.err.isSome then none else row.msg) →
          s.msgs.set row.pid v = (List.range n).map (message (rows ++ [row])) := by
        intro v hv
        rw [h.msgs, set_map_range]
        apply List.map_congr_left
        intro i _
        rw [message_append]
        by_cases hi : i = row.pid
        · subst hi; simp [hany, hv]
        · have hi' : row.pid ≠ i := fun e => hi e.symm
          simp only [hi, if_false, hi']
          cases hai : rows.any (fun r => r.pid == i)
          · simp [message_unseen rows i hai]
          · simp
      have hseen2 : s.seen.set row.pid true = (List.range n).map (fun i => (rows ++ [row]).any (fun r => r.pid == i)) := by
        rw [h.seen, set_map_range]
        apply List.map_congr_left
        intro i _
        by_cases hi : i = row.pid
        · subst hi; simp
        · have hi' : row.pid ≠ i := fun e => hi e.symm
          simp [hi, hi']
      have hnot : row.pid ∉ rows.map (·.pid) := by
        intro hm
        obtain ⟨x, hx, hxp⟩ := List.mem_map.1 hm
        have := List.any_eq_false.1 hany x hx
        simp [hxp] at this
      cases he : row.err with
      | some e =>
        refine ⟨hset none (by simp [he]), hseen2, iff_of_false (fail_first s _) (fun hh => ?_)⟩
        have := (hh.2.1 row (by simp)).2
        rw [he] at this; cases this
      | none =>
        refine ⟨hset row.msg (by simp [he]), hseen2, ?_⟩
        show s.first = none ↔ _
        rw [h.first]
        constructor
        · rintro ⟨a, b, c⟩
          refine ⟨a, ?_, ?_⟩
          · intro r hr
            rcases List.mem_append.1 hr with hr | hr
            · exact b r hr
            · simp at hr; subst hr; exact ⟨hlt, he⟩
          · rw [List.map_append, List.nodup_append]
            exact ⟨c, by simp, by
              intro x hx y hy; simp at hy; subst hy; rintro rfl; exact hnot hx⟩
        · rintro ⟨a, b, c⟩
          refine ⟨a, fun r hr => b r (by simp [hr]), ?_⟩
          rw [List.map_append, List.nodup_append] at c
          exact c.1
    · simp only [if_true]
      obtain ⟨x, hx, hxp⟩ := List.any_eq_true.1 hany
      simp only [beq_iff_eq] at hxp
      refine ⟨?_, ?_, iff_of_false (fail_first s _) (fun hh => ?_)⟩
      · rw [fail_msgs, h.msgs]
        apply List.map_congr_left
        intro i _
        rw [message_append]
        cases hai : rows.any (fun r => r.pid == i)
        · have : row.pid ≠ i := by rintro rfl; rw [hany] at hai; cases hai
          simp [this, message_unseen rows i hai]
        · simp
      · rw [fail_seen, h.seen]
        apply List.map_congr_left
        intro i _
        by_cases hi : row.pid = i
        · subst hi; simp [hany]
        · simp [hi]
      · have := hh.2.2
        rw [List.map_append, List.nodup_append] at this
        exact this.2.2 x.pid (List.mem_map.2 ⟨x, hx, rfl⟩) row.pid (by simp) hxp

theorem inv_rows {n : Nat} {bad : Prop} (l : List (WRow M)) : ∀ {rows : List (WRow M)} {s : CState M},
    Inv n rows bad s → Inv n (rows ++ l) bad (l.foldl decodeRow s) := by
  induction l with
  | nil => intro rows s h; simpa using h
  | cons r l ih =>
    intro rows s h
    have := ih (inv_row h r)
    simpa using this

theorem inv_congr {n : Nat} {rows : List (WRow M)} {a b : Prop} {s : CState M} (hab : a ↔ b) (h : Inv n rows a s) :
    Inv n rows b s := ⟨h.msgs, h.seen, by rw [h.first, hab]⟩

theorem inv_collect {n : Nat} (stream : List (Except String (WBatch M))) : ∀ {bad : Prop} {rows : List (WRow M)} {s : CState M},
    Inv n rows bad s → Inv n (rows ++ heard stream) (bad ∨ ¬ clean stream) (collect s stream) := by
  induction stream with
  | nil =>
    intro bad rows s h
    have : Inv n rows (bad ∨ ¬ clean (M := M) []) s := inv_congr (by simp [clean]) h
    simpa [heard, collect] using this
  | cons x r ih =>
    intro bad rows s h
    match x with
    | .error e =>
      have : Inv n rows (bad ∨ ¬ clean (M := M) (.error e :: r)) (s.fail e) := inv_congr (by simp [clean]) (inv_bad h e)
      simpa only [heard, collect, List.append_nil] using this
    | .ok (.bad e) =>
      have : Inv n (rows ++ heard r) (bad ∨ ¬ clean (M := M) (.ok (.bad e) :: r)) (collect (s.fail e) r) :=
        inv_congr (by simp [clean]) (ih (inv_bad h e))
      exact this
    | .ok (.rows l) =>
      have := ih (inv_rows l h)
      rw [List.append_assoc] at this
      exact this

theorem missing_fold (l : List (Bool × Nat)) : ∀ s : CState M,
    let s' := l.foldl (fun (s : CState M) (x : Bool × Nat) =>
      if x.1 then s else s.fail s!"Missing write result for partition {x.2}") s
    s'.msgs = s.msgs ∧ (s'.first = none ↔ s.first = none ∧ ∀ x ∈ l, x.1 = true) := by
  induction l with
  | nil => intro s; simp
  | cons x l ih =>
    intro s
    simp only [List.foldl_cons]
    obtain ⟨a, b⟩ := ih (if x.1 then s else s.fail s!"Missing write result for partition {x.2}")
    refine ⟨?_, ?_⟩
    · rw [a]; split <;> rfl
    · rw [b]
      cases hx : x.1
      · simp only [Bool.false_eq_true, if_false]
        constructor
        · rintro ⟨h, -⟩; exact absurd h (fail_first s _)
        · rintro ⟨-, h⟩; exact absurd (h x (by simp)) (by simp [hx])
      · simp only [if_true, List.mem_cons, forall_eq_or_imp, hx, true_and]

theorem missing_first (s : CState M) : (missing s).first = none ↔ s.first = none ∧ ∀ b ∈ s.seen, b = true := by
  rw [missing, (missing_fold s.seen.zipIdx s).2]
  apply and_congr_right
  intro _
  constructor
  · intro h b hb
    obtain ⟨i, hi, rfl⟩ := List.getElem_of_mem hb
    exact h (s.seen[i], i) (List.mem_zipIdx_iff_getElem?.2 (by simp [hi]))
  · intro h x hx
    have := List.mem_zipIdx_iff_getElem?.1 hx
    exact h x.1 (List.mem_of_getElem? this)

theorem perm_range_iff (n : Nat) (l : List Nat) :
    l.Perm (List.range n) ↔ l.Nodup ∧ (∀ i ∈ l, i < n) ∧ ∀ i < n, i ∈ l := by
  constructor
  · intro h
    exact ⟨h.nodup_iff.2 List.nodup_range, fun i hi => List.mem_range.1 (h.mem_iff.1 hi),
      fun i hi => h.mem_iff.2 (List.mem_range.2 hi)⟩
  · rintro ⟨h1, h2, h3⟩
    exact (List.perm_ext_iff_of_nodup h1 List.nodup_range).2 (fun i =>
      ⟨fun h => List.mem_range.2 (h2 i h), fun h => h3 i (List.mem_range.1 h)⟩)

theorem final_state (n : Nat) (stream : List (Except String (WBatch M))) :
    let s := missing (collect ⟨List.replicate n none, List.replicate n false, none⟩ stream)
    s.msgs = (List.range n).map (message (heard stream)) ∧
    (s.first = none ↔ clean stream ∧ allDone n (heard stream)) := by
  have h := inv_collect stream (inv_start (M := M) n)
  simp only [List.nil_append, false_or] at h
  refine ⟨?_, ?_⟩
  · show (missing _).msgs = _
    rw [missing, (missing_fold _ _).1, h.msgs]
  · show (missing _).first = none ↔ _
    rw [missing_first, h.first, h.seen, allDone, perm_range_iff]
    simp only [List.mem_map, List.mem_range, forall_exists_index, and_imp, forall_apply_eq_imp_iff₂, List.any_eq_true,
      beq_iff_eq, Classical.not_not]
    constructor
    · rintro ⟨⟨a, b, c⟩, d⟩
      exact ⟨a, ⟨c, fun r hr => (b r hr).1, fun i hi => d i hi⟩, fun r hr => (b r hr).2⟩
    · rintro ⟨a, ⟨c, b, d⟩, e⟩
      exact ⟨⟨a, fun r hr => ⟨b r hr, e r hr⟩, c⟩, fun i hi => d i hi⟩

/-! ## C124 -/

/-- C124. When each expected partition reported success once and nothing else came, `commit` is called
with the message of each partition at its position, and the result of the query is the one of
`commit`; if `commit` fails, `abort` follows with the same messages. -/
theorem C124_commits (n : Nat) (stream : List (Except String (WBatch M))) (commit : List (Option M) → Except String Unit)
    (hc : clean stream) (hd : allDone n (heard stream)) :
    let messages := (List.range n).map (message (heard stream))
    run n stream commit =
      ((match commit messages with | .ok _ => [.commit messages] | .error _ => [.commit messages, .abort messages]),
       commit messages) := by
  obtain ⟨h1, h2⟩ := final_state n stream
  have h3 := h2.2 ⟨hc, hd⟩
  simp only [run, h3, h1]
  cases commit ((List.range n).map (message (heard stream))) <;> rfl

/-- C124. In every other case `commit` is not called, `abort` is called once with the messages known,
and the query fails. -/
theorem C124_aborts (n : Nat) (stream : List (Except String (WBatch M))) (commit : List (Option M) → Except String Unit)
    (h : ¬ (clean stream ∧ allDone n (heard stream))) :
    ∃ e, run n stream commit = ([.abort ((List.range n).map (message (heard stream)))], .error e) := by
  obtain ⟨h1, h2⟩ := final_state n stream
  cases hf : (missing (collect ⟨List.replicate n none, List.replicate n false, none⟩ stream)).first with
  | none => exact absurd (h2.1 hf) h
  | some e => exact ⟨e, by simp only [run, hf, h1]⟩

theorem decodeRow_keeps (s : CState M) (row : WRow M) (e : String) (h : s.first = some e) :
    (decodeRow s row).first = some e := by
  have hf : ∀ m, (s.fail m).first = some e := fun m => by simp [CState.fail, h]
  unfold decodeRow
  split
  · exact hf _
  · split
    · exact hf _
    · cases row.err with
      | none => exact h
      | some x => exact hf _

theorem collect_keeps (stream : List (Except String (WBatch M))) (s : CState M) (e : String)
    (h : s.first = some e) : (collect s stream).first = some e := by
  have hf : ∀ (s : CState M) m, s.first = some e → (s.fail m).first = some e :=
    fun s m h => by simp [CState.fail, h]
  induction stream generalizing s with
  | nil => exact h
  | cons x r ih =>
    cases x with
    | error m => exact hf s m h
    | ok b =>
      cases b with
      | bad m => exact ih _ (hf s m h)
      | rows l =>
        refine ih _ ?_
        clear ih
        induction l generalizing s with
        | nil => exact h
        | cons row l ih2 => exact ih2 _ (decodeRow_keeps s row e h)

theorem missing_keeps (s : CState M) (e : String) (h : s.first = some e) : (missing s).first = some e := by
  unfold missing
  generalize s.seen.zipIdx = l
  induction l generalizing s with
  | nil => exact h
  | cons x l ih =>
    rw [List.foldl_cons]
    apply ih
    split
    · exact h
    · simp [CState.fail, h]

/-- The query fails with the error of the partition whose failure arrived first, whatever arrives
after it. -/
theorem C124_first_error (n pid : Nat) (hp : pid < n) (msg : Option M) (e : String)
    (rest : List (Except String (WBatch M))) (commit : List (Option M) → Except String Unit) :
    (run n (.ok (.rows [⟨pid, msg, some e⟩]) :: rest) commit).2 =
      .error s!"Write failed for partition {pid}: {e}" := by
  have h0 : (decodeRow (⟨List.replicate n none, List.replicate n false, none⟩ : CState M)
      ⟨pid, msg, some e⟩).first = some s!"Write failed for partition {pid}: {e}" := by
    unfold decodeRow
    rw [if_neg (by simp; omega), if_neg (by simp [hp])]
    rfl
  have h1 := missing_keeps _ _ (collect_keeps rest _ _ h0)
  unfold run
  simp only [collect, List.foldl_cons, List.foldl_nil, h1]

example : (run 2 [.ok (.rows [⟨1, none, some "disk full"⟩]), .ok (.rows [⟨0, none, some "later"⟩])]
    (fun _ : List (Option Nat) => .ok ())).2 = .error "Write failed for partition 1: disk full" :=
  C124_first_error 2 1 (by decide) none "disk full" _ _

/-! ## All partitions -/

theorem pump_complete (input : List (In R)) (h : complete input) : pump input = (allRows input, .finished) := by
  induction input with
  | nil => rfl
  | cons i r ih =>
    obtain ⟨b, rfl⟩ := h i (by simp)
    have := ih (fun x hx => h x (by simp [hx]))
    simp [pump, this, allRows]

theorem pump_incomplete (input : List (In R)) (h : ¬ complete input) (hp : In.panic ∉ input) :
    ∃ e, (pump input).2 = .raised e := by
  induction input with
  | nil => exact absurd (fun i hi => by simp at hi) h
  | cons i r ih =>
    match i with
    | .batch b =>
      refine ih (fun hc => h ?_) (fun hm => hp (List.mem_cons_of_mem _ hm))
      intro x hx
      rcases List.mem_cons.1 hx with rfl | hx
      · exact ⟨b, rfl⟩
      · exact hc x hx
    | .err e => exact ⟨e, rfl⟩
    | .panic => exact absurd (by simp) hp

theorem writeResult_pid (writer : List R → Except String (Option M)) (p : Nat) (input : List (In R)) :
    (writeResult writer p input).pid = p := by
  unfold writeResult
  split
  · rfl
  · split <;> rfl

theorem writeResult_ok (writer : List R → Except String (Option M)) (p : Nat) (input : List (In R)) (hp : In.panic ∉ input) :
    (writeResult writer p input).err = none ↔ complete input ∧ ∃ m, writer (allRows input) = .ok m := by
  by_cases hc : complete input
  · simp only [writeResult, pump_complete input hc]
    cases hw : writer (allRows input) with
    | ok m => simp [hc]
    | error e => simp
  · obtain ⟨e, he⟩ := pump_incomplete input hc hp
    have hr : writeResult writer p input = ⟨p, none, some e⟩ := by
      unfold writeResult
      rcases hpp : pump input with ⟨a, b⟩
      rw [hpp] at he
      simp only at he
      subst he
      rfl
    rw [hr]
    simp [hc]

theorem writeResult_msg (writer : List R → Except String (Option M)) (p : Nat) (input : List (In R)) (hc : complete input)
    (m : Option M) (hm : writer (allRows input) = .ok m) : writeResult writer p input = ⟨p, m, none⟩ := by
  simp only [writeResult, pump_complete input hc, hm]

theorem heard_singles (rows : List (WRow M)) :
    heard (rows.map (fun r => Except.ok (WBatch.rows [r]))) = rows ∧
    clean (rows.map (fun r => (Except.ok (WBatch.rows [r]) : Except String (WBatch M)))) := by
  induction rows with
  | nil => exact ⟨rfl, trivial⟩
  | cons r rows ih => exact ⟨by simp [heard, ih.1], ih.2⟩

theorem pids_results (writer : List R → Except String (Option M)) (inputs : List (List (In R))) :
    (writeResults writer inputs).map (·.pid) = List.range inputs.length := by
  unfold writeResults
  rw [List.map_map]
  have : ((fun r : WRow M => r.pid) ∘ fun x : List (In R) × Nat => writeResult writer x.2 x.1) = Prod.snd := by
    funext x; exact writeResult_pid writer x.2 x.1
  rw [this, List.zipIdx_map_snd, List.range_eq_range']

theorem message_unique (rows : List (WRow M)) (hn : (rows.map (·.pid)).Nodup) (r : WRow M) (hr : r ∈ rows)
    (he : r.err = none) : message rows r.pid = r.msg := by
  unfold message
  cases hf : rows.find? (fun x => x.pid == r.pid) with
  | none => exact absurd (List.find?_eq_none.1 hf r hr) (by simp)
  | some x =>
    have hx := List.mem_of_find?_eq_some hf
    have hp := List.find?_some hf
    simp only [beq_iff_eq] at hp
    obtain ⟨i, hi, hxi⟩ := List.getElem_of_mem hx
    obtain ⟨j, hj, hrj⟩ := List.getElem_of_mem hr
    have : i = j := by
      refine (List.getElem_inj (h₀ := by simpa using hi) (h₁ := by simpa using hj) hn).1 ?_
      simp [hxi, hrj, hp]
    subst this
    rw [hxi] at hrj
    subst hrj
    simp [he]

/-- C124, from the inputs of the partitions to the calls, when no input panics. `expected` is the
number of partitions at planning, and the results arrive in any order. `commit` is called exactly if
the number of partitions is the expected one, every input came to its end, and every `write`
returned. Missing for the full claim: inputs that panic, for which it is false. -/
theorem C124_committed_iff_all_written_partial (writer : List R → Except String (Option M)) (inputs : List (List (In R)))
    (hp : ∀ i ∈ inputs, In.panic ∉ i) (expected : Nat) (arrived : List (WRow M))
    (ha : arrived.Perm (writeResults writer inputs)) (commit : List (Option M) → Except String Unit) :
    (∃ m, Call.commit m ∈ (run expected (arrived.map (fun r => .ok (.rows [r]))) commit).1) ↔
      expected = inputs.length ∧ ∀ i ∈ inputs, complete i ∧ ∃ m, writer (allRows i) = .ok m := by
  obtain ⟨h1, h2⟩ := heard_singles arrived
  have hpids : (arrived.map (·.pid)).Perm (List.range inputs.length) := by
    rw [← pids_results writer inputs]; exact ha.map _
  have key : allDone expected arrived ↔
      expected = inputs.length ∧ ∀ i ∈ inputs, complete i ∧ ∃ m, writer (allRows i) = .ok m := by
    unfold allDone
    refine and_congr ⟨fun h => ?_, fun h => h ▸ hpids⟩ ⟨fun h i hi => ?_, fun h r hr => ?_⟩
    · have := (h.symm.trans hpids).length_eq
      simpa using this
    · obtain ⟨k, hk, rfl⟩ := List.getElem_of_mem hi
      refine (writeResult_ok writer k _ (hp _ hi)).1 (h _ (ha.mem_iff.2 ?_))
      exact List.mem_map.2 ⟨(inputs[k], k), List.mem_zipIdx_iff_getElem?.2 (by simp [hk]), rfl⟩
    · obtain ⟨x, hx, rfl⟩ := List.mem_map.1 (ha.mem_iff.1 hr)
      have hm : x.1 ∈ inputs := List.mem_of_getElem? (List.mem_zipIdx_iff_getElem?.1 hx)
      exact (writeResult_ok writer x.2 x.1 (hp _ hm)).2 (h _ hm)
  rw [← key]
  constructor
  · rintro ⟨m, hm⟩
    by_cases hd : allDone expected arrived
    · exact hd
    · obtain ⟨e, he⟩ := C124_aborts expected _ commit (fun h => hd (by rw [h1] at h; exact h.2))
      rw [he] at hm
      simp at hm
  · intro hd
    have := C124_commits expected _ commit h2 (by rw [h1]; exact hd)
    simp only at this
    rw [this]
    refine ⟨(List.range expected).map (message (heard (arrived.map (fun r => .ok (.rows [r]))))), ?_⟩
    split
    · exact List.mem_singleton.2 rfl
    · exact List.mem_cons_self ..

/-- C124. The messages are those the partitions returned, in the order of the partitions, whatever the
order of arrival. -/
theorem C124_messages_in_order (writer : List R → Except String (Option M)) (inputs : List (List (In R)))
    (messages : List (Option M)) (hl : messages.length = inputs.length)
    (hw : ∀ (k : Nat) (hk : k < inputs.length), complete inputs[k] ∧ writer (allRows inputs[k]) = .ok messages[k])
    (arrived : List (WRow M)) (ha : arrived.Perm (writeResults writer inputs))
    (commit : List (Option M) → Except String Unit) (hok : commit messages = .ok ()) :
    run inputs.length (arrived.map (fun r => .ok (.rows [r]))) commit = ([.commit messages], .ok ()) := by
  obtain ⟨h1, h2⟩ := heard_singles arrived
  have hres : ∀ (k : Nat) (hk : k < inputs.length), (⟨k, messages[k], none⟩ : WRow M) ∈ arrived := fun k hk => by
    refine ha.mem_iff.2 (List.mem_map.2 ⟨(inputs[k], k), List.mem_zipIdx_iff_getElem?.2 (by simp [hk]), ?_⟩)
    exact writeResult_msg writer k _ (hw k hk).1 _ (hw k hk).2
  have hpids : (arrived.map (·.pid)).Perm (List.range inputs.length) := by
    rw [← pids_results writer inputs]; exact ha.map _
  have hd : allDone inputs.length arrived := by
    refine ⟨hpids, fun r hr => ?_⟩
    obtain ⟨x, hx, rfl⟩ := List.mem_map.1 (ha.mem_iff.1 hr)
    have hx' := List.mem_zipIdx_iff_getElem?.1 hx
    obtain ⟨hk, hxe⟩ := List.getElem?_eq_some_iff.1 hx'
    rw [← hxe, writeResult_msg writer x.2 _ (hw _ hk).1 _ (hw _ hk).2]
  have hmsg : (List.range inputs.length).map (message arrived) = messages := by
    apply List.ext_getElem
    · simp [hl]
    · intro k hk1 hk2
      simp only [List.getElem_map, List.getElem_range]
      have hk : k < inputs.length := by simpa using hk1
      exact message_unique arrived (hpids.nodup_iff.2 List.nodup_range) _ (hres k hk) rfl
  have := C124_commits inputs.length _ commit h2 (by rw [h1]; exact hd)
  simp only [h1, hmsg, hok] at this
  exact this

/-- C124, refuted for a panic: the writer is given the rows before the panic as if they were all, and
the write is committed. -/
theorem C124_panic_is_end_of_data :
    let writer : List Nat → Except String (Option Nat) := fun rows => .ok (some rows.length)
    let input : List (In Nat) := [.batch [1, 2], .panic]
    run 1 ((writeResults writer [input]).map (fun r => .ok (.rows [r]))) (fun _ => .ok ()) = ([.commit [some 2]], .ok ()) := by
  rfl

/-! ## Examples -/

/-- Two partitions, the second reporting first. -/
example :
    let writer : List Nat → Except String (Option Nat) := fun rows => .ok (some rows.length)
    let inputs : List (List (In Nat)) := [[.batch [1, 2], .batch []], [.batch [3]]]
    run 2 ((writeResults writer inputs).reverse.map (fun r => .ok (.rows [r]))) (fun _ => .ok ()) =
      ([.commit [some 2, some 1]], .ok ()) ∧ (∀ i ∈ inputs, complete i) := by
  refine ⟨rfl, ?_⟩
  intro i hi j hj
  simp only [List.mem_cons, List.not_mem_nil, or_false] at hi
  rcases hi with rfl | rfl <;> simp only [List.mem_cons, List.not_mem_nil, or_false] at hj
  · rcases hj with rfl | rfl <;> exact ⟨_, rfl⟩
  · subst hj; exact ⟨_, rfl⟩

/-- A partition fails; the message of the other one is given to `abort`. -/
example :
    let writer : List Nat → Except String (Option Nat) := fun rows => .ok (some rows.length)
    let inputs : List (List (In Nat)) := [[.batch [1, 2], .err "lost"], [.batch [3]]]
    run 2 ((writeResults writer inputs).map (fun r => .ok (.rows [r]))) (fun _ => .ok ()) =
      ([.abort [none, some 1]], .error "Write failed for partition 0: lost") := by
  rfl

/-- The first report of a partition counts, a result is missing, and `commit` fails. -/
example :
    (run 2 [.ok (.rows [⟨0, some 7, none⟩, ⟨0, some 8, none⟩])] (fun _ => .ok ())).1 = [.abort [some (7 : Nat), none]] ∧
    (run 1 [.ok (.rows [⟨0, some (7 : Nat), none⟩])] (fun _ => .error "no")).1 = [.commit [some 7], .abort [some 7]] := by
  decide +kernel

end Verif.PySource.Write
