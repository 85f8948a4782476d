import Verif.Connect.ExecutorLive

/-!
# Reattachable execution: properties (C60, C61)
-/

namespace Verif.Connect

variable {α ρ : Type}

namespace Spec

/-- The rows in a list of responses, in order. -/
def rowsIn : List (Out α ρ) → List α
  | [] => []
  | o :: rest =>
    match o.body with
    | .batch rows => rows ++ rowsIn rest
    | _ => rowsIn rest

/-- The command results in a list of responses, in order. -/
def resultsIn : List (Out α ρ) → List ρ
  | [] => []
  | o :: rest =>
    match o.body with
    | .result r => r :: resultsIn rest
    | _ => resultsIn rest

/-- The client has received the completion marker. -/
def Completed (got : List (Out α ρ)) : Prop := ∃ o ∈ got, o.body = .complete

/-- A query or command as the server runs it: a reattachable operation keeps 128 responses. -/
def cfg (mode : Mode α ρ) (reattachable : Bool) (wireCap : Nat) : Cfg α ρ :=
  ⟨mode, reattachable, wireCap, if reattachable then 128 else 0⟩

end Spec

open Spec

theorem rowsIn_content (l : List (Out α ρ)) :
    rowsIn l = (contentOf l).filterMap Sum.getLeft? := by
  induction l with
  | nil => rfl
  | cons o l ih =>
    have : contentOf (o :: l) = o.body.content ++ contentOf l := by simp [contentOf]
    rw [this, List.filterMap_append, ← ih, rowsIn]
    cases o.body with
    | batch rows =>
      simp only [Body.content, List.filterMap_map]
      congr 1
      induction rows with
      | nil => rfl
      | cons r rows ih => simpa using ih
    | _ => simp [Body.content]

theorem resultsIn_content (l : List (Out α ρ)) :
    resultsIn l = (contentOf l).filterMap Sum.getRight? := by
  induction l with
  | nil => rfl
  | cons o l ih =>
    have : contentOf (o :: l) = o.body.content ++ contentOf l := by simp [contentOf]
    rw [this, List.filterMap_append, ← ih, resultsIn]
    cases o.body with
    | batch rows =>
      simp only [Body.content]
      have : (rows.map (Sum.inl : α → α ⊕ ρ)).filterMap Sum.getRight? = [] := by
        induction rows with
        | nil => rfl
        | cons r rows ih => simp [ih]
      rw [this, List.nil_append]
    | _ => simp [Body.content]

theorem total_rows (all : List (List α)) :
    ((Mode.query : Mode α ρ).total all).filterMap Sum.getLeft? = all.flatten := by
  simp only [Mode.total]
  generalize all.flatten = l
  induction l with
  | nil => rfl
  | cons r l ih => simpa using ih

theorem total_results (f : List (List α) → Option (Option ρ)) (all : List (List α)) :
    ((Mode.command f).total all).filterMap Sum.getRight? = ((f all).getD none).toList := by
  simp only [Mode.total]
  cases f all with
  | none => rfl
  | some r => cases r <;> rfl

theorem room_cfg (mode : Mode α ρ) (re : Bool) (w : Nat) (hw : re = true → w ≤ 126) :
    (Spec.cfg mode re w).Room := by
  intro h
  have h : re = true := h
  have := hw h
  simp only [Spec.cfg, h, if_true]
  omega

theorem got_prefix {c : Cfg α ρ} {s : Sys α ρ} (h : Flow c s) :
    ∃ rest, s.emitted = s.got ++ rest := ⟨_, h.eq⟩

theorem content_prefix {c : Cfg α ρ} {all : List (List α)} {bad : Bool} {s : Sys α ρ}
    (hf : Flow c s) (hd : Data c all bad s) :
    ∃ rest, contentOf s.got ++ rest = c.mode.total all := by
  obtain ⟨rest, he⟩ := got_prefix hf
  refine ⟨contentOf rest ++ c.mode.todo s.src s.held s.taken, ?_⟩
  rw [← List.append_assoc, ← contentOf_append, ← he]
  exact hd.sum

/-- C60: the rows a client of a query has received are at any time an initial part of the rows of
the query, in order and none twice, whatever happened to its connections.  Partial: for a
reattachable query this needs the transport to hold at most 126 responses; see
`C60_full_buffer_loses_rows`. -/
theorem C60_rows_in_order_partial (re : Bool) (w : Nat) (hw : re = true → w ≤ 126)
    (batches : List (List α)) (bad : Bool) (es : List Event) :
    let c : Cfg α ρ := Spec.cfg .query re w
    rowsIn (run c (init c batches bad) es).got <+: batches.flatten := by
  intro c
  have hr : c.Room := room_cfg _ _ _ hw
  have hf := flow_run hr es _ (flow_init c hr batches bad)
  have hd := data_run es _ (data_init c batches bad)
  obtain ⟨rest, he⟩ := content_prefix hf hd
  refine ⟨rest.filterMap Sum.getLeft?, ?_⟩
  rw [rowsIn_content, ← List.filterMap_append, he]
  exact total_rows batches

/-- C60: a client that has received the completion marker of a query has received all of its rows,
and the query did not fail.  Partial as `C60_rows_in_order_partial`. -/
theorem C60_complete_means_all_rows_partial (re : Bool) (w : Nat) (hw : re = true → w ≤ 126)
    (batches : List (List α)) (bad : Bool) (es : List Event) :
    let c : Cfg α ρ := Spec.cfg .query re w
    Completed (run c (init c batches bad) es).got →
      rowsIn (run c (init c batches bad) es).got = batches.flatten ∧ bad = false := by
  intro c hc
  have hr : c.Room := room_cfg _ _ _ hw
  have hf := flow_run hr es _ (flow_init c hr batches bad)
  have hd := data_run es _ (data_init c batches bad)
  obtain ⟨rest, he⟩ := got_prefix hf
  refine ⟨?_, ?_⟩
  · rw [rowsIn_content, hd.pre _ _ he hc]
    exact total_rows batches
  · have : HasComplete (run c (init c batches bad) es).emitted := by
      rw [he]
      exact hasComplete_append.2 (.inl hc)
    rw [← hd.bad]
    exact (hd.fin this).2.1

/-- C60: no response reaches the client twice, and none is skipped: the client has the responses
numbered from the first one on.  Partial as `C60_rows_in_order_partial`. -/
theorem C60_no_response_twice_partial (mode : Mode α ρ) (re : Bool) (w : Nat)
    (hw : re = true → w ≤ 126) (batches : List (List α)) (bad : Bool) (es : List Event) :
    let c : Cfg α ρ := Spec.cfg mode re w
    ∀ (i : Nat) (o : Out α ρ), (run c (init c batches bad) es).got[i]? = some o → o.id = i := by
  intro c i o h
  have hr : c.Room := room_cfg _ _ _ hw
  exact (got_id (flow_run hr es _ (flow_init c hr batches bad)) h).1

/-- C60: a command's result reaches the client at most once, is what the completion step made of
all the batches, and has been received when the completion marker is.  Partial as
`C60_rows_in_order_partial`. -/
theorem C60_command_result_partial (f : List (List α) → Option (Option ρ)) (re : Bool) (w : Nat)
    (hw : re = true → w ≤ 126) (batches : List (List α)) (bad : Bool) (es : List Event) :
    let c : Cfg α ρ := Spec.cfg (.command f) re w
    resultsIn (run c (init c batches bad) es).got <+: ((f batches).getD none).toList ∧
      (Completed (run c (init c batches bad) es).got →
        resultsIn (run c (init c batches bad) es).got = ((f batches).getD none).toList ∧
          f batches ≠ none ∧ bad = false) := by
  intro c
  have hr : c.Room := room_cfg _ _ _ hw
  have hf := flow_run hr es _ (flow_init c hr batches bad)
  have hd := data_run es _ (data_init c batches bad)
  refine ⟨?_, fun hc => ?_⟩
  · obtain ⟨rest, he⟩ := content_prefix hf hd
    refine ⟨rest.filterMap Sum.getRight?, ?_⟩
    rw [resultsIn_content, ← List.filterMap_append, he]
    exact total_results f batches
  · obtain ⟨rest, he⟩ := got_prefix hf
    have hC : HasComplete (run c (init c batches bad) es).emitted := by
      rw [he]
      exact hasComplete_append.2 (.inl hc)
    refine ⟨?_, ?_, ?_⟩
    · rw [resultsIn_content, hd.pre _ _ he hc]
      exact total_results f batches
    · intro hnone
      exact (errs_run (f := f) rfl hnone es _ (data_init c batches bad)
        (errs_init rfl batches bad)).noC hC
    · rw [← hd.bad]
      exact (hd.fin hC).2.1

/-- C60: the completion step of a command runs at most once, whatever happens. -/
theorem C60_completion_runs_once (c : Cfg α ρ) (batches : List (List α)) (bad : Bool)
    (es : List Event) : (run c (init c batches bad) es).runs ≤ 1 := by
  have := (data_run es _ (data_init c batches bad)).runs
  rw [this]
  split <;> omega

theorem emitted_head (c : Cfg α ρ) (s : Sys α ρ) (e : Event) :
    ∃ rest, (step c s e).emitted = s.emitted ++ rest := by
  have hc : ∀ (s : Sys α ρ) (k : Kont), ∃ rest, (continueWith c s k).emitted = s.emitted ++ rest := by
    intro s k
    cases k with
    | next e => exact ⟨[], by simp [continueWith]⟩
    | finish =>
      simp only [continueWith]
      split
      · exact ⟨_, rfl⟩
      · exact ⟨[], by simp⟩
    | done => exact ⟨[], by simp [continueWith]⟩
  have hb : ∀ (s : Sys α ρ), ∃ rest, (begin c s).emitted = s.emitted ++ rest := by
    intro s
    unfold begin
    split
    · exact ⟨_, rfl⟩
    · exact ⟨[], by simp⟩
  have same : ∀ s' : Sys α ρ, s'.emitted = s.emitted → ∃ rest, s'.emitted = s.emitted ++ rest :=
    fun s' h => ⟨[], by simp [h]⟩
  cases e with
  | work =>
    simp only [step, work]
    split
    · split
      · exact same _ rfl
      · split
        · split
          · exact hb _
          · exact same _ rfl
        · exact same _ rfl
    · split
      · exact same _ rfl
      · split
        · exact hc _ _
        · exact same _ rfl
    · unfold streamNext
      split
      · split
        · exact ⟨_, rfl⟩
        · exact same _ rfl
      · split
        · exact same _ rfl
        · unfold streamEnd
          split
          · split
            · exact ⟨_, rfl⟩
            · exact hc _ _
          · split
            · exact hc _ _
            · split
              · exact same _ rfl
              · exact hc { s with taken := true, held := [], runs := s.runs + 1 } _
              · exact ⟨_, rfl⟩
    · split
      · exact same _ rfl
      · split
        · exact same _ rfl
        · exact same _ rfl
    · exact same _ rfl
  | beat =>
    simp only [step, beat]
    split
    · exact ⟨_, rfl⟩
    · exact same _ rfl
  | stop =>
    simp only [step, stop]
    split <;> exact same _ rfl
  | resume =>
    simp only [step, resume]
    split
    · unfold startTask
      split
      · exact hb _
      · exact same _ rfl
    all_goals exact same _ rfl
  | reattach =>
    simp only [step, reattach]
    split
    · exact same _ rfl
    · split <;> exact same _ rfl
  | release i =>
    simp only [step, release]
    split
    · split <;> exact same _ rfl
    · exact same _ rfl
  | pull =>
    simp only [step, pull]
    split <;> exact same _ rfl
  | deliver =>
    simp only [step, deliver]
    split
    · split <;> exact same _ rfl
    · exact same _ rfl
  | lose => exact same _ rfl
  | drop => exact same _ rfl

theorem emitted_run (c : Cfg α ρ) (es : List Event) : ∀ s : Sys α ρ,
    ∃ rest, (run c s es).emitted = s.emitted ++ rest := by
  induction es with
  | nil => exact fun s => ⟨[], by simp [run]⟩
  | cons e es ih =>
    intro s
    obtain ⟨r1, h1⟩ := emitted_head c s e
    obtain ⟨r2, h2⟩ := ih (step c s e)
    exact ⟨r1 ++ r2, by rw [← List.append_assoc, ← h1]; exact h2⟩

/-- C60: the first response of a query is its schema.  Partial as `C60_rows_in_order_partial`. -/
theorem C60_schema_comes_first_partial (re : Bool) (w : Nat) (hw : re = true → w ≤ 126)
    (batches : List (List α)) (bad : Bool) (es : List Event) :
    let c : Cfg α ρ := Spec.cfg .query re w
    ∀ o, (run c (init c batches bad) es).got.head? = some o → o.body = .schema := by
  intro c o ho
  have hr : c.Room := room_cfg _ _ _ hw
  obtain ⟨rest, he⟩ := got_prefix (flow_run hr es _ (flow_init c hr batches bad))
  obtain ⟨rest', he'⟩ := emitted_run c es (init c batches bad)
  have h0 : (init c batches bad).emitted = [⟨0, .schema⟩] := rfl
  cases hg : (run c (init c batches bad) es).got with
  | nil => rw [hg] at ho; exact absurd ho (by simp)
  | cons o' l =>
    rw [hg] at ho he
    rw [he', h0] at he
    simp only [List.head?_cons, Option.some.injEq] at ho
    simp only [List.cons_append, List.nil_append, List.cons.injEq] at he
    rw [← ho, ← he.1]

/-- A query with two batches; the connection breaks after the first response, the client reattaches
and receives the rest once. -/
example :
    let c : Cfg Nat Unit := Spec.cfg .query true 4
    let s := run c (init c [[1, 2], [3]] false)
      (turns 1 ++ [.work, .work, .pull, .work, .lose, .drop, .work, .reattach, .resume] ++ turns 12)
    s.got.map (·.body) =
      [.schema, .batch [1, 2], .batch [3], .schema, .batch [], .complete] ∧
    rowsIn s.got = [1, 2, 3] ∧ Completed s.got :=
  ⟨by decide, by decide, ⟨⟨5, .complete⟩, by decide, rfl⟩⟩

/-- A command whose result is lost on the way and sent again; the completion step ran once. -/
example :
    let c : Cfg Nat Nat := Spec.cfg (.command fun l => some (some l.length)) true 4
    let s := run c (init c [[1, 2], [3]] false)
      ([.work, .beat, .work, .work, .work, .pull, .lose, .reattach, .stop, .resume] ++ turns 12)
    s.got.map (·.body) = [.heartbeat, .result 2, .complete] ∧ resultsIn s.got = [2] ∧ s.runs = 1 :=
  ⟨by decide, by decide, by decide⟩

/-- C60, the negation without the bound: with a transport that can hold 200 small responses, a
client whose connection breaks while more than 128 are on the way is sent the rest without the
first of them, is told that the result is complete, and is missing rows. -/
theorem C60_full_buffer_loses_rows :
    ∃ (w : Nat) (batches : List (List Nat)) (es : List Event),
      let c : Cfg Nat Unit := Spec.cfg .query true w
      let s := run c (init c batches false) es
      (s.got.any fun o => o.body == .complete) = true ∧ rowsIn s.got ≠ batches.flatten ∧
        ¬ rowsIn s.got <+: batches.flatten := by
  refine ⟨200, (List.range 131).map ([·]),
    (List.replicate 131 [Event.work, .work, .pull]).flatten ++
      [.lose, .drop, .work, .reattach, .resume] ++ turns 140, ?_, ?_, ?_⟩
  · decide +kernel
  · decide +kernel
  · rw [← List.isPrefixOf_iff_prefix]
    decide +kernel

/-! ## Resuming -/

theorem run_inv {c : Cfg α ρ} (hr : c.Room) (batches : List (List α)) (bad : Bool)
    (es : List Event) :
    Flow c (run c (init c batches bad) es) ∧ Data c batches bad (run c (init c batches bad) es) :=
  ⟨flow_run hr es _ (flow_init c hr batches bad), data_run es _ (data_init c batches bad)⟩

/-- What a connected client ends up with. -/
theorem live_completes {c : Cfg α ρ} {all : List (List α)} {bad : Bool} (hr : c.Room)
    (hcap : 1 ≤ c.wireCap) (hs : Succeeds c all bad) (s : Sys α ρ) (hf : Flow c s)
    (hd : Data c all bad s) (hc : Ctl c s) (hl : Live s) (n : Nat) (hn : phi s ≤ n) :
    contentOf (run c s (turns n)).got = c.mode.total all ∧
      (c.reattachable = true → HasComplete (run c s (turns n)).got) := by
  obtain ⟨hl', ⟨r, hpc⟩, hw, hch⟩ := drains c hcap n s hl hn
  have hf' := flow_run hr (turns n) s hf
  have hd' := data_run (turns n) s hd
  have hc' := ctl_run hs (turns n) s hd hc
  have hret : r = .completed := by
    cases r with
    | paused => exact absurd hpc hl'.pc
    | failed => exact absurd hpc hc'.nofail.2
    | completed => rfl
  subst hret
  have hgot : (run c s (turns n)).got = (run c s (turns n)).emitted := by
    rw [hf'.eq, hw, hch, hl'.lost, hpc]
    simp [pend]
  have hfin : Fin c (run c s (turns n)).src (run c s (turns n)).bad (run c s (turns n)).taken := by
    have := hd'.pcf
    unfold pcFin at this
    rw [hpc] at this
    exact this
  refine ⟨?_, fun hre => ?_⟩
  · have := hd'.sum
    rw [todo_fin hfin, List.append_nil] at this
    rw [hgot]
    exact this
  · rw [hgot]
    exact hc'.done hpc hre

theorem succeeds_query (re : Bool) (w : Nat) (batches : List (List α)) :
    Succeeds (Spec.cfg (.query : Mode α ρ) re w) batches false :=
  ⟨rfl, fun f hf => absurd hf (by simp [Spec.cfg])⟩

theorem startTask_live (c : Cfg α ρ) (s : Sys α ρ) (h1 : s.rxOpen = true) (h2 : s.attached = true)
    (h3 : s.lost = []) (h4 : s.exec = .running) : Live (startTask c s) := by
  unfold startTask
  split
  · unfold begin
    split
    · exact ⟨h1, h2, h3, by simp [emit], h4⟩
    · exact ⟨h1, h2, h3, by simp, h4⟩
  · exact ⟨h1, h2, h3, by simp, h4⟩

/-- C61: a client that stays connected receives every row of a query that does not fail, and the
completion marker if the query is reattachable. -/
theorem C61_connected_client_receives_all (re : Bool) (w : Nat) (hcap : 1 ≤ w)
    (hw : re = true → w ≤ 126) (batches : List (List α)) :
    let c : Cfg α ρ := Spec.cfg .query re w
    ∃ N, ∀ n, N ≤ n →
      rowsIn (run c (init c batches false) (turns n)).got = batches.flatten ∧
        (re = true → Completed (run c (init c batches false) (turns n)).got) := by
  intro c
  have hr : c.Room := room_cfg _ _ _ hw
  refine ⟨phi (init c batches false), fun n hn => ?_⟩
  have hl : Live (init c batches false) := startTask_live c _ rfl rfl rfl rfl
  obtain ⟨h1, h2⟩ := live_completes hr hcap (succeeds_query re w batches) _ (flow_init c hr batches false)
    (data_init c batches false) (ctl_init c batches false) hl n hn
  refine ⟨?_, h2⟩
  rw [rowsIn_content, h1]
  exact total_rows batches

theorem resume_live {c : Cfg α ρ} {s : Sys α ρ} (hre : c.reattachable = true)
    (hc : Ctl c s) (hnd : s.pc ≠ .returned .completed) :
    Live (run c s [.reattach, .stop, .resume]) := by
  have hidle : s.exec ≠ .idle := fun h => hnd (hc.idle h)
  have h1 : (reattach c s).exec = .pausing ∧ (reattach c s).pc = s.pc := by
    unfold reattach
    rw [if_neg (by simp [hre])]
    cases he : s.exec with
    | running => exact ⟨rfl, rfl⟩
    | pausing => exact ⟨he, rfl⟩
    | idle => exact absurd he hidle
    | failed => exact absurd he hc.nofailed
  obtain ⟨he, hp⟩ := h1
  have h2 : (stop (reattach c s)).exec = .pausing ∧
      (stop (reattach c s)).pc = .returned .paused := by
    cases hpc : s.pc with
    | replay o rest => simp [stop, he, hp, hpc]
    | put o k => simp [stop, he, hp, hpc]
    | next e => simp [stop, he, hp, hpc]
    | error => exact absurd hpc hc.nofail.1
    | returned r =>
      cases r with
      | paused => simp [stop, he, hp, hpc]
      | failed => exact absurd hpc hc.nofail.2
      | completed => exact absurd hpc hnd
  have h3 : run c s [.reattach, .stop, .resume] = resume c (stop (reattach c s)) := rfl
  rw [h3]
  unfold resume
  rw [h2.1, h2.2]
  exact startTask_live c _ rfl rfl rfl rfl

/-- C61: whatever has happened before, a client of a reattachable query that reattaches before the
server's task is over, and then stays connected, receives all rows and the completion marker.
Partial: the task must not be over, see `C61_finished_task_cannot_be_resumed`, and the transport
must be bounded as in C60. -/
theorem C61_resumes_partial (w : Nat) (hcap : 1 ≤ w) (hw : w ≤ 126) (batches : List (List α))
    (es : List Event) :
    let c : Cfg α ρ := Spec.cfg .query true w
    let s := run c (init c batches false) es
    s.pc ≠ .returned .completed →
      ∃ N, ∀ n, N ≤ n →
        Completed (run c s ([.reattach, .stop, .resume] ++ turns n)).got ∧
          rowsIn (run c s ([.reattach, .stop, .resume] ++ turns n)).got = batches.flatten := by
  intro c s hnd
  have hr : c.Room := room_cfg _ _ _ fun _ => hw
  have hs : Succeeds c batches false := succeeds_query true w batches
  obtain ⟨hf, hd⟩ := run_inv hr batches false es
  have hc := ctl_run hs es _ (data_init c batches false) (ctl_init c batches false)
  have hl : Live (run c s [.reattach, .stop, .resume]) := resume_live rfl hc hnd
  refine ⟨phi (run c s [.reattach, .stop, .resume]), fun n hn => ?_⟩
  rw [run_append]
  obtain ⟨h1, h2⟩ := live_completes hr hcap hs _ (flow_run hr _ _ hf) (data_run _ _ hd)
    (ctl_run hs _ _ hd hc) hl n hn
  refine ⟨h2 rfl, ?_⟩
  rw [rowsIn_content, h1]
  exact total_rows batches

/-- The same for a command whose completion step succeeds. -/
theorem C61_command_resumes_partial (w : Nat) (hcap : 1 ≤ w) (hw : w ≤ 126)
    (f : List (List α) → Option (Option ρ)) (batches : List (List α)) (hok : f batches ≠ none)
    (es : List Event) :
    let c : Cfg α ρ := Spec.cfg (.command f) true w
    let s := run c (init c batches false) es
    s.pc ≠ .returned .completed →
      ∃ N, ∀ n, N ≤ n →
        Completed (run c s ([.reattach, .stop, .resume] ++ turns n)).got ∧
          resultsIn (run c s ([.reattach, .stop, .resume] ++ turns n)).got =
            ((f batches).getD none).toList := by
  intro c s hnd
  have hr : c.Room := room_cfg _ _ _ fun _ => hw
  have hs : Succeeds c batches false := ⟨rfl, fun f' hf' => by
    have : f = f' := by simpa [c, Spec.cfg] using hf'
    rw [← this]
    exact hok⟩
  obtain ⟨hf, hd⟩ := run_inv hr batches false es
  have hc := ctl_run hs es _ (data_init c batches false) (ctl_init c batches false)
  have hl : Live (run c s [.reattach, .stop, .resume]) := resume_live rfl hc hnd
  refine ⟨phi (run c s [.reattach, .stop, .resume]), fun n hn => ?_⟩
  rw [run_append]
  obtain ⟨h1, h2⟩ := live_completes hr hcap hs _ (flow_run hr _ _ hf) (data_run _ _ hd)
    (ctl_run hs _ _ hd hc) hl n hn
  refine ⟨h2 rfl, ?_⟩
  rw [resultsIn_content, h1]
  exact total_results f batches

/-- A client that lost its connection in the middle of a query meets the hypothesis. -/
example :
    let c : Cfg Nat Unit := Spec.cfg .query true 4
    (run c (init c [[1], [2]] false) (turns 3 ++ [.lose, .drop])).pc ≠ .returned .completed := by
  decide

/-- A state from which nothing more reaches the client. -/
structure Dead (s : Sys α ρ) : Prop where
  pc : s.pc = .returned .completed
  att : s.attached = false
  exec : s.exec = .pausing ∨ s.exec = .idle

theorem dead_step {c : Cfg α ρ} (hre : c.reattachable = true) {s : Sys α ρ} (h : Dead s)
    (e : Event) : Dead (step c s e) ∧ (step c s e).got = s.got := by
  obtain ⟨h1, h2, h3⟩ := h
  have same : ∀ s', s' = s → Dead s' ∧ s'.got = s.got := by
    rintro s' rfl
    exact ⟨⟨h1, h2, h3⟩, rfl⟩
  cases e with
  | work => exact same _ (by simp [step, work, h1])
  | beat => exact same _ (by simp [step, beat, h1])
  | stop => exact same _ (by rcases h3 with h3 | h3 <;> simp [step, stop, h1, h3])
  | resume =>
    rcases h3 with h3 | h3
    · have : step c s .resume = { s with exec := .idle, reply := some .notFound } := by
        simp [step, resume, h1, h3]
      rw [this]
      exact ⟨⟨h1, h2, .inr rfl⟩, rfl⟩
    · exact same _ (by simp [step, resume, h1, h3])
  | reattach =>
    simp only [step, reattach, hre]
    rcases h3 with h3 | h3
    · rw [h3]
      exact ⟨⟨h1, h2, .inl h3⟩, rfl⟩
    · rw [h3]
      exact ⟨⟨h1, rfl, .inr rfl⟩, rfl⟩
  | release i =>
    have : release c s i = s := by
      unfold release
      rw [if_neg]
      rintro ⟨-, hx⟩
      rcases h3 with h3 | h3 <;> rw [h3] at hx <;> exact absurd hx (by simp)
    rw [show step c s (.release i) = s from this]
    exact ⟨⟨h1, h2, h3⟩, rfl⟩
  | pull =>
    simp only [step, pull]
    split
    · exact ⟨⟨h1, h2, h3⟩, rfl⟩
    · exact ⟨⟨h1, h2, h3⟩, rfl⟩
  | deliver =>
    simp only [step, deliver, h2]
    exact ⟨⟨h1, h2, h3⟩, rfl⟩
  | lose => exact ⟨⟨h1, rfl, h3⟩, rfl⟩
  | drop => exact ⟨⟨h1, h2, h3⟩, rfl⟩

/-- C61, the negation: once the server's task is over, a reattach request is answered with "not
found", and whatever the client does afterwards it receives nothing more, also when responses are
still missing. -/
theorem C61_finished_task_cannot_be_resumed (c : Cfg α ρ) (hre : c.reattachable = true)
    (s : Sys α ρ) (hpc : s.pc = .returned .completed) (hex : s.exec = .running) (es : List Event) :
    (run c s [.reattach, .resume]).reply = some .notFound ∧
      (run c s ([.reattach, .resume] ++ es)).got = s.got := by
  have h1 : run c s [.reattach] = { s with attached := false, exec := .pausing, reply := none } := by
    simp [run, step, reattach, hre, hex]
  have hd : Dead (run c s [.reattach]) := by
    rw [h1]
    exact ⟨hpc, rfl, .inl rfl⟩
  have hg : (run c s [.reattach]).got = s.got := by rw [h1]
  have key : ∀ (es : List Event) (s : Sys α ρ), Dead s → (run c s es).got = s.got := by
    intro es
    induction es with
    | nil => exact fun s _ => rfl
    | cons e es ih =>
      intro s h
      obtain ⟨h2, h3⟩ := dead_step hre h e
      exact (ih _ h2).trans h3
  refine ⟨?_, ?_⟩
  · show (resume c (run c s [.reattach])).reply = _
    rw [h1]
    simp [resume, hpc]
  · have : run c s ([.reattach, .resume] ++ es) = run c (run c s [.reattach]) (.resume :: es) := rfl
    rw [this, key _ _ hd, hg]

/-- C61: asking again gives the same answer. -/
theorem C61_not_found_again (c : Cfg α ρ) (hre : c.reattachable = true)
    (s : Sys α ρ) (hpc : s.pc = .returned .completed) (hex : s.exec = .running) :
    (run c s [.reattach, .resume, .reattach]).reply = some .notFound := by
  simp [run, step, reattach, resume, hre, hpc, hex]

/-- C60: a heartbeat, once sent, leaves the task waiting exactly as before: nothing was taken from
the results, nothing is held back, no completion was run. -/
theorem C60_heartbeat_changes_nothing (c : Cfg α ρ) (s : Sys α ρ) (e : Bool) (hpc : s.pc = .next e)
    (hchan : s.chan = []) (hrx : s.rxOpen = true) :
    let s' := run c s [.beat, .work]
    s'.pc = s.pc ∧ s'.src = s.src ∧ s'.bad = s.bad ∧ s'.held = s.held ∧ s'.taken = s.taken ∧ s'.runs = s.runs ∧
      s'.exec = s.exec ∧ s'.chan.length = 1 ∧
      ∀ x ∈ s'.chan, ∃ o, x = .out o ∧ o.body = .heartbeat := by
  simp [run, step, beat, hpc, emit, work, hchan, hrx, continueWith]

/-- A query that has sent its schema and waits for a batch while the timer fires. -/
example :
    let c : Cfg Nat Unit := Spec.cfg .query true 8
    let s := run c (init c [[1, 2]] false) [.work, .pull]
    s.pc = .next true ∧ s.chan = [] ∧ s.rxOpen = true ∧
      (run c s [.beat, .work]).chan.length = 1 := by decide

/-- C61, a witness: a query of two batches, all of whose responses were handed to the transport
before the connection broke.  The client has received nothing and can never receive anything, and
the query is not executed again. -/
theorem C61_last_responses_are_lost :
    ∃ (batches : List (List Nat)) (es : List Event),
      let c : Cfg Nat Unit := Spec.cfg .query true 8
      let s := run c (init c batches false) es
      batches.flatten = [1, 2, 3] ∧
        ∀ es', (run c s ([.reattach, .resume] ++ es')).got = [] ∧
          (run c s [.reattach, .resume]).reply = some .notFound := by
  refine ⟨[[1, 2], [3]], (List.replicate 10 [Event.work, .pull]).flatten ++ [.lose, .drop], rfl,
    fun es' => ?_⟩
  have h := C61_finished_task_cannot_be_resumed (Spec.cfg (.query : Mode Nat Unit) true 8) rfl
    (run (Spec.cfg .query true 8) (init (Spec.cfg .query true 8) [[1, 2], [3]] false)
      ((List.replicate 10 [Event.work, .pull]).flatten ++ [.lose, .drop])) (by decide) (by decide) es'
  exact ⟨h.2, h.1⟩

end Verif.Connect
