import Verif.Exec.Pool
import Mathlib.Data.List.Induction

/-!
# Properties of identifiers (C22), status reports (C21) and workers (C32, C35, C36)
-/

namespace Verif.Exec.Pool

/-! ## C22 -/

theorem generateMany_getElem? (n next i : Nat) (hi : i < n) :
    (generateMany n next)[i]? = some (if next + i + 1 ≤ u64Max then some (next + i) else none) := by
  induction n generalizing next i with
  | zero => omega
  | succ n ih =>
    cases i with
    | zero => simp only [generateMany, generate, List.getElem?_cons_zero]; split <;> simp_all
    | succ i =>
      simp only [generateMany, List.getElem?_cons_succ]
      rw [ih _ _ (by omega)]
      unfold generate
      split
      · simp only [show next + 1 + i = next + (i + 1) by omega]
      · rename_i h
        rw [if_neg (by omega), if_neg (by omega)]

/-- C22: identifiers handed out by one generator are pairwise different and increasing, never
zero, and fit in 64 bits, however many are requested. -/
theorem C22_identifiers_increase (n i j a b : Nat) (hij : i < j) (hj : j < n)
    (ha : (generateMany n firstId)[i]? = some (some a))
    (hb : (generateMany n firstId)[j]? = some (some b)) :
    a < b ∧ 0 < a ∧ b < 2 ^ 64 := by
  rw [generateMany_getElem? n _ i (by omega)] at ha
  rw [generateMany_getElem? n _ j hj] at hb
  unfold u64Max firstId at *
  split at ha
  · split at hb
    · simp at ha hb; omega
    · simp at hb
  · simp at ha

/-- C22: a request fails only when all 64-bit identifiers have been handed out, and from then on
every request fails: identifiers never wrap around. -/
theorem C22_exhaustion_is_an_error (n i : Nat) (hi : i < n) :
    (generateMany n firstId)[i]? = some none ↔ 2 ^ 64 - 2 ≤ i := by
  rw [generateMany_getElem? n _ i hi]
  unfold u64Max firstId
  split
  · simp; omega
  · simp; omega

example : generateMany 3 firstId = [some 1, some 2, some 3] := by decide

example : generateMany 3 (u64Max - 1) = [some (u64Max - 1), none, none] := by decide

/-! ## C21 -/

/-- The report is newer than every report of the same attempt in `rs`. Reports without a sequence
number are made by the driver itself and are not ordered. -/
def Spec.Newest {α : Type} (rs : List (Report α)) (r : Report α) : Prop :=
  ∀ q, r.sequence = some q → ∀ r' ∈ rs, r'.key = r.key → ∀ q', r'.sequence = some q' → q' < q

/-- `seqs` after a sequence of reports. -/
def seqsAfter {α : Type} : List (Report α) → (Nat → Option Nat) → (Nat → Option Nat)
  | [], seqs => seqs
  | r :: rs, seqs => seqsAfter rs (accept seqs r).2

theorem applied_append {α : Type} (rs rs' : List (Report α)) (seqs : Nat → Option Nat) :
    applied (rs ++ rs') seqs = applied rs seqs ++ applied rs' (seqsAfter rs seqs) := by
  induction rs generalizing seqs with
  | nil => rfl
  | cons r rs ih =>
    simp only [List.cons_append, applied, seqsAfter]
    split <;> simp [ih]

theorem seqsAfter_append {α : Type} (rs rs' : List (Report α)) (seqs : Nat → Option Nat) :
    seqsAfter (rs ++ rs') seqs = seqsAfter rs' (seqsAfter rs seqs) := by
  induction rs generalizing seqs with
  | nil => rfl
  | cons r rs ih => simp [seqsAfter, ih]

/-- The stored number of an attempt is the largest received. -/
theorem seqsAfter_max {α : Type} (rs : List (Report α)) (k : Nat) :
    (∀ r ∈ rs, r.key = k → ∀ q, r.sequence = some q →
      ∃ m, seqsAfter rs (fun _ => none) k = some m ∧ q ≤ m) ∧
    (∀ m, seqsAfter rs (fun _ => none) k = some m →
      ∃ r ∈ rs, r.key = k ∧ r.sequence = some m) := by
  induction rs using List.reverseRecOn with
  | nil => simp [seqsAfter]
  | append_singleton rs x ih =>
    obtain ⟨ih1, ih2⟩ := ih
    rw [seqsAfter_append]
    generalize seqsAfter rs (fun _ => none) = sq at *
    simp only [seqsAfter, accept]
    cases hx : x.sequence with
    | none =>
      refine ⟨fun r hr hk q hq => ?_, fun m hm => ?_⟩
      · rcases List.mem_append.mp hr with hr | hr
        · exact ih1 r hr hk q hq
        · simp at hr; subst hr; rw [hx] at hq; cases hq
      · obtain ⟨r, hr, h⟩ := ih2 m hm
        exact ⟨r, List.mem_append_left _ hr, h⟩
    | some q0 =>
      by_cases ha : (sq x.key).any (fun s => decide (q0 ≤ s)) = true
      · simp only [ha, if_true]
        refine ⟨fun r hr hk q hq => ?_, fun m hm => ?_⟩
        · rcases List.mem_append.mp hr with hr | hr
          · exact ih1 r hr hk q hq
          · simp at hr; subst hr
            rw [hx] at hq
            obtain rfl := Option.some.inj hq
            subst hk
            cases hsq : sq r.key with
            | none => rw [hsq] at ha; simp at ha
            | some m => rw [hsq] at ha; exact ⟨m, rfl, by simpa using ha⟩
        · obtain ⟨r, hr, h⟩ := ih2 m hm
          exact ⟨r, List.mem_append_left _ hr, h⟩
      · simp only [ha, Bool.false_eq_true, if_false]
        refine ⟨fun r hr hk q hq => ?_, fun m hm => ?_⟩
        · by_cases hkx : k = x.key
          · subst hkx
            simp only [if_true]
            refine ⟨q0, rfl, ?_⟩
            rcases List.mem_append.mp hr with hr | hr
            · obtain ⟨m, hm, hle⟩ := ih1 r hr hk q hq
              rw [hm] at ha
              simp at ha
              omega
            · simp at hr; subst hr
              rw [hx] at hq
              obtain rfl := Option.some.inj hq
              exact Nat.le_refl _
          · simp only [hkx, if_false]
            rcases List.mem_append.mp hr with hr | hr
            · exact ih1 r hr hk q hq
            · simp at hr; subst hr; exact absurd hk.symm hkx
        · by_cases hkx : k = x.key
          · subst hkx
            simp only [if_true, Option.some.injEq] at hm
            exact ⟨x, by simp, rfl, by rw [hx, hm]⟩
          · simp only [hkx, if_false] at hm
            obtain ⟨r, hr, h⟩ := ih2 m hm
            exact ⟨r, List.mem_append_left _ hr, h⟩

/-- C21: whatever was received before, a report is applied exactly when it is newer than every
report of the same attempt received so far; in particular a repeated report is not applied. -/
theorem C21_applied_iff_newest {α : Type} (rs : List (Report α)) (r : Report α) :
    (Spec.Newest rs r → applied (rs ++ [r]) (fun _ => none) = applied rs (fun _ => none) ++ [r]) ∧
    (¬ Spec.Newest rs r → applied (rs ++ [r]) (fun _ => none) = applied rs (fun _ => none)) := by
  obtain ⟨h1, h2⟩ := seqsAfter_max rs r.key
  rw [applied_append]
  generalize seqsAfter rs (fun _ => none) = sq at *
  simp only [applied, accept]
  obtain hq | ⟨q, hq⟩ := Option.eq_none_or_eq_some r.sequence
  · refine ⟨fun _ => by simp [hq], fun hn => ?_⟩
    exact absurd (fun q hq' => by rw [hq] at hq'; cases hq') hn
  · simp only [hq]
    refine ⟨fun hn => ?_, fun hn => ?_⟩
    · have : ¬ (sq r.key).any (fun s => decide (q ≤ s)) = true := by
        cases hs : sq r.key with
        | none => simp
        | some m =>
          obtain ⟨r', hr', hk, hq'⟩ := h2 m hs
          have := hn q hq r' hr' hk m hq'
          simp; omega
      simp [this]
    · have : (sq r.key).any (fun s => decide (q ≤ s)) = true := by
        by_contra hc
        apply hn
        intro q0 hq0 r' hr' hk q' hq'
        rw [hq] at hq0
        obtain rfl := Option.some.inj hq0
        obtain ⟨m, hm, hle⟩ := h1 r' hr' hk q' hq'
        rw [hm] at hc
        simp at hc
        omega
      simp [this]

/-- C21: in any delivery order, the last applied (numbered) report of an attempt is the one with
the largest number received. -/
theorem C21_last_applied_is_newest {α : Type} (rs : List (Report α)) (k q : Nat) (r : Report α)
    (hr : r ∈ rs) (hk : r.key = k) (hq : r.sequence = some q) :
    ∃ l m, ((applied rs (fun _ => none)).filter
        (fun x => decide (x.key = k) && x.sequence.isSome)).getLast? = some l ∧
      l ∈ rs ∧ l.sequence = some m ∧ q ≤ m := by
  induction rs using List.reverseRecOn generalizing r q with
  | nil => cases hr
  | append_singleton rs x ih =>
    obtain ⟨hyes, hno⟩ := C21_applied_iff_newest rs x
    by_cases hn : Spec.Newest rs x
    · rw [hyes hn, List.filter_append]
      by_cases hx : x.key = k ∧ x.sequence.isSome = true
      · obtain ⟨m, hm⟩ := Option.isSome_iff_exists.mp hx.2
        refine ⟨x, m, by simp [hx], by simp, hm, ?_⟩
        rcases List.mem_append.mp hr with hr | hr
        · exact Nat.le_of_lt (hn m hm r hr (by rw [hk, hx.1]) q hq)
        · simp at hr; subst hr; rw [hq] at hm; exact Nat.le_of_eq (Option.some.inj hm)
      · have hf : [x].filter (fun x => decide (x.key = k) && x.sequence.isSome) = [] := by
          simp only [List.filter_eq_nil_iff, List.mem_singleton, forall_eq, Bool.and_eq_true,
            decide_eq_true_eq]
          exact hx
        rw [hf, List.append_nil]
        rcases List.mem_append.mp hr with hr | hr
        · obtain ⟨l, m, h1, h2, h3⟩ := ih q r hr hk hq
          exact ⟨l, m, h1, List.mem_append_left _ h2, h3⟩
        · simp at hr; subst hr
          exact absurd ⟨hk, by rw [hq]; rfl⟩ hx
    · rw [hno hn]
      rcases List.mem_append.mp hr with hr | hr
      · obtain ⟨l, m, h1, h2, h3⟩ := ih q r hr hk hq
        exact ⟨l, m, h1, List.mem_append_left _ h2, h3⟩
      · simp at hr; subst hr
        unfold Spec.Newest at hn
        push Not at hn
        obtain ⟨q0, hq0, r', hr', hk', q', hq', hle⟩ := hn
        rw [hq] at hq0
        obtain rfl := Option.some.inj hq0
        obtain ⟨l, m, h1, h2, h3, h4⟩ := ih q' r' hr' (by rw [hk', hk]) hq'
        exact ⟨l, m, h1, List.mem_append_left _ h2, h3, by omega⟩

example : applied [⟨1, some 2, "running"⟩, ⟨1, some 1, "created"⟩, ⟨2, some 1, "x"⟩,
    ⟨1, some 2, "running"⟩, ⟨1, some 3, "done"⟩] (fun _ => none) =
    [⟨1, some 2, "running"⟩, ⟨2, some 1, "x"⟩, ⟨1, some 3, "done"⟩] := by decide

/-! ## Workers -/

theorem run_append (o : Options) (a b : List Ev) (s : State) :
    State.run o (a ++ b) s = State.run o b (State.run o a s) := by
  simp [State.run, List.foldl_append]

theorem set_cases {w : List WState} {i j : Nat} {x y : WState} (h : (w.set i x)[j]? = some y) :
    (i = j ∧ y = x) ∨ (i ≠ j ∧ w[j]? = some y) := by
  by_cases hij : i = j
  · subst hij
    have hlt : i < w.length := by
      have := (List.getElem?_eq_some_iff.mp h).1
      simpa using this
    rw [List.getElem?_set_self hlt] at h
    exact Or.inl ⟨rfl, (Option.some.inj h).symm⟩
  · rw [List.getElem?_set_ne hij] at h
    exact Or.inr ⟨hij, h⟩

/-- How one step may change the state of a worker. -/
def Spec.Allowed : WState → WState → Prop
  | .pending, _ => True
  | .running _ _, .running _ _ => True
  | .running _ _, .completed => True
  | .completed, .completed => True
  | .failed, .failed => True
  | _, _ => False

theorem allowed_refl (w : WState) : Spec.Allowed w w := by cases w <;> trivial

theorem allowed_trans {a b c : WState} (h1 : Spec.Allowed a b) (h2 : Spec.Allowed b c) :
    Spec.Allowed a c := by
  cases a <;> cases b <;> cases c <;> simp_all [Spec.Allowed]

theorem set_allowed {w : List WState} {i j : Nat} {x y : WState} (hi : ∀ z, w[i]? = some z → Spec.Allowed z x)
    (hj : w[j]? = some y) : ∃ y', (w.set i x)[j]? = some y' ∧ Spec.Allowed y y' := by
  by_cases hij : i = j
  · subst hij
    have hlt : i < w.length := (List.getElem?_eq_some_iff.mp hj).1
    exact ⟨x, List.getElem?_set_self hlt, hi y hj⟩
  · exact ⟨y, by rw [List.getElem?_set_ne hij]; exact hj, allowed_refl y⟩

theorem stop_allowed (s : State) (i j : Nat) (w : WState) (hj : s.workers[j]? = some w) :
    ∃ w', (s.stop i).workers[j]? = some w' ∧ Spec.Allowed w w' := by
  unfold State.stop
  split
  · rename_i hi
    exact set_allowed (fun z hz => by rw [hi] at hz; obtain rfl := Option.some.inj hz; trivial) hj
  · rename_i hi
    exact set_allowed (fun z hz => by rw [hi] at hz; obtain rfl := Option.some.inj hz; trivial) hj
  · exact ⟨w, hj, allowed_refl w⟩

theorem probe_allowed (s : State) (p : Probe) (j : Nat) (w : WState) (hj : s.workers[j]? = some w) :
    ∃ w', (s.probe p).workers[j]? = some w' ∧ Spec.Allowed w w' := by
  cases p with
  | pending i =>
    simp only [State.probe]
    split
    · rename_i hi
      exact set_allowed (fun z hz => by rw [hi] at hz; obtain rfl := Option.some.inj hz; trivial) hj
    · exact ⟨w, hj, allowed_refl w⟩
  | idle i t =>
    simp only [State.probe]
    split
    · split
      · exact stop_allowed s i j w hj
      · exact ⟨w, hj, allowed_refl w⟩
    · exact ⟨w, hj, allowed_refl w⟩
  | lost i t =>
    simp only [State.probe]
    split
    · split
      · exact stop_allowed s i j w hj
      · exact ⟨w, hj, allowed_refl w⟩
    · exact ⟨w, hj, allowed_refl w⟩

theorem step_allowed (o : Options) (s : State) (e : Ev) (j : Nat) (w : WState)
    (hj : s.workers[j]? = some w) :
    ∃ w', (s.step o e).workers[j]? = some w' ∧ Spec.Allowed w w' := by
  have hsame : ∃ w', s.workers[j]? = some w' ∧ Spec.Allowed w w' := ⟨w, hj, allowed_refl w⟩
  cases e with
  | tick d => exact hsame
  | start =>
    refine ⟨w, ?_, allowed_refl w⟩
    simp only [State.step, State.start]
    rw [List.getElem?_append_left (List.getElem?_eq_some_iff.mp hj).1]; exact hj
  | register i =>
    simp only [State.step, State.register]
    split
    · rename_i hi
      exact set_allowed (fun z hz => by rw [hi] at hz; obtain rfl := Option.some.inj hz; trivial) hj
    · exact hsame
  | heartbeat i =>
    simp only [State.step, State.heartbeat]
    split
    · rename_i hi
      exact set_allowed (fun z hz => by rw [hi] at hz; obtain rfl := Option.some.inj hz; trivial) hj
    · exact hsame
  | activity i =>
    simp only [State.step, State.activity]
    split
    · rename_i hi
      exact set_allowed (fun z hz => by rw [hi] at hz; obtain rfl := Option.some.inj hz; trivial) hj
    · exact hsame
  | setBusy i b => exact hsame
  | deliver k =>
    simp only [State.step]
    split
    · split
      · exact probe_allowed _ _ j w hj
      · exact hsame
    · exact hsame
  | stop i => exact stop_allowed s i j w hj

theorem run_allowed (o : Options) (es : List Ev) (s : State) (j : Nat) (w : WState)
    (hj : s.workers[j]? = some w) :
    ∃ w', (s.run o es).workers[j]? = some w' ∧ Spec.Allowed w w' := by
  induction es generalizing s w with
  | nil => exact ⟨w, hj, allowed_refl w⟩
  | cons e es ih =>
    obtain ⟨w1, h1, ha⟩ := step_allowed o s e j w hj
    obtain ⟨w2, h2, hb⟩ := ih (s.step o e) w1 h1
    exact ⟨w2, h2, allowed_trans ha hb⟩

/-- C32: once a worker was stopped or declared failed it stays so under its identifier, whatever
happens: it never registers or runs again. -/
theorem C32_ended_worker_never_runs_again (o : Options) (es more : List Ev) (i : Nat) (w : WState)
    (hw : w = .completed ∨ w = .failed)
    (h : (State.init.run o es).workers[i]? = some w) :
    (State.init.run o (es ++ more)).workers[i]? = some w ∧
      ((State.init.run o (es ++ more)).register o i).1 = false := by
  obtain ⟨w', h', ha⟩ := run_allowed o more _ i w h
  have : w' = w := by
    rcases hw with rfl | rfl <;> cases w' <;> simp_all [Spec.Allowed]
  subst this
  rw [run_append]
  refine ⟨h', ?_⟩
  unfold State.register
  rw [h']
  rcases hw with rfl | rfl <;> rfl

/-- C32: a worker registers at most once. -/
theorem C32_registers_once (o : Options) (es more : List Ev) (i : Nat)
    (h : ((State.init.run o es).register o i).1 = true) :
    ((State.init.run o (es ++ .register i :: more)).register o i).1 = false := by
  rw [show es ++ .register i :: more = es ++ ([.register i] ++ more) by rfl, run_append, run_append]
  have h1 : (State.run o [.register i] (State.init.run o es)).workers[i]? =
      some (.running (State.init.run o es).now (State.init.run o es).now) := by
    simp only [State.run, List.foldl_cons, List.foldl_nil, State.step]
    unfold State.register at h ⊢
    split
    · rename_i hi
      exact List.getElem?_set_self (List.getElem?_eq_some_iff.mp hi).1
    · rename_i hn
      split at h
      · rename_i hi; exact absurd hi (hn · )
      · cases h
  obtain ⟨w', h', ha⟩ := run_allowed o more _ i _ h1
  unfold State.register
  rw [h']
  cases w' <;> simp_all [Spec.Allowed]

theorem probe_length (s : State) (p : Probe) : (s.probe p).workers.length = s.workers.length := by
  cases p <;> simp only [State.probe] <;> split <;> (try split) <;> (try rfl) <;>
    (try (unfold State.stop; split <;> simp)) <;> simp

/-- C32: only workers that were started can register. -/
theorem C32_registers_only_after_start (o : Options) (es : List Ev) (i : Nat)
    (h : ((State.init.run o es).register o i).1 = true) : i < es.count .start := by
  have hlen : ∀ (es : List Ev) (s : State),
      (s.run o es).workers.length = s.workers.length + es.count .start := by
    intro es
    induction es with
    | nil => intro s; rfl
    | cons e es ih =>
      intro s
      show ((s.step o e).run o es).workers.length = _
      rw [ih]
      cases e with
      | start => simp [State.step, State.start]; omega
      | tick d => simp [State.step]
      | register i =>
        simp only [State.step, State.register, List.count_cons_of_ne, ne_eq, reduceCtorEq,
          not_false_eq_true]
        split <;> simp
      | heartbeat i =>
        simp only [State.step, State.heartbeat, List.count_cons_of_ne, ne_eq, reduceCtorEq,
          not_false_eq_true]
        split <;> simp
      | activity i =>
        simp only [State.step, State.activity, List.count_cons_of_ne, ne_eq, reduceCtorEq,
          not_false_eq_true]
        split <;> simp
      | setBusy i b => simp [State.step]
      | deliver k =>
        simp only [State.step, List.count_cons_of_ne, ne_eq, reduceCtorEq, not_false_eq_true]
        split
        · split
          · rw [probe_length]
          · rfl
        · rfl
      | stop i =>
        simp only [State.step, State.stop, List.count_cons_of_ne, ne_eq, reduceCtorEq,
          not_false_eq_true]
        split <;> simp
  unfold State.register at h
  split at h
  · rename_i hi
    have := (List.getElem?_eq_some_iff.mp hi).1
    rw [hlen es State.init] at this
    simpa [State.init] using this
  · cases h

example : ((State.init.run ⟨5, 10, 7⟩ [.start, .start, .tick 5, .deliver 0]).workers = [.failed, .pending]) ∧
    ((State.init.run ⟨5, 10, 7⟩ [.start, .start, .tick 5, .deliver 0]).register ⟨5, 10, 7⟩ 1).1 = true := by
  decide

/-! ### C35 and C36 -/

/-- Invariant: probes are delivered after their delay, and every running worker is watched. -/
structure WF (o : Options) (s : State) : Prop where
  lost : ∀ d i t, (d, Probe.lost i t) ∈ s.inFlight → d = t + o.heartbeat
  idle : ∀ d i t, (d, Probe.idle i t) ∈ s.inFlight → d = t + o.idle
  past : ∀ (i u h : Nat), s.workers[i]? = some (.running u h) → u ≤ s.now ∧ h ≤ s.now
  watched : ∀ (i u h : Nat), s.workers[i]? = some (.running u h) →
    (h + o.heartbeat, Probe.lost i h) ∈ s.inFlight

theorem wf_of_set {o : Options} {s : State} (h : WF o s) (i : Nat) (x : WState)
    (hx : ∀ u v, x ≠ .running u v) : WF o { s with workers := s.workers.set i x } where
  lost := h.lost
  idle := h.idle
  past := by
    intro j u v hj
    rcases set_cases hj with ⟨_, he⟩ | ⟨_, hj⟩
    · exact absurd he.symm (hx u v)
    · exact h.past j u v hj
  watched := by
    intro j u v hj
    rcases set_cases hj with ⟨_, he⟩ | ⟨_, hj⟩
    · exact absurd he.symm (hx u v)
    · exact h.watched j u v hj

theorem wf_stop {o : Options} {s : State} (h : WF o s) (i : Nat) : WF o (s.stop i) := by
  unfold State.stop
  split
  · exact wf_of_set h i _ (by simp)
  · exact wf_of_set h i _ (by simp)
  · exact h

/-- Deleting a message keeps the invariant if the message is not the one that watches a worker. -/
theorem wf_erase {o : Options} {s : State} (h : WF o s) (k : Nat)
    (hk : ∀ i u v, s.workers[i]? = some (.running u v) →
      (v + o.heartbeat, Probe.lost i v) ∈ s.inFlight.eraseIdx k) :
    WF o { s with inFlight := s.inFlight.eraseIdx k } where
  lost := fun d i t hm => h.lost d i t (List.eraseIdx_subset hm)
  idle := fun d i t hm => h.idle d i t (List.eraseIdx_subset hm)
  past := h.past
  watched := hk

theorem mem_eraseIdx_of_ne {β : Type} {l : List β} {k : Nat} {x y : β} (hk : l[k]? = some y)
    (hx : x ∈ l) (hne : x ≠ y) : x ∈ l.eraseIdx k := by
  obtain ⟨n, hn⟩ := List.mem_iff_getElem?.mp hx
  rw [List.mem_eraseIdx_iff_getElem?]
  refine ⟨n, ?_, hn⟩
  rintro rfl
  rw [hk] at hn
  exact hne (Option.some.inj hn).symm

theorem wf_deliver {o : Options} {s : State} (h : WF o s) (k d : Nat) (p : Probe)
    (hk : s.inFlight[k]? = some (d, p)) :
    WF o (({ s with inFlight := s.inFlight.eraseIdx k } : State).probe p) := by
  cases p with
  | pending i =>
    have h' := wf_erase h k (fun j u v hj => mem_eraseIdx_of_ne hk (h.watched j u v hj) (by simp))
    simp only [State.probe]
    split
    · exact wf_of_set h' i _ (by simp)
    · exact h'
  | idle i t =>
    have h' := wf_erase h k (fun j u v hj => mem_eraseIdx_of_ne hk (h.watched j u v hj) (by simp))
    simp only [State.probe]
    split
    · split
      · exact wf_stop h' i
      · exact h'
    · exact h'
  | lost i t =>
    simp only [State.probe]
    split
    · rename_i u v hi
      split
      · rename_i hle
        -- the worker is stopped
        simp only [State.stop, hi]
        refine ⟨fun d j t hm => h.lost d j t (List.eraseIdx_subset hm),
          fun d j t hm => h.idle d j t (List.eraseIdx_subset hm), ?_, ?_⟩
        · intro j u' v' hj
          rcases set_cases hj with ⟨_, he⟩ | ⟨_, hj⟩
          · cases he
          · exact h.past j u' v' hj
        · intro j u' v' hj
          rcases set_cases hj with ⟨_, he⟩ | ⟨hne, hj⟩
          · cases he
          · exact mem_eraseIdx_of_ne hk (h.watched j u' v' hj) (by
              intro he; simp at he; exact hne he.2.1.symm)
      · rename_i hnle
        apply wf_erase h k
        intro j u' v' hj
        apply mem_eraseIdx_of_ne hk (h.watched j u' v' hj)
        intro he
        simp only [Prod.mk.injEq, Probe.lost.injEq] at he
        obtain ⟨_, rfl, rfl⟩ := he
        have hj' : s.workers[j]? = some (.running u v) := hi
        rw [hj] at hj'
        simp only [Option.some.injEq, WState.running.injEq] at hj'
        omega
    · rename_i hn
      apply wf_erase h k
      intro j u' v' hj
      apply mem_eraseIdx_of_ne hk (h.watched j u' v' hj)
      intro he
      simp only [Prod.mk.injEq, Probe.lost.injEq] at he
      obtain ⟨_, rfl, rfl⟩ := he
      exact hn _ _ hj

theorem wf_step {o : Options} {s : State} (h : WF o s) (e : Ev) : WF o (s.step o e) := by
  cases e with
  | tick d =>
    exact ⟨h.lost, h.idle, fun i u v hi => by
      have := h.past i u v hi
      simp only [State.step]; omega, h.watched⟩
  | start =>
    refine ⟨fun d i t hm => ?_, fun d i t hm => ?_, fun i u v hi => ?_, fun i u v hi => ?_⟩
    · simp [State.step, State.start] at hm; exact h.lost d i t hm
    · simp [State.step, State.start] at hm; exact h.idle d i t hm
    all_goals
      have hi' : s.workers[i]? = some (.running u v) := by
        simp only [State.step, State.start] at hi
        rw [List.getElem?_append] at hi
        split at hi
        · exact hi
        · cases hx : i - s.workers.length with
          | zero => rw [hx] at hi; simp at hi
          | succ n => rw [hx] at hi; simp at hi
    · exact h.past i u v hi'
    · exact List.mem_append_left _ (h.watched i u v hi')
  | register i =>
    simp only [State.step, State.register]
    split
    · refine ⟨fun d j t hm => ?_, fun d j t hm => ?_, fun j u v hj => ?_, fun j u v hj => ?_⟩
      · simp at hm
        rcases hm with hm | ⟨rfl, rfl, rfl⟩
        · exact h.lost d j t hm
        · rfl
      · simp at hm
        rcases hm with hm | ⟨rfl, rfl, rfl⟩
        · exact h.idle d j t hm
        · rfl
      · rcases set_cases hj with ⟨_, he⟩ | ⟨_, hj⟩
        · simp at he; simp only; omega
        · exact h.past j u v hj
      · rcases set_cases hj with ⟨rfl, he⟩ | ⟨_, hj⟩
        · simp at he; simp [he]
        · exact List.mem_append_left _ (h.watched j u v hj)
    · exact h
  | heartbeat i =>
    simp only [State.step, State.heartbeat]
    split
    · rename_i u0 v0 hi
      refine ⟨fun d j t hm => ?_, fun d j t hm => ?_, fun j u v hj => ?_, fun j u v hj => ?_⟩
      · simp at hm
        rcases hm with hm | ⟨rfl, rfl, rfl⟩
        · exact h.lost d j t hm
        · rfl
      · simp at hm
        exact h.idle d j t hm
      · rcases set_cases hj with ⟨_, he⟩ | ⟨_, hj⟩
        · have := h.past _ _ _ hi
          simp at he; simp only; omega
        · exact h.past j u v hj
      · rcases set_cases hj with ⟨rfl, he⟩ | ⟨_, hj⟩
        · simp at he; simp [he]
        · exact List.mem_append_left _ (h.watched j u v hj)
    · exact h
  | activity i =>
    simp only [State.step, State.activity]
    split
    · rename_i u0 v0 hi
      refine ⟨fun d j t hm => ?_, fun d j t hm => ?_, fun j u v hj => ?_, fun j u v hj => ?_⟩
      · simp at hm
        exact h.lost d j t hm
      · simp at hm
        rcases hm with hm | ⟨rfl, rfl, rfl⟩
        · exact h.idle d j t hm
        · rfl
      · rcases set_cases hj with ⟨_, he⟩ | ⟨_, hj⟩
        · have := h.past _ _ _ hi
          simp at he; simp only; omega
        · exact h.past j u v hj
      · rcases set_cases hj with ⟨rfl, he⟩ | ⟨_, hj⟩
        · simp only [WState.running.injEq] at he
          obtain ⟨_, rfl⟩ := he
          exact List.mem_append_left _ (h.watched _ _ _ hi)
        · exact List.mem_append_left _ (h.watched j u v hj)
    · exact h
  | setBusy i b => exact ⟨h.lost, h.idle, h.past, h.watched⟩
  | deliver k =>
    simp only [State.step]
    split
    · rename_i d p hk
      split
      · exact wf_deliver h k d p hk
      · exact h
    · exact h
  | stop i => exact wf_stop h i

theorem wf_run {o : Options} (es : List Ev) {s : State} (h : WF o s) : WF o (s.run o es) := by
  induction es generalizing s with
  | nil => exact h
  | cons e es ih => exact ih (wf_step h e)

theorem wf_init (o : Options) : WF o State.init := by
  constructor <;> simp [State.init]

/-- C35: a running worker that falls silent is detected: at every moment there is a message on its
way which, once the heartbeat timeout has passed without a heartbeat, ends the worker. -/
theorem C35_silent_worker_is_detected (o : Options) (es : List Ev) (i u h : Nat)
    (hw : (State.init.run o es).workers[i]? = some (.running u h)) :
    ∃ k, ((State.init.run o es).run o [.tick o.heartbeat, .deliver k]).workers[i]? =
      some .completed := by
  have hwf := wf_run es (wf_init o)
  obtain ⟨k, hk⟩ := List.mem_iff_getElem?.mp (hwf.watched i u h hw)
  have hp := (hwf.past i u h hw).2
  refine ⟨k, ?_⟩
  generalize State.init.run o es = s at *
  have hlt := (List.getElem?_eq_some_iff.mp hw).1
  have hdue : h + o.heartbeat ≤ s.now + o.heartbeat := by omega
  simp only [State.run, List.foldl_cons, List.foldl_nil, State.step, hk, hdue, if_true, State.probe,
    hw, Nat.le_refl, State.stop]
  exact List.getElem?_set_self hlt

/-- One step keeps a worker running unless a timeout has really passed or it is stopped. -/
theorem step_running {o : Options} {s : State} (hwf : WF o s) (e : Ev) (i u h : Nat)
    (hw : s.workers[i]? = some (.running u h)) (hs : e ≠ .stop i)
    (hl : ∀ k, e = .deliver k → s.now < h + o.heartbeat)
    (hi : ∀ k d t, e = .deliver k → s.inFlight[k]? = some (d, .idle i t) →
      s.busy[i]? = some true ∨ s.now < u + o.idle) :
    ∃ u' h', (s.step o e).workers[i]? = some (.running u' h') ∧ u ≤ u' ∧ h ≤ h' := by
  have hsame : ∃ u' h', s.workers[i]? = some (.running u' h') ∧ u ≤ u' ∧ h ≤ h' :=
    ⟨u, h, hw, Nat.le_refl _, Nat.le_refl _⟩
  have hlt := (List.getElem?_eq_some_iff.mp hw).1
  have hpast := hwf.past i u h hw
  cases e with
  | tick d => exact hsame
  | start =>
    refine ⟨u, h, ?_, Nat.le_refl _, Nat.le_refl _⟩
    simp only [State.step, State.start]
    rw [List.getElem?_append_left hlt]; exact hw
  | register j =>
    simp only [State.step, State.register]
    split
    · rename_i hj
      have hne : j ≠ i := by rintro rfl; rw [hw] at hj; cases hj
      exact ⟨u, h, by rw [List.getElem?_set_ne hne]; exact hw, Nat.le_refl _, Nat.le_refl _⟩
    · exact hsame
  | heartbeat j =>
    simp only [State.step, State.heartbeat]
    split
    · rename_i u0 v0 hj
      by_cases hij : j = i
      · subst hij
        rw [hw] at hj
        simp only [Option.some.injEq, WState.running.injEq] at hj
        exact ⟨u0, s.now, List.getElem?_set_self hlt, by omega, hpast.2⟩
      · exact ⟨u, h, by rw [List.getElem?_set_ne hij]; exact hw, Nat.le_refl _, Nat.le_refl _⟩
    · exact hsame
  | activity j =>
    simp only [State.step, State.activity]
    split
    · rename_i u0 v0 hj
      by_cases hij : j = i
      · subst hij
        rw [hw] at hj
        simp only [Option.some.injEq, WState.running.injEq] at hj
        exact ⟨s.now, v0, List.getElem?_set_self hlt, hpast.1, by omega⟩
      · exact ⟨u, h, by rw [List.getElem?_set_ne hij]; exact hw, Nat.le_refl _, Nat.le_refl _⟩
    · exact hsame
  | setBusy j b => exact hsame
  | stop j =>
    have hne : j ≠ i := by rintro rfl; exact hs rfl
    refine ⟨u, h, ?_, Nat.le_refl _, Nat.le_refl _⟩
    simp only [State.step, State.stop]
    split <;> (try rw [List.getElem?_set_ne hne]) <;> exact hw
  | deliver k =>
    have hl' := hl k rfl
    simp only [State.step]
    split
    · rename_i d p hk
      split
      · rename_i hdue
        refine ⟨u, h, ?_, Nat.le_refl _, Nat.le_refl _⟩
        have other : ∀ j, j ≠ i → (({ s with inFlight := s.inFlight.eraseIdx k } : State).stop j).workers[i]? =
            some (.running u h) := by
          intro j hne
          simp only [State.stop]
          split <;> (try rw [List.getElem?_set_ne hne]) <;> exact hw
        cases p with
        | pending j =>
          simp only [State.probe]
          split
          · rename_i hj
            have hne : j ≠ i := by
              rintro rfl
              have hj' : s.workers[j]? = some .pending := hj
              rw [hw] at hj'; cases hj'
            show (s.workers.set j _)[i]? = _
            rw [List.getElem?_set_ne hne]; exact hw
          · exact hw
        | idle j t =>
          simp only [State.probe]
          split
          · rename_i u0 v0 hj hb
            split
            · rename_i hle
              by_cases hij : j = i
              · subst hij
                exfalso
                have hj' : s.workers[j]? = some (.running u0 v0) := hj
                have hb' : s.busy[j]? = some false := hb
                rw [hw] at hj'
                simp only [Option.some.injEq, WState.running.injEq] at hj'
                have hd := hwf.idle d j t (List.mem_of_getElem? hk)
                rcases hi k d t rfl hk with hc | hc
                · rw [hb'] at hc; simp at hc
                · omega
              · exact other j hij
            · exact hw
          · exact hw
        | lost j t =>
          simp only [State.probe]
          split
          · rename_i u0 v0 hj
            split
            · rename_i hle
              by_cases hij : j = i
              · subst hij
                exfalso
                have hj' : s.workers[j]? = some (.running u0 v0) := hj
                rw [hw] at hj'
                simp only [Option.some.injEq, WState.running.injEq] at hj'
                have hd := hwf.lost d j t (List.mem_of_getElem? hk)
                omega
              · exact other j hij
            · exact hw
          · exact hw
      · exact hsame
    · exact hsame

/-- Time that passes in a history. -/
def Spec.elapsed (es : List Ev) : Nat :=
  (es.map fun | .tick d => d | _ => 0).sum

theorem now_step (o : Options) (s : State) (e : Ev) :
    (s.step o e).now = s.now + Spec.elapsed [e] := by
  cases e <;> simp only [State.step, State.start, State.register, State.heartbeat, State.activity,
    State.stop, Spec.elapsed, List.map, List.sum_cons, List.sum_nil, Nat.add_zero] <;>
    (try split) <;> (try rfl)
  · split
    · rename_i p _ _
      cases p <;> simp only [State.probe] <;> split <;> (try split) <;> (try rfl) <;>
        (unfold State.stop; split <;> rfl)
    · rfl

theorem busy_step (o : Options) (s : State) (e : Ev) (i : Nat) (hb : s.busy[i]? = some true)
    (hne : e ≠ .setBusy i false) : (s.step o e).busy[i]? = some true := by
  have hlt := (List.getElem?_eq_some_iff.mp hb).1
  cases e with
  | setBusy j b =>
    simp only [State.step]
    by_cases hij : j = i
    · subst hij
      cases b with
      | true => exact List.getElem?_set_self hlt
      | false => exact absurd rfl hne
    · rw [List.getElem?_set_ne hij]; exact hb
  | start =>
    simp only [State.step, State.start]
    rw [List.getElem?_append_left hlt]; exact hb
  | deliver k =>
    simp only [State.step]
    split
    · split
      · rename_i p _ _
        have : ∀ p, (({ s with inFlight := s.inFlight.eraseIdx k } : State).probe p).busy = s.busy := by
          intro p
          cases p <;> simp only [State.probe] <;> split <;> (try split) <;> (try rfl) <;>
            (unfold State.stop; split <;> rfl)
        rw [this]; exact hb
      · exact hb
    · exact hb
  | tick d => exact hb
  | register j => simp only [State.step, State.register]; split <;> exact hb
  | heartbeat j => simp only [State.step, State.heartbeat]; split <;> exact hb
  | activity j => simp only [State.step, State.activity]; split <;> exact hb
  | stop j => simp only [State.step, State.stop]; split <;> exact hb

theorem elapsed_cons (e : Ev) (es : List Ev) :
    Spec.elapsed (e :: es) = Spec.elapsed [e] + Spec.elapsed es := by
  simp [Spec.elapsed]

theorem busy_run {o : Options} (es : List Ev) {s : State} (hwf : WF o s) (i u h : Nat)
    (hw : s.workers[i]? = some (.running u h)) (hb : s.busy[i]? = some true)
    (hns : Ev.stop i ∉ es) (hnb : Ev.setBusy i false ∉ es)
    (ht : s.now + Spec.elapsed es < h + o.heartbeat) :
    ∃ u' h', (s.run o es).workers[i]? = some (.running u' h') := by
  induction es generalizing s u h with
  | nil => exact ⟨u, h, hw⟩
  | cons e es ih =>
    rw [elapsed_cons] at ht
    obtain ⟨u', h', h1, _, h3⟩ := step_running hwf e i u h hw
      (fun he => hns (by simp [he])) (fun _ _ => by omega) (fun _ _ _ _ _ => Or.inl hb)
    apply ih (wf_step hwf e) u' h' h1
      (busy_step o s e i hb (fun he => hnb (by simp [he])))
      (fun hm => hns (List.mem_cons_of_mem _ hm)) (fun hm => hnb (List.mem_cons_of_mem _ hm))
    rw [now_step]; omega

/-- C35: a worker with work on it whose last heartbeat was received less than the timeout ago is
never declared lost, whatever other messages are delivered in the meantime. -/
theorem C35_beating_worker_is_not_lost (o : Options) (es more : List Ev) (i u h : Nat)
    (hw : (State.init.run o es).workers[i]? = some (.running u h))
    (hb : (State.init.run o es).busy[i]? = some true)
    (hns : Ev.stop i ∉ more) (hnb : Ev.setBusy i false ∉ more)
    (ht : Spec.elapsed more < o.heartbeat) :
    ∃ u' h', (State.init.run o (es ++ .heartbeat i :: more)).workers[i]? = some (.running u' h') := by
  rw [show es ++ .heartbeat i :: more = es ++ ([.heartbeat i] ++ more) by rfl, run_append, run_append]
  have hwf := wf_run es (wf_init o)
  generalize State.init.run o es = s at *
  have hlt := (List.getElem?_eq_some_iff.mp hw).1
  have h1 : (s.step o (.heartbeat i)).workers[i]? = some (.running u s.now) := by
    simp only [State.step, State.heartbeat, hw]
    exact List.getElem?_set_self hlt
  have hnow : (s.step o (.heartbeat i)).now = s.now := by
    rw [now_step]; rfl
  exact busy_run more (wf_step hwf (.heartbeat i)) i u s.now h1
    (busy_step o s _ i hb (by simp)) hns hnb (by rw [hnow]; omega)

example :
    let o : Options := ⟨5, 10, 7⟩
    let s := State.init.run o [.start, .register 0, .setBusy 0 true, .tick 6, .heartbeat 0, .tick 6,
      .deliver 0, .deliver 0, .deliver 0]
    s.workers = [.running 0 6] ∧
      (s.run o [.tick 1, .deliver 0]).workers = [.completed] := by decide

/-- C36: a worker is stopped as idle only when it has neither tasks nor streams and nothing was
asked of it for the idle time; otherwise it was lost. -/
theorem C36_stopped_only_after_idle_time (o : Options) (es : List Ev) (i u h k : Nat)
    (hw : (State.init.run o es).workers[i]? = some (.running u h))
    (hc : (State.init.run o (es ++ [.deliver k])).workers[i]? = some .completed) :
    ((State.init.run o es).busy[i]? ≠ some true ∧ u + o.idle ≤ (State.init.run o es).now) ∨
      h + o.heartbeat ≤ (State.init.run o es).now := by
  rw [run_append] at hc
  have hwf := wf_run es (wf_init o)
  generalize State.init.run o es = s at *
  by_contra hcon
  push Not at hcon
  obtain ⟨h1, h2⟩ := hcon
  obtain ⟨u', h', hr, _⟩ := step_running hwf (.deliver k) i u h hw (by simp) (fun _ _ => by omega)
    (fun _ _ _ _ _ => by
      by_cases hb : s.busy[i]? = some true
      · exact Or.inl hb
      · exact Or.inr (by have := h1 hb; omega))
  have : (s.step o (.deliver k)).workers[i]? = some .completed := hc
  rw [hr] at this
  cases this

/-- No idle probe of the worker is on its way. -/
def NoIdleProbe (i : Nat) (s : State) : Prop := ∀ d t, (d, Probe.idle i t) ∉ s.inFlight

theorem noIdleProbe_step {o : Options} {s : State} {i u h : Nat} (hn : NoIdleProbe i s)
    (hw : s.workers[i]? = some (.running u h)) (e : Ev) (he : e ≠ .activity i) :
    NoIdleProbe i (s.step o e) := by
  intro d t hm
  cases e with
  | tick x => exact hn d t hm
  | start => simp [State.step, State.start] at hm; exact hn d t hm
  | register j =>
    simp only [State.step, State.register] at hm
    split at hm
    · rename_i hj
      simp at hm
      rcases hm with hm | ⟨_, rfl, _⟩
      · exact hn d t hm
      · rw [hw] at hj; cases hj
    · exact hn d t hm
  | heartbeat j =>
    simp only [State.step, State.heartbeat] at hm
    split at hm
    · simp at hm; exact hn d t hm
    · exact hn d t hm
  | activity j =>
    simp only [State.step, State.activity] at hm
    split at hm
    · simp at hm
      rcases hm with hm | ⟨_, rfl, _⟩
      · exact hn d t hm
      · exact he rfl
    · exact hn d t hm
  | setBusy j b => exact hn d t hm
  | stop j =>
    simp only [State.step, State.stop] at hm
    split at hm <;> exact hn d t hm
  | deliver k =>
    simp only [State.step] at hm
    split at hm
    · split at hm
      · rename_i p _ _
        have : ∀ p, (({ s with inFlight := s.inFlight.eraseIdx k } : State).probe p).inFlight =
            s.inFlight.eraseIdx k := by
          intro p
          cases p <;> simp only [State.probe] <;> split <;> (try split) <;> (try rfl) <;>
            (unfold State.stop; split <;> rfl)
        rw [this] at hm
        exact hn d t (List.eraseIdx_subset hm)
      · exact hn d t hm
    · exact hn d t hm

theorem noIdle_run {o : Options} (es : List Ev) {s : State} (hwf : WF o s) (i u h : Nat)
    (hn : NoIdleProbe i s) (hw : s.workers[i]? = some (.running u h))
    (hns : Ev.stop i ∉ es) (hna : Ev.activity i ∉ es)
    (ht : s.now + Spec.elapsed es < h + o.heartbeat) :
    WF o (s.run o es) ∧ NoIdleProbe i (s.run o es) ∧
      ∃ u' h', (s.run o es).workers[i]? = some (.running u' h') := by
  induction es generalizing s u h with
  | nil => exact ⟨hwf, hn, u, h, hw⟩
  | cons e es ih =>
    rw [elapsed_cons] at ht
    obtain ⟨u', h', h1, _, h3⟩ := step_running hwf e i u h hw
      (fun he => hns (by simp [he])) (fun _ _ => by omega)
      (fun k d t _ hk => absurd (List.mem_of_getElem? hk) (hn d t))
    apply ih (wf_step hwf e) u' h'
      (noIdleProbe_step hn hw e (fun he => hna (by simp [he]))) h1
      (fun hm => hns (List.mem_cons_of_mem _ hm)) (fun hm => hna (List.mem_cons_of_mem _ hm))
    rw [now_step]; omega

/-- C36 is violated in the other direction: an idle worker may never be stopped. When a worker's
only idle probe arrives while it is still working, no other is scheduled; once its work has ended
(for example a task that wrote its output to storage, after which no clean-up is sent to the
worker) the worker runs idle for ever, for any number `n` of heartbeat intervals `d`. -/
theorem C36_idle_worker_is_never_stopped (o : Options) (n d : Nat)
    (hd : d < o.heartbeat) (ks : List Nat) :
    let before : List Ev := [.start, .register 0, .setBusy 0 true, .tick o.idle, .heartbeat 0]
    let s0 := State.init.run o before
    -- the registration probe, the idle probe (and nothing else) are delivered to a busy worker
    s0.inFlight[2]? = some (o.idle, .idle 0 0) ∧
    ∃ u h, ((s0.run o [.deliver 2, .setBusy 0 false]).run o
        (List.replicate n ([.heartbeat 0, .tick d] ++ ks.map .deliver)).flatten).workers[0]? =
      some (.running u h) := by
  intro before s0
  have e0 : s0 = ⟨o.idle, [.running 0 o.idle], [true],
      [(o.launch, .pending 0), (o.heartbeat, .lost 0 0), (o.idle, .idle 0 0),
        (o.idle + o.heartbeat, .lost 0 o.idle)]⟩ := by
    simp [s0, before, State.run, State.step, State.start, State.register, State.heartbeat, State.init]
  refine ⟨by rw [e0]; rfl, ?_⟩
  have hwf0 : WF o s0 := wf_run before (wf_init o)
  have hwf1 : WF o (s0.run o [.deliver 2, .setBusy 0 false]) := wf_run _ hwf0
  have e1 : s0.run o [.deliver 2, .setBusy 0 false] = ⟨o.idle, [.running 0 o.idle], [false],
      [(o.launch, .pending 0), (o.heartbeat, .lost 0 0), (o.idle + o.heartbeat, .lost 0 o.idle)]⟩ := by
    rw [e0]
    simp [State.run, State.step, State.probe]
  have hn1 : NoIdleProbe 0 (s0.run o [.deliver 2, .setBusy 0 false]) := by
    rw [e1]; intro d t hm; simp at hm
  have hw1 : ∃ u h, (s0.run o [.deliver 2, .setBusy 0 false]).workers[0]? = some (.running u h) := by
    rw [e1]; exact ⟨_, _, rfl⟩
  generalize s0.run o [.deliver 2, .setBusy 0 false] = s at *
  clear e0 e1
  have : ∀ n (s : State), WF o s → NoIdleProbe 0 s →
      (∃ u h, s.workers[0]? = some (.running u h)) →
      ∃ u h, (s.run o (List.replicate n ([Ev.heartbeat 0, .tick d] ++ ks.map .deliver)).flatten).workers[0]? =
        some (.running u h) := by
    intro n
    induction n with
    | zero => intro s _ _ h; exact h
    | succ n ih =>
      intro s hwf hn hw
      obtain ⟨u, h, hw⟩ := hw
      have hlt := (List.getElem?_eq_some_iff.mp hw).1
      rw [List.replicate_succ, List.flatten_cons, run_append]
      have hround : WF o (s.run o ([Ev.heartbeat 0, .tick d] ++ ks.map .deliver)) ∧
          NoIdleProbe 0 (s.run o ([Ev.heartbeat 0, .tick d] ++ ks.map .deliver)) ∧
          ∃ u' h', (s.run o ([Ev.heartbeat 0, .tick d] ++ ks.map .deliver)).workers[0]? =
            some (.running u' h') := by
        have h1 : (s.step o (.heartbeat 0)).workers[0]? = some (.running u s.now) := by
          simp only [State.step, State.heartbeat, hw]
          exact List.getElem?_set_self hlt
        have hnow : (s.step o (.heartbeat 0)).now = s.now := by rw [now_step]; rfl
        have hel : Spec.elapsed (Ev.tick d :: ks.map Ev.deliver) = d := by
          rw [elapsed_cons]
          have : Spec.elapsed (ks.map Ev.deliver) = 0 := by
            clear hw ih
            induction ks with
            | nil => rfl
            | cons k ks ih' => rw [List.map_cons, elapsed_cons, ih']; rfl
          rw [this]; rfl
        exact noIdle_run (Ev.tick d :: ks.map .deliver) (wf_step hwf (.heartbeat 0)) 0 u s.now
          (noIdleProbe_step hn hw _ (by simp)) h1 (by simp) (by simp)
          (by rw [hnow, hel]; omega)
      exact ih _ hround.1 hround.2.1 hround.2.2
  exact this n s hwf1 hn1 hw1

/-- C36, the part that holds: as long as a probe for the last activity of an idle worker is on its
way, its delivery stops the worker. Missing: the probe may have been consumed earlier
(`C36_idle_worker_is_never_stopped`). -/
theorem C36_idle_worker_is_stopped_partial (o : Options) (es : List Ev) (i u h d k : Nat)
    (hw : (State.init.run o es).workers[i]? = some (.running u h))
    (hb : (State.init.run o es).busy[i]? = some false)
    (hk : (State.init.run o es).inFlight[k]? = some (d, .idle i u)) :
    ((State.init.run o es).run o [.tick o.idle, .deliver k]).workers[i]? = some .completed := by
  have hwf := wf_run es (wf_init o)
  have hd := hwf.idle d i u (List.mem_of_getElem? hk)
  have hp := (hwf.past i u h hw).1
  generalize State.init.run o es = s at *
  have hlt := (List.getElem?_eq_some_iff.mp hw).1
  have hdue : d ≤ s.now + o.idle := by omega
  simp only [State.run, List.foldl_cons, List.foldl_nil, State.step, hk, hdue, if_true, State.probe,
    hw, hb, Nat.le_refl, State.stop]
  exact List.getElem?_set_self hlt

example :
    let o : Options := ⟨5, 10, 70⟩
    let s := State.init.run o [.start, .register 0, .setBusy 0 true, .activity 0, .setBusy 0 false]
    s.inFlight[3]? = some (10, .idle 0 0) ∧ s.busy[0]? = some false ∧
      s.workers[0]? = some (.running 0 0) := by decide

end Verif.Exec.Pool
