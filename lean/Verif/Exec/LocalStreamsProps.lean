import Verif.Exec.LocalStreams

/-! # Properties of the readers of an in-memory output: C47, C34 -/

namespace Verif.Exec.LocalStreams

theorem settle_get {rs : List Nat} {o : Outcome} {l : List Outcome} {i : Nat} :
    (settle rs o l)[i]? = l[i]?.map fun x => if i ∈ rs then o else x := by
  simp [settle]

theorem settle_length {rs : List Nat} {o : Outcome} {l : List Outcome} : (settle rs o l).length = l.length := by
  simp [settle]

/-- The readers waiting are those registered with the pending entry, and a pending entry has a probe. -/
structure Inv (s : State) : Prop where
  waiting : ∀ i, s.readers[i]? = some .waiting ↔ ∃ rs, s.entry = .pending rs ∧ i ∈ rs
  probed : ∀ rs, s.entry = .pending rs → 0 < s.probes

theorem inv_init : Inv State.init := by
  constructor
  · intro i; simp [State.init]
  · intro rs h; simp [State.init] at h

theorem inv_step {s : State} (h : Inv s) (e : Ev) : Inv (s.step e) := by
  obtain ⟨hw, hp⟩ := h
  have hlt : ∀ {i rs}, s.entry = .pending rs → i ∈ rs → i < s.readers.length := by
    intro i rs he hi
    have := (hw i).mpr ⟨rs, he, hi⟩
    exact (List.getElem?_eq_some_iff.mp this).1
  cases e with
  | fetch =>
    simp only [State.step, State.fetch]
    cases he : s.entry with
    | absent =>
      simp only [he, reduceCtorEq, false_and, exists_false, iff_false] at hw
      refine ⟨fun i => ?_, fun rs _ => Nat.succ_pos _⟩
      rw [List.getElem?_append]
      split
      · rename_i hi
        simp only [hw, Entry.pending.injEq, false_iff, not_exists, not_and]
        rintro rs rfl hm
        simp at hm; omega
      · rename_i hi
        simp only [Entry.pending.injEq]
        constructor
        · intro h
          have := (List.getElem?_eq_some_iff.mp h).1
          exact ⟨_, rfl, by simp at this ⊢; omega⟩
        · rintro ⟨rs, rfl, hm⟩
          simp at hm; subst hm; simp
    | pending rs0 =>
      refine ⟨fun i => ?_, fun rs h => hp rs0 he⟩
      simp only [Entry.pending.injEq, exists_eq_left', List.mem_append, List.mem_singleton]
      rw [List.getElem?_append]
      split
      · rename_i hi
        rw [hw, he]
        simp only [Entry.pending.injEq, exists_eq_left']
        constructor
        · exact .inl
        · rintro (h | h)
          · exact h
          · omega
      · rename_i hi
        constructor
        · intro h
          have := (List.getElem?_eq_some_iff.mp h).1
          simp at this
          exact .inr (by omega)
        · rintro (h | h)
          · exact absurd (hlt he h) hi
          · subst h; simp
    | created n =>
      simp only [he, reduceCtorEq, false_and, exists_false, iff_false] at hw
      cases n with
      | zero =>
        refine ⟨fun i => ?_, fun rs h => ?_⟩
        · simp only [he, reduceCtorEq, false_and, exists_false, iff_false]
          rw [List.getElem?_append]
          split
          · exact hw i
          · intro h
            have h1 := List.mem_of_getElem? h
            simp at h1
        · simp [he] at h
      | succ n =>
        refine ⟨fun i => ?_, fun rs h => ?_⟩
        · simp only [reduceCtorEq, false_and, exists_false, iff_false]
          rw [List.getElem?_append]
          split
          · exact hw i
          · intro h
            have h1 := List.mem_of_getElem? h
            simp at h1
        · simp at h
    | failed =>
      simp only [he, reduceCtorEq, false_and, exists_false, iff_false] at hw
      refine ⟨fun i => ?_, fun rs h => ?_⟩
      · simp only [he, reduceCtorEq, false_and, exists_false, iff_false]
        rw [List.getElem?_append]
        split
        · exact hw i
        · intro h
          have h1 := List.mem_of_getElem? h
          simp at h1
      · simp [he] at h
  | create n ok =>
    simp only [State.step, State.create]
    cases he : s.entry with
    | absent =>
      simp only [he, reduceCtorEq, false_and, exists_false, iff_false] at hw
      cases ok <;> exact ⟨fun i => by simp [hw], fun rs h => by simp at h⟩
    | pending rs0 =>
      have key : ∀ o, o ≠ Outcome.waiting → ∀ i : Nat, (settle rs0 o s.readers)[i]? ≠ some Outcome.waiting := by
        intro o ho i h
        rw [settle_get, Option.map_eq_some_iff] at h
        obtain ⟨x, hx, h⟩ := h
        split at h
        · exact ho h
        · rename_i hn
          subst h
          obtain ⟨rs, hrs, hi⟩ := (hw i).mp hx
          rw [he] at hrs; cases hrs
          exact hn hi
      cases ok <;> refine ⟨fun i => ?_, fun rs h => by simp at h⟩ <;> simp [key]
    | created m => exact ⟨hw, hp⟩
    | failed => exact ⟨hw, hp⟩
  | probe =>
    simp only [State.step, State.probe]
    split
    · exact ⟨hw, hp⟩
    · cases he : s.entry with
      | pending rs0 =>
        refine ⟨fun i => ?_, fun rs h => by simp at h⟩
        simp only [reduceCtorEq, false_and, exists_false, iff_false]
        intro h
        rw [settle_get, Option.map_eq_some_iff] at h
        obtain ⟨x, hx, h⟩ := h
        split at h
        · cases h
        · rename_i hn
          subst h
          obtain ⟨rs, hrs, hi⟩ := (hw i).mp hx
          rw [he] at hrs; cases hrs
          exact hn hi
      | absent => exact ⟨fun i => by simp only []; rw [hw]; simp [he], fun rs h => by simp at h⟩
      | created m => exact ⟨fun i => by simp only []; rw [hw]; simp [he], fun rs h => by simp at h⟩
      | failed => exact ⟨fun i => by simp only []; rw [hw]; simp [he], fun rs h => by simp at h⟩
  | remove =>
    simp only [State.step, State.remove]
    cases he : s.entry with
    | pending rs0 =>
      refine ⟨fun i => ?_, fun rs h => by simp at h⟩
      simp only [reduceCtorEq, false_and, exists_false, iff_false]
      intro h
      rw [settle_get, Option.map_eq_some_iff] at h
      obtain ⟨x, hx, h⟩ := h
      split at h
      · cases h
      · rename_i hn
        subst h
        obtain ⟨rs, hrs, hi⟩ := (hw i).mp hx
        rw [he] at hrs; cases hrs
        exact hn hi
    | absent => exact ⟨fun i => by rw [hw]; simp [he], fun rs h => by simp at h⟩
    | created m => exact ⟨fun i => by rw [hw]; simp [he], fun rs h => by simp at h⟩
    | failed => exact ⟨fun i => by rw [hw]; simp [he], fun rs h => by simp at h⟩

theorem inv_run (es : List Ev) : Inv (State.run es State.init) := by
  unfold State.run
  have : ∀ s, Inv s → Inv (es.foldl State.step s) := by
    induction es with
    | nil => exact fun s h => h
    | cons e es ih => exact fun s h => ih _ (inv_step h e)
  exact this _ inv_init

/-- **C47.** As long as a reader waits for an output that does not exist yet, a time-out is scheduled. -/
theorem C47_waiting_readers_have_a_timeout (es : List Ev) (i : Nat)
    (h : (State.run es State.init).readers[i]? = some .waiting) : 0 < (State.run es State.init).probes := by
  obtain ⟨rs, hrs, -⟩ := ((inv_run es).waiting i).mp h
  exact (inv_run es).probed rs hrs

/-- **C47.** When a time-out fires, nobody is left waiting: those who waited get an error, all others keep what
they had. -/
theorem C47_timeout_fails_the_waiting (es : List Ev) (hp : 0 < (State.run es State.init).probes) (i : Nat) :
    ((State.run es State.init).step .probe).readers[i]? =
      (State.run es State.init).readers[i]?.map fun o => if o = .waiting then .error else o := by
  have hi := inv_run es
  generalize State.run es State.init = s at *
  simp only [State.step, State.probe]
  rw [if_neg (by omega)]
  cases hx : s.readers[i]? with
  | none =>
    cases he : s.entry <;> simp [settle_get, hx]
  | some x =>
    have hw := hi.waiting i
    rw [hx] at hw
    cases he : s.entry with
    | pending rs =>
      simp only [he, Entry.pending.injEq, exists_eq_left', Option.some.injEq] at hw
      simp only [settle_get, hx, Option.map_some, ← hw]
    | absent => simp only [he, reduceCtorEq, false_and, exists_false, iff_false, Option.some.injEq] at hw; simp [hx, hw]
    | created m => simp only [he, reduceCtorEq, false_and, exists_false, iff_false, Option.some.injEq] at hw; simp [hx, hw]
    | failed => simp only [he, reduceCtorEq, false_and, exists_false, iff_false, Option.some.injEq] at hw; simp [hx, hw]

/-- **C47.** When the producer creates the output, every reader waiting for it gets a replica, also if there are
more of them than planned. -/
theorem C47_creation_serves_the_waiting (es : List Ev) (replicas i : Nat)
    (h : (State.run es State.init).readers[i]? = some .waiting) :
    ((State.run es State.init).step (.create replicas true)).readers[i]? = some .attached := by
  have hi := inv_run es
  generalize State.run es State.init = s at *
  obtain ⟨rs, hrs, hm⟩ := (hi.waiting i).mp h
  simp only [State.step, State.create, hrs, if_true, settle_get, h, Option.map_some, if_pos hm]

/-- A reader got an error or an empty channel only if its stream was removed, failed, or all replicas
were taken; in particular without removal and time-out the planned number of readers is served. -/
theorem run_served {replicas : Nat} {es : List Ev} (h : ∀ e ∈ es, e = .fetch ∨ e = .create replicas true)
    (hn : es.count .fetch ≤ replicas) (o : Outcome) (ho : o ∈ (State.run es State.init).readers) :
    o = .waiting ∨ o = .attached := by
  have key : ∀ es, (∀ e ∈ es, e = Ev.fetch ∨ e = .create replicas true) → ∀ s : State,
      (∀ o ∈ s.readers, o = .waiting ∨ o = .attached) →
      (match s.entry with
        | .absent => es.count .fetch ≤ replicas
        | .pending rs => rs.length + es.count .fetch ≤ replicas
        | .created n => es.count .fetch ≤ n
        | .failed => False) →
      ∀ o ∈ (State.run es s).readers, o = .waiting ∨ o = .attached := by
    intro es
    induction es with
    | nil => exact fun _ s h _ => h
    | cons e es ih =>
      intro hes s hs hc
      have hes' : ∀ e ∈ es, e = Ev.fetch ∨ e = .create replicas true := fun x hx => hes x (by simp [hx])
      refine ih hes' (s.step e) ?_ ?_
      · obtain rfl | rfl := hes e (by simp)
        · intro o ho
          simp only [State.step, State.fetch] at ho
          cases he : s.entry with
          | absent => simp only [he, List.mem_append, List.mem_singleton] at ho; obtain ho | rfl := ho; exacts [hs o ho, .inl rfl]
          | pending rs => simp only [he, List.mem_append, List.mem_singleton] at ho; obtain ho | rfl := ho; exacts [hs o ho, .inl rfl]
          | created n =>
            cases n with
            | zero => simp [he] at hc
            | succ n => simp only [he, List.mem_append, List.mem_singleton] at ho; obtain ho | rfl := ho; exacts [hs o ho, .inr rfl]
          | failed => simp [he] at hc
        · intro o ho
          simp only [State.step, State.create] at ho
          cases he : s.entry with
          | pending rs =>
            simp only [he, if_true] at ho
            rw [List.mem_iff_getElem?] at ho
            obtain ⟨i, hi⟩ := ho
            rw [settle_get, Option.map_eq_some_iff] at hi
            obtain ⟨x, hx, hi⟩ := hi
            split at hi
            · exact .inr hi.symm
            · exact hi ▸ hs x (List.mem_of_getElem? hx)
          | absent => simp only [he] at ho; exact hs o ho
          | created n => simp only [he] at ho; exact hs o ho
          | failed => simp [he] at hc
      · obtain rfl | rfl := hes e (by simp)
        · simp only [State.step, State.fetch]
          rw [List.count_cons_self] at hc
          cases he : s.entry with
          | absent => simp only [he] at hc ⊢; simp; omega
          | pending rs => simp only [he] at hc ⊢; simp; omega
          | created n =>
            cases n with
            | zero => simp [he] at hc
            | succ n => simp only [he] at hc ⊢; omega
          | failed => simp [he] at hc
        · simp only [State.step, State.create]
          rw [List.count_cons_of_ne (by simp)] at hc
          cases he : s.entry with
          | absent => simpa [he] using hc
          | pending rs => simp only [he] at hc ⊢; simp; omega
          | created n => simpa [he] using hc
          | failed => simp [he] at hc
  exact key es h State.init (by simp [State.init]) (by simpa [State.init] using hn) o ho

/-- **C47.** Without removal and time-out, as many readers as replicas are served or wait, in any order of
requests and creation: none of them gets an error or an empty channel. -/
theorem C47_planned_readers_are_served (replicas : Nat) (es : List Ev)
    (h : ∀ e ∈ es, e = .fetch ∨ e = .create replicas true) (hn : es.count .fetch ≤ replicas) :
    ∀ o ∈ (State.run es State.init).readers, o = .waiting ∨ o = .attached :=
  fun o ho => run_served h hn o ho

/-- **C47.** A reader beyond the number of replicas gets an error, not a part of the data. -/
theorem C47_surplus_reader_gets_an_error (es : List Ev) (h : (State.run es State.init).entry = .created 0) :
    ((State.run es State.init).step .fetch).readers = (State.run es State.init).readers ++ [.error] := by
  simp [State.step, State.fetch, h]

example : (State.run [.fetch, .create 2 true, .fetch] State.init).readers = [.attached, .attached] ∧
    (State.run [.fetch, .create 2 true, .fetch] State.init).entry = .created 0 := by decide

example : (State.run [.fetch, .fetch] State.init).readers = [.waiting, .waiting] ∧
    (State.run [.fetch, .fetch, .probe] State.init).readers = [.error, .error] := by decide

/-- **C47, disagreement.** The time-out of a reader whose stream was removed is not cancelled: it fails a later
reader of the same output, whose own time-out is still outstanding. -/
theorem C47_old_timeout_fails_new_reader :
    (State.run [.fetch, .remove, .fetch] State.init).readers = [.ended, .waiting] ∧
    (State.run [.fetch, .remove, .fetch, .probe] State.init).readers = [.ended, .error] ∧
    (State.run [.fetch, .remove, .fetch, .probe] State.init).probes = 1 := by decide

/-- **C34, disagreement.** Removing the streams of a job or stage ends the channels of the readers that still
wait for them without an error, so that they look like complete, empty inputs. -/
theorem C34_removed_output_looks_empty (es : List Ev) (i : Nat)
    (h : (State.run es State.init).readers[i]? = some .waiting) :
    ((State.run es State.init).step .remove).readers[i]? = some .ended := by
  have hi := inv_run es
  generalize State.run es State.init = s at *
  obtain ⟨rs, hrs, hm⟩ := (hi.waiting i).mp h
  simp only [State.step, State.remove, hrs, settle_get, h, Option.map_some, if_pos hm]

end Verif.Exec.LocalStreams
