import Verif.Celeborn.MetricsLemmas

/-!
# Metrics

**C104.** What tasks report, what commits wrote and what was registered reaches the master once.
-/

namespace Verif.Celeborn

variable {ρ : Type}

/-- What there is to tell the master of a part of the metrics: the application, if it was
registered, what tasks reported, and what shuffles and commits yielded. -/
def Spec.toTell (p : (Metrics → Int) × Int × Int) (reg : Registration) (evs : List (Event ρ)) : Int :=
  (if reg = .succeeded then p.2.2 else 0) + Spec.reported p.1 evs +
    Spec.yielded p.1 p.2.1 ((World.init ρ reg).run evs).ended

/-- Amounts are not negative. -/
def Spec.Sound (f : Metrics → Int) (evs : List (Event ρ)) : Prop :=
  (∀ m r, Event.ask (.report m r) ∈ evs → 0 ≤ f m) ∧
  (∀ i m, Event.finish i (.committed m) ∈ evs → 0 ≤ f m)

/-- C104, while the actor runs: of each of the four amounts, the master was never told more
than there was to tell, counting the heartbeat under way. The amounts must fit 64 bits. -/
theorem C104_not_more_partial (p : (Metrics → Int) × Int × Int) (hp : p ∈ Spec.parts) (reg : Registration)
    (evs : List (Event ρ)) (sound : Spec.Sound p.1 evs)
    (on : ((World.init ρ reg).run evs).stopped = false)
    (fits : Spec.toTell p reg evs ≤ 2 ^ 63 - 1) :
    Spec.confirmed p.1 ((World.init ρ reg).run evs).ended +
      Spec.underway p.1 ((World.init ρ reg).run evs).tasks ≤ Spec.toTell p reg evs := by
  have h := Flow.run (Part.of_mem hp) reg evs sound.1 sound.2 on fits
  have h1 := h.eq
  have h2 := h.pend
  simp only [Spec.toTell]
  omega

/-- C104, while the actor runs: at most one heartbeat is under way. -/
theorem C104_one_heartbeat (reg : Registration) (evs : List (Event ρ))
    (on : ((World.init ρ reg).run evs).stopped = false) :
    (((World.init ρ reg).run evs).tasks.filter
      fun t => match t with | .heartbeat _ => true | _ => false).length ≤ 1 := by
  have z : ∀ l : List (Event ρ), Spec.reported (fun _ => 0) l = 0 := by
    intro l
    induction l with
    | nil => rfl
    | cons e l ih =>
      cases e with
      | ask q => cases q <;> simp only [Spec.reported, ih, Int.zero_add]
      | finish i x => simp only [Spec.reported, ih]
  have z' : ∀ l : List (Task ρ × Remote), Spec.yielded (fun _ => 0) 0 l = 0 := by
    intro l
    induction l with
    | nil => rfl
    | cons e l ih =>
      obtain ⟨t, x⟩ := e
      cases t <;> cases x <;> simp only [Spec.yielded, ih, Int.zero_add]
  have part : Part (fun _ => 0) 0 0 := ⟨fun _ _ => rfl, rfl, fun _ => rfl, rfl, by simp, by simp⟩
  have h := (Flow.run part reg evs (fun _ _ _ => by simp) (fun _ _ _ => by simp) on
    (by rw [z, z']; simp)).beat
  have key : ∀ ts : List (Task ρ), (ts.filter
      fun t => match t with | .heartbeat _ => true | _ => false).length = (beats ts).length := by
    intro ts
    induction ts with
    | nil => rfl
    | cons t ts ih => cases t <;> simp [beats] <;> simpa [beats] using ih
  rw [key, h]
  cases ((World.init ρ reg).run evs).st.heartbeat <;> simp

/-- C104, while the actor runs: when no heartbeat is under way, the next one tells the master
all that it was not told: once it is confirmed the master was told all there was to tell.
A heartbeat that failed is not confirmed, so its amounts are in a later one. -/
theorem C104_all_told_partial (p : (Metrics → Int) × Int × Int) (hp : p ∈ Spec.parts) (reg : Registration)
    (evs : List (Event ρ)) (sound : Spec.Sound p.1 evs)
    (on : ((World.init ρ reg).run evs).stopped = false)
    (fits : Spec.toTell p reg evs ≤ 2 ^ 63 - 1)
    (idle : ∀ m, Task.heartbeat m ∉ ((World.init ρ reg).run evs).tasks) :
    ∃ m i, ((World.init ρ reg).run (evs ++ [.ask .heartbeat])).tasks[i]? = some (.heartbeat m) ∧
      Spec.confirmed p.1 ((World.init ρ reg).run evs).ended + p.1 m = Spec.toTell p reg evs ∧
      Spec.confirmed p.1 ((World.init ρ reg).run (evs ++ [.ask .heartbeat, .finish i .fine])).ended =
        Spec.toTell p reg (evs ++ [.ask .heartbeat, .finish i .fine]) := by
  have h := Flow.run (Part.of_mem hp) reg evs sound.1 sound.2 on fits
  have hb : beats ((World.init ρ reg).run evs).tasks = [] := by
    rw [List.eq_nil_iff_forall_not_mem]
    intro m hm
    simp only [beats, List.mem_filterMap] at hm
    obtain ⟨t, ht, hm⟩ := hm
    cases t <;> simp at hm
    exact idle _ ht
  have h0 := h.beat
  have h1 := h.eq
  have h2 : Spec.underway p.1 ((World.init ρ reg).run evs).tasks = 0 := by
    rw [underway_beats, hb]; rfl
  have hn : ((World.init ρ reg).run evs).st.heartbeat = none := by
    rw [hb] at h0
    cases hh : ((World.init ρ reg).run evs).st.heartbeat with
    | none => rfl
    | some m => rw [hh] at h0; simp at h0
  generalize hw : (World.init ρ reg).run evs = w at *
  have e1 : (World.init ρ reg).run (evs ++ [.ask .heartbeat]) =
      { w with st := { w.st with metrics := Metrics.zero, heartbeat := some w.st.metrics },
               tasks := w.tasks ++ [.heartbeat w.st.metrics] } := by
    rw [run_append, hw]
    simp [World.run, World.step, on, request, heartbeat, hn, World.apply]
  have hi : (w.tasks ++ [Task.heartbeat w.st.metrics])[w.tasks.length]? =
      some (.heartbeat w.st.metrics) := by simp
  have e2 : (World.init ρ reg).run (evs ++ [.ask .heartbeat, .finish w.tasks.length .fine]) =
      { w with st := { w.st with metrics := Metrics.zero, heartbeat := none },
               ended := w.ended ++ [(.heartbeat w.st.metrics, .fine)] } := by
    have : evs ++ [Event.ask .heartbeat, .finish w.tasks.length .fine] =
        (evs ++ [Event.ask .heartbeat]) ++ [.finish w.tasks.length .fine] := by simp
    rw [this, run_append, e1]
    simp [World.run, World.step, finish, World.handle, on, done, heartbeatDone, World.apply,
      List.eraseIdx_append_of_length_le]
  refine ⟨w.st.metrics, w.tasks.length, by rw [e1]; exact hi, ?_, ?_⟩
  · simp only [Spec.toTell, hw]; omega
  · simp only [Spec.toTell, e2, confirmed_append, yielded_append, reported_append]
    simp only [Spec.confirmed, Spec.yielded, Spec.reported]
    omega

/-- Reports, a heartbeat that fails, another report. -/
def Spec.beatRun : List (Event Nat) :=
  [.ask (.report ⟨10, 1, 0, 0⟩ 1), .ask .heartbeat, .finish 0 .failed,
    .ask (.report ⟨5, 2, 0, 0⟩ 2)]

/-- All that was reported is in the heartbeat after the one that failed. -/
example : Metrics.written ∈ Spec.parts.map Prod.fst ∧
    ((World.init Nat .succeeded).run Spec.beatRun).stopped = false ∧
    ((World.init Nat .succeeded).run Spec.beatRun).tasks = [] ∧
    Spec.toTell (Metrics.written, 0, 0) .succeeded Spec.beatRun = 15 ∧
    Spec.toTell (Metrics.apps, 0, 1) .succeeded Spec.beatRun = 1 ∧
    ((World.init Nat .succeeded).run (Spec.beatRun ++ [.ask .heartbeat])).tasks =
      [.heartbeat ⟨15, 3, 0, 1⟩] := by
  exact ⟨by simp [Spec.parts], rfl, rfl, rfl, rfl, rfl⟩

/-- The hypotheses of the theorems are met. -/
example : Spec.confirmed Metrics.written ((World.init Nat .succeeded).run Spec.beatRun).ended +
    Spec.underway Metrics.written ((World.init Nat .succeeded).run Spec.beatRun).tasks ≤ 15 :=
  C104_not_more_partial (Metrics.written, 0, 0) (by simp [Spec.parts]) .succeeded Spec.beatRun
    ⟨by simp [Spec.beatRun]; rintro m r (⟨rfl, _⟩ | ⟨rfl, _⟩) <;> decide, by simp [Spec.beatRun]⟩ rfl
    (by show (15 : Int) ≤ _; omega)

/-- A world that stopped with no tasks left. -/
theorem halted {w : World ρ} (hs : w.stopped = true) (ht : w.tasks = []) (evs : List (Event ρ)) :
    w.run evs = w := by
  induction evs with
  | nil => rfl
  | cons e evs ih =>
    have : w.step e = w := by
      cases e with
      | ask q => simp [World.step, hs]
      | finish i a => simp [World.step, ht]
    simp only [World.run, this]
    exact ih

/-- C104 fails when the actor stops: `stop` sends no last heartbeat, so what was reported since
the last one is never told to the master, whatever happens afterwards. -/
theorem C104_stop_loses : ∃ evs : List (Event Nat),
    (2, Answer.stopped) ∈ ((World.init Nat .succeeded).run evs).said ∧
    (1, Answer.done (.ok ())) ∈ ((World.init Nat .succeeded).run evs).said ∧
    Spec.toTell (Metrics.written, 0, 0) .succeeded evs = 10 ∧
    ∀ more, Spec.confirmed Metrics.written ((World.init Nat .succeeded).run (evs ++ more)).ended = 0 := by
  refine ⟨[.ask (.report ⟨10, 1, 0, 0⟩ 1), .ask (.stop 2), .finish 0 .fine],
    List.mem_of_getElem? (i := 1) rfl, List.mem_of_getElem? (i := 0) rfl, rfl, ?_⟩
  intro more
  rw [run_append, halted rfl rfl]
  rfl

end Verif.Celeborn
