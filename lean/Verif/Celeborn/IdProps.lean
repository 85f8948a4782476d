import Verif.Celeborn.IdLemmas

/-!
# C100: a shuffle id names one stage of one job for ever
-/

namespace Verif.Celeborn

open Verif.Catalog (find mem_of_find find_of_mem)

variable {ρ : Type}

/-- Every caller that asks for a shuffle id asks for one stage of one job, `key`. -/
def Spec.Asks (key : ρ → Nat × Nat) (evs : List (Event ρ)) : Prop :=
  ∀ job stage r, Event.ask (.getId job stage r) ∈ evs → key r = (job, stage)

/-- A run in which two tasks ask for stage 3 of job 7, one for stage 4; stage 3 is
unregistered and asked for again. -/
def Spec.idRun : List (Event (Nat × Nat × Nat)) :=
  [.ask (.getId 7 3 (0, 7, 3)), .ask (.getId 7 4 (1, 7, 4)), .ask (.getId 7 3 (2, 7, 3)),
   .ask (.unregister 1 (3, 0, 0)), .finish 0 .fine, .ask (.getId 7 3 (4, 7, 3))]

theorem Spec.idRun_asks : Spec.Asks (fun r : Nat × Nat × Nat => r.2) Spec.idRun := by
  intro job stage r h
  simp only [Spec.idRun, List.mem_cons, Event.ask.injEq, Request.getId.injEq, reduceCtorEq,
    List.not_mem_nil, or_false, false_or] at h
  rcases h with ⟨rfl, rfl, rfl⟩ | ⟨rfl, rfl, rfl⟩ | ⟨rfl, rfl, rfl⟩ | ⟨rfl, rfl, rfl⟩ <;> rfl

/-- What the callers are told in that run. -/
theorem Spec.idRun_said : ((World.init (Nat × Nat × Nat) .succeeded).run Spec.idRun).said =
    [((0, 7, 3), .id (.ok 1)), ((1, 7, 4), .id (.ok 2)), ((2, 7, 3), .id (.ok 1)),
     ((3, 0, 0), .done (.ok ())), ((4, 7, 3), .id (.ok 3))] := rfl

/-- Two callers that were told the same number asked for the same stage. -/
theorem C100_unique (reg : Registration) (key : ρ → Nat × Nat) (evs : List (Event ρ))
    (hk : Spec.Asks key evs) (r r' : ρ) (i : Int)
    (h : (r, Answer.id (.ok i)) ∈ ((World.init ρ reg).run evs).said)
    (h' : (r', Answer.id (.ok i)) ∈ ((World.init ρ reg).run evs).said) : key r = key r' :=
  (Told.run (U := fun _ => True) reg evs hk fun _ _ _ => trivial).1.one r r' i h h'

example : (((0, 7, 3) : Nat × Nat × Nat)).2 = ((2, 7, 3) : Nat × Nat × Nat).2 :=
  C100_unique .succeeded _ Spec.idRun Spec.idRun_asks (0, 7, 3) (2, 7, 3) 1
    (by rw [Spec.idRun_said]; simp) (by rw [Spec.idRun_said]; simp)

/-- Two callers that asked for the same stage were told the same number, if nobody asked to
unregister the numbers they were told. -/
theorem C100_same (reg : Registration) (key : ρ → Nat × Nat) (evs : List (Event ρ))
    (hk : Spec.Asks key evs) (r r' : ρ) (i i' : Int)
    (h : (r, Answer.id (.ok i)) ∈ ((World.init ρ reg).run evs).said)
    (h' : (r', Answer.id (.ok i')) ∈ ((World.init ρ reg).run evs).said) (he : key r = key r')
    (hu : ∀ q, Event.ask (.unregister i q) ∉ evs) (hu' : ∀ q, Event.ask (.unregister i' q) ∉ evs) :
    i = i' := by
  have t := (Told.run (U := fun j => ∃ q, Event.ask (.unregister j q) ∈ evs) reg evs hk
    fun s q hq => ⟨q, hq⟩).1
  have e1 := t.keep r i h fun ⟨q, hq⟩ => hu q hq
  have e2 := t.keep r' i' h' fun ⟨q, hq⟩ => hu' q hq
  rw [he, e2] at e1
  exact (Option.some.inj e1).symm

example : (1 : Int) = 1 :=
  C100_same .succeeded (fun r : Nat × Nat × Nat => r.2) (Spec.idRun.take 3)
    (fun j s r h => Spec.idRun_asks j s r (List.mem_of_mem_take h)) (0, 7, 3) (2, 7, 3) 1 1
    (show _ ∈ [((0, 7, 3), Answer.id (.ok 1)), ((1, 7, 4), .id (.ok 2)), ((2, 7, 3), .id (.ok 1))]
      by simp)
    (show _ ∈ [((0, 7, 3), Answer.id (.ok 1)), ((1, 7, 4), .id (.ok 2)), ((2, 7, 3), .id (.ok 1))]
      by simp)
    rfl (by simp [Spec.idRun]) (by simp [Spec.idRun])

/-- The numbers are positive 32-bit integers. -/
theorem C100_range (reg : Registration) (key : ρ → Nat × Nat) (evs : List (Event ρ))
    (hk : Spec.Asks key evs) (r : ρ) (i : Int)
    (h : (r, Answer.id (.ok i)) ∈ ((World.init ρ reg).run evs).said) : 0 < i ∧ i < 2 ^ 31 := by
  have t := Told.run (U := fun _ => True) reg evs hk fun _ _ _ => trivial
  have := t.1.rng r i h
  have hm := t.2.max
  simp only [maxI32] at hm
  omega

example : 0 < (3 : Int) ∧ (3 : Int) < 2 ^ 31 :=
  C100_range .succeeded _ Spec.idRun Spec.idRun_asks (4, 7, 3) 3 (by rw [Spec.idRun_said]; simp)

/-- A request for an id is refused only when the largest number was handed out. -/
theorem C100_exhausted (reg : Registration) (key : ρ → Nat × Nat) (evs : List (Event ρ))
    (hk : Spec.Asks key evs) (r : ρ) (e : Err)
    (h : (r, Answer.id (.error e)) ∈ ((World.init ρ reg).run evs).said) :
    ∃ r', (r', Answer.id (.ok (2 ^ 31 - 1))) ∈ ((World.init ρ reg).run evs).said := by
  have t := (Told.run (U := fun _ => True) reg evs hk fun _ _ _ => trivial).1
  have hm := t.full r e h
  rcases t.last with h0 | ⟨r', hr'⟩
  · rw [h0] at hm
    simp [maxI32] at hm
  · rw [hm] at hr'
    exact ⟨r', hr'⟩

/-- At the end of the numbers a new stage is refused and a known one is still told its id. -/
example (s : State Nat) (h : s.next = 2 ^ 31 - 1) (hn : find s.ids (1, 2) = none)
    (hs : find s.ids (1, 1) = some 5) :
    (getId s 1 2 0).said = [(0, .id (.error .exhausted))] ∧
    (getId s 1 1 0).said = [(0, .id (.ok 5))] := by
  simp [getId, hn, hs, h, maxI32]

/-- A number that was unregistered is never told to anyone again. -/
theorem C100_gone (reg : Registration) (key : ρ → Nat × Nat) (evs later : List (Event ρ))
    (hk : Spec.Asks key evs) (r r0 : ρ) (i : Int) (j : Nat)
    (told : (r0, Answer.id (.ok i)) ∈ ((World.init ρ reg).run evs).said)
    (on : ((World.init ρ reg).run evs).stopped = false)
    (task : ((World.init ρ reg).run evs).tasks[j]? = some (.unregister i r)) :
    ∃ new, ((World.init ρ reg).run (evs ++ .finish j .fine :: later)).said =
        ((World.init ρ reg).run (evs ++ [.finish j .fine])).said ++ new ∧
      ∀ p ∈ new, p.2 ≠ Answer.id (.ok i) := by
  have t := (Told.run (U := fun _ => True) reg evs hk fun _ _ _ => trivial).1
  rw [run_append, run_append]
  generalize hw : (World.init ρ reg).run evs = w at told on task t
  have hst : (w.step (.finish j .fine)).st = (unregisterDone w.st i (.ok ()) r).st := by
    simp [World.step, task, finish, World.handle, on, World.apply, done]
  refine gone_run later (w.step (.finish j .fine)) ?_ ?_
  · intro x hx
    rw [hst] at hx
    have := (List.mem_filter.1 hx).2
    simpa using this
  · rw [hst]
    exact (t.rng r0 i told).2

example : ∃ new, ((World.init (Nat × Nat × Nat) .succeeded).run
      (Spec.idRun.take 4 ++ .finish 0 .fine :: [.ask (.getId 7 3 (4, 7, 3))])).said =
        ((World.init (Nat × Nat × Nat) .succeeded).run (Spec.idRun.take 4 ++ [.finish 0 .fine])).said
          ++ new ∧ ∀ p ∈ new, p.2 ≠ Answer.id (.ok 1) :=
  C100_gone .succeeded (fun r : Nat × Nat × Nat => r.2) (Spec.idRun.take 4) _
    (fun j s r h => Spec.idRun_asks j s r (List.mem_of_mem_take h)) (3, 0, 0) (0, 7, 3) 1 0
    (show _ ∈ [((0, 7, 3), Answer.id (.ok 1)), ((1, 7, 4), .id (.ok 2)), ((2, 7, 3), .id (.ok 1))]
      by simp)
    rfl rfl

/-- The list of the shuffles of a job: a caller that asks for a stage in the list is told the
id in the list. -/
theorem C100_job_sound (reg : Registration) (key : ρ → Nat × Nat) (evs : List (Event ρ))
    (hk : Spec.Asks key evs) (on : ((World.init ρ reg).run evs).stopped = false) (job : Nat) (r : ρ) :
    ∃ l, ((World.init ρ reg).run (evs ++ [.ask (.jobIds job r)])).said =
        ((World.init ρ reg).run evs).said ++ [(r, .ids l)] ∧
      ∀ stage i, (stage, i) ∈ l → ∀ r',
        ((World.init ρ reg).run (evs ++ [.ask (.getId job stage r')])).said =
          ((World.init ρ reg).run evs).said ++ [(r', .id (.ok i))] := by
  have ok := (Told.run (U := fun _ => True) reg evs hk fun _ _ _ => trivial).2
  simp only [run_append]
  generalize hw : (World.init ρ reg).run evs = w at on ok
  refine ⟨_, by simp only [World.run, World.step, on, World.apply, request, jobIds]; rfl, ?_⟩
  intro stage i hm r'
  obtain ⟨e, he, hv⟩ := List.mem_filterMap.1 hm
  split at hv
  · rename_i hj
    cases hv
    have : find w.st.ids (job, e.1.2) = some e.2 := by
      refine find_of_mem ok.keys ?_
      rw [← hj]
      exact he
    simp [World.run, World.step, on, World.apply, request, getId, this]
  · exact nomatch hv

example : ((World.init (Nat × Nat × Nat) .succeeded).run
    (Spec.idRun ++ [.ask (.jobIds 7 (9, 0, 0))])).said =
      ((World.init (Nat × Nat × Nat) .succeeded).run Spec.idRun).said ++
        [((9, 0, 0), .ids [(3, 3), (4, 2)])] := rfl

/-- The list of the shuffles of a job: a stage whose id was told, and that nobody asked to
unregister, is in the list. -/
theorem C100_job_complete (reg : Registration) (key : ρ → Nat × Nat) (evs : List (Event ρ))
    (hk : Spec.Asks key evs) (on : ((World.init ρ reg).run evs).stopped = false) (job : Nat) (r : ρ) :
    ∃ l, ((World.init ρ reg).run (evs ++ [.ask (.jobIds job r)])).said =
        ((World.init ρ reg).run evs).said ++ [(r, .ids l)] ∧
      ∀ r' stage i, (r', Answer.id (.ok i)) ∈ ((World.init ρ reg).run evs).said →
        key r' = (job, stage) → (∀ q, Event.ask (.unregister i q) ∉ evs) → (stage, i) ∈ l := by
  have t := (Told.run (U := fun j => ∃ q, Event.ask (.unregister j q) ∈ evs) reg evs hk
    fun s q hq => ⟨q, hq⟩).1
  simp only [run_append]
  generalize hw : (World.init ρ reg).run evs = w at on t
  refine ⟨_, by simp only [World.run, World.step, on, World.apply, request, jobIds]; rfl, ?_⟩
  intro r' stage i hm hkey hu
  have := t.keep r' i hm fun ⟨q, hq⟩ => hu q hq
  rw [hkey] at this
  exact List.mem_filterMap.2 ⟨_, mem_of_find this, by simp⟩

example : ((World.init (Nat × Nat × Nat) .succeeded).run
    (Spec.idRun.take 3 ++ [.ask (.jobIds 7 (9, 0, 0))])).said =
      ((World.init (Nat × Nat × Nat) .succeeded).run (Spec.idRun.take 3)).said ++
        [((9, 0, 0), .ids [(4, 2), (3, 1)])] := rfl

end Verif.Celeborn
