import Verif.Celeborn.FrozenLemmas
import Verif.Celeborn.CommitProps

/-!
# C103: a shuffle is frozen while it is committed; C116: registration and stopping
-/

namespace Verif.Celeborn

open Verif.Catalog (find put erase Distinct find_put mem_of_find)

variable {ρ : Type}

theorem run_ask (w : World ρ) (evs : List (Event ρ)) (q : Request ρ)
    (live : (w.run evs).stopped = false) :
    w.run (evs ++ [.ask q]) = (w.run evs).apply (request (w.run evs).st q) := by
  rw [run_append]
  simp [World.run, World.step, live]

/-- While a shuffle is being committed, and after it was, no location of it is handed out or
asked for: a revival is answered with an error at once. Otherwise it is not refused for that
reason; in particular a shuffle whose commit failed can be revived. -/
theorem C103_frozen (reg : Registration) (evs : List (Event ρ)) (sid : Int)
    (keep : ∀ r, Event.ask (.unregister sid r) ∉ evs)
    (asks : ∀ m a n r, Event.ask (.mapperEnd sid m a n r) ∈ evs → 0 ≤ a)
    (live : ((World.init ρ reg).run evs).stopped = false)
    (pid : Int) (old : Loc) (cause : Int) (r : ρ) :
    (((∃ sl att r, Task.commit sid sl att r ∈ ((World.init ρ reg).run evs).tasks) ∨
      ∃ sl att r m, (Task.commit sid sl att r, Remote.committed m) ∈ ((World.init ρ reg).run evs).ended) →
      ∃ e, ((World.init ρ reg).run (evs ++ [.ask (.revive sid pid old cause r)])).said =
          ((World.init ρ reg).run evs).said ++ [(r, .loc (.error e))] ∧
        ((World.init ρ reg).run (evs ++ [.ask (.revive sid pid old cause r)])).tasks =
          ((World.init ρ reg).run evs).tasks) ∧
    (¬ (∃ sl att r, Task.commit sid sl att r ∈ ((World.init ρ reg).run evs).tasks) →
      ¬ (∃ sl att r m, (Task.commit sid sl att r, Remote.committed m) ∈ ((World.init ρ reg).run evs).ended) →
      ((World.init ρ reg).run (evs ++ [.ask (.revive sid pid old cause r)])).said ≠
          ((World.init ρ reg).run evs).said ++ [(r, .loc (.error .ended))]) := by
  obtain ⟨marks, _⟩ := Marks.run reg sid evs keep asks
  rw [run_ask _ _ _ live]
  generalize (World.init ρ reg).run evs = w at marks live
  have h1 := marks.committing live
  have h2 := marks.committed live
  rw [← inFlight_count] at h1
  constructor
  · intro h
    have hc : sid ∈ w.st.committing ∨ sid ∈ w.st.committed := h.imp h1.2 h2.2
    simp only [World.apply, request, revive]
    split
    · exact ⟨_, rfl, by simp⟩
    · exact ⟨_, rfl, by simp⟩
  · intro ha hb
    have hc : ¬(sid ∈ w.st.committing ∨ sid ∈ w.st.committed) := by
      rintro (h | h)
      · exact ha (h1.1 h)
      · exact hb (h2.1 h)
    simp only [World.apply, request, revive, ne_eq, List.append_cancel_left_eq]
    split
    · simp
    · split
      · simp
      · split
        · simp
        · split
          · simp
          · split <;> simp

/-- The commit of a shuffle is under way; then it fails. -/
example : ((World.init Nat .succeeded).run [.ask (.register 1 [0] false 0 0),
      .finish 0 (.reserved Spec.granted), .ask (.mapperEnd 1 0 0 1 1)]).tasks =
        [.commit 1 [(10, ⟨[Spec.loc0], []⟩)] [0] 1] ∧
    ((World.init Nat .succeeded).run [.ask (.register 1 [0] false 0 0),
      .finish 0 (.reserved Spec.granted), .ask (.mapperEnd 1 0 0 1 1), .finish 0 .failed]).tasks = [] ∧
    ((World.init Nat .succeeded).run [.ask (.register 1 [0] false 0 0),
      .finish 0 (.reserved Spec.granted), .ask (.mapperEnd 1 0 0 1 1), .finish 0 .failed]).stopped = false :=
  ⟨rfl, rfl, rfl⟩

/-- As long as the application is not registered, and when its registration failed, the cluster
is sent nothing but heartbeats, and nothing is handed out. -/
theorem C116_unregistered (reg : Registration) (no : reg ≠ .succeeded) (evs : List (Event ρ)) :
    (∀ t ∈ ((World.init ρ reg).run evs).tasks ++ ((World.init ρ reg).run evs).ended.map (·.1),
      (∃ m, t = .heartbeat m) ∨ ∃ r, t = .stop [] r) ∧
    (∀ r res, (r, Answer.slots (.ok res)) ∉ ((World.init ρ reg).run evs).said) ∧
    (∀ r l, (r, Answer.loc (.ok l)) ∉ ((World.init ρ reg).run evs).said) := by
  have err : reg.error = true := by cases reg <;> simp_all [Registration.error]
  have k := Shut.run reg err evs
  refine ⟨?_, fun r res h => k.said _ h trivial, fun r l h => k.said _ h trivial⟩
  intro t ht
  have it : Spec.Idle t := by
    rcases List.mem_append.1 ht with ht | ht
    · exact k.tasks t ht
    · obtain ⟨x, hx, rfl⟩ := List.mem_map.1 ht
      exact k.ended x hx
  cases t <;> simp only [Spec.Idle] at it
  · exact Or.inl ⟨_, rfl⟩
  · subst it
    exact Or.inr ⟨_, rfl⟩

/-- The three requests that need the cluster are answered with the error of the application. -/
theorem C116_refused (reg : Registration) (no : reg ≠ .succeeded) (evs : List (Event ρ))
    (live : ((World.init ρ reg).run evs).stopped = false) (sid pid : Int) (ps : List Int) (b : Bool)
    (n : Int) (old : Loc) (cause : Int) (r : ρ) :
    ((World.init ρ reg).run (evs ++ [.ask (.register sid ps b n r)])).said =
      ((World.init ρ reg).run evs).said ++ [(r, .slots (.error .application))] ∧
    ((World.init ρ reg).run (evs ++ [.ask (.revive sid pid old cause r)])).said =
      ((World.init ρ reg).run evs).said ++ [(r, .loc (.error .application))] ∧
    ((World.init ρ reg).run (evs ++ [.ask (.unregister sid r)])).said =
      ((World.init ρ reg).run evs).said ++ [(r, .done (.error .application))] := by
  have err : reg.error = true := by cases reg <;> simp_all [Registration.error]
  have k := Shut.run reg err evs
  rw [run_ask _ _ _ live, run_ask _ _ _ live, run_ask _ _ _ live]
  simp [World.apply, request, register, revive, unregister, k.reg, k.reservations, k.slots, find]

/-- A registration that failed, and one that is under way. -/
example : ((World.init Nat .failed).run [.ask (.register 1 [0] false 0 0), .ask .heartbeat,
      .ask (.unregister 1 5), .ask (.stop 6)]).tasks = [.heartbeat Metrics.zero, .stop [] 6] ∧
    ((World.init Nat .pending).run [.ask (.register 1 [0] false 0 0), .ask .heartbeat]).said =
      [(0, .slots (.error .application))] ∧
    ((World.init Nat .pending).run [.ask (.register 1 [0] false 0 0), .ask .heartbeat]).stopped = false :=
  ⟨rfl, rfl, rfl⟩

/-- Once the application is registered, nothing is refused for want of it. -/
theorem C116_served (evs : List (Event ρ)) (r : ρ) :
    (r, Answer.slots (.error .application)) ∉ ((World.init ρ .succeeded).run evs).said ∧
    (r, Answer.loc (.error .application)) ∉ ((World.init ρ .succeeded).run evs).said ∧
    (r, Answer.done (.error .application)) ∉ ((World.init ρ .succeeded).run evs).said := by
  have k := (serves_run .succeeded rfl evs).2
  exact ⟨fun h => k _ h trivial, fun h => k _ h trivial, fun h => k _ h trivial⟩

example : ((World.init Nat .succeeded).run [.ask (.register 1 [0] false 0 0), .ask (.unregister 1 5)]).tasks =
    [.slots 1 [0] false 0, .unregister 1 5] := rfl

/-- Stopping unregisters every shuffle that somebody was told slots for and that nobody asked
to unregister, and only shuffles that the cluster granted. -/
theorem C116_stop_partial (reg : Registration) (evs : List (Event ρ))
    (live : ((World.init ρ reg).run evs).stopped = false) (list : Spec.AllList evs) (key : ρ → Int)
    (hk : ∀ s ps b m r, Event.ask (.register s ps b m r) ∈ evs → key r = s)
    (hk' : ∀ s p o c r, Event.ask (.revive s p o c r) ∈ evs → key r = s) (r : ρ) :
    ∃ sids, ((World.init ρ reg).run (evs ++ [.ask (.stop r)])).tasks =
        ((World.init ρ reg).run evs).tasks ++ [.stop sids r] ∧
      (∀ r' res, (r', Answer.slots (.ok res)) ∈ ((World.init ρ reg).run evs).said →
        (∀ r, Event.ask (.unregister (key r') r) ∉ evs) → key r' ∈ sids) ∧
      ∀ sid ∈ sids, ∃ ps b m res,
        (Task.slots sid ps b m, Remote.reserved res) ∈ ((World.init ρ reg).run evs).ended := by
  classical
  refine ⟨((World.init ρ reg).run evs).st.registered.map (·.1), ?_, ?_, ?_⟩
  · rw [run_ask _ _ _ live]
    rfl
  · intro r' res h keep
    obtain ⟨t, ht, _⟩ := (Cov.run key (key r') reg evs keep list hk hk').slots r' res h rfl
    exact List.mem_map.2 ⟨_, mem_of_find ht, rfl⟩
  · exact fun sid h => registered_granted reg evs sid h

/-- A shuffle that was unregistered is not unregistered again by stopping. -/
theorem C116_stop_gone (reg : Registration) (evs : List (Event ρ)) (i : Nat) (sid : Int) (r r' : ρ)
    (live : ((World.init ρ reg).run evs).stopped = false)
    (task : ((World.init ρ reg).run evs).tasks[i]? = some (.unregister sid r)) :
    ∃ sids, ((World.init ρ reg).run (evs ++ [.finish i .fine] ++ [.ask (.stop r')])).tasks =
        ((World.init ρ reg).run (evs ++ [.finish i .fine])).tasks ++ [.stop sids r'] ∧ sid ∉ sids := by
  have e : ((World.init ρ reg).run (evs ++ [.finish i .fine])).stopped = false ∧
      ((World.init ρ reg).run (evs ++ [.finish i .fine])).st.registered =
        erase ((World.init ρ reg).run evs).st.registered sid := by
    rw [run_append]
    simp [World.run, World.step, task, finish, World.handle, live, World.apply, done, unregisterDone]
  refine ⟨((World.init ρ reg).run (evs ++ [.finish i .fine])).st.registered.map (·.1), ?_, ?_⟩
  · rw [run_ask _ _ _ e.1]
    rfl
  · rw [e.2]
    intro h
    obtain ⟨x, hx, hs⟩ := List.mem_map.1 h
    have := (List.mem_filter.1 hx).2
    simp [hs] at this

/-- Two shuffles; one is unregistered before the manager stops. -/
example : ((World.init Nat .succeeded).run [.ask (.register 1 [0] false 0 0),
      .ask (.register 2 [0] false 0 1), .finish 0 (.reserved Spec.granted), .finish 0 (.reserved Spec.granted),
      .ask (.unregister 1 2), .finish 0 .fine, .ask (.stop 3)]).tasks = [.stop [2] 3] := rfl

/-- A reservation that is granted after stopping was asked for is not unregistered by it; what
was told is told, and nothing else is under way. -/
theorem C116_stop_leaks : ∃ evs : List (Event Nat),
    ((World.init Nat .succeeded).run evs).stopped = true ∧
    ((World.init Nat .succeeded).run evs).tasks = [] ∧
    (∀ r, Event.ask (.unregister 1 r) ∉ evs) ∧
    (∃ res, (Task.slots 1 [0] false 0, Remote.reserved res) ∈ ((World.init Nat .succeeded).run evs).ended) ∧
    (∃ res, (0, Answer.slots (.ok res)) ∈ ((World.init Nat .succeeded).run evs).said) ∧
    ∀ sids r a, (Task.stop sids r, a) ∈ ((World.init Nat .succeeded).run evs).ended → 1 ∉ sids := by
  refine ⟨[.ask (.register 1 [0] false 0 0), .ask (.stop 1), .finish 0 (.reserved Spec.granted),
    .finish 0 .fine], rfl, rfl, by simp, ⟨Spec.granted, List.mem_of_getElem? (i := 0) rfl⟩,
    ⟨Spec.granted, List.mem_of_getElem? (i := 0) rfl⟩, ?_⟩
  intro sids r a h
  have e : ((World.init Nat .succeeded).run [.ask (.register 1 [0] false 0 0), .ask (.stop 1),
      .finish 0 (.reserved Spec.granted), .finish 0 .fine]).ended =
      [(.slots 1 [0] false 0, .reserved Spec.granted), (.stop [] 1, .fine)] := rfl
  rw [e] at h
  simp at h
  simp [h.1.1]

end Verif.Celeborn
