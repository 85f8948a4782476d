import Verif.Celeborn.AnswerLemmas

/-!
# C101: every caller of the lifecycle manager is answered once
-/

namespace Verif.Celeborn

open Verif.Catalog (find)

variable {ρ : Type}

/-- Two tasks register shuffle 1 at the same time, a third one while slots are requested; the
first partition fails twice; a mapper ends; the shuffle is unregistered. -/
def Spec.loc0 : Loc := ⟨0, 0, 10, none⟩
def Spec.loc1 : Loc := ⟨0, 0, 11, none⟩
def Spec.granted : Reservation := ⟨[10], [(0, Spec.loc0)], [(10, ⟨[Spec.loc0], []⟩)]⟩
def Spec.other : Reservation := ⟨[11], [(0, Spec.loc1)], [(11, ⟨[Spec.loc1], []⟩)]⟩
def Spec.callRun : List (Event Nat) :=
  [.ask (.register 1 [0] false 0 100), .ask (.register 1 [0] false 0 101), .ask .heartbeat,
   .ask (.register 1 [0] false 0 102), .finish 0 (.reserved Spec.granted),
   .ask (.revive 1 0 Spec.loc0 42 103), .ask (.revive 1 0 Spec.loc0 42 104), .finish 0 .failed,
   .finish 0 (.reserved Spec.other), .ask (.mapperEnd 1 0 0 1 105), .finish 0 (.committed ⟨8, 2, 0, 0⟩),
   .ask (.unregister 1 106), .finish 0 .fine]

theorem Spec.callRun_said : ((World.init Nat .succeeded).run Spec.callRun).said.map (·.1) =
    [100, 101, 102, 103, 104, 105, 106] := rfl

/-- Nobody is answered more often than they asked; with one request per caller, at most
once. -/
theorem C101_at_most_once (reg : Registration) (evs : List (Event ρ)) (distinct : (asked evs).Nodup) :
    (((World.init ρ reg).run evs).said.map (·.1)).Nodup := by
  classical
  have b := (Balance.init (ρ := ρ) reg).run evs
  rw [List.nodup_iff_count]
  intro x
  have h1 := b.le x
  have h2 := List.nodup_iff_count.1 distinct x
  simp only [List.nil_append] at h1
  omega

/-- Nobody is answered who did not ask. -/
theorem C101_only_asked (reg : Registration) (evs : List (Event ρ)) (r : ρ) (a : Answer)
    (h : (r, a) ∈ ((World.init ρ reg).run evs).said) : r ∈ asked evs := by
  classical
  have b := ((Balance.init (ρ := ρ) reg).run evs).le r
  simp only [List.nil_append] at b
  have : 0 < (((World.init ρ reg).run evs).said.map (·.1)).count r :=
    List.count_pos_iff.2 (List.mem_map.2 ⟨_, h, rfl⟩)
  exact List.count_pos_iff.1 (by omega)

/-- When no task is in flight, everybody who asked was answered, each of their requests
once. -/
theorem C101_all_answered (reg : Registration) (evs : List (Event ρ))
    (on : ((World.init ρ reg).run evs).stopped = false)
    (idle : ((World.init ρ reg).run evs).tasks = []) :
    (((World.init ρ reg).run evs).said.map (·.1)).Perm (asked evs) := by
  classical
  have b := (Balance.init (ρ := ρ) reg).run evs
  simp only [List.nil_append] at b
  rw [List.perm_iff_count]
  intro x
  have h1 := b.bal on x
  have e1 : flat ((World.init ρ reg).run evs).st.pendingSlots = [] := by
    rw [flat, List.flatMap_eq_nil_iff]
    intro e he
    have := b.slots on e.1
    rw [idle, List.countP_nil, Verif.Catalog.find_of_mem b.pend.slots (k := e.1) (v := e.2) he] at this
    simp [one] at this
  have e2 : flat ((World.init ρ reg).run evs).st.pendingRevives = [] := by
    rw [flat, List.flatMap_eq_nil_iff]
    intro e he
    have := b.revives on e.1.1 e.1.2
    rw [idle, List.countP_nil,
      Verif.Catalog.find_of_mem b.pend.revives (k := (e.1.1, e.1.2)) (v := e.2) he] at this
    simp [one] at this
  rw [idle, State.waiting, e1, e2] at h1
  simpa using h1.symm

example : ((World.init Nat .succeeded).run Spec.callRun).tasks = [] := rfl

example : (asked Spec.callRun).Nodup ∧
    (((World.init Nat .succeeded).run Spec.callRun).said.map (·.1)).Perm (asked Spec.callRun) :=
  ⟨by decide, C101_all_answered .succeeded _ rfl rfl⟩

/-- One task at a time requests slots for a shuffle, and one at a time a replacement for a
partition. -/
theorem C101_one_task (reg : Registration) (evs : List (Event ρ))
    (on : ((World.init ρ reg).run evs).stopped = false) (sid pid : Int) :
    ((World.init ρ reg).run evs).tasks.countP (Task.isSlots sid) ≤ 1 ∧
    ((World.init ρ reg).run evs).tasks.countP (Task.isRevive sid pid) ≤ 1 := by
  classical
  have b := (Balance.init (ρ := ρ) reg).run evs
  have h1 := b.slots on sid
  have h2 := b.revives on sid pid
  rw [h1, h2]
  simp only [one]
  constructor <;> split <;> omega

example : ((World.init Nat .succeeded).run (Spec.callRun.take 4)).tasks.countP (Task.isSlots 1) = 1 :=
  rfl

/-- Everybody who registered a shuffle was answered, or gets the result of the task that
requests slots for it. -/
theorem C101_shared (reg : Registration) (evs : List (Event ρ)) (sid : Int) (parts parts' : List Int)
    (b b' : Bool) (m m' : Int) (r : ρ) (j : Nat) (res : Reservation)
    (h : Event.ask (.register sid parts b m r) ∈ evs)
    (on : ((World.init ρ reg).run evs).stopped = false)
    (task : ((World.init ρ reg).run evs).tasks[j]? = some (.slots sid parts' b' m')) :
    (∃ a, (r, a) ∈ ((World.init ρ reg).run evs).said) ∨
    (r, Answer.slots (.ok res)) ∈
      ((World.init ρ reg).run (evs ++ [.finish j (.reserved res)])).said := by
  have wt := (Waits.init (ρ := ρ) reg).run evs on
  rw [run_append]
  generalize hw : (World.init ρ reg).run evs = w at on task wt
  rcases wt.1 sid parts b m r (by simpa using h) with ha | ⟨rs, hf, hr⟩
  · exact .inl ha
  · right
    simp only [World.run, World.step, task, finish, World.handle, on, World.apply, done,
      registerDone, hf]
    exact List.mem_append_right _ (List.mem_map.2 ⟨r, hr, rfl⟩)

/-- ... and the error, if the task fails. -/
theorem C101_shared_error (reg : Registration) (evs : List (Event ρ)) (sid : Int)
    (parts parts' : List Int) (b b' : Bool) (m m' : Int) (r : ρ) (j : Nat)
    (h : Event.ask (.register sid parts b m r) ∈ evs)
    (on : ((World.init ρ reg).run evs).stopped = false)
    (task : ((World.init ρ reg).run evs).tasks[j]? = some (.slots sid parts' b' m')) :
    (∃ a, (r, a) ∈ ((World.init ρ reg).run evs).said) ∨
    (r, Answer.slots (.error .remote)) ∈
      ((World.init ρ reg).run (evs ++ [.finish j .failed])).said := by
  have wt := (Waits.init (ρ := ρ) reg).run evs on
  rw [run_append]
  generalize hw : (World.init ρ reg).run evs = w at on task wt
  rcases wt.1 sid parts b m r (by simpa using h) with ha | ⟨rs, hf, hr⟩
  · exact .inl ha
  · right
    simp only [World.run, World.step, task, finish, World.handle, on, World.apply, done,
      registerDone, hf]
    exact List.mem_append_right _ (List.mem_map.2 ⟨r, hr, rfl⟩)

example : (101, Answer.slots (.ok Spec.granted)) ∈ ((World.init Nat .succeeded).run
    (Spec.callRun.take 4 ++ [.finish 0 (.reserved Spec.granted)])).said := by
  rcases C101_shared .succeeded (Spec.callRun.take 4) 1 [0] [0] false false 0 0 101 0 Spec.granted
    (by simp [Spec.callRun]) rfl rfl with ⟨a, ha⟩ | h
  · exact nomatch (show _ ∈ ([] : List (Nat × Answer)) from ha)
  · exact h

example : (102, Answer.slots (.error .remote)) ∈ ((World.init Nat .succeeded).run
    (Spec.callRun.take 4 ++ [.finish 0 .failed])).said := by
  rcases C101_shared_error .succeeded (Spec.callRun.take 4) 1 [0] [0] false false 0 0 102 0
    (by simp [Spec.callRun]) rfl rfl with ⟨a, ha⟩ | h
  · exact nomatch (show _ ∈ ([] : List (Nat × Answer)) from ha)
  · exact h

end Verif.Celeborn
