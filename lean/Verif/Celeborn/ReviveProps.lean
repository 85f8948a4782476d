import Verif.Celeborn.ReviveLemmas
import Verif.Celeborn.AnswerProps

/-!
# C102: a partition that failed is replaced by a newer location
-/

namespace Verif.Celeborn

open Verif.Catalog (find put find_put mem_of_find)

variable {ρ : Type}

/-- Whoever reports a location gets one of the same partition with a larger epoch. `req` is
what every caller reported. -/
theorem C102_newer (reg : Registration) (evs : List (Event ρ)) (grant : Spec.AllGrant evs)
    (req : ρ → Int × Int × Loc)
    (asks : ∀ sid pid old cause r, Event.ask (.revive sid pid old cause r) ∈ evs →
      req r = (sid, pid, old))
    (r : ρ) (l : Loc) (h : (r, Answer.loc (.ok l)) ∈ ((World.init ρ reg).run evs).said) :
    l.id = (req r).2.1 ∧ (req r).2.2.epoch < l.epoch := by
  classical
  have inv := Rev.run (key := fun r => ((req r).1, (req r).2.1)) (old := fun r => (req r).2.2.epoch)
    reg evs (by
      intro sid pid o c r hm
      simp [asks sid pid o c r hm]) grant
  obtain ⟨h1, h2⟩ := inv.said r l h
  exact ⟨h2, h1⟩

/-- The two writers of `callRun` reported location 0 of epoch 0 and got one of epoch 1. -/
example : (103, Answer.loc (.ok ⟨0, 1, 11, none⟩)) ∈
      ((World.init Nat .succeeded).run Spec.callRun).said ∧
    Spec.AllGrant Spec.callRun := by
  constructor
  · have : ((World.init Nat .succeeded).run Spec.callRun).said[3]? =
      some (103, Answer.loc (.ok ⟨0, 1, 11, none⟩)) := rfl
    exact List.mem_of_getElem? this
  · intro i res h
    simp only [Spec.callRun, List.mem_cons, List.not_mem_nil, or_false, reduceCtorEq,
      false_or, Event.finish.injEq, Remote.reserved.injEq] at h
    simp only [and_false, or_false, false_or] at h
    rcases h with ⟨_, rfl⟩ | ⟨_, rfl⟩ <;> (unfold Spec.Grants; decide)

/-- Everybody who reported the partition was answered, or gets the same answer, when the task
that requests a replacement ends; if that is a location, its epoch is the next one. -/
theorem C102_shared (reg : Registration) (evs : List (Event ρ)) (sid pid : Int) (b : Bool)
    (ex : List Loc) (e : Int) (j : Nat) (x : Remote) (fit : x = .failed ∨ ∃ res, x = .reserved res)
    (on : ((World.init ρ reg).run evs).stopped = false)
    (task : ((World.init ρ reg).run evs).tasks[j]? = some (.revive sid pid b ex e)) :
    ∃ a : Except Err Loc, (∀ l, a = .ok l → l.epoch = e + 1 ∧ e ≠ maxI32) ∧
      ∀ old cause r, Event.ask (.revive sid pid old cause r) ∈ evs →
        (∃ a', (r, a') ∈ ((World.init ρ reg).run evs).said) ∨
        (r, Answer.loc a) ∈ ((World.init ρ reg).run (evs ++ [.finish j x])).said := by
  have wt := (Waits.init (ρ := ρ) reg).run evs on
  simp only [List.nil_append] at wt
  rw [run_append]
  generalize hw : (World.init ρ reg).run evs = w at on task wt
  -- the answers that the end of the task gives
  have key : ∀ (y : Except Err Reservation), finish (Task.revive sid pid b ex e : Task ρ) x =
      some (some (.revived sid pid y)) →
      (∀ rep, y = .ok rep → e ≠ maxI32 ∧ ∀ p ∈ rep.primary, p.2.epoch = e + 1) →
      ∃ a : Except Err Loc, (∀ l, a = .ok l → l.epoch = e + 1 ∧ e ≠ maxI32) ∧
        ∀ r rs, find w.st.pendingRevives (sid, pid) = some rs → r ∈ rs →
          (r, Answer.loc a) ∈ (w.run [.finish j x]).said := by
    intro y hy hep
    simp only [World.run, World.step, task, hy, World.handle, on, World.apply, done]
    simp only [reviveDone]
    cases y with
    | error er =>
      refine ⟨.error er, by simp, fun r rs hf hr => ?_⟩
      simp only [hf]
      exact List.mem_append_right _ (List.mem_map.2 ⟨r, hr, rfl⟩)
    | ok rep =>
      obtain ⟨hne, hep⟩ := hep rep rfl
      cases hl : find rep.primary pid with
      | none =>
        refine ⟨.error .noLocation, by simp, fun r rs hf hr => ?_⟩
        simp only [hf, hl]
        exact List.mem_append_right _ (List.mem_map.2 ⟨r, hr, rfl⟩)
      | some l =>
        cases hres : find w.st.reservations sid with
        | none =>
          refine ⟨.error .cancelled, by simp, fun r rs hf hr => ?_⟩
          simp only [hf, hl]
          exact List.mem_append_right _ (List.mem_map.2 ⟨r, hr, rfl⟩)
        | some res =>
          refine ⟨.ok l, ?_, fun r rs hf hr => ?_⟩
          · intro l' hl'
            cases hl'
            exact ⟨hep _ (mem_of_find hl), hne⟩
          · simp only [hf, hl]
            exact List.mem_append_right _ (List.mem_map.2 ⟨r, hr, rfl⟩)
  have main : ∃ y, finish (Task.revive sid pid b ex e : Task ρ) x =
      some (some (.revived sid pid y)) ∧
      (∀ rep, y = .ok rep → e ≠ maxI32 ∧ ∀ p ∈ rep.primary, p.2.epoch = e + 1) := by
    rcases fit with rfl | ⟨res, rfl⟩
    · exact ⟨_, rfl, by simp⟩
    · by_cases hm : e = maxI32
      · exact ⟨.error .remote, by simp [finish, hm], by simp⟩
      · refine ⟨.ok (res.withEpoch (e + 1)), by simp [finish, hm], ?_⟩
        rintro rep hrep
        cases hrep
        refine ⟨hm, fun p hp => ?_⟩
        obtain ⟨p0, _, rfl⟩ := List.mem_map.1 hp
        rfl
  obtain ⟨y, hy, hep⟩ := main
  obtain ⟨a, h1, h2⟩ := key y hy hep
  refine ⟨a, h1, fun old cause r hm => ?_⟩
  rcases wt.2 sid pid old cause r hm with ha | ⟨rs, hf, hr⟩
  · exact .inl ha
  · exact .inr (h2 r rs hf hr)

/-- Before the cluster answers, two callers of `callRun` wait for one replacement. -/
example : ∃ b ex e, ((World.init Nat .succeeded).run (Spec.callRun.take 7)).tasks[1]? =
      some (.revive 1 0 b ex e) ∧
    Event.ask (.revive 1 0 Spec.loc0 42 103) ∈ Spec.callRun.take 7 ∧
    Event.ask (.revive 1 0 Spec.loc0 42 104) ∈ Spec.callRun.take 7 :=
  ⟨_, _, _, rfl, by simp [Spec.callRun], by simp [Spec.callRun]⟩

/-- As long as nobody asked to unregister the shuffle, the replacement that the cluster
granted is what everybody gets who waits. -/
theorem C102_granted (reg : Registration) (evs : List (Event ρ)) (sid pid : Int) (b : Bool)
    (ex : List Loc) (e : Int) (j : Nat) (res : Reservation) (l : Loc)
    (keep : ∀ r, Event.ask (.unregister sid r) ∉ evs)
    (on : ((World.init ρ reg).run evs).stopped = false)
    (task : ((World.init ρ reg).run evs).tasks[j]? = some (.revive sid pid b ex e))
    (room : e ≠ maxI32) (has : find res.primary pid = some l)
    (old : Loc) (cause : Int) (r : ρ) (asks : Event.ask (.revive sid pid old cause r) ∈ evs) :
    (∃ a', (r, a') ∈ ((World.init ρ reg).run evs).said) ∨
    (r, Answer.loc (.ok { l with epoch := e + 1 })) ∈
      ((World.init ρ reg).run (evs ++ [.finish j (.reserved res)])).said := by
  have wt := (Waits.init (ρ := ρ) reg).run evs on
  have kp := reserved_run reg evs sid keep
  simp only [List.nil_append] at wt
  rw [run_append]
  generalize hw : (World.init ρ reg).run evs = w at on task wt kp
  rcases wt.2 sid pid old cause r asks with ha | ⟨rs, hf, hr⟩
  · exact .inl ha
  · right
    obtain ⟨res0, hres⟩ := Option.isSome_iff_exists.1 (kp.2 pid b ex e (List.mem_of_getElem? task))
    have hfin : finish (Task.revive sid pid b ex e : Task ρ) (.reserved res) =
        some (some (.revived sid pid (.ok (res.withEpoch (e + 1))))) := by simp [finish, room]
    have hl : find (res.withEpoch (e + 1)).primary pid = some (l.setEpoch (e + 1)) := by
      rw [Reservation.withEpoch, find_map_epoch, has]
      rfl
    simp only [World.run, World.step, task, hfin, World.handle, on, World.apply, done, reviveDone, hl,
      hres, hf]
    exact List.mem_append_right _ (List.mem_map.2 ⟨r, hr, rfl⟩)

example : (∀ r, Event.ask (.unregister 1 r) ∉ Spec.callRun.take 7) ∧
    find Spec.other.primary 0 = some Spec.loc1 ∧
    ((World.init Nat .succeeded).run (Spec.callRun.take 7)).tasks[1]? =
      some (.revive 1 0 false [Spec.loc0] 0) := ⟨by simp [Spec.callRun], rfl, rfl⟩

/-- The request for a replacement names the worker that was reported as failing, if the cause
is one of those for which a worker is to blame. -/
theorem C102_excluded (reg : Registration) (evs : List (Event ρ)) (sid pid : Int) (old : Loc)
    (cause : Int) (r : ρ) (sid' pid' : Int) (b : Bool) (ex : List Loc) (e : Int)
    (new : ((World.init ρ reg).run (evs ++ [.ask (.revive sid pid old cause r)])).tasks =
      ((World.init ρ reg).run evs).tasks ++ [.revive sid' pid' b ex e])
    (worker : Nat)
    (blame : (cause ∈ [19, 38, 40, 42, 44] ∧ old.worker = worker) ∨
      (cause ∈ [18, 39, 41, 43, 45] ∧ old.peer = some worker)) :
    ∃ l ∈ ex, l.worker = worker := by
  have hx := (Excl.init (ρ := ρ) reg).run evs
  rw [run_append] at new
  generalize hw : (World.init ρ reg).run evs = w at new hx
  simp only [World.run, World.step] at new
  cases hs : w.stopped with
  | true => simp [hs] at new
  | false =>
    simp only [hs, Bool.false_eq_true, if_false, World.apply, List.append_cancel_left_eq] at new
    rcases request_excluded w.st (.revive sid pid old cause r) with ⟨_, hno⟩ | ⟨s, p, o, c, r', hq, _, ht⟩
    · exact absurd (by rw [new]; simp) (hno sid' pid' b ex e)
    · cases hq
      have := ht sid' pid' b ex e (by rw [new]; simp)
      obtain ⟨q, hq, hqw⟩ := exclude_self hx.self (old := old) (cause := cause) (w := worker) blame
      exact ⟨q.2, by rw [this]; exact List.mem_map.2 ⟨q, hq, rfl⟩, hqw⟩

example : ((World.init Nat .succeeded).run
      (Spec.callRun.take 5 ++ [.ask (.revive 1 0 Spec.loc0 42 103)])).tasks =
    ((World.init Nat .succeeded).run (Spec.callRun.take 5)).tasks ++
      [.revive 1 0 false [Spec.loc0] 0] := rfl

/-- A worker excluded from one replacement is excluded from all later ones. -/
theorem C102_stays_excluded (reg : Registration) (evs more : List (Event ρ)) (sid pid : Int)
    (b : Bool) (ex : List Loc) (e : Int)
    (task : Task.revive sid pid b ex e ∈ ((World.init ρ reg).run evs).tasks)
    (q : Request ρ) (sid' pid' : Int) (b' : Bool) (ex' : List Loc) (e' : Int)
    (new : ((World.init ρ reg).run (evs ++ more ++ [.ask q])).tasks =
      ((World.init ρ reg).run (evs ++ more)).tasks ++ [.revive sid' pid' b' ex' e']) :
    ∀ l ∈ ex, l ∈ ex' := by
  intro l hl
  have hx := (Excl.init (ρ := ρ) reg).run evs
  obtain ⟨_, p, hp, rfl⟩ := hx.task sid pid b ex e task l hl
  have hp' := excluded_mono _ more p hp
  rw [← run_append] at hp'
  rw [run_append] at new
  generalize hw : (World.init ρ reg).run (evs ++ more) = w at new hp'
  simp only [World.run, World.step] at new
  cases hs : w.stopped with
  | true => simp [hs] at new
  | false =>
    simp only [hs, Bool.false_eq_true, if_false, World.apply, List.append_cancel_left_eq] at new
    rcases request_excluded w.st q with ⟨_, hno⟩ | ⟨s, p', o, c, r', hq, _, ht⟩
    · exact absurd (by rw [new]; simp) (hno sid' pid' b' ex' e')
    · rw [ht sid' pid' b' ex' e' (by rw [new]; simp)]
      exact List.mem_map.2 ⟨p, exclude_keep o c hp', rfl⟩

/-- Partition 1 of shuffle 2 fails on worker 12 after worker 10 was excluded. -/
def Spec.loc2 : Loc := ⟨1, 0, 12, some 13⟩
def Spec.twoRun : List (Event Nat) :=
  Spec.callRun.take 8 ++ [.ask (.register 2 [1] true 0 107),
    .finish 1 (.reserved ⟨[12], [(1, Spec.loc2)], [(12, ⟨[Spec.loc2], []⟩)]⟩)]

example : ((World.init Nat .succeeded).run (Spec.twoRun ++ [] ++
      [.ask (.revive 2 1 Spec.loc2 43 108)])).tasks =
    ((World.init Nat .succeeded).run (Spec.twoRun ++ [])).tasks ++
      [.revive 2 1 true [{ Spec.loc2 with worker := 13, peer := none }, Spec.loc0] 0] ∧
    Task.revive 1 0 false [Spec.loc0] 0 ∈ ((World.init Nat .succeeded).run Spec.twoRun).tasks :=
  ⟨rfl, List.mem_of_getElem? (i := 0) rfl⟩

/-- No worker is excluded that nobody reported for such a cause. -/
theorem C102_only_reported (reg : Registration) (evs : List (Event ρ)) (sid pid : Int) (b : Bool)
    (ex : List Loc) (e : Int)
    (task : Task.revive sid pid b ex e ∈ ((World.init ρ reg).run evs).tasks) :
    ∀ l ∈ ex, ∃ sid pid old cause r, Event.ask (.revive sid pid old cause r) ∈ evs ∧
      ((cause ∈ [19, 38, 40, 42, 44] ∧ old.worker = l.worker) ∨
        (cause ∈ [18, 39, 41, 43, 45] ∧ old.peer = some l.worker)) := by
  intro l hl
  have := ((Excl.init (ρ := ρ) reg).run evs).task sid pid b ex e task l hl
  simpa [Spec.Reported, primaryCauses, replicaCauses] using this.1

example : Task.revive 1 0 false [Spec.loc0] 0 ∈ ((World.init Nat .succeeded).run Spec.twoRun).tasks :=
  List.mem_of_getElem? (i := 0) rfl

end Verif.Celeborn
