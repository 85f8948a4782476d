import Verif.Celeborn.CoverLemmas
import Verif.Celeborn.AnswerProps

/-!
# C103: the files of a shuffle are committed when all mappers ended
-/

namespace Verif.Celeborn

open Verif.Catalog (find put Distinct find_put mem_of_find)

variable {ρ : Type}

/-- A commit names, for every mapper, the first attempt whose end was not refused; so all
mappers have reported. `n` is the number of mappers that they name. -/
theorem C103_first (reg : Registration) (evs : List (Event ρ)) (sid n : Int)
    (sl : List (Nat × Slots)) (att : List Int) (r : ρ)
    (keep : ∀ r, Event.ask (.unregister sid r) ∉ evs)
    (asks : ∀ m a n' r, Event.ask (.mapperEnd sid m a n' r) ∈ evs → 0 ≤ a ∧ n' = n)
    (h : Task.commit sid sl att r ∈ ((World.init ρ reg).run evs).tasks ∨
      ∃ x, (Task.commit sid sl att r, x) ∈ ((World.init ρ reg).run evs).ended) :
    att.length = n.toNat ∧
    ∀ m, 0 ≤ m → m < n → ∃ pre a n' r' post, att[m.toNat]? = some a ∧
      evs = pre ++ .ask (.mapperEnd sid m a n' r') :: post ∧
      ∀ a2 n2 r2, Event.ask (.mapperEnd sid m a2 n2 r2) ∈ pre →
        ∃ er, er ≠ .remote ∧ (r2, Answer.done (.error er)) ∈ ((World.init ρ reg).run evs).said := by
  have inv := Att.run reg sid evs keep fun m a n' r hm => (asks m a n' r hm).1
  obtain ⟨hf, hno⟩ := inv.begun sl att r h
  obtain ⟨m0, a0, n0, r0, hm, hlen⟩ := attempts_length reg sid evs keep att hf
  rw [(asks m0 a0 n0 r0 hm).2] at hlen
  refine ⟨hlen, fun m h0 hn => ?_⟩
  have hlt : m.toNat < att.length := by omega
  have hv : att[m.toNat]? = some att[m.toNat] := List.getElem?_eq_getElem hlt
  have hne : att[m.toNat] ≠ -1 := fun hh => hno (hh ▸ List.getElem_mem hlt)
  obtain ⟨pre, n', r', post, h1, h2⟩ := inv.set att hf m.toNat _ hv hne
  rw [Int.toNat_of_nonneg h0] at h1 h2
  exact ⟨pre, _, n', r', post, hv, h1, h2⟩

/-- Two mappers; the first attempt of mapper 0 is refused because nothing is registered yet,
the second is recorded, the third is too late. -/
def Spec.commitRun : List (Event Nat) :=
  [.ask (.mapperEnd 1 0 0 2 200), .ask (.register 1 [0] false 0 201), .finish 0 (.reserved Spec.granted),
   .ask (.mapperEnd 1 0 1 2 202), .ask (.mapperEnd 1 0 2 2 203), .ask (.revive 1 0 Spec.loc0 42 204),
   .finish 0 (.reserved Spec.other), .ask (.mapperEnd 1 1 0 2 205)]

example : ((World.init Nat .succeeded).run Spec.commitRun).tasks = [.commit 1
      [(11, ⟨[⟨0, 1, 11, none⟩], []⟩), (10, ⟨[Spec.loc0], []⟩)] [1, 0] 205] ∧
    (∀ r, Event.ask (.unregister 1 r) ∉ Spec.commitRun) ∧
    ∀ m a n' r, Event.ask (.mapperEnd 1 m a n' r) ∈ Spec.commitRun → 0 ≤ a ∧ n' = 2 := by
  refine ⟨rfl, by simp [Spec.commitRun], ?_⟩
  intro m a n' r h
  simp [Spec.commitRun] at h
  omega

/-- A shuffle is committed once. -/
theorem C103_once (reg : Registration) (evs : List (Event ρ)) (sid : Int)
    (keep : ∀ r, Event.ask (.unregister sid r) ∉ evs)
    (asks : ∀ m a n r, Event.ask (.mapperEnd sid m a n r) ∈ evs → 0 ≤ a) :
    (((World.init ρ reg).run evs).tasks ++ ((World.init ρ reg).run evs).ended.map (·.1)).countP
      (fun t => match t with | .commit s _ _ _ => decide (s = sid) | _ => false) ≤ 1 := by
  have := commits_le reg sid evs keep asks
  rw [World.commits] at this
  rw [List.countP_append, List.countP_map]
  have e : (Task.isCommit sid : Task ρ → Bool) =
      fun t => match t with | .commit s _ _ _ => decide (s = sid) | _ => false := by
    funext t
    cases t <;> rfl
  rw [← e]
  exact this

example : ((World.init Nat .succeeded).run Spec.commitRun).commits 1 = 1 := rfl

/-- When a commit is begun, it covers every location that anybody was told for the shuffle
before: under its worker, by its partition and epoch. `key` is the shuffle of every caller. -/
theorem C103_covers (reg : Registration) (evs : List (Event ρ)) (sid : Int)
    (keep : ∀ r, Event.ask (.unregister sid r) ∉ evs) (list : Spec.AllList evs)
    (key : ρ → Int)
    (hk : ∀ s ps b m r, Event.ask (.register s ps b m r) ∈ evs → key r = s)
    (hk' : ∀ s p o c r, Event.ask (.revive s p o c r) ∈ evs → key r = s)
    (q : Request ρ) (sl : List (Nat × Slots)) (att : List Int) (r : ρ)
    (new : ((World.init ρ reg).run (evs ++ [.ask q])).tasks =
      ((World.init ρ reg).run evs).tasks ++ [.commit sid sl att r])
    (r' : ρ) (hr : key r' = sid) :
    (∀ res, (r', Answer.slots (.ok res)) ∈ ((World.init ρ reg).run evs).said →
      ∀ p ∈ res.primary, Spec.Covers sl p.2) ∧
    (∀ l, (r', Answer.loc (.ok l)) ∈ ((World.init ρ reg).run evs).said → Spec.Covers sl l) := by
  classical
  have inv := Cov.run key sid reg evs keep list hk hk'
  rw [run_append] at new
  generalize (World.init ρ reg).run evs = w at new inv
  simp only [World.run, World.step] at new
  cases hs : w.stopped with
  | true => simp [hs] at new
  | false =>
    simp only [hs, Bool.false_eq_true, if_false, World.apply, List.append_cancel_left_eq] at new
    have hreg : find w.st.registered sid = some sl := by
      by_cases hq : ∃ s m a n r, q = .mapperEnd s m a n r
      · obtain ⟨s, m, a, n, r0, rfl⟩ := hq
        have new' : (mapperEnd w.st s m a n r0).tasks = [.commit sid sl att r] := new
        obtain ⟨_, _, hends⟩ := mapperEnd_cases w.st s m a n r0
        cases hends with
        | refused er her hs ht ha hc => rw [ht] at new'; exact nomatch new'
        | known hs ht ha hm0 hmn hc => rw [ht] at new'; exact nomatch new'
        | first hm0 hmn hc att' slots ho hl hv hr ha hd =>
          rcases hd with ⟨_, _, ht⟩ | ⟨_, _, ht⟩
          · rw [ht] at new'; exact nomatch new'
          · rw [ht] at new'
            simp at new'
            rw [← new'.1, ← new'.2.1]
            exact hr
      · obtain ⟨_, _, _, h4, _⟩ := request_frame w.st q fun s m a n r hh => hq ⟨s, m, a, n, r, hh⟩
        exact absurd (by rw [new]; simp) (h4 sid sl att r)
    constructor
    · intro res hm p hp
      obtain ⟨t, h1, h2⟩ := inv.slots r' res hm hr
      rw [hreg] at h1
      cases h1
      exact h2 _ (List.mem_map.2 ⟨p, hp, rfl⟩)
    · intro l hm
      obtain ⟨t, h1, h2⟩ := inv.loc r' l hm hr
      rw [hreg] at h1
      cases h1
      exact h2 l (by simp)

example : ((World.init Nat .succeeded).run Spec.commitRun).tasks =
      ((World.init Nat .succeeded).run (Spec.commitRun.take 7)).tasks ++ [.commit 1
        [(11, ⟨[⟨0, 1, 11, none⟩], []⟩), (10, ⟨[Spec.loc0], []⟩)] [1, 0] 205] ∧
    (204, Answer.loc (.ok ⟨0, 1, 11, none⟩)) ∈
      ((World.init Nat .succeeded).run (Spec.commitRun.take 7)).said ∧
    Spec.AllList (Spec.commitRun.take 7) := by
  refine ⟨rfl, List.mem_of_getElem? (i := 4) rfl, ?_⟩
  have l1 : Spec.Lists Spec.granted := by
    intro p hp
    simp [Spec.granted] at hp
    subst hp
    exact ⟨⟨⟨[Spec.loc0], []⟩, rfl, Spec.loc0, by simp, rfl, rfl⟩, by simp [Spec.Replica, Spec.loc0]⟩
  have l2 : Spec.Lists Spec.other := by
    intro p hp
    simp [Spec.other] at hp
    subst hp
    exact ⟨⟨⟨[Spec.loc1], []⟩, rfl, Spec.loc1, by simp, rfl, rfl⟩, by simp [Spec.Replica, Spec.loc1]⟩
  intro i res h
  simp only [Spec.commitRun, List.take_succ_cons, List.take_zero, List.mem_cons, List.not_mem_nil,
    or_false, reduceCtorEq, false_or, Event.finish.injEq, Remote.reserved.injEq] at h
  rcases h with ⟨_, rfl⟩ | ⟨_, rfl⟩
  · exact l1
  · exact l2

/-- The reservation that is read out of an answer of the master is of the kind assumed, if
the answer lists every location and its replica under their workers. -/
theorem C103_response (resp : List (Nat × Slots)) (distinct : (resp.map (·.1)).Nodup)
    (own : ∀ e ∈ resp, ∀ l ∈ e.2.primary, l.worker = e.1)
    (peers : ∀ e ∈ resp, ∀ l ∈ e.2.primary, ∀ w, l.peer = some w →
      ∃ s, (w, s) ∈ resp ∧ ∃ l' ∈ s.replica, l'.id = l.id ∧ l'.epoch = l.epoch) :
    Spec.Lists (Reservation.ofResponse resp) ∧
    ∀ p ∈ (Reservation.ofResponse resp).primary, p.2.id = p.1 := by
  have := addAll_ok resp ⟨[], [], []⟩ distinct own (by simp [find]) (by simp)
  refine ⟨fun p hp => ⟨(this p hp).2, fun w hw => ?_⟩, fun p hp => (this p hp).1⟩
  rcases addAll_from resp ⟨[], [], []⟩ p hp with h | ⟨e, he, h⟩
  · exact nomatch h
  · obtain ⟨s, hs, l', hl', hu⟩ := peers e he p.2 h w hw
    exact ⟨s, addAll_slots resp ⟨[], [], []⟩ distinct w s (Or.inr ⟨hs, List.ne_nil_of_mem hl'⟩), l', hl', hu⟩

example : Reservation.ofResponse [(10, ⟨[Spec.loc0], []⟩), (12, ⟨[], []⟩)] =
    ⟨[10, 12], [(0, Spec.loc0)], [(10, ⟨[Spec.loc0], []⟩)]⟩ := rfl

/-- A location with a replica on another worker. -/
example : ∀ e ∈ [(10, (⟨[⟨0, 0, 10, some 11⟩], []⟩ : Slots)), (11, ⟨[], [⟨0, 0, 11, none⟩]⟩)],
    ∀ l ∈ e.2.primary, ∀ w, l.peer = some w →
      ∃ s, (w, s) ∈ [(10, (⟨[⟨0, 0, 10, some 11⟩], []⟩ : Slots)), (11, ⟨[], [⟨0, 0, 11, none⟩]⟩)] ∧
        ∃ l' ∈ s.replica, l'.id = l.id ∧ l'.epoch = l.epoch := by
  simp

/-- If every mapper reports its end once, then a shuffle all of whose mappers were told that
their end was recorded is committed. (Full statement: without "once". See
`C103_failed_commit` and `C103_second_attempt` for why it is needed.) -/
theorem C103_committed_partial (reg : Registration) (evs : List (Event ρ)) (sid n : Int)
    (keep : ∀ r, Event.ask (.unregister sid r) ∉ evs)
    (owner : ρ → Option (Int × Int)) (own : Spec.Owners owner evs) (one : Spec.Once sid n evs)
    (told : ∀ m, 0 ≤ m → m < n → ∃ r, owner r = some (sid, m) ∧
      (r, Answer.done (.ok ())) ∈ ((World.init ρ reg).run evs).said) :
    ∃ sl att r x, (Task.commit sid sl att r, Remote.committed x) ∈ ((World.init ρ reg).run evs).ended := by
  have inv := Acks.run owner reg sid n evs keep own one
  by_cases hc : Spec.Committed ((World.init ρ reg).run evs) sid
  · exact hc
  · have seen : ∀ m, 0 ≤ m → m < n → ∃ att v, find ((World.init ρ reg).run evs).st.attempts sid = some att ∧
        att[m.toNat]? = some v ∧ v ≠ -1 := by
      intro m h0 hn
      obtain ⟨r, ho, hr⟩ := told m h0 hn
      rcases inv.acked r m hr ho with hx | ⟨_, hx⟩
      · exact absurd hx hc
      · exact hx
    obtain ⟨att, _, hf, _⟩ := seen 0 (by omega) one.pos
    have hlen := inv.len att hf
    have hno : -1 ∉ att := by
      intro hm
      obtain ⟨i, hi, hv⟩ := List.mem_iff_getElem.1 hm
      obtain ⟨att', v, hf', hv', hne⟩ := seen i (by omega) (by omega)
      rw [hf] at hf'
      cases hf'
      rw [Int.toNat_natCast, List.getElem?_eq_getElem hi, hv] at hv'
      cases hv'
      exact hne rfl
    rcases inv.full att hf hno with hx | ⟨m, a, n', r, h0, hn, _, h4⟩
    · exact absurd hx hc
    · obtain ⟨r', ho, hr⟩ := told m h0 hn
      exact absurd ho (h4 r' hr)

/-- Two mappers end once each. -/
def Spec.goodRun : List (Event Nat) :=
  [.ask (.register 1 [0] false 0 300), .finish 0 (.reserved Spec.granted),
   .ask (.mapperEnd 1 0 0 2 301), .ask (.mapperEnd 1 1 0 2 302), .finish 0 (.committed ⟨8, 2, 0, 0⟩)]

example : ∃ sl att r x, (Task.commit 1 sl att r, Remote.committed x) ∈
    ((World.init Nat .succeeded).run Spec.goodRun).ended := by
  refine C103_committed_partial .succeeded Spec.goodRun 1 2 (by simp [Spec.goodRun])
    (fun r => if r = 301 then some (1, 0) else if r = 302 then some (1, 1) else none) ?_ ?_ ?_
  · refine ⟨?_, ?_, ?_⟩
    · intro s m a n r h
      simp [Spec.goodRun] at h
      rcases h with ⟨rfl, rfl, _, _, rfl⟩ | ⟨rfl, rfl, _, _, rfl⟩ <;> rfl
    · simp [Spec.goodRun]
    · simp [Spec.goodRun]
  · refine ⟨by omega, ?_, ?_, ?_⟩
    · intro m a n r h
      simp [Spec.goodRun] at h
      omega
    · intro m a n r h
      simp [Spec.goodRun] at h
      omega
    · intro m
      by_cases h0 : m = 0 <;> by_cases h1 : m = 1 <;>
        simp [Spec.goodRun, h0, h1, eq_comm]
  · intro m h0 h2
    rcases (by omega : m = 0 ∨ m = 1) with rfl | rfl
    · exact ⟨301, rfl, List.mem_of_getElem? (i := 1) rfl⟩
    · exact ⟨302, rfl, List.mem_of_getElem? (i := 2) rfl⟩

/-- A commit fails, the task that ended last tries again, is told that its end was recorded,
and nothing is committed. -/
theorem C103_failed_commit : ∃ evs : List (Event Nat),
    (∀ r, Event.ask (.unregister 1 r) ∉ evs) ∧
    Event.ask (.mapperEnd 1 0 1 1 2) ∈ evs ∧
    (2, Answer.done (.ok ())) ∈ ((World.init Nat .succeeded).run evs).said ∧
    ((World.init Nat .succeeded).run evs).tasks = [] ∧
    ¬ ∃ sl att r x, (Task.commit 1 sl att r, Remote.committed x) ∈
      ((World.init Nat .succeeded).run evs).ended := by
  refine ⟨[.ask (.register 1 [0] false 0 0), .finish 0 (.reserved Spec.granted),
    .ask (.mapperEnd 1 0 0 1 1), .finish 0 .failed, .ask (.mapperEnd 1 0 1 1 2)],
    by simp, by simp, List.mem_of_getElem? (i := 2) rfl, rfl, ?_⟩
  rintro ⟨sl, att, r, x, h⟩
  have e : ((World.init Nat .succeeded).run [.ask (.register 1 [0] false 0 0),
    .finish 0 (.reserved Spec.granted), .ask (.mapperEnd 1 0 0 1 1), .finish 0 .failed,
    .ask (.mapperEnd 1 0 1 1 2)]).ended = [(.slots 1 [0] false 0, .reserved Spec.granted),
    (.commit 1 [(10, ⟨[Spec.loc0], []⟩)] [0] 1, .failed)] := rfl
  rw [e] at h
  simp at h

/-- A second attempt is told that the end of its mapper was recorded while the commit is under
way, which then fails. -/
theorem C103_second_attempt : ∃ evs : List (Event Nat),
    (∀ r, Event.ask (.unregister 1 r) ∉ evs) ∧
    (2, Answer.done (.ok ())) ∈ ((World.init Nat .succeeded).run evs).said ∧
    ((World.init Nat .succeeded).run evs).tasks = [.commit 1 [(10, ⟨[Spec.loc0], []⟩)] [0] 1] ∧
    (1, Answer.done (.error .remote)) ∈
      ((World.init Nat .succeeded).run (evs ++ [.finish 0 .failed])).said ∧
    ((World.init Nat .succeeded).run (evs ++ [.finish 0 .failed])).tasks = [] := by
  exact ⟨[.ask (.register 1 [0] false 0 0), .finish 0 (.reserved Spec.granted),
    .ask (.mapperEnd 1 0 0 1 1), .ask (.mapperEnd 1 0 1 1 2)],
    by simp, List.mem_of_getElem? (i := 1) rfl, rfl, List.mem_of_getElem? (i := 2) rfl, rfl⟩

end Verif.Celeborn
