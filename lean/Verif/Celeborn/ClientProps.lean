import Verif.Celeborn.ClientLemmas
import Verif.Celeborn.DataProps

/-!
# The shuffle client

**C108.** A client pushes to the newest location of a partition and reads all of them.
**C107**, for pushes that are repeated.
-/

namespace Verif.Celeborn.Client

open Verif.Catalog

/-- C108: a batch is pushed to a location that the lifecycle manager gave, and none of those
it gave is newer; a partition of which it gave none is refused. -/
theorem C108_push_newest (ms : List Msg) (sid pid map attempt : Int) :
    match ((({} : State).run ms).1.step (.push sid pid map attempt)).2 with
    | .pushTo l _ => l ∈ Spec.known sid pid ms ∧ ∀ x ∈ Spec.known sid pid ms, x.epoch ≤ l.epoch
    | o => o = .notRegistered ∧ Spec.known sid pid ms = [] := by
  have g := inv_run ms sid pid
  simp only [State.step]
  cases h : find (({} : State).run ms).1.locations (sid, pid) with
  | none =>
    rw [h] at g
    exact ⟨rfl, g.latest_none.1 rfl⟩
  | some l =>
    rw [h] at g
    exact g.latest_max l rfl

/-- C108: a reader opens every location that the lifecycle manager gave for the partition,
before or with the reservation it reads, each once and in the order of the epochs, and no
other. -/
theorem C108_read_all (ms : List Msg) (sid pid : Int) (r : Reservation) (ls : List Loc)
    (h : ((({} : State).run ms).1.step (.reread sid pid (.ok r))).2 = .openAll ls) :
    (∀ l ∈ Spec.known sid pid ms, ∃ x ∈ ls, x.uid = l.uid) ∧
      (∀ e ∈ r.slots, ∀ l ∈ e.2.primary, l.id = pid → ∃ x ∈ ls, x.uid = l.uid) ∧
      (∀ x ∈ ls, x ∈ Spec.known sid pid ms ∨ ∃ e ∈ r.slots, x ∈ e.2.primary ∧ x.id = pid) ∧
      (ls.map (·.uid)).Nodup ∧ ls.Pairwise fun a b => a.epoch ≤ b.epoch := by
  have g := (inv_run ms).learnAll sid (r.slots.flatMap fun e => e.2.primary.filter fun l => decide (l.id = pid))
    sid pid
  simp only [State.step] at h
  split at h
  · cases h
  rename_i ls' hf
  cases h
  rw [hf] at g
  obtain ⟨g1, g2, g3, g4, g5, _, _⟩ := g
  simp only [Option.getD_some] at g2 g3 g4 g5
  have new : ∀ l, l ∈ (((r.slots.flatMap fun e => e.2.primary.filter fun l => decide (l.id = pid)).map
      fun l => (sid, l)).filter fun e => decide (e.1 = sid ∧ e.2.id = pid)).map (·.2) ↔
      ∃ e ∈ r.slots, l ∈ e.2.primary ∧ l.id = pid := by
    intro l
    constructor
    · intro hl
      obtain ⟨⟨i, l'⟩, h1, rfl⟩ := List.mem_map.1 hl
      obtain ⟨h2, h3⟩ := List.mem_filter.1 h1
      obtain ⟨l2, h4, h5⟩ := List.mem_map.1 h2
      cases h5
      obtain ⟨e, he, h6⟩ := List.mem_flatMap.1 h4
      obtain ⟨h7, h8⟩ := List.mem_filter.1 h6
      exact ⟨e, he, h7, of_decide_eq_true h8⟩
    · rintro ⟨e, he, h1, h2⟩
      refine List.mem_map.2 ⟨(sid, l), List.mem_filter.2 ⟨List.mem_map.2 ⟨l, List.mem_flatMap.2
        ⟨e, he, List.mem_filter.2 ⟨h1, by simp [h2]⟩⟩, rfl⟩, by simp [h2]⟩, rfl⟩
  refine ⟨fun l hl => g3 l (List.mem_append_left _ hl), ?_, ?_, g4, g5⟩
  · intro e he l hl hid
    exact g3 l (List.mem_append_right _ ((new l).2 ⟨e, he, hl, hid⟩))
  · intro x hx
    rcases List.mem_append.1 (g2 x hx) with h | h
    · exact .inl h
    · exact .inr ((new x).1 h)

/-- C108: a reader that can read is never left without a location. -/
theorem C108_read_opens (ms : List Msg) (sid pid : Int) (r : Reservation)
    (h : Spec.known sid pid ms ≠ [] ∨ ∃ e ∈ r.slots, ∃ l ∈ e.2.primary, l.id = pid) :
    ∃ ls, ls ≠ [] ∧ ((({} : State).run ms).1.step (.reread sid pid (.ok r))).2 = .openAll ls := by
  have g := (inv_run ms).learnAll sid (r.slots.flatMap fun e => e.2.primary.filter fun l => decide (l.id = pid))
    sid pid
  obtain ⟨l, hl⟩ : ∃ l, l ∈ Spec.known sid pid ms ++ (((r.slots.flatMap fun e => e.2.primary.filter
      fun l => decide (l.id = pid)).map fun l => (sid, l)).filter
        fun e => decide (e.1 = sid ∧ e.2.id = pid)).map (·.2) := by
    rcases h with h | ⟨e, he, l, hl, hid⟩
    · obtain ⟨l, r, e⟩ := List.exists_cons_of_ne_nil h
      exact ⟨l, by rw [e]; simp⟩
    · refine ⟨l, List.mem_append_right _ (List.mem_map.2 ⟨(sid, l), List.mem_filter.2 ⟨List.mem_map.2 ⟨l,
        List.mem_flatMap.2 ⟨e, he, List.mem_filter.2 ⟨hl, by simp [hid]⟩⟩, rfl⟩, by simp [hid]⟩, rfl⟩)⟩
  simp only [State.step]
  split
  · rename_i hf
    have := g.none_iff.1 hf
    simp only [this, List.not_mem_nil] at hl
  · rename_i ls hf
    refine ⟨ls, ?_, rfl⟩
    rintro rfl
    obtain ⟨x, hx, _⟩ := g.all l hl
    rw [hf] at hx
    cases hx

/-- C108: after a shuffle was unregistered or cleaned up, nothing is pushed to its old
locations. -/
theorem C108_over (ms : List Msg) (m : Msg) (sid pid map attempt : Int) (h : Spec.over sid m = true) :
    ((({} : State).run (ms ++ [m])).1.step (.push sid pid map attempt)).2 = .notRegistered ∧
      ((({} : State).run (ms ++ [m])).1.step (.read sid pid)).2 = .notRegistered := by
  have g := inv_run (ms ++ [m]) sid pid
  simp only [known_snoc, h, if_true] at g
  constructor
  · simp only [State.step, g.latest_none.2 rfl]
  · simp only [State.step, g.none_iff.2 rfl]

/-- A step changes the batch number of a mapper's attempt by a push only. -/
theorem step_batch (s : State) (m : Msg) (sid map attempt : Int) (h : Spec.over sid m = false) :
    (find (s.step m).1.batches (sid, map, attempt)).getD 0 = (find s.batches (sid, map, attempt)).getD 0 ∨
      (find (s.step m).1.batches (sid, map, attempt)).getD 0 = (find s.batches (sid, map, attempt)).getD 0 + 1 := by
  have learnAll : ∀ (ls : List Loc) (i : Int) (s : State),
      (ls.foldl (fun s l => s.learn i l) s).batches = s.batches := by
    intro ls i
    induction ls with
    | nil => intro s; rfl
    | cons l ls ih => intro s; rw [List.foldl_cons, ih]; rfl
  have forget : ∀ i, i ≠ sid → find (s.forget i).batches (sid, map, attempt) = find s.batches (sid, map, attempt) := by
    intro i hi
    have := find_filter s.batches (fun k => decide (k.1 ≠ i)) (sid, map, attempt)
    simp only [State.forget]
    rw [this, if_pos (by simpa using fun h => hi h.symm)]
  cases m with
  | push i p m a =>
    simp only [State.step]
    split
    · exact .inl rfl
    · simp only [find_put]
      by_cases hk : (i, m, a) = (sid, map, attempt)
      · rw [if_pos hk, hk]
        exact .inr rfl
      · rw [if_neg hk]
        exact .inl rfl
  | cleanUp i =>
    refine .inl ?_
    simp only [State.step]
    rw [forget i (by simpa [Spec.over] using h)]
  | unregistered i r =>
    refine .inl ?_
    cases r with
    | error e => rfl
    | ok r =>
      simp only [State.step]
      rw [forget i (by simpa [Spec.over] using h)]
  | registered i r =>
    refine .inl ?_
    cases r with
    | error e => rfl
    | ok r => simp only [State.step, learnAll]
  | reread i p r =>
    refine .inl ?_
    cases r with
    | error e => rfl
    | ok r =>
      simp only [State.step]
      split <;> simp only [learnAll]
  | pushed i p l =>
    refine .inl ?_
    cases l with
    | none => rfl
    | some l => rfl
  | getId j s =>
    refine .inl ?_
    simp only [State.step]
    split <;> rfl
  | gotId j s r =>
    refine .inl ?_
    cases r <;> rfl
  | gotIds j r =>
    refine .inl ?_
    cases r <;> rfl
  | read i p =>
    refine .inl ?_
    simp only [State.step]
    split <;> rfl

theorem run_batch (s : State) (ms : List Msg) (sid map attempt : Int) (h : ∀ m ∈ ms, Spec.over sid m = false) :
    ∃ n, n ≤ ms.length ∧ (find (s.run ms).1.batches (sid, map, attempt)).getD 0 =
      (find s.batches (sid, map, attempt)).getD 0 + BitVec.ofNat 32 n := by
  induction ms generalizing s with
  | nil => exact ⟨0, Nat.le_refl _, by simp [State.run]⟩
  | cons m ms ih =>
    obtain ⟨n, hn, e⟩ := ih (s.step m).1 fun x hx => h x (List.mem_cons_of_mem _ hx)
    rcases step_batch s m sid map attempt (h m (List.mem_cons_self ..)) with h1 | h1
    · exact ⟨n, Nat.le_succ_of_le hn, by simp only [State.run]; rw [e, h1]⟩
    · refine ⟨n + 1, Nat.succ_le_succ hn, ?_⟩
      simp only [State.run]
      rw [e, h1, BitVec.ofNat_add, BitVec.add_assoc, BitVec.add_comm (BitVec.ofNat 32 n)]
      rfl

/-- C108: two batches that an attempt of a mapper pushes have different numbers, as long as
the shuffle was not over in between and the client did not handle 2³² messages. -/
theorem C108_batch_numbers (s : State) (sid map attempt p p' : Int) (l l' : Loc) (b b' : BitVec 32)
    (mid : List Msg) (hm : ∀ m ∈ mid, Spec.over sid m = false) (len : mid.length < 2 ^ 32 - 1)
    (h : (s.step (.push sid p map attempt)).2 = .pushTo l b)
    (h' : ((((s.step (.push sid p map attempt)).1).run mid).1.step (.push sid p' map attempt)).2 = .pushTo l' b') :
    b ≠ b' := by
  have after : (find (s.step (.push sid p map attempt)).1.batches (sid, map, attempt)).getD 0 = b + 1 := by
    simp only [State.step] at h ⊢
    cases hl : find s.locations (sid, p) with
    | none => rw [hl] at h; cases h
    | some x =>
      simp only [hl, Out.pushTo.injEq] at h
      simp only [find_put, if_true, Option.getD_some, h.2]
  obtain ⟨n, hn, e⟩ := run_batch (s.step (.push sid p map attempt)).1 mid sid map attempt hm
  have hb' : b' = b + 1 + BitVec.ofNat 32 n := by
    rw [after] at e
    rw [← e]
    generalize (s.step (.push sid p map attempt)).1.run mid = t at h'
    simp only [State.step] at h'
    cases hl : find t.1.locations (sid, p') with
    | none => rw [hl] at h'; cases h'
    | some x =>
      simp only [hl, Out.pushTo.injEq] at h'
      exact h'.2.symm
  intro hbb
  rw [hbb] at hb'
  have := congrArg BitVec.toNat hb'
  rw [BitVec.toNat_add, BitVec.toNat_add, BitVec.toNat_ofNat] at this
  have h1 : (1 : BitVec 32).toNat = 1 := rfl
  rw [h1] at this
  have := b'.isLt
  omega

/-- A reservation with partition 7 on worker 1, and its replacement on worker 2. -/
def Spec.res0 : Reservation := ⟨[1], [(7, ⟨7, 0, 1, none⟩)], [(1, ⟨[⟨7, 0, 1, none⟩], []⟩)]⟩
def Spec.res1 : Reservation :=
  ⟨[1, 2], [(7, ⟨7, 1, 2, none⟩)], [(2, ⟨[⟨7, 1, 2, none⟩], []⟩), (1, ⟨[⟨7, 0, 1, none⟩], []⟩)]⟩

/-- Registered, pushed, revived, pushed again; and a reader that comes afterwards. -/
example : (({} : State).run [.registered 4 (.ok Spec.res0), .push 4 7 0 0, .pushed 4 7 (some ⟨7, 1, 2, none⟩),
      .push 4 7 0 0, .push 4 8 0 0]).2 =
      [.passed, .pushTo ⟨7, 0, 1, none⟩ 0, .passed, .pushTo ⟨7, 1, 2, none⟩ 1, .notRegistered] ∧
    (({} : State).run [.registered 4 (.ok Spec.res0), .read 4 7, .reread 4 7 (.ok Spec.res1), .cleanUp 4, .read 4 7]).2 =
      [.passed, .ask, .openAll [⟨7, 0, 1, none⟩, ⟨7, 1, 2, none⟩], .passed, .notRegistered] := by
  simp [State.run, State.step, State.learn, State.forget, find, put, erase, primaries, Spec.res0, Spec.res1,
    List.mergeSort, newer, Loc.uid]

/-- Whether a worker has taken the data: it answered that it has, or that it has and that the
partition is to be split. -/
def Spec.took : Except PushErr Unit → Bool
  | .ok _ => true
  | .error e => decide (e = .worker 22)

/-- C108: who pushes is told that a batch was pushed only if the worker of one of the locations
to which it was sent took it. The second location is the one that the lifecycle manager gave,
and it is made known to the client before the answer. -/
theorem C108_push_taken (l : Loc) (len : Nat) (first second : Except PushErr Unit) (revival : Except Err Loc) :
    (∀ n, (pushTask l len first revival second).2.2.2 = .ok n → n = len + 16 ∧
        ((Spec.took first = true) ∨
          Spec.took second = true ∧ ∃ l', revival = .ok l' ∧ (pushTask l len first revival second).1 = [l, l'])) ∧
      ((pushTask l len first revival second).1 = [l] ∨
        ∃ l', revival = .ok l' ∧ (pushTask l len first revival second).1 = [l, l'] ∧ first ≠ .ok () ∧
          Spec.took first = false) ∧
      ∀ l', (pushTask l len first revival second).2.2.1 = some l' → revival = .ok l' := by
  cases first with
  | ok u => simp [pushTask, Spec.took]
  | error e =>
    by_cases he : e = .worker 22
    · subst he
      cases revival with
      | ok l' => simp [pushTask, Spec.took]
      | error x => simp [pushTask]
    · cases hc : e.cause with
      | none => simp [pushTask, he, hc]
      | some c =>
        cases revival with
        | error x => simp [pushTask, he, hc]
        | ok l' =>
          cases second with
          | ok u => simp [pushTask, he, hc, Spec.took]
          | error x => simp [pushTask, he, hc, Spec.took]

/-- C108: a batch is sent to the location that the lifecycle manager gives, and the client learns that
location, whenever the first push failed because of the worker, the connection or a timeout. When the
worker took the batch and asked for a split, only the new location is learnt. -/
theorem C108_push_again (l l' : Loc) (len : Nat) (e : PushErr) (he : e ≠ .other) (second : Except PushErr Unit) :
    (pushTask l len (.error e) (.ok l') second).2.2.1 = some l' ∧
      (pushTask l len (.error e) (.ok l') second).1 = (if e = .worker 22 then [l] else [l, l']) := by
  cases e with
  | other => exact absurd rfl he
  | worker s =>
    by_cases hs : s = 22
    · subst hs; simp [pushTask]
    · cases second <;> simp [pushTask, PushErr.cause, hs]
  | io => cases second <;> simp [pushTask, PushErr.cause]
  | timeout => cases second <;> simp [pushTask, PushErr.cause]

example : pushTask ⟨7, 0, 1, none⟩ 10 (.error .io) (.ok ⟨7, 1, 2, none⟩) (.ok ()) =
    ([⟨7, 0, 1, none⟩, ⟨7, 1, 2, none⟩], some 38, some ⟨7, 1, 2, none⟩, .ok 26) := by decide +kernel

/-- C108 fails the other way round: a worker takes the second push and asks for a split, and
who pushes is told that it failed. -/
theorem C108_split_on_retry (l l' : Loc) (len : Nat) :
    Spec.took (.error (.worker 22)) = true ∧
      pushTask l len (.error .timeout) (.ok l') (.error (.worker 22)) =
        ([l, l'], some 42, some l', .push (.worker 22)) :=
  ⟨rfl, rfl⟩

/-- The batches that workers store: those sent, where the network let them through. -/
def Spec.stores (map attempt batch : BitVec 32) {B : Type} (x : B) (sent : List Loc) (through : Loc → Bool) :
    List (Loc × Verif.Celeborn.Spec.Push B) :=
  (sent.filter through).map fun l => (l, ⟨map, attempt, batch, x⟩)

/-- C107 fails also with one attempt: when the worker stores a batch but its answer is late,
the batch is pushed to the next location as well, and a reader that reads both locations gets
it twice, though who pushed was told of one batch. -/
theorem C107_late_answer {B : Type} (c : Option Codec) (hc : Verif.Celeborn.Spec.GoodCodec c) (enc : B → Bytes)
    (dec : Bytes → Option (List B)) (hd : ∀ b, dec (enc b) = some [b]) (map attempt batch : BitVec 32) (x : B)
    (l l' : Loc) (len : Nat) (chunks chunks' : List Bytes)
    (h : Verif.Celeborn.Spec.Stored c enc [⟨map, attempt, batch, x⟩] chunks.flatten)
    (h' : Verif.Celeborn.Spec.Stored c enc [⟨map, attempt, batch, x⟩] chunks'.flatten) :
    let r := pushTask l len (.error .timeout) (.ok l') (.ok ())
    r.2.2.2 = .ok (len + 16) ∧
      Spec.stores map attempt batch x r.1 (fun _ => true) =
        [(l, ⟨map, attempt, batch, x⟩), (l', ⟨map, attempt, batch, x⟩)] ∧
      readBatches c dec [chunks.map .ok, chunks'.map .ok] = [.ok x, .ok x] := by
  refine ⟨rfl, rfl, ?_⟩
  have := C106_batches c hc enc dec hd
    [([⟨map, attempt, batch, x⟩], chunks), ([⟨map, attempt, batch, x⟩], chunks')] (by
      intro e he
      rcases List.mem_cons.1 he with rfl | he
      · exact h
      · rw [List.mem_singleton.1 he]
        exact h')
  exact this

/-- C108: the shuffle id of a stage is one that the lifecycle manager gave for that stage, and
the shuffle was not over since. -/
theorem C108_id (ms : List Msg) (job stage : Nat) (i : Int)
    (h : ((({} : State).run ms).1.step (.getId job stage)).2 = .id i) :
    ∃ pre m post, ms = pre ++ m :: post ∧
      (m = .gotId job stage (.ok i) ∨ ∃ l, m = .gotIds job (.ok l) ∧ (stage, i) ∈ l) ∧
      ∀ x ∈ post, Spec.over i x = false := by
  have key : ∀ ms : List Msg, ∀ job stage i, ((job, stage), i) ∈ (({} : State).run ms).1.ids →
      ∃ pre m post, ms = pre ++ m :: post ∧
        (m = .gotId job stage (.ok i) ∨ ∃ l, m = .gotIds job (.ok l) ∧ (stage, i) ∈ l) ∧
        ∀ x ∈ post, Spec.over i x = false := by
    intro ms
    induction ms using List.reverseRecOn with
    | nil => intro _ _ _ h; cases h
    | append_singleton ms m ih =>
      intro job stage i hi
      rw [run_snoc] at hi
      generalize (({} : State).run ms).1 = s at ih hi
      have old : ((job, stage), i) ∈ s.ids → Spec.over i m = false → ∃ pre m' post,
          ms ++ [m] = pre ++ m' :: post ∧
          (m' = .gotId job stage (.ok i) ∨ ∃ l, m' = .gotIds job (.ok l) ∧ (stage, i) ∈ l) ∧
          ∀ x ∈ post, Spec.over i x = false := by
        intro h1 h2
        obtain ⟨pre, m', post, rfl, h3, h4⟩ := ih job stage i h1
        refine ⟨pre, m', post ++ [m], by simp, h3, ?_⟩
        intro x hx
        rcases List.mem_append.1 hx with hx | hx
        · exact h4 x hx
        · rw [List.mem_singleton.1 hx]; exact h2
      have put_mem : ∀ {m : List ((Nat × Nat) × Int)} {k k' : Nat × Nat} {v v' : Int},
          (k, v) ∈ put m k' v' → (k = k' ∧ v = v') ∨ (k, v) ∈ m := by
        intro m k k' v v' h
        rcases List.mem_cons.1 h with h | h
        · cases h; exact .inl ⟨rfl, rfl⟩
        · exact .inr (List.mem_filter.1 h).1
      have learnAll : ∀ (ls : List Loc) (i : Int) (s : State),
          (ls.foldl (fun s l => s.learn i l) s).ids = s.ids := by
        intro ls i
        induction ls with
        | nil => intro s; rfl
        | cons l ls ih => intro s; rw [List.foldl_cons, ih]; rfl
      cases m with
      | getId j st =>
        simp only [State.step] at hi
        split at hi <;> exact old hi rfl
      | gotId j st r =>
        cases r with
        | error e => exact old hi rfl
        | ok v =>
          simp only [State.step] at hi
          rcases put_mem hi with ⟨h1, rfl⟩ | h1
          · cases h1
            exact ⟨ms, _, [], rfl, .inl rfl, by simp⟩
          · exact old h1 rfl
      | gotIds j r =>
        cases r with
        | error e => exact old hi rfl
        | ok l =>
          simp only [State.step] at hi
          have : ((job, stage), i) ∈ s.ids ∨ (job = j ∧ (stage, i) ∈ l) := by
            clear old ih
            generalize s.ids = m at hi ⊢
            induction l generalizing m with
            | nil => exact .inl hi
            | cons e l ihl =>
              rcases ihl _ hi with h | ⟨h1, h2⟩
              · rcases put_mem h with ⟨h3, h4⟩ | h3
                · cases h3
                  exact .inr ⟨rfl, by rw [h4]; exact List.mem_cons_self ..⟩
                · exact .inl h3
              · exact .inr ⟨h1, List.mem_cons_of_mem _ h2⟩
          rcases this with h1 | ⟨rfl, h1⟩
          · exact old h1 rfl
          · exact ⟨ms, _, [], rfl, .inr ⟨l, rfl, h1⟩, by simp⟩
      | registered j r =>
        cases r with
        | error e => exact old hi rfl
        | ok r =>
          simp only [State.step, learnAll] at hi
          exact old hi rfl
      | push j p mp a =>
        simp only [State.step] at hi
        split at hi <;> exact old hi rfl
      | pushed j p l =>
        cases l with
        | none => exact old hi rfl
        | some l => exact old hi rfl
      | unregistered j r =>
        cases r with
        | error e => exact old hi rfl
        | ok r =>
          simp only [State.step, State.forget] at hi
          obtain ⟨h1, h2⟩ := List.mem_filter.1 hi
          exact old h1 (by simpa [Spec.over] using fun e : j = i => of_decide_eq_true h2 e.symm)
      | cleanUp j =>
        simp only [State.step, State.forget] at hi
        obtain ⟨h1, h2⟩ := List.mem_filter.1 hi
        exact old h1 (by simpa [Spec.over] using fun e : j = i => of_decide_eq_true h2 e.symm)
      | read j p =>
        simp only [State.step] at hi
        split at hi <;> exact old hi rfl
      | reread j p r =>
        cases r with
        | error e => exact old hi rfl
        | ok r =>
          simp only [State.step] at hi
          split at hi <;> simp only [learnAll] at hi <;> exact old hi rfl
  simp only [State.step] at h
  split at h
  · rename_i v hv
    cases h
    exact key ms job stage i (mem_of_find hv)
  · cases h

example : (({} : State).run [.getId 1 2, .gotId 1 2 (.ok 5), .getId 1 2, .cleanUp 5, .getId 1 2]).2 =
    [.ask, .id 5, .id 5, .passed, .ask] := by decide +kernel

end Verif.Celeborn.Client
