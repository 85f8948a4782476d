import Verif.Celeborn.TransportLemmas

/-!
# Requests and replies

**C105.** A request to a Celeborn master or worker is answered by its own reply.
-/

namespace Verif.Celeborn

open Verif.Func.CountMin (toBE fromBE length_toBE)

/-- C105: a frame that is written is read back, whatever follows it. -/
theorem C105_frame (f : Frame) (ht : f.type ∈ frameTypes) (hh : f.header.length < 2 ^ 31)
    (hb : f.body.length < 2 ^ 31) (rest : Bytes) :
    ∃ w, f.write = .ok w ∧ Frame.read (w ++ rest) = .ok (f, rest) :=
  ⟨_, write_eq hh hb, read_write (write_eq hh hb) ht rest⟩

example : ∃ w, (⟨4, toBE 8 7, [1, 2, 3]⟩ : Frame).write = .ok w ∧
    Frame.read (w ++ [9, 9]) = .ok (⟨4, toBE 8 7, [1, 2, 3]⟩, [9, 9]) :=
  C105_frame _ (by decide) (by decide) (by decide) _

/-- C105: what is read is a frame that was written, whole. -/
theorem C105_frame_whole (b rest : Bytes) (f : Frame) (h : Frame.read b = .ok (f, rest)) :
    ∃ w, f.write = .ok w ∧ b = w ++ rest := by
  obtain ⟨w, h1, h2, _⟩ := write_read h
  exact ⟨w, h1, h2⟩

/-- C105: a control message is read back. -/
theorem C105_message (known : Nat → Bool) (type : Nat) (payload : Bytes) (hk : known type = true)
    (ht : type < 2 ^ 32) (hp : payload.length < 2 ^ 31) :
    ∃ w, encodeMessage type payload = .ok w ∧ decodeMessage known w = .ok (type, payload) := by
  refine ⟨toBE 4 type ++ toBE 4 payload.length ++ payload, ?_, ?_⟩
  · simp only [encodeMessage]
    rw [if_neg (by omega)]
  · have e : toBE 4 type ++ toBE 4 payload.length ++ payload =
        toBE 4 type ++ (toBE 4 payload.length ++ payload) := by simp
    have h1 : fromBE (toBE 4 type) = type := by
      rw [Verif.Func.CountMin.fromBE_toBE, Nat.mod_eq_of_lt]; omega
    have d8 : (toBE 4 type ++ (toBE 4 payload.length ++ payload)).drop 8 = payload := by
      rw [show (8 : Nat) = 4 + 4 from rfl, ← List.drop_drop, List.drop_left' (length_toBE _ _),
        List.drop_left' (length_toBE _ _)]
    simp only [decodeMessage]
    rw [e, List.take_left' (length_toBE _ _), List.drop_left' (length_toBE _ _),
      List.take_left' (length_toBE _ _), h1, from_to4 hp, d8]
    rw [if_neg (by simp [length_toBE]; omega), if_neg (by simp [hk]), if_neg (by omega),
      if_neg (by simp [length_toBE]; omega)]

example : ∃ w, encodeMessage 12 [1, 2] = .ok w ∧ decodeMessage (fun _ => true) w = .ok (12, [1, 2]) :=
  C105_message _ _ _ rfl (by decide) (by decide)

/-- C105: what is read as a control message is one that was written, whole. -/
theorem C105_message_whole (known : Nat → Bool) (b : Bytes) (type : Nat) (payload : Bytes)
    (h : decodeMessage known b = .ok (type, payload)) :
    known type = true ∧ encodeMessage type payload = .ok b := by
  simp only [decodeMessage] at h
  split at h
  · cases h
  rename_i h1
  split at h
  · cases h
  rename_i h2
  split at h
  · cases h
  rename_i h3
  split at h
  · cases h
  rename_i h4
  simp only [Except.ok.injEq, Prod.mk.injEq] at h
  obtain ⟨rfl, rfl⟩ := h
  have h4 : b.length = fromBE ((b.drop 4).take 4) + 8 := by simpa using h4
  refine ⟨by simpa using h2, ?_⟩
  have l : (b.drop 8).length = fromBE ((b.drop 4).take 4) := by rw [List.length_drop]; omega
  have t1 := Verif.Func.CountMin.toBE_fromBE (b.take 4)
  have t2 := Verif.Func.CountMin.toBE_fromBE ((b.drop 4).take 4)
  rw [List.length_take, Nat.min_eq_left (by omega)] at t1
  rw [List.length_take, List.length_drop, Nat.min_eq_left (by omega)] at t2
  unfold encodeMessage
  rw [if_neg (by omega), l, t1, t2, List.append_assoc, show b.drop 8 = (b.drop 4).drop 4 by simp,
    List.take_append_drop, List.take_append_drop]

/-- A message with a byte too many is refused. -/
example : decodeMessage (fun _ => true) [0, 0, 0, 12, 0, 0, 0, 2, 1, 2, 3] = .error .message := by decide +kernel

/-- C105: after a reply that cannot be read, or a connection that broke, the connection is closed, so
that nothing that is left on it is taken for a later reply. -/
theorem C105_closed_after_error (c : Conn) (q : Call) (f : Frame) (hf : q.frame c.next = .ok f) :
    (c.call q .broken).1.stream = none ∧
      ∀ sent e, Frame.read (c.stream.getD [] ++ sent) = .error e → (c.call q (.answered sent)).1.stream = none := by
  refine ⟨by simp [Conn.call, hf], ?_⟩
  intro sent e he
  simp only [Conn.call, hf]
  cases f.write with
  | error _ => rfl
  | ok _ => simp [he]

example : ((⟨some [1, 2], 0⟩ : Conn).call (.rpc [1]) (.answered [0, 0])).1.stream = none ∧
    (Frame.read ([1, 2] ++ [0, 0])).toOption = none := by decide +kernel

/-- What a caller is to be told. -/
def Spec.told : Call × Spec.Outcome → Option (Except TErr Bytes)
  | (q, .served r) => some (Spec.means q r)
  | (_, .broken) => some (.error .broken)
  | _ => none

/-- C105, when no call is dropped between its request and its reply: every call that was
served is told what the other end said to its own request, whatever happened to the calls
before it. -/
theorem C105_own_reply_partial (c : Conn) (hc : c.stream = none ∨ c.stream = some [])
    (l : List (Call × Spec.Outcome)) (hl : Spec.Plays l) (keep : ∀ q r, (q, Spec.Outcome.lost r) ∉ l) :
    (c.calls (Spec.play c.next l)).2 = l.map Spec.told := by
  induction l generalizing c with
  | nil => rfl
  | cons e l ih =>
    obtain ⟨q, o⟩ := e
    have hl' : Spec.Plays l := fun q o h => hl q o (List.mem_cons_of_mem _ h)
    have keep' : ∀ q r, (q, Spec.Outcome.lost r) ∉ l := fun q r h => keep q r (List.mem_cons_of_mem _ h)
    obtain ⟨hs, hr⟩ := hl q o (List.mem_cons_self ..)
    obtain ⟨f, w, hf, hw⟩ := frame_ok hs c.next
    have hg : c.stream.getD [] = [] := by rcases hc with h | h <;> rw [h] <;> rfl
    have hn : Spec.after c.next q = q.nextId c.next := by
      cases q <;> rfl
    simp only [Spec.play, Conn.calls, List.map_cons, hn]
    cases o with
    | served r =>
      have hr := hr r (.inl rfl)
      have e : c.call q (.answered (Spec.bytes (Spec.respond c.next q r))) =
          (⟨some [], q.nextId c.next⟩, some (Spec.means q r)) := by
        simp only [Conn.call, hf, hw, hg, List.nil_append]
        have := respond_read hr c.next (q := q) []
        rw [List.append_nil] at this
        simp only [this, answer_own hr]
      simp only [e, Spec.told]
      rw [← ih ⟨some [], q.nextId c.next⟩ (.inr rfl) hl' keep']
    | broken =>
      have e : c.call q .broken = (⟨none, q.nextId c.next⟩, some (.error .broken)) := by
        simp only [Conn.call, hf]
      simp only [e, Spec.told]
      rw [← ih ⟨none, q.nextId c.next⟩ (.inl rfl) hl' keep']
    | unsent =>
      have e : c.call q (.dropped none) = (⟨c.stream, q.nextId c.next⟩, none) := by
        simp only [Conn.call, hf]
      simp only [e, Spec.told]
      rw [← ih ⟨c.stream, q.nextId c.next⟩ hc hl' keep']
    | lost r => exact absurd (List.mem_cons_self ..) (keep q r)

/-- Two calls, a break, a call that is not sent and another call. -/
def Spec.someCalls : List (Call × Spec.Outcome) :=
  [(.rpc [1, 2], .served (.ok [7])), (.push [65] [48] 3 0 1 [9, 9], .served (.ok [30])),
    (.rpc [1, 2], .broken), (.fetch 5 0 0 2147483647, .unsent),
    (.fetch 5 0 0 2147483647, .served (.ok [1, 2, 3])), (.rpc [4], .served (.fail [78, 79]))]

example : ((⟨none, 0⟩ : Conn).calls (Spec.play 0 Spec.someCalls)).2 =
    [some (.ok [7]), some (.ok []), some (.error .broken), none, some (.ok [1, 2, 3]),
      some (.error (.remote [78, 79]))] := by
  refine C105_own_reply_partial ⟨none, 0⟩ (.inl rfl) Spec.someCalls ?_ ?_
  · intro q o h
    simp only [Spec.someCalls, List.mem_cons, List.not_mem_nil, or_false, Prod.mk.injEq] at h
    rcases h with ⟨rfl, rfl⟩ | ⟨rfl, rfl⟩ | ⟨rfl, rfl⟩ | ⟨rfl, rfl⟩ | ⟨rfl, rfl⟩ | ⟨rfl, rfl⟩ <;>
      refine ⟨by simp [Spec.Sendable], ?_⟩ <;> intro r hr <;> simp at hr <;>
      first | (subst hr; simp [Spec.Fits]) | skip
  · intro q r h
    simp [Spec.someCalls] at h

/-- The replies of a call. -/
def Spec.replies (o : Spec.Outcome) (r : Spec.Reply) : Prop := o = .served r ∨ o = .lost r

/-- A chunk does not change. -/
def Spec.Constant (l : List (Call × Spec.Outcome)) : Prop :=
  ∀ s c o n n' o1 o2 r b, (Call.fetch s c o n, o1) ∈ l → (Call.fetch s c o n', o2) ∈ l →
    Spec.replies o1 (.ok b) → Spec.replies o2 r → r = .ok b

theorem never_anothers (L : List (Call × Spec.Outcome)) (hL : Spec.Plays L) (const : Spec.Constant L)
    (l : List (Call × Spec.Outcome)) (sub : ∀ e ∈ l, e ∈ L) (k : Nat) (hk : k + l.length < 2 ^ 64)
    (P : List (BitVec 64 × Call × Spec.Reply)) (st : Option Bytes)
    (hst : st.getD [] = P.flatMap fun p => Spec.bytes (Spec.respond p.1 p.2.1 p.2.2))
    (hP : ∀ p ∈ P, Spec.Fits p.2.2 ∧
      ((∃ s c o n, p.2.1 = .fetch s c o n) → ∃ out, (p.2.1, out) ∈ L ∧ Spec.replies out p.2.2) ∧
      ((∀ s c o n, p.2.1 ≠ .fetch s c o n) → ∃ j, j < k ∧ p.1 = BitVec.ofNat 64 j))
    (i : Nat) (b : Bytes)
    (h : ((⟨st, BitVec.ofNat 64 k⟩ : Conn).calls (Spec.play (BitVec.ofNat 64 k) l)).2[i]? = some (some (.ok b))) :
    ∃ q r, l[i]? = some (q, .served r) ∧ Spec.means q r = .ok b := by
  induction l generalizing k P st i with
  | nil => simp [Spec.play, Conn.calls] at h
  | cons e l ih =>
    obtain ⟨q, o⟩ := e
    have mine : (q, o) ∈ L := sub _ (List.mem_cons_self ..)
    have sub' : ∀ e ∈ l, e ∈ L := fun e h => sub e (List.mem_cons_of_mem _ h)
    obtain ⟨hs, hr⟩ := hL q o mine
    obtain ⟨f, w, hf, hw⟩ := frame_ok hs (BitVec.ofNat 64 k)
    -- the next id
    obtain ⟨k', hk1, hk2, hk3, hn, hn'⟩ : ∃ k', k ≤ k' ∧ k' + l.length < 2 ^ 64 ∧
        ((∀ s c o n, q ≠ .fetch s c o n) → k < k') ∧
        Spec.after (BitVec.ofNat 64 k) q = BitVec.ofNat 64 k' ∧
        q.nextId (BitVec.ofNat 64 k) = BitVec.ofNat 64 k' := by
      simp only [List.length_cons] at hk
      cases q with
      | fetch s c o n => exact ⟨k, by omega, by omega, fun h => absurd rfl (h s c o n), rfl, rfl⟩
      | _ =>
        refine ⟨k + 1, by omega, by omega, fun _ => by omega, ?_, ?_⟩ <;>
          simp only [Spec.after, Call.nextId] <;> rw [BitVec.ofNat_add] <;> rfl
    have own : ∀ r, Spec.replies o r → Spec.Fits r ∧
        ((∃ s c o n, q = .fetch s c o n) → ∃ out, (q, out) ∈ L ∧ Spec.replies out r) ∧
        ((∀ s c o n, q ≠ .fetch s c o n) → ∃ j, j < k' ∧ BitVec.ofNat 64 k = BitVec.ofNat 64 j) :=
      fun r h => ⟨hr r h, fun _ => ⟨o, mine, h⟩, fun h => ⟨k, hk3 h, rfl⟩⟩
    have up : ∀ p ∈ P, Spec.Fits p.2.2 ∧
        ((∃ s c o n, p.2.1 = .fetch s c o n) → ∃ out, (p.2.1, out) ∈ L ∧ Spec.replies out p.2.2) ∧
        ((∀ s c o n, p.2.1 ≠ .fetch s c o n) → ∃ j, j < k' ∧ p.1 = BitVec.ofNat 64 j) := by
      intro p hp
      obtain ⟨h1, h2, h3⟩ := hP p hp
      refine ⟨h1, h2, fun h => ?_⟩
      obtain ⟨j, hj, e⟩ := h3 h
      exact ⟨j, by omega, e⟩
    have next : ∀ (P' : List (BitVec 64 × Call × Spec.Reply)) (st' : Option Bytes) (x : Option (Except TErr Bytes)),
        st'.getD [] = P'.flatMap (fun p => Spec.bytes (Spec.respond p.1 p.2.1 p.2.2)) →
        (∀ p ∈ P', p ∈ P ∨ ∃ r, Spec.replies o r ∧ p = (BitVec.ofNat 64 k, q, r)) →
        (x :: ((⟨st', BitVec.ofNat 64 k'⟩ : Conn).calls (Spec.play (BitVec.ofNat 64 k') l)).2)[i]? =
          some (some (.ok b)) →
        (i = 0 → x = some (.ok b) → ∃ r, o = .served r ∧ Spec.means q r = .ok b) →
        ∃ q' r, ((q, o) :: l)[i]? = some (q', .served r) ∧ Spec.means q' r = .ok b := by
      intro P' st' x h1 h2 h3 h4
      cases i with
      | zero =>
        simp only [List.getElem?_cons_zero, Option.some.injEq] at h3
        obtain ⟨r, rfl, hm⟩ := h4 rfl h3
        exact ⟨q, r, rfl, hm⟩
      | succ i =>
        simp only [List.getElem?_cons_succ] at h3
        obtain ⟨q', r, h5, h6⟩ := ih sub' k' hk2 P' st' h1 (fun p hp => by
          rcases h2 p hp with hp | ⟨r, hr, rfl⟩
          · exact up p hp
          · exact own r hr) i h3
        exact ⟨q', r, by simpa using h5, h6⟩
    simp only [Spec.play, Conn.calls, hn] at h
    cases o with
    | broken =>
      have e : (⟨st, BitVec.ofNat 64 k⟩ : Conn).call q .broken =
          (⟨none, BitVec.ofNat 64 k'⟩, some (.error .broken)) := by
        simp only [Conn.call, hf, hn']
      simp only [e] at h
      exact next [] none _ rfl (by simp) h (by simp)
    | unsent =>
      have e : (⟨st, BitVec.ofNat 64 k⟩ : Conn).call q (.dropped none) =
          (⟨st, BitVec.ofNat 64 k'⟩, none) := by
        simp only [Conn.call, hf, hn']
      simp only [e] at h
      exact next P st _ hst (fun p hp => .inl hp) h (by simp)
    | lost r =>
      have e : (⟨st, BitVec.ofNat 64 k⟩ : Conn).call q
          (.dropped (some (Spec.bytes (Spec.respond (BitVec.ofNat 64 k) q r), 0))) =
          (⟨some (st.getD [] ++ Spec.bytes (Spec.respond (BitVec.ofNat 64 k) q r)), BitVec.ofNat 64 k'⟩, none) := by
        simp only [Conn.call, hf, hn', List.drop_zero]
      simp only [e] at h
      refine next (P ++ [(BitVec.ofNat 64 k, q, r)]) _ _ (by simp [hst]) ?_ h (by simp)
      intro p hp
      rcases List.mem_append.1 hp with hp | hp
      · exact .inl hp
      · exact .inr ⟨r, .inr rfl, by simpa using hp⟩
    | served r =>
      obtain ⟨p, P', hp⟩ : ∃ p P', P ++ [(BitVec.ofNat 64 k, q, r)] = p :: P' := by
        cases P with
        | nil => exact ⟨_, _, rfl⟩
        | cons p P => exact ⟨p, P ++ [(BitVec.ofNat 64 k, q, r)], rfl⟩
      have mem : ∀ x ∈ p :: P', x ∈ P ∨ ∃ r', Spec.replies (.served r) r' ∧ x = (BitVec.ofNat 64 k, q, r') := by
        intro x hx
        rw [← hp] at hx
        rcases List.mem_append.1 hx with hx | hx
        · exact .inl hx
        · exact .inr ⟨r, .inl rfl, by simpa using hx⟩
      have fit : Spec.Fits p.2.2 := by
        rcases mem p (List.mem_cons_self ..) with h | ⟨r', h, rfl⟩
        · exact (hP p h).1
        · exact hr r' h
      have e : (⟨st, BitVec.ofNat 64 k⟩ : Conn).call q
          (.answered (Spec.bytes (Spec.respond (BitVec.ofNat 64 k) q r))) =
          (⟨some (P'.flatMap fun p => Spec.bytes (Spec.respond p.1 p.2.1 p.2.2)), BitVec.ofNat 64 k'⟩,
            some (q.answer (BitVec.ofNat 64 k) (Spec.respond p.1 p.2.1 p.2.2))) := by
        have e2 : st.getD [] ++ Spec.bytes (Spec.respond (BitVec.ofNat 64 k) q r) =
            Spec.bytes (Spec.respond p.1 p.2.1 p.2.2) ++
              P'.flatMap fun p => Spec.bytes (Spec.respond p.1 p.2.1 p.2.2) := by
          have := congrArg (List.flatMap fun p : BitVec 64 × Call × Spec.Reply =>
            Spec.bytes (Spec.respond p.1 p.2.1 p.2.2)) hp
          simpa [hst] using this
        simp only [Conn.call, hf, hw, hn', e2, respond_read fit]
      simp only [e] at h
      refine next P' _ _ rfl (fun x hx => mem x (List.mem_cons_of_mem _ hx)) h ?_
      intro _ hx
      simp only [Option.some.injEq] at hx
      rcases mem p (List.mem_cons_self ..) with hm | ⟨r', hr', rfl⟩
      · rcases answer_other fit hx with ⟨s, c, o, n, n', rfl, hq, hb⟩ | ⟨_, hq, hid⟩
        · obtain ⟨out, h1, h2⟩ := (hP p hm).2.1 ⟨_, _, _, _, hq⟩
          rw [hq] at h1
          rw [hb] at h2
          have := const s c o n' n out (.served r) r b h1 mine h2 (.inl rfl)
          exact ⟨r, rfl, by rw [this]; rfl⟩
        · obtain ⟨j, hj, e⟩ := (hP p hm).2.2 hq
          rw [e] at hid
          have := congrArg BitVec.toNat hid
          simp only [BitVec.toNat_ofNat] at this
          rw [Nat.mod_eq_of_lt (by omega), Nat.mod_eq_of_lt (by omega)] at this
          omega
      · have : r' = r := by rcases hr' with h | h <;> cases h; rfl
        subst this
        exact ⟨r', rfl, by rw [← hx, answer_own fit]⟩

/-- C105, also when calls are dropped between their request and their reply: no call is ever
told what the other end said to another request. -/
theorem C105_never_anothers_partial (l : List (Call × Spec.Outcome)) (hl : Spec.Plays l)
    (len : l.length < 2 ^ 64) (const : Spec.Constant l) (i : Nat) (b : Bytes)
    (h : (({} : Conn).calls (Spec.play 0 l)).2[i]? = some (some (.ok b))) :
    ∃ q r, l[i]? = some (q, .served r) ∧ Spec.means q r = .ok b :=
  never_anothers l hl const l (fun _ h => h) 0 (by omega) [] none rfl (by simp) i b h

/-- A lost fetch, and a fetch of the same chunk that takes the reply to it. -/
example : ((⟨none, 0⟩ : Conn).calls (Spec.play 0
    [(.fetch 5 0 0 2147483647, .lost (.ok [1, 2, 3])), (.fetch 5 0 0 2147483647, .served (.ok [1, 2, 3])),
      (.fetch 5 1 0 2147483647, .served (.ok [4]))])).2 =
    [none, some (.ok [1, 2, 3]), some (.error .chunkMismatch)] := rfl

theorem id_ne (n : BitVec 64) : n ≠ n + 1 := by
  intro h
  have := congrArg BitVec.toNat h
  rw [BitVec.toNat_add] at this
  have h2 := n.isLt
  have h3 : (1 : BitVec 64).toNat = 1 := rfl
  rw [h3] at this
  omega

/-- C105 fails when a call is dropped between its request and its reply, as a reader does
that does not want any more: all later calls on the connection are answered with an error,
though the other end serves every one of them. -/
theorem C105_drop_wedges (c : Conn) (hc : c.stream = none ∨ c.stream = some []) (q : Call)
    (hq : Spec.Sendable q) (r : Spec.Reply) (hr : Spec.Fits r) (l : List (Bytes × Spec.Reply))
    (hl : ∀ b r, (b, r) ∈ l → b.length < 2 ^ 31 ∧ Spec.Fits r) :
    ∃ x, (c.calls (Spec.play c.next ((q, .lost r) :: l.map fun e => (.rpc e.1, .served e.2)))).2 = none :: x ∧
      x.length = l.length ∧ ∀ y ∈ x, ∃ e, y = some (.error e) := by
  have hn : Spec.after c.next q = q.nextId c.next := by
    cases q <;> rfl
  obtain ⟨f, w, hf, hw⟩ := frame_ok hq c.next
  have hg : c.stream.getD [] = [] := by rcases hc with h | h <;> rw [h] <;> rfl
  have e : c.call q (.dropped (some (Spec.bytes (Spec.respond c.next q r), 0))) =
      (⟨some (Spec.bytes (Spec.respond c.next q r)), q.nextId c.next⟩, none) := by
    simp only [Conn.call, hf, hg, List.nil_append, List.drop_zero]
  simp only [Spec.play, Conn.calls, hn, e]
  refine ⟨_, rfl, ?_⟩
  -- one reply is always left over
  have key : ∀ (l : List (Bytes × Spec.Reply)) (q' : Call) (id next : BitVec 64) (r' : Spec.Reply),
      (∀ b r, (b, r) ∈ l → b.length < 2 ^ 31 ∧ Spec.Fits r) → Spec.Fits r' →
      ((∀ s c o n, q' ≠ .fetch s c o n) → id ≠ next) →
      ((⟨some (Spec.bytes (Spec.respond id q' r')), next⟩ : Conn).calls
        (Spec.play next (l.map fun e => (.rpc e.1, .served e.2)))).2.length = l.length ∧
      ∀ y ∈ ((⟨some (Spec.bytes (Spec.respond id q' r')), next⟩ : Conn).calls
        (Spec.play next (l.map fun e => (.rpc e.1, .served e.2)))).2, ∃ e, y = some (.error e) := by
    intro l
    induction l with
    | nil => intro q' id next r' _ _ _; exact ⟨rfl, by simp [Spec.play, Conn.calls]⟩
    | cons x l ih =>
      intro q' id next r' hl hr' hid
      obtain ⟨b, r2⟩ := x
      obtain ⟨hb, hr2⟩ := hl b r2 (List.mem_cons_self ..)
      obtain ⟨f, w, hf, hw⟩ := frame_ok (q := .rpc b) hb next
      have e : (⟨some (Spec.bytes (Spec.respond id q' r')), next⟩ : Conn).call (.rpc b)
          (.answered (Spec.bytes (Spec.respond next (.rpc b) r2))) =
          (⟨some (Spec.bytes (Spec.respond next (.rpc b) r2)), next + 1⟩,
            some ((Call.rpc b).answer next (Spec.respond id q' r'))) := by
        simp only [Conn.call, hf, hw, Option.getD_some, respond_read hr', Call.nextId]
      have h1 := ih (.rpc b) next (next + 1) r2 (fun b r h => hl b r (List.mem_cons_of_mem _ h)) hr2
        (fun _ => id_ne next)
      simp only [List.map_cons, Spec.play, Conn.calls, e, Spec.after]
      refine ⟨by rw [List.length_cons, h1.1]; rfl, ?_⟩
      intro y hy
      rcases List.mem_cons.1 hy with rfl | hy
      · cases ha : (Call.rpc b).answer next (Spec.respond id q' r') with
        | error e => exact ⟨e, rfl⟩
        | ok z =>
          rcases answer_other hr' ha with ⟨_, _, _, _, _, h, _⟩ | ⟨_, h2, h3⟩
          · cases h
          · exact absurd h3 (hid h2)
      · exact h1.2 y hy
  refine key l q c.next (q.nextId c.next) r hl hr ?_
  intro hq' h
  cases q with
  | fetch s c o n => exact hq' _ _ _ _ rfl
  | _ => exact id_ne c.next h

/-- A reader drops the fetch of a chunk; opening the next stream from that worker fails, and
so does every attempt after it. -/
example : ((⟨some [], 0⟩ : Conn).calls (Spec.play 0
    [(.fetch 5 0 0 2147483647, .lost (.ok [1, 2, 3])), (.rpc [1], .served (.ok [7])),
      (.rpc [2], .served (.ok [8]))])).2 =
    [none, some (.error .rpcFrame), some (.error .rpcId)] := rfl

end Verif.Celeborn
