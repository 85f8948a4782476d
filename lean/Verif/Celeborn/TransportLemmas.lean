import Verif.Celeborn.Transport
import Verif.Func.CountMinProps

/-!
# Lemmas: frames and connections
-/

namespace Verif.Celeborn

open Verif.Func.CountMin (toBE fromBE length_toBE fromBE_toBE toBE_fromBE fromBE_lt)

theorem takeExact_append {n : Nat} {a b : Bytes} (h : a.length = n) : takeExact n (a ++ b) = .ok (a, b) := by
  subst h
  simp [takeExact]

theorem takeExact_ok {n : Nat} {b x y : Bytes} (h : takeExact n b = .ok (x, y)) :
    b = x ++ y ∧ x.length = n := by
  simp only [takeExact] at h
  split at h
  · cases h
  · cases h
    simp
    omega

theorem from_to4 {n : Nat} (h : n < 2 ^ 31) : fromBE (toBE 4 n) = n := by
  rw [fromBE_toBE, Nat.mod_eq_of_lt]; omega

theorem from_to32 (n : BitVec 32) : fromBE (toBE 4 n.toNat) = n.toNat := by
  rw [fromBE_toBE, Nat.mod_eq_of_lt]
  have := n.isLt
  omega

theorem from_to64 (n : BitVec 64) : fromBE (toBE 8 n.toNat) = n.toNat := by
  rw [fromBE_toBE, Nat.mod_eq_of_lt]
  have := n.isLt
  omega

theorem read_write {f : Frame} {b : Bytes} (h : f.write = .ok b) (ht : f.type ∈ frameTypes) (rest : Bytes) :
    Frame.read (b ++ rest) = .ok (f, rest) := by
  simp only [Frame.write] at h
  split at h
  · cases h
  split at h
  · cases h
  rename_i h1 h2
  cases h
  have e : toBE 4 f.header.length ++ f.type :: toBE 4 f.body.length ++ f.header ++ f.body ++ rest =
      toBE 4 f.header.length ++ ([f.type] ++ (toBE 4 f.body.length ++ (f.header ++ (f.body ++ rest)))) := by
    simp
  rw [e]
  simp only [Frame.read]
  rw [takeExact_append (length_toBE _ _)]
  simp only [from_to4 (Nat.not_le.1 h1)]
  rw [if_neg h1, takeExact_append (by simp)]
  simp only [ht, not_true_eq_false, if_false]
  rw [takeExact_append (length_toBE _ _)]
  simp only [from_to4 (Nat.not_le.1 h2)]
  rw [if_neg h2, takeExact_append rfl]
  simp only
  rw [takeExact_append rfl]

theorem write_read {b rest : Bytes} {f : Frame} (h : Frame.read b = .ok (f, rest)) :
    ∃ w, f.write = .ok w ∧ b = w ++ rest ∧ f.type ∈ frameTypes := by
  simp only [Frame.read] at h
  split at h
  · cases h
  rename_i hl b1 e1
  obtain ⟨rfl, l1⟩ := takeExact_ok e1
  split at h
  · cases h
  rename_i g1
  split at h
  · cases h
  rename_i t b2 e2
  obtain ⟨rfl, l2⟩ := takeExact_ok e2
  split at h
  · rename_i _ t
    split at h
    · cases h
    rename_i g2
    split at h
    · cases h
    rename_i bl b3 e3
    obtain ⟨rfl, l3⟩ := takeExact_ok e3
    split at h
    · cases h
    rename_i g3
    split at h
    · cases h
    rename_i hd b4 e4
    obtain ⟨rfl, l4⟩ := takeExact_ok e4
    split at h
    · cases h
    rename_i bd b5 e5
    obtain ⟨rfl, l5⟩ := takeExact_ok e5
    cases h
    refine ⟨hl ++ t :: bl ++ hd ++ bd, ?_, by simp, by simpa using g2⟩
    simp only [Frame.write]
    rw [if_neg (by omega), if_neg (by omega), l4, l5]
    have := toBE_fromBE hl
    rw [l1] at this
    rw [this]
    have := toBE_fromBE bl
    rw [l3] at this
    rw [this]
  · cases h

/-! ## The other end -/

/-- What a Celeborn master or worker says to a request. -/
inductive Spec.Reply
  | ok (body : Bytes)
  | fail (message : Bytes)
deriving DecidableEq, Repr

/-- The frame in which it says so, for a request with the given id: `RpcResponse`,
`RpcFailure`, `ChunkFetchSuccess`, `ChunkFetchFailure`. -/
def Spec.respond (id : BitVec 64) : Call → Spec.Reply → Frame
  | .fetch s c o _, .ok b =>
    ⟨1, toBE 8 s.toNat ++ toBE 4 c.toNat ++ toBE 4 o.toNat ++ toBE 4 b.length, b⟩
  | .fetch s c o l, .fail m =>
    ⟨2, toBE 8 s.toNat ++ toBE 4 c.toNat ++ toBE 4 o.toNat ++ toBE 4 l.toNat ++ toBE 4 m.length ++ m, []⟩
  | _, .ok b => ⟨4, toBE 8 id.toNat ++ toBE 4 b.length, b⟩
  | _, .fail m => ⟨5, toBE 8 id.toNat ++ toBE 4 m.length ++ m, []⟩

/-- What the caller is to be told. -/
def Spec.means : Call → Spec.Reply → Except TErr Bytes
  | .rpc _, .ok b => .ok b
  | .rpc _, .fail m => .error (.remote m)
  | .push .., .ok [] => .ok []
  | .push .., .ok (s :: _) =>
    -- success, the map has ended, the worker or its replica is congested
    if s = 0 ∨ s = 15 ∨ s = 30 ∨ s = 31 then .ok [] else .error (.worker s.toNat)
  | .push .., .fail m => .error (.remote m)
  | .fetch .., .ok b => .ok b
  | .fetch .., .fail _ => .error .chunk

/-- The reply fits a frame. -/
def Spec.Fits : Spec.Reply → Prop
  | .ok b => b.length < 2 ^ 31
  | .fail m => m.length < 2 ^ 31 - 24

/-- The request fits a frame. -/
def Spec.Sendable : Call → Prop
  | .rpc b => b.length < 2 ^ 31
  | .push key loc _ _ _ d => key.length + loc.length < 2 ^ 31 - 17 ∧ d.length < 2 ^ 31 - 16
  | .fetch .. => True

/-- What becomes of a call: it is served, it breaks, it is dropped before its request is sent,
or it is dropped after the request was sent and before its reply was read. -/
inductive Spec.Outcome
  | served (r : Spec.Reply)
  | broken
  | unsent
  | lost (r : Spec.Reply)
deriving DecidableEq, Repr

/-- The bytes of a frame. -/
def Spec.bytes (f : Frame) : Bytes :=
  toBE 4 f.header.length ++ f.type :: toBE 4 f.body.length ++ f.header ++ f.body

/-- Requests other than those of chunks are numbered. -/
def Spec.after (next : BitVec 64) : Call → BitVec 64
  | .fetch .. => next
  | .rpc .. | .push .. => next + 1

/-- The calls with what the other end sends, when it answers every request it gets. -/
def Spec.play (next : BitVec 64) : List (Call × Spec.Outcome) → List (Call × Fate)
  | [] => []
  | (q, o) :: rest =>
    (q, match o with
      | .served r => .answered (Spec.bytes (Spec.respond next q r))
      | .broken => .broken
      | .unsent => .dropped none
      | .lost r => .dropped (some (Spec.bytes (Spec.respond next q r), 0))) ::
    Spec.play (Spec.after next q) rest

/-- Requests and replies fit. -/
def Spec.Plays (l : List (Call × Spec.Outcome)) : Prop :=
  ∀ q o, (q, o) ∈ l → Spec.Sendable q ∧ ∀ r, o = .served r ∨ o = .lost r → Spec.Fits r

theorem write_eq {f : Frame} (h1 : f.header.length < 2 ^ 31) (h2 : f.body.length < 2 ^ 31) :
    f.write = .ok (Spec.bytes f) := by
  simp only [Frame.write]
  rw [if_neg (by omega), if_neg (by omega)]
  rfl

theorem respond_write {q : Call} {r : Spec.Reply} (h : Spec.Fits r) (id : BitVec 64) :
    (Spec.respond id q r).write = .ok (Spec.bytes (Spec.respond id q r)) ∧
      (Spec.respond id q r).type ∈ frameTypes := by
  constructor
  · cases q <;> cases r <;> simp only [Spec.Fits] at h <;> apply write_eq <;>
      simp only [Spec.respond, List.length_append, length_toBE, List.length_nil] <;> omega
  · cases q <;> cases r <;> simp [Spec.respond, frameTypes]

theorem respond_read {q : Call} {r : Spec.Reply} (h : Spec.Fits r) (id : BitVec 64) (rest : Bytes) :
    Frame.read (Spec.bytes (Spec.respond id q r) ++ rest) = .ok (Spec.respond id q r, rest) :=
  read_write (respond_write h id).1 (respond_write h id).2 rest

theorem frame_ok {q : Call} (h : Spec.Sendable q) (id : BitVec 64) :
    ∃ f b, q.frame id = .ok f ∧ f.write = .ok b := by
  cases q with
  | rpc body =>
    simp only [Spec.Sendable] at h
    refine ⟨⟨3, toBE 8 id.toNat ++ toBE 4 body.length, body⟩, _, ?_, write_eq ?_ h⟩
    · simp only [Call.frame, rpcRequest]; rw [if_neg (by omega)]
    · simp [length_toBE]
  | push key loc m a b d =>
    simp only [Spec.Sendable] at h
    refine ⟨⟨11, toBE 8 id.toNat ++ 0 :: (toBE 4 key.length ++ key) ++ (toBE 4 loc.length ++ loc),
      batchPrefix m a b d.length ++ d⟩, _, ?_, write_eq ?_ ?_⟩
    · simp only [Call.frame, pushRequest, writeBytes]
      rw [if_neg (by omega), if_neg (by omega), if_neg (by omega)]
      simp only
      rw [if_neg (by omega)]
    · simp only [List.length_append, List.length_cons, length_toBE]
      omega
    · simp only [batchPrefix, List.length_append, length_toBE]
      omega
  | fetch s c o l =>
    exact ⟨fetchRequest s c o l, _, rfl, write_eq (by simp [fetchRequest, length_toBE]) (by simp [fetchRequest])⟩

theorem take8 (id : BitVec 64) (x : Bytes) : (toBE 8 id.toNat ++ x).take 8 = toBE 8 id.toNat :=
  List.take_left' (length_toBE _ _)

theorem drop8 (id : BitVec 64) (x : Bytes) : (toBE 8 id.toNat ++ x).drop 8 = x :=
  List.drop_left' (length_toBE _ _)

theorem rpc_response {id id' : BitVec 64} {f : Frame} {b : Bytes}
    (hf : f = ⟨4, toBE 8 id'.toNat ++ toBE 4 b.length, b⟩) (hb : b.length < 2 ^ 31) :
    f.rpcResponse id = if id' = id then .ok b else .error .rpcId := by
  subst hf
  simp only [Frame.rpcResponse, if_true]
  rw [if_neg (by simp [length_toBE]), take8, drop8, from_to64, from_to4 hb]
  by_cases h : id' = id
  · subst h
    rw [if_neg (by simp), if_neg (by omega), if_pos rfl]
  · rw [if_pos (by rwa [ne_eq, BitVec.toNat_inj]), if_neg h]

theorem rpc_failure {id id' : BitVec 64} {f : Frame} {m : Bytes}
    (hf : f = ⟨5, toBE 8 id'.toNat ++ toBE 4 m.length ++ m, []⟩) (hb : m.length < 2 ^ 31) :
    f.rpcResponse id = if id' = id then .error (.remote m) else .error .rpcId := by
  subst hf
  have e : toBE 8 id'.toNat ++ toBE 4 m.length ++ m = toBE 8 id'.toNat ++ (toBE 4 m.length ++ m) := by simp
  have e2 : (toBE 8 id'.toNat ++ (toBE 4 m.length ++ m)).drop 12 = m := by
    have := drop8 id' (toBE 4 m.length ++ m)
    rw [show (12 : Nat) = 8 + 4 from rfl, ← List.drop_drop, this, List.drop_left' (length_toBE _ _)]
  simp only [Frame.rpcResponse]
  rw [if_neg (by decide), if_pos trivial, e, if_neg (by simp [length_toBE]; omega), take8, drop8, from_to64,
    List.take_left' (length_toBE _ _), from_to4 hb, e2]
  by_cases h : id' = id
  · subst h
    rw [if_neg (by simp), if_neg (by omega), if_neg (by simp [length_toBE]; omega), if_pos rfl]
  · rw [if_pos (by rwa [ne_eq, BitVec.toNat_inj]), if_neg h]

theorem rpc_other {id : BitVec 64} {f : Frame} (h4 : f.type ≠ 4) (h5 : f.type ≠ 5) :
    f.rpcResponse id = .error .rpcFrame := by
  simp only [Frame.rpcResponse]
  rw [if_neg h4, if_neg h5]

theorem chunk_ok {s s' : BitVec 64} {c c' o o' : BitVec 32} {b : Bytes} {f : Frame}
    (hf : f = ⟨1, toBE 8 s'.toNat ++ toBE 4 c'.toNat ++ toBE 4 o'.toNat ++ toBE 4 b.length, b⟩)
    (hb : b.length < 2 ^ 31) :
    f.chunk s c o = if s' = s ∧ c' = c then (if o' = o then .ok b else .error .chunkSlice)
      else .error .chunkMismatch := by
  subst hf
  have e : toBE 8 s'.toNat ++ toBE 4 c'.toNat ++ toBE 4 o'.toNat ++ toBE 4 b.length =
      toBE 8 s'.toNat ++ (toBE 4 c'.toNat ++ (toBE 4 o'.toNat ++ toBE 4 b.length)) := by simp
  have d12 : (toBE 8 s'.toNat ++ (toBE 4 c'.toNat ++ (toBE 4 o'.toNat ++ toBE 4 b.length))).drop 12 =
      toBE 4 o'.toNat ++ toBE 4 b.length := by
    rw [show (12 : Nat) = 8 + 4 from rfl, ← List.drop_drop, drop8, List.drop_left' (length_toBE _ _)]
  have d16 : (toBE 8 s'.toNat ++ (toBE 4 c'.toNat ++ (toBE 4 o'.toNat ++ toBE 4 b.length))).drop 16 =
      toBE 4 b.length := by
    rw [show (16 : Nat) = 12 + 4 from rfl, ← List.drop_drop, d12, List.drop_left' (length_toBE _ _)]
  simp only [Frame.chunk]
  rw [if_neg (by simp [length_toBE]), e, d12, d16, take8, drop8, from_to64,
    List.take_left' (length_toBE _ _), List.take_left' (length_toBE _ _), from_to32, from_to32, from_to4 hb]
  by_cases h1 : s' = s ∧ c' = c
  · obtain ⟨rfl, rfl⟩ := h1
    simp only [ne_eq, not_true_eq_false, or_self, if_false, and_self, if_true]
    by_cases h2 : o' = o
    · subst h2
      simp only [not_true_eq_false, if_false, if_true]
      rw [if_neg (by omega)]
    · rw [if_pos (by rwa [BitVec.toNat_inj]), if_neg h2]
  · rw [if_neg h1]
    simp only [ne_eq, BitVec.toNat_inj]
    rw [if_pos]
    by_cases h3 : s' = s
    · exact .inr fun h => h1 ⟨h3, h⟩
    · exact .inl h3

theorem push_means (s : Byte) (bs : Bytes) :
    pushAnswer (s :: bs) = if s = 0 ∨ s = 15 ∨ s = 30 ∨ s = 31 then .ok [] else .error (.worker s.toNat) := by
  simp only [pushAnswer, pushAccepted, List.mem_cons, List.not_mem_nil, or_false]
  have e : ∀ n : Nat, n < 256 → (s.toNat = n ↔ s = BitVec.ofNat 8 n) := by
    intro n hn
    rw [← BitVec.toNat_inj, BitVec.toNat_ofNat, Nat.mod_eq_of_lt hn]
  simp only [e 0 (by omega), e 15 (by omega), e 30 (by omega), e 31 (by omega)]
  rfl

/-- The result of a call that reads the reply to its own request. -/
theorem answer_own {q : Call} {r : Spec.Reply} (h : Spec.Fits r) (id : BitVec 64) :
    q.answer id (Spec.respond id q r) = Spec.means q r := by
  cases q with
  | rpc b =>
    cases r with
    | ok b => exact (rpc_response rfl h).trans (if_pos rfl)
    | fail m => 
      simp only [Spec.Fits] at h
      exact (rpc_failure rfl (by omega)).trans (if_pos rfl)
  | push key loc m a b d =>
    cases r with
    | ok y =>
      have e := (rpc_response (id := id) (id' := id)
        (f := Spec.respond id (.push key loc m a b d) (.ok y)) rfl h).trans (if_pos rfl)
      simp only [Call.answer, e]
      cases y with
      | nil => rfl
      | cons s bs => exact push_means s bs
    | fail y =>
      simp only [Spec.Fits] at h
      have e := (rpc_failure (id := id) (id' := id) (m := y)
        (f := Spec.respond id (.push key loc m a b d) (.fail y)) rfl (by omega)).trans (if_pos rfl)
      simp only [Call.answer, e]
      rfl
  | fetch s c o l =>
    cases r with
    | ok b => exact (chunk_ok rfl h).trans (by rw [if_pos ⟨rfl, rfl⟩, if_pos rfl]; rfl)
    | fail m => rfl

/-- The result of a call that reads the reply to another request. -/
theorem answer_other {q q' : Call} {r : Spec.Reply} {id id' : BitVec 64} {b : Bytes} (h : Spec.Fits r)
    (ok : q.answer id (Spec.respond id' q' r) = .ok b) :
    (∃ s c o l l', q = .fetch s c o l ∧ q' = .fetch s c o l' ∧ r = .ok b) ∨
    ((∀ s c o l, q ≠ .fetch s c o l) ∧ (∀ s c o l, q' ≠ .fetch s c o l) ∧ id' = id) := by
  have rp : ∀ {x}, (Spec.respond id' q' r).rpcResponse id = .ok x →
      (∀ s c o l, q' ≠ .fetch s c o l) ∧ id' = id := by
    intro x hx
    cases q' with
    | fetch s c o l =>
      exfalso
      rw [rpc_other] at hx
      · cases hx
      · cases r <;> simp [Spec.respond]
      · cases r <;> simp [Spec.respond]
    | _ =>
      refine ⟨by simp, ?_⟩
      cases r with
      | ok y =>
        have hx := (rpc_response (id := id) (id' := id') (b := y) rfl h).symm.trans hx
        split at hx
        · assumption
        · cases hx
      | fail m =>
        simp only [Spec.Fits] at h
        have hx := (rpc_failure (id := id) (id' := id') (m := m) rfl (by omega)).symm.trans hx
        split at hx <;> cases hx
  cases q with
  | rpc x => exact .inr ⟨by simp, rp ok⟩
  | push key loc m a b d =>
    refine .inr ⟨by simp, ?_⟩
    simp only [Call.answer] at ok
    split at ok
    · cases ok
    · rename_i hx
      exact rp hx
  | fetch s c o l =>
    left
    cases q' with
    | fetch s' c' o' l' =>
      cases r with
      | ok y =>
        simp only [Call.answer] at ok
        replace ok := (chunk_ok (s := s) (c := c) (o := o) (s' := s') (c' := c') (o' := o') (b := y)
          rfl h).symm.trans ok
        split at ok
        · rename_i h1
          obtain ⟨rfl, rfl⟩ := h1
          split at ok
          · rename_i h2
            subst h2
            cases ok
            exact ⟨_, _, _, _, _, rfl, rfl, rfl⟩
          · cases ok
        · cases ok
      | fail m => exact absurd ok (by simp [Call.answer, Spec.respond, Frame.chunk])
    | _ => cases r <;> exact absurd ok (by simp [Call.answer, Spec.respond, Frame.chunk])

end Verif.Celeborn
