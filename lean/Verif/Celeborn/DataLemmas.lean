import Verif.Celeborn.Data
import Verif.Celeborn.TransportLemmas

/-! # Lemmas on the framing of shuffle data -/

namespace Verif.Celeborn

open Verif.Func.CountMin (toBE fromBE length_toBE fromBE_toBE fromBE_lt)

theorem length_toLE (n x : Nat) : (toLE n x).length = n := by
  rw [toLE, List.length_reverse, length_toBE]

theorem from_toLE {x : Nat} (h : x < 2 ^ 32) : fromLE (toLE 4 x) = x := by
  rw [fromLE, toLE, List.reverse_reverse, fromBE_toBE, Nat.mod_eq_of_lt]
  omega

/-- A library that undoes its own compression. -/
def Spec.Good (c : Codec) : Prop :=
  c.method ≠ 0x10 ∧ (∀ d, c.sum d < 2 ^ 32) ∧
    ∀ d p, c.pack d = some p → c.unpack p d.length = some d

def Spec.GoodCodec : Option Codec → Prop
  | none => True
  | some c => Spec.Good c

theorem drop_magic (m : Bytes) (x : Byte) (r : Bytes) : (m ++ x :: r).drop (m.length + 1) = r := by
  rw [← List.drop_drop, List.drop_left]
  rfl

theorem take_4 {a : Bytes} (h : a.length = 4) (r : Bytes) : (a ++ r).take 4 = a := List.take_left' h

theorem drop_4 {a : Bytes} (h : a.length = 4) (r : Bytes) : (a ++ r).drop 4 = r := List.drop_left' h

theorem block_parts (m : Bytes) (x : Byte) (a b s p : Nat → Bytes) (pl dl sm : Nat) (pay : Bytes)
    (ha : a = toLE 4) (hb : b = toLE 4) (hs : s = toLE 4) (hp : p = fun _ => pay)
    (h1 : pl < 2 ^ 32) (h2 : dl < 2 ^ 32) (h3 : sm < 2 ^ 32) :
    let w := m ++ (x :: (a pl ++ (b dl ++ (s sm ++ p 0))))
    w.length = m.length + 13 + pay.length ∧ w.take m.length = m ∧ (w.drop m.length).head? = some x ∧
      fromLE ((w.drop (m.length + 1)).take 4) = pl ∧ fromLE ((w.drop (m.length + 5)).take 4) = dl ∧
      fromLE ((w.drop (m.length + 9)).take 4) = sm ∧ w.drop (m.length + 13) = pay := by
  subst ha hb hs hp
  intro w
  have d1 : w.drop (m.length + 1) = toLE 4 pl ++ (toLE 4 dl ++ (toLE 4 sm ++ pay)) := drop_magic ..
  have d5 : w.drop (m.length + 5) = toLE 4 dl ++ (toLE 4 sm ++ pay) := by
    rw [show m.length + 5 = m.length + 1 + 4 from rfl, ← List.drop_drop, d1, drop_4 (length_toLE ..)]
  have d9 : w.drop (m.length + 9) = toLE 4 sm ++ pay := by
    rw [show m.length + 9 = m.length + 5 + 4 from rfl, ← List.drop_drop, d5, drop_4 (length_toLE ..)]
  have d13 : w.drop (m.length + 13) = pay := by
    rw [show m.length + 13 = m.length + 9 + 4 from rfl, ← List.drop_drop, d9, drop_4 (length_toLE ..)]
  refine ⟨?_, List.take_left, ?_, ?_, ?_, ?_, d13⟩
  · simp only [w, List.length_append, List.length_cons, length_toLE]
    omega
  · rw [List.drop_left]; rfl
  · rw [d1, take_4 (length_toLE ..), from_toLE h1]
  · rw [d5, take_4 (length_toLE ..), from_toLE h2]
  · rw [d9, take_4 (length_toLE ..), from_toLE h3]

theorem decompress_compress {c : Option Codec} (hc : Spec.GoodCodec c) {d w : Bytes}
    (h : compress c d = .ok w) : decompress c w = .ok d := by
  cases c with
  | none =>
    simp only [compress, Except.ok.injEq] at h
    rw [h]; rfl
  | some c =>
    obtain ⟨hm, hsum, hgood⟩ := hc
    simp only [compress] at h
    cases hp : c.pack d with
    | none => rw [hp] at h; cases h
    | some p =>
      simp only [hp] at h
      by_cases h1 : 2 ^ 32 ≤ (if d.length ≤ p.length then d else p).length
      · rw [if_pos h1] at h; cases h
      · rw [if_neg h1] at h
        by_cases h2 : 2 ^ 32 ≤ d.length
        · rw [if_pos h2] at h; cases h
        · rw [if_neg h2] at h
          simp only [Except.ok.injEq] at h
          obtain ⟨e1, e2, e3, e4, e5, e6, e7⟩ := block_parts c.magic (if d.length ≤ p.length then 0x10 else c.method)
            _ _ _ _ _ d.length (c.sum d) (if d.length ≤ p.length then d else p) rfl rfl rfl rfl
            (Nat.lt_of_not_le h1) (Nat.lt_of_not_le h2) (hsum d)
          simp only [h] at e1 e2 e3 e4 e5 e6 e7
          simp only [decompress, decompressBlock, e2, e3, e4, e5, e6, e7]
          rw [if_neg (by rw [e1]; simp), if_neg (by rw [e1]; simp)]
          by_cases h3 : d.length ≤ p.length
          · simp [h3]
          · have : ¬ c.method = 16#8 := hm
            simp [h3, this, hgood d p hp]

theorem length_prefix (m a b : BitVec 32) (n : Nat) : (batchPrefix m a b n).length = 16 := by
  simp [batchPrefix, length_toBE]

theorem prefix_length (m a b : BitVec 32) {n : Nat} (h : n < 2 ^ 31) (r : Bytes) :
    fromBE (((batchPrefix m a b n ++ r).drop 12).take 4) = n := by
  have : batchPrefix m a b n ++ r = (toBE 4 m.toNat ++ toBE 4 a.toNat ++ toBE 4 b.toNat) ++ (toBE 4 n ++ r) := by
    simp [batchPrefix]
  rw [this, List.drop_left' (by simp [length_toBE]), take_4 (length_toBE ..), from_to4 h]

/-- A batch at the front is taken. -/
theorem takeBatch_body {c : Option Codec} {m a b : BitVec 32} {d w : Bytes}
    (h : batchBody c m a b d = .ok w) (rest : Bytes) :
    ∃ p, compress c d = .ok p ∧ takeBatch (w ++ rest) = .ok (some (p, rest)) ∧ 16 ≤ w.length ∧
      w = batchPrefix m a b p.length ++ p ∧ p.length < 2 ^ 31 := by
  simp only [batchBody] at h
  cases hp : compress c d with
  | error e => rw [hp] at h; cases h
  | ok p =>
    rw [hp] at h
    by_cases h1 : 2 ^ 31 ≤ p.length
    · simp only [h1, if_true] at h; cases h
    · simp only [h1, if_false, Except.ok.injEq] at h
      subst h
      refine ⟨p, rfl, ?_, by simp [length_prefix], rfl, Nat.lt_of_not_le h1⟩
      have e : batchPrefix m a b p.length ++ p ++ rest = batchPrefix m a b p.length ++ (p ++ rest) := by simp
      have l : (batchPrefix m a b p.length ++ p).length = 16 + p.length := by simp [length_prefix]
      simp only [takeBatch]
      rw [if_neg (by simp [length_prefix]), e, prefix_length _ _ _ (Nat.lt_of_not_le h1), if_neg h1,
        if_neg (by simp [length_prefix]), ← e, List.take_left' l, List.drop_left' l,
        List.drop_left' (length_prefix ..)]

/-- What is shorter than its first batch is kept. -/
theorem takeBatch_short {m a b : BitVec 32} {p x y : Bytes} (hp : p.length < 2 ^ 31)
    (h : batchPrefix m a b p.length ++ p = x ++ y) (hy : y ≠ []) : takeBatch x = .ok none := by
  simp only [takeBatch]
  have hl : 16 + p.length = x.length + y.length := by
    have := congrArg List.length h
    simpa [length_prefix] using this
  have hy' : 0 < y.length := by cases y with
    | nil => exact absurd rfl hy
    | cons _ _ => simp
  by_cases h1 : x.length < 16
  · rw [if_pos h1]
  · rw [if_neg h1]
    have : fromBE ((x.drop 12).take 4) = p.length := by
      have e := prefix_length m a b hp p
      rw [h, List.drop_append_of_le_length (by omega), List.take_append_of_le_length (by simp; omega)] at e
      exact e
    rw [this, if_neg (by omega), if_pos (by omega)]

/-- A run of batches. -/
inductive Spec.Bodies (c : Option Codec) : List Bytes → List Bytes → Prop
  | nil : Spec.Bodies c [] []
  | cons {d w : Bytes} {ds ws : List Bytes} (h : ∃ m a b, batchBody c m a b d = .ok w)
      (hs : Spec.Bodies c ds ws) : Spec.Bodies c (d :: ds) (w :: ws)

/-- Part of a batch. -/
def Spec.Partial (c : Option Codec) (x : Bytes) : Prop :=
  ∃ m a b d w y, batchBody c m a b d = .ok w ∧ w = x ++ y ∧ y ≠ []

theorem partial_take {c : Option Codec} {x : Bytes} (h : Spec.Partial c x) : takeBatch x = .ok none := by
  obtain ⟨m, a, b, d, w, y, h1, h2, h3⟩ := h
  obtain ⟨p, _, _, _, e, hp⟩ := takeBatch_body h1 []
  exact takeBatch_short hp (e ▸ h2) h3

/-- Draining a buffer that starts with whole batches. -/
theorem drain_bodies {c : Option Codec} (hc : Spec.GoodCodec c) {ds ws : List Bytes}
    (h : Spec.Bodies c ds ws) {x : Bytes} (hx : takeBatch x = .ok none) (fuel : Nat)
    (hf : (ws.flatten ++ x).length ≤ fuel) : drain c fuel (ws.flatten ++ x) = (ds, .ok x) := by
  induction h generalizing fuel with
  | nil =>
    cases fuel with
    | zero => rfl
    | succ n => simp only [List.flatten_nil, List.nil_append, drain, hx]
  | cons hw hws ih =>
    obtain ⟨m, a, b, hw⟩ := hw
    rename_i d w ds ws
    obtain ⟨p, h1, h2, h3, _⟩ := takeBatch_body hw (ws.flatten ++ x)
    simp only [List.flatten_cons, List.append_assoc, List.length_append] at hf ⊢
    cases fuel with
    | zero => omega
    | succ n =>
      simp only [drain, h2, decompress_compress hc h1]
      rw [ih n (by simp only [List.length_append]; omega)]

/-- Where a prefix of a run of batches ends. -/
theorem split_bodies {c : Option Codec} {ds ws : List Bytes} (h : Spec.Bodies c ds ws) {x y : Bytes}
    (e : ws.flatten = x ++ y) :
    ∃ ds1 ds2 ws1 ws2 r, ds = ds1 ++ ds2 ∧ Spec.Bodies c ds1 ws1 ∧ Spec.Bodies c ds2 ws2 ∧
      x = ws1.flatten ++ r ∧ ws2.flatten = r ++ y ∧ takeBatch r = .ok none := by
  induction h generalizing x with
  | nil =>
    simp only [List.flatten_nil, List.nil_eq, List.append_eq_nil_iff] at e
    exact ⟨[], [], [], [], [], rfl, .nil, .nil, by simp [e.1], by simp [e.2], rfl⟩
  | cons hw hws ih =>
    rename_i d w ds ws
    by_cases hl : x.length < w.length
    · simp only [List.flatten_cons] at e
      refine ⟨[], d :: ds, [], w :: ws, x, rfl, .nil, .cons hw hws, by simp, by simpa using e, ?_⟩
      obtain ⟨m, a, b, hw⟩ := hw
      obtain ⟨y', hy⟩ : ∃ y', w = x ++ y' := by
        rcases List.append_eq_append_iff.1 e with ⟨z, h1, h2⟩ | ⟨z, h1, h2⟩
        · rw [h1] at hl; simp at hl; omega
        · exact ⟨z, h1⟩
      refine partial_take (c := c) ⟨m, a, b, d, w, y', hw, hy, ?_⟩
      intro h0
      rw [hy, h0] at hl
      simp at hl
    · simp only [List.flatten_cons] at e
      obtain ⟨z, hz⟩ : ∃ z, x = w ++ z := by
        rcases List.append_eq_append_iff.1 e with ⟨z, h1, h2⟩ | ⟨z, h1, h2⟩
        · exact ⟨z, h1⟩
        · have := congrArg List.length h1
          simp at this
          have : z = [] := List.length_eq_zero_iff.1 (by omega)
          exact ⟨[], by rw [h1, this]; simp⟩
      rw [hz, List.append_assoc] at e
      obtain ⟨ds1, ds2, ws1, ws2, r, h1, h2, h3, h4, h5, h6⟩ := ih (List.append_cancel_left e)
      exact ⟨d :: ds1, ds2, w :: ws1, ws2, r, by rw [h1]; rfl, .cons hw h2, h3, by simp [hz, h4], h5, h6⟩

theorem Bodies.append {c : Option Codec} {ds1 ds2 ws1 ws2 : List Bytes} (h1 : Spec.Bodies c ds1 ws1)
    (h2 : Spec.Bodies c ds2 ws2) : Spec.Bodies c (ds1 ++ ds2) (ws1 ++ ws2) := by
  induction h1 with
  | nil => exact h2
  | cons h _ ih => exact .cons h ih

/-- Reading a run of batches, then some part `t` of a batch, however they are cut into
chunks. -/
theorem read_bodies {c : Option Codec} (hc : Spec.GoodCodec c) (chunks : List Bytes) {ds ws : List Bytes}
    (h : Spec.Bodies c ds ws) {t : Bytes} (ht : t = [] ∨ Spec.Partial c t) {buf : Bytes}
    (e : buf ++ chunks.flatten = ws.flatten ++ t) :
    readChunks c buf (chunks.map .ok) = (ds, if t = [] then none else some .truncated) := by
  have ht' : takeBatch t = .ok none := by
    rcases ht with rfl | h
    · rfl
    · exact partial_take h
  induction chunks generalizing buf ds ws with
  | nil =>
    simp only [List.flatten_nil, List.append_nil] at e
    subst e
    rw [List.map_nil]
    rw [readChunks]
    simp only [drain_bodies hc h ht' _ (Nat.le_refl _)]
  | cons x chunks ih =>
    simp only [List.flatten_cons] at e
    -- the whole batches of the buffer
    have key : ∃ ds1 ds2 ws1 ws2 r, ds = ds1 ++ ds2 ∧ Spec.Bodies c ds1 ws1 ∧ Spec.Bodies c ds2 ws2 ∧
        buf = ws1.flatten ++ r ∧ ws2.flatten ++ t = r ++ (x ++ chunks.flatten) ∧ takeBatch r = .ok none := by
      rcases List.append_eq_append_iff.1 e with ⟨z, h1, h2⟩ | ⟨z, h1, h2⟩
      · obtain ⟨ds1, ds2, ws1, ws2, r, a1, a2, a3, a4, a5, a6⟩ := split_bodies h h1
        exact ⟨ds1, ds2, ws1, ws2, r, a1, a2, a3, a4, by rw [a5, h2, List.append_assoc], a6⟩
      · refine ⟨ds, [], ws, [], z, by simp, h, .nil, h1, by simpa using h2, ?_⟩
        rcases ht with rfl | ⟨m, a, b, d, w, y, b1, b2, b3⟩
        · have : z = [] := (List.append_eq_nil_iff.1 h2.symm).1
          rw [this]; rfl
        · refine partial_take (c := c) ⟨m, a, b, d, w, (x ++ chunks.flatten) ++ y, b1, ?_, by simp [b3]⟩
          rw [b2, h2, List.append_assoc]
    obtain ⟨ds1, ds2, ws1, ws2, r, a1, a2, a3, a4, a5, a6⟩ := key
    subst a4
    rw [List.map_cons]
    rw [readChunks]
    simp only [drain_bodies hc a2 a6 _ (Nat.le_refl _)]
    rw [ih a3 (by rw [List.append_assoc]; exact a5.symm)]
    simp [a1]

/-- When a chunk cannot be read. -/
theorem read_fails {c : Option Codec} (hc : Spec.GoodCodec c) (chunks : List Bytes) {ds ws : List Bytes}
    (h : Spec.Bodies c ds ws) {y : Bytes} {buf : Bytes} (e : ws.flatten = buf ++ chunks.flatten ++ y)
    (err : TErr) (more : List (Except TErr Bytes)) :
    ∃ ds1 ds2, ds = ds1 ++ ds2 ∧
      readChunks c buf (chunks.map .ok ++ .error err :: more) = (ds1, some (.transport err)) := by
  induction chunks generalizing buf ds ws with
  | nil =>
    simp only [List.flatten_nil, List.append_nil] at e
    obtain ⟨ds1, ds2, ws1, ws2, r, a1, a2, a3, a4, a5, a6⟩ := split_bodies h e
    subst a4
    refine ⟨ds1, ds2, a1, ?_⟩
    rw [List.map_nil, List.nil_append]
    rw [readChunks]
    simp only [drain_bodies hc a2 a6 _ (Nat.le_refl _)]
  | cons x chunks ih =>
    simp only [List.flatten_cons, List.append_assoc] at e
    obtain ⟨ds1, ds2, ws1, ws2, r, a1, a2, a3, a4, a5, a6⟩ := split_bodies h e
    subst a4
    obtain ⟨ds3, ds4, b1, b2⟩ := ih (buf := r ++ x) a3 (by simpa using a5)
    refine ⟨ds1 ++ ds3, ds4, by rw [a1, b1, List.append_assoc], ?_⟩
    rw [List.map_cons, List.cons_append]
    rw [readChunks]
    simp only [drain_bodies hc a2 a6 _ (Nat.le_refl _), b2]

/-- Frames are decoded. -/
theorem decode_frame {B : Type} {enc : B → Bytes} {dec : Bytes → Option (List B)}
    (hd : ∀ b, dec (enc b) = some [b]) {b : B} {w : Bytes} (h : sinkFrame enc b = .ok w) :
    decodeBatches dec w = .ok [b] := by
  simp only [sinkFrame] at h
  split at h
  · cases h
  · rename_i hl
    cases h
    have h1 : fromBE (toBE 4 (enc b).length) = (enc b).length := by
      rw [fromBE_toBE, Nat.mod_eq_of_lt]; omega
    simp only [decodeBatches, decodeFrames]
    rw [if_neg (by
        intro h
        have := congrArg List.length h
        simp [length_toBE] at this),
      take_4 (length_toBE ..), h1, if_neg (by simp [length_toBE]), if_neg (by simp [length_toBE]),
      drop_4 (length_toBE ..), List.take_length, hd]
    have e : (toBE 4 (enc b).length ++ enc b).drop (4 + (enc b).length) = [] := by
      apply List.drop_eq_nil_of_le
      simp [length_toBE]
    rw [e]
    have : ∀ n, decodeFrames dec n [] = .ok [] := by
      intro n
      cases n <;> rfl
    rw [this]
    rfl

end Verif.Celeborn
