import Verif.Celeborn.DataLemmas

/-!
# What is pushed and what is read

**C106.** What is pushed to a partition is what is read from it.
**C107.** A reader sees the batches of the attempts that count, each once.
-/

namespace Verif.Celeborn

open Verif.Func.CountMin (toBE fromBE)

/-- A run-length code with a sum of bytes, for the examples. -/
def Spec.toy : Codec where
  magic := [76, 90]
  method := 0x20
  pack := fun d =>
    match d with
    | [] => some []
    | x :: r => if r.all (· == x) then some [x] else some (d ++ [0])
  unpack := fun p n => match p with | [x] => some (List.replicate n x) | _ => some p.dropLast
  sum := fun d => (d.foldl (fun s x => s + x.toNat) 0) % 2 ^ 32

theorem toy_good : Spec.Good Spec.toy := by
  refine ⟨by decide, fun d => Nat.mod_lt _ (by decide), ?_⟩
  intro d p h
  cases d with
  | nil =>
    cases h
    rfl
  | cons x r =>
    simp only [Spec.toy] at h ⊢
    split at h
    · rename_i ha
      cases h
      simp only [List.length_cons, Option.some.injEq]
      refine (List.eq_replicate_iff.2 ⟨by simp, ?_⟩).symm
      intro y hy
      rcases List.mem_cons.1 hy with rfl | hy
      · rfl
      · simpa using List.all_eq_true.1 ha y hy
    · cases h
      cases r with
      | nil => rename_i ha; simp at ha
      | cons y r =>
        simp only [List.cons_append, Option.some.injEq]
        exact List.dropLast_concat (l₁ := x :: y :: r)

/-- C106: a block is unpacked to what was packed. -/
theorem C106_block (c : Option Codec) (hc : Spec.GoodCodec c) (d w : Bytes) (h : compress c d = .ok w) :
    decompress c w = .ok d :=
  decompress_compress hc h

example : compress (some Spec.toy) [7, 7, 7] = .ok [76, 90, 0x20, 1, 0, 0, 0, 3, 0, 0, 0, 21, 0, 0, 0, 7] ∧
    decompress (some Spec.toy) [76, 90, 0x20, 1, 0, 0, 0, 3, 0, 0, 0, 21, 0, 0, 0, 7] = .ok [7, 7, 7] :=
  ⟨rfl, C106_block (some Spec.toy) toy_good [7, 7, 7] _ rfl⟩

/-- C106: what is unpacked has the length and the checksum of the block. -/
theorem C106_block_checked (c : Codec) (w d : Bytes) (h : decompress (some c) w = .ok d) :
    ∃ x a r, w = c.magic ++ x :: (a ++ toLE 4 d.length ++ toLE 4 (c.sum d) ++ r) ∧ a.length = 4 ∧
      r.length = fromLE a := by
  simp only [decompress, decompressBlock] at h
  split at h
  · cases h
  rename_i h1
  split at h
  · cases h
  rename_i h2
  split at h
  · cases h
  rename_i d' hd
  split at h
  · cases h
  rename_i h3
  cases h
  simp only [not_or, Decidable.not_not, Nat.not_lt] at h1 h3
  obtain ⟨hl, hm⟩ := h1
  obtain ⟨e1, e2⟩ := h3
  obtain ⟨r, hr⟩ : ∃ r, w = c.magic ++ r := ⟨w.drop c.magic.length, by
    have := List.take_append_drop c.magic.length w
    rw [hm] at this
    exact this.symm⟩
  cases r with
  | nil => rw [hr] at hl; simp at hl; omega
  | cons x r =>
    have d1 : w.drop (c.magic.length + 1) = r := by rw [hr]; exact drop_magic ..
    have d5 : w.drop (c.magic.length + 5) = r.drop 4 := by
      rw [show c.magic.length + 5 = c.magic.length + 1 + 4 from rfl, ← List.drop_drop, d1]
    have d9 : w.drop (c.magic.length + 9) = r.drop 8 := by
      rw [show c.magic.length + 9 = c.magic.length + 1 + 8 from rfl, ← List.drop_drop, d1]
    rw [d5] at e1
    rw [d9] at e2
    rw [d1] at h2
    have hr12 : 12 ≤ r.length := by rw [hr] at hl; simp at hl; omega
    have back : ∀ b : Bytes, b.length = 4 → toLE 4 (fromLE b) = b := by
      intro b hb
      rw [toLE, fromLE]
      have := Verif.Func.CountMin.toBE_fromBE b.reverse
      rw [List.length_reverse, hb] at this
      rw [this, List.reverse_reverse]
    refine ⟨x, r.take 4, r.drop 12, ?_, by simp; omega, ?_⟩
    · rw [hr, e1, e2, back _ (by simp; omega), back _ (by simp; omega)]
      congr 2
      rw [List.append_assoc, List.append_assoc, show r.drop 12 = (r.drop 8).drop 4 by rw [List.drop_drop],
        List.take_append_drop, show r.drop 8 = (r.drop 4).drop 4 by rw [List.drop_drop],
        List.take_append_drop, List.take_append_drop]
    · rw [hr] at h2
      simp only [List.length_append, List.length_cons] at h2
      simp only [List.length_drop]
      omega

/-- One byte of the content was changed. -/
example : decompress (some Spec.toy) [76, 90, 0x20, 1, 0, 0, 0, 3, 0, 0, 0, 21, 0, 0, 0, 8] =
    .error .blockChecksum := rfl

/-- C106: however the batches of a location are cut into chunks, they are read in the order
in which they were stored, whole. -/
theorem C106_read (c : Option Codec) (hc : Spec.GoodCodec c) (ds ws chunks : List Bytes)
    (h : Spec.Bodies c ds ws) (e : chunks.flatten = ws.flatten) :
    readChunks c [] (chunks.map .ok) = (ds, none) := by
  have := read_bodies hc chunks h (t := []) (.inl rfl) (buf := []) (by simpa using e)
  simpa using this

/-- C106: when the chunks end inside a batch, the batches before it are read and then there is
an error. -/
theorem C106_truncated (c : Option Codec) (hc : Spec.GoodCodec c) (ds ws chunks : List Bytes) (t : Bytes)
    (h : Spec.Bodies c ds ws) (ht : Spec.Partial c t) (h0 : t ≠ []) (e : chunks.flatten = ws.flatten ++ t) :
    readChunks c [] (chunks.map .ok) = (ds, some .truncated) := by
  have := read_bodies hc chunks h (.inr ht) (buf := []) (by simpa using e)
  simpa [h0] using this

/-- C106: when a chunk cannot be read, some of the batches are read and then there is that
error. -/
theorem C106_fetch_error (c : Option Codec) (hc : Spec.GoodCodec c) (ds ws chunks : List Bytes) (y : Bytes)
    (h : Spec.Bodies c ds ws) (e : ws.flatten = chunks.flatten ++ y) (err : TErr)
    (more : List (Except TErr Bytes)) :
    ∃ ds1 ds2, ds = ds1 ++ ds2 ∧
      readChunks c [] (chunks.map .ok ++ .error err :: more) = (ds1, some (.transport err)) :=
  read_fails hc chunks h (by simpa using e) err more

/-- C106: a batch that cannot be unpacked is an error after the batches before it, and nothing is read
after it. -/
theorem C106_corrupt (c : Option Codec) (hc : Spec.GoodCodec c) (ds ws : List Bytes) (h : Spec.Bodies c ds ws)
    (m a b : BitVec 32) (x rest : Bytes) (hx : x.length < 2 ^ 31) (e : DErr) (he : decompress c x = .error e)
    (more : List (Except TErr Bytes)) :
    readChunks c [] (.ok (ws.flatten ++ (batchPrefix m a b x.length ++ x ++ rest)) :: more) = (ds, some e) := by
  have hb : takeBatch (batchPrefix m a b x.length ++ x ++ rest) = .ok (some (x, rest)) := by
    have e : batchPrefix m a b x.length ++ x ++ rest = batchPrefix m a b x.length ++ (x ++ rest) := by simp
    have l : (batchPrefix m a b x.length ++ x).length = 16 + x.length := by simp [length_prefix]
    simp only [takeBatch]
    rw [if_neg (by simp [length_prefix]), e, prefix_length _ _ _ hx, if_neg (by omega),
      if_neg (by simp [length_prefix]), ← e, List.take_left' l, List.drop_left' l,
      List.drop_left' (length_prefix ..)]
  have key : ∀ fuel, (ws.flatten ++ (batchPrefix m a b x.length ++ x ++ rest)).length ≤ fuel →
      drain c fuel (ws.flatten ++ (batchPrefix m a b x.length ++ x ++ rest)) = (ds, .error e) := by
    induction h with
    | nil =>
      intro fuel hf
      cases fuel with
      | zero => simp [length_prefix] at hf
      | succ n => simp only [List.flatten_nil, List.nil_append, drain, hb, he]
    | cons hw hws ih =>
      intro fuel hf
      obtain ⟨m', a', b', hw⟩ := hw
      rename_i d w ds ws
      obtain ⟨p, h1, h2, h3, _⟩ := takeBatch_body hw (ws.flatten ++ (batchPrefix m a b x.length ++ x ++ rest))
      rw [List.flatten_cons, List.append_assoc] at hf ⊢
      rw [List.length_append] at hf
      cases fuel with
      | zero => omega
      | succ n =>
        simp only [drain, h2, decompress_compress hc h1]
        rw [ih n (by omega)]
  rw [readChunks]
  have z : drain c ([] : Bytes).length [] = ([], .ok []) := rfl
  rw [z]
  dsimp only
  have k : ∀ y, y = ws.flatten ++ (batchPrefix m a b x.length ++ x ++ rest) →
      readChunks c y more = (ds, some e) := by
    intro y hy
    subst hy
    rw [readChunks, key _ (Nat.le_refl _)]
  rw [k _ (List.nil_append _)]
  rfl

/-- The second of two batches has a changed byte. -/
example : readChunks (some Spec.toy) []
    [.ok [0, 0, 0, 3, 0, 0, 0, 0, 0, 0, 0, 0, 0, 0, 0, 16, 76, 90, 0x20, 1, 0, 0, 0, 3, 0, 0, 0, 21, 0, 0, 0, 7,
      0, 0, 0, 3, 0, 0, 0, 0, 0, 0, 0, 1, 0, 0, 0, 16, 76, 90, 0x20, 1, 0, 0, 0, 3, 0, 0, 0, 21, 0, 0, 0, 8]] =
    ([[7, 7, 7]], some .blockChecksum) :=
  C106_corrupt (some Spec.toy) toy_good _ _
    (.cons (w := [0, 0, 0, 3, 0, 0, 0, 0, 0, 0, 0, 0, 0, 0, 0, 16, 76, 90, 0x20, 1, 0, 0, 0, 3, 0, 0, 0, 21, 0, 0, 0, 7])
      ⟨3, 0, 0, rfl⟩ .nil) 3 0 1 [76, 90, 0x20, 1, 0, 0, 0, 3, 0, 0, 0, 21, 0, 0, 0, 8] [] (by decide) _ rfl []

/-- C106: several record batches in one batch of bytes come in the order in which they were written. -/
theorem C106_frames_in_order {B : Type} (enc : B → Bytes) (dec : Bytes → Option (List B))
    (hd : ∀ b, dec (enc b) = some [b]) (l : List (B × Bytes)) (h : ∀ x ∈ l, sinkFrame enc x.1 = .ok x.2) :
    decodeBatches dec (l.map (·.2)).flatten = .ok (l.map (·.1)) := by
  have key : ∀ fuel, (l.map (·.2)).flatten.length < fuel →
      decodeFrames dec fuel (l.map (·.2)).flatten = .ok (l.map (·.1)) := by
    induction l with
    | nil => intro fuel hf; cases fuel <;> rfl
    | cons x l ih =>
      intro fuel hf
      have ih := ih (fun y hy => h y (List.mem_cons_of_mem _ hy))
      have hx := h x List.mem_cons_self
      obtain ⟨b, f⟩ := x
      simp only [sinkFrame] at hx
      split at hx
      · cases hx
      rename_i hl
      cases hx
      have h1 : Verif.Func.CountMin.fromBE (Verif.Func.CountMin.toBE 4 (enc b).length) = (enc b).length := by
        rw [Verif.Func.CountMin.fromBE_toBE, Nat.mod_eq_of_lt]; omega
      have l4 : (Verif.Func.CountMin.toBE 4 (enc b).length ++ enc b).length = 4 + (enc b).length := by simp [Verif.Func.CountMin.length_toBE]
      cases fuel with
      | zero => omega
      | succ n =>
        simp only [List.map_cons, List.flatten_cons] at hf ⊢
        rw [List.length_append, l4] at hf
        simp only [decodeFrames]
        rw [if_neg (by
            intro h
            have := congrArg List.length h
            simp [Verif.Func.CountMin.length_toBE] at this)]
        rw [show Verif.Func.CountMin.toBE 4 (enc b).length ++ enc b ++ (l.map (·.2)).flatten =
            Verif.Func.CountMin.toBE 4 (enc b).length ++ (enc b ++ (l.map (·.2)).flatten) by simp,
          take_4 (Verif.Func.CountMin.length_toBE ..), h1, if_neg (by simp [Verif.Func.CountMin.length_toBE]), if_neg (by simp [Verif.Func.CountMin.length_toBE]),
          drop_4 (Verif.Func.CountMin.length_toBE ..), List.take_left' rfl, hd, ← List.append_assoc, List.drop_left' l4,
          ih n (by omega)]
        rfl
  exact key _ (Nat.lt_succ_self _)

example : decodeBatches (fun d => some d) [0, 0, 0, 1, 42, 0, 0, 0, 1, 7] = .ok [(42 : Byte), 7] :=
  C106_frames_in_order (fun b => [b]) (fun d => some d) (fun b => rfl)
    [(42, [0, 0, 0, 1, 42]), (7, [0, 0, 0, 1, 7])] (by
      intro x hx
      simp only [List.mem_cons, List.not_mem_nil, or_false] at hx
      rcases hx with rfl | rfl <;> rfl)

theorem toy_bodies : Spec.Bodies (some Spec.toy) [[7, 7, 7], [1]]
    [[0, 0, 0, 3, 0, 0, 0, 0, 0, 0, 0, 0, 0, 0, 0, 16, 76, 90, 0x20, 1, 0, 0, 0, 3, 0, 0, 0, 21, 0, 0, 0, 7],
      [0, 0, 0, 3, 0, 0, 0, 0, 0, 0, 0, 1, 0, 0, 0, 16, 76, 90, 0x10, 1, 0, 0, 0, 1, 0, 0, 0, 1, 0, 0, 0, 1]] :=
  .cons ⟨3, 0, 0, rfl⟩ (.cons ⟨3, 0, 1, rfl⟩ .nil)

/-- Two batches in three chunks. -/
example : readChunks (some Spec.toy) []
    ([[0, 0, 0, 3, 0, 0, 0, 0, 0, 0, 0, 0, 0, 0, 0, 16, 76, 90, 0x20, 1], [0, 0, 0, 3, 0, 0, 0, 21, 0, 0, 0, 7,
      0, 0, 0, 3, 0, 0, 0, 0, 0, 0, 0, 1, 0, 0, 0, 16, 76, 90, 0x10, 1, 0, 0], [0, 1, 0, 0, 0, 1, 0, 0, 0, 1]].map .ok) =
    ([[7, 7, 7], [1]], none) :=
  C106_read (some Spec.toy) toy_good _ _ _ toy_bodies rfl

/-- Only the first chunk and part of the second. -/
example : readChunks (some Spec.toy) []
    ([[0, 0, 0, 3, 0, 0, 0, 0, 0, 0, 0, 0, 0, 0, 0, 16, 76, 90, 0x20, 1], [0, 0, 0, 3, 0, 0, 0, 21, 0, 0, 0, 7,
      0, 0, 0, 3, 0, 0, 0, 0]].map .ok) = ([[7, 7, 7]], some .truncated) :=
  C106_truncated (some Spec.toy) toy_good _ _ _ [0, 0, 0, 3, 0, 0, 0, 0]
    (.cons (w := [0, 0, 0, 3, 0, 0, 0, 0, 0, 0, 0, 0, 0, 0, 0, 16, 76, 90, 0x20, 1, 0, 0, 0, 3, 0, 0, 0, 21, 0, 0, 0, 7])
      ⟨3, 0, 0, rfl⟩ .nil)
    ⟨3, 0, 1, [1], _, _, rfl, rfl, by simp⟩ (by simp) rfl

/-- A record batch that was pushed and stored. -/
structure Spec.Push (B : Type) where
  map : BitVec 32
  attempt : BitVec 32
  batch : BitVec 32
  content : B

/-- The bytes that a location has, for what was pushed to it. -/
inductive Spec.Stored {B : Type} (c : Option Codec) (enc : B → Bytes) : List (Spec.Push B) → Bytes → Prop
  | nil : Spec.Stored c enc [] []
  | cons {p : Spec.Push B} {ps : List (Spec.Push B)} {f w r : Bytes} (hf : sinkFrame enc p.content = .ok f)
      (hw : batchBody c p.map p.attempt p.batch f = .ok w) (hr : Spec.Stored c enc ps r) :
      Spec.Stored c enc (p :: ps) (w ++ r)

/-- C106: a task that reads a partition gets the record batches that were pushed to the
locations of the partition, in the order of the locations and of the pushes, however they
were cut into chunks. -/
theorem C106_batches {B : Type} (c : Option Codec) (hc : Spec.GoodCodec c) (enc : B → Bytes)
    (dec : Bytes → Option (List B)) (hd : ∀ b, dec (enc b) = some [b])
    (locations : List (List (Spec.Push B) × List Bytes))
    (h : ∀ l ∈ locations, Spec.Stored c enc l.1 l.2.flatten) :
    readBatches c dec (locations.map fun l => l.2.map .ok) =
      (locations.flatMap fun l => l.1.map fun p => Except.ok p.content) := by
  have key : ∀ (ps : List (Spec.Push B)) (w : Bytes), Spec.Stored c enc ps w →
      ∃ ds ws, Spec.Bodies c ds ws ∧ ws.flatten = w ∧
        (ds.map (Except.ok (ε := DErr))).flatMap (decodeItem dec) = ps.map fun p => Except.ok p.content := by
    intro ps w hs
    induction hs with
    | nil => exact ⟨[], [], .nil, rfl, rfl⟩
    | cons hf hw _ ih =>
      obtain ⟨ds, ws, h1, h2, h3⟩ := ih
      refine ⟨_ :: ds, _ :: ws, .cons ⟨_, _, _, hw⟩ h1, by rw [List.flatten_cons, h2], ?_⟩
      rw [List.map_cons, List.flatMap_cons, h3]
      simp only [decodeItem, decode_frame hd hf]
      rfl
  induction locations with
  | nil => rfl
  | cons l ls ih =>
    obtain ⟨ds, ws, h1, h2, h3⟩ := key l.1 _ (h l (List.mem_cons_self ..))
    have ih := ih fun l hl => h l (List.mem_cons_of_mem _ hl)
    simp only [readBatches, readLocations, List.map_cons, List.flatMap_cons, List.flatMap_append] at ih ⊢
    rw [ih, C106_read c hc ds ws l.2 h1 h2.symm, ← h3]
    simp

/-- The batches a reader is to get: those of the attempt that counts for their mapper, and
each only once. -/
def Spec.wanted {B : Type} (win : BitVec 32 → BitVec 32) (seen : List (BitVec 32 × BitVec 32)) :
    List (Spec.Push B) → List (Spec.Push B)
  | [] => []
  | p :: ps =>
    if p.attempt = win p.map ∧ (p.map, p.batch) ∉ seen then p :: Spec.wanted win ((p.map, p.batch) :: seen) ps
    else Spec.wanted win seen ps

/-- All are wanted. -/
def Spec.AllCount {B : Type} (win : BitVec 32 → BitVec 32) (ps : List (Spec.Push B)) : Prop :=
  (∀ p ∈ ps, p.attempt = win p.map) ∧ (ps.map fun p => (p.map, p.batch)).Nodup

theorem wanted_all {B : Type} {win : BitVec 32 → BitVec 32} {ps : List (Spec.Push B)}
    {seen : List (BitVec 32 × BitVec 32)} (h : Spec.AllCount win ps)
    (hs : ∀ p ∈ ps, (p.map, p.batch) ∉ seen) : Spec.wanted win seen ps = ps := by
  induction ps generalizing seen with
  | nil => rfl
  | cons p ps ih =>
    obtain ⟨h1, h2⟩ := h
    rw [List.map_cons, List.nodup_cons] at h2
    simp only [Spec.wanted]
    rw [if_pos ⟨h1 p (List.mem_cons_self ..), hs p (List.mem_cons_self ..)⟩, ih ⟨fun q hq =>
      h1 q (List.mem_cons_of_mem _ hq), h2.2⟩]
    intro q hq hm
    rcases List.mem_cons.1 hm with he | hm
    · exact h2.1 (he ▸ List.mem_map_of_mem (f := fun p : Spec.Push B => (p.map, p.batch)) hq)
    · exact hs q (List.mem_cons_of_mem _ hq) hm

theorem wanted_length {B : Type} (win : BitVec 32 → BitVec 32) (ps : List (Spec.Push B))
    (seen : List (BitVec 32 × BitVec 32)) : (Spec.wanted win seen ps).length ≤ ps.length := by
  induction ps generalizing seen with
  | nil => exact Nat.le_refl _
  | cons p ps ih =>
    simp only [Spec.wanted]
    split
    · exact Nat.succ_le_succ (ih _)
    · exact Nat.le_succ_of_le (ih _)

theorem all_wanted {B : Type} {win : BitVec 32 → BitVec 32} {ps : List (Spec.Push B)}
    {seen : List (BitVec 32 × BitVec 32)} (h : ps.length ≤ (Spec.wanted win seen ps).length) :
    Spec.AllCount win ps ∧ ∀ p ∈ ps, (p.map, p.batch) ∉ seen := by
  induction ps generalizing seen with
  | nil => exact ⟨⟨by simp, by simp⟩, by simp⟩
  | cons p ps ih =>
    simp only [Spec.wanted] at h
    split at h
    · rename_i hp
      obtain ⟨⟨h1, h2⟩, h3⟩ := ih (Nat.le_of_succ_le_succ h)
      refine ⟨⟨?_, ?_⟩, ?_⟩
      · intro q hq
        rcases List.mem_cons.1 hq with rfl | hq
        · exact hp.1
        · exact h1 q hq
      · rw [List.map_cons, List.nodup_cons]
        refine ⟨fun hm => ?_, h2⟩
        obtain ⟨q, hq, e⟩ := List.mem_map.1 hm
        exact h3 q hq (e ▸ List.mem_cons_self ..)
      · intro q hq
        rcases List.mem_cons.1 hq with rfl | hq
        · exact hp.2
        · exact fun hm => h3 q hq (List.mem_cons_of_mem _ hm)
    · have := wanted_length win ps seen
      simp only [List.length_cons] at h
      omega

/-- C107, when only the attempts that count pushed anything and each batch was stored once:
the reader gets exactly the batches it is to get. -/
theorem C107_once_partial {B : Type} (c : Option Codec) (hc : Spec.GoodCodec c) (enc : B → Bytes)
    (dec : Bytes → Option (List B)) (hd : ∀ b, dec (enc b) = some [b])
    (locations : List (List (Spec.Push B) × List Bytes))
    (h : ∀ l ∈ locations, Spec.Stored c enc l.1 l.2.flatten) (win : BitVec 32 → BitVec 32)
    (hw : Spec.AllCount win (locations.flatMap (·.1))) :
    readBatches c dec (locations.map fun l => l.2.map .ok) =
      (Spec.wanted win [] (locations.flatMap (·.1))).map fun p => .ok p.content := by
  rw [C106_batches c hc enc dec hd locations h, wanted_all hw (by simp), List.map_flatMap]

/-- C107 fails otherwise: whenever an attempt that does not count stored a batch, or a batch
was stored twice, the reader gets more than it is to get. -/
theorem C107_reads_more {B : Type} (c : Option Codec) (hc : Spec.GoodCodec c) (enc : B → Bytes)
    (dec : Bytes → Option (List B)) (hd : ∀ b, dec (enc b) = some [b])
    (locations : List (List (Spec.Push B) × List Bytes))
    (h : ∀ l ∈ locations, Spec.Stored c enc l.1 l.2.flatten) (win : BitVec 32 → BitVec 32)
    (hw : ¬ Spec.AllCount win (locations.flatMap (·.1))) :
    (Spec.wanted win [] (locations.flatMap (·.1))).length <
      (readBatches c dec (locations.map fun l => l.2.map .ok)).length := by
  rw [C106_batches c hc enc dec hd locations h]
  have e : (locations.flatMap fun l => l.1.map fun p => (Except.ok p.content : Except DErr B)).length =
      (locations.flatMap (·.1)).length := by
    rw [← List.map_flatMap, List.length_map]
  rw [e]
  rcases Nat.lt_or_ge (Spec.wanted win [] (locations.flatMap (·.1))).length (locations.flatMap (·.1)).length with h | h
  · exact h
  · exact absurd (all_wanted h).1 hw

/-- Mapper 3 failed in attempt 0 after it had pushed its batch; attempt 1 counts. A record batch
is its number here. -/
def Spec.retried : List (Spec.Push Byte) := [⟨3, 0, 0, 42⟩, ⟨3, 1, 0, 42⟩]

example : readBatches none (fun d => some d) [[.ok
      [0, 0, 0, 3, 0, 0, 0, 0, 0, 0, 0, 0, 0, 0, 0, 5, 0, 0, 0, 1, 42,
        0, 0, 0, 3, 0, 0, 0, 1, 0, 0, 0, 0, 0, 0, 0, 5, 0, 0, 0, 1, 42]]] = [.ok (42 : Byte), .ok 42] ∧
    (Spec.wanted (fun _ => 1) [] Spec.retried).map (·.content) = [42] := by
  refine ⟨C106_batches none trivial (fun b => [b]) (fun d => some d) (fun b => rfl)
    [(Spec.retried, [_])] ?_, by decide⟩
  intro l hl
  simp only [List.mem_singleton] at hl
  subst hl
  exact .cons (w := [0, 0, 0, 3, 0, 0, 0, 0, 0, 0, 0, 0, 0, 0, 0, 5, 0, 0, 0, 1, 42]) rfl rfl
    (.cons (w := [0, 0, 0, 3, 0, 0, 0, 1, 0, 0, 0, 0, 0, 0, 0, 5, 0, 0, 0, 1, 42]) rfl rfl .nil)

example : ¬ Spec.AllCount (fun _ => 1) Spec.retried := by
  intro h
  exact absurd (h.1 ⟨3, 0, 0, 42⟩ (by simp [Spec.retried])) (by decide)

example : Spec.AllCount (fun _ => 1) [(⟨3, 1, 0, 42⟩ : Spec.Push Byte), ⟨3, 1, 1, 7⟩, ⟨4, 1, 0, 9⟩] := by
  refine ⟨?_, by decide⟩
  intro p hp
  simp at hp
  rcases hp with rfl | rfl | rfl <;> rfl

end Verif.Celeborn
