import Verif.Delta.DvFile
import Verif.Delta.Z85Props

/-! C135: a deletion vector that was written can be read back. -/

namespace Verif.Delta.DvFile

open Verif.Delta.Z85 (Byte fromBe toBe fromBe_toBe toBe_fromBe)

variable {B : Type}

/-- What is assumed of the parts that are not modelled: the roaring format can be read back, a checksum has
32 bits, `%` is escaped, and digits, letters and `-`, `_`, `.` are not. -/
structure Spec.Fair (E : Env B) : Prop where
  de : ∀ b, E.de (E.ser b) = some b
  crc : ∀ data, E.crc data < 2 ^ 32
  percent : E.esc 37 = true
  plain : ∀ c : Byte, (48 ≤ c ∧ c ≤ 57 ∨ 65 ≤ c ∧ c ≤ 90 ∨ 97 ≤ c ∧ c ≤ 122 ∨ c = 45 ∨ c = 46 ∨ c = 95) →
    E.esc c = false

/-! ### The bytes of the file -/

theorem toBe_length (n : Nat) : (toBe n).length = 4 := rfl

theorem u32At_append {pre rest : List Byte} {v : Nat} (h : v < 2 ^ 32) {n : Nat} (hn : n = pre.length) :
    u32At (pre ++ (toBe v ++ rest)) n = some v := by
  obtain ⟨a, b, c, d, hb, hv⟩ := fromBe_toBe h
  unfold u32At
  rw [hn, List.drop_left, hb]
  simp [hv]

theorem deserialize_serialize {E : Env B} (hE : Spec.Fair E) (b : B) :
    deserialize E (serialize E b) = .ok b := by
  have hm : magic = [UInt8.ofNat 1681511377, UInt8.ofNat (1681511377 / 2 ^ 8), UInt8.ofNat (1681511377 / 2 ^ 16),
      UInt8.ofNat (1681511377 / 2 ^ 24)] := by decide
  unfold serialize
  rw [hm]
  simp only [List.cons_append, List.nil_append, deserialize]
  rw [if_neg (by decide), hE.de b]

theorem fileBytes_eq (E : Env B) (data : List Byte) :
    fileBytes E data = [1] ++ (toBe data.length ++ (data ++ (toBe (E.crc data) ++ []))) := by
  simp [fileBytes]

theorem readBytes_file {E : Env B} (hE : Spec.Fair E) {data : List Byte} (hl : data.length < 2 ^ 32)
    {size : Int} (hs : 0 ≤ size) :
    readBytes E (fileBytes E data) (some 1) size = deserialize E data := by
  have h1 : u32At (fileBytes E data) 1 = some data.length := by
    rw [fileBytes_eq]
    exact u32At_append hl rfl
  have h2 : u32At (fileBytes E data) (1 + 4 + data.length) = some (E.crc data) := by
    rw [fileBytes_eq, ← List.append_assoc, ← List.append_assoc]
    exact u32At_append (hE.crc data) (by simp [toBe_length]; omega)
  have h3 : ((fileBytes E data).drop (1 + 4)).take data.length = data := by
    rw [fileBytes_eq, ← List.append_assoc, List.drop_left' (by simp [toBe_length]), List.take_left]
  have h0 : fileBytes E data = 1 :: (toBe data.length ++ data ++ toBe (E.crc data)) := by
    simp [fileBytes]
  revert h1 h2 h3
  generalize fileBytes E data = file at h0
  intro h1 h2 h3
  subst h0
  unfold readBytes
  simp only [ne_eq, not_true_eq_false, if_false, if_neg (Int.not_lt.2 hs), Option.getD_some]
  rw [if_neg (by decide), show (1 : Int).toNat = 1 from rfl, h1]
  dsimp only
  rw [h2]
  dsimp only
  rw [h3, if_neg (by simp)]

theorem asI32_small {n : Nat} (h : n < 2 ^ 31) : asI32 n = n := by
  unfold asI32
  rw [Nat.mod_eq_of_lt (by omega), if_pos h]

/-- The bytes that are written for a bitmap of less than 2 GiB are read back as that bitmap. -/
theorem C135_bytes_round_trip {E : Env B} (fair : Spec.Fair E) (b : B)
    (small : (serialize E b).length < 2 ^ 31) :
    readBytes E (fileBytes E (serialize E b)) (some 1) (asI32 (serialize E b).length) = .ok b := by
  rw [readBytes_file fair (by omega) (by rw [asI32_small small]; exact Int.natCast_nonneg _),
    deserialize_serialize fair]

/-- A bitmap from 2 GiB up to 4 GiB is written, but its recorded size is negative and it is never read. -/
theorem C135_large_refused (E : Env B) (b : B)
    (large : 2 ^ 31 ≤ (serialize E b).length) (limit : (serialize E b).length < 2 ^ 32) :
    readBytes E (fileBytes E (serialize E b)) (some 1) (asI32 (serialize E b).length)
      = .error .negativeSize := by
  have hneg : asI32 (serialize E b).length < 0 := by
    unfold asI32
    rw [Nat.mod_eq_of_lt limit, if_neg (by omega)]
    omega
  generalize asI32 (serialize E b).length = z at hneg
  unfold readBytes fileBytes
  simp [hneg]

/-- A file of another format version is refused. -/
theorem C135_version_refused (E : Env B) {data : List Byte} {offset : Option Int} {size : Int} {b : B}
    (h : readBytes E data offset size = .ok b) : data.head? = some 1 := by
  unfold readBytes at h
  cases data with
  | nil => cases h
  | cons v r =>
    dsimp only at h
    by_cases hv : v = 1
    · rw [hv]; rfl
    · rw [if_pos hv] at h; cases h

theorem u32At_some {data : List Byte} {n v : Nat} (h : u32At data n = some v) : n + 4 ≤ data.length := by
  unfold u32At at h
  have hl := List.length_drop (i := n) (l := data)
  generalize data.drop n = l at h hl
  match l, h, hl with
  | a :: b :: c :: d :: _, _, hl => simp only [List.length_cons] at hl; omega

theorem u32At_take {data : List Byte} {n v k : Nat} (h : u32At (data.take k) n = some v) :
    u32At data n = some v := by
  unfold u32At at h ⊢
  rw [List.drop_take] at h
  generalize data.drop n = l at h ⊢
  generalize k - n = m at h
  match l, m, h with
  | a :: b :: c :: d :: r, m + 4, h =>
    simpa using h
  | [], m, h => simp at h
  | [a], m, h => cases m <;> simp at h
  | [a, b], m, h => rcases m with _ | _ | m <;> simp at h
  | [a, b, c], m, h => rcases m with _ | _ | _ | m <;> simp at h
  | a :: b :: c :: d :: r, 0, h => simp at h
  | a :: b :: c :: d :: r, 1, h => simp at h
  | a :: b :: c :: d :: r, 2, h => simp at h
  | a :: b :: c :: d :: r, 3, h => simp at h

/-- A file that was cut short, anywhere, is refused. -/
theorem C135_truncated_refused {E : Env B} (data : List Byte) (limit : data.length < 2 ^ 32)
    {n : Nat} (cut : n < (fileBytes E data).length) (size : Int) (b : B) :
    readBytes E ((fileBytes E data).take n) (some 1) size ≠ .ok b := by
  intro h
  have h1 : u32At (fileBytes E data) 1 = some data.length := by
    rw [fileBytes_eq]
    exact u32At_append limit rfl
  have hlen : (fileBytes E data).length = data.length + 9 := by
    rw [fileBytes_eq]
    simp [toBe_length]
    omega
  have hcut : ((fileBytes E data).take n).length < data.length + 9 := by
    rw [List.length_take]; omega
  unfold readBytes at h
  cases hd : (fileBytes E data).take n with
  | nil => rw [hd] at h; cases h
  | cons v r =>
    rw [hd] at h
    dsimp only at h
    by_cases hv : v ≠ 1
    · rw [if_pos hv] at h; cases h
    · rw [if_neg hv] at h
      by_cases hs : size < 0
      · rw [if_pos hs] at h; cases h
      · rw [if_neg hs] at h
        simp only [Option.getD_some] at h
        rw [if_neg (by decide), show (1 : Int).toNat = 1 from rfl, ← hd] at h
        cases hu : u32At ((fileBytes E data).take n) 1 with
        | none => rw [hu] at h; cases h
        | some len =>
          have := u32At_take hu
          rw [h1] at this
          cases this
          rw [hu] at h
          dsimp only at h
          cases hu2 : u32At ((fileBytes E data).take n) (1 + 4 + data.length) with
          | none => rw [hu2] at h; cases h
          | some st =>
            have := u32At_some hu2
            omega

/-- A file whose bitmap was replaced by other bytes of the same length is refused unless they have the same
checksum. -/
theorem C135_checksum_refused {E : Env B} (fair : Spec.Fair E) {data data' : List Byte}
    (limit : data.length < 2 ^ 32) (same : data'.length = data.length) (differ : E.crc data' ≠ E.crc data)
    (size : Int) (b : B) :
    readBytes E ([1] ++ toBe data.length ++ data' ++ toBe (E.crc data)) (some 1) size ≠ .ok b := by
  have h0 : [1] ++ toBe data.length ++ data' ++ toBe (E.crc data)
      = [1] ++ (toBe data.length ++ (data' ++ (toBe (E.crc data) ++ []))) := by simp
  have h1 : u32At ([1] ++ toBe data.length ++ data' ++ toBe (E.crc data)) 1 = some data.length := by
    rw [h0]
    exact u32At_append limit rfl
  have h2 : u32At ([1] ++ toBe data.length ++ data' ++ toBe (E.crc data)) (1 + 4 + data.length)
      = some (E.crc data) := by
    rw [h0, ← List.append_assoc, ← List.append_assoc]
    exact u32At_append (fair.crc data) (by simp [toBe_length, same]; omega)
  have h3 : (([1] ++ toBe data.length ++ data' ++ toBe (E.crc data)).drop (1 + 4)).take data.length = data' := by
    rw [h0, ← List.append_assoc, List.drop_left' (by simp [toBe_length]), ← same, List.take_left]
  have hc : [1] ++ toBe data.length ++ data' ++ toBe (E.crc data)
      = 1 :: (toBe data.length ++ data' ++ toBe (E.crc data)) := by simp
  rw [hc] at h1 h2 h3 ⊢
  intro h
  unfold readBytes at h
  simp only [ne_eq, not_true_eq_false, if_false, Option.getD_some] at h
  by_cases hs : size < 0
  · rw [if_pos hs] at h; cases h
  · rw [if_neg hs, if_neg (by decide), show (1 : Int).toNat = 1 from rfl, h1] at h
    dsimp only at h
    rw [h2] at h
    dsimp only at h
    rw [h3, if_pos (fun he => differ he.symm)] at h
    cases h

/-- A file with intact checksum whose block does not begin with the mark of the portable roaring format is refused,
whatever the rest would mean. -/
theorem C135_foreign_refused {E : Env B} (fair : Spec.Fair E) {data : List Byte} (limit : data.length < 2 ^ 32)
    (foreign : data.take 4 ≠ [0xd1, 0xd3, 0x39, 0x64]) (size : Int) (b : B) :
    readBytes E (fileBytes E data) (some 1) size ≠ .ok b := by
  by_cases hs : 0 ≤ size
  · rw [readBytes_file fair limit hs]
    intro h
    unfold deserialize at h
    split at h
    · next x y z w rest =>
      split at h
      · cases h
      · next hm =>
        apply foreign
        have hb := toBe_fromBe w z y x
        rw [Classical.not_not.1 hm] at hb
        have hc : [w, z, y, x] = [0x64, 0x39, 0xd3, 0xd1] := by rw [← hb]; decide
        simp only [List.cons.injEq, and_true] at hc
        obtain ⟨h1, h2, h3, h4⟩ := hc
        simp [h1, h2, h3, h4]
    · cases h
  · intro h
    unfold readBytes fileBytes at h
    simp [Int.not_le.1 hs] at h

example : ([0xd1, 0xd3, 0x39, 0x65, 0, 0] : List Byte).take 4 ≠ [0xd1, 0xd3, 0x39, 0x64] := by decide

/-! ### The name -/

theorem encodeChunks_length (u : List Byte) (h : u.length % 4 = 0) :
    (Z85.encodeChunks u).length = u.length / 4 * 5 := by
  induction u using Z85.encodeChunks.induct with
  | case1 a b c d rest ih =>
    rw [Z85.encodeChunks, List.length_append, ih (by simp only [List.length_cons] at h; omega)]
    simp only [Z85.digits_five, List.map_cons, List.map_nil, List.length_cons, List.length_nil]
    omega
  | case2 data hne =>
    match data, hne, h with
    | [], _, _ => rfl
    | [_], _, h => simp at h
    | [_, _], _, h => simp at h
    | [_, _, _], _, h => simp at h
    | a :: b :: c :: d :: rest, hne, _ => exact (hne a b c d rest rfl).elim

theorem uuidText_two {u : List Byte} (h : u.length = 16) : ((uuidText u).take 2).length = 2 := by
  cases u with
  | nil => simp at h
  | cons a r => simp [uuidText, hexText]

/-- The descriptor leads to the relative path that was written. -/
theorem C135_name_round_trip {u : List Byte} (uuid : u.length = 16) :
    ∃ field relative, newName u = .ok (field, relative) ∧ resolveName field = .ok relative := by
  have hm : u.length % 4 = 0 := by omega
  obtain ⟨hd, h5⟩ := Z85.decode_encodeChunks u hm
  have hl : (Z85.encodeChunks u).length = 20 := by rw [encodeChunks_length u hm, uuid]
  have he : Z85.encode u = .ok (Z85.encodeChunks u) := by simp [Z85.encode, hm]
  refine ⟨_, _, by unfold newName; rw [he], ?_⟩
  have h2 := uuidText_two uuid
  generalize hp : (uuidText u).take 2 = pre at h2
  unfold resolveName
  have hlen : (pre ++ Z85.encodeChunks u).length = 22 := by rw [List.length_append, hl, h2]
  rw [if_neg (by omega), hlen, List.take_left' (by omega), List.drop_left' (by omega)]
  dsimp only
  have hdec : Z85.decode (Z85.encodeChunks u) = .ok u := by simp [Z85.decode, hd, h5]
  rw [hdec]
  dsimp only
  rw [if_neg (by omega), if_neg (by cases pre <;> simp_all)]

/-! ### The path -/

theorem segments_ne (s : List Byte) : segments s ≠ [] := by
  induction s with
  | nil => simp [segments]
  | cons c r ih =>
    rw [segments]
    by_cases h : c = 47
    · simp [h]
    · rw [if_neg h]
      cases segments r <;> simp

theorem segments_slash (a b : List Byte) : segments (a ++ 47 :: b) = segments a ++ segments b := by
  induction a with
  | nil => simp [segments]
  | cons c r ih =>
    rw [List.cons_append, segments, segments]
    by_cases h : c = 47
    · rw [if_pos h, if_pos h, ih]; rfl
    · rw [if_neg h, if_neg h, ih]
      cases hr : segments r with
      | nil => exact (segments_ne r hr).elim
      | cons s ss => rfl

theorem segments_plain {s : List Byte} (h : 47 ∉ s) : segments s = [s] := by
  induction s with
  | nil => rfl
  | cons c r ih =>
    rw [List.mem_cons, not_or] at h
    rw [segments, if_neg (fun he => h.1 he.symm), ih h.2]

theorem segments_no_slash (s : List Byte) : ∀ x ∈ segments s, 47 ∉ x := by
  induction s with
  | nil => intro x hx; simp [segments] at hx; simp [hx]
  | cons c r ih =>
    intro x hx
    rw [segments] at hx
    by_cases h : c = 47
    · rw [if_pos h] at hx
      rcases List.mem_cons.1 hx with rfl | hx
      · simp
      · exact ih x hx
    · rw [if_neg h] at hx
      cases hr : segments r with
      | nil => exact (segments_ne r hr).elim
      | cons s ss =>
        rw [hr] at hx ih
        rcases List.mem_cons.1 hx with rfl | hx
        · rw [List.mem_cons, not_or]
          exact ⟨fun he => h he.symm, ih s (List.mem_cons_self ..)⟩
        · exact ih x (List.mem_cons_of_mem _ hx)

theorem segments_join : ∀ (ss : List (List Byte)), ss ≠ [] → (∀ x ∈ ss, 47 ∉ x) →
    segments (joinSegments ss) = ss := by
  intro ss
  induction ss with
  | nil => intro h; exact (h rfl).elim
  | cons s ss ih =>
    intro _ hs
    cases ss with
    | nil => exact segments_plain (hs s (List.mem_cons_self ..))
    | cons t ts =>
      rw [joinSegments, segments_slash, segments_plain (hs s (List.mem_cons_self ..)),
        ih (by simp) (fun x hx => hs x (List.mem_cons_of_mem _ hx))]
      · rfl
      · simp

theorem pathFrom_slash (esc : Byte → Bool) (a b : List Byte) :
    pathFrom esc (a ++ 47 :: b) = pathFrom esc a ++ pathFrom esc b := by
  unfold pathFrom
  rw [segments_slash, List.filter_append, List.map_append]

theorem hexUpper_plain {n : Nat} (h : n < 16) :
    (48 ≤ hexUpper n ∧ hexUpper n ≤ 57 ∨ 65 ≤ hexUpper n ∧ hexUpper n ≤ 90) ∧ hexUpper n ≠ 47 := by
  have : ∀ m : Fin 16, (48 ≤ hexUpper m.val ∧ hexUpper m.val ≤ 57 ∨ 65 ≤ hexUpper m.val ∧ hexUpper m.val ≤ 90)
      ∧ hexUpper m.val ≠ 47 := by decide
  exact this ⟨n, h⟩

theorem percentEncode_no_slash {esc : Byte → Bool} {s : List Byte} (h : 47 ∉ s) :
    47 ∉ percentEncode esc s := by
  unfold percentEncode
  rw [List.mem_flatMap]
  rintro ⟨c, hc, hx⟩
  have hb := c.toNat_lt
  by_cases he : esc c = true
  · rw [if_pos he] at hx
    simp only [List.mem_cons, List.not_mem_nil, or_false] at hx
    rcases hx with hx | hx | hx
    · cases hx
    · exact (hexUpper_plain (n := c.toNat / 16) (by omega)).2 hx.symm
    · exact (hexUpper_plain (n := c.toNat % 16) (by omega)).2 hx.symm
  · rw [if_neg he] at hx
    simp only [List.mem_cons, List.not_mem_nil, or_false] at hx
    exact h (hx ▸ hc)

theorem pathPart_no_slash {esc : Byte → Bool} {s : List Byte} (h : 47 ∉ s) : 47 ∉ pathPart esc s := by
  unfold pathPart
  by_cases h1 : s = [46]
  · rw [if_pos h1]; decide
  · rw [if_neg h1]
    by_cases h2 : s = [46, 46]
    · rw [if_pos h2]; decide
    · rw [if_neg h2]; exact percentEncode_no_slash h

theorem percentEncode_ne {esc : Byte → Bool} {s : List Byte} (h : s ≠ []) : percentEncode esc s ≠ [] := by
  cases s with
  | nil => exact (h rfl).elim
  | cons c r =>
    unfold percentEncode
    rw [List.flatMap_cons]
    cases esc c <;> simp

theorem pathPart_ne {esc : Byte → Bool} {s : List Byte} (h : s ≠ []) : pathPart esc s ≠ [] := by
  unfold pathPart
  by_cases h1 : s = [46]
  · rw [if_pos h1]; decide
  · rw [if_neg h1]
    by_cases h2 : s = [46, 46]
    · rw [if_pos h2]; decide
    · rw [if_neg h2]; exact percentEncode_ne h

theorem pathFrom_join {esc : Byte → Bool} (s : List Byte) :
    pathFrom esc (joinSegments (pathFrom esc s)) = (pathFrom esc s).map (pathPart esc) := by
  have h1 : ∀ x ∈ pathFrom esc s, 47 ∉ x ∧ x ≠ [] := by
    intro x hx
    unfold pathFrom at hx
    obtain ⟨y, hy, rfl⟩ := List.mem_map.1 hx
    rw [List.mem_filter] at hy
    exact ⟨pathPart_no_slash (segments_no_slash s y hy.1), pathPart_ne (by intro he; simp [he] at hy)⟩
  generalize pathFrom esc s = P at h1
  cases P with
  | nil => rfl
  | cons p ps =>
    unfold pathFrom
    rw [segments_join _ (by simp) (fun x hx => (h1 x hx).1), List.filter_eq_self.2]
    intro x hx
    cases x with
    | nil => exact ((h1 _ hx).2 rfl).elim
    | cons _ _ => rfl

/-- A name of a directory that has no character to be escaped. -/
def Spec.Clean (E : Env B) (s : List Byte) : Prop :=
  (∀ c ∈ s, E.esc c = false) ∧ s ≠ [46] ∧ s ≠ [46, 46]

theorem percentEncode_length (esc : Byte → Bool) (s : List Byte) :
    (percentEncode esc s).length = s.length + 2 * (s.filter esc).length := by
  induction s with
  | nil => rfl
  | cons c r ih =>
    unfold percentEncode at ih ⊢
    rw [List.flatMap_cons, List.length_append, ih]
    by_cases h : esc c = true
    · rw [if_pos h, List.filter_cons_of_pos h]
      simp only [List.length_cons, List.length_nil]
      omega
    · rw [if_neg h, List.filter_cons_of_neg h]
      simp only [List.length_cons, List.length_nil]
      omega

theorem percentEncode_clean {esc : Byte → Bool} {s : List Byte} (h : ∀ c ∈ s, esc c = false) :
    percentEncode esc s = s := by
  induction s with
  | nil => rfl
  | cons c r ih =>
    have := ih fun x hx => h x (List.mem_cons_of_mem _ hx)
    unfold percentEncode at this ⊢
    rw [List.flatMap_cons, this, h c (List.mem_cons_self ..)]
    rfl

theorem percentEncode_fixed {esc : Byte → Bool} {s : List Byte} (h : percentEncode esc s = s) :
    ∀ c ∈ s, esc c = false := by
  have hl := percentEncode_length esc s
  rw [h] at hl
  have h0 : s.filter esc = [] := List.eq_nil_of_length_eq_zero (by omega)
  intro c hc
  cases he : esc c with
  | false => rfl
  | true =>
    have : c ∈ s.filter esc := List.mem_filter.2 ⟨hc, he⟩
    rw [h0] at this
    simp at this

theorem pathPart_clean {E : Env B} {s : List Byte} (h : Spec.Clean E s) : pathPart E.esc s = s := by
  unfold pathPart
  rw [if_neg h.2.1, if_neg h.2.2, percentEncode_clean h.1]

theorem percent_mem {E : Env B} {s : List Byte} {c : Byte} (hc : c ∈ s) (he : E.esc c = true) :
    37 ∈ percentEncode E.esc s := by
  unfold percentEncode
  exact List.mem_flatMap.2 ⟨c, hc, by rw [if_pos he]; simp⟩

theorem pathPart_twice {E : Env B} (hE : Spec.Fair E) {s : List Byte}
    (h : pathPart E.esc (pathPart E.esc s) = pathPart E.esc s) : Spec.Clean E s := by
  have key : ∀ x : List Byte, 37 ∈ x → pathPart E.esc x ≠ x := by
    intro x hx he
    unfold pathPart at he
    rw [if_neg (by rintro rfl; simp at hx), if_neg (by rintro rfl; simp at hx)] at he
    have := percentEncode_fixed he 37 hx
    rw [hE.percent] at this
    cases this
  have hno : 37 ∉ pathPart E.esc s := fun hx => key _ hx h
  unfold pathPart at hno
  by_cases h1 : s = [46]
  · rw [if_pos h1] at hno; exact (hno (by decide)).elim
  · rw [if_neg h1] at hno
    by_cases h2 : s = [46, 46]
    · rw [if_pos h2] at hno; exact (hno (by decide)).elim
    · rw [if_neg h2] at hno
      refine ⟨fun c hc => ?_, h1, h2⟩
      cases he : E.esc c with
      | false => rfl
      | true => exact (hno (percent_mem hc he)).elim

theorem urlJoin_slash (r relative : List Byte) : urlJoin (r ++ [47]) relative = r ++ 47 :: relative := by
  unfold urlJoin
  rw [List.reverse_append]
  simp

theorem readerPath_eq (E : Env B) (r relative : List Byte) :
    readerPath E (r ++ [47]) relative = pathFrom E.esc r ++ pathFrom E.esc relative := by
  unfold readerPath
  rw [urlJoin_slash, pathFrom_slash]

theorem writerPath_eq (E : Env B) (r relative : List Byte) :
    writerPath E (r ++ [47]) relative
      = (pathFrom E.esc r).map (pathPart E.esc) ++ pathFrom E.esc relative := by
  unfold writerPath
  have h0 : pathFrom E.esc (r ++ [47]) = pathFrom E.esc r := by
    rw [pathFrom_slash]
    show _ ++ [] = _
    rw [List.append_nil]
  rw [h0, pathFrom_slash, pathFrom_join]

/-- The reader opens the file of the writer exactly if no directory of the table location has a character
that is escaped. The location is given by the path of its URL, which ends with a slash. -/
theorem C135_same_file_iff {E : Env B} (fair : Spec.Fair E) (r relative : List Byte) :
    writerPath E (r ++ [47]) relative = readerPath E (r ++ [47]) relative
      ↔ ∀ s ∈ segments r, s ≠ [] → Spec.Clean E s := by
  rw [writerPath_eq, readerPath_eq, List.append_left_inj]
  unfold pathFrom
  rw [List.map_map]
  constructor
  · intro h s hs hne
    have := (List.map_inj_left.1 h) s (List.mem_filter.2 ⟨hs, by cases s <;> simp_all⟩)
    exact pathPart_twice fair this
  · intro h
    apply List.map_congr_left
    intro s hs
    rw [List.mem_filter] at hs
    have hc := h s hs.1 (by intro he; simp [he] at hs)
    simp only [Function.comp]
    rw [pathPart_clean hc, pathPart_clean hc]

/-- The whole way: in a location without escaped characters, reading a vector after it was written
returns it. Missing for the full statement: locations with escaped characters, for which it is false
(`C135_escaped_location_fails`). -/
theorem C135_round_trip_partial {E : Env B} (fair : Spec.Fair E) {r u : List Byte} (uuid : u.length = 16)
    (clean : ∀ s ∈ segments r, s ≠ [] → Spec.Clean E s) (b : B)
    (small : (serialize E b).length < 2 ^ 31) (store : Store) :
    ∃ store' dv, write E (r ++ [47]) u b store = .ok (store', dv)
      ∧ read E (r ++ [47]) store' dv = .ok b := by
  obtain ⟨field, relative, hn, hr⟩ := C135_name_round_trip uuid
  refine ⟨_, _, by unfold write; rw [hn], ?_⟩
  unfold read
  dsimp only
  rw [hr]
  dsimp only
  rw [(C135_same_file_iff fair r relative).2 clean, List.lookup_cons, beq_self_eq_true]
  exact C135_bytes_round_trip fair b small

/-- In a location of which some directory has an escaped character, no vector that was just written is
read back, unless another file happens to be at the place the reader looks at. -/
theorem C135_escaped_location_fails {E : Env B} (fair : Spec.Fair E) {r u : List Byte} (uuid : u.length = 16)
    {s : List Byte} (dir : s ∈ segments r) (c : Byte) (hc : c ∈ s) (escaped : E.esc c = true)
    (b : B) {store store' : Store} {dv : Descriptor}
    (h : write E (r ++ [47]) u b store = .ok (store', dv))
    (free : ∀ relative, newName u = .ok (dv.field, relative) →
      store.lookup (readerPath E (r ++ [47]) relative) = none) :
    read E (r ++ [47]) store' dv = .error .missing := by
  obtain ⟨field, relative, hn, hr⟩ := C135_name_round_trip uuid
  unfold write at h
  dsimp only at h
  rw [hn] at h
  cases h
  have hne : writerPath E (r ++ [47]) relative ≠ readerPath E (r ++ [47]) relative := by
    intro he
    have hcl := (C135_same_file_iff fair r relative).1 he s dir (by intro h; rw [h] at hc; simp at hc)
    rw [hcl.1 c hc] at escaped
    cases escaped
  unfold read
  dsimp only
  rw [hr]
  dsimp only
  have hb : (readerPath E (r ++ [47]) relative == writerPath E (r ++ [47]) relative) = false :=
    beq_eq_false_iff_ne.2 fun h => hne h.symm
  rw [List.lookup_cons, hb]
  simp only [free relative hn]

/-! ### Examples -/

/-- A small environment: a bitmap is a byte, the checksum the sum of the bytes, and the escaped characters
those of the object_store crate. -/
def exEnv : Env Byte where
  ser b := [b]
  de
    | [b] => some b
    | _ => none
  crc data := (data.foldl (fun n b => n + b.toNat) 0) % 2 ^ 32
  esc c := c < 32 || c ≥ 127 || (ascii "/\\{^}%`]\">[~<#|*?").contains c

theorem exEnv_fair : Spec.Fair exEnv where
  de _ := rfl
  crc _ := Nat.mod_lt _ (by decide)
  percent := by decide
  plain := by
    have h : ∀ n : Fin 256, (48 ≤ UInt8.ofNat n ∧ UInt8.ofNat n ≤ 57 ∨ 65 ≤ UInt8.ofNat n ∧ UInt8.ofNat n ≤ 90
        ∨ 97 ≤ UInt8.ofNat n ∧ UInt8.ofNat n ≤ 122 ∨ UInt8.ofNat n = 45 ∨ UInt8.ofNat n = 46
        ∨ UInt8.ofNat n = 95) → exEnv.esc (UInt8.ofNat n) = false := by decide +kernel
    intro c hc
    have e : UInt8.ofNat c.toNat = c := UInt8.ofNat_toNat
    have := h ⟨c.toNat, c.toNat_lt⟩
    simp only [e] at this
    exact this hc

/-- A UUID. -/
def exUuid : List Byte := [0xd2, 0xc6, 0x39, 0xaa, 1, 2, 3, 4, 5, 6, 7, 8, 9, 10, 11, 12]

/-- What is written and then read. -/
def writeRead (root : String) (b : Byte) : Except Err Byte :=
  match write exEnv (ascii root) exUuid b [] with
  | .error e => .error e
  | .ok (store, dv) => read exEnv (ascii root) store dv

example : writeRead "/data/t1/" 42 = .ok 42 := by decide +kernel

/-- The table `my table`: its URL has `%20`, and the vector is not found. -/
example : writeRead "/data/my%20table/" 42 = .error .missing := by decide +kernel

example : (newName exUuid).map Prod.snd
    = .ok (ascii "d2/deletion_vector_d2c639aa-0102-0304-0506-0708090a0b0c.bin") := by decide +kernel

example : writerPath exEnv (ascii "/my%20table/") (ascii "x") = [ascii "my%252520table", ascii "x"]
    ∧ readerPath exEnv (ascii "/my%20table/") (ascii "x") = [ascii "my%2520table", ascii "x"] := by
  decide +kernel

example : ∀ s ∈ segments (ascii "/data/t1"), s ≠ [] → Spec.Clean exEnv s := by
  intro s hs hne
  have : s = [] ∨ s = ascii "data" ∨ s = ascii "t1" := by
    have e : segments (ascii "/data/t1") = [[], ascii "data", ascii "t1"] := by decide +kernel
    rw [e] at hs
    simpa using hs
  rcases this with rfl | rfl | rfl
  · exact (hne rfl).elim
  · exact ⟨by decide +kernel, by decide +kernel, by decide +kernel⟩
  · exact ⟨by decide +kernel, by decide +kernel, by decide +kernel⟩

/-- A cut file, a file of another version and a file with another bitmap. -/
example : readBytes exEnv ((fileBytes exEnv (serialize exEnv 42)).take 13) (some 1) 5 = .error .short := by
  decide +kernel
example : readBytes exEnv (2 :: (fileBytes exEnv (serialize exEnv 42)).drop 1) (some 1) 5 = .error .version := by
  decide +kernel
example : readBytes exEnv ([1] ++ toBe 5 ++ serialize exEnv 43 ++ toBe (exEnv.crc (serialize exEnv 42)))
    (some 1) 5 = .error .checksum := by decide +kernel

end Verif.Delta.DvFile
