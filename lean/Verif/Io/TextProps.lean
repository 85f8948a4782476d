import Verif.Io.TextLemmas

/-!
# C97: every line of a text file is one row
-/

namespace Verif.Io.Text

open Verif.Io.Text.Spec Verif.Io.Spec

/-- Every line of a text file is one row, in its order, whatever the buffers and the size of batches, provided that no
buffer ends between CR and LF. The batches have rows and not too many. -/
theorem C97_lines_partial (sep : Option Nat) (batch : Nat) (chunks : List Bytes) (hb : 0 < batch)
    (hs : ∀ s, sep = some s → s < 0x80) (hne : [] ∉ chunks) (ha : Aligned sep chunks) (ht : IsText chunks.flatten) :
    ∃ batches, readFile sep false batch chunks = .ok batches ∧ Lines sep chunks.flatten batches.flatten ∧
      ∀ b ∈ batches, b ≠ [] ∧ b.length ≤ batch ∧ ∀ row ∈ b, IsText row :=
  readN_lines batch _ hb ⟨sep, false, [], []⟩ chunks rfl rfl rfl hs (Nat.lt_succ_self _) hne ha ht

example : readFile none false 2 [[0x61, 13, 10, 0x62], [0x62, 10, 10], [13], [0x63]] =
    .ok [[[0x61], [0x62, 0x62]], [[], []], [[0x63]]] := rfl

/-- With a separator of one's own the buffers do not matter at all. -/
theorem C97_lines_separator (s batch : Nat) (chunks : List Bytes) (hb : 0 < batch) (hs : s < 0x80) (hne : [] ∉ chunks)
    (ht : IsText chunks.flatten) :
    ∃ batches, readFile (some s) false batch chunks = .ok batches ∧ Lines (some s) chunks.flatten batches.flatten := by
  obtain ⟨batches, h1, h2, _⟩ := C97_lines_partial (some s) batch chunks hb (by rintro _ ⟨⟩; exact hs) hne
    (by intro h; cases h) ht
  exact ⟨batches, h1, h2⟩

example : readFile (some 0x7c) false 3 [[0x61], [0x7c, 13], [10, 0x7c], [0x7c, 0x62]] =
    .ok [[[0x61], [13, 10], []], [[0x62]]] := rfl

/-- A file has only one division into lines. -/
theorem C97_lines_unique {sep : Option Nat} {content : Bytes} {rows rows' : List Bytes} (h : Lines sep content rows)
    (h' : Lines sep content rows') : rows = rows' := lines_unique h h'

example : Lines none [0x61, 13, 10, 0x62] [[0x61], [0x62]] :=
  Lines.line (line := [0x61]) (t := [13, 10]) (rest := [0x62]) (by simp [IsEnd]) (Or.inr (Or.inl rfl))
    (Lines.last (by simp) (by simp [IsEnd]))

/-- The lines that are written are the rows that are read back; NULL comes back as an empty line. The separator of the
reader is that of the writer, or both are the default. -/
theorem C97_round_trip (rsep : Option Nat) (wsep batch : Nat) (rows : List (Option Bytes)) (chunks : List Bytes)
    (hsep : rsep = some wsep ∨ rsep = none ∧ wsep = 10) (hw : wsep < 0x80) (hb : 0 < batch) (hne : [] ∉ chunks)
    (hrows : ∀ v, some v ∈ rows → IsText v ∧ ∀ b ∈ v, ¬ IsEnd rsep b) (hc : chunks.flatten = serialize wsep rows) :
    ∃ batches, readFile rsep false batch chunks = .ok batches ∧ batches.flatten = rows.map fun r => r.getD [] := by
  have hl := serialize_lines rsep wsep hsep rows fun v hv => (hrows v hv).2
  have ht : IsText chunks.flatten := by
    rw [hc, serialize_eq]
    refine isText_flatten ?_
    intro r hr
    rw [List.mem_map] at hr
    obtain ⟨v, hv, rfl⟩ := hr
    have hsep' : IsText [wsep] := isUtf8_iff.1 (by
      simp [isUtf8, isUtf8N, show wsep ≤ 0x7f by omega])
    refine isText_append ?_ hsep'
    cases v with
    | none => exact ⟨[], rfl⟩
    | some v => exact (hrows v hv).1
  have ha : Aligned rsep chunks := by
    intro hr before a b after e hlast
    exfalso
    rcases hsep with h | ⟨_, hw10⟩
    · rw [h] at hr
      cases hr
    have hm : 13 ∈ chunks.flatten := by
      rw [e]
      simp only [List.flatten_append, List.flatten_cons, List.mem_append]
      exact Or.inr (Or.inl (List.mem_of_getLast? hlast))
    rw [hc, serialize_eq, List.mem_flatten] at hm
    obtain ⟨l, hl, hm⟩ := hm
    rw [List.mem_map] at hl
    obtain ⟨v, hv, rfl⟩ := hl
    rcases List.mem_append.1 hm with hm | hm
    · cases v with
      | none => cases hm
      | some v => exact (hrows v hv).2 13 hm (by rw [hr]; exact Or.inl rfl)
    · rw [hw10] at hm
      simp at hm
  obtain ⟨batches, h1, h2, _⟩ := C97_lines_partial rsep batch chunks hb
    (by rintro s rfl; rcases hsep with h | ⟨h, _⟩ <;> cases h; exact hw) hne ha ht
  rw [hc] at h2
  exact ⟨batches, h1, lines_unique h2 hl⟩

example : serialize 10 [some [0x61, 0x62], none, some [], some [0xc3, 0xa9]] =
      [0x61, 0x62, 10, 10, 10, 0xc3, 0xa9, 10] ∧
    readFile none false 3 [[0x61, 0x62, 10, 10], [10, 0xc3], [0xa9, 10]] =
      .ok [[[0x61, 0x62], [], []], [[0xc3, 0xa9]]] := ⟨rfl, rfl⟩

/-- A file cut after the end of a line, as it is when tasks share it, gives the same rows as the whole. -/
theorem C97_cut (sep : Option Nat) (batch : Nat) (xs ys zs : List Bytes) (hb : 0 < batch)
    (hs : ∀ s, sep = some s → s < 0x80) (hx : [] ∉ xs) (hy : [] ∉ ys) (hz : [] ∉ zs) (hax : Aligned sep xs)
    (hay : Aligned sep ys) (haz : Aligned sep zs) (htx : IsText xs.flatten) (hty : IsText ys.flatten)
    (hcut : xs.flatten.getLast? = some (sep.getD 10)) (hwhole : zs.flatten = xs.flatten ++ ys.flatten) :
    ∃ bx by_ bz, readFile sep false batch xs = .ok bx ∧ readFile sep false batch ys = .ok by_ ∧
      readFile sep false batch zs = .ok bz ∧ bz.flatten = bx.flatten ++ by_.flatten := by
  obtain ⟨bx, x1, x2, _⟩ := C97_lines_partial sep batch xs hb hs hx hax htx
  obtain ⟨b2, y1, y2, _⟩ := C97_lines_partial sep batch ys hb hs hy hay hty
  obtain ⟨bz, z1, z2, _⟩ := C97_lines_partial sep batch zs hb hs hz haz (by rw [hwhole]; exact isText_append htx hty)
  refine ⟨bx, b2, bz, x1, y1, z1, ?_⟩
  rw [hwhole] at z2
  exact lines_unique z2 (lines_append x2 y2 hcut)

example : readFile none false 4 [[0x61, 13, 10], [0x62, 10]] = .ok [[[0x61], [0x62]]] ∧
    readFile none false 4 [[13, 0x63]] = .ok [[[], [0x63]]] ∧
    readFile none false 4 [[0x61, 13, 10, 0x62], [10, 13], [0x63]] = .ok [[[0x61], [0x62], [], [0x63]]] :=
  ⟨rfl, rfl, rfl⟩

/-- A whole file of text is one row, if batches may have more than one; an empty file has no row. -/
theorem C97_whole_partial (sep : Option Nat) (batch : Nat) (chunks : List Bytes) (hb : 1 < batch) (hne : [] ∉ chunks)
    (ht : IsText chunks.flatten) :
    readFile sep true batch chunks = .ok (if chunks.flatten = [] then [] else [[chunks.flatten]]) :=
  readFile_whole sep batch chunks hb hne ht

example : readFile none true 2 [[0x61, 10], [10, 0xc3], [0xa9]] = .ok [[[0x61, 10, 10, 0xc3, 0xa9]]] := rfl

/-- A buffer that ends between CR and LF adds an empty row: the rows depend on the buffers. -/
theorem C97_crlf_split : ∃ xs ys : List Bytes, [] ∉ xs ∧ [] ∉ ys ∧ xs.flatten = ys.flatten ∧
    readFile none false 8 xs = .ok [[[0x61], [0x62]]] ∧ readFile none false 8 ys = .ok [[[0x61], [], [0x62]]] :=
  ⟨[[0x61, 13, 10, 0x62]], [[0x61, 13], [10, 0x62]], by decide, by decide, by decide, rfl,
    rfl⟩

example : ¬ Aligned none [[0x61, 13], [10, 0x62]] := fun h =>
  h rfl [] [0x61, 13] [10, 0x62] [] rfl rfl rfl

/-- Rows that are not text are given as strings: only the rows without their separators are checked, in one piece. -/
theorem C97_not_text : ∃ rows : List Bytes, readFile none false 8 [[0xc3, 10, 0xa9]] = .ok [rows] ∧
    ∀ row ∈ rows, ¬ IsText row := by
  refine ⟨[[0xc3], [0xa9]], rfl, ?_⟩
  intro row hrow h
  have h' := isUtf8_iff.2 h
  rcases List.mem_cons.1 hrow with rfl | hrow
  · exact absurd h' (by decide)
  · rcases List.mem_cons.1 hrow with rfl | hrow
    · exact absurd h' (by decide)
    · cases hrow

example : readFile none false 8 [[0xc3, 10]] = .error () := rfl

/-- With batches of one row a whole file is one row for each buffer. -/
theorem C97_whole_batch_one : ∃ chunks : List Bytes, [] ∉ chunks ∧
    readFile none true 1 chunks = .ok [[[0x61]], [[0x62]]] :=
  ⟨[[0x61], [0x62]], by decide, rfl⟩

end Verif.Io.Text
