import Verif.Io.Utf8Lemmas

/-!
# C98: malformed bytes of a CSV file are replaced, everything else is kept, whatever the buffers
-/

namespace Verif.Io

open Spec

/-- The repaired text is the one of the specification. -/
theorem C98_repaired (chunks : List Bytes) : Repaired chunks.flatten (decodeStream [] chunks).flatten := by
  rw [decodeStream_flatten]
  exact whole_repaired _ _ (Nat.le_refl _)

example : decodeStream [] [[0x61, 0xe4], [0xbd, 0xa0], [0xff, 0x62, 0xe4, 0xbd]] =
    [[0x61], [0xe4, 0xbd, 0xa0], [0xef, 0xbf, 0xbd, 0x62], [0xef, 0xbf, 0xbd]] := by decide +kernel

/-- There is only one such text. -/
theorem C98_unique {i o o' : Bytes} (h : Repaired i o) (h' : Repaired i o') : o = o' := repaired_unique h h'

example : Repaired [0x61] [0x61] :=
  Repaired.keep (i := []) (o := []) 'a' Repaired.nil

/-- How the file is cut into buffers does not matter, even inside a character. -/
theorem C98_chunks (chunks chunks' : List Bytes) (h : chunks.flatten = chunks'.flatten) :
    (decodeStream [] chunks).flatten = (decodeStream [] chunks').flatten := by
  rw [decodeStream_flatten, decodeStream_flatten, h]

example : (decodeStream [] [[0xf0, 0x9f], [0x98], [0x80]]).flatten =
    (decodeStream [] [[0xf0], [0x9f, 0x98, 0x80]]).flatten := by decide +kernel

/-- Well-formed text is not changed. -/
theorem C98_identity (chunks : List Bytes) (text : List Char) (h : chunks.flatten = text.flatMap enc) :
    (decodeStream [] chunks).flatten = text.flatMap enc := by
  rw [decodeStream_flatten, List.nil_append, h, whole, rep_text]

example : [[0xc3], [0xa9, 0x62]].flatten = ['é', 'b'].flatMap enc := by decide +kernel

/-- The result is well-formed text. -/
theorem C98_text (chunks : List Bytes) : IsText (decodeStream [] chunks).flatten :=
  repaired_text (C98_repaired chunks)

example : IsText (decodeStream [] [[0xed, 0xa0], [0x80, 0xc3]]).flatten := C98_text _

/-- The ASCII characters, among them delimiters, quotes and ends of lines, are all kept in their order, and none is
added. -/
theorem C98_ascii (chunks : List Bytes) :
    (decodeStream [] chunks).flatten.filter (· < 0x80) = chunks.flatten.filter (· < 0x80) :=
  repaired_ascii (C98_repaired chunks)

example : (decodeStream [] [[0xe4, 0x2c], [0x2c, 0xc3, 0x0a]]).flatten =
    [0xef, 0xbf, 0xbd, 0x2c, 0x2c, 0xef, 0xbf, 0xbd, 0x0a] := by decide +kernel

/-- No empty buffer is passed on, which a reader would take for the end. -/
theorem C98_nonempty (chunks : List Bytes) : [] ∉ decodeStream [] chunks := decodeStream_ne _ _

example : decodeStream [] [[0xe4], [0xbd], [0xa0]] = [[0xe4, 0xbd, 0xa0]] := by decide +kernel

/-- A reader of the schema gets the same text as the stream, whatever the sizes of its buffers. -/
theorem C98_reader (chunks : List Bytes) (sizes : List Nat) (hpos : ∀ n ∈ sizes, 0 < n)
    (hmany : (decodeStream [] chunks).flatten.length < sizes.length) :
    (Reader.mk chunks [] [] false).readAll sizes = some (decodeStream [] chunks).flatten := by
  have e : (Reader.mk chunks [] [] false).pending = (decodeStream [] chunks).flatten := by
    rw [decodeStream_flatten]
    rfl
  rw [readAll_pending _ _ hpos (by rw [e]; exact hmany), e]

example : (Reader.mk [[0x61, 0xe4], [0xbd], [0xff]] [] [] false).readAll [1, 2, 1, 3, 1, 1, 1, 1, 1] =
    some [0x61, 0xef, 0xbf, 0xbd, 0xef, 0xbf, 0xbd] := by decide +kernel

end Verif.Io
