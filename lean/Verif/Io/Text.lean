import Verif.Io.Utf8

/-!
# Reading and writing text files

`sail-data-source/src/formats/text/reader.rs` and `writer.rs`. The offsets and the data of `RecordDecoder` are the list
of rows it has buffered; the growth of its buffers and its line numbers, used only in messages, are left out. The bounds
of `Decoder` are left out: no caller sets them (`source.rs:79-92`), so nothing is skipped and there is no end.
-/

namespace Verif.Io.Text

/-- `is_line_end` (`reader.rs:372-390`) at a byte, given those after it in the same buffer: how many bytes the end of
the line takes, 0 if there is none. -/
def isLineEnd (sep : Option Nat) (b : Nat) (rest : Bytes) : Nat :=
  match sep with
  | some s => if b == s then 1 else 0
  | none => if b == 13 then (if rest.head? = some 10 then 2 else 1) else if b == 10 then 1 else 0

/-- The search for the end of a line (`reader.rs:397-405` and `440-443`): the bytes before it and those after it. -/
def firstEnd (sep : Option Nat) : Bytes → Option (Bytes × Bytes)
  | [] => none
  | b :: r =>
    match isLineEnd sep b r with
    | 0 => (firstEnd sep r).map fun p => (b :: p.1, p.2)
    | k + 1 => some ([], r.drop k)

/-- The loop over a buffer (`reader.rs:437-490`) when `n` more rows may be read: the rows, the bytes of a line that
does not end in the buffer, and the bytes that are not consumed. -/
def scan (sep : Option Nat) : Nat → Bytes → List Bytes × Bytes × Bytes
  | 0, input => ([], [], input)
  | n + 1, input =>
    match firstEnd sep input with
    | none => ([], input, [])
    | some (line, rest) => (line :: (scan sep n rest).1, (scan sep n rest).2)

/-- `RecordDecoder` (`reader.rs:292-318`): its options, the rows it has buffered, and `partial_line`. -/
structure RecordDecoder where
  lineSep : Option Nat
  wholeText : Bool
  rows : List Bytes
  partialLine : Bytes
  deriving DecidableEq, Repr

/-- The rows of `whole_text` after some input (`reader.rs:348-364`). There is at most one row; further rows, which
do not arise, are kept. -/
def wholeRows (rows : List Bytes) (input : Bytes) : List Bytes :=
  match rows with
  | [] => if input.isEmpty then [] else [input]
  | row :: more => (row ++ input) :: more

/-- `RecordDecoder::decode` (`reader.rs:339-491`), which returns the bytes of the input that are not consumed instead of
the number of those that are. -/
def RecordDecoder.decode (d : RecordDecoder) (input : Bytes) (toRead : Nat) : RecordDecoder × Bytes :=
  if toRead = 0 then (d, input)
  else if d.wholeText then ({ d with rows := wholeRows d.rows input }, [])
  else if !d.partialLine.isEmpty && !input.isEmpty then
    match firstEnd d.lineSep input with
    | none => ({ d with partialLine := d.partialLine ++ input }, [])
    | some (line, rest) =>
      let more := scan d.lineSep (toRead - 1) rest
      ({ d with rows := d.rows ++ (d.partialLine ++ line) :: more.1, partialLine := more.2.1 }, more.2.2)
  else
    let more := scan d.lineSep toRead input
    ({ d with rows := d.rows ++ more.1, partialLine := d.partialLine ++ more.2.1 }, more.2.2)

/-- `RecordDecoder::flush` (`reader.rs:507-549`): the rows, after the line that was not ended, or an error if the bytes
of all rows in one piece are not UTF-8. -/
def RecordDecoder.flush (d : RecordDecoder) : Except Unit (List Bytes × RecordDecoder) :=
  let rows := if d.partialLine.isEmpty then d.rows else d.rows ++ [d.partialLine]
  if isUtf8 rows.flatten then .ok (rows, { d with rows := [], partialLine := [] }) else .error ()

/-- `BufReader::read` before the flush (`reader.rs:70-80`) over the buffers that `fill_buf` gives, of which none is
empty before the end. `fuel` bounds the number of rounds. -/
def fill (batch : Nat) : Nat → RecordDecoder → List Bytes → RecordDecoder × List Bytes
  | 0, d, chunks => (d, chunks)
  | _ + 1, d, [] => (d, [])
  | n + 1, d, c :: cs =>
    let (d', rest) := d.decode c (batch - d.rows.length)
    let chunks := if rest.isEmpty then cs else rest :: cs
    if rest.length = c.length || d'.rows.length = batch then (d', chunks) else fill batch n d' chunks

/-- The iterator of `BufReader` (`reader.rs:83-89`) and `Decoder::flush` (`reader.rs:153-162`): all batches up to the
first error. `fuel` bounds their number. -/
def readN (batch : Nat) : Nat → RecordDecoder → List Bytes → Except Unit (List (List Bytes))
  | 0, _, _ => .ok []
  | n + 1, d, chunks =>
    let (d', chunks') := fill batch (chunks.flatten.length + 1) d chunks
    if d'.rows.isEmpty && d'.partialLine.isEmpty then .ok []
    else
      match d'.flush with
      | .error e => .error e
      | .ok (rows, d'') =>
        match readN batch n d'' chunks' with
        | .error e => .error e
        | .ok batches => .ok (rows :: batches)

/-- A file is read in buffers. -/
def readFile (sep : Option Nat) (wholeText : Bool) (batch : Nat) (chunks : List Bytes) : Except Unit (List (List Bytes)) :=
  readN batch (chunks.flatten.length + 1) ⟨sep, wholeText, [], []⟩ chunks

/-- `TextWriter::write` (`writer.rs:67-101`): the bytes that are written and the buffer. NULL is `none`. -/
def writeRows (sep : Nat) : List (Option Bytes) → Bytes → Bytes → Bytes
  | [], out, buffer => if buffer.isEmpty then out else out ++ buffer
  | row :: rows, out, buffer =>
    let buffer := match row with
      | some value => buffer ++ value
      | none => buffer
    if buffer.length > 8 * 1024 then writeRows sep rows (out ++ buffer) [sep]
    else writeRows sep rows out (buffer ++ [sep])

/-- `TextSerializer::serialize` (`writer.rs:120-133`) of one batch. -/
def serialize (sep : Nat) (rows : List (Option Bytes)) : Bytes := writeRows sep rows [] []

end Verif.Io.Text
