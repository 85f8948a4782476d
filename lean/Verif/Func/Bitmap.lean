import Verif.Func.Accumulator
/-!
# Bitmap aggregates

`bitmap_construct_agg`, `bitmap_or_agg` and `bitmap_and_agg`: bitmaps are byte strings of 4096 bytes.
-/
namespace Verif.Func.Bitmap

abbrev Byte := BitVec 8

inductive Err where
  /-- An input is longer than a bitmap. -/
  | tooLong (n : Nat)
  /-- A state does not have the length of a bitmap. -/
  | stateLength (n : Nat)
deriving Repr, DecidableEq

/-- `BITMAP_NUM_BYTES`: `crates/sail-function/src/aggregate/utils.rs` 18. -/
def numBytes : Nat := 4096

/-- `BITMAP_NUM_BITS`: `crates/sail-function/src/aggregate/bitmap_construct_agg.rs` 19. -/
def numBits : Int := 8 * numBytes

/-- `set_bit`: `crates/sail-function/src/aggregate/bitmap_construct_agg.rs` 104-110.  `rem_euclid`
with a positive divisor is `%` on integers. -/
def setBit (b : List Byte) (position : Int) : List Byte :=
  let pos := (position % numBits).toNat
  let byteIndex := pos / 8
  let bitIndex := pos % 8
  b.modify byteIndex (· ||| (1#8 <<< bitIndex))

/-- One row of `update_batch` of `bitmap_construct_agg`:
`crates/sail-function/src/aggregate/bitmap_construct_agg.rs` 114-120. -/
def setRow (b : List Byte) : Option Int → List Byte
  | some v => setBit b v
  | none => b

/-- A byte-wise operation in place on the common prefix, e.g.
`crates/sail-function/src/aggregate/bitmap_and_agg.rs` 98-102. -/
def zipInto (f : Byte → Byte → Byte) : List Byte → List Byte → List Byte
  | a :: as, b :: bs => f a b :: zipInto f as bs
  | as, _ => as

/-- `merge_batch` of `bitmap_construct_agg` for one state:
`crates/sail-function/src/aggregate/bitmap_construct_agg.rs` 143-156. -/
def mergeWith (f : Byte → Byte → Byte) (b : List Byte) : Option (List Byte) → Except Err (List Byte)
  | none => .ok b
  | some o => if o.length ≠ b.length then .error (.stateLength o.length) else .ok (zipInto f b o)

/-- `bitmap_construct_agg`: `crates/sail-function/src/aggregate/bitmap_construct_agg.rs` 91-160. -/
def construct : Accumulator Err (List Byte) (Option Int) (List Byte) (List Byte) where
  init := .replicate numBytes 0
  update b rows := .ok (rows.foldl setRow b)
  state b := b
  merge b states := states.foldlM (mergeWith (· ||| ·)) b
  eval b := b

/-- One row of `update_batch` of `bitmap_or_agg`:
`crates/sail-function/src/aggregate/bitmap_or_agg.rs` 96-108, with `or_bytes` (78-83). -/
def orRow (b : List Byte) : Option (List Byte) → Except Err (List Byte)
  | none => .ok b
  | some o => if o.length > numBytes then .error (.tooLong o.length) else .ok (zipInto (· ||| ·) b o)

/-- `bitmap_or_agg`: `crates/sail-function/src/aggregate/bitmap_or_agg.rs` 66-148. -/
def orAgg : Accumulator Err (List Byte) (Option (List Byte)) (List Byte) (List Byte) where
  init := .replicate numBytes 0
  update b rows := rows.foldlM orRow b
  state b := b
  merge b states := states.foldlM (mergeWith (· ||| ·)) b
  eval b := b

/-- `and_input_bytes`: `crates/sail-function/src/aggregate/bitmap_and_agg.rs` 85-93. -/
def andInput (b o : List Byte) : List Byte :=
  let n := min b.length o.length
  let c := zipInto (· &&& ·) b o
  c.take n ++ .replicate (c.length - n) 0

/-- One row of `update_batch` of `bitmap_and_agg`:
`crates/sail-function/src/aggregate/bitmap_and_agg.rs` 115-127. -/
def andRow (b : List Byte) : Option (List Byte) → Except Err (List Byte)
  | none => .ok b
  | some o => if o.length > numBytes then .error (.tooLong o.length) else .ok (andInput b o)

/-- `bitmap_and_agg`: `crates/sail-function/src/aggregate/bitmap_and_agg.rs` 70-167. -/
def andAgg : Accumulator Err (List Byte) (Option (List Byte)) (List Byte) (List Byte) where
  init := .replicate numBytes 0xFF
  update b rows := rows.foldlM andRow b
  state b := b
  merge b states := states.foldlM (mergeWith (· &&& ·)) b
  eval b := b

end Verif.Func.Bitmap
