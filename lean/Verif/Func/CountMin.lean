import Verif.Func.Accumulator
/-!
# `count_min_sketch`

The sketch is a table of 64-bit counters with `depth` rows and `width` columns; every item is counted
once in every row, in the column given by a hash of the item.  The computation of the dimensions from
the accuracy and the confidence (floating point) is not modelled; the multipliers drawn from the
random generator and the Murmur3 hash are parameters.
-/
namespace Verif.Func.CountMin

abbrev Byte := BitVec 8

inductive Err where
  | version (v : BitVec 32)
  | dimensions
  | truncated
  | trailing
  | depth | width | seed
deriving Repr, DecidableEq

/-- `SparkCountMinSketch`: `crates/sail-function/src/aggregate/count_min_sketch.rs` 118-125. -/
structure Sketch where
  depth : Nat
  width : Nat
  total : BitVec 64
  hashA : List (BitVec 64)
  table : List (BitVec 64)
deriving Repr, DecidableEq

/-- An item: integers are widened to 64 bits, strings are taken as bytes
(`crates/sail-function/src/aggregate/count_min_sketch.rs` 172-217). -/
inductive Item where
  | long (v : BitVec 64)
  | bytes (b : List Byte)
deriving Repr, DecidableEq

/-- `SparkCountMinSketch::new` once the dimensions and multipliers are known:
`crates/sail-function/src/aggregate/count_min_sketch.rs` 154-161. -/
def new (depth width : Nat) (hashA : List (BitVec 64)) : Sketch :=
  ⟨depth, width, 0, hashA, .replicate (depth * width) 0⟩

/-- `hash_long`: `crates/sail-function/src/aggregate/count_min_sketch.rs` 317-322.  `>>` on `i64` is
arithmetic, `as i32` keeps the low 32 bits, `%` truncates. -/
def hashLong (s : Sketch) (item : BitVec 64) (row : Nat) : Nat :=
  let h := s.hashA.getD row 0 * item
  let h := h + h.sshiftRight 32
  let h := h &&& 0x7fffffff#64
  ((h.setWidth 32).toInt.tmod s.width).toNat

/-- The bucket computed in `add_binary`: `crates/sail-function/src/aggregate/count_min_sketch.rs`
232-237.  `murmur item seed` stands for `spark_compatible_murmur3_hash`. -/
def hashBytes (murmur : List Byte → BitVec 32 → BitVec 32) (s : Sketch) (item : List Byte) (row : Nat) :
    Nat :=
  let h1 := murmur item 0
  let h2 := murmur item h1
  let h := h1 + BitVec.ofNat 32 row * h2
  (h.toInt.tmod s.width).natAbs

/-- The column of an item in a row. -/
def bucket (murmur : List Byte → BitVec 32 → BitVec 32) (s : Sketch) (item : Item) (row : Nat) : Nat :=
  match item with
  | .long v => hashLong s v row
  | .bytes b => hashBytes murmur s b row

/-- `add_long` and `add_binary`: `crates/sail-function/src/aggregate/count_min_sketch.rs` 220-241.
Additions wrap around (the release profile has no overflow checks). -/
def add (murmur : List Byte → BitVec 32 → BitVec 32) (s : Sketch) (item : Item) : Sketch :=
  { s with
    table := (List.range s.depth).foldl
      (fun t row => t.modify (row * s.width + bucket murmur s item row) (· + 1)) s.table
    total := s.total + 1 }

/-- One row of `update_from_array`: `crates/sail-function/src/aggregate/count_min_sketch.rs` 172-217;
NULLs are skipped. -/
def addRow (murmur : List Byte → BitVec 32 → BitVec 32) (s : Sketch) : Option Item → Sketch
  | some item => add murmur s item
  | none => s

/-- `for (left, right) in left.iter_mut().zip(right)`: `count_min_sketch.rs` 253-255. -/
def zipAdd : List (BitVec 64) → List (BitVec 64) → List (BitVec 64)
  | a :: as, b :: bs => (a + b) :: zipAdd as bs
  | as, _ => as

/-- `merge`: `crates/sail-function/src/aggregate/count_min_sketch.rs` 243-258. -/
def merge (s o : Sketch) : Except Err Sketch :=
  if s.depth ≠ o.depth then .error .depth
  else if s.width ≠ o.width then .error .width
  else if s.hashA ≠ o.hashA then .error .seed
  else .ok { s with table := zipAdd s.table o.table, total := s.total + o.total }

/-- `to_be_bytes` for an integer of `n` bytes. -/
def toBE : Nat → Nat → List Byte
  | 0, _ => []
  | n + 1, x => BitVec.ofNat 8 (x / 256 ^ n) :: toBE n x

/-- `from_be_bytes`. -/
def fromBE (b : List Byte) : Nat := b.foldl (fun acc x => acc * 256 + x.toNat) 0

/-- `COUNT_MIN_SKETCH_VERSION`: `crates/sail-function/src/aggregate/count_min_sketch.rs` 18. -/
def version : BitVec 32 := 1

/-- `serialize`: `crates/sail-function/src/aggregate/count_min_sketch.rs` 260-275. -/
def serialize (s : Sketch) : List Byte :=
  toBE 4 version.toNat ++ toBE 8 s.total.toNat ++ toBE 4 (BitVec.ofNat 32 s.depth).toNat ++
    toBE 4 (BitVec.ofNat 32 s.width).toNat ++ s.hashA.flatMap (fun v => toBE 8 v.toNat) ++
    s.table.flatMap (fun v => toBE 8 v.toNat)

/-- `read_array`: `crates/sail-function/src/aggregate/count_min_sketch.rs` 429-446.  The offset is
represented by the bytes that follow it. -/
def readBE (n : Nat) (b : List Byte) : Except Err (Nat × List Byte) :=
  if b.length < n then .error .truncated else .ok (fromBE (b.take n), b.drop n)

/-- `read_i64_be` in a loop: `crates/sail-function/src/aggregate/count_min_sketch.rs` 297-304. -/
def readMany : Nat → List Byte → Except Err (List (BitVec 64) × List Byte)
  | 0, b => .ok ([], b)
  | n + 1, b =>
    match readBE 8 b with
    | .error e => .error e
    | .ok (v, b) =>
      match readMany n b with
      | .error e => .error e
      | .ok (vs, b) => .ok (BitVec.ofNat 64 v :: vs, b)

/-- `deserialize`: `crates/sail-function/src/aggregate/count_min_sketch.rs` 277-315.  The product of
two positive 32-bit integers fits a `usize`, so `checked_mul` never fails. -/
def deserialize (b : List Byte) : Except Err Sketch :=
  match readBE 4 b with
  | .error e => .error e
  | .ok (v, b) =>
    if BitVec.ofNat 32 v ≠ version then .error (.version (BitVec.ofNat 32 v)) else
    match readBE 8 b with
    | .error e => .error e
    | .ok (total, b) =>
      match readBE 4 b with
      | .error e => .error e
      | .ok (depth, b) =>
        match readBE 4 b with
        | .error e => .error e
        | .ok (width, b) =>
          if (BitVec.ofNat 32 depth).toInt ≤ 0 ∨ (BitVec.ofNat 32 width).toInt ≤ 0 then
            .error .dimensions
          else
          match readMany depth b with
          | .error e => .error e
          | .ok (hashA, b) =>
            match readMany (depth * width) b with
            | .error e => .error e
            | .ok (table, b) =>
              if b ≠ [] then .error .trailing
              else .ok ⟨depth, width, BitVec.ofNat 64 total, hashA, table⟩

/-- `merge_batch` for one state: `crates/sail-function/src/aggregate/count_min_sketch.rs` 107-112. -/
def mergeOne (s : Sketch) : Option (List Byte) → Except Err Sketch
  | none => .ok s
  | some b =>
    match deserialize b with
    | .error e => .error e
    | .ok o => merge s o

/-- `CountMinSketchAccumulator`: `crates/sail-function/src/aggregate/count_min_sketch.rs` 74-115. -/
def countMin (murmur : List Byte → BitVec 32 → BitVec 32) (depth width : Nat)
    (hashA : List (BitVec 64)) : Accumulator Err Sketch (Option Item) (List Byte) (List Byte) where
  init := new depth width hashA
  update s rows := .ok (rows.foldl (addRow murmur) s)
  state := serialize
  merge s states := states.foldlM mergeOne s
  eval := serialize

end Verif.Func.CountMin
