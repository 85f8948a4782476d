import Verif.Arrays.Layout
/-!
# array_compact, array_min and array_max
-/
namespace Verif.Arrays

variable {α β : Type}

/-- The vectors that `array_compact_generic` fills
(`crates/sail-function/src/scalar/array/spark_array_compact.rs` 91-97). -/
structure CompactSt where
  keep : List Bool
  kept : Nat
  offsets : List Nat
deriving Repr, DecidableEq

/-- One row (`crates/sail-function/src/scalar/array/spark_array_compact.rs` 99-117): a NULL row
marks all its values as dropped, any other row marks the values that are not NULL as kept. -/
def compactRow (values : List (Option β)) (start n : Nat) (valid : Bool) (st : CompactSt) :
    CompactSt :=
  if valid then
    let bits := (List.range n).map (fun i : Nat => ((values[start + i]?).map Option.isSome).getD false)
    let kept := st.kept + (bits.filter id).length
    ⟨st.keep ++ bits, kept, st.offsets ++ [kept]⟩
  else
    ⟨st.keep ++ List.replicate n false, st.kept, st.offsets ++ [st.kept]⟩

/-- The loop over the rows (`crates/sail-function/src/scalar/array/spark_array_compact.rs`
99-118). -/
def compactRows (values : List (Option β)) : Nat → List (Nat × Bool) → CompactSt → CompactSt
  | _, [], st => st
  | o, (n, v) :: rest, st => compactRows values (o + n) rest (compactRow values o n v st)

/-- `array_compact_generic` (`crates/sail-function/src/scalar/array/spark_array_compact.rs`
85-134).  The mask covers the rows of the column; `filter` applies it to the whole buffer. -/
def arrayCompact (c : ListCol (Option β)) : Option (ListCol (Option β)) :=
  let st := compactRows c.values c.first c.rows ⟨[], 0, [0]⟩
  match arrowFilter c.values st.keep with
  | none => none
  | some vs => mkList vs st.offsets (c.rows.map (fun r : Nat × Bool => r.2))

/-- DataFusion's minimum accumulator over one array: NULL elements are passed over
(`crates/sail-function/src/scalar/array/spark_array_min_max.rs` 188-193). -/
def minBatch : List (Option Int) → Option Int
  | [] => none
  | none :: xs => minBatch xs
  | some x :: xs =>
    match minBatch xs with
    | none => some x
    | some y => some (if y < x then y else x)

/-- DataFusion's maximum accumulator over one array
(`crates/sail-function/src/scalar/array/spark_array_min_max.rs` 194-198). -/
def maxBatch : List (Option Int) → Option Int
  | [] => none
  | none :: xs => maxBatch xs
  | some x :: xs =>
    match maxBatch xs with
    | none => some x
    | some y => some (if x < y then y else x)

/-- `compute_min_max_values` (`crates/sail-function/src/scalar/array/spark_array_min_max.rs`
177-203): the values between the offsets of every row, whatever its validity.  Elements are
integers here, standing for any totally ordered type. -/
def computeRows (batch : List (Option Int) → Option Int) (values : List (Option Int)) :
    Nat → List (Nat × Bool) → List (Option Int)
  | _, [] => []
  | o, (n, _) :: rest => batch ((values.drop o).take n) :: computeRows batch values (o + n) rest

/-- `ScalarValue::iter_to_array` (called in
`crates/sail-function/src/scalar/array/spark_array_min_max.rs` 151, 174) refuses an empty
iterator. -/
def iterToArray (xs : List (Option Int)) : Option (List (Option Int)) :=
  if xs.isEmpty then none else some xs

/-- `array_min_inner` (`crates/sail-function/src/scalar/array/spark_array_min_max.rs` 131-152). -/
def arrayMin (c : ListCol (Option Int)) : Option (List (Option Int)) :=
  iterToArray (computeRows minBatch c.values c.first c.rows)

/-- `array_max_inner` (`crates/sail-function/src/scalar/array/spark_array_min_max.rs` 154-175). -/
def arrayMax (c : ListCol (Option Int)) : Option (List (Option Int)) :=
  iterToArray (computeRows maxBatch c.values c.first c.rows)

/-- The pieces that DataFusion's array concatenation lays out: a NULL argument adds nothing. -/
def concatPieces : List (Option (List α)) → List (Option (List α)) → List (List α)
  | a :: as, b :: bs => (a.getD [] ++ b.getD []) :: concatPieces as bs
  | _, _ => []

/-- `concat` of two array columns (`crates/sail-function/src/scalar/collection/spark_concat.rs`
171-187, 217-220): the arrays are concatenated first and `nullif` then clears the validity of the
rows with a NULL argument, without touching the values. -/
def concatCols (a b : ListCol α) : Option (ListCol α) :=
  let ps := concatPieces a.cells b.cells
  mkList ps.flatten (offsetsOf 0 (ps.map List.length))
    (List.zipWith (fun (x y : Nat × Bool) => x.2 && y.2) a.rows b.rows)

end Verif.Arrays
