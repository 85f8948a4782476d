import Verif.Arrays.Layout
/-!
# array_position, array_intersect, arrays_zip and posexplode
-/
namespace Verif.Arrays

variable {α β : Type}

/-- Start, length and validity of the rows that begin at an offset
(`crates/sail-function/src/scalar/array/array_position.rs` 217-222: `offsets.array_windows`). -/
def spansFrom : Nat → List (Nat × Bool) → List (Nat × Nat × Bool)
  | _, [] => []
  | o, (n, v) :: rest => (o, n, v) :: spansFrom (o + n) rest

/-- Start, length and validity of the rows of a column. -/
def ListCol.spans (c : ListCol α) : List (Nat × Nat × Bool) := spansFrom c.first c.rows

/-! ## array_position -/

/-- The inner loop of `position_primitive`
(`crates/sail-function/src/scalar/array/array_position.rs` 224-229): `left` more elements to look
at from index `i`; the first that is not NULL and equal decides.  `eqv` is the equality of the
element type (`position_float` 257-266 takes NaN as equal to NaN). -/
def searchFrom (eqv : α → α → Bool) (values : List (Option α)) (start : Nat) (x : α) :
    Nat → Nat → Nat
  | _, 0 => 0
  | i, left + 1 =>
    match values[i]? with
    | some (some y) => if eqv y x then i - start + 1 else searchFrom eqv values start x (i + 1) left
    | _ => searchFrom eqv values start x (i + 1) left

/-- The loop over the rows (`crates/sail-function/src/scalar/array/array_position.rs` 217-231) with
`combined_nulls` (189-199): a NULL array or element gives NULL. -/
def positionRows (eqv : α → α → Bool) (values : List (Option α)) :
    List (Nat × Nat × Bool) → List (Option α) → List (Option Nat)
  | (s, n, v) :: rest, e :: es =>
    (match v, e with
     | true, some x => some (searchFrom eqv values s x s n)
     | _, _ => none) :: positionRows eqv values rest es
  | _, _ => []

/-- array_position on a column of arrays and a column of elements
(`crates/sail-function/src/scalar/array/array_position.rs` 202-234). -/
def arrayPosition (eqv : α → α → Bool) (c : ListCol (Option α)) (es : List (Option α)) :
    List (Option Nat) :=
  positionRows eqv c.values c.spans es

/-! ## array_intersect -/

/-- The probing loop (`crates/sail-function/src/scalar/array/array_intersect.rs` 280-285): the
indices of the left elements that are in the lookup set and were not met before, and the set of
those met. -/
def probe [DecidableEq α] (rowsL : List α) (lookup : List α) : Nat → Nat → List α → List Nat × List α
  | _, 0, seen => ([], seen)
  | i, left + 1, seen =>
    match rowsL[i]? with
    | none => probe rowsL lookup (i + 1) left seen
    | some x =>
      if lookup.contains x && !(seen.contains x) then
        let r := probe rowsL lookup (i + 1) left (x :: seen)
        (i :: r.1, r.2)
      else probe rowsL lookup (i + 1) left seen

/-- The loop over the rows (`crates/sail-function/src/scalar/array/array_intersect.rs` 252-288).
Elements stand for their row encodings, equal when the encodings are; a NULL element is a value
like any other. -/
def intersectRows [DecidableEq α] (rowsL rowsR : List α) (lFirst rFirst : Nat) :
    List (Nat × Nat × Bool) → List (Nat × Nat × Bool) → Nat → List Nat × List Nat
  | (ls, ln, lv) :: l, (rs, rn, rv) :: r, last =>
    if !lv || !rv then
      let t := intersectRows rowsL rowsR lFirst rFirst l r last
      (t.1, last :: t.2)
    else
      let lookup := (rowsR.drop (rs - rFirst)).take rn
      let p := probe rowsL lookup (ls - lFirst) ln []
      let t := intersectRows rowsL rowsR lFirst rFirst l r (last + p.2.length)
      (p.1 ++ t.1, (last + p.2.length) :: t.2)
  | _, _, _ => ([], [])

/-- `generic_set_lists` and `generic_set_loop`
(`crates/sail-function/src/scalar/array/array_intersect.rs` 201-309): both buffers are cut to the
values that the rows span, and offsets are taken relative to the first. -/
def arrayIntersect [DecidableEq α] (l r : ListCol α) : Option (ListCol α) :=
  let rowsL := (l.values.drop l.first).take (spanned l.rows)
  let rowsR := (r.values.drop r.first).take (spanned r.rows)
  let t := intersectRows rowsL rowsR l.first r.first l.spans r.spans 0
  match arrowTake rowsL t.1 with
  | none => none
  | some vs => mkList vs (0 :: t.2) (List.zipWith (fun (x y : Nat × Bool) => x.2 && y.2) l.rows r.rows)

/-! ## arrays_zip -/

/-- The row `i` of every argument: start and length
(`crates/sail-function/src/scalar/array/arrays_zip.rs` 363-370). -/
def rowSpans (cols : List (ListCol (Option α))) (i : Nat) : List (Nat × Nat × Bool) :=
  cols.map (fun c : ListCol (Option α) => (c.spans[i]?).getD (0, 0, false))

/-- `max_len` of a row (`crates/sail-function/src/scalar/array/arrays_zip.rs` 364-370). -/
def maxLen : List (Nat × Nat × Bool) → Nat
  | [] => 0
  | s :: rest => Nat.max s.2.1 (maxLen rest)

/-- The indices that a row adds for one argument
(`crates/sail-function/src/scalar/array/arrays_zip.rs` 371-375). -/
def padIndices (start len max : Nat) : List (Option Nat) :=
  (List.range max).map (fun k : Nat => if k < len then some (start + k) else none)

/-- The length that a row gets: nothing for a row with a NULL argument
(`crates/sail-function/src/scalar/array/arrays_zip.rs` 355-361, 376). -/
def zipLen (spans : List (Nat × Nat × Bool)) : Nat :=
  if spans.all (fun s : Nat × Nat × Bool => s.2.2) then maxLen spans else 0

/-- The indices that row `i` adds for argument `j`
(`crates/sail-function/src/scalar/array/arrays_zip.rs` 355-375; the code pushes to the arguments
in turn, here each argument has its own pass). -/
def zipRowIndices (cols : List (ListCol (Option α))) (j i : Nat) : List (Option Nat) :=
  let spans := rowSpans cols i
  if spans.all (fun s : Nat × Nat × Bool => s.2.2) then
    match spans[j]? with
    | some (s, n, _) => padIndices s n (maxLen spans)
    | none => []
  else []

/-- The indices of argument `j` over all rows
(`crates/sail-function/src/scalar/array/arrays_zip.rs` 354-378). -/
def zipIndices (cols : List (ListCol (Option α))) (numRows j : Nat) : List (Option Nat) :=
  ((List.range numRows).map (zipRowIndices cols j)).flatten

/-- Arrow's `take` with indices that may be NULL
(`crates/sail-function/src/scalar/array/arrays_zip.rs` 380-388). -/
def takeOpt (values : List (Option α)) : List (Option Nat) → Option (List (Option α))
  | [] => some []
  | none :: is => (takeOpt values is).map (none :: ·)
  | some i :: is =>
    match values[i]?, takeOpt values is with
    | some x, some ys => some (x :: ys)
    | _, _ => none

/-- One `take` per argument (`crates/sail-function/src/scalar/array/arrays_zip.rs` 380-388). -/
def zipColumns (cols : List (ListCol (Option α))) (numRows : Nat) :
    Nat → List (ListCol (Option α)) → Option (List (List (Option α)))
  | _, [] => some []
  | j, c :: rest =>
    match takeOpt c.values (zipIndices cols numRows j), zipColumns cols numRows (j + 1) rest with
    | some x, some xs => some (x :: xs)
    | _, _ => none

/-- `arrays_zip_generic` (`crates/sail-function/src/scalar/array/arrays_zip.rs` 293-398) on at
least one argument.  The struct array is read as a list of structs, a struct as the list of its
fields; all arguments have the same element type here, which the code does not require. -/
def arraysZip (cols : List (ListCol (Option α))) (numRows : Nat) : Option (ListCol (List (Option α))) :=
  let lens := (List.range numRows).map (fun i : Nat => zipLen (rowSpans cols i))
  match zipColumns cols numRows 0 cols with
  | none => none
  | some columns =>
    mkList ((List.range lens.sum).map (fun i : Nat =>
        columns.map (fun c : List (Option α) => (c[i]?).getD none)))
      (offsetsOf 0 lens)
      ((List.range numRows).map (fun i : Nat =>
        (rowSpans cols i).all (fun s : Nat × Nat × Bool => s.2.2)))

/-! ## posexplode -/

/-- Writing the positions of a row (`crates/sail-function/src/scalar/array/spark_array_item_with_position.rs`
61-65). -/
def writePositions (start : Nat) : Nat → Nat → List Nat → List Nat
  | _, 0, ps => ps
  | p, left + 1, ps => writePositions start (p + 1) left (ps.set p (p - start))

/-- The loop over the rows (`crates/sail-function/src/scalar/array/spark_array_item_with_position.rs`
58-66). -/
def positionsOf : List (Nat × Nat × Bool) → List Nat → List Nat
  | [], ps => ps
  | (s, n, _) :: rest, ps => positionsOf rest (writePositions s s n ps)

/-- `general_array_item_with_position`
(`crates/sail-function/src/scalar/array/spark_array_item_with_position.rs` 48-82): positions for
the whole buffer, then the column with the same offsets. -/
def itemWithPosition (c : ListCol α) : ListCol (Nat × α) :=
  ⟨(positionsOf c.spans (List.replicate c.values.length 0)).zip c.values, c.first, c.rows⟩

end Verif.Arrays
