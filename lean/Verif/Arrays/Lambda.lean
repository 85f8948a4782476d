import Verif.Arrays.Layout
/-!
# Functions with lambdas: exists, forall, filter, transform and aggregate

A list column enters through DataFusion's helpers `list_values`, `adjust_offsets_for_slice` and
`list_values_row_number`, which this model trusts: they yield the values of the rows that are not
NULL one after the other, the offsets of the rows in them counted from 0 (a NULL row spans
nothing) and for every value the number of its row.  A column is therefore given by its cells.
-/
namespace Verif.Arrays

variable {α β σ τ : Type}

/-- `list_values` of DataFusion, called in
`crates/sail-function/src/scalar/array/spark_array_exists.rs` 87. -/
def flatValues (cells : List (Option (List α))) : List α :=
  (cells.map (fun c : Option (List α) => c.getD [])).flatten

/-- The lengths of the rows after `adjust_offsets_for_slice`. -/
def rowLens (cells : List (Option (List α))) : List Nat :=
  cells.map (fun c : Option (List α) => (c.getD []).length)

/-- `adjust_offsets_for_slice` of DataFusion, called in
`crates/sail-function/src/scalar/array/spark_array_exists.rs` 111. -/
def adjOffsets (cells : List (Option (List α))) : List Nat := offsetsOf 0 (rowLens cells)

/-- The validity of the rows. -/
def validity (cells : List (Option (List α))) : List Bool := cells.map Option.isSome

/-- `list_values_row_number` of DataFusion, called in
`crates/sail-function/src/scalar/array/spark_array_exists.rs` 92: with it the captured columns are
spread over the values. -/
def rowNumbers : Nat → List (Option (List α)) → List Nat
  | _, [] => []
  | r, c :: rest => List.replicate (c.getD []).length r ++ rowNumbers (r + 1) rest

/-! ## exists and forall -/

/-- What `lambda.evaluate` returns: one value for a body that does not depend on the element, or a
value for every element (`crates/sail-function/src/scalar/array/spark_array_exists.rs` 91-94,
152, 168). -/
inductive PredOut where
  | scalar (b : Option Bool)
  | array (p : List (Option Bool))
deriving Repr, DecidableEq

/-- The inner loop of `short_circuit_boolean_reduce`
(`crates/sail-function/src/scalar/array/lambda_utils.rs` 149-174): evaluate the lambda on one
element after the other, stop at the first `stop`; an error (`none`) is passed on.  `f` is the
lambda with the captured columns of the row. -/
def walk (f : α → Option (Option Bool)) (stop : Bool) : Bool → List α → Option (Option Bool)
  | anyNull, [] => some (if anyNull then none else some (!stop))
  | anyNull, x :: xs =>
    match f x with
    | none => none
    | some (some b) => if b = stop then some (some stop) else walk f stop anyNull xs
    | some none => walk f stop true xs

/-- `short_circuit_boolean_reduce` (`crates/sail-function/src/scalar/array/lambda_utils.rs`
115-177).  The values of a row are those between its offsets, the captured columns those of the row
number at the value. -/
def shortCircuit (f : Nat → α → Option (Option Bool)) (stop : Bool) (values : List α)
    (rowNums : List Nat) : List Nat → List Bool → Option (List (Option Bool))
  | o :: o' :: rest, v :: vs =>
    if !v then (shortCircuit f stop values rowNums (o' :: rest) vs).map (none :: ·)
    else
      match walk (fun e : α × Nat => f e.2 e.1) stop false
          (((values.zip rowNums).drop o).take (o' - o)),
        shortCircuit f stop values rowNums (o' :: rest) vs with
      | some b, some bs => some (b :: bs)
      | _, _ => none
  | _, _ => some []

/-- The inner loop of `exists_reduce` and `forall_reduce` over the predicate values of a row
(`crates/sail-function/src/scalar/array/spark_array_exists.rs` 184-193,
`crates/sail-function/src/scalar/array/spark_array_forall.rs` 183-192): whether the stopping value
was met, and whether a NULL was met before. -/
def reduceLoop (stop : Bool) : Bool → List (Option Bool) → Bool × Bool
  | anyNull, [] => (false, anyNull)
  | _, none :: ps => reduceLoop stop true ps
  | anyNull, some b :: ps => if b = stop then (true, anyNull) else reduceLoop stop anyNull ps

/-- What the loop's flags make of a row
(`crates/sail-function/src/scalar/array/spark_array_exists.rs` 194-200). -/
def verdict (stop : Bool) (r : Bool × Bool) : Option Bool :=
  if r.1 then some stop else if r.2 then none else some (!stop)

/-- One row of `exists_reduce` and `forall_reduce`
(`crates/sail-function/src/scalar/array/spark_array_exists.rs` 152-166, 176-201). -/
def reduceRow (stop : Bool) (out : PredOut) (o o' : Nat) : Option Bool :=
  match out with
  | .scalar b => if o' - o = 0 then some (!stop) else b
  | .array p => verdict stop (reduceLoop stop false ((p.drop o).take (o' - o)))

/-- `exists_reduce` with `stop = true`, `forall_reduce` with `stop = false`
(`crates/sail-function/src/scalar/array/spark_array_exists.rs` 141-203,
`crates/sail-function/src/scalar/array/spark_array_forall.rs` 140-202). -/
def reduceRows (stop : Bool) (out : PredOut) : List Nat → List Bool → List (Option Bool)
  | o :: o' :: rest, v :: vs =>
    (if !v then none else reduceRow stop out o o') :: reduceRows stop out (o' :: rest) vs
  | _, _ => []

/-- `invoke_with_args` of exists (`stop = true`) and forall (`stop = false`)
(`crates/sail-function/src/scalar/array/spark_array_exists.rs` 82-130,
`crates/sail-function/src/scalar/array/spark_array_forall.rs` 81-129): `vec` is the outcome of the
vectorised evaluation, an error (`none`) leads to the evaluation element by element. -/
def existsInvoke (stop : Bool) (vec : Option PredOut) (f : Nat → α → Option (Option Bool))
    (cells : List (Option (List α))) : Option (List (Option Bool)) :=
  match vec with
  | none => shortCircuit f stop (flatValues cells) (rowNumbers 0 cells) (adjOffsets cells) (validity cells)
  | some out => some (reduceRows stop out (adjOffsets cells) (validity cells))

/-! ## filter and transform -/

/-- `offsets_to_indices` (`crates/sail-function/src/scalar/array/lambda_utils.rs` 214-231). -/
def indexArray : List Nat → List Nat
  | o :: o' :: rest => List.range (o' - o) ++ indexArray (o' :: rest)
  | _ => []

/-- `lambda.evaluate` on the values, their indices and the captured columns of their rows
(`crates/sail-function/src/scalar/array/spark_array_filter.rs` 153-156,
`crates/sail-function/src/scalar/array/spark_array_transform.rs` 165-172): fails if the lambda
fails on a value. -/
def evalAll (f : Nat → Nat → α → Option β) : List Nat → List Nat → List α → Option (List β)
  | r :: rs, i :: is, x :: xs =>
    match f r i x, evalAll f rs is xs with
    | some y, some ys => some (y :: ys)
    | _, _ => none
  | _, _, _ => some []

/-- The counting loop of `filter_list_values`
(`crates/sail-function/src/scalar/array/spark_array_filter.rs` 253-268): the offsets of the
filtered rows.  Both ways of counting give the number of true values. -/
def filterOffsets (p : List (Option Bool)) : Nat → List Nat → List Nat
  | acc, o :: o' :: rest =>
    let count := (((p.drop o).take (o' - o)).filter (fun b : Option Bool => b == some true)).length
    acc :: filterOffsets p (acc + count) (o' :: rest)
  | acc, _ => [acc]

/-- `filter_list_values` (`crates/sail-function/src/scalar/array/spark_array_filter.rs` 245-279): the
values and offsets are left as they are when as many values are kept as there are. -/
def filterListValues (values : List α) (p : List (Option Bool)) (offsets : List Nat) :
    List α × List Nat :=
  let newOffsets := filterOffsets p 0 offsets
  if newOffsets.getLast? = offsets.getLast? then (values, offsets)
  else (maskFilter values (p.map (fun b : Option Bool => b == some true)), newOffsets)

/-- `invoke_with_args` of filter (`crates/sail-function/src/scalar/array/spark_array_filter.rs`
126-206).  `const` is the value of a body that depends on neither element nor index nor row; the
result is given by its cells. -/
def filterInvoke (const : Option (Option Bool)) (f : Nat → Nat → α → Option (Option Bool))
    (cells : List (Option (List α))) : Option (List (Option (List α))) :=
  if cells.all Option.isNone then some (cells.map (fun _ => none))
  else if (flatValues cells).isEmpty && cells.all Option.isSome then some (cells.map (fun _ => some []))
  else
    match const with
    | some (some true) => some cells
    | some _ =>
      (mkList ([] : List α) (List.replicate (cells.length + 1) 0) (validity cells)).map ListCol.cells
    | none =>
      match evalAll f (rowNumbers 0 cells) (indexArray (adjOffsets cells)) (flatValues cells) with
      | none => none
      | some p =>
        let r := filterListValues (flatValues cells) p (adjOffsets cells)
        (mkList r.1 r.2 (validity cells)).map ListCol.cells

/-- `invoke_with_args` of transform
(`crates/sail-function/src/scalar/array/spark_array_transform.rs` 135-200). -/
def transformInvoke (f : Nat → Nat → α → Option β) (cells : List (Option (List α))) :
    Option (List (Option (List β))) :=
  if cells.all Option.isNone then some (cells.map (fun _ => none))
  else if (flatValues cells).isEmpty && cells.all Option.isSome then some (cells.map (fun _ => some []))
  else
    match evalAll f (rowNumbers 0 cells) (indexArray (adjOffsets cells)) (flatValues cells) with
    | none => none
    | some ys => (mkList ys (adjOffsets cells) (validity cells)).map ListCol.cells

/-! ## aggregate -/

/-- The rows that have an element at a depth, each with the index of that element
(`crates/sail-function/src/scalar/array/spark_array_aggregate.rs` 284-294). -/
def gatherRows (depth : Nat) : Nat → List Nat → List Bool → List (Nat × Nat)
  | r, o :: o' :: rest, v :: vs =>
    if v && decide (o + depth < o') then (r, o + depth) :: gatherRows depth (r + 1) (o' :: rest) vs
    else gatherRows depth (r + 1) (o' :: rest) vs
  | _, _, _ => []

/-- Evaluating merge on the gathered accumulators and elements
(`crates/sail-function/src/scalar/array/spark_array_aggregate.rs` 299-314). -/
def evalMerge (merge : Nat → σ → α → Option σ) : List Nat → List σ → List α → Option (List σ)
  | r :: rs, a :: as, x :: xs =>
    match merge r a x, evalMerge merge rs as xs with
    | some y, some ys => some (y :: ys)
    | _, _ => none
  | _, _, _ => some []

/-- `scatter_updates` (`crates/sail-function/src/scalar/array/spark_array_aggregate.rs` 360-406) from
`base_start` on: the rows have to ascend and lie in the base. -/
def scatterFrom (base : List σ) : Nat → List Nat → List σ → Option (List σ)
  | s, [], [] => some (base.drop s)
  | s, r :: rs, u :: us =>
    if r < s ∨ base.length ≤ r then none
    else (scatterFrom base (r + 1) rs us).map (fun t : List σ => (base.drop s).take (r - s) ++ u :: t)
  | _, _, _ => none

/-- One depth of `aggregate_offsets`
(`crates/sail-function/src/scalar/array/spark_array_aggregate.rs` 282-316). -/
def mergeDepth (merge : Nat → σ → α → Option σ) (values : List α) (offsets : List Nat)
    (valid : List Bool) (depth : Nat) (acc : List σ) : Option (List σ) :=
  let g := gatherRows depth 0 offsets valid
  if g.isEmpty then some acc
  else
    match arrowTake acc (g.map Prod.fst), arrowTake values (g.map Prod.snd) with
    | some as, some vs =>
      match evalMerge merge (g.map Prod.fst) as vs with
      | none => none
      | some us => scatterFrom acc 0 (g.map Prod.fst) us
    | _, _ => none

/-- The loop over the depths (`crates/sail-function/src/scalar/array/spark_array_aggregate.rs`
281-317): `left` more depths from `depth` on. -/
def mergeDepths (merge : Nat → σ → α → Option σ) (values : List α) (offsets : List Nat)
    (valid : List Bool) : Nat → Nat → List σ → Option (List σ)
  | _, 0, acc => some acc
  | depth, left + 1, acc =>
    match mergeDepth merge values offsets valid depth acc with
    | none => none
    | some acc' => mergeDepths merge values offsets valid (depth + 1) left acc'

/-- `max_len` (`crates/sail-function/src/scalar/array/spark_array_aggregate.rs` 270-274). -/
def maxRow : List Nat → List Bool → Nat
  | o :: o' :: rest, v :: vs => if v then Nat.max (o' - o) (maxRow (o' :: rest) vs) else maxRow (o' :: rest) vs
  | _, _ => 0

/-- The rows that are not NULL (`crates/sail-function/src/scalar/array/spark_array_aggregate.rs`
319-322). -/
def validRows : Nat → List Bool → List Nat
  | _, [] => []
  | r, v :: vs => if v then r :: validRows (r + 1) vs else validRows (r + 1) vs

/-- Evaluating finish (`crates/sail-function/src/scalar/array/spark_array_aggregate.rs` 340-351). -/
def evalFinish (finish : Nat → σ → Option (Option τ)) : List Nat → List σ → Option (List (Option τ))
  | r :: rs, a :: as =>
    match finish r a, evalFinish finish rs as with
    | some y, some ys => some (y :: ys)
    | _, _ => none
  | _, _ => some []

/-- `aggregate_offsets` (`crates/sail-function/src/scalar/array/spark_array_aggregate.rs` 258-338) on
a batch with the start values `zeros` of its rows. -/
def aggregateInvoke (merge : Nat → σ → α → Option σ) (finish : Nat → σ → Option (Option τ))
    (cells : List (Option (List α))) (zeros : List σ) : Option (List (Option τ)) :=
  match mergeDepths merge (flatValues cells) (adjOffsets cells) (validity cells) 0
      (maxRow (adjOffsets cells) (validity cells)) zeros with
  | none => none
  | some acc =>
    let rows := validRows 0 (validity cells)
    if rows.isEmpty then some (cells.map (fun _ => none))
    else if rows.length = cells.length then evalFinish finish (List.range cells.length) acc
    else
      match arrowTake acc rows with
      | none => none
      | some as =>
        match evalFinish finish rows as with
        | none => none
        | some fs => scatterFrom (cells.map (fun _ => (none : Option τ))) 0 rows fs

end Verif.Arrays
