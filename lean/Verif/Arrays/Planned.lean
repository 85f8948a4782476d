/-!
# Array functions that are planned as expressions over DataFusion's functions

`crates/sail-plan/src/function/scalar/array.rs`.  An array is a list of values that may be NULL,
NULL itself is `none`.  DataFusion's own functions are modelled by their documented meaning.
-/
namespace Verif.Arrays

variable {α : Type}

/-- What a row evaluates to: a value that may be NULL, or an error that fails the query. -/
inductive Outcome (β : Type) where
  | value (v : Option β)
  | error
deriving Repr, DecidableEq

/-! ## DataFusion's functions -/

/-- `adjusted_from_index` of `array_slice`: the 0-based index of the first element, counted from the
end when negative and clamped to the beginning; `none` when it is past the end. -/
def sliceFrom (i : Int) (len : Nat) : Option Nat :=
  let z : Int := if i < 0 then (if i < -(len : Int) then 0 else i + len) else (if i - 1 < 0 then 0 else i - 1)
  if 0 ≤ z ∧ z < len then some z.toNat else none

/-- `adjusted_to_index` of `array_slice`: the 0-based index of the last element, at most the last of
the array; `none` when it is before the beginning. -/
def sliceTo (i : Int) (len : Nat) : Option Nat :=
  let z : Int := if i < 0 then i + len else (if i - 1 < (len : Int) - 1 then i - 1 else (len : Int) - 1)
  if 0 ≤ z ∧ z < len then some z.toNat else none

/-- `array_slice(array, from, to)` of DataFusion, called in
`crates/sail-plan/src/function/scalar/array.rs` 97, 213, 215. -/
def dfSlice (xs : List (Option α)) (i j : Int) : List (Option α) :=
  match sliceFrom i xs.length, sliceTo j xs.length with
  | some a, some b => if a ≤ b then (xs.drop a).take (b - a + 1) else []
  | _, _ => []

/-- `array_element(array, index)` of DataFusion, called in
`crates/sail-plan/src/function/scalar/array.rs` 155: 1-based, from the end when negative. -/
def dfElement (xs : List (Option α)) (i : Int) : Option α :=
  if 0 < i then (xs[(i - 1).toNat]?).getD none
  else if i < 0 ∧ 0 ≤ (xs.length : Int) + i then (xs[((xs.length : Int) + i).toNat]?).getD none
  else none

/-- `array_repeat(element, count)` of DataFusion: nothing for a count that is not positive. -/
def dfRepeat (v : Option α) (n : Int) : List (Option α) := List.replicate n.toNat v

/-- `array_has(array, element)` of DataFusion: NULL for a NULL element; a NULL in the array is equal
to nothing. -/
def dfHas [DecidableEq α] (xs : List (Option α)) (x : Option α) : Option Bool :=
  match x with
  | none => none
  | some x => some (xs.contains (some x))

/-- `array_has_any(left, right)` of DataFusion, which compares row encodings: NULL is equal to
NULL. -/
def dfHasAny [DecidableEq α] (xs ys : List (Option α)) : Bool :=
  xs.any (fun x : Option α => ys.contains x)

/-! ## Sail's expressions -/

/-- `pos_from_zero` of array_insert (`crates/sail-plan/src/function/scalar/array.rs` 177-182): a CASE
without ELSE, so NULL for a position that is 0 or NULL. -/
def posFromZero (len : Int) (pos : Option Int) : Option Int :=
  match pos with
  | none => none
  | some p => if 0 < p then some (p - 1) else if p < 0 then some (len + p + 1) else none

/-- The branches of array_insert for an index that is not NULL
(`crates/sail-plan/src/function/scalar/array.rs` 194-242). -/
def insertCase (xs : List (Option α)) (v : Option α) (p : Int) : Option (List (Option α)) :=
  let len : Int := xs.length
  if p < 0 then some (dfRepeat v 1 ++ dfRepeat none (-p) ++ xs)
  else if p = 0 then some (v :: xs)
  else if 1 ≤ p ∧ p ≤ len - 1 then
    some (dfSlice xs 1 p ++ dfRepeat v 1 ++ dfSlice xs (p + 1) len)
  else if p = len then some (xs ++ [v])
  else if len < p then some (xs ++ dfRepeat none (p - len) ++ dfRepeat v 1)
  else none

/-- array_insert (`crates/sail-plan/src/function/scalar/array.rs` 169-243).  The branches of the CASE
in order; `array_length` of an empty array is 0. -/
def arrayInsert (array : Option (List (Option α))) (pos : Option Int) (v : Option α) :
    Outcome (List (Option α)) :=
  match array with
  | none => .value none
  | some xs =>
    match posFromZero xs.length pos with
    | none => .error
    | some p => .value (insertCase xs v p)

/-- arrays_overlap (`crates/sail-plan/src/function/scalar/array.rs` 245-278). -/
def arraysOverlap [DecidableEq α] (l r : Option (List (Option α))) : Option Bool :=
  match l, r with
  | some l, some r =>
    if dfHasAny l [none] || dfHasAny r [none] then
      (if dfHasAny (l.filter Option.isSome) (r.filter Option.isSome) then some true else none)
    else some (dfHasAny l r)
  | _, _ => none

/-- array_contains (`crates/sail-plan/src/function/scalar/array.rs` 158-163): `coalesce` of
`array_has` and FALSE for an array that is not NULL. -/
def arrayContains [DecidableEq α] (array : Option (List (Option α))) (x : Option α) : Option Bool :=
  match array with
  | none => none
  | some xs =>
    match dfHas xs x with
    | some b => some b
    | none => some false

/-- slice (`crates/sail-plan/src/function/scalar/array.rs` 85-100). -/
def sparkSlice (array : Option (List (Option α))) (start length : Option Int) :
    Option (List (Option α)) :=
  match array, start, length with
  | some xs, some s, some n => some (dfSlice xs s (s + n - 1))
  | _, _, _ => none

/-- get (`crates/sail-plan/src/function/scalar/array.rs` 154-156, 529). -/
def sparkGet (array : Option (List (Option α))) (i : Option Int) : Option α :=
  match array, i with
  | some xs, some i => dfElement xs (i + 1)
  | _, _ => none

end Verif.Arrays
