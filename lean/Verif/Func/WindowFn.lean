import Verif.Func.ListArray
/-!
# Window functions: `ntile`, `first_value`, `last_value`
-/
namespace Verif.Func.WindowFn

/-- The argument of `ntile` (`crates/sail-function/src/window/spark_ntile.rs` 64-86): a literal,
NULL, or something that is not a literal. -/
inductive Arg where
  | notLiteral
  | null
  | int (n : Int)
deriving DecidableEq, Repr

/-- `partition_evaluator` (`spark_ntile.rs` 64-87): the number of buckets, or the error. -/
def ntileArg : Arg → Except Unit Nat
  | .notLiteral => .error ()
  | .null => .error ()
  | .int n => if n ≤ 0 then .error () else .ok n.toNat

/-- The bucket of row `i` (`spark_ntile.rs` 117-125).  The products are at most the number of rows,
so the 64-bit arithmetic does not wrap. -/
def bucket (base extra i : Nat) : Nat :=
  let threshold := extra * (base + 1)
  if i < threshold then i / (base + 1) else extra + (i - threshold) / base

/-- `evaluate_all` (`spark_ntile.rs` 100-129). -/
def ntile (n rows : Nat) : List Nat :=
  if rows = 0 then [] else
    let m := min n rows
    (List.range rows).map fun i => bucket (rows / m) (rows % m) i + 1

/-- `SparkFirstLastValueKind` (`crates/sail-function/src/window/spark_first_last_value.rs` 24-28). -/
inductive Kind where
  | first
  | last
deriving DecidableEq, Repr

variable {α : Type}

/-- The positions of the non-NULL values of a slice, `valid_indices`
(`spark_first_last_value.rs` 166-169). -/
def validIndices (slice : List (Option α)) : List Nat :=
  (List.range slice.length).filter fun i => (slice[i]?.join).isSome

/-- `valid_index` (`spark_first_last_value.rs` 149-171). -/
def validIndex (kind : Kind) (ignoreNulls : Bool) (a : List (Option α)) (start stop : Nat) :
    Option Nat :=
  let slice := (a.drop start).take (stop - start)
  if ignoreNulls && slice.any Option.isNone then
    match kind with
    | .first => (validIndices slice).head?.map (· + start)
    | .last => (validIndices slice).getLast?.map (· + start)
  else
    match kind with
    | .first => some start
    | .last => some (stop - 1)

/-- `evaluate` (`spark_first_last_value.rs` 128-137): the value for one row, given the frame
`start..stop` of rows of its partition. -/
def evaluate (kind : Kind) (ignoreNulls : Bool) (a : List (Option α)) (start stop : Nat) : Option α :=
  if start = stop then none else
    match validIndex kind ignoreNulls a start stop with
    | none => none
    | some i => (a[i]?).join

/-- `reverse_expr` (`spark_first_last_value.rs` 104-113). -/
def reverse : Kind → Kind
  | .first => .last
  | .last => .first

end Verif.Func.WindowFn
