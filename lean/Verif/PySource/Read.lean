/-!
# Reading from a Python data source

`run_python_reader` and `RowBatchCollector` in
`crates/sail-data-source/src/formats/python/stream.rs`. `T` is a tuple yielded by the reader, `R` a
row. The consumer is taken to read the stream to its end.
-/

namespace Verif.PySource.Read

/-- What `__next__` gives: a record batch, with a schema that is the expected one or not, a tuple, or
an exception other than `StopIteration`. -/
inductive Item (T R : Type)
  | batch (schemaOk : Bool) (rows : List R)
  | tuple (t : T)
  | raise (e : String)

/-- `convert_rows_to_batch` (`arrow_utils.rs:473-508`): all rows, or an error if one does not fit the
schema. -/
def convert {T R : Type} (conv : T → Except String R) : List T → Except String (List R)
  | [] => .ok []
  | t :: ts =>
    match conv t with
    | .error e => .error e
    | .ok r => match convert conv ts with | .error e => .error e | .ok rs => .ok (r :: rs)

/-- `RowBatchCollector::flush` (`stream.rs:373-381`). -/
def flush {T R : Type} (conv : T → Except String R) (buf : List T) : Except String (Option (List R)) :=
  match buf with
  | [] => .ok none
  | t :: ts => match convert conv (t :: ts) with | .error e => .error e | .ok rs => .ok (some rs)

/-- The loop of `run_python_reader` (`stream.rs:205-291`) from the tuples collected and the items to
come; the end of the items is `StopIteration`. The result is what is sent to the consumer. An error
that leaves the closure is sent as well (306-308). -/
def readLoop {T R : Type} (conv : T → Except String R) (size : Nat) : List T → List (Item T R) → List (Except String (List R))
  | buf, [] =>
    match flush conv buf with
    | .error e => [.error e]
    | .ok none => []
    | .ok (some b) => [.ok b]
  | _, .raise e :: _ => [.error e]
  | buf, .batch schemaOk rows :: r => if schemaOk then .ok rows :: readLoop conv size buf r else [.error "schema"]
  | buf, .tuple t :: r =>
    if size ≤ (buf ++ [t]).length then
      match flush conv (buf ++ [t]) with
      | .error e => [.error e]
      | .ok none => readLoop conv size [] r
      | .ok (some b) => .ok b :: readLoop conv size [] r
    else readLoop conv size (buf ++ [t]) r

/-- The stream of a partition. -/
def read {T R : Type} (conv : T → Except String R) (size : Nat) (items : List (Item T R)) : List (Except String (List R)) :=
  readLoop conv size [] items

end Verif.PySource.Read
