/-!
# Writing through a Python data source

`write_exec.rs`, `commit_exec.rs` and `executor.rs` in
`crates/sail-data-source/src/formats/python`. `R` is a row, `M` a commit message.
-/

namespace Verif.PySource.Write

/-! ## One partition -/

/-- What polling the input of a partition gives: a batch, an error, or a panic. -/
inductive In (R : Type)
  | batch (rows : List R)
  | err (e : String)
  | panic

/-- How the iterator handed to Python ends: with `StopIteration`, or with an exception. -/
inductive End
  | finished
  | raised (e : String)
deriving DecidableEq, Repr

/-- The pump (`executor.rs:523-532`) and the iterator (`executor.rs:772-843`): the rows Python gets
before the end, and the end. An error of the input is raised. The pump is a task of its own; when
polling the input panics, the task is gone, the channel is closed, and the iterator takes this for
the end of the data (837-840); that the task failed is not looked at (598). Empty batches give no
rows. -/
def pump {R : Type} : List (In R) → List R × End
  | [] => ([], .finished)
  | .batch b :: r => (b ++ (pump r).1, (pump r).2)
  | .err e :: _ => ([], .raised e)
  | .panic :: _ => ([], .finished)

/-- A row of the result of the write stage (`write_exec.rs:32-57`). -/
structure WRow (M : Type) where
  pid : Nat
  msg : Option M
  err : Option String
deriving DecidableEq, Repr

/-- `PythonDataSourceWriteExec::execute` (`write_exec.rs:148-191`) for partition `pid`. `writer` is
what the writer's `write` does with the rows; it reads its input to the end and lets an exception of
the iterator pass. -/
def writeResult {R M : Type} (writer : List R → Except String (Option M)) (pid : Nat) (input : List (In R)) : WRow M :=
  match pump input with
  | (_, .raised e) => ⟨pid, none, some e⟩
  | (rows, .finished) =>
    match writer rows with
    | .ok m => ⟨pid, m, none⟩
    | .error e => ⟨pid, none, some e⟩

/-- The results of all partitions, numbered in order. -/
def writeResults {R M : Type} (writer : List R → Except String (Option M)) (inputs : List (List (In R))) : List (WRow M) :=
  inputs.zipIdx.map (fun x => writeResult writer x.2 x.1)

/-! ## Commit -/

/-- A batch of results: a batch without the expected columns, or rows. -/
inductive WBatch (M : Type)
  | bad (e : String)
  | rows (l : List (WRow M))

/-- The variables of the loop (`commit_exec.rs:144-146`). -/
structure CState (M : Type) where
  msgs : List (Option M)
  seen : List Bool
  first : Option String

/-- `if first_error.is_none() { first_error = … }`. -/
def CState.fail {M : Type} (s : CState M) (e : String) : CState M :=
  { s with first := match s.first with | some f => some f | none => some e }

/-- One row of `decode_write_result_batch` (`commit_exec.rs:259-300`). -/
def decodeRow {M : Type} (s : CState M) (row : WRow M) : CState M :=
  if s.msgs.length ≤ row.pid then s.fail s!"Invalid partition id {row.pid} in write result"
  else if s.seen[row.pid]?.getD false then s.fail s!"Duplicate write result for partition {row.pid}"
  else
    match row.err with
    | some e =>
      { (s.fail s!"Write failed for partition {row.pid}: {e}") with seen := s.seen.set row.pid true, msgs := s.msgs.set row.pid none }
    | none => { s with seen := s.seen.set row.pid true, msgs := s.msgs.set row.pid row.msg }

/-- The loop over the results (`commit_exec.rs:149-169`): an error of the stream ends it, a batch that
cannot be decoded does not. -/
def collect {M : Type} : CState M → List (Except String (WBatch M)) → CState M
  | s, [] => s
  | s, .error e :: _ => s.fail e
  | s, .ok (.bad e) :: r => collect (s.fail e) r
  | s, .ok (.rows l) :: r => collect (l.foldl decodeRow s) r

/-- The check for missing results (`commit_exec.rs:171-178`). -/
def missing {M : Type} (s : CState M) : CState M :=
  s.seen.zipIdx.foldl (fun (s : CState M) (x : Bool × Nat) =>
    if x.1 then s else s.fail s!"Missing write result for partition {x.2}") s

/-- A call of a method of the Python writer. -/
inductive Call (M : Type)
  | commit (msgs : List (Option M))
  | abort (msgs : List (Option M))
deriving DecidableEq, Repr

/-- `PythonDataSourceWriteCommitExec::execute` (`commit_exec.rs:142-201`): the calls made, and the
result of the query. `commit` is what the writer's `commit` does. -/
def run {M : Type} (expected : Nat) (stream : List (Except String (WBatch M)))
    (commit : List (Option M) → Except String Unit) : List (Call M) × Except String Unit :=
  let s := missing (collect ⟨List.replicate expected none, List.replicate expected false, none⟩ stream)
  match s.first with
  | some e => ([.abort s.msgs], .error e)
  | none =>
    match commit s.msgs with
    | .ok _ => ([.commit s.msgs], .ok ())
    | .error e => ([.commit s.msgs, .abort s.msgs], .error e)

end Verif.PySource.Write
