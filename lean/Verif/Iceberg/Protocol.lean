import Verif.Iceberg.Snapshot

/-!
Concurrent commits to an Iceberg table kept in a directory ("path table"):
crates/sail-iceberg/src/physical_plan/commit/commit_exec.rs:604-1240, table/metadata_loader.rs:21-118,
operations/bootstrap.rs:72-109, utils/metadata.rs:9-23.

Writers are processes. Every request to the object store is one atomic step; the store is strongly
consistent, and a create-only put fails if the file is there. Metadata files all have the same
extension, so a version has one name, and the check after the write (commit_exec.rs:1163-1187) finds
nothing else.
-/

namespace Verif.Iceberg.Protocol

/-- What the protocol needs to know of tables `M` and changes `C`. -/
structure Ops (M C : Type) where
  /-- One attempt on top of given metadata; `none` is an error that ends the commit. -/
  apply : M → C → Option M
  /-- The first metadata of a table. -/
  first : C → Option M
  /-- Whether there is a current snapshot. -/
  hasSnap : M → Bool

/-- Where a writer is. -/
inductive Pc (M : Type) where
  /-- About to read the version hint. -/
  | start
  /-- The hint was read; about to list the directory. -/
  | hinted (h : Option Nat)
  /-- A version was selected; about to load it. -/
  | selected (v : Nat)
  /-- The version was loaded and the new metadata computed; about to look for the next version. -/
  | loaded (v : Nat) (m : M)
  /-- No next version was seen; about to create it. -/
  | checked (v : Nat) (m : M)
  /-- The version has no snapshot; about to write the next one. -/
  | boot (v : Nat) (m : M)
  /-- There is no table; about to write version 1. -/
  | create (m : M)
  /-- The metadata file of the version is written; about to write the hint. -/
  | written (v : Nat)
  /-- The commit returned. -/
  | done (v : Nat)
  | failed
  | crashed
  deriving DecidableEq, Repr

/-- A writer: its change, the number of the attempt, where it is. -/
structure Proc (M C : Type) where
  change : C
  attempt : Nat
  pc : Pc M
  deriving DecidableEq, Repr

/-- The store and the writers; `order` records who wrote a metadata file, for the proofs only. -/
structure St (M C : Type) where
  files : List (Nat × M)
  hint : Option Nat
  procs : List (Proc M C)
  order : List Nat
  deriving DecidableEq, Repr

variable {M C : Type}

/-- The content of the metadata file of a version. -/
def at? (fs : List (Nat × M)) (v : Nat) : Option M := (fs.find? fun f => f.1 == v).map Prod.snd

/-- Writing a file, over one that may be there. -/
def putFile (v : Nat) (m : M) (fs : List (Nat × M)) : List (Nat × M) :=
  (v, m) :: fs.filter fun f => f.1 != v

/-- The choice of `find_latest_metadata_file`, metadata_loader.rs:60-118, for a numeric hint: the
hinted version if its file is there, else the greatest. -/
def select (h : Option Nat) (fs : List (Nat × M)) : Option Nat :=
  match h.filter fun v => (at? fs v).isSome with
  | some v => some v
  | none => (fs.map Prod.fst).max?

/-- What happens at a step: the writer goes on, the writer dies, the write of the hint fails. -/
inductive Choice where
  | go
  | crash
  | hintFails
  deriving DecidableEq, Repr

/-- `MAX_COMMIT_RETRIES`, commit_exec.rs:63. -/
def maxAttempts : Nat := 5

/-- The writer after a conflict: another attempt or an error, commit_exec.rs:933-946, 1144-1157. -/
def retry (p : Proc M C) : Proc M C :=
  if maxAttempts ≤ p.attempt then { p with pc := .failed }
  else { p with attempt := p.attempt + 1, pc := .start }

/-- Put a writer back. -/
def setProc (s : St M C) (i : Nat) (p : Proc M C) : St M C := { s with procs := s.procs.set i p }

/-- The writer once the version was loaded, commit_exec.rs:707-710, 782-790. -/
def afterLoad (T : Ops M C) (p : Proc M C) (v : Nat) (m : Option M) : Proc M C :=
  match m with
  | none => { p with pc := .failed }
  | some m =>
    match T.apply m p.change with
    | none => { p with pc := .failed }
    | some m' => { p with pc := if T.hasSnap m then .loaded v m' else .boot v m' }

/-- The writer once the directory was listed; without any file it makes a new table,
commit_exec.rs:638-700. -/
def afterList (T : Ops M C) (p : Proc M C) (v : Option Nat) : Proc M C :=
  match v with
  | some v => { p with pc := .selected v }
  | none =>
    match T.first p.change with
    | none => { p with pc := .failed }
    | some m => { p with pc := .create m }

/-- One step of one writer, commit_exec.rs:614-1240; the first snapshot of a table and the table itself
are written without looking, bootstrap.rs:72-109. -/
def advance (T : Ops M C) (s : St M C) (i : Nat) (p : Proc M C) (ch : Choice) : St M C :=
  match p.pc with
  | .start => setProc s i { p with pc := .hinted s.hint }
  | .hinted h => setProc s i (afterList T p (select h s.files))
  | .selected v => setProc s i (afterLoad T p v (at? s.files v))
  | .loaded v m =>
    if (at? s.files (v + 1)).isSome then setProc s i (retry p)
    else setProc s i { p with pc := .checked v m }
  | .checked v m =>
    if (at? s.files (v + 1)).isSome then setProc s i (retry p)
    else
      { setProc s i { p with pc := .written (v + 1) } with
        files := putFile (v + 1) m s.files, order := s.order ++ [i] }
  | .boot v m =>
    { setProc s i { p with pc := .written (v + 1) } with
      files := putFile (v + 1) m s.files, order := s.order ++ [i] }
  | .create m =>
    { setProc s i { p with pc := .written 1 } with
      files := putFile 1 m s.files, order := s.order ++ [i] }
  | .written v =>
    { setProc s i { p with pc := .done v } with
      hint := if ch = .hintFails then s.hint else some v }
  | .done _ => s
  | .failed => s
  | .crashed => s

/-- A step. -/
def step (T : Ops M C) (s : St M C) (e : Nat × Choice) : St M C :=
  match s.procs[e.1]? with
  | none => s
  | some p =>
    if e.2 = .crash then setProc s e.1 { p with pc := .crashed } else advance T s e.1 p e.2

/-- A run. -/
def run (T : Ops M C) (s : St M C) (es : List (Nat × Choice)) : St M C := es.foldl (step T) s

/-- A store with writers that have not begun. -/
def init (files : List (Nat × M)) (hint : Option Nat) (cs : List C) : St M C :=
  { files := files, hint := hint, order := []
    procs := cs.map fun c => ⟨c, 1, .start⟩ }

/-- The tables of `Verif.Iceberg.Commit`. A new table starts from metadata of version 2. -/
def tableOps : Ops Commit.Meta Commit.Change where
  apply := Commit.commit
  first := fun c => Commit.commit
    { fmt := 2, lastSeq := 0, specs := [0], nextRow := none, snapshots := [], current := none
      main := none } c
  hasSnap := fun m => (Commit.currentSnapshot m).isSome

namespace Spec

/-- The result of changes applied one after the other; `none` if one is refused. -/
def applied (T : Ops M C) (m : M) : List C → Option M
  | [] => some m
  | c :: cs => (T.apply m c).bind fun m' => applied T m' cs

/-- The version a reader who opens the table now gets. -/
def visible (s : St M C) : Option Nat := select s.hint s.files

/-- The version files begin with a table of version `n`, without gaps below it. -/
def StartsAt (T : Ops M C) (files : List (Nat × M)) (n : Nat) (m : M) : Prop :=
  at? files n = some m ∧ (∀ v, n < v → at? files v = none) ∧
  (∀ v, v < n → (at? files v).isSome → (at? files (v + 1)).isSome) ∧
  ∀ v x, at? files v = some x → T.hasSnap x = true

end Spec

end Verif.Iceberg.Protocol
