import Verif.Iceberg.Protocol

/-!
Concurrent commits to an Iceberg table whose current metadata file is named by a catalog
("metadata location"): crates/sail-iceberg/src/physical_plan/commit/commit_exec.rs:604-1240,
catalog_support/commit.rs:228-257, crates/sail-catalog-memory/src/managed_table.rs:6-31.

Writers are processes and every request to the store or the catalog is one atomic step. Metadata files are
named `<version>-<uuid>`; the uuids are numbers that are never drawn twice. The version hint is not
modelled: nobody reads it while the catalog has a location.
-/

namespace Verif.Iceberg.Catalog

open Verif.Iceberg.Protocol (Ops Choice maxAttempts)

/-- The name of a metadata file: version and uuid. -/
abbrev Loc := Nat × Nat

/-- Where a writer is. -/
inductive Pc (M : Type) where
  /-- About to ask the catalog. -/
  | start
  /-- The location was read; about to load the file. -/
  | located (l : Loc)
  /-- The metadata was loaded and the new metadata computed; about to look for the next version. -/
  | loaded (l : Loc) (m : M)
  /-- No next version was seen; about to write it. -/
  | checked (l : Loc) (m : M)
  /-- The table has no snapshot; about to write the next version. -/
  | boot (l : Loc) (m : M)
  /-- The new file is written; about to look for others of the same version. -/
  | written (l new : Loc)
  /-- There are others; about to delete the own file. -/
  | conflicted (l new : Loc)
  /-- About to set the location from `l` to `new`. -/
  | confirmed (l new : Loc)
  /-- The catalog has no location and the directory is empty; about to write the first file. -/
  | create (m : M)
  /-- About to set the location, whatever it is. -/
  | created (new : Loc)
  | done (new : Loc)
  | failed
  | crashed
  deriving DecidableEq, Repr

/-- A writer: its change, the location in the properties of its plan, the number of the attempt, where it
is. -/
structure Proc (M C : Type) where
  change : C
  planned : Option Loc
  attempt : Nat
  pc : Pc M
  deriving DecidableEq, Repr

/-- The store, the catalog, the next uuid and the writers; `order` records whose locations the catalog
took, for the proofs only. -/
structure St (M C : Type) where
  files : List (Loc × M)
  loc : Option Loc
  fresh : Nat
  procs : List (Proc M C)
  order : List (Nat × Loc)
  deriving DecidableEq, Repr

variable {M C : Type}

/-- The content of a metadata file. -/
def at? (fs : List (Loc × M)) (l : Loc) : Option M := (fs.find? fun f => f.1 == l).map Prod.snd

/-- `metadata_files_for_version`, utils/metadata.rs:9-23. -/
def ofVersion (fs : List (Loc × M)) (v : Nat) : List Loc := (fs.map Prod.fst).filter fun l => l.1 == v

/-- The writer after a conflict, commit_exec.rs:943-945, 1182-1185. -/
def retry (p : Proc M C) : Proc M C :=
  if maxAttempts ≤ p.attempt then { p with pc := .failed }
  else { p with attempt := p.attempt + 1, pc := .start }

/-- Put a writer back. -/
def setProc (s : St M C) (i : Nat) (p : Proc M C) : St M C := { s with procs := s.procs.set i p }

/-- The location a writer starts from: in the first attempt that of its plan, else that of the catalog,
commit_exec.rs:606-614, 701-714. -/
def base (s : St M C) (p : Proc M C) : Option Loc :=
  if p.attempt = 1 then p.planned.or s.loc else s.loc

/-- The writer once it has a location; without any it makes a new table, commit_exec.rs:643-662. A
directory with files but without a location is not modelled: the commit fails here. -/
def afterBase (T : Ops M C) (s : St M C) (p : Proc M C) : Proc M C :=
  match base s p with
  | some l => { p with pc := .located l }
  | none =>
    if s.files.isEmpty then
      match T.first p.change with
      | none => { p with pc := .failed }
      | some m => { p with pc := .create m }
    else { p with pc := .failed }

/-- The writer once the metadata was loaded, commit_exec.rs:716-790. -/
def afterLoad (T : Ops M C) (p : Proc M C) (l : Loc) (m : Option M) : Proc M C :=
  match m with
  | none => { p with pc := .failed }
  | some m =>
    match T.apply m p.change with
    | none => { p with pc := .failed }
    | some m' => { p with pc := if T.hasSnap m then .loaded l m' else .boot l m' }

/-- The put of a new file by writer `i`, which then is `p`. -/
def putNew (s : St M C) (i : Nat) (p : Proc M C) (v : Nat) (m : M) : St M C :=
  { setProc s i p with files := ((v, s.fresh), m) :: s.files, fresh := s.fresh + 1 }

/-- The catalog takes location `new` of writer `i`. -/
def take (s : St M C) (i : Nat) (p : Proc M C) (new : Loc) : St M C :=
  { setProc s i { p with pc := .done new } with loc := some new, order := s.order ++ [(i, new)] }

/-- One step of one writer: commit_exec.rs:926-946 (look), 1131-1143 (put), 1163-1187 (look again and
delete), bootstrap.rs:72-109 (first snapshot, put without looking), managed_table.rs:6-31 (the location
changes only if it is the expected one; a conflict is an error, commit_exec.rs:1203-1211), 655-662 (a new
table has no expected location). -/
def advance (T : Ops M C) (s : St M C) (i : Nat) (p : Proc M C) : St M C :=
  match p.pc with
  | .start => setProc s i (afterBase T s p)
  | .located l => setProc s i (afterLoad T p l (at? s.files l))
  | .loaded l m =>
    if (ofVersion s.files (l.1 + 1)).isEmpty then setProc s i { p with pc := .checked l m }
    else setProc s i (retry p)
  | .checked l m =>
    putNew s i { p with pc := .written l (l.1 + 1, s.fresh) } (l.1 + 1) m
  | .boot l m =>
    putNew s i { p with pc := .confirmed l (l.1 + 1, s.fresh) } (l.1 + 1) m
  | .written l new =>
    if (ofVersion s.files new.1).any fun x => x != new then
      setProc s i { p with pc := .conflicted l new }
    else setProc s i { p with pc := .confirmed l new }
  | .conflicted _ new =>
    { setProc s i (retry p) with files := s.files.filter fun f => f.1 != new }
  | .confirmed l new =>
    if s.loc = some l then take s i p new else setProc s i { p with pc := .failed }
  | .create m => putNew s i { p with pc := .created (0, s.fresh) } 0 m
  | .created new => take s i p new
  | .done _ => s
  | .failed => s
  | .crashed => s

/-- A step; a writer can die before any step. -/
def step (T : Ops M C) (s : St M C) (e : Nat × Choice) : St M C :=
  match s.procs[e.1]? with
  | none => s
  | some p => if e.2 = .crash then setProc s e.1 { p with pc := .crashed } else advance T s e.1 p

/-- A run. -/
def run (T : Ops M C) (s : St M C) (es : List (Nat × Choice)) : St M C := es.foldl (step T) s

/-- A store and a catalog with writers that have not begun; a writer has its change and the location in
the properties of its plan. -/
def init (files : List (Loc × M)) (loc : Option Loc) (fresh : Nat) (cs : List (C × Option Loc)) :
    St M C :=
  { files := files, loc := loc, fresh := fresh, order := []
    procs := cs.map fun c => ⟨c.1, c.2, 1, .start⟩ }

/-! ### Tables in a directory that are also recorded in the catalog of the session -/

/-- A path table whose metadata location is recorded in the catalog: the state of the commit protocol,
the recorded version, and for every writer the version that was recorded when it began
(commit_exec.rs:606-611) and the result of its commit. -/
structure RSt (M C : Type) where
  inner : Protocol.St M C
  recorded : Option Nat
  seen : List (Option (Option Nat))
  result : List (Option Bool)

/-- A step: the commit, and after it the update of the recorded location, with the location that was
recorded at the beginning as precondition, commit_exec.rs:1212-1221, managed_table.rs:6-31. -/
def rstep (T : Ops M C) (s : RSt M C) (e : Nat × Choice) : RSt M C :=
  match s.inner.procs[e.1]? with
  | none => s
  | some p =>
    match p.pc with
    | .done v =>
      match s.seen[e.1]?.join with
      | some (some x) =>
        if s.recorded = some x then
          { s with recorded := some v, result := s.result.set e.1 (some true) }
        else { s with result := s.result.set e.1 (some false) }
      | _ => { s with recorded := some v, result := s.result.set e.1 (some true) }
    | .start =>
      { s with
        inner := Protocol.step T s.inner e
        seen := if p.attempt = 1 then s.seen.set e.1 (some s.recorded) else s.seen }
    | _ => { s with inner := Protocol.step T s.inner e }

/-- A run. -/
def rrun (T : Ops M C) (s : RSt M C) (es : List (Nat × Choice)) : RSt M C := es.foldl (rstep T) s

/-- The beginning. -/
def rinit (files : List (Nat × M)) (hint recorded : Option Nat) (cs : List C) : RSt M C :=
  { inner := Protocol.init files hint cs, recorded := recorded
    seen := cs.map fun _ => none, result := cs.map fun _ => none }

namespace Spec

/-- A table at location `l`: the file is there, no file has a greater version, the uuids that will be
drawn are new, and the plans of the writers know no location or this one. -/
def StartsAt (files : List (Loc × M)) (l : Loc) (fresh : Nat) (m : M) (cs : List (C × Option Loc)) :
    Prop :=
  at? files l = some m ∧ (∀ f ∈ files, f.1.2 < fresh) ∧
  ∀ c ∈ cs, c.2 = none ∨ c.2 = some l

end Spec

end Verif.Iceberg.Catalog
