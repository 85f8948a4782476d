import Verif.Catalog.Assoc
import Verif.Catalog.Memory
import Verif.Base.Sort

/-!
# User functions and tracked objects

`sail-catalog/src/manager/function.rs` and `sail-catalog/src/manager/tracker.rs`. The check that
the database of a listing exists (`get_database_by_qualifier`) is left out; the pattern of a
listing is a test on names.
-/

namespace Verif.Catalog

/-- A user function: its own name and the rest (`ScalarUDF`). -/
structure Udf (α : Type) where
  name : Name
  body : α
deriving DecidableEq

/-- `FunctionStatus` (sail-common-datafusion/src/catalog/status.rs:38-70): `info` is empty for
the status that `temporary` makes up for a user function. -/
structure FunctionStatus (α : Type) where
  name : Name
  info : Option α
deriving DecidableEq

variable {α : Type}

/-- `canonical_function_name` (function.rs:13-15): `to_ascii_lowercase`. -/
def canonicalName (n : Name) : Name := n.map Char.toLower

/-- The functions of a session. -/
abbrev Functions (α : Type) := List (Name × Udf α)

/-- `register_function` (function.rs:17-22). -/
def registerFunction (fs : Functions α) (u : Udf α) : Functions α := put fs (canonicalName u.name) u

/-- `get_function` (function.rs:24-28). -/
def getFunction (fs : Functions α) (n : Name) : Option (Udf α) := find fs (canonicalName n)

/-- `deregister_function` (function.rs:104-125). -/
def deregisterFunction (fs : Functions α) (ref : List Name) (ifExists : Bool) :
    Except Err Unit × Functions α :=
  match ref with
  | [n] =>
    let found := (find fs (canonicalName n)).isSome
    (if !found && !ifExists then .error (.notFound .function) else .ok (),
      erase fs (canonicalName n))
  | _ => (.error .notSupported, fs)

/-- `Ord` for `str`: the bytes of UTF-8 are ordered as the code points are. -/
def nameLe : Name → Name → Bool
  | [], _ => true
  | _ :: _, [] => false
  | a :: as, b :: bs =>
    if a.toNat < b.toNat then true else if b.toNat < a.toNat then false else nameLe as bs

/-- `Vec::dedup_by` with equality of names: the first of equal neighbours stays. -/
def dedupAfter (last : Name) : List (FunctionStatus α) → List (FunctionStatus α)
  | [] => []
  | f :: fs => if f.name = last then dedupAfter last fs else f :: dedupAfter f.name fs

/-- `Vec::dedup_by`. -/
def dedupNames : List (FunctionStatus α) → List (FunctionStatus α)
  | [] => []
  | f :: fs => f :: dedupAfter f.name fs

/-- `list_functions` (function.rs:30-61). -/
def listFunctions (fs : Functions α) (keep : Name → Bool) (system : List (FunctionStatus α))
    (showUser showSystem : Bool) : List (FunctionStatus α) :=
  let sys := if showSystem then system.filter fun f => keep f.name else []
  let user : List (FunctionStatus α) :=
    if showUser then ((fs.map (·.1)).filter keep).map fun n => ⟨n, none⟩ else []
  dedupNames ((sys ++ user).insSort fun a b => nameLe a.name b.name)

/-- `get_function_status` (function.rs:63-92). -/
def getFunctionStatus (fs : Functions α) (ref : List Name) (system : List (FunctionStatus α)) :
    Except Err (FunctionStatus α) :=
  match ref with
  | [] => .error .invalidArgument
  | [n] =>
    let n := canonicalName n
    if (find fs n).isSome then .ok ⟨n, none⟩
    else
      match system.find? fun f => canonicalName f.name = n with
      | some f => .ok f
      | none => .error (.notFound .function)
  | _ => .error (.notFound .function)

/-- What happens to the functions of a session. -/
inductive FunctionEvent (α : Type)
  | register (u : Udf α)
  | drop (ref : List Name) (ifExists : Bool)

/-- One event. -/
def Functions.step (fs : Functions α) : FunctionEvent α → Functions α
  | .register u => registerFunction fs u
  | .drop ref ie => (deregisterFunction fs ref ie).2

/-- Events one after another. -/
def Functions.run (fs : Functions α) (evs : List (FunctionEvent α)) : Functions α :=
  evs.foldl (fun fs e => Functions.step fs e) fs

/-! ## The tracker -/

/-- `CatalogObjectTrackerState` (tracker.rs:16-21); the counters are of type `u64`. -/
structure Tracker (α β : Type) where
  nextFunction : Nat
  nextPlan : Nat
  functions : List (Nat × α)
  plans : List (Nat × β)

variable {β : Type}

/-- `track_function` (tracker.rs:39-45). The counter wraps around as in a release build. -/
def Tracker.trackFunction (t : Tracker α β) (f : α) : Nat × Tracker α β :=
  (t.nextFunction, { t with
    nextFunction := (t.nextFunction + 1) % 2 ^ 64
    functions := put t.functions t.nextFunction f })

/-- `get_tracked_function` (tracker.rs:47-54). -/
def Tracker.getFunction (t : Tracker α β) (id : Nat) : Option α := find t.functions id

/-- `track_logical_plan` (tracker.rs:56-65). -/
def Tracker.trackPlan (t : Tracker α β) (p : β) : Nat × Tracker α β :=
  (t.nextPlan, { t with
    nextPlan := (t.nextPlan + 1) % 2 ^ 64
    plans := put t.plans t.nextPlan p })

/-- `get_tracked_logical_plan` (tracker.rs:67-77). -/
def Tracker.getPlan (t : Tracker α β) (id : Nat) : Option β := find t.plans id

/-- `CatalogObjectTracker::default`. -/
def Tracker.init : Tracker α β := ⟨0, 0, [], []⟩

/-- Objects handed over one after another; the numbers they get. -/
def Tracker.run (t : Tracker α β) : List (Sum α β) → List Nat × Tracker α β
  | [] => ([], t)
  | .inl f :: os =>
    let a := t.trackFunction f
    let b := a.2.run os
    (a.1 :: b.1, b.2)
  | .inr p :: os =>
    let a := t.trackPlan p
    let b := a.2.run os
    (a.1 :: b.1, b.2)

end Verif.Catalog
