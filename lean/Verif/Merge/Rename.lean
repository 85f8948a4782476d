import Verif.Merge.Model

/-! # MERGE INTO: the renaming of columns

Source: `crates/sail-logical-plan/src/merge.rs:443-473, 583-745, 1986-2039` and
`crates/sail-plan/src/resolver/command/merge.rs:1380-1421`. -/

namespace Verif.Merge

open Verif.Opt (Row)

/-- `merge_name_key` (merge.rs:443-449). -/
def nameKey (caseSensitive : Bool) (n : Name) : Name := if caseSensitive then n else n.map lowerChar

/-- The decimal digits of a number. -/
def digitsGo : Nat → Nat → Name
  | 0, _ => []
  | fuel + 1, n => if n < 10 then [Char.ofNat (48 + n)] else digitsGo fuel (n / 10) ++ [Char.ofNat (48 + n % 10)]

/-- `format!("{suffix}")`. -/
def digits (n : Nat) : Name := digitsGo (n + 1) n

/-- The alias that is tried in a round of `collision_free_source_alias` (merge.rs:464-469). -/
def aliasAt (base : Name) : Nat → Name
  | 0 => base
  | k + 1 => base ++ '_' :: digits (k + 1)

/-- The loop of `collision_free_source_alias` (merge.rs:467-470), with a bound on the rounds; the bound used below, the
number of occupied names, is enough (`freeAlias_free`). -/
def freeAliasGo (cs : Bool) (base : Name) (occupied : List Name) : Nat → Nat → Name
  | 0, k => aliasAt base k
  | fuel + 1, k =>
    if occupied.contains (nameKey cs (aliasAt base k)) then freeAliasGo cs base occupied fuel (k + 1)
    else aliasAt base k

/-- `collision_free_source_alias` (merge.rs:459-473). -/
def freeAlias (cs : Bool) (name : Name) (occupied : List Name) : Name :=
  freeAliasGo cs ("__sail_src_".toList ++ name) occupied occupied.length 0

/-- The columns of a MERGE: internal identifiers and names of the data columns of target and source, and the metadata
columns of the target (path, row index, row id), which keep their names. -/
structure Columns where
  caseSensitive : Bool
  targetIds : List Name
  targetNames : List Name
  metadata : List Name
  sourceIds : List Name
  sourceNames : List Name

/-- The aliases of the source columns, in order (merge.rs:699-713). -/
def aliasesGo (cs : Bool) : List Name → List Name → List Name
  | _, [] => []
  | occupied, n :: ns =>
    freeAlias cs n occupied :: aliasesGo cs (nameKey cs (freeAlias cs n occupied) :: occupied) ns

/-- The names of the projected target plan (merge.rs:583-650): data columns, then metadata columns. -/
def Columns.targetFields (c : Columns) : List Name := c.targetNames ++ c.metadata

/-- The aliases of all source columns. -/
def Columns.aliases (c : Columns) : List Name :=
  aliasesGo c.caseSensitive (c.targetFields.map (nameKey c.caseSensitive)) c.sourceNames

/-- Looking up a key in a hash map that was filled by these insertions, in order. -/
def lookupLast (ins : List (Name × Name)) (n : Name) : Option Name := (ins.reverse.find? (fun p => p.1 == n)).map (·.2)

/-- The insertions into `target_rename_map` (merge.rs:665-696). -/
def Columns.targetMap (c : Columns) : List (Name × Name) :=
  c.targetIds.zip c.targetNames ++ c.metadata.map (fun m => (m, m))

/-- The insertions into `source_rename_map` (merge.rs:706-718): the name, then the identifier. -/
def Columns.sourceMap (c : Columns) : List (Name × Name) :=
  ((c.sourceIds.zip c.sourceNames).zip c.aliases).flatMap (fun p => [(p.1.2, p.2), (p.1.1, p.2)])

/-- The names of the projected source plan (merge.rs:722-740). -/
def Columns.sourceFields (c : Columns) : List Name :=
  c.sourceNames.map (fun n => (lookupLast c.sourceMap n).getD n)

/-- The name that a column reference has after `rewrite_merge_columns` (merge.rs:1986-2006). -/
def Columns.rewrite (c : Columns) (ref : Name) : Name :=
  match lookupLast c.targetMap ref with
  | some n => n
  | none => (lookupLast c.sourceMap ref).getD ref

/-- The names of the joined rows. -/
def Columns.joined (c : Columns) : List Name := c.targetFields ++ c.sourceFields

/-- The side of an unqualified name (`merge_disambiguate_unqualified_plan_ids`,
sail-plan/src/resolver/command/merge.rs:1398-1410): `some true` is the target, `some false` the source. -/
def sideOf (targetNames sourceNames : List Name) (cs : Bool) (n : Name) : Option Bool :=
  match targetNames.any (fun m => namesEqual cs m n), sourceNames.any (fun m => namesEqual cs m n) with
  | true, false => some true
  | false, true => some false
  | true, true => some true
  | false, false => none

/-- The names can be told apart: identifiers differ from each other and from all names, names of the target differ (up
to case, if it does not matter), and names of the source differ. -/
structure Columns.Ok (c : Columns) : Prop where
  targetLength : c.targetIds.length = c.targetNames.length
  sourceLength : c.sourceIds.length = c.sourceNames.length
  ids : (c.targetIds ++ c.sourceIds).Nodup
  named : ∀ n ∈ c.targetFields ++ c.sourceNames, n ∉ c.targetIds ++ c.sourceIds
  target : (c.targetFields.map (nameKey c.caseSensitive)).Nodup
  source : c.sourceNames.Nodup

end Verif.Merge
