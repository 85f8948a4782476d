import Verif.Merge.Model

/-! # MERGE INTO: the analysis of the source query

Source: `crates/sail-logical-plan/src/merge.rs:1481-1612`. -/

namespace Verif.Merge

open Verif.Opt (Row)

variable {α : Type} [DecidableEq α]

/-- An expression of a projection: a column, a column with an alias, or anything else. -/
inductive Item (α : Type) where
  | column (n : Name)
  | aliasOf (n : Name)
  | other (f : Row α → Option α)

/-- The value of an expression of a projection. -/
def Item.eval (names : List Name) (r : Row α) : Item α → Option α
  | .column n | .aliasOf n => colAt names r n
  | .other f => f r

/-- A grouping expression: a column, or anything else with the name of its output column. -/
inductive Group (α : Type) where
  | column (n : Name)
  | other (name : Name) (f : Row α → Option α)

/-- The name of the output column of a grouping expression. -/
def Group.name : Group α → Name
  | .column n => n
  | .other n _ => n

/-- The value of a grouping expression. -/
def Group.eval (names : List Name) (r : Row α) : Group α → Option α
  | .column n => colAt names r n
  | .other _ f => f r

/-- A source query: the operators that the analysis looks through, over any other plan (`leaf`, with its rows). -/
inductive Src (α : Type) where
  | leaf (names : List Name) (rows : List (Row α))
  | alias (input : Src α)
  | filter (p : Row α → Option Bool) (input : Src α)
  | project (items : List (Name × Item α)) (input : Src α)
  | aggregate (groups : List (Group α)) (aggs : List (Name × (List (Row α) → Option α))) (input : Src α)

/-- The names of the columns of a plan. -/
def Src.names : Src α → List Name
  | .leaf ns _ => ns
  | .alias s => s.names
  | .filter _ s => s.names
  | .project items _ => items.map (·.1)
  | .aggregate gs aggs _ => gs.map Group.name ++ aggs.map (·.1)

/-- The grouping values of a row. -/
def groupKey (names : List Name) (gs : List (Group α)) (r : Row α) : Row α := gs.map (Group.eval names r)

/-- The rows of a plan, by the meaning of SQL: GROUP BY treats NULLs as equal; without grouping expressions there is
one row. -/
def Src.rows : Src α → List (Row α)
  | .leaf _ rs => rs
  | .alias s => s.rows
  | .filter p s => s.rows.filter (fun r => p r == some true)
  | .project items s => s.rows.map (fun r => items.map (fun it => it.2.eval s.names r))
  | .aggregate gs aggs s =>
    (if gs.isEmpty then [[]] else (s.rows.map (groupKey s.names gs)).eraseDups).map (fun k =>
      k ++ aggs.map (fun a => a.2 (s.rows.filter (fun r => groupKey s.names gs r == k))))

/-- A functional dependency of a plan's schema: whether its mode is `Dependency::Single`, and its determinant. -/
structure Fd where
  single : Bool
  source : List Nat

/-- `norm_ident`. -/
def normName (n : Name) : Name := n.map lowerChar

/-- `source_join_key_column_names` (merge.rs:1517-1528). -/
def keyColumns (pairs : List (Operand α × Operand α)) : Option (List Name) :=
  match pairs.mapM (fun p => p.2.column) with
  | some [] => none
  | r => r

/-- The loop over the keys of `schema_implies_unique_for_columns` (merge.rs:1549-1562): indices, no one twice. -/
def keyIndices (names : List Name) : List Nat → List Name → Option (List Nat)
  | acc, [] => some acc
  | acc, k :: ks =>
    match names.findIdx? (fun n => normName n == normName k) with
    | none => none
    | some i => if acc.contains i then none else keyIndices names (i :: acc) ks

/-- `schema_implies_unique_for_columns` (merge.rs:1530-1568). -/
def schemaUnique (names : List Name) (fds : List Fd) (keys : List Name) : Bool :=
  if (names.map normName).eraseDups.length < names.length then false
  else match keyIndices names [] keys with
    | none => false
    | some [] => false
    | some idx => fds.any (fun fd => fd.single && fd.source.all (fun i => idx.contains i))

/-- One key of `map_key_cols_through_projection` (merge.rs:1576-1590). -/
def mapKey (items : List (Name × Item α)) (k : Name) : Option Name :=
  match items.find? (fun it => it.1 == k) with
  | some (_, .column n) => some n
  | some (_, .aliasOf n) => some n
  | _ => none

/-- `aggregate_groups_exactly_on_columns` (merge.rs:1595-1604): the names, if all are columns. -/
def groupColumns (gs : List (Group α)) : Option (List Name) :=
  gs.mapM (fun g => match g with
    | .column n => some n
    | .other _ _ => none)

/-- `same_column_set_case_insensitive` (merge.rs:1606-1615). -/
def sameColumnSet (a b : List Name) : Bool :=
  a.length == b.length && (a.map normName).eraseDups.length == a.length &&
    (b.map normName).eraseDups.length == b.length &&
    (a.map normName).all (fun x => (b.map normName).contains x) &&
    (b.map normName).all (fun x => (a.map normName).contains x)

/-- The loop of `source_is_unique_on_merge_join_keys` (merge.rs:1495-1514). -/
def Src.walk : Src α → List Name → Bool
  | .leaf _ _, _ => false
  | .alias s, keys => s.walk keys
  | .filter _ s, keys => s.walk keys
  | .project items s, keys =>
    match keys.mapM (mapKey items) with
    | some mapped => s.walk mapped
    | none => false
  | .aggregate gs _ _, keys =>
    match groupColumns gs with
    | some cols => sameColumnSet cols keys
    | none => false

/-- `source_is_unique_on_merge_join_keys` (merge.rs:1481-1515); `fds` are the functional dependencies of the schema of
the plan. -/
def sourceUnique (src : Src α) (fds : List Fd) (pairs : List (Operand α × Operand α)) : Bool :=
  match keyColumns pairs with
  | none => false
  | some keys => schemaUnique src.names fds keys || src.walk keys

/-! ## Well-formedness -/

/-- Names that differ also without regard to case. -/
def distinctNames (names : List Name) : Prop := (names.map normName).Nodup

/-- A plan that the resolver can have made: column names at every operator differ (the resolver names all columns
`#0`, `#1`, …), column references exist, and rows have as many values as there are columns. -/
def Src.Ok : Src α → Prop
  | .leaf ns rs => distinctNames ns ∧ ∀ r ∈ rs, r.length = ns.length
  | .alias s => s.Ok
  | .filter _ s => s.Ok
  | .project items s => s.Ok ∧ distinctNames (items.map (·.1)) ∧
      ∀ it ∈ items, ∀ n, it.2 = .column n ∨ it.2 = .aliasOf n → n ∈ s.names
  | .aggregate gs aggs s => s.Ok ∧ distinctNames (gs.map Group.name ++ aggs.map (·.1)) ∧
      ∀ n, .column n ∈ gs → n ∈ s.names

/-- What a functional dependency of mode `Single` promises: no two rows have the same values in the determinant, NULLs
apart. -/
def Fd.Sound (fd : Fd) (rows : List (Row α)) : Prop :=
  fd.single = true → rows.Pairwise (fun a b => ¬ ∀ i ∈ fd.source, a.at i = b.at i ∧ a.at i ≠ none)

/-- What the resolver knows about the two sides of an equality: an expression over the target does not depend on the
source row, and a plain column of the source has the value of that column. -/
def Operand.Ok (names : List Name) (x : Operand α) : Prop :=
  (x.domain = .targetOnly → ∀ t s s', x.eval t s = x.eval t s') ∧
    (x.domain = .sourceOnly → ∀ n, x.column = some n → n ∈ names ∧ ∀ t s, x.eval t s = colAt names s n)

/-- The equalities of an ON condition are classified truly. -/
def On.Ok (names : List Name) : On α → Prop
  | .and l r => l.Ok names ∧ r.Ok names
  | .eq l r => l.Ok names ∧ r.Ok names
  | .other _ => True

end Verif.Merge
