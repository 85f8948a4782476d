import Verif.Iceberg.TransformLemmas

/-!
# Choosing the files of an Iceberg scan

Model of `crates/sail-iceberg/src/datasource/pruning.rs`: partition predicates are derived
from the filters of the query and from the partition spec; manifests are skipped by the
summaries in the manifest list, data files by their partition tuples.
-/

namespace Verif.Iceberg

/-- The operators of `BinaryExpr` the code looks at; `other` is any other one. -/
inductive Op where
  | eq | gt | ge | lt | le | and | other (k : Nat)
  deriving DecidableEq, Repr

/-- A member of an IN list: a literal, or any other expression. -/
inductive Item where
  | lit (s : Scalar)
  | other (k : Nat)
  deriving DecidableEq, Repr

/-- The expressions of DataFusion the code looks at. A cast has the number of its target type;
`other` is any other expression. -/
inductive Expr where
  | col (name : String)
  | lit (s : Scalar)
  | cast (e : Expr) (to : Nat)
  | alias (e : Expr)
  | bin (op : Op) (l r : Expr)
  | inList (e : Expr) (items : List Item) (negated : Bool)
  | other (k : Nat)
  deriving DecidableEq, Repr

/-- A column of the table schema. Only top-level columns are modelled. -/
structure Field where
  id : Nat
  name : String
  ty : PType
  deriving DecidableEq, Repr

/-- `Schema::field_by_name`, spec/schema/mod.rs:386-390. -/
def fieldByName (sch : List Field) (n : String) : Option Field := sch.find? (·.name == n)

/-- `Schema::field_by_id`. -/
def fieldById (sch : List Field) (i : Nat) : Option Field := sch.find? (·.id == i)

/-- A field of a partition spec. -/
structure PField where
  sourceId : Nat
  transform : Transform
  deriving DecidableEq, Repr

/-- `strip`, pruning.rs:347-353, 406-412 and 713-719. -/
def strip : Expr → Expr
  | .cast e _ => strip e
  | .alias e => strip e
  | e => e

/-- The field and the literal of a comparison of a column with a literal. -/
def colLit (sch : List Field) (c : String) (s : Scalar) : Option (Nat × Lit) :=
  match fieldByName sch c, toLit s with
  | some f, some l => some (f.id, l)
  | _, _ => none

/-- One comparison in `collect_source_eq_filters`, pruning.rs:359-387: column on the left, then
column on the right. -/
def eqPair (sch : List Field) (l r : Expr) : List (Nat × Lit) :=
  match l, r with
  | .col c, .lit s => (colLit sch c s).toList
  | .lit s, .col c => (colLit sch c s).toList
  | _, _ => []

/-- `visit_expr` of `collect_source_eq_filters`, pruning.rs:357-394. -/
def visitEq (sch : List Field) : Expr → List (Nat × Lit)
  | .bin .eq l r => eqPair sch (strip l) (strip r)
  | .bin .and l r => visitEq sch l ++ visitEq sch r
  | _ => []

/-- `collect_source_eq_filters`, pruning.rs:346-400. -/
def collectEq (sch : List Field) (fs : List Expr) : List (Nat × Lit) := fs.flatMap (visitEq sch)

/-- Literals of an IN list that can be converted, pruning.rs:423-430. -/
def itemLits (items : List Item) : List Lit :=
  items.filterMap fun i => match i with
    | .lit s => toLit s
    | .other _ => none

/-- `visit_expr` of `collect_source_in_filters`, pruning.rs:416-442. The hash map is represented
by the list of its extensions; the entry of a column is the concatenation of its
extensions, and there is none if that is empty. -/
def visitIn (sch : List Field) : Expr → List (Nat × List Lit)
  | .inList e items false =>
    match strip e with
    | .col c =>
      match fieldByName sch c with
      | some f => [(f.id, itemLits items)]
      | none => []
    | _ => []
  | .bin .and l r => visitIn sch l ++ visitIn sch r
  | _ => []

/-- `collect_source_in_filters(..).get(id)`, pruning.rs:402-448; empty if there is no entry. -/
def inFor (sch : List Field) (fs : List Expr) (id : Nat) : List Lit :=
  ((fs.flatMap (visitIn sch)).filter (·.1 == id)).flatMap (·.2)

/-- `RangeConstraint`, pruning.rs:463-467. The flag says whether the bound is inclusive. -/
structure Range where
  min : Option (Lit × Bool) := none
  max : Option (Lit × Bool) := none
  deriving DecidableEq, Repr

/-- A bound found in the filters, passed to `add_min` or `add_max`, pruning.rs:746-774. -/
structure Bound where
  id : Nat
  isMin : Bool
  lit : Lit
  incl : Bool
  deriving DecidableEq, Repr

/-- The bound of a column and a literal; none if the column is unknown or the literal cannot be
converted. -/
def mkBound (sch : List Field) (isMin incl : Bool) (c : String) (s : Scalar) : List Bound :=
  match colLit sch c s with
  | some (i, l) => [⟨i, isMin, l, incl⟩]
  | none => []

/-- One comparison in `collect_source_range_filters`, pruning.rs:781-796. -/
def rangePair (sch : List Field) (op : Op) (l r : Expr) : List Bound :=
  match op, l, r with
  | .gt, .col c, .lit s => mkBound sch true false c s
  | .ge, .col c, .lit s => mkBound sch true true c s
  | .lt, .col c, .lit s => mkBound sch false false c s
  | .le, .col c, .lit s => mkBound sch false true c s
  | .gt, .lit s, .col c => mkBound sch false false c s
  | .ge, .lit s, .col c => mkBound sch false true c s
  | .lt, .lit s, .col c => mkBound sch true false c s
  | .le, .lit s, .col c => mkBound sch true true c s
  | _, _, _ => []

/-- `visit_expr` of `collect_source_range_filters` on a stripped expression,
pruning.rs:776-804. -/
def visitStripped (sch : List Field) : Expr → List Bound
  | .cast e _ => visitStripped sch e
  | .alias e => visitStripped sch e
  | .bin .and l r => visitStripped sch l ++ visitStripped sch r
  | .bin op l r => rangePair sch op (strip l) (strip r)
  | _ => []

/-- `visit_expr` on a filter: casts and aliases at the top are not looked through. -/
def visitRange (sch : List Field) (e : Expr) : List Bound :=
  match e with
  | .bin op l r => visitStripped sch (.bin op l r)
  | _ => []

/-- `tighten_min`, pruning.rs:721-731. -/
def tightenMin (cur : Option (Lit × Bool)) (cand : Lit × Bool) : Option (Lit × Bool) :=
  match cur with
  | none => some cand
  | some (v, incl) =>
    if cand.1.cmp v = .gt ∨ (cand.1 = v ∧ cand.2 = false ∧ incl = true) then some cand
    else some (v, incl)

/-- `tighten_max`, pruning.rs:732-742. -/
def tightenMax (cur : Option (Lit × Bool)) (cand : Lit × Bool) : Option (Lit × Bool) :=
  match cur with
  | none => some cand
  | some (v, incl) =>
    if cand.1.cmp v = .lt ∨ (cand.1 = v ∧ cand.2 = false ∧ incl = true) then some cand
    else some (v, incl)

/-- `add_min` and `add_max` on the entry of a column. -/
def Range.add (r : Range) (b : Bound) : Range :=
  if b.isMin then { r with min := tightenMin r.min (b.lit, b.incl) }
  else { r with max := tightenMax r.max (b.lit, b.incl) }

/-- `collect_source_range_filters(..).get(id)`, pruning.rs:709-810. A missing entry is the range
without bounds, from which no predicate is made either. -/
def rangeFor (sch : List Field) (fs : List Expr) (id : Nat) : Range :=
  ((fs.flatMap (visitRange sch)).filter (·.id == id)).foldl Range.add {}

/-- `PartitionConstraint`, pruning.rs:457-461. -/
inductive Constraint where
  | eq (l : Lit)
  | inn (ls : List Lit)
  | range (r : Range)
  deriving DecidableEq, Repr

/-- `PartitionPredicate`, pruning.rs:451-454. -/
structure Pred where
  idx : Nat
  con : Constraint
  deriving DecidableEq, Repr

/-- `shift_i32`, pruning.rs:615-621. -/
def shift32 (v : Int) (up : Bool) : Option Int :=
  if up then (if v + 1 ≤ 2147483647 then some (v + 1) else none)
  else (if -2147483648 ≤ v - 1 then some (v - 1) else none)

/-- `shift_i64`, pruning.rs:623-629. -/
def shift64 (v : Int) (up : Bool) : Option Int :=
  if up then (if v + 1 ≤ 9223372036854775807 then some (v + 1) else none)
  else (if -9223372036854775808 ≤ v - 1 then some (v - 1) else none)

/-- Types with `Int` literals that are shifted. -/
def PType.isShort : PType → Bool
  | .int => true
  | .date => true
  | _ => false

/-- Types with `Long` literals that are shifted. -/
def PType.isLong : PType → Bool
  | .long => true
  | .time => true
  | .timestamp => true
  | .timestampNs => true
  | _ => false

/-- `adjust_exclusive_bound`, pruning.rs:592-613. -/
def adjust (ty : PType) (l : Lit) (lower : Bool) : Option Lit :=
  match l with
  | .int v => if ty.isShort then (shift32 v lower).map .int else none
  | .long v => if ty.isLong then (shift64 v lower).map .long else none
  | _ => none

/-- `transform_bound_literal`, pruning.rs:576-590; `none` is a panic. -/
def boundLit (h : List Nat → Int) (tr : Transform) (ty : PType) (l : Lit) (lower incl : Bool) :
    Option Lit :=
  applyTransform h tr ty (if incl then l else (adjust ty l lower).getD l)

/-- One side of `transform_range_constraint`, pruning.rs:560-567. The outer `none` is a
panic. -/
def rangeSide (h : List Nat → Int) (tr : Transform) (ty : PType) (lower : Bool) :
    Option (Lit × Bool) → Option (Option (Lit × Bool))
  | none => some none
  | some (l, incl) => (boundLit h tr ty l lower incl).map fun q => some (q, true)

/-- The predicate made from a range, pruning.rs:526-534 and 551-574; none if the transform does
not preserve the order or there is no bound. -/
def rangePreds (h : List Nat → Int) (i : Nat) (tr : Transform) (ty : PType) (r : Range) :
    Option (List Pred) :=
  if tr.preservesOrder then
    match rangeSide h tr ty true r.min, rangeSide h tr ty false r.max with
    | some none, some none => some []
    | some mn, some mx => some [⟨i, .range ⟨mn, mx⟩⟩]
    | _, _ => none
  else some []

/-- `apply_transform` of each literal of a list; `none` if one panics. -/
def transformAll (h : List Nat → Int) (tr : Transform) (ty : PType) : List Lit → Option (List Lit)
  | [] => some []
  | l :: ls =>
    match applyTransform h tr ty l, transformAll h tr ty ls with
    | some q, some qs => some (q :: qs)
    | _, _ => none

/-- Removal of repetitions by the hash set, pruning.rs:507-517: the first of equal values
stays. -/
def dedup (ls : List Lit) : List Lit :=
  ls.foldl (fun acc l => if l ∈ acc then acc else acc ++ [l]) []

/-- The predicates of one partition field, pruning.rs:479-535. -/
def fieldPreds (h : List Nat → Int) (sch : List Field) (fs : List Expr) (i : Nat) (pf : PField) :
    Option (List Pred) :=
  if pf.transform = .void ∨ pf.transform = .unknown then some []
  else
    match fieldById sch pf.sourceId with
    | none => some []
    | some src =>
      match
        transformAll h pf.transform src.ty
          (((collectEq sch fs).filter (·.1 == pf.sourceId)).map (·.2)),
        transformAll h pf.transform src.ty (inFor sch fs pf.sourceId),
        rangePreds h i pf.transform src.ty (rangeFor sch fs pf.sourceId) with
      | some es, some is, some rs =>
        some (es.map (fun q => ⟨i, .eq q⟩) ++
          (if dedup is = [] then [] else [⟨i, .inn (dedup is)⟩]) ++ rs)
      | _, _, _ => none

/-- `partition_predicates_for_spec`, pruning.rs:469-538, from the `i`-th field on; `none` is a
panic. -/
def predsFrom (h : List Nat → Int) (sch : List Field) (fs : List Expr) (i : Nat) :
    List PField → Option (List Pred)
  | [] => some []
  | pf :: rest =>
    match fieldPreds h sch fs i pf, predsFrom h sch fs (i + 1) rest with
    | some a, some b => some (a ++ b)
    | _, _ => none

/-- `literal_may_match_range`, pruning.rs:695-707. -/
def litInRange (v : Lit) (r : Range) : Bool :=
  (match r.min with
    | some (m, incl) => !(v.cmp m == .lt || (v == m && !incl))
    | none => true) &&
  (match r.max with
    | some (m, incl) => !(v.cmp m == .gt || (v == m && !incl))
    | none => true)

/-- `partition_predicate_may_match_value` on a literal, pruning.rs:652-656. -/
def Constraint.holds (c : Constraint) (v : Lit) : Bool :=
  match c with
  | .eq l => v == l
  | .inn ls => ls.contains v
  | .range r => litInRange v r

/-- `partition_predicate_may_match_value` with the look-up of the tuple, pruning.rs:315-320 and
645-657: a missing or NULL value may match. -/
def Pred.mayMatch (p : Pred) (part : List (Option Lit)) : Bool :=
  match part[p.idx]? with
  | some (some v) => p.con.holds v
  | _ => true

/-- `literal_may_match_bounds`, pruning.rs:659-675. -/
def litInBounds (v : Lit) (lower upper : Option Lit) : Bool :=
  (match lower with
    | some l => !(v.cmp l == .lt)
    | none => true) &&
  (match upper with
    | some u => !(v.cmp u == .gt)
    | none => true)

/-- `range_may_match_bounds`, pruning.rs:677-693. -/
def rangeInBounds (r : Range) (lower upper : Option Lit) : Bool :=
  (match r.min, upper with
    | some (m, incl), some u => !(m.cmp u == .gt || (m == u && !incl))
    | _, _ => true) &&
  (match r.max, lower with
    | some (m, incl), some l => !(m.cmp l == .lt || (m == l && !incl))
    | _, _ => true)

/-- `partition_predicate_may_match_bounds`, pruning.rs:631-643. -/
def Constraint.mayMatchBounds (c : Constraint) (lower upper : Option Lit) : Bool :=
  match c with
  | .eq l => litInBounds l lower upper
  | .inn ls => ls.any fun l => litInBounds l lower upper
  | .range r => rangeInBounds r lower upper

/-- A row: the value of each column. -/
abbrev Row := String → Scalar

/-- A data file: path, partition tuple, bounds of columns by field id, and its rows. -/
structure DataFile where
  path : String
  part : List (Option Lit)
  lower : List (Nat × Lit) := []
  upper : List (Nat × Lit) := []
  rows : List Row

/-- Bounds of a partition field over the files of a manifest (`FieldSummary`, after
`literal_from_bytes`; a bound that cannot be decoded is absent). -/
structure Summary where
  lower : Option Lit
  upper : Option Lit
  deriving DecidableEq, Repr

/-- A data manifest with its entry in the manifest list and its live files (those with status
added or existing, provider.rs:352-370). -/
structure Manifest where
  specId : Nat
  summaries : Option (List Summary)
  files : List DataFile

/-- The test of one manifest in `prune_manifests_by_partition_summaries`, pruning.rs:276-296. A
partition field whose type is unknown is not skipped on; it has no predicate either. -/
def Pred.mayMatchSummary (p : Pred) (sums : List Summary) : Bool :=
  match sums[p.idx]? with
  | some s => p.con.mayMatchBounds s.lower s.upper
  | none => true

/-- `prune_data_files_by_partition_values`, pruning.rs:301-323; `none` is a panic. -/
def pruneFiles (h : List Nat → Int) (sch : List Field) (spec : List PField) (fs : List Expr)
    (files : List DataFile) : Option (List DataFile) :=
  (predsFrom h sch fs 0 spec).map fun ps => files.filter fun f => ps.all (·.mayMatch f.part)

/-- The test of a manifest, pruning.rs:261-297; `none` is a panic. -/
def keepManifest (h : List Nat → Int) (sch : List Field) (specs : Nat → Option (List PField))
    (fs : List Expr) (m : Manifest) : Option Bool :=
  match specs m.specId with
  | none => some true
  | some spec =>
    match predsFrom h sch fs 0 spec with
    | none => none
    | some ps =>
      match m.summaries with
      | none => some true
      | some sums => some (ps.all (·.mayMatchSummary sums))

/-- The files of one manifest read by `load_data_files_with_seq`, provider.rs:336-400, before
the pruning by column bounds. -/
def manifestFiles (h : List Nat → Int) (sch : List Field) (specs : Nat → Option (List PField))
    (fs : List Expr) (m : Manifest) : Option (List DataFile) :=
  match keepManifest h sch specs fs m with
  | none => none
  | some false => some []
  | some true =>
    match specs m.specId with
    | none => some m.files
    | some spec => pruneFiles h sch spec fs m.files

/-- The files of a scan: over all manifests of the manifest list. -/
def planFiles (h : List Nat → Int) (sch : List Field) (specs : Nat → Option (List PField))
    (fs : List Expr) : List Manifest → Option (List DataFile)
  | [] => some []
  | m :: ms =>
    match manifestFiles h sch specs fs m, planFiles h sch specs fs ms with
    | some a, some b => some (a ++ b)
    | _, _ => none

/-- One file in `IcebergPruningStats::contained`, pruning.rs:171-198. DataFusion prunes a file
for which the answer to the values of an equality or of an IN list is false. The literals
stand for the scalars they are converted to. -/
def contained (id : Nat) (vals : List Lit) (f : DataFile) : Bool :=
  match f.lower.lookup id, f.upper.lookup id with
  | some lb, some ub => vals.any fun v => lb == v && ub == v
  | _, _ => true

namespace Spec

/-- The parts of SQL evaluation that are left open: casts, other operators and other
expressions. -/
structure Env where
  cast : Nat → Scalar → Scalar
  op : Nat → Scalar → Scalar → Scalar
  expr : Nat → Row → Scalar

/-- A comparison in SQL: NULL unless both sides are present and of one type. -/
def compareWith (t : Ordering → Bool) (a b : Scalar) : Scalar :=
  match cmp a b with
  | some o => .bool (t o)
  | none => .null

/-- Conjunction in SQL. -/
def and3 (a b : Scalar) : Scalar :=
  if a = .bool true ∧ b = .bool true then .bool true
  else if a = .bool false ∨ b = .bool false then .bool false
  else .null

/-- A binary operator. -/
def evalOp (E : Env) : Op → Scalar → Scalar → Scalar
  | .eq, a, b => compareWith (· == .eq) a b
  | .gt, a, b => compareWith (· == .gt) a b
  | .ge, a, b => compareWith (· != .lt) a b
  | .lt, a, b => compareWith (· == .lt) a b
  | .le, a, b => compareWith (· != .gt) a b
  | .and, a, b => and3 a b
  | .other k, a, b => E.op k a b

/-- The value of a member of an IN list. -/
def evalItem (E : Env) (row : Row) : Item → Scalar
  | .lit s => s
  | .other k => E.expr k row

/-- IN and NOT IN. -/
def evalIn (v : Scalar) (vs : List Scalar) (negated : Bool) : Scalar :=
  if vs.any (fun x => cmp v x == some .eq) then .bool (!negated)
  else if v = .null ∨ .null ∈ vs then .null
  else .bool negated

/-- The value of an expression on a row. -/
def eval (E : Env) (row : Row) : Expr → Scalar
  | .col c => row c
  | .lit s => s
  | .cast e t => E.cast t (eval E row e)
  | .alias e => eval E row e
  | .bin op l r => evalOp E op (eval E row l) (eval E row r)
  | .inList e items n => evalIn (eval E row e) (items.map (evalItem E row)) n
  | .other k => E.expr k row

/-- A row passes the WHERE clause. -/
def Satisfies (E : Env) (row : Row) (fs : List Expr) : Prop :=
  ∀ f ∈ fs, eval E row f = .bool true

/-- No cast occurs in the expression. -/
def noCast : Expr → Bool
  | .cast _ _ => false
  | .alias e => noCast e
  | .bin _ l r => noCast l && noCast r
  | .inList e _ _ => noCast e
  | _ => true

/-- IN lists as they reach the pruning: all members are literals (`classify_pushdown_for_expr`,
provider.rs:1320-1333), and of one type, so that either all but the NULLs can be converted
or none can. -/
def inListsOk : Expr → Prop
  | .cast e _ => inListsOk e
  | .alias e => inListsOk e
  | .bin _ l r => inListsOk l ∧ inListsOk r
  | .inList e items _ => inListsOk e ∧ (∀ i ∈ items, ∃ s, i = .lit s) ∧
      ((∀ s, .lit s ∈ items → s = .null ∨ toLit s ≠ none) ∨ ∀ s, .lit s ∈ items → toLit s = none)
  | _ => True

/-- The literals of an expression. -/
def lits : Expr → List Scalar
  | .lit s => [s]
  | .cast e _ => lits e
  | .alias e => lits e
  | .bin _ l r => lits l ++ lits r
  | .inList e items _ => lits e ++ items.filterMap fun i => match i with
    | .lit s => some s
    | .other _ => none
  | _ => []

/-- Values of the integer types are in range. -/
def InRange : Scalar → Prop
  | .int32 v => -2147483648 ≤ v ∧ v ≤ 2147483647
  | .date32 v => -2147483648 ≤ v ∧ v ≤ 2147483647
  | .int64 v => -9223372036854775808 ≤ v ∧ v ≤ 9223372036854775807
  | .time v => -9223372036854775808 ≤ v ∧ v ≤ 9223372036854775807
  | .tsUs v => -9223372036854775808 ≤ v ∧ v ≤ 9223372036854775807
  | .tsNs v => -9223372036854775808 ≤ v ∧ v ≤ 9223372036854775807
  | _ => True

/-- Equal values, or integers, dates or times next to each other. -/
def Near : Scalar → Scalar → Prop
  | .int32 v, .int32 v' => v - 1 ≤ v' ∧ v' ≤ v + 1
  | .date32 v, .date32 v' => v - 1 ≤ v' ∧ v' ≤ v + 1
  | .int64 v, .int64 v' => v - 1 ≤ v' ∧ v' ≤ v + 1
  | .time v, .time v' => v - 1 ≤ v' ∧ v' ≤ v + 1
  | .tsUs v, .tsUs v' => v - 1 ≤ v' ∧ v' ≤ v + 1
  | .tsNs v, .tsNs v' => v - 1 ≤ v' ∧ v' ≤ v + 1
  | a, b => a = b

/-- Column names and field ids are unique. -/
def SchemaOk (sch : List Field) : Prop :=
  (∀ f ∈ sch, fieldByName sch f.name = some f) ∧ (∀ f ∈ sch, fieldById sch f.id = some f)

/-- The row has values of the types of the columns. -/
def RowOk (sch : List Field) (row : Row) : Prop := ∀ f ∈ sch, HasType f.ty (row f.name)

/-- The partition tuple of a file has, for each partition field, the value the specification
gives for every row of the file. -/
def FileOk (h : List Nat → Int) (sch : List Field) (spec : List PField) (f : DataFile) : Prop :=
  f.part.length = spec.length ∧
  ∀ (i : Nat) pf v src, spec[i]? = some pf → f.part[i]? = some v →
    fieldById sch pf.sourceId = some src →
    ∀ row ∈ f.rows, IsPart h pf.transform (row src.name) v

/-- The summaries of a manifest bound the partition values of its files. -/
def SummariesOk (m : Manifest) : Prop :=
  ∀ sums, m.summaries = some sums → ∀ (i : Nat) s, sums[i]? = some s →
    ∀ f ∈ m.files, ∀ v, f.part[i]? = some (some v) →
      (∀ l, s.lower = some l → l.cmp v ≠ .gt) ∧ (∀ u, s.upper = some u → v.cmp u ≠ .gt)

/-- The literals of the filters are ones for which the partition values follow the
specification. -/
def LitsOk (spec : List PField) (fs : List Expr) : Prop :=
  ∀ f ∈ fs, ∀ s ∈ lits f, InRange s ∧
    ∀ s', Near s s' → ∀ pf ∈ spec, Sane pf.transform s'

end Spec

end Verif.Iceberg
