import Verif.Opt.JoinPlan

/-! # MERGE INTO

Source: `crates/sail-logical-plan/src/merge.rs` (the expansion of the statement),
`crates/sail-plan/src/resolver/command/merge.rs` (the splitting of the ON condition),
`crates/sail-physical-plan/src/merge_cardinality_check.rs`,
`crates/sail-delta-lake/src/physical_plan/planner/{op_merge,row_level}.rs` and
`crates/sail-iceberg/src/physical_plan/merge_row_projection.rs`.

Expressions of the statement are modelled by their values: a condition is a function from the columns of the target
row and the columns of the source row (all NULL where a side is absent) to a truth value, so that the code's building
of an expression and the evaluation of that expression on a joined row become one step. Evaluation itself does not
fail. Operators of the query engine have their SQL meaning. -/

namespace Verif.Merge

open Verif.Opt (Row and3 eq3)

/-- SQL disjunction. -/
def or3 : Option Bool → Option Bool → Option Bool
  | some true, _ => some true
  | _, some true => some true
  | some false, some false => some false
  | _, _ => none

/-- SQL negation. -/
def not3 : Option Bool → Option Bool
  | some b => some (!b)
  | none => none

/-- `x IS TRUE`. -/
def isTrue (x : Option Bool) : Option Bool := some (x == some true)

/-- A column name. -/
abbrev Name := List Char

/-- One character of `to_ascii_lowercase`. -/
def lowerChar (c : Char) : Char := if 'A' ≤ c ∧ c ≤ 'Z' then Char.ofNat (c.toNat + 32) else c

/-- `merge_names_equal` (merge.rs:451-457): equal, or equal up to the case of ASCII letters. -/
def namesEqual (caseSensitive : Bool) (a b : Name) : Bool :=
  if caseSensitive then a == b else a.map lowerChar == b.map lowerChar

/-- A condition of the statement: target columns, source columns. -/
abbrev Pred (α : Type) := Row α → Row α → Option Bool

/-- A value of the statement: target columns, source columns. -/
abbrev Val (α : Type) := Row α → Row α → Option α

/-- `ExprColumnDomain` (sail-plan/src/resolver/command/merge.rs:1883-1916): from which side an expression takes
columns. -/
inductive Domain where
  | none | targetOnly | sourceOnly | mixed
  deriving DecidableEq, Repr

/-- A side of an equality in the ON condition: its domain, its value, and its name if it is a plain column. -/
structure Operand (α : Type) where
  domain : Domain
  eval : Val α
  column : Option Name := Option.none

/-- An ON condition: conjunctions and equalities are the shapes that are inspected. -/
inductive On (α : Type) where
  | and (l r : On α)
  | eq (l r : Operand α)
  | other (f : Pred α)

variable {α : Type} [DecidableEq α]

/-- The truth value of an ON condition. -/
def On.eval : On α → Pred α
  | .and l r, t, s => and3 (l.eval t s) (r.eval t s)
  | .eq l r, t, s => eq3 (l.eval t s) (r.eval t s)
  | .other f, t, s => f t s

/-- `split_conjunction` of DataFusion. -/
def On.conjuncts : On α → List (On α)
  | .and l r => l.conjuncts ++ r.conjuncts
  | e => [e]

/-- One round of the loop of `analyze_merge_join` (sail-plan/src/resolver/command/merge.rs:1932-1955): a pair of join
keys (target, source), or a residual predicate. The list of target-only predicates, which is used only to prune files,
is not modelled. -/
def On.classify (p : On α) : (Operand α × Operand α) ⊕ On α :=
  match p with
  | .eq l r =>
    match l.domain, r.domain with
    | .targetOnly, .sourceOnly => .inl (l, r)
    | .sourceOnly, .targetOnly => .inl (r, l)
    | _, _ => .inr p
  | p => .inr p

/-- `analyze_merge_join` (sail-plan/src/resolver/command/merge.rs:1920-1958): key pairs and residual predicates. -/
def analyzeJoin (on : On α) : List (Operand α × Operand α) × List (On α) :=
  (on.conjuncts.filterMap (fun p => p.classify.getLeft?), on.conjuncts.filterMap (fun p => p.classify.getRight?))

/-- Whether a pair of rows passes the filter of the join: the conjunction of the residual predicates
(`combine_conjunction`, merge.rs:1614-1618), if there is any, is true. -/
def residualHolds (t s : Row α) : List (On α) → Bool
  | [] => true
  | p :: ps => ps.foldl (fun acc q => and3 acc (q.eval t s)) (p.eval t s) == some true

/-- The condition of the join of a target row with a source row: keys equal and not NULL
(`NullEquality::NullEqualsNothing`), and the filter of the residual predicates. -/
def joins (on : On α) (t s : Row α) : Bool :=
  (analyzeJoin on).1.all (fun k => eq3 (k.1.eval t s) (k.2.eval t s) == some true) &&
    residualHolds t s (analyzeJoin on).2

/-- A clause: an optional condition and an action. -/
structure Clause (C A : Type) where
  cond : Option C
  action : A

/-- `MergeMatchedAction`. -/
inductive MatchedAction (α : Type) where
  | delete
  | updateAll
  | updateSet (assignments : List (Name × Val α))

/-- `MergeNotMatchedBySourceAction`. -/
inductive BySourceAction (α : Type) where
  | delete
  | updateSet (assignments : List (Name × (Row α → Option α)))

/-- `MergeNotMatchedByTargetAction`. -/
inductive InsertAction (α : Type) where
  | insertAll
  | insertColumns (columns : List (Name × (Row α → Option α)))

/-- The statement after resolution and renaming (`MergeIntoOptions`, sail-common-datafusion/src/datasource.rs:311-346).
`target` and `source` are the names of the data columns (metadata columns such as the path of the file are fields of
`TRow`); `cast` casts to the type of a target column (`align_merge_value`, merge.rs:1297-1302). NOT MATCHED BY SOURCE
clauses see only the target row and NOT MATCHED clauses only the source row, as the resolver resolves them against
that schema alone (sail-plan/src/resolver/command/merge.rs:334-450). Generation expressions and check constraints are
functions of the projected row. -/
structure Options (α : Type) where
  caseSensitive : Bool
  target : List Name
  source : List Name
  cast : Name → Option α → Option α
  on : On α
  matched : List (Clause (Pred α) (MatchedAction α))
  bySource : List (Clause (Row α → Option Bool) (BySourceAction α))
  inserts : List (Clause (Row α → Option Bool) (InsertAction α))
  defaults : List (Name × Option α)
  gens : List (Name × (Row α → Option α))
  checks : List (Row α → Option Bool)

/-- A row of the target table: its file, its position in the file, its data columns. -/
structure TRow (α : Type) where
  file : Nat
  pos : Nat
  vals : Row α
  deriving DecidableEq

/-- A row of the join: the target row with its row id (`MonotonicIdNode`, here its index in the scan) and the source
row; a side that is absent has a NULL presence column. -/
structure JRow (α : Type) where
  t : Option (TRow α × Nat)
  s : Option (Row α)

/-- A row of NULLs. -/
def nulls (n : Nat) : Row α := List.replicate n none

/-- The full outer join of target and source (merge.rs:937-952). -/
def fullJoin (m : Row α → Row α → Bool) (T : List (TRow α)) (S : List (Row α)) : List (JRow α) :=
  T.zipIdx.flatMap (fun t =>
    match S.filter (fun s => m t.1.vals s) with
    | [] => [⟨some t, none⟩]
    | l => l.map (fun s => ⟨some t, some s⟩)) ++
  (S.filter (fun s => !T.any (fun t => m t.vals s))).map (fun s => ⟨none, some s⟩)

/-- The target columns of a joined row. -/
def JRow.tv (o : Options α) (j : JRow α) : Row α :=
  match j.t with
  | some t => t.1.vals
  | none => nulls o.target.length

/-- The source columns of a joined row. -/
def JRow.sv (o : Options α) (j : JRow α) : Row α := j.s.getD (nulls o.source.length)

/-- `MergeCardinalityCheckStream` (merge_cardinality_check.rs:177-243), over all partitions: the input is partitioned
by row id, so equal ids meet in one stream. `false` is the error. -/
def checkGo : List Nat → List (JRow α) → Bool
  | _, [] => true
  | seen, j :: js =>
    match j.t, j.s with
    | some t, some _ => if seen.contains t.2 then false else checkGo (t.2 :: seen) js
    | _, _ => checkGo seen js

/-- `should_check_cardinality` (merge.rs:1466-1479). -/
def shouldCheck (o : Options α) : Bool :=
  match o.matched with
  | [] => false
  | [⟨none, .delete⟩] => false
  | _ => true

/-- Whether the cardinality of matches is checked (merge.rs:515-520); `unique` is the answer of
`source_is_unique_on_merge_join_keys`. -/
def needsCheck (o : Options α) (unique : Bool) : Bool := shouldCheck o && !unique

/-- `first_matching_clause_predicates` (merge.rs:1633-1660), evaluated on one row: the base predicate, the disjunction
of the earlier clauses, the conditions of the clauses. -/
def firstMatching (base : Option Bool) : Option (Option Bool) → List (Option (Option Bool)) → List (Option Bool)
  | _, [] => []
  | prior, c :: cs =>
    let m := isTrue (and3 base (c.getD (some true)))
    let sel := match prior with
      | some p => and3 m (not3 p)
      | none => m
    sel :: firstMatching base (some (match prior with
      | some p => or3 p m
      | none => m)) cs

/-- `CASE WHEN … THEN … ELSE d END`. -/
def caseWhen {β : Type} : List (Option Bool × β) → β → β
  | [], d => d
  | (p, v) :: bs, d => if p = some true then v else caseWhen bs d

/-- The value of a column of a row by name (`Expr::Column` with the name of a field). -/
def colAt (names : List Name) (r : Row α) (n : Name) : Option α :=
  match names.findIdx? (· == n) with
  | some i => r.at i
  | none => none

/-- `merge_source_expr` (merge.rs:1273-1282): the first source column of that name. -/
def sourceExpr (o : Options α) (n : Name) : Option (Row α → Option α) :=
  (o.source.findIdx? (fun s => namesEqual o.caseSensitive s n)).map (fun i s => s.at i)

/-- `merge_insert_value` (merge.rs:1284-1295): the default of the column or NULL. -/
def insertValue (o : Options α) (n : Name) : Option α :=
  match o.defaults.find? (fun d => namesEqual o.caseSensitive d.1 n) with
  | some d => d.2
  | none => none

/-- `resolve_target_column` (merge.rs:1970-1984): the only target column of that name. -/
def resolveTarget (o : Options α) (n : Name) : Option Name :=
  match o.target.filter (fun c => namesEqual o.caseSensitive c n) with
  | [c] => some c
  | _ => none

/-- The branches that a MATCHED clause adds to the CASE of target column `c` (merge.rs:1722-1757). -/
def matchedBranches (o : Options α) (t s : Row α) (c : Name) : MatchedAction α → List (Option α)
  | .delete => []
  | .updateAll =>
    [o.cast c (match sourceExpr o c with
      | some f => f s
      | none => colAt o.target t c)]
  | .updateSet as =>
    (as.filter (fun a => resolveTarget o a.1 == some c)).map (fun a => o.cast c (a.2 t s))

/-- The branches that a NOT MATCHED BY SOURCE clause adds to the CASE of target column `c` (merge.rs:1759-1783). -/
def bySourceBranches (o : Options α) (t : Row α) (c : Name) : BySourceAction α → List (Option α)
  | .delete => []
  | .updateSet as => (as.filter (fun a => resolveTarget o a.1 == some c)).map (fun a => o.cast c (a.2 t))

/-- The value that a NOT MATCHED clause gives to target column `c` (merge.rs:1785-1818 and, for the fast append,
1332-1349). -/
def insertBranch (o : Options α) (s : Row α) (c : Name) : InsertAction α → Option α
  | .insertAll =>
    o.cast c (match sourceExpr o c with
      | some f => f s
      | none => insertValue o c)
  | .insertColumns cols =>
    o.cast c (match cols.find? (fun p => namesEqual o.caseSensitive p.1 c) with
      | some p => p.2 s
      | none => insertValue o c)

/-- `RowLevelOperationType` (sail-common-datafusion/src/datasource.rs:88-122). -/
inductive Op where
  | copy | delete | update | insert | noop | matchedDelete | matchedUpdate | bySourceDelete | bySourceUpdate
  | sourceMetric
  deriving DecidableEq, Repr

/-- A row of the expanded plan: the data columns, the path and the row index of the target row, the operation and the
source metric. -/
structure PRow (α : Type) where
  vals : Row α
  file : Option Nat
  pos : Option Nat
  op : Op
  metric : Option Nat
  deriving DecidableEq

/-- Whether the presence columns say that both rows, or only one of them, are there (merge.rs:964-969). -/
def JRow.matchedBase (j : JRow α) : Option Bool := some (j.t.isSome && j.s.isSome)
def JRow.bySourceBase (j : JRow α) : Option Bool := some (j.t.isSome && !j.s.isSome)
def JRow.insertBase (j : JRow α) : Option Bool := some (!j.t.isSome && j.s.isSome)

/-- The predicates of the MATCHED clauses on a joined row (merge.rs:1669-1678). -/
def matchedPreds (o : Options α) (j : JRow α) : List (Option Bool) :=
  firstMatching j.matchedBase none (o.matched.map (fun c => c.cond.map (fun p => p (j.tv o) (j.sv o))))

/-- The predicates of the NOT MATCHED BY SOURCE clauses on a joined row (merge.rs:1679-1688). -/
def bySourcePreds (o : Options α) (j : JRow α) : List (Option Bool) :=
  firstMatching j.bySourceBase none (o.bySource.map (fun c => c.cond.map (fun p => p (j.tv o))))

/-- The predicates of the NOT MATCHED clauses on a joined row (merge.rs:1689-1698). -/
def insertPreds (o : Options α) (j : JRow α) : List (Option Bool) :=
  firstMatching j.insertBase none (o.inserts.map (fun c => c.cond.map (fun p => p (j.sv o))))

/-- The value of target column `c` in the projection of `build_merge_projection` (merge.rs:1700-1858). -/
def projectColumn (o : Options α) (j : JRow α) (c : Name) : Option α :=
  caseWhen
    ((o.matched.zip (matchedPreds o j)).flatMap (fun q =>
        (matchedBranches o (j.tv o) (j.sv o) c q.1.action).map (fun v => (q.2, v))) ++
      ((o.bySource.zip (bySourcePreds o j)).flatMap (fun q =>
        (bySourceBranches o (j.tv o) c q.1.action).map (fun v => (q.2, v))) ++
      (o.inserts.zip (insertPreds o j)).map (fun q => (q.2, insertBranch o (j.sv o) c q.1.action))))
    (colAt o.target (j.tv o) c)

/-- The operation of a MATCHED clause. -/
def matchedOp : MatchedAction α → Op
  | .delete => .matchedDelete
  | _ => .matchedUpdate

/-- The operation of a NOT MATCHED BY SOURCE clause. -/
def bySourceOp : BySourceAction α → Op
  | .delete => .bySourceDelete
  | .updateSet _ => .bySourceUpdate

/-- The operation column (merge.rs:1873-1913). -/
def projectOp (o : Options α) (j : JRow α) : Op :=
  caseWhen
    ((some (!j.t.isSome), Op.insert) ::
      ((o.matched.zip (matchedPreds o j)).map (fun q => (q.2, matchedOp q.1.action)) ++
        (o.bySource.zip (bySourcePreds o j)).map (fun q => (q.2, bySourceOp q.1.action))))
    Op.copy

/-- `build_merge_projection` (merge.rs:1662-1918) on a joined row. -/
def project (o : Options α) (j : JRow α) : PRow α :=
  { vals := o.target.map (projectColumn o j)
    file := j.t.map (fun t => t.1.file)
    pos := j.t.map (fun t => t.1.pos)
    op := projectOp o j
    metric := none }

/-- Whether the assigned columns of all UPDATE SET clauses resolve, without which the projection is not built. -/
def planOk (o : Options α) : Bool :=
  o.matched.all (fun c => match c.action with
    | .updateSet as => as.all (fun a => (resolveTarget o a.1).isSome)
    | _ => true) &&
  o.bySource.all (fun c => match c.action with
    | .updateSet as => as.all (fun a => (resolveTarget o a.1).isSome)
    | _ => true)

/-- The disjunction of a list of predicates (`combine_disjunction` merge.rs:1620-1624, `or_pred` :1626-1631; FALSE if
there is none). -/
def disj : List (Option Bool) → Option Bool
  | [] => some false
  | p :: ps => ps.foldl or3 p

/-- A clause predicate without the exclusion of earlier clauses: base AND condition. -/
def withCond (base : Option Bool) : Option (Option Bool) → Option Bool
  | some c => and3 base c
  | none => base

/-- `row_delete_expr` (merge.rs:971-1013). -/
def rowDelete (o : Options α) (j : JRow α) : Option Bool :=
  disj (o.matched.map (fun c => withCond j.matchedBase (c.cond.map (fun p => p (j.tv o) (j.sv o)))) ++
    o.bySource.map (fun c => withCond j.bySourceBase (c.cond.map (fun p => p (j.tv o)))))

/-- `insert_expr` (merge.rs:999-1014). -/
def insertExpr (o : Options α) (j : JRow α) : Option Bool :=
  disj (o.inserts.map (fun c => withCond j.insertBase (c.cond.map (fun p => p (j.sv o)))))

/-- `active_expr` (merge.rs:1015): rows that are not dropped. -/
def active (o : Options α) (j : JRow α) : Option Bool := or3 (some j.t.isSome) (insertExpr o j)

/-- The filter of the touched-file query: `build_rewrite_predicates` (merge.rs:1920-1945) and `combine_rewrite_preds`. -/
def rewriteFilter (o : Options α) (j : JRow α) : Option Bool :=
  disj (o.matched.map (fun c =>
      withCond (and3 j.matchedBase (o.on.eval (j.tv o) (j.sv o))) (c.cond.map (fun p => p (j.tv o) (j.sv o)))) ++
    o.bySource.map (fun c => withCond j.bySourceBase (c.cond.map (fun p => p (j.tv o)))))

/-- Ways in which the statement fails. -/
inductive Err where
  | plan | cardinality | generated | constraint | unsupported
  deriving DecidableEq, Repr

/-- The value of column `c` after `apply_generation_projection` (merge.rs:1184-1247): the generation expression, if there
is one; a later duplicate entry wins (`gen_map` is a hash map). -/
def genColumn (o : Options α) (r : Row α) (c : Name) : Option α :=
  match o.gens.reverse.find? (fun g => g.1 == c) with
  | some g => g.2 r
  | none => colAt o.target r c

/-- Whether column `c` of an inserted row fails `mismatch_check` (merge.rs:1213-1221): its value is neither NULL nor the
generated one. -/
def genMismatch (o : Options α) (r : Row α) (c : Name) : Bool :=
  match o.gens.reverse.find? (fun g => g.1 == c) with
  | some g => !((colAt o.target r c).isNone || colAt o.target r c == g.2 r)
  | none => false

/-- `apply_generation_projection` (merge.rs:1184-1247) on a row. -/
def applyGen (o : Options α) (p : PRow α) : Except Err (PRow α) :=
  if p.op = .insert ∧ o.target.any (genMismatch o p.vals) = true then .error .generated
  else .ok { p with vals := o.target.map (genColumn o p.vals) }

/-- `row_level_data_operation_expr` (merge.rs:1249-1259). -/
def Op.isData : Op → Bool
  | .copy | .insert | .update | .matchedUpdate | .bySourceUpdate => true
  | _ => false

/-- `apply_delta_check_constraint_filter` (sail-logical-plan/src/check_constraints.rs:6-43): a row with a data
operation must make all constraints true. -/
def checksOk (o : Options α) (p : PRow α) : Bool :=
  !p.op.isData || o.checks.all (fun c => c p.vals == some true)

/-- The generation projection and the constraint filter over a plan; `extra` are rows added in between. A row that
raises an error fails the statement. -/
def finishRows (o : Options α) (rows extra : List (PRow α)) : Except Err (List (PRow α)) := do
  let rows ← rows.mapM (applyGen o)
  if (rows ++ extra).all (checksOk o) then .ok (rows ++ extra) else .error .constraint

/-- `build_source_metric_plan` (merge.rs:1393-1464): one row carrying the number of source rows. -/
def metricRow (o : Options α) (S : List (Row α)) : PRow α :=
  { vals := nulls o.target.length, file := none, pos := none, op := .sourceMetric, metric := some S.length }

/-- The join of `build_default_merge_expansion` (merge.rs:937-964) under the cardinality check, if there is one. -/
def checkedJoin (o : Options α) (check : Bool) (T : List (TRow α)) (S : List (Row α)) : Except Err (List (JRow α)) :=
  let js := fullJoin (joins o.on) T S
  if check && !checkGo [] js then .error .cardinality else .ok js

/-- The write plan of `build_default_merge_expansion` (merge.rs:1017-1054). -/
def writePlan (o : Options α) (check : Bool) (T : List (TRow α)) (S : List (Row α)) : Except Err (List (PRow α)) := do
  if !planOk o then throw .plan
  let js ← checkedJoin o check T S
  finishRows o ((js.filter (fun j => active o j == some true)).map (project o)) [metricRow o S]

/-- The touched-file plan (merge.rs:1056-1063): the paths of the rows to rewrite, each once. -/
def touchedPlan (o : Options α) (check : Bool) (T : List (TRow α)) (S : List (Row α)) : Except Err (List Nat) := do
  let js ← checkedJoin o check T S
  .ok ((js.filter (fun j => rewriteFilter o j == some true)).filterMap (fun j => j.t.map (fun t => t.1.file))).eraseDups

/-- The row-index plan (merge.rs:1065-1083): file and position of the rows to delete. -/
def deletePlan (o : Options α) (check : Bool) (T : List (TRow α)) (S : List (Row α)) :
    Except Err (List (Nat × Nat)) := do
  let js ← checkedJoin o check T S
  .ok ((js.filter (fun j => rowDelete o j == some true)).filterMap (fun j => j.t.map (fun t => (t.1.file, t.1.pos))))

/-- `can_fast_append_insert_only` (merge.rs:1118-1168) and `is_insert_only` (row_level.rs:71-79). NOT MATCHED clauses
see only source columns, so the test that they do not mention target columns succeeds. -/
def insertOnly (o : Options α) : Bool := o.matched.isEmpty && o.bySource.isEmpty && !o.inserts.isEmpty

/-- The operation column of the fast append (merge.rs:833-837, `insert_only_insert_filter` :1170-1182). -/
def fastOp (o : Options α) (s : Row α) : Op :=
  caseWhen [(disj (o.inserts.map (fun c => ((c.cond.map (fun p => p s)).getD (some true)))), Op.insert)] Op.noop

/-- `build_insert_only_projection` (merge.rs:1304-1368) on a source row. The plan has no path column and no metric
column. -/
def fastProject (o : Options α) (s : Row α) : PRow α :=
  { vals := o.target.map (fun c =>
      caseWhen (o.inserts.map (fun cl => ((cl.cond.map (fun p => p s)).getD (some true), insertBranch o s c cl.action)))
        none)
    file := none, pos := none, op := fastOp o s, metric := none }

/-- `build_insert_only_noop_projection` (merge.rs:1370-1391). -/
def noopRow (o : Options α) : PRow α :=
  { vals := nulls o.target.length, file := none, pos := none, op := .noop, metric := none }

/-- The fast append (merge.rs:804-895): source rows without a match (anti join) and those with one (semi join). -/
def fastPlan (o : Options α) (T : List (TRow α)) (S : List (Row α)) : Except Err (List (PRow α)) :=
  finishRows o
    ((S.filter (fun s => !T.any (fun t => joins o.on t.vals s))).map (fastProject o) ++
      (S.filter (fun s => T.any (fun t => joins o.on t.vals s))).map (fun _ => noopRow o)) []

/-- `metric_only_filter_mask` (writer_exec.rs:945-1000): the rows that the Delta writer writes. -/
def Op.isWritten : Op → Bool
  | .noop | .delete | .matchedDelete | .bySourceDelete | .sourceMetric => false
  | _ => true

/-- The inner join of a list of files with the rows of the write plan, on the path, keeping the columns of the row
(op_merge.rs:406-443): a NULL path joins nothing, and a file listed twice would double its rows. -/
def joinFiles (files : List Nat) (rows : List (PRow α)) : List (PRow α) :=
  rows.flatMap (fun p => (files.filter (fun f => p.file == some f)).map (fun _ => p))

/-- The input of the Delta writer in a copy-on-write MERGE (`build_merge_plan` op_merge.rs:105-147,
`build_targeted_writer_input` :376-446). The source is read once for every plan: `S₁` for the inserted rows, `S₂` for
the rows of touched files, `S₃` for the touched files of the writer. -/
def cowInput (o : Options α) (check : Bool) (T : List (TRow α)) (S₁ S₂ S₃ : List (Row α)) :
    Except Err (List (PRow α)) :=
  if insertOnly o then fastPlan o T S₁
  else do
    let e₁ ← writePlan o check T S₁
    let e₂ ← writePlan o check T S₂
    let touched ← touchedPlan o check T S₃
    .ok (e₁.filter (fun p => p.file.isNone) ++
      joinFiles touched e₂)

/-- The files that a copy-on-write MERGE removes (op_merge.rs:149-164), from the source read `S₄`. -/
def cowRemoved (o : Options α) (check : Bool) (T : List (TRow α)) (S₄ : List (Row α)) : Except Err (List Nat) :=
  if insertOnly o then .ok [] else touchedPlan o check T S₄

/-- A copy-on-write MERGE on a Delta table: the rows of the table afterwards. -/
def runCow (o : Options α) (check : Bool) (T : List (TRow α)) (S₁ S₂ S₃ S₄ : List (Row α)) :
    Except Err (List (Row α)) := do
  let input ← cowInput o check T S₁ S₂ S₃
  let removed ← cowRemoved o check T S₄
  .ok ((T.filter (fun t => !removed.contains t.file)).map (·.vals) ++
    (input.filter (fun p => p.op.isWritten)).map (·.vals))

/-- `merge_has_update_actions` (op_merge.rs:524). -/
def hasUpdates (o : Options α) : Bool :=
  o.matched.any (fun c => match c.action with
    | .delete => false
    | _ => true) ||
  o.bySource.any (fun c => match c.action with
    | .delete => false
    | _ => true)

/-- A merge-on-read MERGE on a Delta table (`build_merge_plan_mor` op_merge.rs:199-330): the rows with a NULL path are
written and the rows of the row-index plan are hidden by deletion vectors. `S₁` is the source as read for the former,
`S₂` for the latter. -/
def runMor (o : Options α) (check : Bool) (T : List (TRow α)) (S₁ S₂ : List (Row α)) : Except Err (List (Row α)) :=
  if insertOnly o then do
    let input ← fastPlan o T S₁
    .ok (T.map (·.vals) ++ (input.filter (fun p => p.op.isWritten)).map (·.vals))
  else if hasUpdates o then .error .unsupported
  else do
    let e ← writePlan o check T S₁
    let dv ← deletePlan o check T S₂
    .ok ((T.filter (fun t => !dv.contains (t.file, t.pos))).map (·.vals) ++
      ((e.filter (fun p => p.file.isNone)).filter (fun p => p.op.isWritten)).map (·.vals))

/-- `merge_operation_writes_data` (merge_row_projection.rs:112-116). -/
def Op.icebergData : Op → Bool
  | .insert | .matchedUpdate | .bySourceUpdate => true
  | _ => false

/-- `merge_operation_writes_position_delete` (merge_row_projection.rs:118-123). -/
def Op.icebergDelete : Op → Bool
  | .matchedDelete | .matchedUpdate | .bySourceDelete | .bySourceUpdate => true
  | _ => false

/-- A MERGE on an Iceberg table: data rows are appended and position deletes written, both from one run of the write
plan. -/
def runIceberg (o : Options α) (check : Bool) (T : List (TRow α)) (S : List (Row α)) : Except Err (List (Row α)) := do
  let e ← if insertOnly o then fastPlan o T S else writePlan o check T S
  let dels := (e.filter (fun p => p.op.icebergDelete)).filterMap (fun p => match p.file, p.pos with
    | some f, some i => some (f, i)
    | _, _ => none)
  .ok ((T.filter (fun t => !dels.contains (t.file, t.pos))).map (·.vals) ++
    (e.filter (fun p => p.op.icebergData)).map (·.vals))

end Verif.Merge
