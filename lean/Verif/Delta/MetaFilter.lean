/-!
Choosing Delta data files by a predicate over the log: the predicate is rewritten to one over a
metadata row (raw partition texts and parsed statistics of a file), and a filter keeps the files
for which the rewritten predicate is true.

Modelled: `crates/sail-delta-lake/src/physical_plan/planner/metadata_predicate.rs`, the metadata
row it runs over, `parse_partition_value` (`crates/sail-delta-lake/src/conversion/scalar.rs`) and
`expr_is_exact_predicate_for_cols` (`crates/sail-delta-lake/src/datasource/expressions.rs`).
The evaluation of expressions is the engine's and is modelled as SQL's three-valued logic.
-/
namespace Verif.Delta.MetaFilter

/-- Values of columns and expressions. `raw` is the text of a partition value as the metadata row
has it: the replay schema gives every partition column the type Utf8
(`crates/sail-delta-lake/src/physical_plan/planner/utils.rs:238-258`). Dates, timestamps, floats
and decimals are left out; timestamps behave like integers except for the text. -/
inductive Val
  | null
  | int (i : Int)
  | str (s : String)
  | bool (b : Bool)
  | raw (s : String)
  | struct (fs : List (String × Val))

/-- The scalar types modelled. -/
inductive Ty
  | int | str | bool
deriving DecidableEq

/-- Comparison operators (`metadata_predicate.rs:149-154`). -/
inductive Op
  | eq | ne | lt | le | gt | ge
deriving DecidableEq

/-- Access to a field of a struct, null for anything else (`get_field` of the engine). -/
def Val.field : Val → String → Val
  | .struct fs, n => (fs.lookup n).getD .null
  | _, _ => .null

/-- The number that decimal digits stand for, after `a`. -/
def natOf : List Char → Nat → Option Nat
  | [], a => some a
  | c :: cs, a => if c.isDigit then natOf cs (a * 10 + (c.toNat - 48)) else none

/-- The engine's cast of a text to an integer, without leading plus signs, blanks and limits. -/
def parseInt (s : String) : Option Int :=
  match s.toList with
  | [] => none
  | ['-'] => none
  | '-' :: cs => (natOf cs 0).map (fun n => -(n : Int))
  | cs => (natOf cs 0).map Int.ofNat

/-- The engine's cast of a text to a boolean; only the two words that Sail writes
(`crates/sail-delta-lake/src/conversion/scalar.rs:386`) are modelled. -/
def parseBool (s : String) : Option Bool :=
  if s = "true" then some true else if s = "false" then some false else none

/-- The order of two values, if they can be compared. Values of two different types cannot: the
engine casts explicitly before, except that the text of a partition value is cast to the type of
what it is compared with (the plans in
`python/pysail/tests/spark/delta/__snapshots__/features/delete.yaml:514` show
`CAST(year@5 AS Int32) = 2024`). A text that cannot be cast gives null here. -/
def ord : Val → Val → Option Ordering
  | .int a, .int b => some (compare a b)
  | .str a, .str b => some (compare a b)
  | .bool a, .bool b => some (compare a b)
  | .raw s, .int b => (parseInt s).map (fun a => compare a b)
  | .raw s, .str b => some (compare s b)
  | .raw s, .bool b => (parseBool s).map (fun a => compare a b)
  | _, _ => none

/-- Whether an operator holds of two values in the given order. -/
def Op.holds : Op → Ordering → Bool
  | .eq, o => o == .eq
  | .ne, o => o != .eq
  | .lt, o => o == .lt
  | .le, o => o != .gt
  | .gt, o => o == .gt
  | .ge, o => o != .lt

/-- A comparison in three-valued logic. -/
def cmp3 (op : Op) (a b : Val) : Option Bool := (ord a b).map op.holds

/-- AND of three-valued logic. -/
def and3 : Option Bool → Option Bool → Option Bool
  | some false, _ => some false
  | some true, b => b
  | none, some false => some false
  | none, _ => none

/-- OR of three-valued logic. -/
def or3 : Option Bool → Option Bool → Option Bool
  | some true, _ => some true
  | some false, b => b
  | none, some true => some true
  | none, _ => none

/-- NOT of three-valued logic. -/
def not3 (a : Option Bool) : Option Bool := a.map (!·)

/-- A value as a truth value. -/
def Val.toB : Val → Option Bool
  | .bool b => some b
  | _ => none

/-- A truth value as a value. -/
def ofB : Option Bool → Val
  | some b => .bool b
  | none => .null

/-- Whether a value is null. -/
def Val.isNull : Val → Bool
  | .null => true
  | _ => false

/-- The engine's casts between the scalar types; what cannot be cast becomes null (the engine may
instead fail). -/
def castVal : Ty → Val → Val
  | .int, .int i => .int i
  | .int, .str s => ((parseInt s).map Val.int).getD .null
  | .int, .raw s => ((parseInt s).map Val.int).getD .null
  | .int, .bool b => .int (if b then 1 else 0)
  | .str, .int i => .str (toString i)
  | .str, .str s => .str s
  | .str, .raw s => .str s
  | .str, .bool b => .str (if b then "true" else "false")
  | .bool, .int i => .bool (i != 0)
  | .bool, .str s => ((parseBool s).map Val.bool).getD .null
  | .bool, .raw s => ((parseBool s).map Val.bool).getD .null
  | .bool, .bool b => .bool b
  | _, _ => .null

/-- Logical expressions (the cases of `metadata_predicate.rs:140-194`). The elements of an IN list
are constants; an IN list with columns and every expression of another kind (LIKE, arithmetic,
function calls) is `other`, a function of the columns it reads. -/
inductive Expr
  | col (n : String)
  | field (e : Expr) (n : String)
  | lit (v : Val)
  | cmp (op : Op) (l r : Expr)
  | and (l r : Expr)
  | or (l r : Expr)
  | not (e : Expr)
  | between (e : Expr) (neg : Bool) (lo hi : Expr)
  | inList (e : Expr) (vs : List Val) (neg : Bool)
  | isNull (e : Expr)
  | isNotNull (e : Expr)
  | cast (e : Expr) (t : Ty)
  | alias (e : Expr)
  | other (reads : List String) (f : List Val → Val)

/-- Whether one of the values equals `x`, in three-valued logic. -/
def in3 (x : Val) : List Val → Option Bool
  | [] => some false
  | v :: vs => or3 (cmp3 .eq x v) (in3 x vs)

/-- NOT if asked for. -/
def neg3 (neg : Bool) (a : Option Bool) : Option Bool := if neg then not3 a else a

/-- The value of an expression where columns have the given values. -/
def eval (env : String → Val) : Expr → Val
  | .col n => env n
  | .field e n => (eval env e).field n
  | .lit v => v
  | .cmp op l r => ofB (cmp3 op (eval env l) (eval env r))
  | .and l r => ofB (and3 (eval env l).toB (eval env r).toB)
  | .or l r => ofB (or3 (eval env l).toB (eval env r).toB)
  | .not e => ofB (not3 (eval env e).toB)
  | .between e neg lo hi => ofB (neg3 neg (and3 (cmp3 .ge (eval env e) (eval env lo)) (cmp3 .le (eval env e) (eval env hi))))
  | .inList e vs neg => ofB (neg3 neg (in3 (eval env e) vs))
  | .isNull e => .bool (eval env e).isNull
  | .isNotNull e => .bool (!(eval env e).isNull)
  | .cast e t => castVal t (eval env e)
  | .alias e => eval env e
  | .other reads f => f (reads.map env)

/-- The columns an expression reads (`Expr::column_refs`). -/
def Expr.cols : Expr → List String
  | .col n => [n]
  | .field e _ => e.cols
  | .lit _ => []
  | .cmp _ l r => l.cols ++ r.cols
  | .and l r => l.cols ++ r.cols
  | .or l r => l.cols ++ r.cols
  | .not e => e.cols
  | .between e _ lo hi => e.cols ++ (lo.cols ++ hi.cols)
  | .inList e _ _ => e.cols
  | .isNull e => e.cols
  | .isNotNull e => e.cols
  | .cast e _ => e.cols
  | .alias e => e.cols
  | .other reads _ => reads

/-- `column_refs().is_empty()`. -/
def Expr.free (e : Expr) : Bool := e.cols.isEmpty

/-- What the rewriter knows of the table (`metadata_predicate.rs:127-130`): the partition columns,
with their types for the model of reading, and the physical paths of the logical ones. -/
structure Table where
  parts : List (String × Ty)
  phys : List (List String × List String)

/-- `predicate_requires_stats` (`metadata_predicate.rs:26-31`). -/
def requiresStats (t : Table) (e : Expr) : Bool :=
  e.cols.any (fun n => !(t.parts.map Prod.fst).contains n)

/-- `ExprTemplate` (`metadata_predicate.rs:132-136`). -/
structure Template where
  path : List String
  castTy : Option Ty

/-- `extract_column_path` (`metadata_predicate.rs:436-455`). -/
def columnPath : Expr → Option (List String)
  | .col n => some [n]
  | .field e n => (columnPath e).map (· ++ [n])
  | _ => none

/-- `extract_template` (`metadata_predicate.rs:408-419`). -/
def template : Expr → Option Template
  | .cast e t => (columnPath e).map (fun p => ⟨p, some t⟩)
  | e => (columnPath e).map (fun p => ⟨p, none⟩)

/-- `ExprTemplate::apply` (`metadata_predicate.rs:427-433`). -/
def Template.apply (t : Template) (e : Expr) : Expr :=
  match t.castTy with
  | some ty => .cast e ty
  | none => e

/-- `ExprTemplate::root_name` (`metadata_predicate.rs:423-425`). -/
def Template.root (t : Template) : String := t.path.headD ""

/-- `is_partition_column` (`metadata_predicate.rs:369-371`). -/
def isPartition (t : Table) (tm : Template) : Bool :=
  tm.path.length == 1 && (t.parts.map Prod.fst).contains tm.root

/-- `stats_paths.get(logical_path)`, or the logical path (`metadata_predicate.rs:397-401`). -/
def Table.physical (t : Table) (path : List String) : List String := (t.phys.lookup path).getD path

/-- `stats_nested_expr` (`metadata_predicate.rs:395-406`). -/
def statsNested (t : Table) (root : String) (path : List String) : Expr :=
  (t.physical path).foldl (fun e n => .field e n) (.field (.col "stats_parsed") root)

/-- `stats_bound_expr` (`metadata_predicate.rs:384-393`). -/
def statsBound (t : Table) (path : List String) (isMin : Bool) : Expr :=
  statsNested t (if isMin then "minValues" else "maxValues") path

/-- `literal_true` (`metadata_predicate.rs:483-485`). -/
def litTrue : Expr := .lit (.bool true)

/-- `conjunction` of the engine, if there is anything to join. -/
def conj : List Expr → Option Expr
  | [] => none
  | e :: es => some (es.foldl .and e)

/-- `disjunction` of the engine, if there is anything to join. -/
def disj : List Expr → Option Expr
  | [] => none
  | e :: es => some (es.foldl .or e)

/-- `any_null` (`metadata_predicate.rs:503-510`). -/
def anyNull (es : List Expr) : Expr := (disj (es.map .isNull)).getD litTrue

/-- `rewrite_template_comparison` (`metadata_predicate.rs:316-367`). -/
def rewriteTemplate (t : Table) (tm : Template) (op : Op) (value : Expr) : Expr :=
  if isPartition t tm then .cmp op (tm.apply (.col tm.root)) value
  else if tm.castTy.isSome then litTrue
  else
    let mn := tm.apply (statsBound t tm.path true)
    let mx := tm.apply (statsBound t tm.path false)
    match op with
    | .eq => .or (anyNull [mn, mx]) (.and (.cmp .le mn value) (.cmp .ge mx value))
    | .ne => .or (anyNull [mn, mx]) ((disj [.cmp .lt mn value, .cmp .gt mx value]).getD litTrue)
    | .lt => .or (.isNull mn) (.cmp .lt mn value)
    | .le => .or (.isNull mn) (.cmp .le mn value)
    | .gt => .or (.isNull mx) (.cmp .gt mx value)
    | .ge => .or (.isNull mx) (.cmp .ge mx value)

/-- `reverse_comparison` (`metadata_predicate.rs:457-467`). -/
def Op.reverse : Op → Op
  | .eq => .eq
  | .ne => .ne
  | .lt => .gt
  | .le => .ge
  | .gt => .lt
  | .ge => .le

/-- `rewrite_comparison` (`metadata_predicate.rs:196-216`). -/
def rewriteComparison (t : Table) (l : Expr) (op : Op) (r : Expr) : Option Expr :=
  if l.free && r.free then some (.cmp op l r)
  else match template l with
    | some tm => if !r.free then none else some (rewriteTemplate t tm op r)
    | none =>
      match template r with
      | some tm => if !l.free then none else some (rewriteTemplate t tm op.reverse l)
      | none => none

/-- `rewrite_between` (`metadata_predicate.rs:218-252`). -/
def rewriteBetween (t : Table) (e : Expr) (neg : Bool) (lo hi : Expr) : Option Expr :=
  if !lo.free || !hi.free then none
  else match template e with
    | none => none
    | some tm =>
      if isPartition t tm then some (.between e neg lo hi)
      else if tm.castTy.isSome then none
      else
        let mn := tm.apply (statsBound t tm.path true)
        let mx := tm.apply (statsBound t tm.path false)
        let actual :=
          if neg then (disj [.cmp .lt mn lo, .cmp .gt mx hi]).getD litTrue
          else (conj [.cmp .ge mx lo, .cmp .le mn hi]).getD litTrue
        some (.or (anyNull [mn, mx]) actual)

/-- `rewrite_in_list` (`metadata_predicate.rs:254-279`); the elements are constants, so the check
for columns in them (257-259) is not needed. -/
def rewriteInList (t : Table) (e : Expr) (vs : List Val) (neg : Bool) : Option Expr :=
  match template e with
  | none => none
  | some tm =>
    if isPartition t tm then some (.inList e vs neg)
    else if tm.castTy.isSome then none
    else
      let rs := vs.map (fun v => rewriteTemplate t tm (if neg then .ne else .eq) (.lit v))
      if neg then some ((conj rs).getD litTrue) else some ((disj rs).getD litTrue)

/-- `rewrite_null_check` (`metadata_predicate.rs:281-314`). -/
def rewriteNullCheck (t : Table) (e : Expr) (isNotNull : Bool) : Option Expr :=
  match template e with
  | none => none
  | some tm =>
    if isPartition t tm then some (if isNotNull then .isNotNull e else .isNull e)
    else if tm.castTy.isSome then none
    else
      let nc := tm.apply (statsNested t "nullCount" tm.path)
      if isNotNull then
        let nr : Expr := .field (.col "stats_parsed") "numRecords"
        some ((disj [.isNull nc, .isNull nr, .cmp .lt nc nr]).getD litTrue)
      else some ((disj [.isNull nc, .cmp .gt nc (.lit (.int 0))]).getD litTrue)

/-- `rewrite` (`metadata_predicate.rs:140-194`). -/
def rewrite (t : Table) : Expr → Expr
  | .cmp op l r => (rewriteComparison t l op r).getD litTrue
  | .and l r => .and (rewrite t l) (rewrite t r)
  | .or l r => .or (rewrite t l) (rewrite t r)
  | .between e neg lo hi => (rewriteBetween t e neg lo hi).getD litTrue
  | .inList e vs neg => (rewriteInList t e vs neg).getD litTrue
  | .isNull e => (rewriteNullCheck t e false).getD litTrue
  | .isNotNull e => (rewriteNullCheck t e true).getD litTrue
  | .not (.isNull e) => (rewriteNullCheck t e true).getD litTrue
  | .not (.isNotNull e) => (rewriteNullCheck t e false).getD litTrue
  | .not _ => litTrue
  | .alias e => rewrite t e
  | .lit v => .lit v
  | .col _ => litTrue
  | .field _ _ => litTrue
  | .cast _ _ => litTrue
  | .other _ _ => litTrue

/-- The statistics of a file as the metadata row has them after parsing, with timestamp maxima
already raised (`crates/sail-delta-lake/src/physical_plan/metadata_stats_exec.rs:104-148`). -/
structure Stats where
  numRecords : Val
  minValues : Val
  maxValues : Val
  nullCount : Val

/-- A row of a data file: the values of the columns that are stored in it. -/
abbrev Row := List (String × Val)

/-- A data file of the table: the partition values of its Add action, its statistics, the rows
stored in it and those of them that are not deleted by a deletion vector. -/
structure File where
  pvals : List (String × Option String)
  stats : Option Stats
  stored : List Row
  rows : List Row

/-- The text of a partition value of the file. -/
def File.text (f : File) (p : String) : Option String := (f.pvals.lookup p).join

/-- `NULL_PARTITION_VALUE_DATA_PATH` (`crates/sail-delta-lake/src/conversion/scalar.rs:42`). -/
def hiveNull : String := "__HIVE_DEFAULT_PARTITION__"

/-- `parse_optional_partition_value` (`crates/sail-delta-lake/src/conversion/scalar.rs:537-556`):
the value that rows of the file have for a partition column. A text that cannot be parsed is an
error there and null here. -/
def readPart (ty : Ty) : Option String → Val
  | none => .null
  | some s => if s = "" ∨ s = hiveNull then .null else castVal ty (.raw s)

/-- A row as a query sees it: partition columns and stored columns. -/
def seen (t : Table) (f : File) (r : Row) : Row :=
  t.parts.map (fun p => (p.1, readPart p.2 (f.text p.1))) ++ r

/-- The columns of a row. -/
def envOf (r : Row) (n : String) : Val := (r.lookup n).getD .null

/-- The statistics of a file as a struct. -/
def Stats.toVal (s : Stats) : Val :=
  .struct [("numRecords", s.numRecords), ("minValues", s.minValues), ("maxValues", s.maxValues),
    ("nullCount", s.nullCount)]

/-- The metadata row of a file: partition columns under their logical names with their texts
(`crates/sail-delta-lake/src/physical_plan/planner/utils.rs:647-652`) and `stats_parsed`
(`crates/sail-delta-lake/src/physical_plan/metadata_stats_exec.rs:104-148`), null where the file
has no statistics. The other columns of the metadata row are not read by predicates. -/
def metaEnv (t : Table) (f : File) (n : String) : Val :=
  if (t.parts.map Prod.fst).contains n then
    match f.text n with
    | some s => .raw s
    | none => .null
  else if n = "stats_parsed" then
    match f.stats with
    | some s => s.toVal
    | none => .null
  else .null

/-- `build_metadata_filter` (`metadata_predicate.rs:33-64`): the filter passes the metadata row of
the file when the rewritten predicate is true. Simplification of the rewritten predicate is the
engine's and keeps its value. -/
def chosen (t : Table) (e : Expr) (f : File) : Bool :=
  (eval (metaEnv t f) (rewrite t e)).toB == some true

/-- `expr_is_exact_predicate_for_cols`
(`crates/sail-delta-lake/src/datasource/expressions.rs:75-117`). -/
def applicable (parts : List String) : Expr → Bool
  | .col n => parts.contains n
  | .cmp _ l r => applicable parts l && applicable parts r
  | .and l r => applicable parts l && applicable parts r
  | .or l r => applicable parts l && applicable parts r
  | .lit _ => true
  | .not e => applicable parts e
  | .isNotNull e => applicable parts e
  | .isNull e => applicable parts e
  | .between e _ lo hi => applicable parts e && applicable parts lo && applicable parts hi
  | .inList e _ _ => applicable parts e
  | .field _ _ => false
  | .cast _ _ => false
  | .alias _ => false
  | .other _ _ => false

/-- `get_pushdown_filters` for one filter: whether it is reported as `Exact`
(`crates/sail-delta-lake/src/datasource/expressions.rs:56-72`). -/
def reportedExact (t : Table) (e : Expr) : Bool :=
  !e.free && applicable (t.parts.map Prod.fst) e

end Verif.Delta.MetaFilter
