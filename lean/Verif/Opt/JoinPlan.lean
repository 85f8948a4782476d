import Mathlib.Data.List.Perm.Basic
import Verif.Base.Sort

/-! # Physical plans seen by the join reorder rule

Source: `crates/sail-physical-optimizer/src/join_reorder/{builder,reconstructor}.rs` and the DataFusion operators
they match on (`HashJoinExec`, `NestedLoopJoinExec`, `CrossJoinExec`, `ProjectionExec`, `FilterExec`), whose
semantics below are those of SQL. -/

namespace Verif.Opt

/-- A row of nullable values. -/
abbrev Row (α : Type) := List (Option α)

/-- The value of column `i` of a row (a missing column reads as NULL; the theorems only speak of valid plans). -/
def Row.at {α : Type} (r : Row α) (i : Nat) : Option α := (r[i]?).join

/-- A predicate over columns named by `C`: `AND` and equality of two plain columns are the shapes that the rule
inspects (`decompose_conjuncts` builder.rs:339-354, `extract_non_equi_from_expression` reconstructor.rs:1205-1253,
`is_equi_join_condition` :1256-1278); every other expression is a function of the columns it mentions. -/
inductive Expr (α C : Type) where
  | and (l r : Expr α C)
  | eq (l r : C)
  | other (cols : List C) (f : List (Option α) → Option Bool)

/-- SQL conjunction. -/
def and3 : Option Bool → Option Bool → Option Bool
  | some false, _ => some false
  | _, some false => some false
  | some true, some true => some true
  | _, _ => none

/-- SQL equality. -/
def eq3 {α : Type} [DecidableEq α] : Option α → Option α → Option Bool
  | some a, some b => some (a == b)
  | _, _ => none

namespace Expr

variable {α C D : Type} [DecidableEq α]

def eval (env : C → Option α) : Expr α C → Option Bool
  | .and l r => and3 (l.eval env) (r.eval env)
  | .eq l r => eq3 (env l) (env r)
  | .other cols f => f (cols.map env)

/-- `collect_columns`. -/
def cols : Expr α C → List C
  | .and l r => l.cols ++ r.cols
  | .eq l r => [l, r]
  | .other cs _ => cs

/-- Replacing every column (`TreeNode::transform` with a closure that acts on `Column` nodes). -/
def map (g : C → D) : Expr α C → Expr α D
  | .and l r => .and (l.map g) (r.map g)
  | .eq l r => .eq (g l) (g r)
  | .other cs f => .other (cs.map g) f

/-- Replacing every column, failing when one of them cannot be replaced. -/
def mapM [Inhabited D] (g : C → Option D) (e : Expr α C) : Option (Expr α D) :=
  if e.cols.all fun c => (g c).isSome then some (e.map fun c => (g c).getD default) else none

/-- builder.rs:339-354 and reconstructor.rs:1073-1087. -/
def conjuncts : Expr α C → List (Expr α C)
  | .and l r => l.conjuncts ++ r.conjuncts
  | e => [e]

end Expr

/-- The side of a join a column comes from (`JoinSide`). -/
inductive Side where
  | left | right
  deriving DecidableEq

/-- `JoinFilter`: an expression over positions in `indices`, which name columns of the two inputs. -/
structure JoinFilter (α : Type) where
  expr : Expr α Nat
  indices : List (Side × Nat)

/-- An expression of a projection or a join key: a plain column or something else. -/
inductive Scalar (α : Type) where
  | col (i : Nat)
  | other (f : Row α → Option α)

/-- The plans. `unary` and `binary` stand for every operator the rule does not look into (`agg` marks
`AggregateExec`); joins that are not inner joins are `binary`. `hashJoin` is an inner `HashJoinExec`; `nullEq` is
`NullEquality::NullEqualsNull`. -/
inductive Plan (α : Type) where
  | scan (width : Nat) (rows : List (Row α))
  | unary (agg : Bool) (width : Nat) (f : List (Row α) → List (Row α)) (input : Plan α)
  | binary (width : Nat) (f : List (Row α) → List (Row α) → List (Row α)) (left right : Plan α)
  | proj (exprs : List (Scalar α)) (input : Plan α)
  | hashJoin (left right : Plan α) (on : List (Scalar α × Scalar α)) (filter : Option (JoinFilter α))
      (projection : Option (List Nat)) (nullEq : Bool)
  | loopJoin (left right : Plan α) (filter : JoinFilter α) (projection : Option (List Nat))
  | cross (left right : Plan α)

section semantics

variable {α : Type} [DecidableEq α]

def Scalar.eval (r : Row α) : Scalar α → Option α
  | .col i => r.at i
  | .other f => f r

/-- Whether two key values match. -/
def keyEq (nullEq : Bool) (a b : Option α) : Bool :=
  match a, b with
  | some a, some b => a == b
  | none, none => nullEq
  | _, _ => false

/-- The value of a filter's column for a pair of rows. -/
def sideAt (a b : Row α) : Side × Nat → Option α
  | (.left, i) => a.at i
  | (.right, i) => b.at i

def JoinFilter.env (f : JoinFilter α) (a b : Row α) (k : Nat) : Option α :=
  match f.indices[k]? with
  | some si => sideAt a b si
  | none => none

def JoinFilter.keeps (f : JoinFilter α) (a b : Row α) : Bool := f.expr.eval (f.env a b) == some true

/-- All pairs of rows that satisfy a condition. -/
def joinRows (c : Row α → Row α → Bool) (l r : List (Row α)) : List (Row α) :=
  l.flatMap fun a => (r.filter (c a)).map fun b => a ++ b

/-- An embedded projection. -/
def pick (p : Option (List Nat)) (r : Row α) : Row α :=
  match p with
  | none => r
  | some is => is.map r.at

def onKeeps (on : List (Scalar α × Scalar α)) (nullEq : Bool) (a b : Row α) : Bool :=
  on.all fun k => keyEq nullEq (k.1.eval a) (k.2.eval b)

def filterKeeps (f : Option (JoinFilter α)) (a b : Row α) : Bool :=
  match f with
  | none => true
  | some f => f.keeps a b

/-- The rows a plan produces, in some order. -/
def Plan.rows : Plan α → List (Row α)
  | .scan _ rs => rs
  | .unary _ _ f p => f p.rows
  | .binary _ f l r => f l.rows r.rows
  | .proj es p => p.rows.map fun r => es.map (Scalar.eval r)
  | .hashJoin l r on f pj ne =>
    (joinRows (fun a b => onKeeps on ne a b && filterKeeps f a b) l.rows r.rows).map (pick pj)
  | .loopJoin l r f pj => (joinRows f.keeps l.rows r.rows).map (pick pj)
  | .cross l r => joinRows (fun _ _ => true) l.rows r.rows

end semantics

/-- Number of output columns (`plan.schema().fields().len()`). -/
def Plan.width {α : Type} : Plan α → Nat
  | .scan w _ => w
  | .unary _ w _ _ => w
  | .binary w _ _ _ => w
  | .proj es _ => es.length
  | .hashJoin l r _ _ pj _ => match pj with
    | none => l.width + r.width
    | some is => is.length
  | .loopJoin l r _ pj => match pj with
    | none => l.width + r.width
    | some is => is.length
  | .cross l r => l.width + r.width

end Verif.Opt
