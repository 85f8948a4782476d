/-!
# Filters pushed to Python data sources

`crates/sail-data-source/src/formats/python/filter.rs` and `table_provider.rs` next to it; line
numbers below refer to the former unless stated otherwise. Texts are lists of characters.

Values are null, booleans, integers and texts. Floating point numbers are left out. Dates and
timestamps are handed to Python as integers (`to_python`, 134-135), which is also how the row path
reads them, so they are integers here.
-/

namespace Verif.PySource

abbrev Text := List Char

/-- The value of a column in a row. -/
inductive Val
  | null
  | bool (b : Bool)
  | int (i : Int)
  | str (s : Text)
deriving DecidableEq, Repr

/-- The target of a cast. -/
inductive Ty
  | bool
  | int
  | str
deriving DecidableEq, Repr

/-- `ScalarValue`, as far as `from_scalar` (109-122) tells values apart: the untyped null, a null of
some type, and values; `bits` is the width of an integer. -/
inductive Lit
  | null
  | typedNull
  | bool (b : Bool)
  | int (bits : Nat) (i : Int)
  | str (s : Text)
deriving DecidableEq, Repr

/-- The value of a literal. -/
def Lit.val : Lit → Val
  | .null => .null
  | .typedNull => .null
  | .bool b => .bool b
  | .int _ i => .int i
  | .str s => .str s

/-- Expressions that are operands; `other` is any expression that is no column, literal or cast, with
its value in each row. -/
inductive Scalar
  | col (name : String)
  | lit (l : Lit)
  | cast (e : Scalar) (t : Ty)
  | other (f : (String → Val) → Val)

inductive Cmp
  | eq | ne | lt | le | gt | ge
deriving DecidableEq, Repr

/-- Conditions. A comparison whose operand is itself a condition has an operand `other`. The
pattern of LIKE is any operand. -/
inductive Pred
  | scalar (e : Scalar)
  | cmp (op : Cmp) (l r : Scalar)
  | and (l r : Pred)
  | or (l r : Pred)
  | isNull (e : Scalar)
  | isNotNull (e : Scalar)
  | not (p : Pred)
  | inList (e : Scalar) (items : List Scalar) (negated : Bool)
  | like (negated : Bool) (e pattern : Scalar) (escape : Option Char) (ignoreCase : Bool)

/-- `PythonFilter` (21-88). A column path has one part here, as `expr_to_column` never makes more;
`EqualNullSafe` is never made. -/
inductive PyFilter
  | equalTo (c : String) (v : Lit)
  | greaterThan (c : String) (v : Lit)
  | greaterThanOrEqual (c : String) (v : Lit)
  | lessThan (c : String) (v : Lit)
  | lessThanOrEqual (c : String) (v : Lit)
  | isNull (c : String)
  | isNotNull (c : String)
  | isIn (c : String) (vs : List Lit)
  | not (f : PyFilter)
  | and (l r : PyFilter)
  | or (l r : PyFilter)
  | startsWith (c : String) (s : Text)
  | endsWith (c : String) (s : Text)
  | contains (c : String) (s : Text)
deriving DecidableEq, Repr

/-- `FilterValue::from_scalar` (109-122): nulls that have a type and integers of other widths are not
supported. -/
def fromScalar : Lit → Option Lit
  | .null => some .null
  | .typedNull => none
  | .bool b => some (.bool b)
  | .int bits i => if bits = 32 ∨ bits = 64 then some (.int bits i) else none
  | .str s => some (.str s)

/-- `expr_to_column` (265-271): casts are skipped. -/
def exprToColumn : Scalar → Option String
  | .col n => some n
  | .cast e _ => exprToColumn e
  | _ => none

/-- `expr_to_value` (274-280): casts are skipped. -/
def exprToValue : Scalar → Option Lit
  | .lit l => fromScalar l
  | .cast e _ => exprToValue e
  | _ => none

/-- The filter for a comparison (166-174). -/
def cmpFilter : Cmp → String → Lit → PyFilter
  | .eq, c, v => .equalTo c v
  | .ne, c, v => .not (.equalTo c v)
  | .lt, c, v => .lessThan c v
  | .le, c, v => .lessThanOrEqual c v
  | .gt, c, v => .greaterThan c v
  | .ge, c, v => .greaterThanOrEqual c v

/-- The values of an IN list, if all are supported (216). -/
def exprsToValues : List Scalar → Option (List Lit)
  | [] => some []
  | e :: es => (exprToValue e).bind (fun v => (exprsToValues es).map (v :: ·))

/-- The filter for a pattern (235-256). `pattern.len()` counts bytes; a pattern that starts and ends
with `%` has more than two bytes exactly if it has more than two characters. -/
def likeFilter (c : String) (p : Text) : Option PyFilter :=
  if p.head? = some '%' ∧ p.getLast? = some '%' ∧ 2 < p.length then
    if '%' ∉ (p.drop 1).dropLast ∧ '_' ∉ (p.drop 1).dropLast then some (.contains c (p.drop 1).dropLast) else none
  else if p.getLast? = some '%' ∧ '%' ∉ p.dropLast then some (.startsWith c p.dropLast)
  else if p.head? = some '%' ∧ '%' ∉ p.drop 1 then some (.endsWith c (p.drop 1))
  else none

/-- A condition as an operand. -/
def Pred.scalar? : Pred → Option Scalar
  | .scalar e => some e
  | _ => none

/-- `expr_to_filter` (159-262). For AND and OR the operands are first taken as column and value
(163-164), as for every binary operator. -/
def exprToFilter : Pred → Option PyFilter
  | .scalar _ => none
  | .cmp op l r => (exprToColumn l).bind (fun c => (exprToValue r).map (cmpFilter op c))
  | .and l r =>
    (l.scalar?.bind exprToColumn).bind (fun _ => (r.scalar?.bind exprToValue).bind (fun _ =>
      (exprToFilter l).bind (fun f => (exprToFilter r).map (.and f))))
  | .or l r =>
    (l.scalar?.bind exprToColumn).bind (fun _ => (r.scalar?.bind exprToValue).bind (fun _ =>
      (exprToFilter l).bind (fun f => (exprToFilter r).map (.or f))))
  | .isNull e => (exprToColumn e).map .isNull
  | .isNotNull e => (exprToColumn e).map .isNotNull
  | .not p => (exprToFilter p).map .not
  | .inList e items negated =>
    (exprToColumn e).bind (fun c => (exprsToValues items).map (fun vs =>
      if negated then .not (.isIn c vs) else .isIn c vs))
  | .like _ e pattern _ _ =>
    (exprToColumn e).bind (fun c =>
      match pattern with
      | .lit (.str p) => likeFilter c p
      | _ => none)

/-- `exprs_to_python_filters` (144-156), the pushed part. -/
def pushed (ps : List Pred) : List PyFilter := ps.filterMap exprToFilter

/-- `scan` and `supports_filters_pushdown` (`table_provider.rs:75-147`): the reader is given the
pushed filters and returns some rows; every condition is applied again above the scan, since no
filter is declared exact. -/
def scan {Row : Type} (reader : List PyFilter → List Row) (above : Pred → Row → Bool) (ps : List Pred) : List Row :=
  (reader (pushed ps)).filter (fun r => ps.all (fun p => above p r))

end Verif.PySource
