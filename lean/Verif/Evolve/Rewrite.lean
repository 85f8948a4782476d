import Verif.Evolve.Cast

/-!
# Reading files with an older schema: expressions pushed into the scan

Models crates/sail-common-datafusion/src/schema_evolution.rs:94-388. The schema of the table is `logical`, the
schema of the file `physical`.
-/

namespace Verif.Evolve

/-- A physical expression: a column with its name and its index, a literal (`none` is NULL), the cast that the
adapter inserts (`SchemaEvolutionCastColumnExpr`), `get_field`, and any other function, with two arguments
(other numbers of arguments are handled alike: `transform` visits all children). -/
inductive Expr where
  | col (name : String) (index : Nat)
  | lit (ty : Ty) (value : Option Int)
  | evolve (e : Expr) (source target : Fld)
  | get (e : Expr) (field : String)
  | op (f : Nat) (l r : Expr)
deriving DecidableEq

/-- `Schema::index_of`: the first field with the name. -/
def indexOf (schema : List Fld) (name : String) : Option Nat :=
  schema.findIdx? fun f => decide (f.name = name)

/-- The default value of a column that the file does not have, schema_evolution.rs:127-143: NULL, or
`ScalarValue::new_zero` if the column is required (`zero`; `none` if the type has no zero). -/
def defaultValue (zero : Ty → Option Int) (f : Fld) : Expr :=
  if f.nullable then .lit f.ty none
  else
    match zero f.ty with
    | some z => .lit f.ty (some z)
    | none => .lit (.leaf 0) none

/-- `handle_existing_column` and `apply_type_cast`, schema_evolution.rs:322-388. -/
def existingColumn (leafCan : Nat → Nat → Bool) (m : Matching) (physical : List Fld) (name : String) (index : Nat)
    (lf pf : Fld) (pi : Nat) : Option Expr :=
  (if index ≠ pi ∨ name ≠ pf.name then (indexOf physical pf.name).map (Expr.col pf.name)
    else some (.col name index)).bind fun column =>
  if lf.ty = pf.ty then some column
  else if canCast leafCan m pf lf then some (.evolve column pf lf)
  else none

/-- `rewrite_column`, schema_evolution.rs:264-320, with the entry of `create_column_mapping`, 113-149, for the
column. -/
def rewriteColumn (leafCan : Nat → Nat → Bool) (zero : Ty → Option Int) (m : Matching) (logical physical : List Fld)
    (name : String) (index : Nat) : Option Expr :=
  match indexOf logical name with
  | none => if (indexOf physical name).isSome then some (.col name index) else none
  | some li =>
    match logical[li]? with
    | none => none
    | some lf =>
      match find m physical lf with
      | none => some (defaultValue zero lf)
      | some pi =>
        match physical[pi]? with
        | none => none
        | some pf => existingColumn leafCan m physical name index lf pf pi

/-- The struct fields of a type. -/
def Ty.fields : Ty → Option Flds
  | .struct fs => some fs
  | _ => none

/-- The type of the NULL that replaces `get_field` of the column with this name,
`try_rewrite_struct_field_access`, schema_evolution.rs:226-262; `none` if it is left alone. -/
def droppedField (m : Matching) (logical physical : List Fld) (name field : String) : Option Ty :=
  (indexOf logical name).bind fun li =>
  (logical[li]?).bind fun lf =>
  (find m physical lf).bind fun pi =>
  (physical[pi]?).bind fun pf =>
  (pf.ty.fields).bind fun pfs =>
  (lf.ty.fields).bind fun lfs =>
  (lfs.toList.find? fun f => decide (f.name = field)).bind fun t =>
  if (find m pfs.toList t).isSome then none else some t.ty

/-- `rewrite_expr` at a `get_field`, schema_evolution.rs:183-225; its arguments are already rewritten. -/
def rewriteGet (m : Matching) (logical physical : List Fld) (field : String) : Expr → Expr
  | .col name index =>
    match droppedField m logical physical name field with
    | some t => .lit t none
    | none => .get (.col name index) field
  | e => .get e field

/-- `rewrite`, schema_evolution.rs:158-170: `transform` works from the leaves upwards; `none` is an error. -/
def rewrite (leafCan : Nat → Nat → Bool) (zero : Ty → Option Int) (m : Matching) (logical physical : List Fld) :
    Expr → Option Expr
  | .col name index => rewriteColumn leafCan zero m logical physical name index
  | .lit t v => some (.lit t v)
  | .evolve e s t => (rewrite leafCan zero m logical physical e).map fun e => .evolve e s t
  | .get e field => (rewrite leafCan zero m logical physical e).map (rewriteGet m logical physical field)
  | .op f l r =>
    (rewrite leafCan zero m logical physical l).bind fun l =>
    (rewrite leafCan zero m logical physical r).map fun r => .op f l r

end Verif.Evolve
