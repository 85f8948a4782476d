/-!
# Merging the schema of an input into the schema of a Delta table

Models crates/sail-delta-lake/src/conversion/type_promotion.rs (`tp`), physical_plan/write_context.rs (`wc`) and
schema/type_widening.rs (`tw`), for tables without column mapping whose property `delta.enableTypeWidening` is not set
and that have no recorded type changes.

Simplifications. Names in the table and in its structs are distinct. Kinds of lists, strings and binary values are not
kept apart; sizes of lists, variants and the sorting of maps are left out. The entries of a map are its key and value.
The notes of a field are its metadata.
-/

namespace Verif.Delta.MergeSchema

/-- Plain types. -/
inductive Prim where
  | decimal (precision scale : Nat)
  | other (n : Nat)
deriving DecidableEq

mutual
/-- Types. -/
inductive Ty where
  | prim (b : Prim)
  | struct (fields : Flds)
  | list (element : Fld)
  | map (key value : Fld)
deriving DecidableEq
/-- A field: name, whether it may be NULL, metadata, type. -/
inductive Fld where
  | mk (name : String) (nullable : Bool) (notes : List (String × String)) (ty : Ty)
deriving DecidableEq
/-- A list of fields. -/
inductive Flds where
  | nil
  | cons (f : Fld) (rest : Flds)
deriving DecidableEq
end

/-- The name. -/
def Fld.name : Fld → String
  | .mk n _ _ _ => n

/-- Whether the field may be NULL. -/
def Fld.nullable : Fld → Bool
  | .mk _ b _ _ => b

/-- The metadata. -/
def Fld.notes : Fld → List (String × String)
  | .mk _ _ m _ => m

/-- The type. -/
def Fld.ty : Fld → Ty
  | .mk _ _ _ t => t

/-- The fields as a list. -/
def Flds.toList : Flds → List Fld
  | .nil => []
  | .cons f rest => f :: rest.toList

/-- The list as fields. -/
def Flds.ofList : List Fld → Flds
  | [] => .nil
  | f :: rest => .cons f (.ofList rest)

/-- The fields of a struct. -/
def Ty.asStruct : Ty → Option (List Fld)
  | .struct fs => some fs.toList
  | _ => none

/-- The element of a list. -/
def Ty.asList : Ty → Option Fld
  | .list e => some e
  | _ => none

/-- The key and value of a map. -/
def Ty.asMap : Ty → Option (Fld × Fld)
  | .map k v => some (k, v)
  | _ => none

/-- What arrow's `can_cast_types` says. -/
structure Env where
  canCast : Ty → Ty → Bool

/-- `decimal_widening_supported`, tp:269-278. -/
def widens (p s p' s' : Nat) : Bool := decide (s ≤ s') && decide (p + (s' - s) ≤ p')

/-- The last cases of `promote_field_types`, tp:148-184: two decimals, and all other pairs; the table's type first. -/
def cast (E : Env) : Ty → Ty → Option Ty
  | .prim (.decimal p s), .prim (.decimal p' s') =>
    if widens p' s' p s then some (.prim (.decimal p s))
    else if widens p s p' s' then some (.prim (.decimal p' s'))
    else none
  | table, input =>
    if E.canCast table input then some input
    else if E.canCast input table then some table
    else none

/-- The field in the place of the one with its name. -/
def replace (fs : List Fld) (f : Fld) : List Fld := fs.map fun e => if e.name = f.name then f else e

mutual
/-- `promote_field_types`, tp:51-198; the input comes first. The metadata is not taken over, tp:55-62 and 187-189. -/
def promote (E : Env) : Fld → Fld → Option Fld
  | .mk _ b _ t, e =>
    if e.ty = t then some (.mk e.name (e.nullable || b) [] e.ty)
    else (promoteTy E t e.ty).map fun u => .mk e.name (e.nullable || b) [] u
/-- The match on the types, tp:64-184. -/
def promoteTy (E : Env) : Ty → Ty → Option Ty
  | .prim b, old => cast E old (.prim b)
  | .struct cs, old =>
    old.asStruct.elim (cast E old (.struct cs)) fun es => (promoteFlds E cs es).map fun fs => .struct (.ofList fs)
  | .list c, old => old.asList.elim (cast E old (.list c)) fun e => (promote E c e).map .list
  | .map k v, old =>
    old.asMap.elim (cast E old (.map k v)) fun p => (promote E k p.1).bind fun a => (promote E v p.2).map fun b => .map a b
/-- The loop over the fields of the input, tp:70-78, and over its columns, `merge_schemas`, wc:513-523. -/
def promoteFlds (E : Env) : Flds → List Fld → Option (List Fld)
  | .nil, acc => some acc
  | .cons c rest, acc =>
    (acc.find? fun e => decide (e.name = c.name)).elim (promoteFlds E rest (acc ++ [c])) fun e =>
      (promote E c e).bind fun f => promoteFlds E rest (replace acc f)
end

mutual
/-- `collect_data_type_changes`, tw:525-585: whether there are no changes and no error; the new type comes first. -/
def keptTy : Ty → Ty → Bool
  | .prim b, old => decide (old = .prim b)
  | .struct cs, old => old.asStruct.elim false fun es => keptFlds cs es
  | .list c, old => old.asList.elim false fun e => keptFld c e
  | .map k v, old => old.asMap.elim false fun p => keptFld k p.1 && keptFld v p.2
/-- The types of two fields. -/
def keptFld : Fld → Fld → Bool
  | .mk _ _ _ t, e => keptTy t e.ty
/-- `collect_struct_type_changes`, tw:502-523. -/
def keptFlds : Flds → List Fld → Bool
  | .nil, _ => true
  | .cons c rest, es => (es.find? fun e => decide (e.name = c.name)).elim true (fun e => keptFld c e) && keptFlds rest es
end

/-- The case of `mergeSchema` in `handle_schema_evolution`, wc:422-475: the columns, and whether the table gets them as
its new schema. -/
def merge (E : Env) (table input : List Fld) : Option (List Fld × Bool) :=
  (promoteFlds E (.ofList input) table).bind fun merged =>
  if merged = table then some (table, false)
  else if keptFlds (.ofList merged) table then some (merged, true)
  else none

end Verif.Delta.MergeSchema
