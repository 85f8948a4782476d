/-!
# Delta schemas and column mapping

Models the schema types of crates/sail-delta-lake/src/spec/schema.rs, the column mapping
annotation of schema/mapping.rs and `evolve_schema` of schema/manager.rs.

Simplifications common to the whole file:
* Of the metadata of a field only `delta.columnMapping.id`, `delta.columnMapping.physicalName` and
  `delta.typeChanges` are kept. The Parquet field ids, which annotation strips, and user metadata
  are left out.
* `DataType::Variant` is left out: it is a leaf that is handled like a primitive type.
* A generated physical name `col-<uuid>` is a number: the position of the generated uuid in the
  sequence of all uuids ever generated. Uuids are taken not to repeat.
-/

namespace Verif.Delta.Schema

/-- `PrimitiveType`, spec/schema.rs:284-304. -/
inductive Prim where
  | string
  | long
  | integer
  | short
  | byte
  | float
  | double
  | boolean
  | binary
  | date
  | timestamp
  | timestampNtz
  | decimal (precision scale : Nat)
  deriving Repr, DecidableEq

/-- A segment of the field path of a type change: `"element"`, `"key"` or `"value"`. -/
inductive Seg where
  | element
  | key
  | value
  deriving Repr, DecidableEq

/-- `TypeChange`, schema/type_widening.rs:12-17. The types are atomic, as `parse_atomic_delta_type`
requires; the table version, always absent in new changes, is left out. -/
structure Change where
  from_ : Prim
  to_ : Prim
  path : List Seg
  deriving Repr, DecidableEq

/-- `StructField` without its type, spec/schema.rs: the name, the nullability, and from the
metadata the column mapping id and physical name and the type changes. -/
structure Hdr where
  name : String
  nullable : Bool
  id : Option Int
  phys : Option Nat
  changes : Option (List Change)
  deriving Repr, DecidableEq

mutual
/-- `DataType`, spec/schema.rs. -/
inductive Ty where
  | prim (p : Prim)
  | struct (fs : Flds)
  | array (element : Ty) (nulls : Bool)
  | map (key value : Ty) (nulls : Bool)
/-- The fields of a `StructType`, spec/schema.rs, in order. -/
inductive Flds where
  | nil
  | cons (h : Hdr) (t : Ty) (rest : Flds)
end

deriving instance DecidableEq, Repr for Ty, Flds

/-- The names of the fields. -/
def Flds.names : Flds → List String
  | .nil => []
  | .cons h _ r => h.name :: r.names

/-- `StructType::try_new(..).unwrap_or_else(empty_struct_type)`, spec/schema.rs:530-544 and
schema/mapping.rs:259-262: fields with a repeated name make an empty struct. -/
def tryNew (fs : Flds) : Flds :=
  if fs.names.Nodup then fs else .nil

/-- The state of annotation: the `AtomicI64` counter of ids, and the number of uuids generated so
far. -/
structure Ctr where
  next : Int
  uuid : Nat
  deriving Repr, DecidableEq

/-- One id and one uuid taken, schema/mapping.rs:124-125. -/
def Ctr.take (c : Ctr) : Ctr :=
  { next := c.next + 1, uuid := c.uuid + 1 }

/-- The metadata of an annotated field, schema/mapping.rs:126-137: the new id and name replace
whatever the field carried. -/
def mark (h : Hdr) (c : Ctr) : Hdr :=
  { h with id := some c.next, phys := some c.uuid }

mutual
/-- `annotate_nested_type`, schema/mapping.rs:148-171, which is also `merge_types(None, ..)`,
mapping.rs:202. -/
def annotateTy : Ty → Ctr → Ty × Ctr
  | .prim p, c => (.prim p, c)
  | .struct fs, c =>
    let r := annotateFlds fs c
    (.struct (tryNew r.1), r.2)
  | .array e n, c =>
    let r := annotateTy e c
    (.array r.1 n, r.2)
  | .map k v n, c =>
    let r := annotateTy k c
    let s := annotateTy v r.2
    (.map r.1 s.1 n, s.2)
/-- `annotate_field` over the fields in order, schema/mapping.rs:123-146: a field takes its id
before its nested fields do. -/
def annotateFlds : Flds → Ctr → Flds × Ctr
  | .nil, c => (.nil, c)
  | .cons h t r, c =>
    let a := annotateTy t c.take
    let b := annotateFlds r a.2
    (.cons (mark h c) a.1 b.1, b.2)
end

/-- The first field that satisfies a condition, as `Iterator::find`. -/
def Flds.find (p : Hdr → Bool) : Flds → Option (Hdr × Ty)
  | .nil => none
  | .cons h t r => if p h then some (h, t) else r.find p

/-- The lookup of a field by an optional key of the candidate, schema/mapping.rs:211-227. -/
def findBy {α : Type} [DecidableEq α] (key : Hdr → Option α) (h : Hdr) (fs : Flds) :
    Option (Hdr × Ty) :=
  match key h with
  | none => none
  | some k => fs.find (fun g => key g == some k)

/-- `find_matching_field`, schema/mapping.rs:207-233: by id, then by physical name, then by
name. -/
def findMatching (h : Hdr) (fs : Flds) : Option (Hdr × Ty) :=
  match findBy Hdr.id h fs with
  | some x => some x
  | none =>
    match findBy Hdr.phys h fs with
    | some x => some x
    | none => fs.find (fun g => g.name == h.name)

/-- `merge_metadata`, schema/mapping.rs:101-121, with the name and nullability of the new field,
mapping.rs:245-250: the mapping keys of the previous field win, other keys of the new field win, and
other keys of the previous field stay. -/
def mergeHdr (prev new : Hdr) : Hdr :=
  { name := new.name, nullable := new.nullable, id := prev.id.or new.id, phys := prev.phys.or new.phys, changes := new.changes.or prev.changes }

mutual
/-- `merge_types(Some(prev), new)`, schema/mapping.rs:173-205: types of different kinds, and
primitive types, are taken over as they are. -/
def mergeTy : Ty → Ty → Ctr → Ty × Ctr
  | new, prev, c =>
    match new, prev with
    | .struct ns, .struct ps =>
      let r := mergeFlds ns ps c
      (.struct (tryNew r.1), r.2)
    | .array e n, .array pe _ =>
      let r := mergeTy e pe c
      (.array r.1 n, r.2)
    | .map k v n, .map pk pv _ =>
      let r := mergeTy k pk c
      let s := mergeTy v pv r.2
      (.map r.1 s.1 n, s.2)
    | other, _ => (other, c)
/-- `merge_struct`, schema/mapping.rs:235-257: a field that matches an existing one is merged with
it, another one is annotated. -/
def mergeFlds : Flds → Flds → Ctr → Flds × Ctr
  | .nil, _, c => (.nil, c)
  | .cons h t r, ps, c =>
    match findMatching h ps with
    | some (g, u) =>
      let a := mergeTy t u c
      let b := mergeFlds r ps a.2
      (.cons (mergeHdr g h) a.1 b.1, b.2)
    | none =>
      let a := annotateTy t c.take
      let b := mergeFlds r ps a.2
      (.cons (mark h c) a.1 b.1, b.2)
end

mutual
/-- `max_in_data_type`, schema/mapping.rs:54-67. -/
def maxIdTy : Ty → Int
  | .prim _ => 0
  | .struct fs => maxId fs
  | .array e _ => maxIdTy e
  | .map k v _ => max (maxIdTy k) (maxIdTy v)
/-- `compute_max_column_id`, schema/mapping.rs:53-76. The maximum of no fields is 0. The maximum is
started from 0, which differs from the code only if all ids are negative. -/
def maxId : Flds → Int
  | .nil => 0
  | .cons h t r => max (max (h.id.getD 0) (maxIdTy t)) (maxId r)
end

/-- A table: its schema and its property `delta.columnMapping.maxColumnId`, if set to a number; and
the number of uuids generated so far. -/
structure Table where
  schema : Flds
  maxColumnId : Option Int
  uuids : Nat
  deriving Repr

/-- The creation of a table with column mapping, physical_plan/write_context.rs:200-210 and
table_format.rs:296-306, with `annotate_schema_for_column_mapping`, schema/mapping.rs:24-31. -/
def create (schema : Flds) (uuids : Nat) : Table :=
  let r := annotateFlds schema { next := 1, uuid := uuids }
  { schema := tryNew r.1, maxColumnId := some (maxId (tryNew r.1)), uuids := r.2.uuid }

/-- `evolve_schema` in a column mapping mode, schema/manager.rs:176-203, with
`annotate_new_fields_for_column_mapping`, schema/mapping.rs:36-50. -/
def evolve (t : Table) (candidate : Flds) : Table :=
  let start := t.maxColumnId.getD (maxId t.schema) + 1
  let r := mergeFlds candidate t.schema { next := start, uuid := t.uuids }
  { schema := tryNew r.1, maxColumnId := some (if r.2.next > start then r.2.next - 1 else start - 1), uuids := r.2.uuid }

end Verif.Delta.Schema
