/-!
# Field ids of Iceberg schemas

Models crates/sail-iceberg/src/schema_evolution.rs:297-822 and crates/sail-iceberg/src/spec/schema/mod.rs:165-230.

Simplifications. The Arrow schema of the input is given as the Iceberg schema that `arrow_field_to_iceberg` makes of
it (datasource/type_converter.rs:121-258; the id is the one in the metadata, or 0). Plain types are numbers. Ids are
natural numbers, their 32 bits do not overflow. Names in one struct are unique, so that a hash map by name is a
list; column names contain no dots, so that `field_by_name` of a schema only finds columns. Identifier fields,
partition fields, comments and the values of defaults are left out.
-/

namespace Verif.Iceberg.SchemaIds

mutual
/-- A type. -/
inductive Ty where
  | prim (n : Nat)
  | struct (fields : Flds)
  | list (element : Fld)
  | map (key value : Fld)
/-- A field: id, name, whether it is required, whether it has an initial default and a write default, type. -/
inductive Fld where
  | mk (id : Nat) (name : String) (required initial write : Bool) (ty : Ty)
/-- A list of fields. -/
inductive Flds where
  | nil
  | cons (f : Fld) (rest : Flds)
end

/-- The id. -/
def Fld.id : Fld → Nat
  | .mk i _ _ _ _ _ => i

/-- The name. -/
def Fld.name : Fld → String
  | .mk _ n _ _ _ _ => n

/-- Whether the field is required. -/
def Fld.required : Fld → Bool
  | .mk _ _ r _ _ _ => r

/-- `field_has_default`, schema_evolution.rs:148-150. -/
def Fld.hasDefault : Fld → Bool
  | .mk _ _ _ i w _ => w || i

/-- The type. -/
def Fld.ty : Fld → Ty
  | .mk _ _ _ _ _ t => t

/-- The field with another type. -/
def Fld.withTy : Fld → Ty → Fld
  | .mk i n r a w _, t => .mk i n r a w t

/-- The field with another id. -/
def Fld.withId : Fld → Nat → Fld
  | .mk _ n r a w t, i => .mk i n r a w t

/-- The fields as a list. -/
def Flds.toList : Flds → List Fld
  | .nil => []
  | .cons f rest => f :: rest.toList

/-- The list as fields. -/
def Flds.ofList : List Fld → Flds
  | [] => .nil
  | f :: rest => .cons f (.ofList rest)

/-- The plain type. -/
def Ty.asPrim : Ty → Option Nat
  | .prim n => some n
  | _ => none

/-- The fields of a struct. -/
def Ty.asStruct : Ty → Option (List Fld)
  | .struct fs => some fs.toList
  | _ => none

/-- The element of a list. -/
def Ty.asList : Ty → Option Fld
  | .list e => some e
  | _ => none

/-- The key and value of a map. -/
def Ty.asMap : Ty → Option (Fld × Fld)
  | .map k v => some (k, v)
  | _ => none

/-! ### New ids -/

mutual
/-- `assign_type_ids`, schema_evolution.rs:583-618. -/
def assignTy : Ty → Nat → Ty × Nat
  | .prim n, k => (.prim n, k)
  | .struct fs, k => (.struct (assignFlds fs k).1, (assignFlds fs k).2)
  | .list e, k => (.list (assignFld e k).1, (assignFld e k).2)
  | .map a b, k =>
    (.map (assignFld a k).1 (assignFld b (assignFld a k).2).1, (assignFld b (assignFld a k).2).2)
/-- A field gets the next id and then `assign_nested_ids`; the same is `reassign_ids_recursive`,
schema_evolution.rs:554-581. -/
def assignFld : Fld → Nat → Fld × Nat
  | .mk _ n r a w t, k => (.mk k n r a w (assignTy t (k + 1)).1, (assignTy t (k + 1)).2)
/-- The loop over the fields of a struct. -/
def assignFlds : Flds → Nat → Flds × Nat
  | .nil, k => (.nil, k)
  | .cons f rest, k =>
    (.cons (assignFld f k).1 (assignFlds rest (assignFld f k).2).1, (assignFlds rest (assignFld f k).2).2)
end

/-- `assign_schema_field_ids_starting_at`, schema_evolution.rs:538-552. -/
def assignSchema : List Fld → Nat → List Fld × Nat
  | [], k => ([], k)
  | f :: rest, k =>
    ((assignFld f k).1 :: (assignSchema rest (assignFld f k).2).1, (assignSchema rest (assignFld f k).2).2)

/-- The field is not required unless it has an initial default, schema_evolution.rs:520-522. -/
def Fld.optionalNew : Fld → Fld
  | .mk i n r a w t => .mk i n (r && a) a w t

/-- `build_field_from_arrow`, schema_evolution.rs:515-529. -/
def buildFld (f : Fld) (k : Nat) : Fld × Nat := ((assignFld f k).1.optionalNew, (assignFld f k).2)

/-! ### Merging -/

/-- A required field becomes optional if the input may have NULLs, schema_evolution.rs:378-381. -/
def Fld.relax (f : Fld) (required : Bool) : Fld :=
  match f with
  | .mk i n r a w t => .mk i n (r && required) a w t

/-- What may be written without changing the type, and what widens it (`field_types_compatible`,
`is_allowed_type_promotion`); and the order in which a hash map gives back its values. -/
structure Env where
  compatible : Nat → Nat → Bool
  promotes : Nat → Nat → Bool
  order : List Fld → List Fld

mutual
/-- `merge_field`, schema_evolution.rs:367-462; the input field comes first; the result is the field, whether it
changed, and the next free id. -/
def mergeFld (E : Env) : Fld → Fld → Nat → Option (Fld × Bool × Nat)
  | .mk _ _ req _ _ (.prim b), e, k =>
    e.ty.asPrim.bind fun a =>
    if E.promotes a b then some ((e.relax req).withTy (.prim b), true, k)
    else if E.compatible a b then some (e.relax req, e.required && !req, k)
    else none
  | .mk _ _ req _ _ (.struct cs), e, k =>
    e.ty.asStruct.bind fun es =>
    (mergeFlds E cs es k).bind fun r =>
    if r.2.1.any fun f => f.required && !f.hasDefault then none
    else some
      (if r.2.2.1 then (e.relax req).withTy (.struct (.ofList (r.1 ++ E.order r.2.1))) else e.relax req,
        (e.required && !req) || r.2.2.1, r.2.2.2)
  | .mk _ _ req _ _ (.list c), e, k =>
    e.ty.asList.bind fun ee =>
    (mergeFld E c ee k).bind fun r =>
    some (if r.2.1 then (e.relax req).withTy (.list r.1) else e.relax req, (e.required && !req) || r.2.1, r.2.2)
  | .mk _ _ req _ _ (.map ck cv), e, k =>
    e.ty.asMap.bind fun p =>
    (mergeFld E ck p.1 k).bind fun r =>
    if r.2.1 then none
    else
      (mergeFld E cv p.2 r.2.2).bind fun s =>
      some (if s.2.1 then (e.relax req).withTy (.map r.1 s.1) else e.relax req, (e.required && !req) || s.2.1, s.2.2)
/-- The first loop of `merge_struct`, schema_evolution.rs:469-498; the second argument is the pool. The result is
the new fields, the pool, whether something changed, and the next free id. -/
def mergeFlds (E : Env) : Flds → List Fld → Nat → Option (List Fld × List Fld × Bool × Nat)
  | .nil, pool, k => some ([], pool, false, k)
  | .cons c rest, pool, k =>
    (pool.find? fun f => decide (f.name = c.name)).elim
      ((mergeFlds E rest pool (buildFld c k).2).bind fun s =>
        some ((buildFld c k).1 :: s.1, s.2.1, true, s.2.2.2))
      fun e =>
        (mergeFld E c e k).bind fun r =>
        (mergeFlds E rest (pool.eraseP fun f => decide (f.name = c.name)) r.2.2).bind fun s =>
        some (r.1 :: s.1, s.2.1, r.2.1 || s.2.2.1, s.2.2.2)
end

/-- The first loop of `merge_schema`, schema_evolution.rs:310-329. -/
def mergeTop (E : Env) (input : List Fld) : List Fld → Nat → Option (List Fld × Bool × Nat)
  | [], k => some ([], false, k)
  | e :: rest, k =>
    match input.find? fun f => decide (f.name = e.name) with
    | some c =>
      (mergeFld E c e k).bind fun r =>
      (mergeTop E input rest r.2.2).bind fun s => some (r.1 :: s.1, r.2.1 || s.2.1, s.2.2)
    | none =>
      if e.required && !e.hasDefault then none
      else (mergeTop E input rest k).bind fun s => some (e :: s.1, s.2.1, s.2.2)

/-- The second loop of `merge_schema`, schema_evolution.rs:331-338. -/
def addNew (existing : List Fld) : List Fld → Nat → List Fld × Nat
  | [], k => ([], k)
  | c :: rest, k =>
    if existing.any fun e => decide (e.name = c.name) then addNew existing rest k
    else ((buildFld c k).1 :: (addNew existing rest (buildFld c k).2).1, (addNew existing rest (buildFld c k).2).2)

/-- `merge_schema`, schema_evolution.rs:297-365: the fields of the new schema. -/
def mergeSchema (E : Env) (last : Nat) (existing input : List Fld) : Option (List Fld) :=
  (mergeTop E input existing (last + 1)).bind fun r =>
  if r.2.1 || !(addNew existing input r.2.2).1.isEmpty then some (r.1 ++ (addNew existing input r.2.2).1)
  else some existing

/-! ### The last column id -/

/-- The fields of a type that is a struct; a list or a map in this place is not looked into. -/
def Ty.structFields : Ty → Flds
  | .struct fs => fs
  | _ => .nil

mutual
/-- The ids that `index_fields_recursive`, spec/schema/mod.rs:200-230, finds. -/
def indexed : Flds → List Nat
  | .nil => []
  | .cons f rest => indexedFld f ++ indexed rest
/-- One field of the loop. -/
def indexedFld : Fld → List Nat
  | .mk i _ _ _ _ (.prim _) => [i]
  | .mk i _ _ _ _ (.struct fs) => i :: indexed fs
  | .mk i _ _ _ _ (.list e) => i :: indexedPart e
  | .mk i _ _ _ _ (.map k v) => i :: (indexedPart k ++ indexedPart v)
/-- The element of a list, or the key or value of a map: its id, and its fields if it is a struct. -/
def indexedPart : Fld → List Nat
  | .mk i _ _ _ _ (.struct fs) => i :: indexed fs
  | .mk i _ _ _ _ _ => [i]
end

/-- `highest_field_id`, spec/schema/mod.rs:173; it becomes the last column id of a new table
(operations/bootstrap.rs:281), and of an old one if it is greater (physical_plan/commit/commit_exec.rs:211). -/
def highest (fs : List Fld) : Nat := (indexed (.ofList fs)).foldl max 0

/-! ### Overwriting -/

/-- Whether the types have the same discriminant, `types_share_shape`, schema_evolution.rs:152-154. -/
def Ty.sameKind : Ty → Ty → Bool
  | .prim _, .prim _ => true
  | .struct _, .struct _ => true
  | .list _, .list _ => true
  | .map _ _, .map _ _ => true
  | _, _ => false

mutual
/-- `reuse_nested_ids_from_existing`, schema_evolution.rs:620-697, on the types of the new and the old field. -/
def reuseTy : Ty → Ty → Nat → Ty × Nat
  | .prim n, _, k => (.prim n, k)
  | .struct cs, old, k =>
    old.asStruct.elim (.struct cs, k) fun es => (.struct (reuseFlds cs es k).1, (reuseFlds cs es k).2)
  | .list c, old, k =>
    old.asList.elim (.list c, k) fun e => (.list (reuseFld c e k).1, (reuseFld c e k).2)
  | .map ck cv, old, k =>
    old.asMap.elim (.map ck cv, k) fun p =>
      (.map (reusePart ck p.1 k).1 (reusePart cv p.2 (reusePart ck p.1 k).2).1,
        (reusePart cv p.2 (reusePart ck p.1 k).2).2)
/-- A field that takes the id of an old one. -/
def reuseFld : Fld → Fld → Nat → Fld × Nat
  | .mk _ n r a w t, e, k => (.mk e.id n r a w (reuseTy t e.ty k).1, (reuseTy t e.ty k).2)
/-- The key or the value of a map. -/
def reusePart : Fld → Fld → Nat → Fld × Nat
  | .mk i n r a w t, e, k =>
    if e.ty.sameKind t then (.mk e.id n r a w (reuseTy t e.ty k).1, (reuseTy t e.ty k).2)
    else assignFld (.mk i n r a w t) k
/-- The loop over the fields of a struct. -/
def reuseFlds : Flds → List Fld → Nat → Flds × Nat
  | .nil, _, k => (.nil, k)
  | .cons c rest, es, k =>
    (es.find? fun f => decide (f.name = c.name)).elim
      (.cons (assignFld c k).1 (reuseFlds rest es (assignFld c k).2).1, (reuseFlds rest es (assignFld c k).2).2)
      fun e => (.cons (reuseFld c e k).1 (reuseFlds rest es (reuseFld c e k).2).1,
        (reuseFlds rest es (reuseFld c e k).2).2)
end

/-- The loop of `overwrite_schema`, schema_evolution.rs:733-766: it treats the columns of the schema as
`reuse_nested_ids_from_existing` treats the fields of a struct. -/
def overwriteSchema (last : Nat) (existing input : List Fld) : List Fld :=
  (reuseFlds (.ofList input) existing (last + 1)).1.toList

end Verif.Iceberg.SchemaIds
