/-!
# Reading files with an older schema: types, arrays and casts

Models crates/sail-common-datafusion/src/schema_evolution.rs:391-527 and 775-1042.

Simplifications. Of the nested types only structs and lists are modelled (large lists and fixed-size lists are
treated alike in the code; maps match their two children by name). Variants and the relaxed time zone mode are
left out. Casts between a nested type and one without parts are refused here; Arrow knows a few of them.
-/

namespace Verif.Evolve

mutual
/-- A data type; a type without parts is a number, 0 being `Null`. -/
inductive Ty where
  | leaf (n : Nat)
  | list (element : Fld)
  | struct (fields : Flds)
/-- A field: name, `delta.columnMapping.physicalName`, field id, whether it may be NULL, type. -/
inductive Fld where
  | mk (name : String) (physical : Option String) (id : Option Nat) (nullable : Bool) (ty : Ty)
/-- A list of fields. -/
inductive Flds where
  | nil
  | cons (f : Fld) (rest : Flds)
end

deriving instance DecidableEq for Ty, Fld, Flds

/-- The name of a field. -/
def Fld.name : Fld → String
  | .mk n _ _ _ _ => n

/-- The physical name in the metadata. -/
def Fld.physical : Fld → Option String
  | .mk _ p _ _ _ => p

/-- `struct_field_id`, schema_evolution.rs:449-453; the three spellings of the key are one here. -/
def Fld.id : Fld → Option Nat
  | .mk _ _ i _ _ => i

/-- Whether the field may be NULL. -/
def Fld.nullable : Fld → Bool
  | .mk _ _ _ b _ => b

/-- The type of a field. -/
def Fld.ty : Fld → Ty
  | .mk _ _ _ _ t => t

/-- The fields as a list. -/
def Flds.toList : Flds → List Fld
  | .nil => []
  | .cons f rest => f :: rest.toList

/-- `StructFieldMatching`, schema_evolution.rs:24-30. -/
inductive Matching where
  | name | physicalName | fieldId
deriving DecidableEq

/-- Whether a field of the file is the one that a field of the table means. -/
def matchesField (m : Matching) (source target : Fld) : Bool :=
  match m with
  | .name => decide (source.name = target.name)
  | .physicalName =>
    match target.physical with
    | some p => decide (source.name = p)
    | none => false
  | .fieldId =>
    match target.id with
    | some i => decide (source.id = some i)
    | none => false

/-- `find_matching_struct_field`, schema_evolution.rs:455-484: the position of the first match. -/
def find (m : Matching) (sources : List Fld) (target : Fld) : Option Nat :=
  sources.findIdx? fun s => matchesField m s target

mutual
/-- `can_cast_field_with_schema_evolution`, schema_evolution.rs:391-438; an error and `Ok(false)` are both
`false`, because the caller makes an error of either (357-364, 507-514). `leafCan` is `can_cast_types` of
types without parts. -/
def canCast (leafCan : Nat → Nat → Bool) (m : Matching) (source : Fld) : Fld → Bool
  | .mk _ _ _ nullable (.leaf b) =>
    if source.ty = .leaf 0 then nullable
    else if source.nullable && !nullable then false
    else match source.ty with
      | .leaf a => decide (a = b) || leafCan a b
      | _ => false
  | .mk _ _ _ nullable (.list te) =>
    if source.ty = .leaf 0 then nullable
    else if source.nullable && !nullable then false
    else if source.ty = .list te then true
    else match source.ty with
      | .list se => canCast leafCan m se te
      | _ => false
  | .mk _ _ _ nullable (.struct tfs) =>
    if source.ty = .leaf 0 then nullable
    else if source.nullable && !nullable then false
    else if source.ty = .struct tfs then true
    else match source.ty with
      | .struct sfs =>
        (decide (m ≠ .name) || tfs.toList.any fun t => (find m sfs.toList t).isSome)
          && canCastFields leafCan m sfs.toList tfs
      | _ => false
/-- The loop of `validate_struct_compatibility_with_variant`, schema_evolution.rs:504-524. -/
def canCastFields (leafCan : Nat → Nat → Bool) (m : Matching) (sources : List Fld) : Flds → Bool
  | .nil => true
  | .cons t rest =>
    (match find m sources t with
      | some i =>
        match sources[i]? with
        | some s => canCast leafCan m s t
        | none => false
      | none => t.nullable)
    && canCastFields leafCan m sources rest
end

/-- `validate_struct_compatibility_with_variant`, schema_evolution.rs:486-527. -/
def validateStruct (leafCan : Nat → Nat → Bool) (m : Matching) (sfs tfs : Flds) : Bool :=
  (decide (m ≠ .name) || tfs.toList.any fun t => (find m sfs.toList t).isSome)
    && canCastFields leafCan m sfs.toList tfs

/-! ### Arrays -/

mutual
/-- An Arrow array: values without parts; a list array with, for each row, NULL or the range (start, length)
of its elements in the child array; a struct array with its mask and its columns. -/
inductive Arr where
  | leaf (ty : Nat) (rows : List (Option Int))
  | list (element : Fld) (rows : List (Option (Nat × Nat))) (values : Arr)
  | struct (fields : Flds) (valid : List Bool) (columns : Arrs)
/-- A list of arrays. -/
inductive Arrs where
  | nil
  | cons (a : Arr) (rest : Arrs)
end

/-- The arrays as a list. -/
def Arrs.toList : Arrs → List Arr
  | .nil => []
  | .cons a rest => a :: rest.toList

/-- `data_type`. -/
def Arr.ty : Arr → Ty
  | .leaf n _ => .leaf n
  | .list e _ _ => .list e
  | .struct fs _ _ => .struct fs

/-- `len`. -/
def Arr.len : Arr → Nat
  | .leaf _ rows => rows.length
  | .list _ rows _ => rows.length
  | .struct _ valid _ => valid.length

/-- `null_count`. -/
def Arr.nullCount : Arr → Nat
  | .leaf _ rows => rows.countP Option.isNone
  | .list _ rows _ => rows.countP Option.isNone
  | .struct _ valid _ => valid.countP (fun b : Bool => !b)

mutual
/-- `new_null_array`. -/
def nullArr (n : Nat) : Ty → Arr
  | .leaf t => .leaf t (List.replicate n none)
  | .list (.mk a b c d t) => .list (.mk a b c d t) (List.replicate n none) (nullArr 0 t)
  | .struct fs => .struct fs (List.replicate n false) (nullArrs n fs)
/-- The columns of a struct array of NULLs. -/
def nullArrs (n : Nat) : Flds → Arrs
  | .nil => .nil
  | .cons (.mk _ _ _ _ t) rest => .cons (nullArr n t) (nullArrs n rest)
end

/-- `cast_with_options` of an array without parts: NULL stays NULL, and a value that cannot be cast is an
error (`none`). -/
def castLeaf (leafCast : Nat → Nat → Int → Option Int) (a b : Nat) : List (Option Int) → Option (List (Option Int))
  | [] => some []
  | none :: rest => (castLeaf leafCast a b rest).map fun r => none :: r
  | some x :: rest =>
    match leafCast a b x with
    | some y => (castLeaf leafCast a b rest).map fun r => some y :: r
    | none => none

/-- The rows of an array without parts (with the number of its type). -/
def Arr.asLeaf : Arr → Option (Nat × List (Option Int))
  | .leaf a rows => some (a, rows)
  | _ => none

/-- Downcast to `ListArray`. -/
def Arr.asList : Arr → Option (List (Option (Nat × Nat)) × Arr)
  | .list _ rows values => some (rows, values)
  | _ => none

/-- Downcast to `StructArray`. -/
def Arr.asStruct : Arr → Option (Flds × List Bool × Arrs)
  | .struct fields valid columns => some (fields, valid, columns)
  | _ => none

mutual
/-- `cast_array_with_schema_evolution_inner`, schema_evolution.rs:793-947, with
`cast_struct_array_with_schema_evolution`, 972-1002; `none` is an error. -/
def castArr (leafCan : Nat → Nat → Bool) (leafCast : Nat → Nat → Int → Option Int) (m : Matching) :
    Ty → Arr → Option Arr
  | .leaf b, arr =>
    if arr.ty = .leaf b then some arr
    else arr.asLeaf.bind fun x => (castLeaf leafCast x.1 b x.2).map (Arr.leaf b)
  | .list (.mk n p i nl t), arr =>
    if arr.ty = .list (.mk n p i nl t) then some arr
    else arr.asList.bind fun x =>
      (castArr leafCan leafCast m t x.2).map fun v => .list (.mk n p i nl t) x.1 v
  | .struct tfs, arr =>
    if arr.ty = .struct tfs then some arr
    else if arr.ty = .leaf 0 ∨ (arr.len ≠ 0 ∧ arr.nullCount = arr.len) then some (nullArr arr.len (.struct tfs))
    else arr.asStruct.bind fun x =>
      if validateStruct leafCan m x.1 tfs then
        (castColumns leafCan leafCast m x.1.toList x.2.2.toList x.2.1.length tfs).map fun cs =>
          .struct tfs x.2.1 cs
      else none
/-- The loop of `cast_struct_array_to_fields`, schema_evolution.rs:1018-1035. -/
def castColumns (leafCan : Nat → Nat → Bool) (leafCast : Nat → Nat → Int → Option Int) (m : Matching)
    (sources : List Fld) (columns : List Arr) (n : Nat) : Flds → Option Arrs
  | .nil => some .nil
  | .cons (.mk tn tp ti tnl t) rest =>
    match find m sources (.mk tn tp ti tnl t) with
    | some i =>
      match columns[i]? with
      | some c =>
        match castArr leafCan leafCast m t c with
        | some d =>
          match castColumns leafCan leafCast m sources columns n rest with
          | some ds => some (.cons d ds)
          | none => none
        | none => none
      | none => none
    | none =>
      match castColumns leafCan leafCast m sources columns n rest with
      | some ds => some (.cons (nullArr n t) ds)
      | none => none
end

end Verif.Evolve
