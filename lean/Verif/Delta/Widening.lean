import Verif.Delta.Schema
/-!
# Delta type widening

Models crates/sail-delta-lake/src/schema/type_widening.rs over the schemas of `Verif.Delta.Schema`,
with the simplifications stated there. The recorded type changes of a field are a list of structured
changes; their JSON text is trusted to read back as written. Errors are not told apart.
-/

namespace Verif.Delta.Schema

/-- `integral_rank`, schema/type_widening.rs:726-734. -/
def integralRank : Prim → Option Nat
  | .byte => some 1
  | .short => some 2
  | .integer => some 3
  | .long => some 4
  | _ => none

/-- `decimal_wider_than_integral`, schema/type_widening.rs:736-738. The subtraction is only reached
when it does not wrap. -/
def decimalWider (precision scale base : Nat) : Bool :=
  decide (base ≤ precision) && decide (scale ≤ precision - base)

/-- The guard of the first arm, schema/type_widening.rs:159-165. -/
def rankLess (a b : Prim) : Bool :=
  match integralRank a, integralRank b with
  | some x, some y => decide (x < y)
  | _, _ => false

/-- The arms after the guarded one, schema/type_widening.rs:166-184. -/
def otherChange : Prim → Prim → Bool
  | .float, .double => true
  | .byte, .double => true
  | .short, .double => true
  | .integer, .double => true
  | .date, .timestampNtz => true
  | .decimal p s, .decimal p' s' =>
    decide ((p' : Int) - p ≥ (s' : Int) - s) && decide ((s' : Int) - s ≥ 0)
  | .byte, .decimal p s => decimalWider p s 10
  | .short, .decimal p s => decimalWider p s 10
  | .integer, .decimal p s => decimalWider p s 10
  | .long, .decimal p s => decimalWider p s 20
  | _, _ => false

/-- `is_supported_type_change` on primitive types, schema/type_widening.rs:149-186. -/
def supported (a b : Prim) : Bool :=
  decide (a = b) || rankLess a b || otherChange a b

/-- `is_iceberg_v2_supported_type_change`, schema/type_widening.rs:229-250. -/
def icebergV2 : Prim → Prim → Bool
  | .byte, .double => false
  | .short, .double => false
  | .integer, .double => false
  | .date, .timestampNtz => false
  | .byte, .decimal _ _ => false
  | .short, .decimal _ _ => false
  | .integer, .decimal _ _ => false
  | .long, .decimal _ _ => false
  | .decimal _ s, .decimal _ s' => decide (s' = s)
  | _, _ => true

/-- `is_supported_type_change_for_write` and `.._for_schema_evolution`,
schema/type_widening.rs:188-220, which are the same; `iceberg` says whether the protocol has one of
the Iceberg compatibility features. -/
def supportedFor (iceberg : Bool) (a b : Prim) : Bool :=
  decide (a = b) || (supported a b && (!iceberg || icebergV2 a b))

/-! ## Recording type changes -/

/-- `append_type_changes_to_field`, schema/type_widening.rs:587-607, on the changes of the field. -/
def appendChanges (old : Option (List Change)) (new : List Change) : Option (List Change) :=
  if new.isEmpty then old else some (old.getD [] ++ new)

/-- The metadata of `rewrite_field`, schema/type_widening.rs:421-435: the keys of the candidate, then
those of the existing field, then the new changes. -/
def rewriteHdr (existing candidate : Hdr) (new : List Change) : Hdr :=
  { name := candidate.name, nullable := candidate.nullable, id := candidate.id.or existing.id, phys := candidate.phys.or existing.phys, changes := appendChanges (candidate.changes.or existing.changes) new }

/-- `StructType::try_new`, spec/schema.rs:530-544: an error for a repeated name. -/
def checked (fs : Flds) : Option Flds :=
  if fs.names.Nodup then some fs else none

mutual
/-- `rewrite_data_type`, schema/type_widening.rs:438-500; no value is an error. -/
def rewriteTy : Ty → Ty → List Seg → Option (Ty × List Change)
  | new, old, path =>
    match new, old with
    | .struct ns, .struct os =>
      match rewriteFlds ns os with
      | none => none
      | some fs =>
        match checked fs with
        | none => none
        | some fs => some (.struct fs, [])
    | .array e n, .array oe _ =>
      match rewriteTy e oe (path ++ [.element]) with
      | none => none
      | some r => some (.array r.1 n, r.2)
    | .map k v n, .map ok ov _ =>
      match rewriteTy k ok (path ++ [.key]) with
      | none => none
      | some r =>
        match rewriteTy v ov (path ++ [.value]) with
        | none => none
        | some s => some (.map r.1 s.1 n, r.2 ++ s.2)
    | .prim b, .prim a =>
      if a = b then some (.prim b, [])
      else if supported a b then some (.prim b, [{ from_ := a, to_ := b, path := path }])
      else none
    | _, _ => none
/-- The fields of `add_type_widening_metadata`, schema/type_widening.rs:104-110, with
`rewrite_field`, :417-436. -/
def rewriteFlds : Flds → Flds → Option Flds
  | .nil, _ => some .nil
  | .cons h t r, os =>
    match os.find (fun g => g.name == h.name) with
    | none =>
      match rewriteFlds r os with
      | none => none
      | some r' => some (.cons h t r')
    | some (g, u) =>
      match rewriteTy t u [] with
      | none => none
      | some x =>
        match rewriteFlds r os with
        | none => none
        | some r' => some (.cons (rewriteHdr g h x.2) x.1 r')
end

/-- `add_type_widening_metadata`, schema/type_widening.rs:100-111. -/
def addWidening (existing candidate : Flds) : Option Flds :=
  match rewriteFlds candidate existing with
  | none => none
  | some fs => checked fs

/-! ## Validation when a table is opened -/

/-- `resolve_field_path`, schema/type_widening.rs:691-718; no value is an error. -/
def resolve : Ty → List Seg → Option Ty
  | t, [] => some t
  | .array e _, .element :: q => resolve e q
  | .map k _ _, .key :: q => resolve k q
  | .map _ v _, .value :: q => resolve v q
  | _, _ :: _ => none

/-- `latest_by_path` after the loop, schema/type_widening.rs:352-375: the last change of a path. -/
def latest (cs : List Change) (path : List Seg) : Option Prim :=
  match cs with
  | [] => none
  | c :: cs =>
    match latest cs path with
    | some p => some p
    | none => if c.path = path then some c.to_ else none

/-- The checks of `validate_field` on the changes of the field itself,
schema/type_widening.rs:353-388: each change is supported and its path leads to an atomic type, and
the last change of each path leads to the type of the schema. -/
def validateChanges (t : Ty) (cs : List Change) : Bool :=
  cs.all (fun c => supported c.from_ c.to_ &&
    match resolve t c.path, latest cs c.path with
    | some (.prim p), some l => decide (p = l)
    | _, _ => false)

mutual
/-- `validate_type_for_nested_structs`, schema/type_widening.rs:402-415, which is also what
`validate_field` does with the type of a field, :390-398. -/
def validateTy : Ty → Bool
  | .prim _ => true
  | .struct fs => validate fs
  | .array e _ => validateTy e
  | .map k v _ => validateTy k && validateTy v
/-- `validate_type_widening_metadata` with `validate_field`, schema/type_widening.rs:69-71 and
342-400. -/
def validate : Flds → Bool
  | .nil => true
  | .cons h t r => validateChanges t (h.changes.getD []) && validateTy t && validate r
end

/-! ## ALTER COLUMN TYPE -/

mutual
/-- `alter_nested_data_type`, schema/type_widening.rs:271-313; an empty path is also
`alter_field_type`, :258-262. -/
def alterTy : Ty → List String → Ty → Option Ty
  | t, path, new =>
    match path with
    | [] => some new
    | name :: rest =>
      match t with
      | .struct fs =>
        match alterFlds fs name rest new with
        | none => none
        | some (fs', found) =>
          match checked fs' with
          | none => none
          | some fs'' => if found then some (.struct fs'') else none
      | .array e n =>
        if name = "element" then
          match alterTy e rest new with
          | none => none
          | some e' => some (.array e' n)
        else none
      | .map k v n =>
        if name = "key" then
          match alterTy k rest new with
          | none => none
          | some k' => some (.map k' v n)
        else if name = "value" then
          match alterTy v rest new with
          | none => none
          | some v' => some (.map k v' n)
        else none
      | .prim _ => none
/-- The fields of `alter_column_type`, schema/type_widening.rs:134-142, and whether one had the
name. -/
def alterFlds : Flds → String → List String → Ty → Option (Flds × Bool)
  | .nil, _, _, _ => some (.nil, false)
  | .cons h t r, name, rest, new =>
    if h.name = name then
      match alterTy t rest new with
      | none => none
      | some t' =>
        match alterFlds r name rest new with
        | none => none
        | some x => some (.cons h t' x.1, true)
    else
      match alterFlds r name rest new with
      | none => none
      | some x => some (.cons h t x.1, x.2)
end

/-- `alter_column_type`, schema/type_widening.rs:122-147. -/
def alterColumn (schema : Flds) (path : List String) (new : Ty) : Option Flds :=
  match path with
  | [] => none
  | name :: rest =>
    match alterFlds schema name rest new with
    | none => none
    | some (fs, found) =>
      match checked fs with
      | none => none
      | some fs' => if found then some fs' else none

end Verif.Delta.Schema
