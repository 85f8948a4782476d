/-!
# withField and dropFields

Models crates/sail-function/src/scalar/update_struct_field.rs (`us`) and drop_struct_field.rs (`ds`).

Simplifications. The values that are not structs are numbers with a type; metadata of fields is left out. An error is
`none`. A column of type NULL (us:179-181) is left out.
-/

namespace Verif.Func.StructField

mutual
/-- Types. -/
inductive Ty where
  | leaf (t : Nat)
  | struct (fields : Flds)
deriving DecidableEq
/-- The fields of a struct: name, whether it may be NULL, type. -/
inductive Flds where
  | nil
  | cons (name : String) (nullable : Bool) (ty : Ty) (rest : Flds)
deriving DecidableEq
end

mutual
/-- Columns: the rows of a plain type, or which rows are not NULL and the columns of the fields. -/
inductive Arr where
  | leaf (t : Nat) (rows : List (Option Int))
  | struct (valid : List Bool) (cols : Cols)
/-- The columns of the fields. -/
inductive Cols where
  | nil
  | cons (name : String) (nullable : Bool) (arr : Arr) (rest : Cols)
end

/-- A field. -/
structure Fld where
  name : String
  nullable : Bool
  ty : Ty

/-- A field with its column. -/
structure Col where
  name : String
  nullable : Bool
  arr : Arr

/-- The fields as a list. -/
def Flds.toList : Flds → List Fld
  | .nil => []
  | .cons n b t rest => ⟨n, b, t⟩ :: rest.toList

/-- The list as fields. -/
def Flds.ofList : List Fld → Flds
  | [] => .nil
  | f :: rest => .cons f.name f.nullable f.ty (.ofList rest)

/-- The columns as a list. -/
def Cols.toList : Cols → List Col
  | .nil => []
  | .cons n b a rest => ⟨n, b, a⟩ :: rest.toList

/-- The list as columns. -/
def Cols.ofList : List Col → Cols
  | [] => .nil
  | c :: rest => .cons c.name c.nullable c.arr (.ofList rest)

/-- The fields of a struct. -/
def Ty.asStruct : Ty → Option (List Fld)
  | .struct fs => some fs.toList
  | .leaf _ => none

/-- `as_struct_array`. -/
def Arr.asStruct : Arr → Option (List Bool × List Col)
  | .struct v cs => some (v, cs.toList)
  | .leaf _ _ => none

mutual
/-- The type of a column. -/
def Arr.type : Arr → Ty
  | .leaf t _ => .leaf t
  | .struct _ cs => .struct cs.types
/-- The fields of the columns. -/
def Cols.types : Cols → Flds
  | .nil => .nil
  | .cons n b a rest => .cons n b a.type rest.types
end

/-- Which rows are not NULL. -/
def Arr.valid : Arr → List Bool
  | .leaf _ rows => rows.map Option.isSome
  | .struct v _ => v

/-- All results, or an error. -/
def collect {α : Type} : List (Option α) → Option (List α)
  | [] => some []
  | none :: _ => none
  | some a :: rest => (collect rest).map fun l => a :: l

/-- `column_by_name` of arrow: the first column with the name. -/
def byName (cs : List Col) (n : String) : Option Arr := (cs.find? fun c => decide (c.name = n)).map Col.arr

/-- The check of `StructArray::try_new` for a column: its type, its length, and no NULLs in the rows of the struct that
are there if the field may not be NULL. -/
def fits (valid : List Bool) (f : Fld) (a : Arr) : Bool :=
  decide (a.type = f.ty) && decide (a.valid.length = valid.length)
    && (f.nullable || (valid.zip a.valid).all fun p => !p.1 || p.2)

/-- `StructArray::try_new`. -/
def tryNew (valid : List Bool) (fs : List Fld) (arrs : List Arr) : Option Arr :=
  if (fs.zip arrs).all fun p => fits valid p.1 p.2 then
    some (.struct valid (.ofList ((fs.zip arrs).map fun p => ⟨p.1.name, p.1.nullable, p.2⟩)))
  else none

/-- The type of a field that is not there on a path with more names, us:68-74: the path without its last name. -/
def wrap (path : List String) (new : Ty) : Ty :=
  path.dropLast.foldr (fun n t => .struct (.cons n true t .nil)) new

/-- `update_nested_field`, us:27-87, with the new field `last` of type `new`. -/
def updateTy (last : String) (new : Ty) : List String → Ty → Option Ty
  | [], _ => none
  | n :: p, t =>
    t.asStruct.bind fun fs =>
    (collect (fs.map fun f =>
      if f.name = n then
        if p = [] then some ⟨last, true, new⟩ else (updateTy last new p f.ty).map fun u => ⟨f.name, f.nullable, u⟩
      else some f)).map fun out =>
    .struct (.ofList (if fs.any fun f => decide (f.name = n) then out
      else out ++ [if p = [] then ⟨last, true, new⟩ else ⟨n, true, wrap (n :: p) new⟩]))

/-- `update_nested_field_from_array`, us:89-139, where `last` is the last name of the path. -/
def updateArr (last : String) (new : Arr) : List String → Arr → Option Arr
  | [], _ => none
  | n :: p, a =>
    a.asStruct.bind fun s =>
    (updateTy last new.type (n :: p) a.type).bind fun t =>
    t.asStruct.bind fun fs =>
    (collect (fs.map fun f =>
      if f.name = last then if p = [] then some new else (byName s.2 f.name).bind (updateArr last new p)
      else byName s.2 f.name)).bind fun arrs =>
    tryNew s.1 fs arrs

/-- `withField`, us:151-185. -/
def withField (path : List String) (new a : Arr) : Option Arr := path.getLast?.bind fun last => updateArr last new path a

/-- `drop_nested_field`, ds:27-66. -/
def dropTy : List String → Ty → Option Ty
  | [], _ => none
  | n :: p, t =>
    t.asStruct.bind fun fs =>
    (collect ((fs.filter fun f => !(decide (f.name = n) && p.isEmpty)).map fun f =>
      if f.name = n then (dropTy p f.ty).map fun u => ⟨f.name, f.nullable, u⟩ else some f)).bind fun out =>
    if out.isEmpty then none else some (.struct (.ofList out))

/-- `drop_nested_field_from_array`, ds:68-99. -/
def dropField : List String → Arr → Option Arr
  | [], _ => none
  | n :: p, a =>
    a.asStruct.bind fun s =>
    (dropTy (n :: p) a.type).bind fun t =>
    t.asStruct.bind fun fs =>
    (collect (fs.map fun f =>
      (byName s.2 f.name).bind fun c => if f.ty ≠ c.type then dropField p c else some c)).bind fun arrs =>
    tryNew s.1 fs arrs

end Verif.Func.StructField
