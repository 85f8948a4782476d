/-!
# dropna and fillna

Models crates/sail-plan/src/resolver/query/na.rs (`na`).

Simplifications. A value is NULL, NaN or an element of a set; a type is a kind with a number that tells types of a kind
apart. The conversion of a value to a type is a parameter, `none` where `TRY_CAST` gives NULL. The given values of `fillna`
are literals.
-/

namespace Verif.Plan.Na

/-- A value of a column. -/
inductive Val (β : Type)
  | null
  | nan
  | val (b : β)
deriving DecidableEq

/-- The Arrow types, as far as na:100-112 and na:163-169 tell them apart. -/
inductive Ty
  | null
  | float (width : Nat)
  | number (k : Nat)
  | utf8
  | largeUtf8
  | other (k : Nat)
deriving DecidableEq

/-- A column of the schema: its visible name and its type. -/
structure Col where
  name : String
  ty : Ty
deriving DecidableEq

variable {β : Type}

/-- `FieldInfo::matches`, crates/sail-plan/src/resolver/state.rs:39-45. -/
def matchesName (a b : String) : Bool := a.map Char.toLower == b.map Char.toLower

/-- `is_nan_float`, na:163-169; `none` is NULL. -/
def isNan (ty : Ty) (v : Val β) : Option Bool :=
  match ty, v with
  | .float _, .null => none
  | .float _, .nan => some true
  | .float _, .val _ => some false
  | _, _ => some false

/-- `IS NOT NULL`. -/
def notNull (v : Val β) : Bool :=
  match v with
  | .null => false
  | _ => true

/-- The expression for a column in `resolve_query_drop_na`, na:135-136. -/
def present (ty : Ty) (v : Val β) : Bool := notNull v && isNan ty v == some false

/-- Whether `dropna` looks at a column, na:127-132. -/
def dropChosen (columns : List String) (c : Col) : Bool :=
  columns.isEmpty || columns.any fun n => matchesName c.name n

/-- The expressions of `dropna` for a row, na:123-141. -/
def presents (columns : List String) : List Col → List (Val β) → List Bool
  | c :: cs, v :: vs =>
    if dropChosen columns c then present c.ty v :: presents columns cs vs else presents columns cs vs
  | _, _ => []

/-- `resolve_query_drop_na`, na:114-161; `none` is an error. -/
def dropNa (schema : List Col) (columns : List String) (minNonNulls : Option Nat) (rows : List (List (Val β))) :
    Option (List (List (Val β))) :=
  let all :=
    if schema.any (dropChosen columns) then some (rows.filter fun r => (presents columns schema r).all fun b => b)
    else none
  match minNonNulls with
  | some n =>
    if n > 0 then
      some (rows.filter fun r =>
        decide (((presents columns schema r).foldl (fun acc b => acc + if b then 1 else 0) 0) ≥ n))
    else all
  | none => all

/-- `DataType::is_numeric`. -/
def Ty.isNumeric : Ty → Bool
  | .float _ => true
  | .number _ => true
  | _ => false

/-- `can_cast_fill_na_types`, na:100-112. -/
def canCast (source target : Ty) : Bool :=
  if source = target then true
  else
    match source, target with
    | .utf8, .largeUtf8 => true
    | .largeUtf8, .utf8 => true
    | .null, _ => true
    | _, .null => true
    | _, _ => source.isNumeric && target.isNumeric

/-- A literal with its type. -/
structure Lit (β : Type) where
  ty : Ty
  value : β
deriving DecidableEq

/-- `Strategy`, na:25-29. -/
inductive Strategy (β : Type)
  | all (value : Lit β)
  | columns (columns : List String) (value : Lit β)
  | each (columns : List (String × Lit β))

/-- The choice of the strategy, na:36-57; `none` is an error. -/
def strategy (columns : List String) (values : List (Lit β)) : Option (Strategy β) :=
  match values with
  | [] => none
  | [value] => if columns.isEmpty then some (.all value) else some (.columns columns value)
  | _ =>
    if columns.isEmpty || values.length != columns.length then none else some (.each (columns.zip values))

/-- The value for a column, na:63-72. -/
def valueFor (s : Strategy β) (c : Col) : Option (Lit β) :=
  match s with
  | .all value => some value
  | .columns columns value => if columns.any fun n => matchesName c.name n then some value else none
  | .each columns => (columns.find? fun p => matchesName c.name p.1).map Prod.snd

/-- `TRY_CAST` of a literal. -/
def tryCast (cast : Ty → Lit β → Option β) (ty : Ty) (value : Lit β) : Val β :=
  match cast ty value with
  | some b => .val b
  | none => .null

/-- `IS NULL OR isnan`, na:79-82, where it is true in a `CASE`. -/
def isMissing (ty : Ty) (v : Val β) : Bool := !notNull v || isNan ty v == some true

/-- The expression for a column, na:73-89. -/
def fillValue (cast : Ty → Lit β → Option β) (s : Strategy β) (c : Col) (v : Val β) : Val β :=
  match valueFor s c with
  | some value => if canCast value.ty c.ty then (if isMissing c.ty v then tryCast cast c.ty value else v) else v
  | none => v

/-- A row of the projection, na:59-97. -/
def fillRow (cast : Ty → Lit β → Option β) (s : Strategy β) : List Col → List (Val β) → List (Val β)
  | c :: cs, v :: vs => fillValue cast s c v :: fillRow cast s cs vs
  | _, _ => []

/-- `resolve_query_fill_na`, na:18-98. -/
def fillNa (cast : Ty → Lit β → Option β) (schema : List Col) (columns : List String) (values : List (Lit β))
    (rows : List (List (Val β))) : Option (List (List (Val β))) :=
  (strategy columns values).map fun s => rows.map (fillRow cast s schema)

end Verif.Plan.Na
