/-!
# Appending to an Iceberg table without schema options

Models crates/sail-iceberg/src/schema_evolution.rs:73-296 (`se`), operations/write/table_writer.rs:89-384 (`tw`) and
crates/sail-common-datafusion/src/array/record_batch.rs:46-155 (`rb`).

Simplifications. Variants are left out. The entries of a map are given by their fields. The name and metadata of the
element of a list, metadata of fields and the name of the entries do not count. Values of nested columns are written as
they are. Defaults are given as values of the type of their column. The columns are aligned and cast one by one and not
in two passes.
-/

namespace Verif.Iceberg.Append

/-- Plain types; a decimal is 256 bits wide or 128. -/
inductive Base where
  | int32
  | int64
  | float32
  | float64
  | binary
  | largeBinary
  | fixed (length : Nat)
  | decimal (wide : Bool) (precision : Nat) (scale : Int)
  | timestamp (unit : Nat) (zone : Option (List Char))
  | other (n : Nat)
deriving DecidableEq

mutual
/-- Types; there are four kinds of lists. -/
inductive Ty where
  | base (b : Base)
  | struct (fields : Flds)
  | list (kind : Nat) (nullable : Bool) (element : Ty)
  | map (sorted : Bool) (entries : Flds)
/-- Fields: name, whether there may be NULLs, type. -/
inductive Flds where
  | nil
  | cons (name : String) (nullable : Bool) (ty : Ty) (rest : Flds)
end

/-- `str::trim`, used in se:294; spaces are those of ASCII. -/
def trim (s : List Char) : List Char :=
  ((s.dropWhile Char.isWhitespace).reverse.dropWhile Char.isWhitespace).reverse

/-- `is_utc_alias`, se:291-295, with `UTC_ALIASES`, se:38. -/
def isUtc (zone : List Char) : Bool :=
  ["UTC", "+00:00", "Etc/UTC", "Z"].any fun a => decide (a.toList.map Char.toLower = (trim zone).map Char.toLower)

/-- `timestamp_timezone_compatible`, se:276-285, and `tz_alias_eq`, se:287-289. -/
def zoneCompatible : Option (List Char) → Option (List Char) → Bool
  | none, none => true
  | some a, some b => decide (a = b) || (isUtc a && isUtc b)
  | none, some b => isUtc b
  | some a, none => isUtc a

/-- Equality of plain types, except for time zones, se:219-230. -/
def baseEq : Base → Base → Bool
  | .timestamp u z, .timestamp u' z' => decide (u = u') && zoneCompatible z z'
  | a, b => decide (a = b)

mutual
/-- `nested_types_equivalent`, se:218-274, which on plain types is `field_types_equivalent`, se:130-146; the test for
equality at the start is left out, what follows holds for equal types. -/
def equivalent : Ty → Ty → Bool
  | .base a, .base b => baseEq a b
  | .struct fs, .struct gs => equivalentFlds fs gs
  | .list _ _ a, .list _ _ b => equivalent a b
  | .map s fs, .map t gs => decide (s = t) && equivalentFlds fs gs
  | _, _ => false
/-- The loop over two lists of fields of the same length. -/
def equivalentFlds : Flds → Flds → Bool
  | .nil, .nil => true
  | .cons n _ a fs, .cons m _ b gs => decide (n = m) && equivalent a b && equivalentFlds fs gs
  | _, _ => false
end

/-- `is_safe_write_cast`, se:163-174, and `decimal_precision_contracts`, se:197-216; the type of the table first. -/
def safeCast : Ty → Ty → Bool
  | .base .int64, .base .int32 => true
  | .base .float64, .base .float32 => true
  | .base (.fixed _), .base .binary => true
  | .base (.fixed _), .base .largeBinary => true
  | .base (.decimal w p s), .base (.decimal w' p' s') => (w || !w') && decide (s = s') && decide (p' ≤ p)
  | _, _ => false

/-- The test of a column, se:85-86. -/
def writable (table input : Ty) : Bool := equivalent table input || safeCast table input

/-- A value that is not NULL: an integer, the digits of a decimal, a fraction and an exponent, bytes, or another. -/
inductive Atom where
  | int (i : Int)
  | digits (i : Int)
  | float (m e : Int)
  | bytes (b : List Nat)
  | other (n : Nat)
deriving DecidableEq

/-- A column of the table. -/
structure TableCol where
  name : String
  ty : Ty
  nullable : Bool
  writeDefault : Option Atom
  initialDefault : Option Atom

/-- A column of the input with its rows. -/
structure InCol where
  name : String
  ty : Ty
  rows : List (Option Atom)

/-- The default that is used, tw:372-375. -/
def TableCol.default (c : TableCol) : Option Atom := c.writeDefault.or c.initialDefault

/-- `validate_exact_schema`, se:73-121. -/
def validate (table : List TableCol) (input : List InCol) : Bool :=
  (input.all fun i =>
    match table.find? fun c => decide (c.name = i.name) with
    | some c => writable c.ty i.ty
    | none => false)
  && table.all fun c =>
    (input.any fun i => decide (i.name = c.name)) || (c.nullable || c.default.isSome)

/-- A column of `align_batch_with_table_schema`, tw:323-336, and `build_missing_column_array`, tw:342-366. -/
def align (input : List InCol) (n : Nat) (c : TableCol) : Option (Ty × List (Option Atom)) :=
  match input.find? fun i => decide (i.name = c.name) with
  | some i => some (i.ty, i.rows)
  | none =>
    match c.default with
    | some a => some (c.ty, List.replicate n (some a))
    | none => if c.nullable then some (c.ty, List.replicate n none) else none

/-- A value of `cast_array_recursively`, rb:111-155, for the types that pass `validate`: all are kept (the time zone
of a timestamp changes but not its number), except that arrow's cast from binary to fixed size makes values of
another length NULL. -/
def castVal : Ty → Ty → Option Atom → Option Atom
  | .base (.fixed n), .base .binary, some (.bytes b) => if b.length = n then some (.bytes b) else none
  | .base (.fixed n), .base .largeBinary, some (.bytes b) => if b.length = n then some (.bytes b) else none
  | _, _, v => v

/-- A column of `cast_record_batch_relaxed_tz`, rb:59-77, with the check of `RecordBatch::try_new`, rb:87, that a
column that is not nullable has no NULL. -/
def cast (c : TableCol) (src : Ty × List (Option Atom)) : Option (List (Option Atom)) :=
  if !c.nullable && (src.2.map (castVal c.ty src.1)).any Option.isNone then none
  else some (src.2.map (castVal c.ty src.1))

/-- All columns. -/
def columns (input : List InCol) (n : Nat) : List TableCol → Option (List (List (Option Atom)))
  | [] => some []
  | c :: rest =>
    (align input n c).bind fun src =>
    (cast c src).bind fun col =>
    (columns input n rest).bind fun cols => some (col :: cols)

/-- The columns that are written for `n` rows: `validate_exact_schema` and then `write`, tw:89-133; `none` is an
error. -/
def write (table : List TableCol) (input : List InCol) (n : Nat) : Option (List (List (Option Atom))) :=
  if validate table input then columns input n table else none

end Verif.Iceberg.Append
