import Mathlib.Data.Int.Order.Basic

/-!
# Store assignment and clause order of MERGE

Models crates/sail-plan/src/resolver/command/merge.rs:978-1012 (clause order) and 1014-1322 (store
assignment).
-/

namespace Verif.Merge.Store

/-- The widths of the integers. -/
inductive Width where
  | w8 | w16 | w32 | w64
deriving DecidableEq

/-- The kinds of intervals. -/
inductive Unit' where
  | yearMonth | dayTime | monthDayNano
deriving DecidableEq

/-- The floating point types. -/
inductive Flt where
  | f16 | f32 | f64
deriving DecidableEq

/-- The Arrow types without parts. A string, a date, and a decimal have a number for the variant (`Utf8`,
`LargeUtf8`, `Utf8View`; `Date32`, `Date64`; the width of a decimal). The time unit of a timestamp is a
number, 2 being microseconds, and the time zone another one. `other` are Boolean, the binary types, times and
durations. -/
inductive Leaf where
  | null
  | sint (w : Width)
  | uint (w : Width)
  | float (f : Flt)
  | decimal (width precision : Nat) (scale : Int)
  | string (variant : Nat)
  | date (variant : Nat)
  | timestamp (unit : Nat) (zone : Option Nat)
  | interval (u : Unit')
  | other (n : Nat)
deriving DecidableEq

mutual
/-- The Arrow types. The five list types are one with a number for the variant (and the size of a fixed-size
list). A map has its key type, its value type and whether a value may be NULL; maps with other entries do not
exist. `union` stands for `Union` and `RunEndEncoded`. -/
inductive Ty where
  | leaf (l : Leaf)
  | list (variant : Nat) (nullable : Bool) (element : Ty)
  | map (key value : Ty) (nullable : Bool)
  | struct (fields : Fields)
  | union (n : Nat)
  | dict (value : Ty)
/-- The fields of a struct: name, whether NULL is allowed, type. -/
inductive Fields where
  | nil
  | cons (name : String) (nullable : Bool) (type : Ty) (rest : Fields)
end

/-- `StoreAssignmentPolicy`, crates/sail-plan/src/config.rs:15-20. -/
inductive Policy where
  | ansi | legacy | strict
deriving DecidableEq

/-- `resolvable_nullability`, merge.rs:1137-1139. -/
def nullability (write target : Bool) : Bool := !write || target

/-- `is_numeric_type`, merge.rs:1165-1184. -/
def isNumeric : Leaf → Bool
  | .sint _ | .uint _ | .float _ | .decimal _ _ _ => true
  | _ => false

/-- `is_string_type`, merge.rs:1186-1191. -/
def isString : Leaf → Bool
  | .string _ => true
  | _ => false

/-- `is_date_type`, merge.rs:1197-1199. -/
def isDate : Leaf → Bool
  | .date _ => true
  | _ => false

/-- `is_timestamp_type`, merge.rs:1201-1203. -/
def isTimestamp : Leaf → Bool
  | .timestamp _ _ => true
  | _ => false

/-- `is_timestamp_ltz_type`, merge.rs:1205-1210. -/
def isTimestampLtz : Leaf → Bool
  | .timestamp 2 (some _) => true
  | _ => false

/-- `is_datetime_type`, merge.rs:1193-1195. -/
def isDatetime (l : Leaf) : Bool := isDate l || isTimestamp l

/-- `is_interval_type`, merge.rs:1212-1214. -/
def isInterval : Leaf → Bool
  | .interval _ => true
  | _ => false

/-- `is_atomic_type`, merge.rs:1216-1218, of a type without parts. -/
def isAtomic (l : Leaf) : Bool := decide (l ≠ .null)

/-- `decimal_parts`, merge.rs:1220-1228. -/
def decimalParts : Leaf → Option (Nat × Int)
  | .decimal _ p s => some (p, s)
  | _ => none

/-- The digits of an integer type. -/
def digits : Width → Nat
  | .w8 => 3
  | .w16 => 5
  | .w32 => 10
  | .w64 => 20

/-- `integral_decimal_precision`, merge.rs:1230-1238. -/
def integralPrecision : Leaf → Option Nat
  | .sint w | .uint w => some (digits w)
  | _ => none

/-- `decimal_wider_than`, merge.rs:1240-1252. -/
def widerThan (target write : Leaf) : Bool :=
  match decimalParts target with
  | none => false
  | some (tp, ts) =>
    match (decimalParts write).or ((integralPrecision write).map fun p => (p, (0 : Int))) with
    | none => false
    | some (wp, ws) => decide ((tp : Int) - ts ≥ wp - ws) && decide (ts ≥ ws)

/-- `decimal_tighter_than`, merge.rs:1254-1265. -/
def tighterThan (write target : Leaf) : Bool :=
  match decimalParts write with
  | none => false
  | some (wp, ws) =>
    match decimalParts target with
    | some (tp, ts) => decide ((wp : Int) - ws ≤ tp - ts) && decide (ws ≤ ts)
    | none =>
      match integralPrecision target with
      | some tp => decide (wp < tp) && decide (ws = 0)
      | none => false

/-- The number of bits. -/
def bits : Width → Nat
  | .w8 => 8
  | .w16 => 16
  | .w32 => 32
  | .w64 => 64

/-- `rank` in `legal_numeric_precedence`, merge.rs:1268-1276. -/
def rank : Leaf → Option Nat
  | .sint .w8 => some 0
  | .sint .w16 => some 1
  | .sint .w32 => some 2
  | .sint .w64 => some 3
  | .float .f16 | .float .f32 => some 4
  | .float .f64 => some 5
  | _ => none

/-- The part of `legal_numeric_precedence` for unsigned integers, merge.rs:1281-1308. -/
def unsignedPrecedence : Leaf → Leaf → Bool
  | .uint w, .uint t => decide (bits w < bits t)
  | .uint w, .sint t => decide (bits w < bits t)
  | .uint _, .float _ => true
  | _, _ => false

/-- `legal_numeric_precedence`, merge.rs:1267-1309. -/
def precedence (write target : Leaf) : Bool :=
  match rank write, rank target with
  | some w, some t => decide (w < t)
  | _, _ => unsignedPrecedence write target

/-- `interval_family_matches`, merge.rs:1311-1322. -/
def intervalFamily : Leaf → Leaf → Bool
  | .interval .yearMonth, .interval .yearMonth => true
  | .interval .yearMonth, _ => false
  | .interval _, .interval .yearMonth => false
  | .interval _, .interval _ => true
  | _, _ => false

/-- `ansi_store_assignment_compatible`, merge.rs:1141-1148. -/
def ansi (write target : Leaf) : Bool :=
  decide (write = target)
    || decide (write = .null)
    || (isNumeric write && isNumeric target)
    || (isAtomic write && isString target)
    || (isInterval write && isString target)
    || (isDatetime write && isDatetime target)

/-- `strict_store_assignment_compatible`, merge.rs:1150-1163. -/
def strict (write target : Leaf) : Bool :=
  decide (write = target)
    || decide (write = .null)
    || widerThan target write
    || tighterThan write target
    || precedence write target
    || (isDate write && isTimestamp target)
    || (isTimestamp write && isTimestamp target)
    || (isAtomic write && isString target)
    || (isInterval write && isString target)
    || (isTimestampLtz write && decide (target = .sint .w64))
    || (decide (write = .sint .w64) && isTimestampLtz target)
    || intervalFamily write target

/-- The choice of the rule, merge.rs:1089-1095. -/
def leafRule (policy : Policy) (write target : Leaf) : Bool :=
  match policy with
  | .ansi => ansi write target
  | .strict => strict write target
  | .legacy => false

/-- The comparison of names, merge.rs:1063-1067; `Char.toLower` changes ASCII letters only. -/
def namesMatch (caseSensitive : Bool) (a b : String) : Bool :=
  if caseSensitive then decide (a = b) else decide (a.toList.map Char.toLower = b.toList.map Char.toLower)

/-- The type without dictionaries around it. -/
def unDict : Ty → Ty
  | .dict t => unDict t
  | t => t

mutual
/-- `store_assignment_compatible`, merge.rs:1014-1096. The code removes the dictionaries of the target one
by one (1023-1025); here they are removed at once. -/
def compatible (policy : Policy) (cs : Bool) : Ty → Ty → Bool
  | .dict w, t => compatible policy cs w t
  | .leaf w, t =>
    match unDict t with
    | .leaf t => leafRule policy w t
    | _ => false
  | .list _ wn w, t =>
    match unDict t with
    | .list _ tn t => nullability wn tn && compatible policy cs w t
    | _ => false
  | .map wk wv wn, t =>
    match unDict t with
    | .map tk tv tn => nullability wn tn && (compatible policy cs wk tk && compatible policy cs wv tv)
    | _ => false
  | .struct ws, t =>
    match unDict t with
    | .struct ts => compatibleFields policy cs ws ts
    | _ => false
  | .union _, _ => false
/-- The fields one by one, merge.rs:1058-1084. -/
def compatibleFields (policy : Policy) (cs : Bool) : Fields → Fields → Bool
  | .nil, .nil => true
  | .cons wname wn w ws, .cons tname tn t ts =>
    namesMatch cs wname tname && (nullability wn tn && (compatible policy cs w t
      && compatibleFields policy cs ws ts))
  | _, _ => false
end

/-! ### Clause order -/

/-- The kinds of MERGE clauses. -/
inductive Kind where
  | matched | notMatchedBySource | notMatchedByTarget
deriving DecidableEq

/-- A clause: its kind and whether it has a condition. -/
structure Clause where
  kind : Kind
  condition : Bool
deriving DecidableEq

/-- The three flags: whether the last clause of the kind seen was unconditional. -/
structure Flags where
  matched : Bool := false
  bySource : Bool := false
  byTarget : Bool := false

/-- The loop of `validate_merge_clause_order`, merge.rs:978-1012, after the given flags; `false` is the error
(the three messages are not modelled). -/
def clauseOrder : Flags → List Clause → Bool
  | _, [] => true
  | f, c :: cs =>
    match c.kind with
    | .matched => if f.matched then false else clauseOrder { f with matched := !c.condition } cs
    | .notMatchedBySource =>
      if f.bySource then false else clauseOrder { f with bySource := !c.condition } cs
    | .notMatchedByTarget =>
      if f.byTarget then false else clauseOrder { f with byTarget := !c.condition } cs

end Verif.Merge.Store
