import Verif.Base.Calendar

/-!
# Iceberg partition transforms

Model of `crates/sail-iceberg/src/utils/transform.rs`, of the literals of
`crates/sail-iceberg/src/spec/types/values.rs` and of the conversion of SQL values into
literals of `crates/sail-iceberg/src/utils/conversions.rs`. The `Spec` namespace has the
definition of the transforms in the Iceberg table specification.
-/

namespace Verif.Iceberg

open Verif.Calendar

/-- `PrimitiveLiteral`, spec/types/values.rs:36-48. Integers are mathematical integers.
Strings are lists of code points (UTF-8 bytes and code points are ordered alike), binaries
lists of bytes. A float is given by its place in the total order of `OrderedFloat`. -/
inductive Lit where
  | bool (b : Bool)
  | int (v : Int)
  | long (v : Int)
  | float (r : Int)
  | double (r : Int)
  | i128 (v : Int)
  | str (s : List Nat)
  | u128 (v : Nat)
  | bin (b : List Nat)
  deriving DecidableEq, Repr

/-- Comparison of integers. -/
def cmpInt (a b : Int) : Ordering := if a < b then .lt else if b < a then .gt else .eq

/-- Lexicographic comparison, the order of `String` and `Vec<u8>`. -/
def cmpList : List Nat → List Nat → Ordering
  | [], [] => .eq
  | [], _ :: _ => .lt
  | _ :: _, [] => .gt
  | a :: as, b :: bs => if a < b then .lt else if b < a then .gt else cmpList as bs

/-- Comparison of booleans: false before true. -/
def cmpBool : Bool → Bool → Ordering
  | false, true => .lt
  | true, false => .gt
  | _, _ => .eq

/-- Place of a variant among the others, values.rs:74-90. -/
def Lit.tag : Lit → Int
  | .bool _ => 0 | .int _ => 1 | .long _ => 2 | .float _ => 3 | .double _ => 4
  | .i128 _ => 5 | .str _ => 6 | .u128 _ => 7 | .bin _ => 8

/-- `impl Ord for PrimitiveLiteral`, values.rs:56-92: by value within a variant and by
variant otherwise. -/
def Lit.cmp : Lit → Lit → Ordering
  | .bool a, .bool b => cmpBool a b
  | .int a, .int b => cmpInt a b
  | .long a, .long b => cmpInt a b
  | .float a, .float b => cmpInt a b
  | .double a, .double b => cmpInt a b
  | .i128 a, .i128 b => cmpInt a b
  | .str a, .str b => cmpList a b
  | .u128 a, .u128 b => cmpInt a b
  | .bin a, .bin b => cmpList a b
  | a, b => cmpInt a.tag b.tag

/-- Values of SQL expressions, the `ScalarValue` of DataFusion. `tsS` to `tsNs` are
timestamps in seconds, milliseconds, microseconds and nanoseconds. The unsigned types, the other
time types and `Decimal256` are left out: no Iceberg column is of these types. `other`
stands for any value `scalar_to_iceberg_literal` refuses (`Utf8View`, lists, structs). -/
inductive Scalar where
  | null
  | bool (b : Bool)
  | int8 (v : Int)
  | int16 (v : Int)
  | int32 (v : Int)
  | int64 (v : Int)
  | f32 (r : Int)
  | f64 (r : Int)
  | utf8 (s : List Nat)
  | binary (b : List Nat)
  | date32 (v : Int)
  | time (v : Int)
  | tsS (v : Int)
  | tsMs (v : Int)
  | tsUs (v : Int)
  | tsNs (v : Int)
  | dec (v : Int) (scale : Nat)
  | uuid (v : Nat)
  | fixed (b : List Nat)
  | other (k : Nat)
  deriving DecidableEq, Repr

/-- Primitive types of Iceberg columns, spec/types/mod.rs. The types with time zone are
merged with those without, which `apply_transform` and `adjust_exclusive_bound` treat
alike. `nested` stands for every type that is not primitive or has no literals. -/
inductive PType where
  | boolean | int | long | float | double | decimal (scale : Nat) | date | time
  | timestamp | timestampNs | string | uuid | fixed | binary | nested
  deriving DecidableEq, Repr

/-- `Transform`, spec/transform.rs:31-50. -/
inductive Transform where
  | identity | bucket (n : Nat) | truncate (w : Nat) | year | month | day | hour
  | void | unknown
  deriving DecidableEq, Repr

/-- `Transform::preserves_order`, spec/transform.rs:208-213. -/
def Transform.preservesOrder : Transform → Bool
  | .void => false
  | .bucket _ => false
  | .unknown => false
  | _ => true

/-- Two's complement in 32 bits, as casts and wrapping arithmetic of `i32` give it. -/
def wrap32 (x : Int) : Int := (x + 2147483648) % 4294967296 - 2147483648

/-- Two's complement in 64 bits. -/
def wrap64 (x : Int) : Int :=
  (x + 9223372036854775808) % 18446744073709551616 - 9223372036854775808

/-- `scalar_to_primitive_literal`, utils/conversions.rs:258-314; `none` is `Err`. The products
of seconds and milliseconds are not wrapped. -/
def toLit : Scalar → Option Lit
  | .null => none
  | .bool b => some (.bool b)
  | .int8 v => some (.int v)
  | .int16 v => some (.int v)
  | .int32 v => some (.int v)
  | .int64 v => some (.long v)
  | .f32 r => some (.float r)
  | .f64 r => some (.double r)
  | .utf8 s => some (.str s)
  | .binary b => some (.bin b)
  | .date32 v => some (.int v)
  | .time v => some (.long v)
  | .tsS v => some (.long (v * 1000000))
  | .tsMs v => some (.long (v * 1000))
  | .tsUs v => some (.long v)
  | .tsNs v => some (.long v)
  | .dec v _ => some (.i128 v)
  | .uuid _ => none
  | .fixed _ => none
  | .other _ => none

/-- The last day `chrono::NaiveDate` can hold (year 262142). -/
def chronoMax : Int := jan1 262143 - 1

/-- The first day `chrono::NaiveDate` can hold (year -262143). -/
def chronoMin : Int := jan1 (-262143)

/-- `epoch + chrono::Days::new(days as u64)`, transform.rs:198 and 211. A negative number is
cast to a huge one and the addition panics, as it does past the last day; `none` is the
panic. -/
def addDays (d : Int) : Option Int :=
  if 0 ≤ d ∧ d ≤ chronoMax then some d else none

/-- `days_to_year`, transform.rs:195-200. -/
def daysToYear (d : Int) : Option Int := (addDays d).map fun d => yearOf d - 1970

/-- `days_to_months`, transform.rs:208-213. -/
def daysToMonths (d : Int) : Option Int :=
  (addDays d).map fun d => (yearOf d - 1970) * 12 + month0 d

/-- `chrono::DateTime::from_timestamp_micros`: the day, if chrono can hold it. -/
def fromMicros (m : Int) : Option Int :=
  if chronoMin ≤ m / 86400000000 ∧ m / 86400000000 ≤ chronoMax then some (m / 86400000000)
  else none

/-- `micros_to_year`, transform.rs:202-206. -/
def microsToYear (m : Int) : Int :=
  match fromMicros m with
  | some d => yearOf d - 1970
  | none => 0

/-- `micros_to_months`, transform.rs:215-228. -/
def microsToMonths (m : Int) : Int :=
  match fromMicros m with
  | none => 0
  | some d =>
    if m > 0 then (yearOf d - 1970) * 12 + month0 d
    else -((12 - month0 d) + 12 * (1970 - yearOf d - 1))

/-- `i32::try_from(x).unwrap_or(i32::MAX)`, transform.rs:101 and 184. -/
def toI32 (x : Int) : Int :=
  if -2147483648 ≤ x ∧ x ≤ 2147483647 then x else 2147483647

/-- The conversion of nanoseconds to microseconds in each branch of `apply_transform`,
transform.rs:93-98. -/
def toMicros (ty : PType) (v : Int) : Int :=
  match ty with
  | .timestampNs => v / 1000
  | _ => v

/-- Whether the type is one of the four timestamp types. -/
def PType.isTs : PType → Bool
  | .timestamp => true
  | .timestampNs => true
  | _ => false

/-- The `n` bytes of an integer, the lowest first (`to_le_bytes`). -/
def leBytes : Nat → Int → List Nat
  | 0, _ => []
  | n + 1, v => (v % 256).toNat :: leBytes n (v / 256)

/-- UTF-8 encoding of one code point. -/
def utf8Char (c : Nat) : List Nat :=
  if c < 128 then [c]
  else if c < 2048 then [192 + c / 64, 128 + c % 64]
  else if c < 65536 then [224 + c / 4096, 128 + c / 64 % 64, 128 + c % 64]
  else [240 + c / 262144, 128 + c / 4096 % 64, 128 + c / 64 % 64, 128 + c % 64]

/-- `str::as_bytes`. -/
def utf8 (s : List Nat) : List Nat := s.flatMap utf8Char

/-- Bytes hashed by `hash_decimal`, transform.rs:249-256: the 16 bytes, highest first, without
the leading zeros. -/
def decimalBytes (v : Int) : List Nat :=
  match (leBytes 16 v).reverse.dropWhile (· == 0) with
  | [] => [0]
  | b => b

/-- `bucket_n`, transform.rs:259-261; `% 0` panics. -/
def bucketN (hash : Int) (n : Nat) : Option Lit :=
  if wrap32 n = 0 then none else some (.int ((hash % 2147483648).tmod (wrap32 n)))

/-- `Transform::Truncate` on literals, transform.rs:34-50; `rem_euclid(0)` panics. -/
def truncateLit (w : Nat) : Lit → Option Lit
  | .str s => some (.str (s.take w))
  | .int v => if wrap32 w = 0 then none else some (.int (wrap32 (v - v % wrap32 w)))
  | .long v => if w = 0 then none else some (.long (wrap64 (v - v % w)))
  | l => some l

/-- `Transform::Bucket` on literals, transform.rs:51-77. `h` is Murmur3 with seed 0 of a list of
bytes, as an `i32`. -/
def bucketLit (h : List Nat → Int) (n : Nat) : Lit → Option Lit
  | .int v => bucketN (h (leBytes 8 v)) n
  | .long v => bucketN (h (leBytes 8 v)) n
  | .i128 v => bucketN (h (decimalBytes v)) n
  | .str s => bucketN (h (utf8 s)) n
  | .u128 v => bucketN (h (leBytes 16 v).reverse) n
  | .bin b => bucketN (h b) n
  | l => some l

/-- `Transform::Day`, transform.rs:79-105. -/
def dayLit (ty : PType) : Lit → Lit
  | .long v => if ty.isTs then .int (toI32 (toMicros ty v / 86400000000)) else .long v
  | l => l

/-- `Transform::Year`, transform.rs:107-135. -/
def yearLit (ty : PType) : Lit → Option Lit
  | .int v => if ty = .date then (daysToYear v).map .int else some (.int v)
  | .long v => some (if ty.isTs then .int (microsToYear (toMicros ty v)) else .long v)
  | l => some l

/-- `Transform::Month`, transform.rs:137-164. -/
def monthLit (ty : PType) : Lit → Option Lit
  | .int v => if ty = .date then (daysToMonths v).map .int else some (.int v)
  | .long v => some (if ty.isTs then .int (microsToMonths (toMicros ty v)) else .long v)
  | l => some l

/-- `Transform::Hour`, transform.rs:166-188. -/
def hourLit (ty : PType) : Lit → Lit
  | .long v => if ty.isTs then .int (toI32 (toMicros ty v / 3600000000)) else .long v
  | l => l

/-- `apply_transform` on a primitive value that is present, transform.rs:27-190. `none` is a
panic. (A missing value gives a missing value for every transform.) -/
def applyTransform (h : List Nat → Int) (tr : Transform) (ty : PType) (l : Lit) : Option Lit :=
  match tr with
  | .identity => some l
  | .unknown => some l
  | .void => some l
  | .truncate w => truncateLit w l
  | .bucket n => bucketLit h n l
  | .day => some (dayLit ty l)
  | .year => yearLit ty l
  | .month => monthLit ty l
  | .hour => some (hourLit ty l)

namespace Spec

/-- Values a column of a type holds, with the ranges of the types. -/
def HasType : PType → Scalar → Prop
  | _, .null => True
  | .boolean, .bool _ => True
  | .int, .int32 v => -2147483648 ≤ v ∧ v ≤ 2147483647
  | .long, .int64 v => -9223372036854775808 ≤ v ∧ v ≤ 9223372036854775807
  | .float, .f32 _ => True
  | .double, .f64 _ => True
  | .decimal s, .dec _ s' => s' = s
  | .date, .date32 v => -2147483648 ≤ v ∧ v ≤ 2147483647
  | .time, .time v => -9223372036854775808 ≤ v ∧ v ≤ 9223372036854775807
  | .timestamp, .tsUs v => -9223372036854775808 ≤ v ∧ v ≤ 9223372036854775807
  | .timestampNs, .tsNs v => -9223372036854775808 ≤ v ∧ v ≤ 9223372036854775807
  | .string, .utf8 _ => True
  | .uuid, .uuid _ => True
  | .fixed, .fixed _ => True
  | .binary, .binary _ => True
  | _, _ => False

/-- The value of a column as it is stored in metadata. -/
def litOf : Scalar → Option Lit
  | .bool b => some (.bool b)
  | .int32 v => some (.int v)
  | .int64 v => some (.long v)
  | .f32 r => some (.float r)
  | .f64 r => some (.double r)
  | .dec v _ => some (.i128 v)
  | .date32 v => some (.int v)
  | .time v => some (.long v)
  | .tsUs v => some (.long v)
  | .tsNs v => some (.long v)
  | .utf8 s => some (.str s)
  | .uuid v => some (.u128 v)
  | .fixed b => some (.bin b)
  | .binary b => some (.bin b)
  | _ => none

/-- `p` is the largest multiple of `w` that is at most `v`. -/
def IsFloor (w v p : Int) : Prop := (∃ k, p = k * w) ∧ p ≤ v ∧ v < p + w

/-- `y` years after 1970 is the year of a moment, with `u` units to a day. -/
def IsYear (u v y : Int) : Prop := jan1 (1970 + y) * u ≤ v ∧ v < jan1 (1970 + y + 1) * u

/-- `m` months after January 1970 is the month of a moment. -/
def IsMonth (u v m : Int) : Prop := monthFirst m * u ≤ v ∧ v < monthFirst (m + 1) * u

/-- `k` spans of `u` units after the epoch is the span of a moment. -/
def IsSpan (u v k : Int) : Prop := k * u ≤ v ∧ v < (k + 1) * u

/-- Shortest two's complement representation, highest byte first: `b` represents `v`, and
without its first byte it would not. -/
def IsMinimalBE (v : Int) (b : List Nat) : Prop :=
  ∃ n, 0 < n ∧ b = (leBytes n v).reverse ∧ -(2 : Int) ^ (8 * n - 1) ≤ v ∧
    v < (2 : Int) ^ (8 * n - 1) ∧
    (n = 1 ∨ ¬ (-(2 : Int) ^ (8 * n - 9) ≤ v ∧ v < (2 : Int) ^ (8 * n - 9)))

/-- The bytes the specification hashes for a value (appendix B of the specification). -/
def HashInput : Scalar → List Nat → Prop
  | .int32 v, b => b = leBytes 8 v
  | .int64 v, b => b = leBytes 8 v
  | .date32 v, b => b = leBytes 8 v
  | .time v, b => b = leBytes 8 v
  | .tsUs v, b => b = leBytes 8 v
  | .tsNs v, b => b = leBytes 8 v
  | .dec v _, b => IsMinimalBE v b
  | .utf8 s, b => b = utf8 s
  | .uuid v, b => b = (leBytes 16 v).reverse
  | .fixed x, b => b = x
  | .binary x, b => b = x
  | _, _ => False

/-- `IsPart h tr s p`: the specification gives the value `p` for the transform `tr` of the
column value `s`; false for a transform the specification does not allow for the type. -/
def IsPart (h : List Nat → Int) : Transform → Scalar → Option Lit → Prop
  | _, .null, p => p = none
  | .void, _, p => p = none
  | .identity, s, p => p ≠ none ∧ p = litOf s
  | .bucket n, s, p => 0 < n ∧ ∃ b, HashInput s b ∧ p = some (.int (h b % 2147483648 % n))
  | .truncate w, .int32 v, p => 0 < w ∧ ∃ q, IsFloor w v q ∧ p = some (.int q)
  | .truncate w, .int64 v, p => 0 < w ∧ ∃ q, IsFloor w v q ∧ p = some (.long q)
  | .truncate w, .dec v _, p => 0 < w ∧ ∃ q, IsFloor w v q ∧ p = some (.i128 q)
  | .truncate w, .utf8 s, p => 0 < w ∧ p = some (.str (s.take w))
  | .truncate w, .binary s, p => 0 < w ∧ p = some (.bin (s.take w))
  | .year, .date32 v, p => ∃ y, IsYear 1 v y ∧ p = some (.int y)
  | .year, .tsUs v, p => ∃ y, IsYear 86400000000 v y ∧ p = some (.int y)
  | .year, .tsNs v, p => ∃ y, IsYear 86400000000000 v y ∧ p = some (.int y)
  | .month, .date32 v, p => ∃ y, IsMonth 1 v y ∧ p = some (.int y)
  | .month, .tsUs v, p => ∃ y, IsMonth 86400000000 v y ∧ p = some (.int y)
  | .month, .tsNs v, p => ∃ y, IsMonth 86400000000000 v y ∧ p = some (.int y)
  | .day, .date32 v, p => p = some (.int v)
  | .day, .tsUs v, p => ∃ k, IsSpan 86400000000 v k ∧ p = some (.int k)
  | .day, .tsNs v, p => ∃ k, IsSpan 86400000000000 v k ∧ p = some (.int k)
  | .hour, .tsUs v, p => ∃ k, IsSpan 3600000000 v k ∧ p = some (.int k)
  | .hour, .tsNs v, p => ∃ k, IsSpan 3600000000000 v k ∧ p = some (.int k)
  | _, _, _ => False

/-- Values at which the code follows the specification: not within one width of the lower end
of the integer range for truncation, not beyond some 190 000 years from 1970 for
timestamps; never decimals under bucket and truncate, nor binaries under truncate. -/
def Sane : Transform → Scalar → Prop
  | .truncate w, .int32 v => w ≤ 2147483647 ∧ -2147483648 + w - 1 ≤ v
  | .truncate w, .int64 v => w ≤ 4294967295 ∧ -9223372036854775808 + w - 1 ≤ v
  | .truncate _, .dec _ _ => False
  | .truncate _, .binary _ => False
  | .bucket _, .dec _ _ => False
  | .bucket n, _ => n ≤ 2147483647
  | .year, .tsUs v => -6000000000000000000 ≤ v ∧ v ≤ 6000000000000000000
  | .month, .tsUs v => -6000000000000000000 ≤ v ∧ v ≤ 6000000000000000000
  | .hour, .tsUs v => -6000000000000000000 ≤ v ∧ v ≤ 6000000000000000000
  | _, _ => True

end Spec

end Verif.Iceberg
