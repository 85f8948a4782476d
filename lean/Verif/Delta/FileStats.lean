/-!
# The statistics written for a Delta data file

`crates/sail-delta-lake/src/writer/stats.rs` and the reading of timestamp maxima in
`datasource/pruning.rs`. Paths below are relative to `crates/sail-delta-lake/src`.

Not modelled: the Parquet writer (what it records for a row group is an argument), decimals
(which go through floating point numbers), variants, the choice of the columns that get
statistics, and the JSON text of texts and floating point numbers.
-/

namespace Verif.Delta.FileStats

/-! ## Adding up the row groups -/

/-- `AggregatedStats` (`writer/stats.rs:671-675`). -/
structure Agg (V : Type) where
  min : Option V
  max : Option V
  nulls : Nat
deriving DecidableEq, Repr

/-- What Parquet records for a column of a row group, `Statistics`: a minimum and a maximum and a
null count, each of which may be missing. -/
structure Raw (R : Type) where
  min : Option R
  max : Option R
  nulls : Option Nat
deriving DecidableEq, Repr

/-- `AggregatedStats::from` (`writer/stats.rs:677-697`). `read` is `StatsScalar::try_from_stats`,
`none` for an error. -/
def Agg.ofRaw {R V : Type} (read : R → Option V) (s : Raw R) : Agg V :=
  match s.min, s.max with
  | some a, some b => ⟨read a, read b, s.nulls.getD 0⟩
  | _, _ => ⟨none, none, s.nulls.getD 0⟩

/-- The pair of minima (`writer/stats.rs:701-710`): `lt` is `<` of `StatsScalar`, which for the
scalars of one column is `<` of their values. -/
def minOf {V : Type} (lt : V → V → Bool) : Option V → Option V → Option V
  | some l, some r => if lt l r then some l else some r
  | some l, none => some l
  | none, r => r

/-- The pair of maxima (`writer/stats.rs:711-720`). -/
def maxOf {V : Type} (lt : V → V → Bool) : Option V → Option V → Option V
  | some l, some r => if lt r l then some l else some r
  | some l, none => some l
  | none, r => r

/-- `AddAssign` (`writer/stats.rs:699-724`). -/
def Agg.add {V : Type} (lt : V → V → Bool) (a b : Agg V) : Agg V :=
  ⟨minOf lt a.min b.min, maxOf lt a.max b.max, a.nulls + b.nulls⟩

/-- The statistics of a column of a file, of what Parquet records for its row groups
(`writer/stats.rs:149-173`): groups without statistics are passed over. -/
def aggregate {R V : Type} (lt : V → V → Bool) (read : R → Option V) (gs : List (Option (Raw R))) : Option (Agg V) :=
  match (gs.filterMap id).map (Agg.ofRaw read) with
  | [] => none
  | a :: l => some (l.foldl (Agg.add lt) a)

/-! ## Timestamps -/

/-- The units of a Parquet timestamp. -/
inductive TimeUnit
  | millis
  | micros
  | nanos
deriving DecidableEq, Repr

/-- Nanoseconds of a unit. -/
def TimeUnit.ns : TimeUnit → Int
  | .millis => 1000000
  | .micros => 1000
  | .nanos => 1

/-- `StatsScalar::try_from_stats` for a timestamp (`writer/stats.rs:507-533`), as nanoseconds since
1970. `inRange` tells of nanoseconds whether they are a date that `chrono` can represent. For
nanoseconds the remainder of a negative number is negative and is turned into an unsigned number
of 32 bits, which is more than two seconds, so `from_timestamp` fails. -/
def readTimestamp (inRange : Int → Bool) (unit : TimeUnit) (v : Int) : Option Int :=
  match unit with
  | .millis => if inRange (v * 1000000) then some (v * 1000000) else none
  | .micros => if inRange (v * 1000) then some (v * 1000) else none
  | .nanos => if v.tmod 1000000000 < 0 then none else if inRange v then some v else none

/-- The text of a timestamp, `%.3f` (`writer/stats.rs:640-645`): milliseconds since 1970, the rest
is cut off. (`chrono` keeps the nanoseconds of a second as a number that is not negative, so the
text is of the millisecond before.) -/
def writeTimestamp (ns : Int) : Int := ns / 1000000

/-- The largest number of 64 bits. -/
def maxI64 : Int := 2 ^ 63 - 1

/-- The text read as a value of the column, in its unit. (A text the column cannot hold is not
read.) -/
def parseTimestamp (unit : TimeUnit) (ms : Int) : Int :=
  match unit with
  | .millis => ms
  | .micros => ms * 1000
  | .nanos => ms * 1000000

/-- What is added to a maximum (`datasource/pruning.rs:78-83`). -/
def widenBy : TimeUnit → Int
  | .millis => 1
  | .micros => 1000
  | .nanos => 1000000

/-- `widen_timestamp_max_stat` (`datasource/pruning.rs:56-84`), with `saturating_add`. -/
def widen (unit : TimeUnit) (v : Int) : Int := min maxI64 (v + widenBy unit)

/-- The minimum and the maximum of a timestamp column that pruning sees. -/
def timestampBounds (unit : TimeUnit) (a : Agg Int) : Option Int × Option Int :=
  (a.min.map (fun v => parseTimestamp unit (writeTimestamp v)),
    a.max.map (fun v => widen unit (parseTimestamp unit (writeTimestamp v))))

/-! ## The names under which statistics are recorded -/

/-- `ColumnValueStat` and `ColumnCountStat`: a value, or the statistics of the fields of a
struct. -/
inductive Tree (A : Type)
  | value (a : A)
  | column (l : List (String × Tree A))

/-- A map from names to statistics. Insertion replaces. -/
abbrev Dir (A : Type) := List (String × Tree A)

/-- `HashMap::get`. -/
def Dir.get {A : Type} (d : Dir A) (k : String) : Option (Tree A) :=
  match d with
  | [] => none
  | (k', t) :: rest => if k' = k then some t else Dir.get rest k

/-- `HashMap::insert`. -/
def Dir.put {A : Type} (d : Dir A) (k : String) (t : Tree A) : Dir A := (k, t) :: d.filter (fun x => x.1 ≠ k)

/-- What is recorded for a path. -/
def Dir.find {A : Type} (d : Dir A) : List String → Option A
  | [] => none
  | [k] =>
    match d.get k with
    | some (.value a) => some a
    | _ => none
  | k :: rest =>
    match d.get k with
    | some (.column d') => Dir.find d' rest
    | _ => none

/-- The name of the elements of a list, `SAIL_LIST_FIELD_NAME`
(`crates/sail-common/src/spec/data_type.rs:38`). -/
def sailList : String := "item"

/-- The loop of `get_list_field_name` (`writer/stats.rs:735-749`), over the path from its end. -/
def listNameLoop (rep : Nat) : List String → Nat → Nat → Option String
  | [], _, _ => none
  | part :: rest, lists, items =>
    if part = "list" ∧ lists = rep then some "list"
    else if part = "element" ∧ items = rep then some "element"
    else if part = sailList ∧ items = rep then some sailList
    else if part = "list" then listNameLoop rep rest (lists + 1) items
    else if part = "element" ∨ part = sailList then listNameLoop rep rest lists (items + 1)
    else some part

/-- `get_list_field_name` (`writer/stats.rs:726-751`). -/
def listName (rep : Nat) (path : List String) : Option String :=
  if 2 * rep + 1 < path.length then none else listNameLoop rep path.reverse 0 0

/-- A leaf of the Parquet schema, a `ColumnDescriptor`: its path, how many lists or maps it is
inside, and its statistics. -/
structure Leaf (V : Type) where
  path : List String
  rep : Nat
  stats : Agg V

/-- The three maps of `Stats`. -/
structure Maps (V : Type) where
  min : Dir V := []
  max : Dir V := []
  nulls : Dir Nat := []

/-- `insert` if there is a value. -/
def Dir.putOpt {A : Type} (d : Dir A) (k : String) (v : Option A) : Dir A :=
  match v with
  | some a => d.put k (.value a)
  | none => d

/-- `entry(key).or_insert_with(Column(empty))`: what is there. -/
def Dir.child {A : Type} (d : Dir A) (k : String) : Tree A := (d.get k).getD (.column [])

/-- The part of `apply_min_max_for_column` for leaves outside lists (`writer/stats.rs:772-832`), with
what is left of the path. `none`: `unreachable!`, the write fails with a panic. The name of the
leaf is the last of its path. -/
def applyAt {V : Type} (s : Agg V) : List String → Maps V → Option (Maps V)
  | [], _ => none
  | [k], m => some ⟨m.min.putOpt k s.min, m.max.putOpt k s.max, m.nulls.put k (.value s.nulls)⟩
  | k :: k' :: rest, m =>
    match m.min.child k, m.max.child k, m.nulls.child k with
    | .column a, .column b, .column c =>
      match applyAt s (k' :: rest) ⟨a, b, c⟩ with
      | none => none
      | some r => some ⟨m.min.put k (.column r.min), m.max.put k (.column r.max), m.nulls.put k (.column r.nulls)⟩
    | _, _, _ => none

/-- `apply_min_max_for_column` (`writer/stats.rs:753-833`). -/
def applyLeaf {V : Type} (l : Leaf V) (m : Maps V) : Option (Maps V) :=
  if 0 < l.rep then
    match listName l.rep l.path with
    | some k => some ⟨m.min, m.max, m.nulls.put k (.value l.stats.nulls)⟩
    | none => some m
  else applyAt l.stats l.path m

/-- The loop over the leaves (`writer/stats.rs:187-215`). -/
def applyAll {V : Type} : List (Leaf V) → Maps V → Option (Maps V)
  | [], m => some m
  | l :: ls, m =>
    match applyLeaf l m with
    | none => none
    | some m => applyAll ls m

end Verif.Delta.FileStats
