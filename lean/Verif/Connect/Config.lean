/-!
# The runtime configuration of a session

Sources: crates/sail-spark-connect/src/config.rs:38-185 (`SparkRuntimeConfig`),
crates/sail-spark-connect/src/session.rs:84-170, crates/sail-spark-connect/src/service/config_manager.rs.

Simplifications: the table of known keys is any table in which following fallbacks comes to an end (the
code recurses for ever on a cycle; the tables in crates/sail-spark-connect/data/config have fallbacks of
depth at most one). The map of set values is an association list whose order stands for the iteration
order of the `HashMap`. Lock poisoning is left out.
-/

namespace Verif.Connect.Conf

/-- `SparkConfigEntry`, as far as it is used: alternatives, fallback, default value, whether the key was
removed, whether it is static, and the deprecation comment. -/
structure Entry where
  alternatives : List String
  fallback : Option String
  default : Option String
  removed : Bool
  isStatic : Bool
  deprecated : Option String
  deriving DecidableEq, Repr

/-- A table of known keys without fallback cycles. -/
structure Table where
  entry : String → Option Entry
  rank : String → Nat
  acyclic : ∀ k e f, entry k = some e → e.fallback = some f → rank f < rank k

/-- The map of set values. -/
abbrev Map := List (String × String)

/-- `HashMap::get`. -/
def lookup (k : String) (m : Map) : Option String := (m.find? fun e => e.1 == k).map (·.2)

/-- `HashMap::insert`. -/
def insert (k v : String) (m : Map) : Map := (k, v) :: m.filter fun e => e.1 != k

/-- `HashMap::remove`. -/
def erase (k : String) (m : Map) : Map := m.filter fun e => e.1 != k

/-- The alternatives of a key, config.rs:93-94. -/
def alternatives (t : Table) (k : String) : List String :=
  match t.entry k with
  | some e => e.alternatives
  | none => []

/-- `get_by_key`, config.rs:86-100: the value of the key, or of the first alternative that has one. -/
def getByKey (t : Table) (m : Map) (k : String) : Option String :=
  match lookup k m with
  | some v => some v
  | none => (alternatives t k).findSome? fun a => lookup a m

/-- `get`, config.rs:102-116. An error is `none`. -/
def get (t : Table) (m : Map) (k : String) : Option (Option String) :=
  match getByKey t m k with
  | some v => some (some v)
  | none =>
    match h : t.entry k with
    | none => none
    | some e =>
      match h' : e.fallback with
      | some f => get t m f
      | none => some e.default
termination_by t.rank k
decreasing_by exact t.acyclic k e f h h'

/-- `get_option`, config.rs:118-127. -/
def getOption (t : Table) (m : Map) (k : String) : Option String :=
  match getByKey t m k with
  | some v => some v
  | none =>
    match h : t.entry k with
    | none => none
    | some e =>
      match h' : e.fallback with
      | some f => getOption t m f
      | none => e.default
termination_by t.rank k
decreasing_by exact t.acyclic k e f h h'

/-- `get_with_default`, config.rs:129-142. -/
def getWithDefault (t : Table) (m : Map) (k : String) (d : Option String) : Option String :=
  match getByKey t m k with
  | some v => some v
  | none =>
    match h : t.entry k with
    | none => d
    | some e =>
      match h' : e.fallback with
      | some f => getWithDefault t m f d
      | none => d
termination_by t.rank k
decreasing_by exact t.acyclic k e f h h'

/-- `validate_removed_key`, config.rs:74-84. -/
def setAllowed (t : Table) (k v : String) : Bool :=
  match t.entry k with
  | some e => !(e.removed && e.default != some v)
  | none => true

/-- `set`, config.rs:144-148. -/
def set (t : Table) (m : Map) (k v : String) : Option Map :=
  if setAllowed t k v then some (insert k v m) else none

/-- `unset`, config.rs:150-153. -/
def unset (m : Map) (k : String) : Map := erase k m

/-- `get_all`, config.rs:155-173. -/
def getAll (m : Map) (prefix? : Option String) : List (String × String) :=
  match prefix? with
  | none => m
  | some p => m.filter fun e => p.toList.isPrefixOf e.1.toList

/-- `is_modifiable`, config.rs:175-180. -/
def isModifiable (t : Table) (k : String) : Bool :=
  match t.entry k with
  | some e => !e.isStatic && !e.removed
  | none => false

/-- `get_warnings_by_keys`, config.rs:182-205. -/
def warnings (t : Table) (ks : List String) : List String :=
  ks.filterMap fun k => (t.entry k).bind (·.deprecated)

/-- `set_config`, session.rs:130-142: pair after pair until one fails; the pairs before it stay. The
map and whether all went well. -/
def setAll (t : Table) (m : Map) : List (String × Option String) → Map × Bool
  | [] => (m, true)
  | (k, some v) :: rest =>
    match set t m k v with
    | some m' => setAll t m' rest
    | none => (m, false)
  | (_, none) :: _ => (m, false)

/-- `unset_config`, session.rs:144-150. -/
def unsetAll (m : Map) : List String → Map
  | [] => m
  | k :: ks => unsetAll (unset m k) ks

/-- The requests that change the configuration. -/
inductive Request where
  | set (pairs : List (String × Option String))
  | unset (keys : List String)
  deriving DecidableEq, Repr

def step (t : Table) (m : Map) : Request → Map
  | .set kvs => (setAll t m kvs).1
  | .unset ks => unsetAll m ks

def run (t : Table) (m : Map) : List Request → Map
  | [] => m
  | r :: rs => run t (step t m r) rs

end Verif.Connect.Conf
