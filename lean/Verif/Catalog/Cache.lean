import Verif.Catalog.Memory

/-!
# The listing cache in front of a catalog

`sail-catalog/src/provider/cache.rs` and `wrap_catalog_provider` of
`sail-session/src/catalog.rs`. The catalog itself is remote and shared by all sessions; it
is given by the effect of its requests and by its three listings. A listing cache of moka is
an association list from which entries can vanish at any time: expiry and eviction by size are
steps of the system. Lookups of single objects are passed through and left out.
-/

namespace Verif.Catalog

/-- The requests that change a catalog (cache.rs:209-450). -/
inductive ChangeKind
  | createDatabase | dropDatabase | createTable | dropTable | alterTable | commitTable
  | createView | dropView
deriving DecidableEq

/-- A request that changes a catalog: its kind, the database that it names and the rest. -/
structure Change (ρ : Type) where
  kind : ChangeKind
  db : Namespace
  payload : ρ

/-- A catalog (`CatalogProvider`, provider/mod.rs): `δ` and `τ` are what listings of databases
and of tables or views return. -/
structure Provider (σ ρ δ τ : Type) where
  change : σ → Change ρ → Except Err Unit × σ
  listDatabases : σ → Option Namespace → Except Err δ
  listTables : σ → Namespace → Except Err τ
  listViews : σ → Namespace → Except Err τ

/-- `CacheType` (sail-common/src/config/application.rs). -/
inductive CacheType
  | none | global | session
deriving DecidableEq

/-- `CatalogCacheConfig` without sizes and times. -/
structure CacheConfig where
  database : CacheType
  table : CacheType
  view : CacheType

/-- The caches of one kind: the one of the process (`CatalogCacheBundle`, cache.rs:23-29, kept
in the `CatalogCacheManager` under the name of the catalog) and those of the sessions. -/
structure Slot (κ ν : Type) where
  shared : List (κ × ν)
  own : Nat → List (κ × ν)

/-- The cache that `CachingCatalogProvider::new` (cache.rs:72-130) gives to a session, with a
lookup in it. -/
def Slot.get {κ ν : Type} [DecidableEq κ] (t : CacheType) (i : Nat) (s : Slot κ ν) (k : κ) :
    Option ν :=
  match t with
  | .none => .none
  | .global => find s.shared k
  | .session => find (s.own i) k

/-- A change of the cache that `CachingCatalogProvider::new` gives to a session. -/
def Slot.modify {κ ν : Type} (t : CacheType) (i : Nat) (f : List (κ × ν) → List (κ × ν))
    (s : Slot κ ν) : Slot κ ν :=
  match t with
  | .none => s
  | .global => { s with shared := f s.shared }
  | .session => { s with own := fun j => if j = i then f (s.own j) else s.own j }

/-- The catalog with the caches of all sessions. -/
structure Cached (σ δ τ : Type) where
  inner : σ
  databases : Slot (Option Namespace) δ
  tables : Slot Namespace τ
  views : Slot Namespace τ

variable {σ ρ δ τ : Type}

/-- The requests of the wrapper that change the catalog (cache.rs:209-450): only after a
success the cached listings are removed. -/
def Cached.change (P : Provider σ ρ δ τ) (cfg : CacheConfig) (s : Cached σ δ τ) (i : Nat)
    (c : Change ρ) : Except Err Unit × Cached σ δ τ :=
  match P.change s.inner c with
  | (.error e, inner) => (.error e, { s with inner := inner })
  | (.ok _, inner) =>
    let s := { s with inner := inner }
    let dropTables := s.tables.modify cfg.table i (fun m => erase m c.db)
    let dropViews := s.views.modify cfg.view i (fun m => erase m c.db)
    let dropDatabases := s.databases.modify cfg.database i (fun _ => [])
    (.ok (),
      match c.kind with
      | .createDatabase => { s with databases := dropDatabases }
      | .dropDatabase =>
        { s with databases := dropDatabases, tables := dropTables, views := dropViews }
      | .createTable => { s with tables := dropTables }
      | .commitTable => { s with tables := dropTables }
      | .dropTable => { s with tables := dropTables }
      | .alterTable => { s with tables := dropTables }
      | .createView => { s with views := dropViews }
      | .dropView => { s with views := dropViews })

/-- The end of `list_databases` (cache.rs:237): the insertion of a listing. -/
def Cached.storeDatabases (cfg : CacheConfig) (s : Cached σ δ τ) (i : Nat)
    (pre : Option Namespace) (v : δ) : Cached σ δ τ :=
  { s with databases := s.databases.modify cfg.database i fun m => put m pre v }

/-- `list_databases` (cache.rs:225-243). -/
def Cached.listDatabases (P : Provider σ ρ δ τ) (cfg : CacheConfig) (s : Cached σ δ τ) (i : Nat)
    (pre : Option Namespace) : Except Err δ × Cached σ δ τ :=
  match s.databases.get cfg.database i pre with
  | some v => (.ok v, s)
  | none =>
    match P.listDatabases s.inner pre with
    | .error e => (.error e, s)
    | .ok v => (.ok v, s.storeDatabases cfg i pre v)

/-- The end of `list_tables` (cache.rs:373): the insertion of a listing. -/
def Cached.storeTables (cfg : CacheConfig) (s : Cached σ δ τ) (i : Nat) (db : Namespace) (v : τ) :
    Cached σ δ τ :=
  { s with tables := s.tables.modify cfg.table i fun m => put m db v }

/-- `list_tables` (cache.rs:364-378). -/
def Cached.listTables (P : Provider σ ρ δ τ) (cfg : CacheConfig) (s : Cached σ δ τ) (i : Nat)
    (db : Namespace) : Except Err τ × Cached σ δ τ :=
  match s.tables.get cfg.table i db with
  | some v => (.ok v, s)
  | none =>
    match P.listTables s.inner db with
    | .error e => (.error e, s)
    | .ok v => (.ok v, s.storeTables cfg i db v)

/-- The end of `list_views` (cache.rs:429): the insertion of a listing. -/
def Cached.storeViews (cfg : CacheConfig) (s : Cached σ δ τ) (i : Nat) (db : Namespace) (v : τ) :
    Cached σ δ τ :=
  { s with views := s.views.modify cfg.view i fun m => put m db v }

/-- `list_views` (cache.rs:420-434). -/
def Cached.listViews (P : Provider σ ρ δ τ) (cfg : CacheConfig) (s : Cached σ δ τ) (i : Nat)
    (db : Namespace) : Except Err τ × Cached σ δ τ :=
  match s.views.get cfg.view i db with
  | some v => (.ok v, s)
  | none =>
    match P.listViews s.inner db with
    | .error e => (.error e, s)
    | .ok v => (.ok v, s.storeViews cfg i db v)

/-- What can happen: requests of sessions, and entries that vanish from a cache. -/
inductive CacheEvent (ρ : Type)
  | change (i : Nat) (c : Change ρ)
  | listDatabases (i : Nat) (pre : Option Namespace)
  | listTables (i : Nat) (db : Namespace)
  | listViews (i : Nat) (db : Namespace)
  | evictDatabases (i : Nat) (pre : Option Namespace)
  | evictTables (i : Nat) (db : Namespace)
  | evictViews (i : Nat) (db : Namespace)

/-- One event, at once. -/
def Cached.step (P : Provider σ ρ δ τ) (cfg : CacheConfig) (s : Cached σ δ τ) :
    CacheEvent ρ → Cached σ δ τ
  | .change i c => (s.change P cfg i c).2
  | .listDatabases i pre => (s.listDatabases P cfg i pre).2
  | .listTables i db => (s.listTables P cfg i db).2
  | .listViews i db => (s.listViews P cfg i db).2
  | .evictDatabases i pre =>
    { s with databases := s.databases.modify cfg.database i fun m => erase m pre }
  | .evictTables i db => { s with tables := s.tables.modify cfg.table i fun m => erase m db }
  | .evictViews i db => { s with views := s.views.modify cfg.view i fun m => erase m db }

/-- Events one after another. -/
def Cached.run (P : Provider σ ρ δ τ) (cfg : CacheConfig) (s : Cached σ δ τ)
    (evs : List (CacheEvent ρ)) : Cached σ δ τ :=
  evs.foldl (fun s e => s.step P cfg e) s

/-- All caches empty (`CachingCatalogProvider::new`, `CatalogCacheBundle::new`). -/
def Cached.init (inner : σ) : Cached σ δ τ :=
  ⟨inner, ⟨[], fun _ => []⟩, ⟨[], fun _ => []⟩, ⟨[], fun _ => []⟩⟩

end Verif.Catalog
