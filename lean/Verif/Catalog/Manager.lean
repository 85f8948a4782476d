import Verif.Catalog.Memory

/-!
# The catalog manager of a session

`sail-catalog/src/manager/*.rs`, `sail-catalog/src/temp_view.rs` and the statements of
`sail-catalog/src/command.rs`. All catalogs are in-memory catalogs. Table formats that write
their own metadata (Delta, Iceberg) are left out, so that CREATE TABLE and ALTER TABLE do no
more than change the catalog. Global temporary views live in the process, everything else in
the session.
-/

namespace Verif.Catalog

variable {α : Type}

/-- `TemporaryView` (temp_view.rs:17-24): the columns with their comments; `rest` holds the
plan, the comment, the properties and the source. -/
structure TempView (α : Type) where
  columns : List (α × Option Name)
  rest : α
deriving DecidableEq

/-- `CreateTemporaryViewOptions` (provider/options.rs): the fields of the input and the
comments of the columns, if columns are given. -/
structure TempOptions (α : Type) where
  fields : List α
  comments : List (Option Name)
  ifNotExists : Bool
  replace : Bool
  rest : α
deriving DecidableEq

/-- `TemporaryViewManager::create_view` (temp_view.rs:85-150). -/
def createTemp (views : List (Name × TempView α)) (n : Name) (o : TempOptions α) :
    Except Err Unit × List (Name × TempView α) :=
  let insert : Except Err Unit × List (Name × TempView α) :=
    if o.comments.isEmpty then
      (.ok (), put views n ⟨o.fields.map fun f => (f, none), o.rest⟩)
    else if o.fields.length = o.comments.length then
      (.ok (), put views n ⟨o.fields.zip o.comments, o.rest⟩)
    else (.error .invalidArgument, views)
  match find views n with
  | some _ =>
    if o.ifNotExists then (.ok (), views)
    else if o.replace then insert
    else (.error (.alreadyExists .temporaryView), views)
  | none => insert

/-- `TemporaryViewManager::drop_view` (temp_view.rs:152-162). -/
def dropTemp (views : List (Name × TempView α)) (n : Name) (ifExists : Bool) :
    Except Err Unit × List (Name × TempView α) :=
  if (find views n).isNone && !ifExists then (.error (.notFound .temporaryView), views)
  else (.ok (), erase views n)

/-- `CatalogManager` and `CatalogManagerState` (manager/mod.rs:21-33) without the functions. -/
structure Session (α : Type) where
  catalogs : List (Name × Mem α)
  defaultCatalog : Name
  defaultDatabase : Namespace
  globalDatabase : Namespace
  temp : List (Name × TempView α)

/-- The sessions of a process and its global temporary views
(`GLOBAL_TEMPORARY_VIEW_MANAGER`, temp_view.rs:12-15). -/
structure World (α : Type) where
  global : List (Name × TempView α)
  sessions : Nat → Session α

/-- `TryFrom<&[T]> for Namespace` (namespace.rs:42-54). -/
def toNamespace : List Name → Except Err Namespace
  | [] => .error .invalidArgument
  | h :: t => .ok ⟨h, t⟩

/-- `resolve_database_reference` (mod.rs:143-164). -/
def Session.resolveDatabase (s : Session α) (ref : List Name) : Except Err (Name × Namespace) :=
  match ref with
  | [] => .error .invalidArgument
  | h :: t =>
    if (find s.catalogs h).isSome then (toNamespace t).map fun db => (h, db)
    else (toNamespace (h :: t)).map fun db => (s.defaultCatalog, db)

/-- `resolve_optional_database_reference` (mod.rs:166-185). -/
def Session.resolveOptionalDatabase (s : Session α) (ref : List Name) :
    Except Err (Name × Option Namespace) :=
  match ref with
  | [] => .ok (s.defaultCatalog, none)
  | [n] =>
    if (find s.catalogs n).isSome then .ok (n, none)
    else (toNamespace [n]).map fun db => (s.defaultCatalog, some db)
  | ref => (toNamespace ref).map fun db => (s.defaultCatalog, some db)

/-- `resolve_object_reference` (mod.rs:187-207). -/
def Session.resolveObject (s : Session α) (ref : List Name) :
    Except Err (Name × Namespace × Name) :=
  match ref.getLast? with
  | none => .error .invalidArgument
  | some last =>
    match ref.dropLast with
    | [] => .ok (s.defaultCatalog, s.defaultDatabase, last)
    | qualifier => (s.resolveDatabase qualifier).map fun (c, db) => (c, db, last)

/-- `is_global_temporary_view_database` (mod.rs:209-214) with the comparison of a namespace
and a slice (namespace.rs:56-64). -/
def Session.isGlobalDatabase (s : Session α) (ref : List Name) : Bool :=
  match ref with
  | [] => false
  | h :: t => decide (h = s.globalDatabase.head) && decide (t = s.globalDatabase.tail)

/-- `get_catalog` (mod.rs:216-224). -/
def Session.getCatalog (s : Session α) (c : Name) : Except Err (Mem α) :=
  match find s.catalogs c with
  | some m => .ok m
  | none => .error (.notFound .catalog)

/-- What a name in a statement finds. -/
inductive Found (α : Type)
  | temp (n : Name) (v : TempView α)
  | global (n : Name) (v : TempView α)
  | table (s : Status α)
  | view (s : Status α)
deriving DecidableEq

/-- `get_table` of the manager (manager/table.rs:34-37). -/
def Session.getTable (s : Session α) (ref : List Name) : Except Err (Status α) :=
  match s.resolveObject ref with
  | .error e => .error e
  | .ok (c, db, n) =>
    match s.getCatalog c with
    | .error e => .error e
    | .ok m => m.getTable db n

/-- `get_view` of the manager (manager/view.rs:208-211). -/
def Session.getView (s : Session α) (ref : List Name) : Except Err (Status α) :=
  match s.resolveObject ref with
  | .error e => .error e
  | .ok (c, db, n) =>
    match s.getCatalog c with
    | .error e => .error e
    | .ok m => m.getView db n

/-- The tail of `get_table_or_view` (manager/table.rs:204-228): the table and then the view of
the catalog. -/
def Session.getStored (s : Session α) (ref : List Name) : Except Err (Found α) :=
  match s.getTable ref with
  | .ok t => .ok (.table t)
  | .error (.notFound _) =>
    match s.getView ref with
    | .ok v => .ok (.view v)
    | .error (.notFound _) => .error (.notFound .table)
    | .error .notSupported => .error (.notFound .table)
    | .error e => .error e
  | .error e => .error e

/-- The rest of `get_table_or_view` (manager/table.rs:198-228) after the temporary views. -/
def World.getGlobalOrStored (w : World α) (i : Nat) (ref : List Name) : Except Err (Found α) :=
  match ref.getLast? with
  | none => (w.sessions i).getStored ref
  | some n =>
    if (w.sessions i).isGlobalDatabase ref.dropLast then
      match find w.global n with
      | some v => .ok (.global n v)
      | none => .error (.notFound .temporaryView)
    else (w.sessions i).getStored ref

/-- `get_table_or_view` (manager/table.rs:187-229) for a session. -/
def World.lookup (w : World α) (i : Nat) (ref : List Name) : Except Err (Found α) :=
  match ref with
  | [n] =>
    match find (w.sessions i).temp n with
    | some v => .ok (.temp n v)
    | none => w.getGlobalOrStored i [n]
  | ref => w.getGlobalOrStored i ref

/-! ## Statements -/

/-- The statements modelled, with their options. -/
inductive Statement (α : Type)
  | useCatalog (c : Name)
  | useDatabase (ref : List Name)
  | createDatabase (ref : List Name) (ifNotExists : Bool) (info : α)
  | dropDatabase (ref : List Name) (ifExists cascade : Bool)
  | createTable (ref : List Name) (o : TableOptions α)
  | dropTable (ref : List Name) (ifExists : Bool)
  | alterTable (ref : List Name) (ifExists : Bool) (o : Alter α)
  | createView (ref : List Name) (o : ViewOptions α)
  | dropView (ref : List Name) (ifExists : Bool)
  | createTemp (n : Name) (isGlobal : Bool) (o : TempOptions α)
  | dropTemp (n : Name) (isGlobal : Bool) (ifExists : Bool)

/-- The world with another state of a session. -/
def World.setSession (w : World α) (i : Nat) (s : Session α) : World α :=
  { w with sessions := fun j => if j = i then s else w.sessions j }

/-- A request to one catalog of a session. -/
def World.request (nested : α → List Name → α → Option α) (w : World α) (i : Nat) (c : Name)
    (r : Request α) : Except Err Unit × World α :=
  let s := w.sessions i
  match find s.catalogs c with
  | none => (.error (.notFound .catalog), w)
  | some m =>
    let a := m.step nested r
    (a.1.map fun _ => (), w.setSession i { s with catalogs := put s.catalogs c a.2 })

/-- A request about a database (`resolve_database`, mod.rs:86-93). -/
def World.databaseRequest (nested : α → List Name → α → Option α) (w : World α) (i : Nat)
    (ref : List Name) (r : Namespace → Request α) : Except Err Unit × World α :=
  match (w.sessions i).resolveDatabase ref with
  | .error e => (.error e, w)
  | .ok (c, db) => w.request nested i c (r db)

/-- A request about an object (`resolve_object`, mod.rs:118-125). -/
def World.objectRequest (nested : α → List Name → α → Option α) (w : World α) (i : Nat)
    (ref : List Name) (r : Namespace → Name → Request α) : Except Err Unit × World α :=
  match (w.sessions i).resolveObject ref with
  | .error e => (.error e, w)
  | .ok (c, db, n) => w.request nested i c (r db n)

/-- `set_default_catalog` (manager/catalog.rs:14-26). -/
def World.useCatalog (w : World α) (i : Nat) (c : Name) : Except Err Unit × World α :=
  let s := w.sessions i
  if (find s.catalogs c).isSome then (.ok (), w.setSession i { s with defaultCatalog := c })
  else (.error (.notFound .catalog), w)

/-- `set_default_database` (manager/database.rs:20-47). -/
def World.useDatabase (w : World α) (i : Nat) (ref : List Name) : Except Err Unit × World α :=
  let s := w.sessions i
  match toNamespace ref with
  | .error e => (.error e, w)
  | .ok db =>
    match s.getCatalog s.defaultCatalog with
    | .error e => (.error e, w)
    | .ok m =>
      match m.getDatabase db with
      | .error e => (.error e, w)
      | .ok _ => (.ok (), w.setSession i { s with defaultDatabase := db })

/-- `CatalogCommand::CreateTable` (command.rs:329-356) with
`prepare_create_table_storage_metadata` (command.rs:734-757). -/
def World.createTable (nested : α → List Name → α → Option α) (w : World α) (i : Nat)
    (ref : List Name) (o : TableOptions α) : Except Err Unit × World α :=
  let create := w.objectRequest nested i ref fun db n => .createTable db n o
  match w.lookup i ref with
  | .ok _ =>
    match o.mode with
    | .createIfNotExists => (.ok (), w)
    | .create => (.error (.alreadyExists .table), w)
    | _ => create
  | .error (.notFound _) =>
    match o.mode with
    | .replace => (.error (.notFound .table), w)
    | _ => create
  | .error e => (.error e, w)

/-- `CatalogCommand::AlterTable` (command.rs:441-519) for tables without metadata of their
own. -/
def World.alterTable (nested : α → List Name → α → Option α) (w : World α) (i : Nat)
    (ref : List Name) (ifExists : Bool) (o : Alter α) : Except Err Unit × World α :=
  match w.lookup i ref with
  | .ok _ => w.objectRequest nested i ref fun db n => .alterTable db n o
  | .error (.notFound x) => if ifExists then (.ok (), w) else (.error (.notFound x), w)
  | .error e => (.error e, w)

/-- The part of `drop_maybe_temporary_view` (manager/view.rs:126-137) after the temporary
views. -/
def World.dropGlobalOrView (nested : α → List Name → α → Option α) (w : World α) (i : Nat)
    (ref : List Name) (ifExists : Bool) : Except Err Unit × World α :=
  let rest := w.objectRequest nested i ref fun db n => .dropView db n ifExists
  match ref.getLast? with
  | none => rest
  | some n =>
    if (w.sessions i).isGlobalDatabase ref.dropLast then
      match dropTemp w.global n false with
      | (.ok _, g) => (.ok (), { w with global := g })
      | (.error (.notFound _), _) => rest
      | (.error e, _) => (.error e, w)
    else rest

/-- `drop_maybe_temporary_view` (manager/view.rs:114-138). -/
def World.dropView (nested : α → List Name → α → Option α) (w : World α) (i : Nat)
    (ref : List Name) (ifExists : Bool) : Except Err Unit × World α :=
  match ref with
  | [n] =>
    let s := w.sessions i
    match Catalog.dropTemp s.temp n false with
    | (.ok _, t) => (.ok (), w.setSession i { s with temp := t })
    | (.error (.notFound _), _) => w.dropGlobalOrView nested i [n] ifExists
    | (.error e, _) => (.error e, w)
  | ref => w.dropGlobalOrView nested i ref ifExists

/-- `CatalogCommand::execute` (command.rs:265-700) for the statements modelled. -/
def World.step (nested : α → List Name → α → Option α) (w : World α) (i : Nat) :
    Statement α → Except Err Unit × World α
  | .useCatalog c => w.useCatalog i c
  | .useDatabase ref => w.useDatabase i ref
  | .createDatabase ref ine info => w.databaseRequest nested i ref fun db => .createDatabase db ine info
  | .dropDatabase ref ie c => w.databaseRequest nested i ref fun db => .dropDatabase db ie c
  | .createTable ref o => w.createTable nested i ref o
  | .dropTable ref ie => w.objectRequest nested i ref fun db n => .dropTable db n ie
  | .alterTable ref ie o => w.alterTable nested i ref ie o
  | .createView ref o => w.objectRequest nested i ref fun db n => .createView db n o
  | .dropView ref ie => w.dropView nested i ref ie
  | .createTemp n isGlobal o =>
    let s := w.sessions i
    if isGlobal then
      let a := Catalog.createTemp w.global n o
      (a.1, { w with global := a.2 })
    else
      let a := Catalog.createTemp s.temp n o
      (a.1, w.setSession i { s with temp := a.2 })
  | .dropTemp n isGlobal ie =>
    let s := w.sessions i
    if isGlobal then
      let a := Catalog.dropTemp w.global n ie
      (a.1, { w with global := a.2 })
    else
      let a := Catalog.dropTemp s.temp n ie
      (a.1, w.setSession i { s with temp := a.2 })

/-- Statements of any sessions, one after another. -/
def World.run (nested : α → List Name → α → Option α) (w : World α)
    (sts : List (Nat × Statement α)) : World α :=
  sts.foldl (fun w st => (w.step nested st.1 st.2).2) w

/-! ## Listings -/

/-- `list_databases` of the manager (manager/database.rs:67-79); `keep` stands for the
pattern. -/
def Session.listDatabases (s : Session α) (keep : DbStatus α → Bool) (ref : List Name) :
    Except Err (List (DbStatus α)) :=
  match s.resolveOptionalDatabase ref with
  | .error e => .error e
  | .ok (c, pre) => (s.getCatalog c).map fun m => (m.listDatabases pre).filter keep

/-- The database that a listing names (manager/table.rs:102-106): the default one without a
name. -/
def Session.listedDatabase (s : Session α) (ref : List Name) : Except Err (Name × Namespace) :=
  match ref with
  | [] => .ok (s.defaultCatalog, s.defaultDatabase)
  | ref => s.resolveDatabase ref

/-- `list_tables` of the manager (manager/table.rs:97-113). -/
def Session.listTables (s : Session α) (keep : Name → Bool) (ref : List Name) :
    Except Err (List (Status α)) :=
  match s.listedDatabase ref with
  | .error e => .error e
  | .ok (c, db) =>
    match s.getCatalog c with
    | .error e => .error e
    | .ok m => (m.listTables db).map fun l => l.filter fun t => keep t.name

/-- `list_views` of the manager (manager/view.rs:59-76). -/
def Session.listViews (s : Session α) (keep : Name → Bool) (ref : List Name) :
    Except Err (List (Status α)) :=
  match s.listedDatabase ref with
  | .error e => .error e
  | .ok (c, db) =>
    match s.getCatalog c with
    | .error e => .error e
    | .ok m => (m.listViews db).map fun l => l.filter fun t => keep t.name

/-- The temporary views that match a pattern (manager/view.rs:13-57). -/
def listTemp (keep : Name → Bool) (views : List (Name × TempView α)) : List (Name × TempView α) :=
  views.filter fun v => keep v.1

/-- `list_tables_and_views` (manager/table.rs:115-151): SHOW TABLES. -/
def World.showTables (w : World α) (i : Nat) (keep : Name → Bool) (ref : List Name) :
    Except Err (List (Found α)) :=
  let s := w.sessions i
  let temp := (listTemp keep s.temp).map fun v => Found.temp v.1 v.2
  if s.isGlobalDatabase ref then
    .ok ((listTemp keep w.global).map (fun v => Found.global v.1 v.2) ++ temp)
  else
    match s.listTables keep ref with
    | .error e => .error e
    | .ok tables =>
      match s.listViews keep ref with
      | .ok views => .ok (tables.map .table ++ views.map .view ++ temp)
      | .error .notSupported => .ok (tables.map .table ++ temp)
      | .error (.notFound _) => .ok (tables.map .table ++ temp)
      | .error e => .error e

end Verif.Catalog
