import Verif.Catalog.Managed

/-!
# The in-memory catalog

`sail-catalog-memory/src/provider.rs`. A request takes the lock of one map entry and holds
it to its end, so that requests happen one after another. Comments, locations, constraints,
sort orders and the other fields that no request looks at are one value of a type `α`, and
so are data types. Error messages are left out.
-/

namespace Verif.Catalog

/-- `Namespace` (sail-catalog/src/provider/namespace.rs:7-11): a name of a database with at
least one part. -/
structure Namespace where
  head : Name
  tail : List Name
deriving DecidableEq

/-- The parts of a namespace (`From<Namespace> for Vec<String>`, namespace.rs:21-27). -/
def Namespace.parts (n : Namespace) : List Name := n.head :: n.tail

/-- `Namespace::is_child_of` (namespace.rs:66-70). -/
def Namespace.isChildOf (n m : Namespace) : Bool :=
  decide (n.head = m.head) && decide (n.tail.length = m.tail.length + 1) &&
    (n.tail.zip m.tail).all fun p => decide (p.1 = p.2)

/-- `CatalogObject` (sail-catalog/src/error.rs), as far as the model's errors name it. -/
inductive Object
  | catalog | database | table | view | temporaryView | function
deriving DecidableEq

/-- `CatalogError` (sail-catalog/src/error.rs:38-82), without messages. -/
inductive Err
  | notFound (o : Object)
  | alreadyExists (o : Object)
  | invalidArgument
  | notSupported
  | conflict
deriving DecidableEq

/-- `TableColumnStatus` (sail-common-datafusion/src/catalog/status.rs): `rest` holds
nullability, comment, generation expression and identity. -/
structure Column (α : Type) where
  name : Name
  type : α
  default : Option Name
  isPartition : Bool
  isBucket : Bool
  rest : α
deriving DecidableEq

/-- `TableKind` of the objects of a catalog (status.rs): a table or a view. -/
inductive Kind (α : Type)
  | table (columns : List (Column α)) (format : Name) (partitionBy : List (Name × Bool))
      (bucketBy : Option (List Name)) (properties : Properties) (rest : α)
  | view (columns : List (Column α)) (definition : Name) (properties : Properties) (rest : α)
deriving DecidableEq

/-- `TableStatus` (status.rs). -/
structure Status (α : Type) where
  catalog : Name
  database : Namespace
  name : Name
  kind : Kind α
deriving DecidableEq

/-- `DatabaseStatus` (status.rs): `info` holds comment, location and properties. -/
structure DbStatus (α : Type) where
  catalog : Name
  database : Namespace
  info : α
deriving DecidableEq

/-- `MemoryDatabase` (provider.rs:19-23). -/
structure Db (α : Type) where
  status : DbStatus α
  tables : List (Name × Status α)
  views : List (Name × Status α)
deriving DecidableEq

/-- `MemoryCatalogProvider` (provider.rs:26-29). -/
structure Mem (α : Type) where
  name : Name
  dbs : List (Namespace × Db α)
deriving DecidableEq

/-- `CreateTableMode` (sail-common/src/spec): CREATE, CREATE IF NOT EXISTS, CREATE OR REPLACE
and REPLACE. -/
inductive Mode
  | create | createIfNotExists | createOrReplace | replace
deriving DecidableEq

/-- A column of a new table (`CreateTableColumnOptions`). -/
structure NewColumn (α : Type) where
  name : Name
  type : α
  default : Option Name
  rest : α
deriving DecidableEq

/-- `CreateTableOptions` (sail-catalog/src/provider/options.rs:28-43). A partition field is
its column and whether it has a transform. -/
structure TableOptions (α : Type) where
  mode : Mode
  columns : List (NewColumn α)
  format : Name
  partitionBy : List (Name × Bool)
  bucketBy : Option (List Name)
  properties : Properties
  rest : α
deriving DecidableEq

/-- `CreateViewOptions` (options.rs). -/
structure ViewOptions (α : Type) where
  ifNotExists : Bool
  replace : Bool
  columns : List (NewColumn α)
  definition : Name
  properties : Properties
  rest : α
deriving DecidableEq

/-- `AlterTableOptions` (options.rs). -/
inductive Alter (α : Type)
  | setProperties (new : Properties)
  | unsetProperties (keys : List Name) (ifExists : Bool)
  | columnType (path : List Name) (type : α)
  | columnDefault (path : List Name) (default : Option Name)
  | addCheck
deriving DecidableEq

/-- The requests that change the catalog. -/
inductive Request (α : Type)
  | createDatabase (db : Namespace) (ifNotExists : Bool) (info : α)
  | dropDatabase (db : Namespace) (ifExists cascade : Bool)
  | createTable (db : Namespace) (name : Name) (o : TableOptions α)
  | dropTable (db : Namespace) (name : Name) (ifExists : Bool)
  | alterTable (db : Namespace) (name : Name) (o : Alter α)
  | createView (db : Namespace) (name : Name) (o : ViewOptions α)
  | dropView (db : Namespace) (name : Name) (ifExists : Bool)
deriving DecidableEq

/-- What a successful request returns. -/
inductive Reply (α : Type)
  | done
  | database (s : DbStatus α)
  | object (s : Status α)
deriving DecidableEq

deriving instance DecidableEq for Except

variable {α : Type}

/-- `MemoryCatalogProvider::new` (provider.rs:32-53). -/
def Mem.init (name : Name) (db : Namespace) (info : α) : Mem α :=
  ⟨name, [(db, ⟨⟨name, db, info⟩, [], []⟩)]⟩

/-- `create_database` (provider.rs:75-115). -/
def Mem.createDatabase (m : Mem α) (db : Namespace) (ifNotExists : Bool) (info : α) :
    Except Err (Reply α) × Mem α :=
  match find m.dbs db with
  | some d => if ifNotExists then (.ok (.database d.status), m) else (.error (.alreadyExists .database), m)
  | none =>
    let status : DbStatus α := ⟨m.name, db, info⟩
    (.ok (.database status), { m with dbs := put m.dbs db ⟨status, [], []⟩ })

/-- `get_database` (provider.rs:117-125). -/
def Mem.getDatabase (m : Mem α) (db : Namespace) : Except Err (DbStatus α) :=
  match find m.dbs db with
  | some d => .ok d.status
  | none => .error (.notFound .database)

/-- The filter of `list_databases` (provider.rs:134-140). -/
def listed (pre : Option Namespace) (x : Namespace) : Bool :=
  match pre with
  | some p => x.isChildOf p
  | none => x.tail.isEmpty

/-- `list_databases` (provider.rs:127-143). -/
def Mem.listDatabases (m : Mem α) (pre : Option Namespace) : List (DbStatus α) :=
  (m.dbs.filter fun e => listed pre e.1).map (·.2.status)

/-- `drop_database` (provider.rs:145-173). -/
def Mem.dropDatabase (m : Mem α) (db : Namespace) (ifExists cascade : Bool) :
    Except Err (Reply α) × Mem α :=
  match find m.dbs db with
  | some d =>
    if !cascade && (!d.tables.isEmpty || !d.views.isEmpty) then (.error .invalidArgument, m)
    else (.ok .done, { m with dbs := erase m.dbs db })
  | none => if ifExists then (.ok .done, m) else (.error (.notFound .database), m)

/-- `validate_create_table_options` (provider.rs:56-67); false is the `NotSupported` error. -/
def TableOptions.valid (o : TableOptions α) : Bool :=
  eqIgnoreCase o.format "iceberg".toList || !(o.partitionBy.any (·.2))

/-- The columns of a new table (provider.rs:217-247). -/
def TableOptions.columnStatuses (o : TableOptions α) : List (Column α) :=
  o.columns.map fun c =>
    { name := c.name, type := c.type, default := c.default
      isPartition := o.partitionBy.any fun p => eqIgnoreCase p.1 c.name
      isBucket := match o.bucketBy with
        | none => false
        | some bs => bs.any fun b => eqIgnoreCase b c.name
      rest := c.rest }

/-- The status of a new table (provider.rs:248-266). -/
def TableOptions.status (o : TableOptions α) (catalog : Name) (db : Namespace) (name : Name) :
    Status α :=
  ⟨catalog, db, name,
    .table o.columnStatuses o.format o.partitionBy o.bucketBy o.properties o.rest⟩

/-- `create_table` (provider.rs:175-269). -/
def Mem.createTable (m : Mem α) (db : Namespace) (name : Name) (o : TableOptions α) :
    Except Err (Reply α) × Mem α :=
  if o.valid then
    match find m.dbs db with
    | none => (.error (.notFound .database), m)
    | some d =>
      let status := o.status m.name db name
      let stored := { m with dbs := put m.dbs db { d with tables := put d.tables name status } }
      match find d.tables name with
      | some old =>
        match o.mode with
        | .createIfNotExists => (.ok (.object old), m)
        | .createOrReplace => (.ok (.object status), stored)
        | .replace => (.ok (.object status), stored)
        | .create => (.error (.alreadyExists .table), m)
      | none =>
        if o.mode = .replace then (.error (.notFound .table), m)
        else (.ok (.object status), stored)
  else (.error .notSupported, m)

/-- `get_table` (provider.rs:279-289). -/
def Mem.getTable (m : Mem α) (db : Namespace) (name : Name) : Except Err (Status α) :=
  match find m.dbs db with
  | some d =>
    match find d.tables name with
    | some s => .ok s
    | none => .error (.notFound .table)
  | none => .error (.notFound .table)

/-- `list_tables` (provider.rs:291-299). -/
def Mem.listTables (m : Mem α) (db : Namespace) : Except Err (List (Status α)) :=
  match find m.dbs db with
  | some d => .ok (d.tables.map (·.2))
  | none => .error (.notFound .database)

/-- `drop_table` (provider.rs:301-336). -/
def Mem.dropTable (m : Mem α) (db : Namespace) (name : Name) (ifExists : Bool) :
    Except Err (Reply α) × Mem α :=
  match find m.dbs db with
  | some d =>
    let dropped := { m with dbs := put m.dbs db { d with tables := erase d.tables name } }
    if (find d.tables name).isSome || ifExists then (.ok .done, dropped)
    else (.error (.notFound .table), dropped)
  | none => if ifExists then (.ok .done, m) else (.error (.notFound .database), m)

/-- The loop of UNSET TBLPROPERTIES (provider.rs:357-368), which stops at the first missing
key unless IF EXISTS is given; the flag tells whether it ran to the end. -/
def unsetProperties (ps : Properties) (ifExists : Bool) : List Name → Bool × Properties
  | [] => (true, ps)
  | k :: ks =>
    if !(ps.any fun p => decide (p.1 = k)) && !ifExists then (false, ps)
    else unsetProperties (ps.filter fun p => decide (p.1 ≠ k)) ifExists ks

/-- Changes the first column with a name (`columns.iter_mut().find(..)`); nothing when there
is none or when the change fails. -/
def modifyColumn (f : Column α → Option (Column α)) (name : Name) :
    List (Column α) → Option (List (Column α))
  | [] => none
  | c :: cs =>
    if c.name = name then (f c).map (· :: cs)
    else (modifyColumn f name cs).map (c :: ·)

/-- `alter_column_type` (status.rs:364-382). The type at a path inside a column is replaced by
`nested` (`alter_nested_data_type`), which is not modelled. -/
def alterColumnType (nested : α → List Name → α → Option α) (cs : List (Column α))
    (path : List Name) (type : α) : Option (List (Column α)) :=
  match path with
  | [] => none
  | [n] => modifyColumn (fun c => some { c with type := type }) n cs
  | n :: p => modifyColumn (fun c => (nested c.type p type).map fun t => { c with type := t }) n cs

/-- `alter_column_default` (status.rs:384-397). -/
def alterColumnDefault (cs : List (Column α)) (path : List Name) (default : Option Name) :
    Option (List (Column α)) :=
  match path with
  | [n] => modifyColumn (fun c => some { c with default := default }) n cs
  | _ => none

/-- The change of one object by `alter_table` (provider.rs:338-409): the result and the object
afterwards. -/
def alterStatus (nested : α → List Name → α → Option α) (s : Status α) (o : Alter α) :
    Except Err Unit × Status α :=
  match s.kind with
  | .view .. => (.error .notSupported, s)
  | .table cs f pb bb ps r =>
    match o with
    | .setProperties new =>
      if validLocation ps new then
        (.ok (), { s with kind := .table cs f pb bb (setProperties ps new) r })
      else (.error .conflict, s)
    | .unsetProperties keys ifExists =>
      let u := unsetProperties ps ifExists keys
      (if u.1 then .ok () else .error (.notFound .table), { s with kind := .table cs f pb bb u.2 r })
    | .columnType path type =>
      match alterColumnType nested cs path type with
      | some cs => (.ok (), { s with kind := .table cs f pb bb ps r })
      | none => (.error .invalidArgument, s)
    | .columnDefault path default =>
      match alterColumnDefault cs path default with
      | some cs => (.ok (), { s with kind := .table cs f pb bb ps r })
      | none => (.error .invalidArgument, s)
    | .addCheck => (.error .notSupported, s)

/-- `alter_table` (provider.rs:338-409). -/
def Mem.alterTable (nested : α → List Name → α → Option α) (m : Mem α) (db : Namespace)
    (name : Name) (o : Alter α) : Except Err (Reply α) × Mem α :=
  match find m.dbs db with
  | none => (.error (.notFound .database), m)
  | some d =>
    match find d.tables name with
    | none => (.error (.notFound .table), m)
    | some s =>
      let a := alterStatus nested s o
      (a.1.map fun _ => .done,
        { m with dbs := put m.dbs db { d with tables := put d.tables name a.2 } })

/-- The status of a new view (provider.rs:435-470). -/
def ViewOptions.status (o : ViewOptions α) (catalog : Name) (db : Namespace) (name : Name) :
    Status α :=
  ⟨catalog, db, name,
    .view (o.columns.map fun c => ⟨c.name, c.type, none, false, false, c.rest⟩) o.definition
      o.properties o.rest⟩

/-- `create_view` (provider.rs:411-476). -/
def Mem.createView (m : Mem α) (db : Namespace) (name : Name) (o : ViewOptions α) :
    Except Err (Reply α) × Mem α :=
  match find m.dbs db with
  | none => (.error (.notFound .database), m)
  | some d =>
    let status := o.status m.name db name
    let stored := { m with dbs := put m.dbs db { d with views := put d.views name status } }
    match find d.views name with
    | some old =>
      if o.ifNotExists then (.ok (.object old), m)
      else if o.replace then (.ok (.object status), stored)
      else (.error (.alreadyExists .view), m)
    | none => (.ok (.object status), stored)

/-- `get_view` (provider.rs:478-488). -/
def Mem.getView (m : Mem α) (db : Namespace) (name : Name) : Except Err (Status α) :=
  match find m.dbs db with
  | some d =>
    match find d.views name with
    | some s => .ok s
    | none => .error (.notFound .view)
  | none => .error (.notFound .view)

/-- `list_views` (provider.rs:490-498). -/
def Mem.listViews (m : Mem α) (db : Namespace) : Except Err (List (Status α)) :=
  match find m.dbs db with
  | some d => .ok (d.views.map (·.2))
  | none => .error (.notFound .database)

/-- `drop_view` (provider.rs:500-530). -/
def Mem.dropView (m : Mem α) (db : Namespace) (name : Name) (ifExists : Bool) :
    Except Err (Reply α) × Mem α :=
  match find m.dbs db with
  | some d =>
    let dropped := { m with dbs := put m.dbs db { d with views := erase d.views name } }
    if (find d.views name).isSome || ifExists then (.ok .done, dropped)
    else (.error (.notFound .view), dropped)
  | none => if ifExists then (.ok .done, m) else (.error (.notFound .database), m)

/-- One request. -/
def Mem.step (nested : α → List Name → α → Option α) (m : Mem α) :
    Request α → Except Err (Reply α) × Mem α
  | .createDatabase db ine info => m.createDatabase db ine info
  | .dropDatabase db ie c => m.dropDatabase db ie c
  | .createTable db n o => m.createTable db n o
  | .dropTable db n ie => m.dropTable db n ie
  | .alterTable db n o => m.alterTable nested db n o
  | .createView db n o => m.createView db n o
  | .dropView db n ie => m.dropView db n ie

/-- A history of requests, whatever they answer. -/
def Mem.run (nested : α → List Name → α → Option α) (m : Mem α) (rs : List (Request α)) :
    Mem α :=
  rs.foldl (fun m r => (m.step nested r).2) m

end Verif.Catalog
