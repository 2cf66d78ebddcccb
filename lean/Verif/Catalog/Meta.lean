import Verif.Catalog.Catalog

/-!
# From the list of tables to the tables (metastore.rs, memory.rs, external.rs, empty.rs, provider.rs)

The metastore answers with a list of schemas, tables and storage locations (`ListSchemaResponse`,
clade/proto/schema.proto).  `build_catalog` turns it into the nested maps in which a statement looks
up its tables.  Strings of locations and paths are lists of characters here.

Not modelled: the object stores behind the locations (`Env` says only whether they can be built, see
`Verif.Misc.StoreFactory` for the keys and URLs), the content of the tables, and the staging and system
schemas themselves (see `Verif.Catalog.SysTables`).
-/

namespace Seafowl.Meta

abbrev Text := List Char
abbrev Opts := List (String × String)

/-- `StorageLocation` (schema.proto 31-38). -/
structure StorageLoc where
  name : String
  location : Text
  options : Opts
  deriving DecidableEq, Repr

/-- `TableObject` (11-20). -/
structure TableObj where
  name : String
  path : Text
  store : Option String
  format : Int
  deriving DecidableEq, Repr

/-- `SchemaObject` (5-8). -/
structure SchemaObj where
  name : String
  tables : List TableObj
  deriving DecidableEq, Repr

/-- `ListSchemaResponse` (44-47). -/
structure Listing where
  schemas : List SchemaObj
  stores : List StorageLoc
  deriving DecidableEq, Repr

/-- Errors of `build_catalog`. -/
inductive Err where
  | noInlineMetastore
  | unrecognizedFormat (f : Int)
  | storeNotFound (name : String)
  | badUrl
  | badStore
  | noTableStore (table : String)
  | icebergNeedsStore
  | badIceberg
  | unavailable
  deriving DecidableEq, Repr

/-- Where the data of a table are: a Delta table at a path of a storage location, a Delta table at a path of the
default store, or an Iceberg table by its metadata file and the options for reading it. -/
inductive Place where
  | delta (location : Text) (options : Opts) (path : Text)
  | deltaDefault (path : Text)
  | iceberg (metadata : Text) (options : Opts)
  deriving DecidableEq, Repr

/-- What the libraries and the configuration decide: `Url::parse`, whether the store of a location can be
built, whether there is a default store, and whether the metadata file of an Iceberg table can be read. -/
structure Env where
  urlOk : Text → Bool
  storeOk : Text → Opts → Bool
  hasDefault : Bool
  icebergOk : Text → Opts → Bool

/-- `collect` of pairs into a `HashMap` or `DashMap`: a later pair replaces an earlier one of the same key. -/
def insertKey [BEq κ] (m : List (κ × ν)) (k : κ) (v : ν) : List (κ × ν) :=
  (k, v) :: m.filter (fun e => !(e.1 == k))

def collect [BEq κ] (l : List (κ × ν)) : List (κ × ν) := l.foldl (fun m e => insertKey m e.1 e.2) []

def get [BEq κ] (m : List (κ × ν)) (k : κ) : Option ν := (m.find? (fun e => e.1 == k)).map (·.2)

/-- The storage locations by name (metastore.rs 118-123). -/
def storeOptions (l : List StorageLoc) : List (String × (Text × Opts)) :=
  collect (l.map (fun s => (s.name, (s.location, s.options))))

/-- `trim_start_matches("/")`. -/
def trimStart : Text → Text
  | '/' :: l => trimStart l
  | l => l

/-- `trim_end_matches("/")`. -/
def trimEnd (l : Text) : Text := (trimStart l.reverse).reverse

/-- The Delta branch of `build_table` (176-208). -/
def buildDelta (env : Env) (stores : List (String × (Text × Opts))) (t : TableObj) : Except Err Place :=
  match t.store with
  | some name =>
    match get stores name with
    | none => .error (.storeNotFound name)
    | some (location, options) =>
      if env.urlOk location then
        if env.storeOk location options then .ok (.delta location options t.path) else .error .badStore
      else .error .badUrl
  | none => if env.hasDefault then .ok (.deltaDefault t.path) else .error (.noTableStore t.name)

/-- The Iceberg branch (209-247). -/
def buildIceberg (env : Env) (stores : List (String × (Text × Opts))) (t : TableObj) : Except Err Place :=
  match t.store with
  | some name =>
    match get stores name with
    | none => .error (.storeNotFound name)
    | some (location, options) =>
      let absolute := trimEnd location ++ '/' :: trimStart t.path
      if env.icebergOk absolute options then .ok (.iceberg absolute options) else .error .badIceberg
  | none => .error .icebergNeedsStore

/-- `build_table` (162-249). -/
def buildTable (env : Env) (stores : List (String × (Text × Opts))) (t : TableObj) : Except Err (String × Place) :=
  match (if t.format = 0 then buildDelta env stores t
    else if t.format = 1 then buildIceberg env stores t
    else .error (.unrecognizedFormat t.format)) with
  | .ok p => .ok (t.name, p)
  | .error e => .error e

/-- `stream.then(f).try_collect()`: one after the other, up to the first error. -/
def tryCollect (f : α → Except Err β) : List α → Except Err (List β)
  | [] => .ok []
  | a :: l =>
    match f a with
    | .error e => .error e
    | .ok b =>
      match tryCollect f l with
      | .error e => .error e
      | .ok bs => .ok (b :: bs)

/-- `build_schema` (141-160). -/
def buildSchema (env : Env) (stores : List (String × (Text × Opts))) (s : SchemaObj) :
    Except Err (String × List (String × Place)) :=
  match tryCollect (buildTable env stores) s.tables with
  | .error e => .error e
  | .ok ts => .ok (s.name, collect ts)

/-- `SeafowlDatabase` (provider.rs 24-30), without the staging and system schemas. -/
abbrev Database := List (String × List (String × Place))

/-- `build_catalog` (112-139). -/
def buildCatalog (env : Env) (l : Listing) : Except Err Database :=
  match tryCollect (buildSchema env (storeOptions l.stores)) l.schemas with
  | .error e => .error e
  | .ok ss => .ok (collect ss)

/-- The result of looking up a table: the staging and system schemas are separate. -/
inductive Found where
  | staging (table : String)
  | system (table : String)
  | table (p : Option Place)
  deriving DecidableEq, Repr

/-- `SeafowlDatabase::schema` and `SeafowlSchema::table` (provider.rs 45-54, 75-118): which table a name stands
for.  The schemas `staging` and `system` come first. -/
def find (d : Database) (schema table : String) : Found :=
  if schema = "staging" then .staging table
  else if schema = "system" then .system table
  else .table ((get d schema).bind (fun s => get s table))

/-- The sources of a metastore: catalog database, remote service, list sent with the query, none
(metastore.rs 52-110).  A remote service may fail; `repo` is the list of tables of the catalog database
(repository.rs 113-150), whose tables are Delta tables in the default store under their identifiers. -/
inductive Source where
  | repo (schemas : List (String × List (String × Text)))
  | external (answer : String → Option Listing)
  | memory (l : Listing)
  | empty

/-- `SchemaStore::list`. -/
def Source.list (s : Source) (catalog : String) : Except Err Listing :=
  match s with
  | .repo schemas =>
    .ok ⟨schemas.map (fun (n, ts) => ⟨n, ts.map (fun (t, uuid) => ⟨t, uuid, none, 0⟩)⟩), []⟩
  | .external answer =>
    match answer catalog with
    | some l => .ok l
    | none => .error .unavailable
  | .memory l => .ok l
  | .empty => .error .noInlineMetastore

/-- Look up a table with a metastore, as done for every statement (`reload_schema`, context/mod.rs 101-104). -/
def resolve (env : Env) (s : Source) (catalog schema table : String) : Except Err Found :=
  match s.list catalog with
  | .error e => .error e
  | .ok l =>
    match buildCatalog env l with
    | .error e => .error e
    | .ok d => .ok (find d schema table)

end Seafowl.Meta
