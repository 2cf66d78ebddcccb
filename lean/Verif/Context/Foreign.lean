import Verif.Catalog.Meta

/-!
# Statements on tables that Seafowl does not own

/repo/src/catalog/mod.rs 153-306 (the default methods of the four stores: "not implemented"),
/repo/src/catalog/empty.rs, memory.rs and external.rs (the metastores that only answer `list`),
/repo/src/context/mod.rs 89-113, 126-217 (reload, lookups, `get_table_uuid`), /repo/src/context/delta.rs
275-461 (`create_delta_table`, `plan_to_delta_table`, `commit_delta_table`, `delete_delta_table`), the
branches of `create_physical_plan` (/repo/src/context/physical.rs 104-765) and `rewrite_time_travel_query`
(/repo/src/context/logical.rs 340-388).

The catalog database is the subject of `Verif.Context.Ddl`; here the tables come from a metastore that
Seafowl only reads (an external one, or the list sent with a query), or are Delta tables of the staging
schema.  What the statements do to the objects in the stores is modelled object by object: an object has a
bucket and a path, a table is the directory of its objects.  Simplifications: all log files of a table are
one object; a write makes at most one data file, whose name is part of the statement; no write or delete
fails half way; the source query of a statement succeeds and gives the rows in the statement; pruning takes
exactly the files with a matching row; the rows of a table are numbers.
-/

namespace Seafowl.Foreign

open Seafowl.Meta (Text Opts Listing Place)

/-- An object: its bucket (or disk) and its path. -/
structure Key where
  bucket : Nat
  path : List Text
  deriving DecidableEq, Repr

/-- A commit of a Delta table: its time, the files it adds and those it removes. -/
structure Commit where
  ts : Int
  adds : List Text
  removes : List Text
  deriving DecidableEq, Repr

/-- The content of an object. -/
inductive Obj where
  | data (rows : List Nat)
  | log (commits : List Commit)
  | other
  deriving DecidableEq, Repr

/-- The objects of all stores. -/
abbrev Objs := List (Key × Obj)

def Objs.get (w : Objs) (k : Key) : Option Obj := (w.find? (fun e => e.1 == k)).map (·.2)

def Objs.put (w : Objs) (k : Key) (o : Obj) : Objs := (k, o) :: w.filter (fun e => e.1 != k)

/-- Is the object in the directory? -/
def under (d k : Key) : Bool := d.bucket == k.bucket && d.path.isPrefixOf k.path

/-- An object of a directory. -/
def Key.sub (d : Key) (name : Text) : Key := ⟨d.bucket, d.path ++ [name]⟩

/-- The parts of a path (`Path::from`): empty parts count for nothing. -/
def segsGo : Text → Text → List Text
  | [], cur => if cur = [] then [] else [cur.reverse]
  | c :: l, cur =>
    if c = '/' then (if cur = [] then segsGo l [] else cur.reverse :: segsGo l [])
    else segsGo l (c :: cur)

def segs (t : Text) : List Text := segsGo t []

def logName : Text := "_delta_log".toList

/-- The log of the Delta table in a directory (`DeltaTable::load`); `none`: there is no table. -/
def loadLog (w : Objs) (d : Key) : Option (List Commit) :=
  match w.get (d.sub logName) with
  | some (.log (c :: cs)) => some (c :: cs)
  | _ => none

/-- The files of a table after the commits. -/
def liveFrom (fs : List Text) : List Commit → List Text
  | [] => fs
  | c :: cs => liveFrom (fs.filter (fun f => !c.removes.contains f) ++ c.adds) cs

def live (l : List Commit) : List Text := liveFrom [] l

/-- The rows of a file of the table. -/
def fileRows (w : Objs) (d : Key) (f : Text) : Option (List Nat) :=
  match w.get (d.sub f) with
  | some (.data rows) => some rows
  | _ => none

/-- The rows of files; `none`: one of them cannot be read. -/
def scanFiles (w : Objs) (d : Key) : List Text → Option (List Nat)
  | [] => some []
  | f :: fs =>
    match fileRows w d f, scanFiles w d fs with
    | some a, some b => some (a ++ b)
    | _, _ => none

/-- What a query of the table gives. -/
def scan (w : Objs) (d : Key) : Option (List Nat) :=
  match loadLog w d with
  | none => none
  | some l => scanFiles w d (live l)

/-- `commit_delta_table` (delta.rs 430-441) on a table loaded with the log `l`. -/
def commit (w : Objs) (d : Key) (l : List Commit) (c : Commit) : Objs := w.put (d.sub logName) (.log (l ++ [c]))

/-- Errors. -/
inductive Err where
  | notImplemented
  | list (e : Meta.Err)
  | noCatalog | noSchema | noTable | load | notDelta | noUuid | noStore | plan | udf | exists_ | scan
  | uuidUnknown | tableUnknown | ice
  deriving DecidableEq, Repr

/-- The methods of the stores that statements call, other than listing tables and functions
(catalog/mod.rs 153-306). -/
inductive Meth where
  | catalogCreate (name : String)
  | catalogGet (name : String)
  | schemaCreate (catalog name : String)
  | schemaGet (catalog name : String)
  | schemaDelete (catalog name : String)
  | tableCreate (catalog schema name : String)
  | newVersion (uuid : Text)
  | deleteOldVersions (catalog schema name : String)
  | tableUpdate (catalog schema name schema' name' : String)
  | tableDelete (catalog schema name : String)
  | getDropped (catalog : String)
  | functionCreate (catalog name : String)
  | functionDelete (catalog : String) (names : List String)
  deriving DecidableEq, Repr

/-- A metastore: the list of tables, and what it answers to the other methods. -/
structure Store where
  list : String → Except Meta.Err Listing
  reply : Meth → Except Err Unit

/-- The default methods (catalog/mod.rs 153-306, `not_impl`). -/
def notImpl : Meth → Except Err Unit := fun _ => .error .notImplemented

/-- A remote metastore (external.rs 36-64). -/
def external (answer : String → Option Listing) : Store := ⟨(Meta.Source.external answer).list, notImpl⟩

/-- The list sent with a query (memory.rs 13-34). -/
def memory (l : Listing) : Store := ⟨(Meta.Source.memory l).list, notImpl⟩

/-- No metastore (empty.rs 14-36). -/
def empty : Store := ⟨Meta.Source.empty.list, notImpl⟩

/-- The metastores that Seafowl does not own. -/
inductive Foreign : Store → Prop where
  | external (answer) : Foreign (external answer)
  | memory (l) : Foreign (memory l)
  | empty : Foreign empty

/-- The catalog database, as far as statements on the staging schema ask it (repository.rs 241-266,
297-320): it knows the identifiers of its own tables, and no table of the staging schema. -/
def ownStaging (schemas : List (String × List (String × Text))) (known : Text → Bool) : Store :=
  ⟨(Meta.Source.repo schemas).list, fun
    | .newVersion u => if known u then .ok () else .error .uuidUnknown
    | _ => .error .tableUnknown⟩

/-- What a table name stands for.  A Delta table has the directory of its objects, and its location as text. -/
inductive Prov where
  | delta (d : Key) (uri : Text)
  | iceberg (metadata : Text) (options : Opts)
  | other
  deriving DecidableEq, Repr

structure Env where
  /-- `Url::parse`, building of stores, reading of Iceberg metadata: see `Verif.Catalog.Meta` -/
  urlOk : Text → Bool
  storeOk : Text → Opts → Bool
  icebergOk : Text → Opts → Bool
  /-- the directory in a bucket that a storage location stands for -/
  root : Text → Opts → Key
  /-- the default store, if one is configured: its directory and its location as text -/
  internal : Option (Key × Text)
  /-- `Uuid::try_parse` and then `to_string` -/
  uuid : Text → Option Text
  /-- does `create_udf_from_wasm` accept the definition -/
  udfOk : String → Bool
  /-- clock -/
  now : Int
  /-- INSERT into an Iceberg table (see `Verif.Misc.Iceberg`) -/
  iceInsert : Objs → Text → Opts → Objs × Except Err Unit
  /-- `gc_databases` if the metastore lists dropped tables (see `Verif.Catalog.Gc`) -/
  gc : Objs → Objs

def Env.meta (env : Env) : Meta.Env := ⟨env.urlOk, env.storeOk, env.internal.isSome, env.icebergOk⟩

/-- A directory below another. -/
def Key.append (d : Key) (p : List Text) : Key := ⟨d.bucket, d.path ++ p⟩

/-- The provider `build_table` makes for a place (metastore.rs 176-247; factory.rs 102-159, wrapped.rs
112-122: the path extends the location). -/
def provOf (env : Env) : Place → Prov
  | .delta location options path =>
    .delta ((env.root location options).append (segs path)) (location ++ '/' :: path)
  | .deltaDefault path =>
    match env.internal with
    | some (d, uri) => .delta (d.append (segs path)) (uri ++ '/' :: path)
    | none => .other
  | .iceberg m o => .iceberg m o

/-- `get_table_uuid` (mod.rs 186-217) for a Delta table: the last part of its location. -/
def uuidOf (env : Env) (uri : Text) : Option Text := ((segs uri).getLast?).bind env.uuid

/-- `internal_object_store.get_log_store(uuid)` (wrapped.rs 112-122): the directory of the default store that
has the identifier as its name. -/
def ownDir (root : Key) (uuid : Text) : Key := root.sub uuid

/-- `TableReference` and `ResolvedTableReference`. -/
structure TRef where
  cat : Option String := none
  sch : Option String := none
  tab : String
  deriving DecidableEq, Repr

/-- A session: its metastore, the staging schema, its functions, its defaults, and all objects. -/
structure Ctx where
  store : Store
  staging : List (String × Prov)
  udfs : List (String × String)
  db : String
  sch : String
  objs : Objs

/-- `reload_schema` (mod.rs 89-113): these metastores list no functions (empty.rs 29-36 and likewise). -/
def reload (env : Env) (c : Ctx) : Except Err Meta.Database :=
  match c.store.list c.db with
  | .error e => .error (.list e)
  | .ok l =>
    match Meta.buildCatalog env.meta l with
    | .error e => .error (.list e)
    | .ok db => .ok db

/-- `SeafowlSchema::table` (provider.rs 75-118) for a listed table: Delta tables are loaded. -/
def openTable (env : Env) (c : Ctx) (p : Place) : Except Err Prov :=
  match provOf env p with
  | .delta d uri => if (loadLog c.objs d).isSome then .ok (.delta d uri) else .error .load
  | p => .ok p

/-- `SessionContext::table_provider` (provider.rs 45-54, 75-118). -/
def lookup (env : Env) (db : Meta.Database) (c : Ctx) (r : TRef) : Except Err Prov :=
  if r.cat.getD c.db ≠ c.db then .error .noCatalog
  else if r.sch.getD c.sch = "information_schema" then .ok .other
  else
    match Meta.find db (r.sch.getD c.sch) r.tab with
    | .staging t =>
      match c.staging.find? (fun e => e.1 == t) with
      | some e => .ok e.2
      | none => .error .noTable
    | .system t => if t = "table_versions" ∨ t = "dropped_tables" then .ok .other else .error .noTable
    | .table none => .error .noTable
    | .table (some p) => openTable env c p

/-- `try_get_delta_table` (mod.rs 172-184). -/
def tryDelta (env : Env) (db : Meta.Database) (c : Ctx) (r : TRef) : Except Err (Key × Text) :=
  match lookup env db c r with
  | .error e => .error e
  | .ok (.delta d uri) => .ok (d, uri)
  | .ok _ => .error .notDelta

/-- Result of a statement. -/
abbrev Res := Ctx × Except Err Unit

/-- Write at most one file with the rows (`plan_to_delta_adds`, delta.rs 60-267). -/
def writeRows (w : Objs) (d : Key) (file : Text) (rows : List Nat) : Objs × List Text :=
  if rows = [] then (w, []) else (w.put (d.sub file) (.data rows), [file])

/-- Ask the metastore, with the objects as they are now. -/
def ask (c : Ctx) (m : Meth) : Res := (c, c.store.reply m)

/-- `plan_to_delta_table` (delta.rs 380-428): the files, the table and the commit are those of the directory of
the default store named by the identifier. -/
def planTo (env : Env) (c : Ctx) (uri : Text) (file : Text) (rows : List Nat) : Res :=
  match uuidOf env uri with
  | none => (c, .error .noUuid)
  | some u =>
    match env.internal with
    | none => (c, .error .noStore)
    | some (root, _) =>
      let wr := writeRows c.objs (ownDir root u) file rows
      match loadLog wr.1 (ownDir root u) with
      | none => ({ c with objs := wr.1 }, .error .load)
      | some l => ask { c with objs := commit wr.1 (ownDir root u) l ⟨env.now, wr.2, []⟩ } (.newVersion u)

/-- INSERT (physical.rs 193-217). -/
def doInsert (env : Env) (db : Meta.Database) (c : Ctx) (r : TRef) (file : Text) (rows : List Nat) : Res :=
  match lookup env db c r with
  | .error e => (c, .error e)
  | .ok (.delta _ uri) => planTo env c uri file rows
  | .ok (.iceberg m o) => let x := env.iceInsert c.objs m o; ({ c with objs := x.1 }, x.2)
  | .ok .other => (c, .error .notDelta)

/-- The files that a condition may concern: those with a matching row, and those that cannot be read. -/
def hit (w : Objs) (d : Key) (p : Nat → Bool) (f : Text) : Bool :=
  match fileRows w d f with
  | some rows => rows.any p
  | none => true

/-- The end of UPDATE and DELETE: the new file goes to the directory named by the identifier in the default
store, the commit to the table that was loaded (physical.rs 317-366, 422-482). -/
def rewrite (env : Env) (c : Ctx) (d : Key) (u : Text) (root : Key) (l : List Commit) (file : Text)
    (rows : List Nat) (removes : List Text) : Res :=
  let wr := writeRows c.objs (ownDir root u) file rows
  ask { c with objs := commit wr.1 d l ⟨env.now, wr.2, removes⟩ } (.newVersion u)

/-- UPDATE (physical.rs 218-368). -/
def doUpdate (env : Env) (db : Meta.Database) (c : Ctx) (r : TRef) (p : Nat → Bool) (f : Nat → Nat) (file : Text) : Res :=
  match env.internal with
  | none => (c, .error .noStore)
  | some (root, _) =>
    match tryDelta env db c r with
    | .error e => (c, .error e)
    | .ok (d, uri) =>
      match loadLog c.objs d with
      | none => (c, .error .load)
      | some l =>
        match uuidOf env uri with
        | none => (c, .error .noUuid)
        | some u =>
          let files := (live l).filter (hit c.objs d p)
          match scanFiles c.objs d files with
          | none => (c, .error .scan)
          | some rows => rewrite env c d u root l file (rows.map (fun x => if p x then f x else x)) files

/-- DELETE (physical.rs 369-485); without a condition nothing is read. -/
def doDelete (env : Env) (db : Meta.Database) (c : Ctx) (r : TRef) (p : Option (Nat → Bool)) (file : Text) : Res :=
  match env.internal with
  | none => (c, .error .noStore)
  | some (root, _) =>
    match tryDelta env db c r with
    | .error e => (c, .error e)
    | .ok (d, uri) =>
      match uuidOf env uri with
      | none => (c, .error .noUuid)
      | some u =>
        match loadLog c.objs d with
        | none => (c, .error .load)
        | some l =>
          match p with
          | none => rewrite env c d u root l file [] (live l)
          | some p =>
            let files := (live l).filter (hit c.objs d p)
            match scanFiles c.objs d files with
            | none => (c, .error .scan)
            | some rows => rewrite env c d u root l file (rows.filter (fun x => !p x)) files

/-- TRUNCATE TABLE (physical.rs 666-703): no word to the metastore. -/
def doTruncate (env : Env) (db : Meta.Database) (c : Ctx) (r : TRef) : Res :=
  match tryDelta env db c r with
  | .error e => (c, .error e)
  | .ok (d, _) =>
    match loadLog c.objs d with
    | none => (c, .error .load)
    | some l => ({ c with objs := commit c.objs d l ⟨env.now, [], live l⟩ }, .ok ())

/-- The files that were removed from the table and are not in it any more. -/
def tombstones (l : List Commit) : List Text := (l.flatMap (·.removes)).filter (fun f => !(live l).contains f)

/-- VACUUM TABLE (physical.rs 719-765). -/
def doVacuum (env : Env) (db : Meta.Database) (c : Ctx) (r : TRef) : Res :=
  match tryDelta env db c r with
  | .error _ => ask c (.deleteOldVersions (r.cat.getD c.db) (r.sch.getD c.sch) r.tab)
  | .ok (d, _) =>
    match loadLog c.objs d with
    | none => (c, .error .load)
    | some l =>
      ask { c with objs := c.objs.filter (fun e => !(tombstones l).any (fun f => e.1 == d.sub f)) }
        (.deleteOldVersions (r.cat.getD c.db) (r.sch.getD c.sch) r.tab)

/-- VACUUM DATABASE (physical.rs 709-718, utils.rs 50-66): an error of the metastore counts as an empty list. -/
def doVacuumDb (env : Env) (c : Ctx) (name : String) : Res :=
  if env.internal.isSome then
    match c.store.reply (.getDropped name) with
    | .error _ => (c, .ok ())
    | .ok _ => ({ c with objs := env.gc c.objs }, .ok ())
  else (c, .error .noStore)

/-- `delete_delta_table` (delta.rs 443-461): everything in the directory of the table. -/
def deleteDelta (env : Env) (db : Meta.Database) (c : Ctx) (r : TRef) : Res :=
  match tryDelta env db c r with
  | .error e => (c, .error e)
  | .ok (d, _) => ({ c with objs := c.objs.filter (fun e => !under d e.1) }, .ok ())

/-- DROP TABLE (physical.rs 486-517). -/
def doDropTable (env : Env) (db : Meta.Database) (c : Ctx) (r : TRef) (ie : Bool) : Res :=
  match ie, tryDelta env db c r with
  | true, .error _ => (c, .ok ())
  | _, _ =>
    if r.sch.getD c.sch = "staging" then
      if r.cat.getD c.db ≠ c.db then (c, .error .noCatalog)
      else ({ c with staging := c.staging.filter (fun e => e.1 != r.tab) }, .ok ())
    else ask (deleteDelta env db c r).1 (.tableDelete (r.cat.getD c.db) (r.sch.getD c.sch) r.tab)

/-- The tables of a schema (provider.rs 45-54, 66-71). -/
def schemaTables (db : Meta.Database) (c : Ctx) (n : String) : Option (List String) :=
  if n = "staging" then some (c.staging.map (·.1))
  else if n = "system" then some ["table_versions", "dropped_tables"]
  else (Meta.get db n).map (fun ts => ts.map (·.1))

/-- The loop of DROP SCHEMA (physical.rs 551-564). -/
def dropLoop (env : Env) (db : Meta.Database) (c : Ctx) (sch : String) : List String → Res
  | [] => (c, .ok ())
  | t :: ts =>
    match deleteDelta env db c ⟨some c.db, some sch, t⟩ with
    | (c1, .error e) => (c1, .error e)
    | (c1, .ok _) =>
      match ask c1 (.tableDelete c1.db sch t) with
      | (c2, .error e) => (c2, .error e)
      | (c2, .ok _) => dropLoop env db c2 sch ts

/-- DROP SCHEMA (physical.rs 518-572). -/
def doDropSchema (env : Env) (db : Meta.Database) (c : Ctx) (cat : Option String) (name : String) (ie : Bool) : Res :=
  if cat.getD c.db ≠ c.db then (c, .error .plan)
  else
    match schemaTables db c name with
    | none => if ie then (c, .ok ()) else (c, .error .noSchema)
    | some ts =>
      match dropLoop env db c name ts with
      | (c1, .error e) => (c1, .error e)
      | (c1, .ok _) => ask c1 (.schemaDelete c1.db name)

/-- `create_delta_table` (delta.rs 275-377) up to the question to the metastore; after an answer of the catalog
database see `Verif.Context.Ddl`. -/
def createDelta (env : Env) (c : Ctx) (r : TRef) : Res :=
  if env.internal.isSome then ask c (.schemaGet c.db (r.sch.getD c.sch)) else (c, .error .noStore)

/-- CREATE DATABASE (physical.rs 138-162). -/
def doCreateDb (c : Ctx) (name : String) (ine : Bool) : Res :=
  match c.store.reply (.catalogGet name) with
  | .ok _ => if ine then (c, .ok ()) else (c, .error .exists_)
  | .error _ =>
    match ask c (.catalogCreate name) with
    | (c1, .error e) => (c1, .error e)
    | (c1, .ok _) => ask c1 (.schemaCreate name "public")

/-- CREATE TABLE AS (physical.rs 163-192), up to the question to the metastore. -/
def doCtas (env : Env) (db : Meta.Database) (c : Ctx) (r : TRef) (ine : Bool) : Res :=
  match ine, tryDelta env db c r with
  | true, .ok _ => (c, .ok ())
  | _, _ => createDelta env c r

/-- ALTER TABLE RENAME (logical.rs 186-211, physical.rs 634-665). -/
def doRename (env : Env) (db : Meta.Database) (c : Ctx) (old new : TRef) : Res :=
  match lookup env db c old, lookup env db c new with
  | .error _, _ => (c, .error .noTable)
  | .ok _, .ok _ => (c, .error .exists_)
  | .ok _, .error _ =>
    if new.cat.getD c.db ≠ c.db then (c, .error .plan)
    else ask c (.tableUpdate (old.cat.getD c.db) (old.sch.getD c.sch) old.tab (new.sch.getD c.sch) new.tab)

/-- CREATE EXTERNAL TABLE (physical.rs 104-121); `p` is the provider that the format's factory makes.  The name
is one of the staging schema (mod.rs 126-149). -/
def doCreateExternal (env : Env) (c : Ctx) (name : String) (ine : Bool) (p : Prov) : Res :=
  if env.internal.isSome then
    if c.staging.any (fun e => e.1 == name) then (if ine then (c, .ok ()) else (c, .error .exists_))
    else ({ c with staging := c.staging ++ [(name, p)] }, .ok ())
  else (c, .error .noStore)

/-- CREATE FUNCTION (physical.rs 609-624): first for the session, then for the metastore. -/
def doCreateFunction (env : Env) (c : Ctx) (name details : String) : Res :=
  if env.udfOk details then
    ask { c with udfs := (name, details) :: c.udfs.filter (fun e => e.1 != name) } (.functionCreate c.db name)
  else (c, .error .udf)

/-- The statements. -/
inductive Stmt where
  | insert (r : TRef) (file : Text) (rows : List Nat)
  | update (r : TRef) (p : Nat → Bool) (f : Nat → Nat) (file : Text)
  | delete (r : TRef) (p : Option (Nat → Bool)) (file : Text)
  | truncate (r : TRef)
  | vacuum (r : TRef)
  | vacuumDb (name : String)
  | dropTable (r : TRef) (ifExists : Bool)
  | dropSchema (cat : Option String) (name : String) (ifExists : Bool)
  | createSchema (name : String)
  | createDb (name : String) (ifNotExists : Bool)
  | createTable (r : TRef)
  | ctas (r : TRef) (ifNotExists : Bool)
  | convert (r : TRef)
  | rename (old new : TRef)
  | createFunction (name details : String)
  | dropFunction (names : List String)
  | createExternal (name : String) (ifNotExists : Bool) (p : Prov)

/-- The branches of `create_physical_plan` (physical.rs 83-775). -/
def execStmt (env : Env) (db : Meta.Database) (c : Ctx) : Stmt → Res
  | .insert r file rows => doInsert env db c r file rows
  | .update r p f file => doUpdate env db c r p f file
  | .delete r p file => doDelete env db c r p file
  | .truncate r => doTruncate env db c r
  | .vacuum r => doVacuum env db c r
  | .vacuumDb name => doVacuumDb env c name
  | .dropTable r ie => doDropTable env db c r ie
  | .dropSchema cat name ie => doDropSchema env db c cat name ie
  -- physical.rs 122-137
  | .createSchema name => ask c (.schemaCreate c.db name)
  | .createDb name ine => doCreateDb c name ine
  -- physical.rs 596-608
  | .createTable r => createDelta env c r
  | .ctas r ine => doCtas env db c r ine
  -- physical.rs 582-595
  | .convert r => createDelta env c r
  | .rename old new => doRename env db c old new
  | .createFunction name details => doCreateFunction env c name details
  -- physical.rs 625-633
  | .dropFunction names => ask c (.functionDelete c.db names)
  | .createExternal name ine p => doCreateExternal env c name ine p

/-- A statement, with the reload before it (logical.rs 89). -/
def exec (env : Env) (c : Ctx) (s : Stmt) : Res :=
  match reload env c with
  | .error e => (c, .error e)
  | .ok db => execStmt env db c s

/-- What a query of a table gives, as a client sees it. -/
def query (env : Env) (c : Ctx) (r : TRef) : Except Err (List Nat) :=
  match reload env c with
  | .error e => .error e
  | .ok db =>
    match tryDelta env db c r with
    | .error e => .error e
    | .ok (d, _) =>
      match scan c.objs d with
      | some rows => .ok rows
      | none => .error .scan

/-- The commits of a log up to a time (`load_with_datetime`; the library's search is in
`Verif.Sql.TimeTravel`, here the times are taken to be in order). -/
def upTo (t : Int) (l : List Commit) : List Commit := l.takeWhile (fun c => decide (c.ts ≤ t))

/-- What a query of an earlier version of a table gives (`rewrite_time_travel_query`, logical.rs 359-385): the
version is looked for in the directory of the default store that has the identifier as its name.  A time before the first commit gives
the first version. -/
def queryAt (env : Env) (c : Ctx) (r : TRef) (t : Int) : Except Err (List Nat) :=
  match reload env c with
  | .error e => .error e
  | .ok db =>
    match lookup env db c r with
    | .error e => .error e
    | .ok (.delta _ uri) =>
      match uuidOf env uri with
      | none => .error .noUuid
      | some u =>
        match env.internal with
        | none => .error .noStore
        | some (root, _) =>
          match loadLog c.objs (ownDir root u) with
          | none => .error .load
          | some l =>
            match scanFiles c.objs (ownDir root u) (live (if upTo t l = [] then l.take 1 else upTo t l)) with
            | some rows => .ok rows
            | none => .error .scan
    | .ok _ => .error .noUuid

end Seafowl.Foreign
