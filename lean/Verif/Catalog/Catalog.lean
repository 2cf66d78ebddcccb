/-!
# Model of the metadata catalog

/repo/src/repository/default.rs (the SQL of `implement_repository!`), /repo/src/repository/sqlite.rs
33-51 (SQLite specifics), /repo/migrations/sqlite (tables and constraints), and
/repo/src/catalog/repository.rs (`RepositoryStore`: error mapping).

A catalog state is the content of the SQL tables.  Identifiers are allocated as SQLite does (largest row
id plus one).  Every SQL statement and every transaction is atomic; constraint violations leave the state
unchanged.  Uuids, column types and function details are opaque numbers or strings.
-/

namespace Seafowl.Catalog

/-- `database` rows. -/
structure Db where
  id : Nat
  name : String
deriving DecidableEq, Repr

/-- `collection` rows (schemas). -/
structure Coll where
  id : Nat
  dbId : Nat
  name : String
deriving DecidableEq, Repr

/-- `"table"` rows. -/
structure Tab where
  id : Nat
  collId : Nat
  name : String
  uuid : Nat
deriving DecidableEq, Repr

/-- `table_version` rows. -/
structure Ver where
  id : Nat
  tableId : Nat
  version : Int
  time : Int
deriving DecidableEq, Repr

/-- `table_column` rows. -/
structure Col where
  verId : Nat
  name : String
  typ : String
deriving DecidableEq, Repr

/-- `function` rows. -/
structure Fn where
  id : Nat
  dbId : Nat
  name : String
  details : String
deriving DecidableEq, Repr

/-- The catalog. -/
structure Cat where
  dbs : List Db := []
  colls : List Coll := []
  tabs : List Tab := []
  vers : List Ver := []
  cols : List Col := []
  fns : List Fn := []
deriving DecidableEq, Repr

/-- `repository::interface::Error`. -/
inductive RepoErr where
  | unique
  | fk
  | notFound
  | other
deriving DecidableEq, Repr

/-- `CatalogError` (catalog/mod.rs 24-94), the variants the repository store returns. -/
inductive CatErr where
  | catalogDoesNotExist (n : String)
  | catalogAlreadyExists (n : String)
  | schemaDoesNotExist (n : String)
  | schemaAlreadyExists (n : String)
  | tableDoesNotExist (n : String)
  | tableUuidDoesNotExist (u : Nat)
  | tableAlreadyExists (n : String)
  | functionAlreadyExists (n : String)
  | functionNotFound (ns : List String)
  | usedStagingSchema
  | sqlx
deriving DecidableEq, Repr

/-- `STAGING_SCHEMA` (catalog/mod.rs 22). -/
def staging : String := "staging"

/-- SQLite row id allocation: one more than the largest id. -/
def newId : List Nat → Nat
  | [] => 1
  | i :: is => max (i + 1) (newId is)

/-! ### repository -/

/-- `create_database` (default.rs 139-151). -/
def repoCreateDb (s : Cat) (n : String) : Cat × Except RepoErr Nat :=
  if s.dbs.any (·.name == n) then (s, .error .unique)
  else
    let id := newId (s.dbs.map (·.id))
    ({ s with dbs := s.dbs ++ [{ id := id, name := n }] }, .ok id)

/-- `get_database` (default.rs 153-163). -/
def repoGetDb (s : Cat) (n : String) : Except RepoErr Db :=
  match s.dbs.find? (·.name == n) with
  | some d => .ok d
  | none => .error .notFound

/-- `get_collection` (default.rs 165-183). -/
def repoGetColl (s : Cat) (db n : String) : Except RepoErr Coll :=
  match s.colls.find? (fun c => c.name == n && s.dbs.any (fun d => d.id == c.dbId && d.name == db)) with
  | some c => .ok c
  | none => .error .notFound

/-- `get_table` (default.rs 185-207). -/
def repoGetTab (s : Cat) (db sch n : String) : Except RepoErr Tab :=
  match s.tabs.find? (fun t => t.name == n && s.colls.any (fun c => c.id == t.collId && c.name == sch &&
      s.dbs.any (fun d => d.id == c.dbId && d.name == db))) with
  | some t => .ok t
  | none => .error .notFound

/-- `create_collection` (default.rs 209-226). -/
def repoCreateColl (s : Cat) (dbId : Nat) (n : String) : Cat × Except RepoErr Nat :=
  if s.colls.any (fun c => c.name == n && c.dbId == dbId) then (s, .error .unique)
  else if !s.dbs.any (·.id == dbId) then (s, .error .fk)
  else
    let id := newId (s.colls.map (·.id))
    ({ s with colls := s.colls ++ [{ id := id, dbId := dbId, name := n }] }, .ok id)

/-- Is there no repeated name. -/
def distinctNames : List (String × String) → Bool
  | [] => true
  | c :: cs => !(cs.any (·.1 == c.1)) && distinctNames cs

/-- `create_table` (default.rs 228-281): the table and its first version are inserted in one transaction,
the columns in a separate statement after the transaction was committed.  `colsOk`: whether that second
statement reaches the database. -/
def repoCreateTab (s : Cat) (collId : Nat) (n : String) (columns : List (String × String)) (uuid : Nat) (now : Int)
    (colsOk : Bool) : Cat × Except RepoErr (Nat × Nat) :=
  if s.tabs.any (fun t => t.name == n && t.collId == collId) then (s, .error .unique)
  else if !s.colls.any (·.id == collId) then (s, .error .fk)
  else
    let tid := newId (s.tabs.map (·.id))
    let vid := newId (s.vers.map (·.id))
    let s1 := { s with
      tabs := s.tabs ++ [{ id := tid, collId := collId, name := n, uuid := uuid }]
      vers := s.vers ++ [{ id := vid, tableId := tid, version := 0, time := now }] }
    if columns.isEmpty then (s1, .ok (tid, vid))
    else if !colsOk then (s1, .error .other)
    else if !distinctNames columns then (s1, .error .unique)
    else ({ s1 with cols := s1.cols ++ columns.map (fun c => { verId := vid, name := c.1, typ := c.2 }) }, .ok (tid, vid))

/-- `first_value(id) OVER (PARTITION BY table_id ORDER BY creation_time DESC, id DESC)`: is `v` the first
version of its table in this order. -/
def isNewest (vers : List Ver) (v : Ver) : Bool :=
  vers.all (fun w => w.tableId != v.tableId || decide (w.time < v.time ∨ (w.time = v.time ∧ w.id ≤ v.id)))

/-- `delete_old_versions` (default.rs 283-297), with the cascade to the columns. -/
def repoDeleteOld (s : Cat) (tableId : Nat) : Cat :=
  let gone := (s.vers.filter (fun v => v.tableId == tableId && !isNewest s.vers v)).map (·.id)
  { s with
    vers := s.vers.filter (fun v => !gone.contains v.id)
    cols := s.cols.filter (fun c => !gone.contains c.verId) }

/-- Largest element. -/
def maxOf : List Nat → Option Nat
  | [] => none
  | i :: is => some (match maxOf is with | none => i | some j => max i j)

/-- `SELECT max(table_version.id) ... WHERE "table".uuid = $1` (default.rs 305-312). -/
def lastVersion (s : Cat) (uuid : Nat) : Option Nat :=
  maxOf ((s.vers.filter (fun v => s.tabs.any (fun t => t.id == v.tableId && t.uuid == uuid))).map (·.id))

/-- `create_new_version` (default.rs 299-339).  If no table has the UUID the aggregate query returns one
row with NULL, whose decoding fails (not `RowNotFound`).  The columns are copied in a separate statement
after the transaction (`colsOk`: whether it reaches the database). -/
def repoNewVersion (s : Cat) (uuid : Nat) (version : Int) (now : Int) (colsOk : Bool) : Cat × Except RepoErr Nat :=
  match lastVersion s uuid with
  | none => (s, .error .other)
  | some last =>
    match s.vers.find? (·.id == last) with
    | none => (s, .error .notFound)
    | some v =>
      let vid := newId (s.vers.map (·.id))
      let s1 := { s with vers := s.vers ++ [{ id := vid, tableId := v.tableId, version := version, time := now }] }
      if !colsOk then (s1, .error .other)
      else ({ s1 with cols := s1.cols ++
        (s.cols.filter (·.verId == last)).map (fun c => { c with verId := vid }) }, .ok vid)

/-- `rename_table` (default.rs 387-405): `UPDATE "table" SET name, collection_id WHERE id`. -/
def repoRename (s : Cat) (tableId : Nat) (n : String) (newColl : Option Nat) : Cat × Except RepoErr Unit :=
  match s.tabs.find? (·.id == tableId) with
  | none => (s, .error .notFound)
  | some t =>
    let coll := newColl.getD t.collId
    if s.tabs.any (fun u => u.id != tableId && u.name == n && u.collId == coll) then (s, .error .unique)
    else if !s.colls.any (·.id == coll) then (s, .error .fk)
    else ({ s with tabs := s.tabs.map (fun u => if u.id = tableId then { u with name := n, collId := coll } else u) }, .ok ())

/-- `create_function` (default.rs 407-451). -/
def repoCreateFn (s : Cat) (dbId : Nat) (n : String) (orReplace : Bool) (details : String) : Cat × Except RepoErr Nat :=
  match s.fns.find? (fun f => f.name == n && f.dbId == dbId) with
  | some f =>
    if orReplace then
      ({ s with fns := s.fns.map (fun g => if g.id = f.id then { g with details := details } else g) }, .ok f.id)
    else (s, .error .unique)
  | none =>
    if !s.dbs.any (·.id == dbId) then (s, .error .fk)
    else
      let id := newId (s.fns.map (·.id))
      ({ s with fns := s.fns ++ [{ id := id, dbId := dbId, name := n, details := details }] }, .ok id)

/-- `drop_function` (default.rs 480-509): `name IN ($2, $2, ...)`, so only the first name counts; the other
bound names are not referenced by the statement (SQLite). -/
def repoDropFn (s : Cat) (dbId : Nat) (names : List String) : Cat × Except RepoErr Unit :=
  let hit (f : Fn) : Bool := f.dbId == dbId && (names.map (fun _ => names.head?)).contains (some f.name)
  if s.fns.any hit then ({ s with fns := s.fns.filter (fun f => !hit f) }, .ok ())
  else (s, .error .notFound)

/-- `ON DELETE CASCADE` from table versions. -/
def dropVers (s : Cat) (gone : Ver → Bool) : Cat :=
  { s with
    vers := s.vers.filter (fun v => !gone v)
    cols := s.cols.filter (fun c => !(s.vers.any (fun v => gone v && v.id == c.verId))) }

/-- `ON DELETE CASCADE` from tables. -/
def dropTabs (s : Cat) (gone : Tab → Bool) : Cat :=
  let s1 := dropVers s (fun v => s.tabs.any (fun t => gone t && t.id == v.tableId))
  { s1 with tabs := s1.tabs.filter (fun t => !gone t) }

/-- `ON DELETE CASCADE` from collections. -/
def dropColls (s : Cat) (gone : Coll → Bool) : Cat :=
  let s1 := dropTabs s (fun t => s.colls.any (fun c => gone c && c.id == t.collId))
  { s1 with colls := s1.colls.filter (fun c => !gone c) }

/-- `delete_table` (default.rs 515-523). -/
def repoDeleteTab (s : Cat) (id : Nat) : Cat × Except RepoErr Unit :=
  if s.tabs.any (·.id == id) then (dropTabs s (·.id == id), .ok ()) else (s, .error .notFound)

/-- `delete_collection` (default.rs 525-533). -/
def repoDeleteColl (s : Cat) (id : Nat) : Cat × Except RepoErr Unit :=
  if s.colls.any (·.id == id) then (dropColls s (·.id == id), .ok ()) else (s, .error .notFound)

/-- `delete_database` (default.rs 535-543). -/
def repoDeleteDb (s : Cat) (id : Nat) : Cat × Except RepoErr Unit :=
  if s.dbs.any (·.id == id) then
    let s1 := dropColls s (·.dbId == id)
    ({ s1 with dbs := s1.dbs.filter (·.id != id), fns := s1.fns.filter (·.dbId != id) }, .ok ())
  else (s, .error .notFound)

/-! ### `RepositoryStore` (catalog/repository.rs) -/

/-- `impl From<RepositoryError> for CatalogError` (30-39): all of them become `SqlxError`. -/
def genericErr (_ : RepoErr) : CatErr := .sqlx

/-- `CatalogStore::create` (43-57). -/
def createDb (s : Cat) (n : String) : Cat × Except CatErr Unit :=
  match repoCreateDb s n with
  | (s', .ok _) => (s', .ok ())
  | (s', .error .unique) => (s', .error (.catalogAlreadyExists n))
  | (s', .error e) => (s', .error (genericErr e))

/-- `CatalogStore::get` (59-71). -/
def getDb (s : Cat) (n : String) : Except CatErr Db :=
  match repoGetDb s n with
  | .ok d => .ok d
  | .error .notFound => .error (.catalogDoesNotExist n)
  | .error e => .error (genericErr e)

/-- `CatalogStore::delete` (73-88). -/
def deleteDb (s : Cat) (n : String) : Cat × Except CatErr Unit :=
  match getDb s n with
  | .error e => (s, .error e)
  | .ok d =>
    match repoDeleteDb s d.id with
    | (s', .ok _) => (s', .ok ())
    | (s', .error .notFound) => (s', .error (.catalogDoesNotExist n))
    | (s', .error e) => (s', .error (genericErr e))

/-- `SchemaStore::create` (93-114). -/
def createSchema (s : Cat) (db n : String) : Cat × Except CatErr Unit :=
  if n = staging then (s, .error .usedStagingSchema)
  else
    match getDb s db with
    | .error e => (s, .error e)
    | .ok d =>
      match repoCreateColl s d.id n with
      | (s', .ok _) => (s', .ok ())
      | (s', .error .unique) => (s', .error (.schemaAlreadyExists n))
      | (s', .error e) => (s', .error (genericErr e))

/-- `SchemaStore::get` (157-177). -/
def getSchema (s : Cat) (db n : String) : Except CatErr Coll :=
  if n = staging then .error .usedStagingSchema
  else
    match repoGetColl s db n with
    | .ok c => .ok c
    | .error .notFound => .error (.schemaDoesNotExist n)
    | .error e => .error (genericErr e)

/-- `SchemaStore::delete` (179-194). -/
def deleteSchema (s : Cat) (db n : String) : Cat × Except CatErr Unit :=
  match getSchema s db n with
  | .error e => (s, .error e)
  | .ok c =>
    match repoDeleteColl s c.id with
    | (s', .ok _) => (s', .ok ())
    | (s', .error .notFound) => (s', .error (.schemaDoesNotExist n))
    | (s', .error e) => (s', .error (genericErr e))

/-- `TableStore::create` (199-226). -/
def createTable (s : Cat) (db sch n : String) (columns : List (String × String)) (uuid : Nat) (now : Int) (colsOk : Bool) :
    Cat × Except CatErr (Nat × Nat) :=
  match getSchema s db sch with
  | .error e => (s, .error e)
  | .ok c =>
    match repoCreateTab s c.id n columns uuid now colsOk with
    | (s', .ok r) => (s', .ok r)
    | (s', .error .unique) => (s', .error (.tableAlreadyExists n))
    | (s', .error .fk) => (s', .error (.schemaDoesNotExist sch))
    | (s', .error e) => (s', .error (genericErr e))

/-- `TableStore::get` (228-245). -/
def getTable (s : Cat) (db sch n : String) : Except CatErr Tab :=
  match repoGetTab s db sch n with
  | .ok t => .ok t
  | .error .notFound => .error (.tableDoesNotExist n)
  | .error e => .error (genericErr e)

/-- `TableStore::create_new_version` (247-262). -/
def newVersion (s : Cat) (uuid : Nat) (version now : Int) (colsOk : Bool) : Cat × Except CatErr Nat :=
  match repoNewVersion s uuid version now colsOk with
  | (s', .ok v) => (s', .ok v)
  | (s', .error .notFound) => (s', .error (.tableUuidDoesNotExist uuid))
  | (s', .error e) => (s', .error (genericErr e))

/-- `TableStore::delete_old_versions` (264-273). -/
def deleteOldVersions (s : Cat) (db sch n : String) : Cat × Except CatErr Unit :=
  match getTable s db sch n with
  | .error e => (s, .error e)
  | .ok t => (repoDeleteOld s t.id, .ok ())

/-- `TableStore::update` (286-338), within one database (moving across catalogs panics). -/
def renameTable (s : Cat) (db oldSch oldName newSch newName : String) : Cat × Except CatErr Unit :=
  match getTable s db oldSch oldName with
  | .error e => (s, .error e)
  | .ok t =>
    let target : Except CatErr (Option Nat) :=
      if newSch ≠ oldSch then
        match getSchema s db newSch with
        | .error e => .error e
        | .ok c => .ok (some c.id)
      else .ok none
    match target with
    | .error e => (s, .error e)
    | .ok c =>
      match repoRename s t.id newName c with
      | (s', .ok _) => (s', .ok ())
      | (s', .error .fk) => (s', .error (.schemaDoesNotExist newSch))
      | (s', .error .unique) => (s', .error (.tableAlreadyExists newName))
      | (s', .error .notFound) => (s', .error (.tableDoesNotExist oldName))
      | (s', .error e) => (s', .error (genericErr e))

/-- `TableStore::delete` (340-358). -/
def deleteTable (s : Cat) (db sch n : String) : Cat × Except CatErr Unit :=
  match getTable s db sch n with
  | .error e => (s, .error e)
  | .ok t =>
    match repoDeleteTab s t.id with
    | (s', .ok _) => (s', .ok ())
    | (s', .error .notFound) => (s', .error (.tableDoesNotExist n))
    | (s', .error e) => (s', .error (genericErr e))

/-- `FunctionStore::create` (399-425). -/
def createFunction (s : Cat) (db n : String) (orReplace : Bool) (details : String) : Cat × Except CatErr Unit :=
  match getDb s db with
  | .error e => (s, .error e)
  | .ok d =>
    match repoCreateFn s d.id n orReplace details with
    | (s', .ok _) => (s', .ok ())
    | (s', .error .fk) => (s', .error (.catalogDoesNotExist db))
    | (s', .error .unique) => (s', .error (.functionAlreadyExists n))
    | (s', .error e) => (s', .error (genericErr e))

/-- `FunctionStore::list` (427-437). -/
def listFunctions (s : Cat) (db : String) : Except CatErr (List Fn) :=
  match getDb s db with
  | .error e => .error e
  | .ok d => .ok (s.fns.filter (·.dbId == d.id))

/-- `FunctionStore::delete` (439-467). -/
def deleteFunctions (s : Cat) (db : String) (ifExists : Bool) (names : List String) : Cat × Except CatErr Unit :=
  match getDb s db with
  | .error e => (s, .error e)
  | .ok d =>
    match repoDropFn s d.id names with
    | (s', .ok _) => (s', .ok ())
    | (s', .error .fk) => (s', .error (.catalogDoesNotExist db))
    | (s', .error .notFound) => if ifExists then (s', .ok ()) else (s', .error (.functionNotFound names))
    | (s', .error e) => (s', .error (genericErr e))

/-! ### sequences of operations -/

/-- The operations of the stores; `now` is the clock reading of the database. -/
inductive Op where
  | createDb (n : String)
  | deleteDb (n : String)
  | createSchema (db n : String)
  | deleteSchema (db n : String)
  | createTable (db sch n : String) (columns : List (String × String)) (uuid : Nat) (now : Int) (colsOk : Bool)
  | newVersion (uuid : Nat) (version now : Int) (colsOk : Bool)
  | deleteOldVersions (db sch n : String)
  | renameTable (db oldSch oldName newSch newName : String)
  | deleteTable (db sch n : String)
  | createFunction (db n : String) (orReplace : Bool) (details : String)
  | deleteFunctions (db : String) (ifExists : Bool) (names : List String)
deriving DecidableEq, Repr

/-- The error of a result. -/
def errOf {α : Type} : Except CatErr α → Option CatErr
  | .ok _ => none
  | .error e => some e

/-- State and error after an operation. -/
def exec (s : Cat) : Op → Cat × Option CatErr
  | .createDb n => let r := createDb s n; (r.1, errOf r.2)
  | .deleteDb n => let r := deleteDb s n; (r.1, errOf r.2)
  | .createSchema db n => let r := createSchema s db n; (r.1, errOf r.2)
  | .deleteSchema db n => let r := deleteSchema s db n; (r.1, errOf r.2)
  | .createTable db sch n columns uuid now ok => let r := createTable s db sch n columns uuid now ok; (r.1, errOf r.2)
  | .newVersion uuid v now ok => let r := newVersion s uuid v now ok; (r.1, errOf r.2)
  | .deleteOldVersions db sch n => let r := deleteOldVersions s db sch n; (r.1, errOf r.2)
  | .renameTable db os on ns nn => let r := renameTable s db os on ns nn; (r.1, errOf r.2)
  | .deleteTable db sch n => let r := deleteTable s db sch n; (r.1, errOf r.2)
  | .createFunction db n o d => let r := createFunction s db n o d; (r.1, errOf r.2)
  | .deleteFunctions db i ns => let r := deleteFunctions s db i ns; (r.1, errOf r.2)

/-- The state after a sequence of operations. -/
def run (s : Cat) (ops : List Op) : Cat := ops.foldl (fun s op => (exec s op).1) s

/-! ### listing -/

/-- Row of `list_collections` (the columns used). -/
structure ListRow where
  coll : String
  table : Option (String × Nat)
  column : Option (String × String)
deriving DecidableEq, Repr

/-- `latest_table_versions` (sqlite.rs 45-50): the version with the largest id of a table. -/
def latest (s : Cat) (tableId : Nat) : Option Nat :=
  maxOf ((s.vers.filter (·.tableId == tableId)).map (·.id))

/-- The columns of the latest version of a table. -/
def currentCols (s : Cat) (tableId : Nat) : List Col :=
  match latest s tableId with
  | none => []
  | some v => s.cols.filter (·.verId == v)

/-- `LEFT JOIN table_column`: the rows of a table, one per column of its latest version, or a single row
without column. -/
def tableRows (s : Cat) (coll : String) (t : Tab) : List ListRow :=
  let columns := currentCols s t.id
  if columns.isEmpty then [{ coll := coll, table := some (t.name, t.uuid), column := none }]
  else columns.map (fun c => { coll := coll, table := some (t.name, t.uuid), column := some (c.name, c.typ) })

/-- `LEFT JOIN "table"`. -/
def collRows (s : Cat) (c : Coll) : List ListRow :=
  let ts := s.tabs.filter (·.collId == c.id)
  if ts.isEmpty then [{ coll := c.name, table := none, column := none }]
  else ts.flatMap (tableRows s c.name)

/-- The joined rows before sorting (default.rs 107-123). -/
def joinedRows (s : Cat) (db : String) : List ListRow :=
  (s.dbs.filter (·.name == db)).flatMap (fun d => (s.colls.filter (·.dbId == d.id)).flatMap (collRows s))

/-- `chunk_by`: runs of consecutive elements with the same key. -/
def chunkBy {α κ : Type} [DecidableEq κ] (key : α → κ) : List α → List (κ × List α)
  | [] => []
  | a :: as =>
    match chunkBy key as with
    | [] => [(key a, [a])]
    | (k, g) :: rest => if key a = k then (k, a :: g) :: rest else (key a, [a]) :: (k, g) :: rest

/-- `SchemaStore::list` (116-155) on the sorted rows: schemas with their (name, uuid) tables. -/
def listSchemas (rows : List ListRow) : List (String × List (String × Nat)) :=
  (chunkBy (·.coll) rows).map (fun g => (g.1, (chunkBy (·.table) g.2).filterMap (·.1)))

end Seafowl.Catalog
