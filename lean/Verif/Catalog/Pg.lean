import Verif.Catalog.SysTables

/-!
# Model of the catalog in PostgreSQL

The methods of `implement_repository!` (/repo/src/repository/default.rs) are the same text for both databases; what differs is in
/repo/src/repository/postgres.rs 39-48, 90-102 and /repo/src/repository/sqlite.rs 33-51, 87-103, in the two sets of migrations
(/repo/migrations), and in the databases themselves:

* identifiers are given by a sequence (`GENERATED ALWAYS AS IDENTITY`): they grow, and failed statements may leave gaps.  SQLite
  takes one more than the largest one in use (`newId`);
* the creation time of a version has microseconds (`now()`), in SQLite it has seconds (`strftime('%s', 'now')`);
* the latest version of a table is the one with the largest creation time, in SQLite the one with the largest identifier;
* violations of constraints are recognised by their codes, in SQLite by their texts; both find the same two kinds.

Simplified: names have no NUL characters (PostgreSQL refuses them), tables have fewer columns than either database can bind
parameters for.
-/

namespace Seafowl.Catalog

/-- What the sequences give next. -/
structure Ids where
  db : Nat
  coll : Nat
  tab : Nat
  ver : Nat
  fn : Nat
deriving DecidableEq, Repr

/-- The error of a result. -/
def repoErrOf {α : Type} : Except RepoErr α → Option RepoErr
  | .ok _ => none
  | .error e => some e

/-- `create_database` (default.rs 139-151) with the identifier the database gives. -/
def insertDb (id : Nat) (s : Cat) (n : String) : Cat × Option RepoErr :=
  if s.dbs.any (·.name == n) then (s, some .unique)
  else ({ s with dbs := s.dbs ++ [{ id := id, name := n }] }, none)

/-- `create_collection` (default.rs 209-226). -/
def insertColl (id : Nat) (s : Cat) (dbId : Nat) (n : String) : Cat × Option RepoErr :=
  if s.colls.any (fun c => c.name == n && c.dbId == dbId) then (s, some .unique)
  else if !s.dbs.any (·.id == dbId) then (s, some .fk)
  else ({ s with colls := s.colls ++ [{ id := id, dbId := dbId, name := n }] }, none)

/-- `create_table` (default.rs 228-281). -/
def insertTab (tid vid : Nat) (s : Cat) (collId : Nat) (n : String) (columns : List (String × String)) (uuid : Nat) (now : Int)
    (colsOk : Bool) : Cat × Option RepoErr :=
  if s.tabs.any (fun t => t.name == n && t.collId == collId) then (s, some .unique)
  else if !s.colls.any (·.id == collId) then (s, some .fk)
  else
    let s1 := { s with
      tabs := s.tabs ++ [{ id := tid, collId := collId, name := n, uuid := uuid }]
      vers := s.vers ++ [{ id := vid, tableId := tid, version := 0, time := now }] }
    if columns.isEmpty then (s1, none)
    else if !colsOk then (s1, some .other)
    else if !distinctNames columns then (s1, some .unique)
    else ({ s1 with cols := s1.cols ++ columns.map (fun c => { verId := vid, name := c.1, typ := c.2 }) }, none)

/-- `create_new_version` (default.rs 299-339). -/
def insertVer (vid : Nat) (s : Cat) (uuid : Nat) (version : Int) (now : Int) (colsOk : Bool) : Cat × Option RepoErr :=
  match lastVersion s uuid with
  | none => (s, some .other)
  | some last =>
    match s.vers.find? (·.id == last) with
    | none => (s, some .notFound)
    | some v =>
      let s1 := { s with vers := s.vers ++ [{ id := vid, tableId := v.tableId, version := version, time := now }] }
      if !colsOk then (s1, some .other)
      else ({ s1 with cols := s1.cols ++
        (s.cols.filter (·.verId == last)).map (fun c => { c with verId := vid }) }, none)

/-- `create_function` (default.rs 407-451). -/
def insertFn (id : Nat) (s : Cat) (dbId : Nat) (n : String) (orReplace : Bool) (details : String) : Cat × Option RepoErr :=
  match s.fns.find? (fun f => f.name == n && f.dbId == dbId) with
  | some f =>
    if orReplace then
      ({ s with fns := s.fns.map (fun g => if g.id = f.id then { g with details := details } else g) }, none)
    else (s, some .unique)
  | none =>
    if !s.dbs.any (·.id == dbId) then (s, some .fk)
    else ({ s with fns := s.fns ++ [{ id := id, dbId := dbId, name := n, details := details }] }, none)

/-- `drop_function` (default.rs 480-509) in PostgreSQL: `$2` stands for every name, the types of the further parameters are
declared although the statement does not refer to them, so it is accepted; `IN ()` is a syntax error, in SQLite it is not. -/
def pgDropFn (s : Cat) (dbId : Nat) (names : List String) : Cat × Option RepoErr :=
  if names.isEmpty then (s, some .other)
  else ((repoDropFn s dbId names).1, repoErrOf (repoDropFn s dbId names).2)

/-- The methods that differ; the rest of `Repository` is the same. -/
structure Backend where
  createDb : Cat → String → Cat × Option RepoErr
  createColl : Cat → Nat → String → Cat × Option RepoErr
  createTab : Cat → Nat → String → List (String × String) → Nat → Int → Bool → Cat × Option RepoErr
  newVersion : Cat → Nat → Int → Int → Bool → Cat × Option RepoErr
  createFn : Cat → Nat → String → Bool → String → Cat × Option RepoErr
  dropFn : Cat → Nat → List String → Cat × Option RepoErr

/-- `SqliteRepository`. -/
def sqlite : Backend where
  createDb s n := insertDb (newId (s.dbs.map (·.id))) s n
  createColl s d n := insertColl (newId (s.colls.map (·.id))) s d n
  createTab s c n cs u now ok := insertTab (newId (s.tabs.map (·.id))) (newId (s.vers.map (·.id))) s c n cs u now ok
  newVersion s u v now ok := insertVer (newId (s.vers.map (·.id))) s u v now ok
  createFn s d n o x := insertFn (newId (s.fns.map (·.id))) s d n o x
  dropFn s d ns := ((repoDropFn s d ns).1, repoErrOf (repoDropFn s d ns).2)

/-- `PostgresRepository`. -/
def postgres (i : Ids) : Backend where
  createDb s n := insertDb i.db s n
  createColl s d n := insertColl i.coll s d n
  createTab s c n cs u now ok := insertTab i.tab i.ver s c n cs u now ok
  newVersion s u v now ok := insertVer i.ver s u v now ok
  createFn s d n o x := insertFn i.fn s d n o x
  dropFn := pgDropFn

/-- An operation of the stores (/repo/src/catalog/repository.rs 43-467) on either database. -/
def Backend.exec (B : Backend) (s : Cat) : Op → Cat × Option CatErr
  | .createDb n =>
    match B.createDb s n with
    | (s', none) => (s', none)
    | (s', some .unique) => (s', some (.catalogAlreadyExists n))
    | (s', some e) => (s', some (genericErr e))
  | .createSchema db n =>
    if n = staging then (s, some .usedStagingSchema)
    else
      match getDb s db with
      | .error e => (s, some e)
      | .ok d =>
        match B.createColl s d.id n with
        | (s', none) => (s', none)
        | (s', some .unique) => (s', some (.schemaAlreadyExists n))
        | (s', some e) => (s', some (genericErr e))
  | .createTable db sch n columns uuid now ok =>
    match getSchema s db sch with
    | .error e => (s, some e)
    | .ok c =>
      match B.createTab s c.id n columns uuid now ok with
      | (s', none) => (s', none)
      | (s', some .unique) => (s', some (.tableAlreadyExists n))
      | (s', some .fk) => (s', some (.schemaDoesNotExist sch))
      | (s', some e) => (s', some (genericErr e))
  | .newVersion uuid v now ok =>
    match B.newVersion s uuid v now ok with
    | (s', none) => (s', none)
    | (s', some .notFound) => (s', some (.tableUuidDoesNotExist uuid))
    | (s', some e) => (s', some (genericErr e))
  | .createFunction db n o d =>
    match getDb s db with
    | .error e => (s, some e)
    | .ok x =>
      match B.createFn s x.id n o d with
      | (s', none) => (s', none)
      | (s', some .fk) => (s', some (.catalogDoesNotExist db))
      | (s', some .unique) => (s', some (.functionAlreadyExists n))
      | (s', some e) => (s', some (genericErr e))
  | .deleteFunctions db ifExists names =>
    match getDb s db with
    | .error e => (s, some e)
    | .ok d =>
      match B.dropFn s d.id names with
      | (s', none) => (s', none)
      | (s', some .fk) => (s', some (.catalogDoesNotExist db))
      | (s', some .notFound) => if ifExists then (s', none) else (s', some (.functionNotFound names))
      | (s', some e) => (s', some (genericErr e))
  | op => Seafowl.Catalog.exec s op

/-- `SELECT DISTINCT ON (table_id) … ORDER BY table_id, creation_time DESC, id DESC` (postgres.rs 41-46). -/
def pgLatest (s : Cat) (tableId : Nat) : Option Nat :=
  (s.vers.find? (fun v => v.tableId == tableId && isNewest s.vers v)).map (·.id)

/-- The columns of the latest version of a table. -/
def pgCurrentCols (s : Cat) (tableId : Nat) : List Col :=
  match pgLatest s tableId with
  | none => []
  | some v => s.cols.filter (·.verId == v)

/-- `LEFT JOIN table_column`. -/
def pgTableRows (s : Cat) (coll : String) (t : Tab) : List ListRow :=
  let columns := pgCurrentCols s t.id
  if columns.isEmpty then [{ coll := coll, table := some (t.name, t.uuid), column := none }]
  else columns.map (fun c => { coll := coll, table := some (t.name, t.uuid), column := some (c.name, c.typ) })

/-- `LEFT JOIN "table"`. -/
def pgCollRows (s : Cat) (c : Coll) : List ListRow :=
  let ts := s.tabs.filter (·.collId == c.id)
  if ts.isEmpty then [{ coll := c.name, table := none, column := none }]
  else ts.flatMap (pgTableRows s c.name)

/-- The rows of `list_collections` (default.rs 107-123) before sorting. -/
def pgJoinedRows (s : Cat) (db : String) : List ListRow :=
  (s.dbs.filter (·.name == db)).flatMap (fun d => (s.colls.filter (·.dbId == d.id)).flatMap (pgCollRows s))

/-- `CAST(EXTRACT(EPOCH FROM timestamp_column) AS INT8)` (postgres.rs 47): the number of seconds with a fraction becomes the
nearest integer (for times after 1970, halves go up). -/
def pgSeconds (micros : Int) : Int := (micros + 500000) / 1000000

/-- `strftime('%s', 'now')` (migrations/sqlite): the fraction is cut off. -/
def sqliteSeconds (micros : Int) : Int := micros / 1000000

/-- What `system.table_versions` shows for a catalog in PostgreSQL: `get_all_versions` (default.rs 341-383). -/
def pgVersions (s : Cat) (db : String) (names : Option (List String)) : List VersionRow :=
  (allVersions s db names).map (fun r => { r with time := pgSeconds r.time })

/-- The clock reading of an operation. -/
def Op.clock : Op → Option Int
  | .createTable _ _ _ _ _ now _ => some now
  | .newVersion _ _ now _ => some now
  | _ => none

/-- The operation as SQLite sees it: its clock has seconds (migrations/sqlite, `strftime('%s', 'now')`). -/
def Op.seconds : Op → Op
  | .createTable db sch n columns uuid now ok => .createTable db sch n columns uuid (sqliteSeconds now) ok
  | .newVersion uuid v now ok => .newVersion uuid v (sqliteSeconds now) ok
  | op => op

/-- A history on PostgreSQL: the errors of the operations and the final state; with each operation what the sequences give and
a clock with microseconds. -/
def pgHistory (s : Cat) : List (Ids × Op) → Cat × List (Option CatErr)
  | [] => (s, [])
  | (i, op) :: rest =>
    let r := (postgres i).exec s op
    let q := pgHistory r.1 rest
    (q.1, r.2 :: q.2)

/-- The same history on SQLite. -/
def sqliteHistory (s : Cat) : List Op → Cat × List (Option CatErr)
  | [] => (s, [])
  | op :: rest =>
    let r := exec s op.seconds
    let q := sqliteHistory r.1 rest
    (q.1, r.2 :: q.2)

end Seafowl.Catalog
