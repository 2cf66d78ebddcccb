import Verif.Catalog.Catalog

/-!
# Catalog operations of several sessions at the same time (C127)

An operation of `RepositoryStore` (/repo/src/catalog/repository.rs) is not one SQL statement.  It first looks
up the identifier of a database, schema or table by its name and then changes the row with that identifier
(`create` 93-114, 199-226, 399-425, `delete` 73-88, 179-194, 340-358, 439-467, `update` 286-338,
`delete_old_versions` 264-273); `create_table` and `create_new_version` of the repository
(/repo/src/repository/default.rs 228-281, 299-339) commit their rows before they write the columns.  No
transaction and no lock spans these calls, and each of them awaits the database, so calls of other sessions
run in between (PostgreSQL: up to 16 connections, postgres.rs 70; SQLite: one connection that is taken anew by
every call, sqlite.rs 62).

`step` is one such call.  A schedule is a list of operation numbers: the order in which the calls of the
operations reach the database.  Simplified: a call is atomic (a single statement or a transaction of
statements; isolation levels of PostgreSQL are not modelled), and rows get identifiers as SQLite gives them.
-/

namespace Seafowl.Catalog.Concurrent

open Seafowl.Catalog

/-- How far an operation is. -/
inductive Stage where
  /-- Nothing was asked yet. -/
  | start
  /-- It holds the identifier it looked up first. -/
  | held (id : Nat)
  /-- `TableStore::update`: it holds the table and the schema to move it to. -/
  | held2 (id coll : Nat)
  /-- `create_table`: table and version are committed, the columns are not written. -/
  | cols (vid : Nat)
  /-- `create_new_version`: the version is committed, the columns of `last` are not copied. -/
  | copy (last vid : Nat)
  /-- It has returned. -/
  | done (e : Option CatErr)
deriving DecidableEq, Repr

/-- `INSERT INTO table_column ... VALUES` (default.rs 259-277), with the constraints of the table
(/repo/migrations/sqlite: `UNIQUE (table_version_id, name)`, the reference to `table_version`). -/
def insertCols (s : Cat) (cs : List Col) (vid : Nat) (distinct : Bool) : Cat × Except RepoErr Unit :=
  if !distinct || cs.any (fun c => s.cols.any (fun d => d.verId == vid && d.name == c.name)) then (s, .error .unique)
  else if !cs.isEmpty && !s.vers.any (·.id == vid) then (s, .error .fk)
  else ({ s with cols := s.cols ++ cs }, .ok ())

/-- The transaction of `create_table` (default.rs 235-257). -/
def insertTab (s : Cat) (collId : Nat) (n : String) (uuid : Nat) (now : Int) : Cat × Except RepoErr Nat :=
  if s.tabs.any (fun t => t.name == n && t.collId == collId) then (s, .error .unique)
  else if !s.colls.any (·.id == collId) then (s, .error .fk)
  else
    let tid := newId (s.tabs.map (·.id))
    let vid := newId (s.vers.map (·.id))
    ({ s with
      tabs := s.tabs ++ [{ id := tid, collId := collId, name := n, uuid := uuid }]
      vers := s.vers ++ [{ id := vid, tableId := tid, version := 0, time := now }] }, .ok vid)

/-- The transaction of `create_new_version` (default.rs 314-327). -/
def insertVer (s : Cat) (last : Nat) (version now : Int) : Cat × Except RepoErr Nat :=
  match s.vers.find? (·.id == last) with
  | none => (s, .error .notFound)
  | some v =>
    let vid := newId (s.vers.map (·.id))
    ({ s with vers := s.vers ++ [{ id := vid, tableId := v.tableId, version := version, time := now }] }, .ok vid)

/-- The error of a looked up identifier, or the identifier. -/
def heldOf {α : Type} (s : Cat) (idOf : α → Nat) : Except CatErr α → Cat × Stage
  | .ok a => (s, .held (idOf a))
  | .error e => (s, .done (some e))

/-- The first call of an operation. -/
def first (s : Cat) : Op → Cat × Stage
  | .createDb n =>
    match repoCreateDb s n with
    | (s', .ok _) => (s', .done none)
    | (s', .error .unique) => (s', .done (some (.catalogAlreadyExists n)))
    | (s', .error e) => (s', .done (some (genericErr e)))
  | .deleteDb n => heldOf s Db.id (getDb s n)
  | .createSchema db n => if n = staging then (s, .done (some .usedStagingSchema)) else heldOf s Db.id (getDb s db)
  | .deleteSchema db n => heldOf s Coll.id (getSchema s db n)
  | .createTable db sch _ _ _ _ _ => heldOf s Coll.id (getSchema s db sch)
  | .newVersion uuid _ _ _ =>
    match lastVersion s uuid with
    | none => (s, .done (some .sqlx))
    | some last => (s, .held last)
  | .deleteOldVersions db sch n => heldOf s Tab.id (getTable s db sch n)
  | .renameTable db os on _ _ => heldOf s Tab.id (getTable s db os on)
  | .deleteTable db sch n => heldOf s Tab.id (getTable s db sch n)
  | .createFunction db _ _ _ => heldOf s Db.id (getDb s db)
  | .deleteFunctions db _ _ => heldOf s Db.id (getDb s db)

/-- The end of `TableStore::update` (309-337). -/
def rename (s : Cat) (id : Nat) (coll : Option Nat) (on ns nn : String) : Cat × Stage :=
  match repoRename s id nn coll with
  | (s', .ok _) => (s', .done none)
  | (s', .error .fk) => (s', .done (some (.schemaDoesNotExist ns)))
  | (s', .error .unique) => (s', .done (some (.tableAlreadyExists nn)))
  | (s', .error .notFound) => (s', .done (some (.tableDoesNotExist on)))
  | (s', .error e) => (s', .done (some (genericErr e)))

/-- The second call of an operation, on the identifier it holds. -/
def second (s : Cat) (id : Nat) : Op → Cat × Stage
  | .createDb _ => (s, .done none)
  | .deleteDb n =>
    match repoDeleteDb s id with
    | (s', .ok _) => (s', .done none)
    | (s', .error .notFound) => (s', .done (some (.catalogDoesNotExist n)))
    | (s', .error e) => (s', .done (some (genericErr e)))
  | .createSchema _ n =>
    match repoCreateColl s id n with
    | (s', .ok _) => (s', .done none)
    | (s', .error .unique) => (s', .done (some (.schemaAlreadyExists n)))
    | (s', .error e) => (s', .done (some (genericErr e)))
  | .deleteSchema _ n =>
    match repoDeleteColl s id with
    | (s', .ok _) => (s', .done none)
    | (s', .error .notFound) => (s', .done (some (.schemaDoesNotExist n)))
    | (s', .error e) => (s', .done (some (genericErr e)))
  | .createTable _ sch n columns uuid now _ =>
    match insertTab s id n uuid now with
    | (s', .ok vid) => (s', if columns.isEmpty then .done none else .cols vid)
    | (s', .error .unique) => (s', .done (some (.tableAlreadyExists n)))
    | (s', .error .fk) => (s', .done (some (.schemaDoesNotExist sch)))
    | (s', .error e) => (s', .done (some (genericErr e)))
  | .newVersion uuid version now _ =>
    match insertVer s id version now with
    | (s', .ok vid) => (s', .copy id vid)
    | (s', .error .notFound) => (s', .done (some (.tableUuidDoesNotExist uuid)))
    | (s', .error e) => (s', .done (some (genericErr e)))
  | .deleteOldVersions _ _ _ => (repoDeleteOld s id, .done none)
  | .renameTable db os on ns nn =>
    if ns ≠ os then
      match getSchema s db ns with
      | .error e => (s, .done (some e))
      | .ok c => (s, .held2 id c.id)
    else rename s id none on ns nn
  | .deleteTable _ _ n =>
    match repoDeleteTab s id with
    | (s', .ok _) => (s', .done none)
    | (s', .error .notFound) => (s', .done (some (.tableDoesNotExist n)))
    | (s', .error e) => (s', .done (some (genericErr e)))
  | .createFunction db n o d =>
    match repoCreateFn s id n o d with
    | (s', .ok _) => (s', .done none)
    | (s', .error .fk) => (s', .done (some (.catalogDoesNotExist db)))
    | (s', .error .unique) => (s', .done (some (.functionAlreadyExists n)))
    | (s', .error e) => (s', .done (some (genericErr e)))
  | .deleteFunctions db ifExists names =>
    match repoDropFn s id names with
    | (s', .ok _) => (s', .done none)
    | (s', .error .fk) => (s', .done (some (.catalogDoesNotExist db)))
    | (s', .error .notFound) => (s', .done (if ifExists then none else some (.functionNotFound names)))
    | (s', .error e) => (s', .done (some (genericErr e)))

/-- The columns of `create_table` (default.rs 259-277), errors as in `TableStore::create` (207-225). -/
def writeCols (s : Cat) (vid : Nat) : Op → Cat × Stage
  | .createTable _ sch n columns _ _ ok =>
    if !ok then (s, .done (some .sqlx))
    else
      match insertCols s (columns.map (fun c => { verId := vid, name := c.1, typ := c.2 })) vid (distinctNames columns) with
      | (s', .ok _) => (s', .done none)
      | (s', .error .unique) => (s', .done (some (.tableAlreadyExists n)))
      | (s', .error .fk) => (s', .done (some (.schemaDoesNotExist sch)))
      | (s', .error e) => (s', .done (some (genericErr e)))
  | _ => (s, .done none)

/-- The columns of `create_new_version` (default.rs 329-336). -/
def copyCols (s : Cat) (last vid : Nat) : Op → Cat × Stage
  | .newVersion _ _ _ ok =>
    if !ok then (s, .done (some .sqlx))
    else
      match insertCols s ((s.cols.filter (·.verId == last)).map (fun c => { c with verId := vid })) vid true with
      | (s', .ok _) => (s', .done none)
      | (s', .error e) => (s', .done (some (genericErr e)))
  | _ => (s, .done none)

/-- The next call of an operation. -/
def step (s : Cat) (op : Op) : Stage → Cat × Stage
  | .start => first s op
  | .held id => second s id op
  | .held2 id coll =>
    match op with
    | .renameTable _ _ on ns nn => rename s id (some coll) on ns nn
    | _ => (s, .done none)
  | .cols vid => writeCols s vid op
  | .copy last vid => copyCols s last vid op
  | .done e => (s, .done e)

/-- The database and the stage of every operation. -/
structure Conf where
  cat : Cat
  stage : Nat → Stage

/-- Operation number `i` makes its next call. -/
def call (ops : Nat → Op) (c : Conf) (i : Nat) : Conf :=
  let r := step c.cat (ops i) (c.stage i)
  { cat := r.1, stage := fun j => if j = i then r.2 else c.stage j }

/-- Before any call. -/
def initial (s : Cat) : Conf := { cat := s, stage := fun _ => .start }

/-- The calls of a schedule. -/
def interleave (ops : Nat → Op) (c : Conf) (schedule : List Nat) : Conf := schedule.foldl (call ops) c

end Seafowl.Catalog.Concurrent
