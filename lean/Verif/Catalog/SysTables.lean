import Verif.Catalog.Catalog

/-!
# Model of the system tables

/repo/src/system_tables.rs (the schema `system` with the tables `table_versions` and `dropped_tables`),
/repo/src/repository/default.rs 341-383 (`get_all_versions`) and 545-572 (`get_dropped_tables`).

A record batch is a list of rows of cells.  A store without these methods (the inline metastore, the
external and the empty one: catalog/mod.rs 232-238, 261-266) answers with "not implemented".
-/

namespace Seafowl.Catalog

/-- `TableVersionsResult`. -/
structure VersionRow where
  db : String
  coll : String
  table : String
  verId : Nat
  version : Int
  time : Int
deriving DecidableEq, Repr

/-- `" AND \"table\".name IN (…)"` (default.rs 368-377): no clause for an empty list. -/
def nameClause (names : Option (List String)) (n : String) : Bool :=
  match names with
  | none => true
  | some ns => if ns.isEmpty then true else ns.contains n

/-- `get_all_versions`: the inner joins from the versions. -/
def allVersions (s : Cat) (db : String) (names : Option (List String)) : List VersionRow :=
  s.vers.flatMap (fun v =>
    (s.tabs.filter (·.id == v.tableId)).flatMap (fun t =>
      (s.colls.filter (·.id == t.collId)).flatMap (fun c =>
        ((s.dbs.filter (·.id == c.dbId)).filter (fun d => d.name == db && nameClause names t.name)).map
          (fun d => { db := d.name, coll := c.name, table := t.name, verId := v.id, version := v.version, time := v.time }))))

/-- `DroppedTablesResult`; the status as its text. -/
structure DroppedRow where
  db : String
  coll : String
  table : String
  uuid : String
  status : String
  time : Int
deriving DecidableEq, Repr

/-- `get_dropped_tables`. -/
def droppedTables (rows : List DroppedRow) (db : Option String) : List DroppedRow :=
  match db with
  | none => rows
  | some n => rows.filter (·.db == n)

/-- A value of a system table. -/
inductive Cell where
  | str (s : String)
  | int (i : Int)
deriving DecidableEq, Repr

/-- The store behind the schema: the catalog database, or a store without the methods. -/
inductive SysStore where
  | repository (s : Cat) (dropped : List DroppedRow)
  | other
deriving DecidableEq, Repr

/-- The two tables. -/
inductive SysTable where
  | versions
  | dropped
deriving DecidableEq, Repr

/-- `table_names` (46-48). -/
def sysNames : List String := ["table_versions", "dropped_tables"]

/-- `table` (50-73). -/
def sysLookup (name : String) : Option SysTable :=
  if name = "table_versions" then some .versions
  else if name = "dropped_tables" then some .dropped
  else none

/-- `to_ascii_lowercase`. -/
def asciiLower (s : String) : String :=
  String.ofList (s.toList.map (fun c => if 65 ≤ c.toNat ∧ c.toNat ≤ 90 then Char.ofNat (c.toNat + 32) else c))

/-- `table_exist` (75-80). -/
def sysExists (name : String) : Bool := sysNames.contains (asciiLower name)

/-- The columns (146-156, 226-236). -/
def sysColumns : SysTable → List String
  | .versions => ["table_schema", "table_name", "table_version_id", "version", "creation_time"]
  | .dropped => ["table_schema", "table_name", "uuid", "deletion_status", "drop_time"]

/-- A row of `table_versions` (180-203). -/
def versionCells (r : VersionRow) : List Cell := [.str r.coll, .str r.table, .int r.verId, .int r.version, .int r.time]

/-- A row of `dropped_tables` (262-285). -/
def droppedCells (r : DroppedRow) : List Cell := [.str r.coll, .str r.table, .str r.uuid, .str r.status, .int r.time]

/-- `load_record_batch` (168-209, 248-291); `none` is an error. -/
def loadBatch (st : SysStore) (db : String) : SysTable → Option (List (List Cell))
  | .versions =>
    match st with
    | .repository s _ => some ((allVersions s db none).map versionCells)
    | .other => none
  | .dropped =>
    match st with
    | .repository _ ds => some ((droppedTables ds (some db)).map droppedCells)
    | .other => none

/-- `MemoryExec` with a projection: an index out of bounds is an error. -/
def projectRow (projection : Option (List Nat)) (row : List Cell) : Option (List Cell) :=
  match projection with
  | none => some row
  | some ixs => ixs.mapM (fun i => row[i]?)

/-- `scan` (117-129); filters and limit are left to DataFusion. -/
def sysScan (st : SysStore) (db : String) (t : SysTable) (projection : Option (List Nat)) : Option (List (List Cell)) :=
  match loadBatch st db t with
  | none => none
  | some rows => rows.mapM (projectRow projection)

end Seafowl.Catalog
