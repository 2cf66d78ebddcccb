import Verif.Catalog.DropProps

/-!
# Model of DDL statements, table lookup and uploads in `SeafowlContext`

/repo/src/provider.rs 28-135 (`SeafowlDatabase`, `SeafowlSchema`), /repo/src/system_tables.rs 21-82
(`SystemSchemaProvider`), /repo/src/context/mod.rs 43-260 (`scope_to`, `reload_schema`, reference
resolution, lookups, `register_function`), /repo/src/context/delta.rs 275-468 (`create_delta_table`,
`plan_to_delta_table`, `delete_delta_table`), the DDL branches of `create_physical_plan`
(/repo/src/context/physical.rs 104-192, 486-665) and `file_to_table` (906-1005).

The metadata catalog is the model of `Verif.Catalog.Catalog`.  The object store maps a table UUID to the
Delta table at that prefix (`none`: nothing that can be loaded).  Simplifications: the catalog provider is
read from the live catalog (the code rebuilds it at the start of every statement; there is no concurrent
statement); all tables are Delta tables in the default object store, as `RepositoryStore` lists them; a Delta table is
its schema (an opaque tag) and its rows in order; only the current catalog is registered in a session, as
`reload_schema` does.
-/

namespace Seafowl.Ddl

open Seafowl.Catalog (Cat CatErr Tab Coll Db Fn)

/-- A Delta table: schema tag and rows. -/
structure Delta where
  schema : Nat
  rows : List Nat
deriving DecidableEq, Repr

/-- What a table name resolves to. -/
inductive Prov where
  | ext (id : Nat)
  | system
  | info
  | delta (uuid : Nat) (d : Delta)
deriving DecidableEq, Repr

/-- `TableReference`. -/
structure TRef where
  cat : Option String := none
  sch : Option String := none
  tab : String
deriving DecidableEq, Repr

/-- `ResolvedTableReference`. -/
structure RRef where
  cat : String
  sch : String
  tab : String
deriving DecidableEq, Repr

/-- A session: `SeafowlContext` with what it reaches.  `cat`, `data` and `ext` (the shared in-memory
staging schema of `Metastore`) are common to all sessions; `udfs`, `db` and `sch` belong to the session. -/
structure Ctx where
  cat : Cat
  data : Nat → Option Delta
  ext : List (String × Nat)
  udfs : List (String × String)
  db : String
  sch : String

/-- Errors. -/
inductive Err where
  | cat (e : CatErr)
  | noCatalog | noSchema | noTable | load | notDelta | exists_ | noStore | write | register | plan | udf | del
deriving DecidableEq, Repr

/-- The world around the session. -/
structure Env where
  /-- is a default object store configured (`get_internal_object_store`) -/
  hasStore : Bool
  /-- `TableReference::from(&str)` -/
  parse : String → TRef
  /-- does `create_udf_from_wasm` accept the stored definition -/
  udfOk : String → Bool
  /-- does creating the Delta table succeed -/
  createOk : Bool
  /-- do writing the files and the commit succeed -/
  writeOk : Bool
  /-- does deleting the objects of the table succeed -/
  delOk : Nat → Bool
  /-- what is left of the table if it does not -/
  left : Nat → Option Delta
  /-- columns of a schema tag -/
  cols : Nat → List (String × String)
  /-- clock and version number of the next commit -/
  now : Int
  ver : Int

/-- Result of a statement: the state afterwards and its outcome. -/
abbrev Res := Ctx × Except Err Unit

/-- `scope_to` (mod.rs 45-63): a fresh session state with other defaults. -/
def scopeTo (c : Ctx) (db sch : String) : Ctx := { c with udfs := [], db := db, sch := sch }

/-- `resolve_table_ref` (mod.rs 116-123). -/
def resolve (c : Ctx) (r : TRef) : RRef := ⟨r.cat.getD c.db, r.sch.getD c.sch, r.tab⟩

/-- Tables of `SystemSchemaProvider` (system_tables.rs 44-72). -/
def systemTables : List String := ["table_versions", "dropped_tables"]

/-- The tables of DataFusion's `information_schema`, which it serves before asking the catalog. -/
def infoTables : List String := ["tables", "views", "columns", "df_settings", "schemata"]

/-- `SessionContext::table_provider` through `SeafowlDatabase::schema` (provider.rs 45-53) and
`SeafowlSchema::table` (72-116). -/
def lookup (c : Ctx) (r : RRef) : Except Err Prov :=
  if r.cat ≠ c.db then .error .noCatalog
  else if r.sch = "information_schema" then
    if infoTables.contains r.tab then .ok .info else .error .noTable
  else if r.sch = "staging" then
    match c.ext.find? (·.1 == r.tab) with
    | some e => .ok (.ext e.2)
    | none => .error .noTable
  else if r.sch = "system" then
    if systemTables.contains r.tab then .ok .system else .error .noTable
  else
    match Catalog.getTable c.cat c.db r.sch r.tab with
    | .error _ => .error .noTable
    | .ok t =>
      match c.data t.uuid with
      | none => .error .load
      | some d => .ok (.delta t.uuid d)

/-- `try_get_delta_table` (mod.rs 173-185) with the UUID of the location (`get_table_uuid`, 188-217). -/
def tryDelta (c : Ctx) (r : RRef) : Except Err (Nat × Delta) :=
  match lookup c r with
  | .error e => .error e
  | .ok (.delta u d) => .ok (u, d)
  | .ok _ => .error .notDelta

/-- Put `v` at prefix `u`. -/
def setData (c : Ctx) (u : Nat) (v : Option Delta) : Ctx :=
  { c with data := fun x => if x = u then v else c.data x }

/-- `SessionContext::register_udf`. -/
def setUdf (us : List (String × String)) (n d : String) : List (String × String) := (n, d) :: us.filter (·.1 != n)

/-- The `try_for_each` of `reload_schema` (mod.rs 106-110). -/
def registerAll (env : Env) (c : Ctx) : List Fn → Res
  | [] => (c, .ok ())
  | f :: fs =>
    if env.udfOk f.details then registerAll env { c with udfs := setUdf c.udfs f.name f.details } fs
    else (c, .error .udf)

/-- `reload_schema` (mod.rs 89-113). -/
def reload (env : Env) (c : Ctx) : Res :=
  match Catalog.listFunctions c.cat c.db with
  | .error e => (c, .error (.cat e))
  | .ok fs => registerAll env c fs

/-- `resolve_staging_ref` (mod.rs 128-152); `name` is the text of the object name. -/
def resolveStaging (env : Env) (c : Ctx) (name : String) : Except Err RRef :=
  let r := env.parse name
  let x : RRef := ⟨r.cat.getD c.db, r.sch.getD "staging", r.tab⟩
  if x.cat ≠ c.db ∨ x.sch ≠ "staging" then .error .plan else .ok x

/-- `self.inner.register_table` (delta.rs 374): the schema provider of the reference must take it. -/
def canRegister (c : Ctx) (r : RRef) : Bool :=
  r.cat == c.db && r.sch != "information_schema" && r.sch != "system"

/-- `create_delta_table` with `EmptyTable` (delta.rs 276-377); `u` is the generated UUID. -/
def createDelta (env : Env) (c : Ctx) (r : RRef) (schema u : Nat) : Res :=
  if !env.hasStore then (c, .error .noStore)
  else
    match Catalog.getSchema c.cat c.db r.sch with
    | .error e => (c, .error (.cat e))
    | .ok _ =>
      if !env.createOk then (c, .error .write)
      else
        let c1 := setData c u (some ⟨schema, []⟩)
        match Catalog.createTable c1.cat c.db r.sch r.tab (env.cols schema) u env.now true with
        | (s, .error e) => ({ c1 with cat := s }, .error (.cat e))
        | (s, .ok _) =>
          if canRegister c r then ({ c1 with cat := s }, .ok ()) else ({ c1 with cat := s }, .error .register)

/-- `plan_to_delta_table` (delta.rs 380-428). -/
def planTo (env : Env) (c : Ctx) (r : RRef) (rows : List Nat) : Res :=
  match tryDelta c r with
  | .error e => (c, .error e)
  | .ok (u, d) =>
    if !env.hasStore then (c, .error .noStore)
    else if !env.writeOk then (c, .error .write)
    else
      let c1 := setData c u (some { d with rows := d.rows ++ rows })
      match Catalog.newVersion c1.cat u env.ver env.now true with
      | (s, .error e) => ({ c1 with cat := s }, .error (.cat e))
      | (s, .ok _) => ({ c1 with cat := s }, .ok ())

/-- `delete_delta_table` (delta.rs 443-461). -/
def deleteDelta (env : Env) (c : Ctx) (r : RRef) : Res :=
  match tryDelta c r with
  | .error e => (c, .error e)
  | .ok (u, _) =>
    if env.delOk u then (setData c u none, .ok ()) else (setData c u (env.left u), .error .del)

/-- Result of planning the query of `CREATE TABLE AS`: a schema and, if running it succeeds, its rows. -/
inductive Query where
  | planErr
  | rows (schema : Nat) (rows : List Nat)
deriving DecidableEq, Repr

/-- The statements.  `u` is the UUID generated for a new table. -/
inductive Stmt where
  | createExternal (name : String) (ifNotExists : Bool) (id : Nat)
  | createSchema (name : String) (ifNotExists : Bool)
  | createCatalog (name : String) (ifNotExists : Bool)
  | ctas (name : TRef) (ifNotExists orReplace : Bool) (q : Query) (u : Nat)
  | createTable (name : String) (ifNotExists orReplace : Bool) (schema u : Nat)
  | dropTable (name : TRef) (ifExists : Bool)
  | dropSchema (cat : Option String) (name : String) (ifExists : Bool)
  | createFunction (name : String) (orReplace : Bool) (details : String)
  | dropFunction (names : List String) (ifExists : Bool)
  | rename (old new : String)
deriving DecidableEq, Repr

/-- Tables of `provider.schema(name)` (provider.rs 45-53, `table_names`). -/
def schemaTables (c : Ctx) (n : String) : Option (List String) :=
  if n = "staging" then some (c.ext.map (·.1))
  else if n = "system" then some systemTables
  else
    match Catalog.getSchema c.cat c.db n with
    | .error _ => none
    | .ok coll => some ((c.cat.tabs.filter (·.collId == coll.id)).map (·.name))

/-- The loop of `DROP SCHEMA` (physical.rs 551-564). -/
def dropLoop (env : Env) (c : Ctx) (sch : String) : List String → Res
  | [] => (c, .ok ())
  | t :: ts =>
    match deleteDelta env c ⟨c.db, sch, t⟩ with
    | (c1, .error e) => (c1, .error e)
    | (c1, .ok _) =>
      match Catalog.deleteTable c1.cat c1.db sch t with
      | (s, .error e) => ({ c1 with cat := s }, .error (.cat e))
      | (s, .ok _) => dropLoop env { c1 with cat := s } sch ts

/-- Embed the result of a catalog operation. -/
def liftCat {α : Type} (c : Ctx) : Cat × Except CatErr α → Res
  | (s, .ok _) => ({ c with cat := s }, .ok ())
  | (s, .error e) => ({ c with cat := s }, .error (.cat e))

/-- `CREATE EXTERNAL TABLE` (physical.rs 104-121 and 789-850, then DataFusion's own execution, which checks
existence and registers the provider in the schema). -/
def doCreateExternal (env : Env) (c : Ctx) (name : String) (ine : Bool) (id : Nat) : Res :=
  if !env.hasStore then (c, .error .noStore)
  else
    match resolveStaging env c name with
    | .error e => (c, .error e)
    | .ok r =>
      if c.ext.any (·.1 == r.tab) then (if ine then (c, .ok ()) else (c, .error .exists_))
      else ({ c with ext := c.ext ++ [(r.tab, id)] }, .ok ())

/-- `CREATE DATABASE` (physical.rs 138-162). -/
def doCreateCatalog (c : Ctx) (name : String) (ine : Bool) : Res :=
  match Catalog.getDb c.cat name with
  | .ok _ => if ine then (c, .ok ()) else (c, .error .exists_)
  | .error _ =>
    match Catalog.createDb c.cat name with
    | (s, .error e) => ({ c with cat := s }, .error (.cat e))
    | (s, .ok _) => liftCat c (Catalog.createSchema s name "public")

/-- `CREATE TABLE AS` (physical.rs 163-192); `or_replace` is not used. -/
def doCtas (env : Env) (c : Ctx) (name : TRef) (ine : Bool) (q : Query) (u : Nat) : Res :=
  match ine, tryDelta c (resolve c name) with
  | true, .ok _ => (c, .ok ())
  | _, _ =>
    match q with
    | .planErr => (c, .error .plan)
    | .rows schema rows =>
      match createDelta env c (resolve c name) schema u with
      | (c1, .error e) => (c1, .error e)
      | (c1, .ok _) => planTo env c1 (resolve c1 name) rows

/-- `DROP TABLE` (physical.rs 486-517); `deregister_table` of a missing staging table is no error. -/
def doDropTable (env : Env) (c : Ctx) (name : TRef) (ie : Bool) : Res :=
  match ie, tryDelta c (resolve c name) with
  | true, .error _ => (c, .ok ())
  | _, _ =>
    let r := resolve c name
    if r.sch = "staging" then
      if r.cat ≠ c.db then (c, .error .noCatalog)
      else ({ c with ext := c.ext.filter (·.1 != r.tab) }, .ok ())
    else
      let c1 := (deleteDelta env c r).1
      liftCat c1 (Catalog.deleteTable c1.cat r.cat r.sch r.tab)

/-- `DROP SCHEMA` (physical.rs 518-572). -/
def doDropSchema (env : Env) (c : Ctx) (cat : Option String) (name : String) (ie : Bool) : Res :=
  if cat.getD c.db ≠ c.db then (c, .error .plan)
  else
    match schemaTables c name with
    | none => if ie then (c, .ok ()) else (c, .error .noSchema)
    | some ts =>
      match dropLoop env c name ts with
      | (c1, .error e) => (c1, .error e)
      | (c1, .ok _) => liftCat c1 (Catalog.deleteSchema c1.cat c1.db name)

/-- `ALTER TABLE RENAME` (logical.rs 189-216, physical.rs 635-665). -/
def doRename (env : Env) (c : Ctx) (old new : String) : Res :=
  let ro := resolve c (env.parse old)
  let rn := resolve c (env.parse new)
  match lookup c ro, lookup c rn with
  | .error _, _ => (c, .error .noTable)
  | .ok _, .ok _ => (c, .error .exists_)
  | .ok _, .error _ =>
    if rn.cat ≠ c.db then (c, .error .plan)
    else liftCat c (Catalog.renameTable c.cat c.db ro.sch ro.tab rn.sch rn.tab)

/-- The statement branches, after the reload. -/
def execStmt (env : Env) (c : Ctx) : Stmt → Res
  | .createExternal name ine id => doCreateExternal env c name ine id
  -- physical.rs 122-137; `if_not_exists` is not used
  | .createSchema name _ => liftCat c (Catalog.createSchema c.cat c.db name)
  | .createCatalog name ine => doCreateCatalog c name ine
  | .ctas name ine _ q u => doCtas env c name ine q u
  -- logical.rs 160-184, physical.rs 596-608; `if_not_exists` and `or_replace` are not used
  | .createTable name _ _ schema u => createDelta env c (resolve c (env.parse name)) schema u
  | .dropTable name ie => doDropTable env c name ie
  | .dropSchema cat name ie => doDropSchema env c cat name ie
  -- physical.rs 609-624: registered before it is stored
  | .createFunction name orReplace details =>
    if env.udfOk details then
      let c1 := { c with udfs := setUdf c.udfs name details }
      liftCat c1 (Catalog.createFunction c1.cat c1.db name orReplace details)
    else (c, .error .udf)
  -- physical.rs 625-633: not removed from the session
  | .dropFunction names ie => liftCat c (Catalog.deleteFunctions c.cat c.db ie names)
  | .rename old new => doRename env c old new

/-- A statement, with the reload that precedes planning (logical.rs 89). -/
def exec (env : Env) (c : Ctx) (s : Stmt) : Res :=
  match reload env c with
  | (c1, .error e) => (c1, .error e)
  | (c1, .ok _) => execStmt env c1 s

/-- Statements one after the other. -/
def run (env : Env) (c : Ctx) (ss : List Stmt) : Ctx := ss.foldl (fun c s => (exec env c s).1) c

/-! ### upload -/

/-- An uploaded file: is its type supported, the schema that came with the request, the schema inferred from
it (`none`: inference fails), and its rows when read with a schema. -/
structure File where
  supported : Bool
  own : Option Nat
  infer : Option Nat
  read : Nat → List Nat

/-- Existence check of `file_to_table` (physical.rs 920-951): the table is looked up by its bare name. -/
def uploadCheck (env : Env) (c : Ctx) (sch tab : String) : Ctx × Except Err (Option Nat × Bool) :=
  match schemaTables c sch with
  | some _ =>
    match lookup c (resolve c (env.parse tab)) with
    | .ok (.delta _ d) => (c, .ok (some d.schema, true))
    | .ok (.ext id) => (c, .ok (some id, true))
    | .ok _ => (c, .ok (none, true))
    | .error _ => (c, .ok (none, false))
  | none =>
    match Catalog.createSchema c.cat c.db sch with
    | (s, .error e) => ({ c with cat := s }, .error (.cat e))
    | (s, .ok _) =>
      match reload env { c with cat := s } with
      | (c1, .error e) => (c1, .error e)
      | (c1, .ok _) => (c1, .ok (none, false))

/-- `file_to_table` (physical.rs 906-1005).  An external or system table found by the check contributes its
own schema tag (its `id`; for system tables none is modelled). -/
def upload (env : Env) (c : Ctx) (f : File) (sch tab : String) (u : Nat) : Res :=
  match reload env c with
  | (c0, .error e) => (c0, .error e)
  | (c0, .ok _) =>
    match uploadCheck env c0 sch tab with
    | (c1, .error e) => (c1, .error e)
    | (c1, .ok (ts, ex)) =>
      if !f.supported then (c1, .error .plan)
      else
        match (ts.or f.own).or f.infer with
        | none => (c1, .error .plan)
        | some s =>
          let r : RRef := ⟨c1.db, sch, tab⟩
          if ex then planTo env c1 r (f.read s)
          else
            match createDelta env c1 r s u with
            | (c2, .error e) => (c2, .error e)
            | (c2, .ok _) => planTo env c2 r (f.read s)

end Seafowl.Ddl
