/-
The HTTP frontend: GET (cached read), POST (read/write) and upload.

Modelled: /repo/src/frontend/http.rs 62-106 (ETag), 141-155 (`plan_to_response`), 157-233 (POST),
255-288 (GET authorisation), 289-378 (GET), 380-479 (upload, the permission and file type checks),
/repo/src/context/logical.rs 36-59 (`is_read_only`, `is_statement_read_only`), 78-330 (planning:
which kind of logical plan each kind of statement becomes), /repo/src/context/physical.rs 90-
(`create_physical_plan`: which plans are executed eagerly).

Simplified: a relational plan is a tree of scans, unary and binary operators, plus operators whose
expression contains a subquery.  SQL parsing, the execution of a writing statement, percent
decoding and SHA-256 are parameters.  DataFusion facts used (see DESIGN.md): `SELECT … INTO t` is
planned as `Ddl(CreateMemoryTable)`; `EXPLAIN ANALYZE` runs the inner plan when its stream is
executed; `TreeNode::visit` on a logical plan does not enter subqueries inside expressions.
-/
import Verif.Frontend.Auth

namespace Seafowl.Front

/-- A URI as bytes. -/
abbrev Bytes := List Nat

/-- Rows of a result. -/
abbrev Rel := List (List Int)

/-- A query as the user writes it. -/
inductive Q
  | table (name : Str)
  | const (r : Rel)
  /-- projection / filter / aggregate using function or operator `f` -/
  | op (f : Nat) (q : Q)
  | join (a b : Q)
  /-- `q` filtered or projected with an expression containing the subquery `s` -/
  | sub (f : Nat) (q s : Q)
  deriving Repr

/-- A relational logical plan with resolved tables. -/
inductive Plan
  /-- a `TableScan` of a Delta table at a given version -/
  | delta (uri : Bytes) (version : Nat)
  /-- a `TableScan` of anything else (external, remote, system table) -/
  | other (name : Str)
  | const (r : Rel)
  | op (f : Nat) (p : Plan)
  | join (a b : Plan)
  | sub (f : Nat) (p s : Plan)
  deriving Repr

/-- What a table name stands for. -/
inductive TableEntry
  | delta (uri : Bytes) (version : Nat)
  | other
  deriving Repr

/-- The state a query sees: tables by name, the contents of each version of each Delta table,
the contents of the other tables, and the meaning of the operators (functions can be redefined by
`CREATE OR REPLACE FUNCTION`). -/
structure Db where
  tables : Str → Option TableEntry
  content : Bytes → Nat → Rel
  others : Str → Rel
  fn : Nat → Rel → Rel
  fn2 : Nat → Rel → Rel → Rel

/-- An opaque writing statement, or the creation of a table from a query (`SELECT … INTO t`). -/
inductive Write
  | stmt (n : Nat)
  | ctas (name : Str) (p : Plan)
  | upload (schema table : Str) (file : Str)
  deriving Repr

/-- Parsed statements (`DFStatement`), by the arm of `create_logical_plan_from_statement`
(logical.rs 106-330) that they take. -/
inductive Stmt
  /-- `Statement::Query`, possibly a `SELECT … INTO t` -/
  | query (q : Q) (into : Option Str)
  /-- `Statement::Explain` -/
  | explain (analyze : Bool) (s : Stmt)
  /-- `Statement::ShowTables` -/
  | showTables
  /-- `Statement::ShowVariable`, `ShowColumns`, `ExplainTable` -/
  | show
  /-- INSERT, UPDATE, DELETE -/
  | dml (n : Nat)
  /-- CREATE SCHEMA/DATABASE/TABLE AS/EXTERNAL TABLE/VIEW, DROP TABLE/SCHEMA -/
  | ddl (n : Nat)
  /-- CREATE TABLE, ALTER TABLE, CREATE/DROP FUNCTION, VACUUM, TRUNCATE, CONVERT -/
  | ext (n : Nat)
  /-- COPY … TO -/
  | copy (n : Nat)
  /-- anything else: `NotImplemented` -/
  | unsupported
  deriving Repr

/-- `LogicalPlan`, by the variants the frontend distinguishes. -/
inductive LPlan
  | query (p : Plan)
  | explain (p : LPlan)
  | analyze (p : LPlan)
  | dml (w : Write)
  | ddl (w : Write)
  | ext (w : Write)
  | copy (w : Write)
  deriving Repr

/-- `is_read_only` (logical.rs 36-45). -/
def isReadOnly : LPlan → Bool
  | .dml _ => false
  | .ddl _ => false
  | .analyze _ => false
  | .ext _ => false
  | .copy _ => false
  | _ => true

/-- `is_statement_read_only` (logical.rs 47-59). -/
def isStmtReadOnly : Stmt → Bool
  | .query _ _ => true
  | .explain _ _ => true
  | .showTables => true
  | _ => false

/-- Name resolution: the logical plan of a query (`statement_to_plan`). -/
def planQ (db : Db) : Q → Except Str Plan
  | .table n =>
    match db.tables n with
    | some (.delta u v) => .ok (.delta u v)
    | some .other => .ok (.other n)
    | none => .error n
  | .const r => .ok (.const r)
  | .op f q => (planQ db q).map (.op f)
  | .join a b =>
    match planQ db a, planQ db b with
    | .ok pa, .ok pb => .ok (.join pa pb)
    | .error e, _ => .error e
    | _, .error e => .error e
  | .sub f q s =>
    match planQ db q, planQ db s with
    | .ok pq, .ok ps => .ok (.sub f pq ps)
    | .error e, _ => .error e
    | _, .error e => .error e

/-- The answer of a relational plan. -/
def evalPlan (db : Db) : Plan → Rel
  | .delta u v => db.content u v
  | .other n => db.others n
  | .const r => r
  | .op f p => db.fn f (evalPlan db p)
  | .join a b => (evalPlan db a).flatMap fun x => (evalPlan db b).map fun y => x ++ y
  | .sub f p s => db.fn2 f (evalPlan db p) (evalPlan db s)

/-- The parameters of the frontend. -/
structure Eng where
  /-- `str_to_hex_hash` -/
  hash : Str → Str
  /-- hash of the JSON text of a byte vector, hex encoded (`plan_to_etag`) -/
  hashBytes : Bytes → Str
  /-- `percent_decode_str(..).decode_utf8()` -/
  decode : Str → Option Str
  /-- `DFParser::parse_sql` -/
  parse : Str → Except Str (List Stmt)
  /-- planning of a writing statement (may fail, changes nothing) -/
  check : Db → Nat → Except Str Unit
  /-- eager execution of a writing statement inside `create_physical_plan`; may fail half way -/
  apply : Write → Db → Db × Option Str
  /-- execution of a plan below `EXPLAIN ANALYZE` by DataFusion itself -/
  dfRun : LPlan → Db → Db × Option Str
  /-- batches of a relational plan as they are streamed; a batch can be an error -/
  stream : Db → Plan → List (Except Str Rel)

/-- `create_logical_plan_from_statement` (logical.rs 78-338): the kind of plan for each kind of
statement; DataFusion's own planner handles the statement below EXPLAIN and knows neither
Seafowl's extension statements nor COPY. -/
def planStmt (E : Eng) (db : Db) : Stmt → Except Str LPlan
  | .query q none => (planQ db q).map .query
  | .query q (some n) => (planQ db q).map fun p => .ddl (.ctas n p)
  | .explain a s =>
    match s with
    | .ext _ => .error []
    | .copy _ => .error []
    | s =>
      match planStmt E db s with
      | .ok p => .ok (if a then .analyze p else .explain p)
      | .error e => .error e
  | .showTables => .ok (.query (.const []))
  | .show => .ok (.query (.const []))
  | .dml n => (E.check db n).map fun _ => .dml (.stmt n)
  | .ddl n => (E.check db n).map fun _ => .ddl (.stmt n)
  | .ext n => (E.check db n).map fun _ => .ext (.stmt n)
  | .copy n => (E.check db n).map fun _ => .copy (.stmt n)
  | .unsupported => .error []

/-- A physical plan waiting to be executed. -/
inductive Phys
  /-- `make_dummy_exec()`: everything has already been done -/
  | dummy
  | rel (p : Plan)
  | explain
  | analyze (p : LPlan)
  deriving Repr

/-- `create_physical_plan` (physical.rs 90-887): writing plans run right here and leave a dummy. -/
def physical (E : Eng) (db : Db) : LPlan → Db × Except Str Phys
  | .query p => (db, .ok (.rel p))
  | .explain _ => (db, .ok .explain)
  | .analyze p => (db, .ok (.analyze p))
  | .dml w | .ddl w | .ext w | .copy w =>
    match E.apply w db with
    | (db', none) => (db', .ok .dummy)
    | (db', some e) => (db', .error e)

/-- A response: status, batches in the body (an error text where streaming failed), ETag. -/
structure Resp where
  status : Nat
  body : List (Except Str Rel)
  etag : Option Str

/-- An answer built from an `ApiError`. -/
def errResp (e : ApiError) : Resp := { status := e.status, body := [], etag := none }

/-- `plan_to_response` (http.rs 141-155): execute and stream.  A batch that fails is turned into
text; the status is 200 whatever the stream does. -/
def execute (E : Eng) (db : Db) : Phys → Db × Resp
  | .dummy => (db, { status := 200, body := [], etag := none })
  | .rel p => (db, { status := 200, body := E.stream db p, etag := none })
  | .explain => (db, { status := 200, body := [], etag := none })
  | .analyze p =>
    match E.dfRun p db with
    | (db', none) => (db', { status := 200, body := [], etag := none })
    | (db', some e) => (db', { status := 200, body := [.error e], etag := none })

/-! ### ETag -/

/-- `i64::as_bytes`: eight bytes, little endian. -/
def le8 (v : Nat) : Bytes :=
  [v % 256, v / 256 % 256, v / 65536 % 256, v / 16777216 % 256, v / 4294967296 % 256,
   v / 1099511627776 % 256, v / 281474976710656 % 256, v / 72057594037927936 % 256]

/-- `ETagBuilderVisitor` (http.rs 64-94): URI and version of each Delta scan, in visiting order.
`visit` does not enter the subquery of an expression. -/
def etagBytes : Plan → Bytes
  | .delta u v => u ++ le8 v
  | .other _ => []
  | .const _ => []
  | .op _ p => etagBytes p
  | .join a b => etagBytes a ++ etagBytes b
  | .sub _ p _ => etagBytes p

/-- The visitor on whole logical plans: `EXPLAIN p` has `p` as its input. -/
def etagBytesL : LPlan → Bytes
  | .query p => etagBytes p
  | .explain p => etagBytesL p
  | .analyze p => etagBytesL p
  | _ => []

/-- `plan_to_etag` (http.rs 96-106). -/
def planToEtag (E : Eng) (p : LPlan) : Str := E.hashBytes (etagBytesL p)

/-! ### GET -/

/-- `GET /q/[query or hash]`. -/
structure GetReq where
  header : Option Str
  path : Str
  /-- query in the body or in the `X-Seafowl-Query` header -/
  raw : Option Str
  ifNoneMatch : Option Str

/-- `cached_read_query_authz` (http.rs 269-288), including `with_auth`. -/
def getAuthz (E : Eng) (pol : Policy) (header : Option Str) : Except ApiError Unit :=
  match headerToPrincipal E.hash header pol with
  | .error e => .error e
  | .ok pr =>
    match pol.read with
    | .off => .error .readOnlyEndpointDisabled
    | _ => if canPerform pr .read pol then .ok () else .error .readForbidden

/-- `query_or_hash.split('.').next()` (http.rs 307). -/
def upToDot (s : Str) : Str := s.takeWhile (· != '.')

/-- The query the request asks for (http.rs 309-332). -/
def getQuery (E : Eng) (r : GetReq) : Except ApiError Str :=
  let path := upToDot r.path
  match r.raw with
  | some raw =>
    match E.decode raw with
    | none => .error .queryDecode
    | some q => if path ≠ E.hash q then .error (.hashMismatch (E.hash q) path) else .ok q
  | none =>
    match E.decode path with
    | none => .error .queryDecode
    | some q => .ok q

/-- `create_logical_plan` (logical.rs 62-74): exactly one statement. -/
def planText (E : Eng) (db : Db) (sql : Str) : Except Str LPlan :=
  match E.parse sql with
  | .error e => .error e
  | .ok [s] => planStmt E db s
  | .ok _ => .error []

/-- `cached_read_query` (http.rs 297-378) after authorisation, from the decoded query on. -/
def runGet (E : Eng) (db : Db) (ifNoneMatch : Option Str) (sql : Str) : Db × Resp :=
  match planText E db sql with
  | .error e => (db, errResp (.dataFusion e))
  | .ok plan =>
    if isReadOnly plan = false then (db, errResp .notReadOnlyQuery)
    else
      let etag := planToEtag E plan
      if ifNoneMatch = some etag then (db, { status := 304, body := [], etag := none })
      else
        match physical E db plan with
        | (db', .error e) => (db', errResp (.dataFusion e))
        | (db', .ok ph) =>
          let (db'', resp) := execute E db' ph
          (db'', { resp with etag := some etag })

/-- The GET route. -/
def handleGet (E : Eng) (pol : Policy) (db : Db) (r : GetReq) : Db × Resp :=
  match getAuthz E pol r.header with
  | .error e => (db, errResp e)
  | .ok () =>
    match getQuery E r with
    | .error e => (db, errResp e)
    | .ok q => runGet E db r.ifNoneMatch q

/-! ### POST -/

/-- The statement loop of `uncached_read_write_query` (http.rs 207-214): plan and physically plan
(i.e. run, if it writes) each statement in turn; the first error ends it. -/
def runStmts (E : Eng) : Db → List Stmt → Option Phys → Db × Except Str (Option Phys)
  | db, [], last => (db, .ok last)
  | db, s :: rest, _ =>
    match planStmt E db s with
    | .error e => (db, .error e)
    | .ok plan =>
      match physical E db plan with
      | (db', .error e) => (db', .error e)
      | (db', .ok ph) => runStmts E db' rest (some ph)

/-- The permission asked for (http.rs 179-191). -/
def postAction (stmts : List Stmt) : Action :=
  if stmts.countP isStmtReadOnly = stmts.length then .read else .write

/-- The checks of `uncached_read_write_query` on a parsed request (http.rs 174-204). -/
def postGate (pr : Principal) (pol : Policy) (stmts : List Stmt) : Except ApiError Unit :=
  if stmts.isEmpty then .error .emptyMultiStatement
  else
    let reads := stmts.countP isStmtReadOnly
    if canPerform pr (postAction stmts) pol = false then
      .error .writeForbidden
    else if reads > 1 ∨ (reads = 1 ∧ stmts.getLast?.map isStmtReadOnly = some false) then
      .error .invalidMultiStatement
    else .ok ()

/-- `uncached_read_write_query` (http.rs 158-233). -/
def runPost (E : Eng) (pr : Principal) (pol : Policy) (db : Db) (sql : Str) : Db × Resp :=
  match E.parse sql with
  | .error e => (db, errResp (.dataFusion e))
  | .ok stmts =>
    match postGate pr pol stmts with
    | .error e => (db, errResp e)
    | .ok () =>
      match runStmts E db stmts none with
      | (db', .error e) => (db', errResp (.dataFusion e))
      | (db', .ok (some ph)) => execute E db' ph
      | (db', .ok none) => (db', errResp .emptyMultiStatement)

/-- The POST route: authentication, then the query. -/
def handlePost (E : Eng) (pol : Policy) (db : Db) (header : Option Str) (sql : Str) : Db × Resp :=
  match headerToPrincipal E.hash header pol with
  | .error e => (db, errResp e)
  | .ok pr => runPost E pr pol db sql

/-! ### Upload -/

/-- The part of the upload form that matters: the uploaded file's name, if there is one. -/
structure Form where
  filename : Option Str
  schema : Str
  table : Str

/-- `filename.split('.').last()`. -/
def extension (f : Str) : Str := (f.reverse.takeWhile (· != '.')).reverse

/-- `upload` (http.rs 381-479): permission first, then the form, then `file_to_table`. -/
def handleUpload (E : Eng) (pol : Policy) (db : Db) (header : Option Str) (f : Form) : Db × Resp :=
  match headerToPrincipal E.hash header pol with
  | .error e => (db, errResp e)
  | .ok pr =>
    if canPerform pr .write pol = false then (db, errResp .writeForbidden)
    else
      match f.filename with
      | none => (db, errResp (.uploadUnsupportedFileFormat []))
      | some [] => (db, errResp .uploadMissingFile)
      | some name =>
        if extension name ≠ ['c', 's', 'v'] ∧
            extension name ≠ ['p', 'a', 'r', 'q', 'u', 'e', 't'] then
          (db, errResp (.uploadUnsupportedFileFormat name))
        else
          match E.apply (.upload f.schema f.table name) db with
          | (db', none) => (db', { status := 200, body := [], etag := none })
          | (db', some e) => (db', errResp (.dataFusion e))

/-! ### All routes -/

/-- A request to the HTTP frontend. -/
inductive Request
  | get (r : GetReq)
  | post (header : Option Str) (sql : Str)
  | upload (header : Option Str) (f : Form)
  | health

/-- `filters` (http.rs 512-654): every route but the health check goes through authentication. -/
def handle (E : Eng) (pol : Policy) (db : Db) : Request → Db × Resp
  | .get r => handleGet E pol db r
  | .post h sql => handlePost E pol db h sql
  | .upload h f => handleUpload E pol db h f
  | .health => (db, { status := 200, body := [], etag := none })

end Seafowl.Front
