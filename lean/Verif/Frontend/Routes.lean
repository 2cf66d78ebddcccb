import Verif.Frontend.Auth
import Verif.Store.Http

/-!
# The routes of the HTTP frontend: what a request asks for

/repo/src/frontend/http.rs 255-288 (`with_auth`, `cached_read_query_authz`), 297-332 (the query of a GET request),
380-488 (`upload`, `load_part`) and 512-654 (`filters`).

Library behaviour used (warp): a path is cut at `/`, its first and one last slash do not count, `path!` compares whole
segments and hands them over as they are, without percent decoding; a `String` parameter is not empty; a rejection with
an `ApiError` gives its status, otherwise 405 if some route has this path and 404 if none has.  Texts are UTF-8 bytes.
-/

namespace Seafowl.Routes

open Seafowl.Store.Http (percentDecode ascii)
open Seafowl.Front (ApiError Policy Principal)

abbrev Bytes := List Nat

inductive Method where
  | get | post | other
  deriving DecidableEq, Repr

/-- The text between the slashes. -/
def splitSlash : Bytes → List Bytes
  | [] => [[]]
  | c :: rest =>
    if c = 47 then [] :: splitSlash rest
    else
      match splitSlash rest with
      | [] => [[c]]
      | s :: more => (c :: s) :: more

def dropLastEmpty (l : List Bytes) : List Bytes := if l.getLast? = some [] then l.dropLast else l

def dropFirstSlash : Bytes → Bytes
  | [] => []
  | c :: rest => if c = 47 then rest else c :: rest

/-- The segments of a path as warp's filters take them. -/
def segments (path : Bytes) : List Bytes := dropLastEmpty (splitSlash (dropFirstSlash path))

/-- `DEFAULT_DB` (catalog/mod.rs). -/
def defaultDb : Bytes := ascii "default"

/-- What the path asks for. -/
inductive Target where
  /-- `GET /q/[query]`, `GET /[database]/q/[query]` -/
  | read (db query : Bytes)
  /-- `POST /q`, `POST /[database]/q` -/
  | query (db : Bytes)
  /-- `POST /upload/[schema]/[table]`, `POST /[database]/upload/[schema]/[table]` -/
  | upload (db schema table : Bytes)
  | health
  deriving DecidableEq, Repr

/-- http.rs 566-571. -/
def readRoute : List Bytes → Option Target
  | [d, q, x] => if q = ascii "q" ∧ d ≠ [] ∧ x ≠ [] then some (.read d x) else none
  | [q, x] => if q = ascii "q" ∧ x ≠ [] then some (.read defaultDb x) else none
  | _ => none

/-- http.rs 600-605. -/
def queryRoute : List Bytes → Option Target
  | [d, q] => if q = ascii "q" ∧ d ≠ [] then some (.query d) else none
  | [q] => if q = ascii "q" then some (.query defaultDb) else none
  | _ => none

/-- http.rs 621-625. -/
def uploadRoute : List Bytes → Option Target
  | [d, u, s, t] => if u = ascii "upload" ∧ d ≠ [] ∧ s ≠ [] ∧ t ≠ [] then some (.upload d s t) else none
  | [u, s, t] => if u = ascii "upload" ∧ s ≠ [] ∧ t ≠ [] then some (.upload defaultDb s t) else none
  | _ => none

/-- http.rs 636-638. -/
def healthRoute : List Bytes → Option Target
  | [h] => if h = ascii "healthz" ∨ h = ascii "readyz" then some .health else none
  | _ => none

def getRoutes (segs : List Bytes) : Option Target := (readRoute segs).or (healthRoute segs)

def postRoutes (segs : List Bytes) : Option Target := (queryRoute segs).or (uploadRoute segs)

/-- The routes in the order of http.rs 646-649; without one, the status. -/
def dispatch (m : Method) (segs : List Bytes) : Except Nat Target :=
  let own := match m with
    | .get => getRoutes segs
    | .post => postRoutes segs
    | .other => none
  match own with
  | some t => .ok t
  | none => .error (if (getRoutes segs).isSome ∨ (postRoutes segs).isSome then 405 else 404)

/-! ### the query of a GET request -/

/-- `query_or_hash.split('.').next()` (http.rs 307). -/
def upToDot (s : Bytes) : Bytes := s.takeWhile (· != 46)

/-- The query that is planned (http.rs 309-332).  `raw`: the query of the JSON body, or else of the header. -/
def readQuery (utf8 : Bytes → Bool) (hash : Bytes → Bytes) (pathQuery : Bytes) (raw : Option Bytes) :
    Except ApiError Bytes :=
  match raw with
  | some raw =>
    if utf8 (percentDecode raw) then
      if upToDot pathQuery = hash (percentDecode raw) then .ok (percentDecode raw)
      else .error (.hashMismatch [] [])
    else .error .queryDecode
  | none =>
    if utf8 (percentDecode (upToDot pathQuery)) then .ok (percentDecode (upToDot pathQuery))
    else .error .queryDecode

/-! ### the form of an upload -/

/-- A part of a multipart form; its data may not arrive. -/
structure Part where
  name : Bytes
  filename : Option Bytes
  data : Option Bytes
  deriving DecidableEq, Repr

/-- What the loop over the parts has gathered (http.rs 396-401); `file` is what `temp_path` points to. -/
structure Form (σ : Type) where
  hasHeader : Bool
  schema : Option σ
  filename : Bytes
  kind : Bytes
  file : Bytes

/-- The parameters: validity of UTF-8, the reading of a schema, whether the data fits on the disk. -/
structure Reader (σ : Type) where
  utf8 : Bytes → Bool
  parseSchema : Bytes → Option σ
  disk : Bytes → Bool

/-- `filename.split('.').last()` (http.rs 433-439). -/
def extension (f : Bytes) : Bytes := (f.reverse.takeWhile (· != 46)).reverse

/-- http.rs 406-413. -/
def headerPart {σ : Type} (R : Reader σ) (st : Form σ) (d : Bytes) : Except ApiError (Form σ) :=
  if R.utf8 d then .ok { st with hasHeader := (ascii "true").isPrefixOf d } else .error .uploadHasHeaderParse

/-- http.rs 414-422. -/
def schemaPart {σ : Type} (R : Reader σ) (st : Form σ) (d : Bytes) : Except ApiError (Form σ) :=
  if R.utf8 d then
    match R.parseSchema d with
    | some s => .ok { st with schema := some s }
    | none => .error (.uploadSchemaParse [])
  else .error (.uploadSchemaDeserialization [])

/-- http.rs 423-452. -/
def filePart {σ : Type} (R : Reader σ) (st : Form σ) (p : Part) : Except ApiError (Form σ) :=
  match p.filename with
  | none => .error .uploadMissingFile
  | some f =>
    if f = [] then .error .uploadMissingFile
    else
      match p.data with
      | none => .error (.uploadBodyLoad [])
      | some d =>
        if R.disk d then .ok { st with filename := f, kind := extension f, file := d } else .error (.io [])

/-- One turn of the loop (http.rs 403-453). -/
def part {σ : Type} (R : Reader σ) (st : Form σ) (p : Part) : Except ApiError (Form σ) :=
  if p.name = ascii "has_header" then
    match p.data with
    | none => .error (.uploadBodyLoad [])
    | some d => headerPart R st d
  else if p.name = ascii "schema" then
    match p.data with
    | none => .error (.uploadBodyLoad [])
    | some d => schemaPart R st d
  else if p.name = ascii "data" ∨ p.name = ascii "file" then filePart R st p
  else .ok st

/-- The loop (http.rs 403-453). -/
def parts {σ : Type} (R : Reader σ) : Form σ → List Part → Except ApiError (Form σ)
  | st, [] => .ok st
  | st, p :: rest =>
    match part R st p with
    | .error e => .error e
    | .ok st => parts R st rest

/-- http.rs 396-457: the form, and the check of the file type. -/
def readForm {σ : Type} (R : Reader σ) (l : List Part) : Except ApiError (Form σ) :=
  match parts R { hasHeader := true, schema := none, filename := [], kind := [], file := [] } l with
  | .error e => .error e
  | .ok st =>
    if st.kind ≠ ascii "csv" ∧ st.kind ≠ ascii "parquet" then .error (.uploadUnsupportedFileFormat [])
    else .ok st

/-! ### requests -/

structure Req where
  method : Method
  path : Bytes
  /-- the `Authorization` header -/
  auth : Option Front.Str
  /-- the query of the JSON body, if the body is such JSON -/
  json : Option Bytes
  /-- the header `X-Seafowl-Query` -/
  queryHeader : Option Bytes
  /-- the parts of the multipart form; a request with another body has none -/
  form : List Part

/-- What is asked of the context. -/
inductive Asked (σ : Type) where
  | run (db sql : Bytes)
  /-- `POST /q`: the statements are gated by the permissions of the principal (C41) -/
  | script (db : Bytes) (pr : Principal) (sql : Bytes)
  | load (db schema table : Bytes) (f : Form σ)
  | ready
  | refused (status : Nat)

/-- `cached_read_query_authz` (http.rs 267-288). -/
def readAuthz (hashToken : Front.Str → Front.Str) (pol : Policy) (header : Option Front.Str) : Except ApiError Unit :=
  match Front.headerToPrincipal hashToken header pol with
  | .error e => .error e
  | .ok pr =>
    match pol.read with
    | .off => .error .readOnlyEndpointDisabled
    | _ => if Front.canPerform pr .read pol then .ok () else .error .readForbidden

/-- `filters` (http.rs 512-654) and the beginning of the handlers. -/
def ask {σ : Type} (R : Reader σ) (hash : Bytes → Bytes) (hashToken : Front.Str → Front.Str) (pol : Policy) (r : Req) :
    Asked σ :=
  match dispatch r.method (segments r.path) with
  | .error s => .refused s
  | .ok .health => .ready
  | .ok (.read db q) =>
    match readAuthz hashToken pol r.auth with
    | .error e => .refused e.status
    | .ok () =>
      match readQuery R.utf8 hash q (r.json.or r.queryHeader) with
      | .error e => .refused e.status
      | .ok sql => .run db sql
  | .ok (.query db) =>
    match Front.headerToPrincipal hashToken r.auth pol with
    | .error e => .refused e.status
    | .ok pr =>
      match r.json with
      | none => .refused (ApiError.queryParsing []).status
      | some sql => .script db pr sql
  | .ok (.upload db s t) =>
    match Front.headerToPrincipal hashToken r.auth pol with
    | .error e => .refused e.status
    | .ok pr =>
      if Front.canPerform pr .write pol then
        match readForm R r.form with
        | .error e => .refused e.status
        | .ok f => .load db s t f
      else .refused ApiError.writeForbidden.status

end Seafowl.Routes
