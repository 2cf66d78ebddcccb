/-
The outer layers of the two frontends: what is put around the answer of a handler.

Modelled: /repo/src/frontend/http.rs 53-60 (constants), 297-378 (`cached_read_query` as a
`Result`), 518-562 (CORS, request counter), 564-595 (the headers of the
GET route), 646-653 (the order of the layers), /repo/src/frontend/http_utils.rs 132-166
(`response`, `into_response`, `handle_rejection`), /repo/src/frontend/flight/metrics.rs 50-95.

Library behaviour used (warp): a filter either replies or rejects; `with(cors)` adds
`Access-Control-Allow-Origin` to replies and passes rejections on; `with(log)` calls its closure
with the status of the reply, or with the status warp itself would give to the rejection, which is
500 for a custom one; `map` sees replies only; `recover` turns a rejection into a reply.  Tonic
sends the status of a call that fails at once in a header, and of a stream at its end in a trailer.
-/
import Verif.Frontend.Http
import Verif.Frontend.Routes

namespace Seafowl.Front

open Seafowl.Store.Http (ascii)

/-! ### GET as a request of the web -/

/-- A GET request as it is sent: the address, the headers that matter and the query of a JSON body. -/
structure WebReq where
  /-- the database of the address; `none` for `/q/…` -/
  db : Option Str
  path : Str
  auth : Option Str
  queryHeader : Option Str
  body : Option Str
  contentType : Option Str
  origin : Option Str
  ifNoneMatch : Option Str

/-- What the route extracts (http.rs 574-583): the query of the body, or else of the header. -/
def WebReq.toGet (r : WebReq) : GetReq :=
  { header := r.auth, path := r.path, raw := r.body.or r.queryHeader, ifNoneMatch := r.ifNoneMatch }

/-- The databases of the server by name. -/
abbrev Dbs := Str → Db

/-- `DEFAULT_DB`. -/
def dbDefault : Str := ['d', 'e', 'f', 'a', 'u', 'l', 't']

/-- `cached_read_query` (http.rs 334-377) from the decoded query on, as a `Result`. -/
def runGetE (E : Eng) (db : Db) (ifNoneMatch : Option Str) (sql : Str) : Db × Except ApiError Resp :=
  match planText E db sql with
  | .error e => (db, .error (.dataFusion e))
  | .ok plan =>
    if isReadOnly plan = false then (db, .error .notReadOnlyQuery)
    else if ifNoneMatch = some (planToEtag E plan) then (db, .ok { status := 304, body := [], etag := none })
    else
      match physical E db plan with
      | (db', .error e) => (db', .error (.dataFusion e))
      | (db', .ok ph) =>
        ((execute E db' ph).1, .ok { (execute E db' ph).2 with etag := some (planToEtag E plan) })

/-- `cached_read_query` (http.rs 297-378). -/
def cachedReadQuery (E : Eng) (db : Db) (r : GetReq) : Db × Except ApiError Resp :=
  match getQuery E r with
  | .error e => (db, .error e)
  | .ok q => runGetE E db r.ifNoneMatch q

/-! ### layers -/

/-- An answer with the headers of the outer layers. -/
structure Answer where
  resp : Resp
  /-- `Cache-Control` -/
  cacheControl : Option Str
  /-- the names in `Vary` -/
  vary : List Str
  /-- `Access-Control-Allow-Origin` -/
  allowOrigin : Option Str

/-- A rejection: an `ApiError` of Seafowl, or one of warp with its status. -/
inductive Rejected
  | api (e : ApiError)
  | warp (status : Nat)

/-- The status warp gives to a rejection (`Rejection::status`). -/
def Rejected.warpStatus : Rejected → Nat
  | .api _ => 500
  | .warp s => s

/-- `handle_rejection` (http_utils.rs 158-166), and warp's own answer to what it passes on. -/
def Rejected.answer : Rejected → Answer
  | .api e => { resp := errResp e, cacheControl := none, vary := [], allowOrigin := none }
  | .warp s => { resp := { status := s, body := [], etag := none }, cacheControl := none, vary := [], allowOrigin := none }

/-- The names in `VARY` (http.rs 60). -/
def hAuthorization : Str := "Authorization".toList
@[inherit_doc hAuthorization] def hContentType : Str := "Content-Type".toList
@[inherit_doc hAuthorization] def hOrigin : Str := "Origin".toList
@[inherit_doc hAuthorization] def hQuery : Str := "X-Seafowl-Query".toList

/-- `VARY` (http.rs 56-60). -/
def varyNames : List Str := [hAuthorization, hContentType, hOrigin, hQuery]

/-- The last `map` of the GET route (http.rs 585-595): `Cache-Control` on what is not an error. -/
def withCacheControl (cc : Str) : Except ApiError Resp → Answer
  | .ok resp => { resp := resp, cacheControl := some cc, vary := [], allowOrigin := none }
  | .error e => { resp := errResp e, cacheControl := none, vary := [], allowOrigin := none }

/-- `.map(into_response)` of the other routes. -/
def plainAnswer (resp : Resp) : Answer := { resp := resp, cacheControl := none, vary := [], allowOrigin := none }

/-- `.with(cors)` on a reply (http.rs 518-526, 650): any origin, echoed. -/
def corsReply (origin : Option Str) (a : Answer) : Answer := { a with allowOrigin := origin }

/-- `.map(|r| with_header(r, VARY, …))` (http.rs 652). -/
def varyReply (a : Answer) : Answer := { a with vary := varyNames }

/-- http.rs 650-653: the layers around a route; the second part is the status the counter sees. -/
def layers (origin : Option Str) : Except Rejected Answer → Answer × Nat
  | .ok a => (varyReply (corsReply origin a), a.resp.status)
  | .error r => (r.answer, r.warpStatus)

/-- The GET route without the layers (http.rs 564-595). -/
def getRoute (E : Eng) (pol : Policy) (cc : Str) (S : Dbs) (r : WebReq) : Dbs × Except Rejected Answer :=
  match getAuthz E pol r.auth with
  | .error e => (S, .error (.api e))
  | .ok () =>
    let name := r.db.getD dbDefault
    let res := cachedReadQuery E (S name) r.toGet
    (fun d => if d = name then res.1 else S d, .ok (withCacheControl cc res.2))

/-- The server's answer to a GET request. -/
def serveGet (E : Eng) (pol : Policy) (cc : Str) (S : Dbs) (r : WebReq) : Dbs × Answer :=
  ((getRoute E pol cc S r).1, (layers r.origin (getRoute E pol cc S r).2).1)

/-! ### the request counter of the HTTP frontend -/

/-- `str::contains`, on bytes. -/
def contains (pat : Bytes) : Bytes → Bool
  | [] => pat.isEmpty
  | c :: rest => pat.isPrefixOf (c :: rest) || contains pat rest

/-- The label `route` (http.rs 531-538). -/
def routeLabel (path : Bytes) : Bytes :=
  if contains (ascii "/upload/") path then ascii "/upload"
  else if contains (ascii "/q") path then ascii "/q"
  else path

/-- The labels of `http_requests` (http.rs 540-547). -/
structure Series where
  method : Str
  route : Bytes
  status : Nat
  deriving DecidableEq, Repr

/-- What one request adds to `http_requests`: one to the series with these labels. -/
def httpSeries (method : Str) (path : Bytes) (origin : Option Str) (r : Except Rejected Answer) : Series :=
  { method := method, route := routeLabel path, status := (layers origin r).2 }

/-- The counter: a value for each series. -/
abbrev Counter (κ : Type) := κ → Nat

/-- `counter!(…).increment(1)`. -/
def bump {κ : Type} [DecidableEq κ] (c : Counter κ) (k : κ) : Counter κ :=
  fun k' => if k' = k then c k' + 1 else c k'

/-! ### gRPC -/

/-- The answer to a gRPC call: the `grpc-status` header, if there is one, and the status in the
trailer, which ends the stream of an answer without such a header. -/
structure GrpcAnswer where
  header : Option Nat
  trailer : Nat

/-- `MetricsService::call` (metrics.rs 50-95): the labels under which a call is counted. -/
def grpcSeries (path : Str) (r : Except Unit GrpcAnswer) : Str × Nat :=
  match r with
  | .ok a =>
    match a.header with
    | some c => (path, c)
    | none => (path, 0)
  | .error () => (path, 2)

/-! ### preflight requests -/

/-- `allow_methods` (http.rs 525). -/
def corsMethods : List Str := ["GET".toList, "POST".toList]

/-- `allow_headers` (http.rs 520-524), in lower case as browsers send them. -/
def corsHeaders : List Str := ["x-seafowl-query".toList, "authorization".toList, "content-type".toList]

/-- warp's answer to a preflight request: the method and every header must be allowed. -/
def preflightOk (method : Str) (headers : List Str) : Bool :=
  corsMethods.contains method && headers.all fun h => corsHeaders.contains h

end Seafowl.Front
