import Verif.Frontend.Flight
import Verif.Sync.Writer

/-
# The requests of the Arrow Flight frontend and their answers

Modelled: /repo/src/frontend/flight/sql.rs 85-106 (`get_flight_info_statement`), 109-148
(`get_flight_info_fallback`), 151-178 (`do_get_statement`), 182-234 (`do_put_fallback`);
/repo/src/frontend/flight/handler.rs 66-121 (`query_to_stream`), 124-134 (`fetch_stream`), 136-237 (`process_sync_cmd`
with its `first` flag and the ways in which the target of a request can fail).

Requests are taken one at a time here (for the races on the flag see `Flight.lean`).  The library gives: the
decoded command, the record batches of the stream, the outcome of planning and starting a query.
Texts of errors are left out.
-/
namespace Seafowl.Flight

open Seafowl.Sync (World Env Msg Outcome Origin)

/-- gRPC status codes. -/
inductive Code
  | invalidArgument | internal | notFound
  /-- whatever the library makes of an error in the stream of batches (sql.rs 195-199) -/
  | stream (n : Nat)
  deriving DecidableEq, Repr

/-- An answer: a result, a status other than OK, or a panic, which ends the request without either. -/
inductive Answer (α : Type)
  | ok (a : α)
  | status (c : Code)
  | panic
  deriving DecidableEq, Repr

/-! ### DoPut -/

/-- `DataSyncCommand`; `target` is the URL of the table, or `none` if the location does not parse or no store can be
made for it (handler.rs 168-188). -/
structure Cmd where
  target : Option String
  iceberg : Bool
  origin : Origin
  sequence : Option Nat

/-- A DoPut request: the command if it can be decoded (sql.rs 188-192), the batches or the error of their stream
(195-199), and what `SyncSchema::try_new` makes of the column descriptors and the schema of the first batch (201-213). -/
structure Put (σ β : Type) where
  cmd : Option Cmd
  batches : Except Nat (List β)
  schema : Option σ
  /-- `SyncSchema::empty()` -/
  noSchema : σ

/-- `DataSyncResponse`. -/
structure PutResp where
  accepted : Bool
  memory : Option Nat
  durable : Option Nat
  first : Bool
  deriving DecidableEq, Repr

/-- `SyncError` as far as the caller tells apart. -/
inductive SyncErr
  | invalidMessage
  | other
  deriving DecidableEq, Repr

variable {σ β : Type}

/-- `process_sync_cmd` (handler.rs 136-237): new state, new flag, result. -/
def processCmd (env : Env σ β) (W : World σ β) (flag : Bool) (c : Cmd) (schema : σ) (batches : List β) (now : Nat) (lock : Bool)
    (outs : List Outcome) : World σ β × Bool × Except SyncErr PutResp :=
  if Seafowl.Sync.rowsOfBatches env batches = 0 ∧ c.sequence = none then
    (W, false, .ok ⟨true, W.w.originMemory c.origin, W.w.originDurable c.origin, flag⟩)
  else if c.iceberg then (W, false, .error .other)
  else
    match c.target with
    | none => (W, false, .error .other)
    | some url =>
      let r := Seafowl.Sync.processSync env W ⟨url, false, c.origin, c.sequence, schema, batches⟩ now lock outs
      (r.1, false,
        match r.2 with
        | .accepted m d => .ok ⟨true, m, d, flag⟩
        | .notAccepted => .ok ⟨false, none, none, flag⟩
        | .invalid _ => .error .invalidMessage
        | _ => .error .other)

/-- The schema for a request (sql.rs 201-213). -/
def putSchema (p : Put σ β) (batches : List β) : Option σ :=
  match batches with
  | [] => some p.noSchema
  | _ :: _ => p.schema

/-- The status for a failed command (sql.rs 217-227). -/
def putStatus : SyncErr → Code
  | .invalidMessage => .invalidArgument
  | .other => .internal

/-- The answer to a command that was processed (sql.rs 215-233). -/
def putAnswer : Except SyncErr PutResp → Answer PutResp
  | .ok r => .ok r
  | .error e => .status (putStatus e)

/-- `do_put_fallback` (sql.rs 182-234). -/
def doPut (env : Env σ β) (W : World σ β) (flag : Bool) (p : Put σ β) (now : Nat) (lock : Bool) (outs : List Outcome) :
    World σ β × Bool × Answer PutResp :=
  match p.cmd with
  | none => (W, flag, .status .invalidArgument)
  | some c =>
    match p.batches with
    | .error n => (W, flag, .status (.stream n))
    | .ok bs =>
      match putSchema p bs with
      | none => (W, flag, .status .invalidArgument)
      | some s =>
        let r := processCmd env W flag c s bs now lock outs
        (r.1, r.2.1, putAnswer r.2.2)

/-! ### queries -/

/-- The library: planning and starting a query in the given schema (`none`: the default one) with an inlined metastore
or (`none`) the one of the server. -/
abbrev Plan (M τ : Type) := String → Option String → Option M → Except Unit τ

/-- The `search-path` header: absent, not text, or text (handler.rs 73-84). -/
inductive Header
  | absent
  | garbled
  | text (s : String)
  deriving DecidableEq, Repr

/-- `query_to_stream` (handler.rs 66-121): the map of results and the ticket. -/
def queryToStream {M τ : Type} (plan : Plan M τ) (m : Results τ) (q : String) (id : Nat) (h : Header) (store : Option M) :
    Results τ × Option Nat :=
  match h with
  | .garbled => (m, none)
  | .absent =>
    match plan q none store with
    | .ok s => (m.insert id s, some id)
    | .error _ => (m, none)
  | .text sp =>
    match plan q (some sp) store with
    | .ok s => (m.insert id s, some id)
    | .error _ => (m, none)

/-- `map_err(|e| Status::internal(e.to_string()))` (sql.rs 101, 143). -/
def infoAnswer : Option Nat → Answer Nat
  | some t => .ok t
  | none => .status .internal

/-- `get_flight_info_statement` (sql.rs 85-106). -/
def getInfo {M τ : Type} (plan : Plan M τ) (m : Results τ) (q : String) (id : Nat) (h : Header) : Results τ × Answer Nat :=
  ((queryToStream plan m q id h none).1, infoAnswer (queryToStream plan m q id h none).2)

/-- The command of the fallback: undecodable, or a query with or without a list of schemas (a message field, which the
wire format lets a client omit). -/
inductive Inline (M : Type)
  | undecodable
  | query (q : String) (schemas : Option M)

/-- `get_flight_info_fallback` (sql.rs 109-148); `expect` in 132. -/
def getInfoInline {M τ : Type} (plan : Plan M τ) (m : Results τ) (c : Inline M) (id : Nat) (h : Header) : Results τ × Answer Nat :=
  match c with
  | .undecodable => (m, .status .invalidArgument)
  | .query _ none => (m, .panic)
  | .query q (some s) => ((queryToStream plan m q id h (some s)).1, infoAnswer (queryToStream plan m q id h (some s)).2)

/-- `do_get_statement` (sql.rs 151-178). -/
def doGet {τ : Type} (m : Results τ) (id : Nat) : Results τ × Answer τ :=
  ((m.remove id).2, match (m.remove id).1 with | some s => .ok s | none => .status .notFound)

end Seafowl.Flight
