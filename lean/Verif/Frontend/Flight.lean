/-
The Arrow Flight frontend: result tickets and the first-sync flag.

Modelled: /repo/src/frontend/flight/handler.rs 66-119 (`query_to_stream`), 121-134
(`fetch_stream`), 136-146 and the return points of `process_sync_cmd` (147-236);
/repo/src/frontend/flight/sql.rs 85-110, 150-180 (`get_flight_info_statement`, `do_get_statement`).
`DashMap::insert`/`remove` and the atomic load and store are single steps; everything else in a
request touches neither the map nor the flag.
-/
namespace Seafowl.Flight

/-! ### Tickets -/

/-- `results: DashMap<String, Mutex<Stream>>`, newest entry first; `τ` is the type of streams. -/
abbrev Results (τ : Type) := List (Nat × τ)

/-- `DashMap::insert`: replaces an entry of the same key. -/
def Results.insert {τ : Type} (m : Results τ) (id : Nat) (s : τ) : Results τ :=
  (id, s) :: m.filter (fun e => e.1 ≠ id)

/-- `DashMap::remove` as used by `fetch_stream` (handler.rs 121-134): the stream, or `None`, which
becomes `Status::not_found`. -/
def Results.remove {τ : Type} (m : Results τ) (id : Nat) : Option τ × Results τ :=
  ((m.find? (fun e => e.1 = id)).map (fun e => e.2), m.filter (fun e => e.1 ≠ id))

/-- A request, as seen by the result map: a query that was planned and started (its id and stream),
a query that failed before that (handler.rs 92-101), or a fetch. -/
inductive Op (τ : Type)
  | query (id : Nat) (s : τ)
  | queryFailed (id : Nat)
  | fetch (id : Nat)

/-- Effect of one request and, for a fetch, its answer. -/
def stepOp {τ : Type} (m : Results τ) : Op τ → Results τ × Option (Option τ)
  | .query id s => (m.insert id s, none)
  | .queryFailed _ => (m, none)
  | .fetch id => ((m.remove id).2, some (m.remove id).1)

/-- The map after a list of requests, in the order in which they reached the map. -/
def runOps {τ : Type} (m : Results τ) : List (Op τ) → Results τ
  | [] => m
  | o :: rest => runOps (stepOp m o).1 rest

/-- The answer to a fetch of `id` after the requests `hist`, on a fresh server. -/
def fetchAfter {τ : Type} (hist : List (Op τ)) (id : Nat) : Option τ :=
  ((runOps [] hist).remove id).1

/-! ### The first-sync flag -/

/-- `first_sync` and what each request has read from it so far. -/
structure FlagState where
  flag : Bool
  seen : Nat → Option Bool

/-- The two atomic steps of a request (handler.rs 142-146). -/
inductive FlagStep
  | load (i : Nat)
  /-- `store(false)`; a request gets here only if it loaded `true` -/
  | store (i : Nat)
  deriving Repr, DecidableEq

/-- One atomic step; a step the request is not at does nothing. -/
def flagStep (st : FlagState) : FlagStep → FlagState
  | .load i =>
    if st.seen i = none then
      { st with seen := fun j => if j = i then some st.flag else st.seen j }
    else st
  | .store i => if st.seen i = some true then { st with flag := false } else st

/-- A fresh process (handler.rs 59). -/
def flagInit : FlagState := { flag := true, seen := fun _ => none }

/-- Any interleaving of steps. -/
def runFlag (st : FlagState) : List FlagStep → FlagState
  | [] => st
  | s :: rest => runFlag (flagStep st s) rest

/-- The first field of the response: what request `i` loaded. -/
def reported (tr : List FlagStep) (i : Nat) : Option Bool := (runFlag flagInit tr).seen i

/-- Requests handled one at a time: new flag and the `first` field of each response, `none` when
the request ends in an error (handler.rs 196, 207, 217, 219), by which time the flag is cleared. -/
def processAll (flag : Bool) : List Bool → List (Option Bool)
  | [] => []
  | ok :: rest => (if ok then some flag else none) :: processAll false rest

end Seafowl.Flight
