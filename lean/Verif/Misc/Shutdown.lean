import Verif.Misc.Startup

/-!
# Model of stopping the server (src/main.rs 169-262)

`Toplevel` of the library tokio-graceful-shutdown runs the frontends and the garbage collection as subsystems.  When a signal
arrives, or when a subsystem panics, it asks all of them to stop and waits for at most 5 seconds (`handle_shutdown_requests`,
main.rs 259); then those still running are aborted and the call returns an error, on which main panics (260-261).  When main ends
the runtime is dropped, with every task that was spawned and is still running.

Times are in milliseconds since the request to stop.  A request under way is given by the time it still needs, `none` if it
never ends (for instance because its client does not read).
-/

namespace Seafowl.Startup

/-- A subsystem at the moment it is asked to stop, with its requests under way. -/
inductive Sub where
  | http (reqs : List (Option Nat))
  | flight (reqs : List (Option Nat))
  | postgres (reqs : List (Option Nat))
  | gc
  /-- a frontend that panicked, for instance because its address cannot be used (`run_server`, http.rs 663-667;
  `run_flight_server`, flight/mod.rs 26-28) -/
  | failed
  deriving DecidableEq, Repr

/-- `Duration::from_secs(5)` (main.rs 259). -/
def patience : Nat := 5000

/-- The time until the last of some requests is done. -/
def lastOf : List (Option Nat) → Option Nat
  | [] => some 0
  | none :: _ => none
  | some d :: rs => (lastOf rs).map (max d)

/-- When a subsystem ends.  The HTTP server (main.rs 208-229, http.rs 656-669) and the Flight server (171-187, flight/mod.rs
43-49) take no new requests and end after the last one under way; the PostgreSQL server is dropped at once by `select!`
(201-204), its connections are tasks of their own; the loop of the garbage collection (247-251) does not look at the
request to stop. -/
def Sub.ends : Sub → Option Nat
  | .http rs | .flight rs => lastOf rs
  | .postgres _ => some 0
  | .gc => none
  | .failed => some 0

/-- The requests under way in a subsystem. -/
def Sub.reqs : Sub → List (Option Nat)
  | .http rs | .flight rs | .postgres rs => rs
  | .gc | .failed => []

/-- When all subsystems have ended. -/
def allEnd : List Sub → Option Nat
  | [] => some 0
  | s :: ss =>
    match s.ends, allEnd ss with
    | some a, some b => some (max a b)
    | _, _ => none

/-- The end of the process. -/
structure Exit where
  at_ : Nat
  /-- "Exiting cleanly." and status 0; otherwise a panic -/
  clean : Bool
  deriving DecidableEq, Repr

/-- `handle_shutdown_requests(..).await.unwrap()` (main.rs 258-262). -/
def stop (ss : List Sub) : Exit :=
  match allEnd ss with
  | some d => if d ≤ patience then ⟨d, !ss.contains .failed⟩ else ⟨patience, false⟩
  | none => ⟨patience, false⟩

/-- Is a request answered before the process ends? -/
def answered (e : Exit) : Option Nat → Bool
  | some d => d ≤ e.at_
  | none => false

/-- The subsystems that a server started with `mode` (main.rs 169-257) has, with the requests at the moment of the signal. -/
def subsystems (f : Frontends) (gc : Option Nat) (flight postgres http : List (Option Nat)) : List Sub :=
  (if f.flight then [.flight flight] else []) ++ (if f.postgres then [.postgres postgres] else []) ++
  (if f.http then [.http http] else []) ++ (if gc.isSome then [.gc] else [])

end Seafowl.Startup
