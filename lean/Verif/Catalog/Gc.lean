/-!
# Model of the garbage collection of dropped tables

/repo/src/utils.rs 49-125 (`gc_databases`), /repo/src/object_store/wrapped.rs 89-127 (`table_prefix`,
`delete_in_prefix`), /repo/src/repository/default.rs 545-596 (`dropped_table` rows).

Object paths are lists of segments.  Storage and catalog failures are given by an environment; the listing
of a prefix is taken as a snapshot.
-/

namespace Seafowl.Gc

/-- `DroppedTableDeletionStatus`. -/
inductive Status where
  | pending
  | retry
  | failed
deriving DecidableEq, Repr

/-- `dropped_table` row (the columns used). -/
structure Dropped where
  db : String
  uuid : String
  status : Status
deriving DecidableEq, Repr

/-- Object path. -/
abbrev Path := List String

/-- Catalog rows and stored objects. -/
structure State where
  dropped : List Dropped
  objs : List Path
deriving DecidableEq, Repr

/-- Failures during one run. -/
structure Env where
  /-- fetching the dropped tables fails -/
  fetchErr : Bool
  /-- the listing yields an error in place of this object -/
  listErr : Path → Bool
  /-- deleting this object fails -/
  delErr : Path → Bool
  /-- the catalog cannot be updated for this UUID -/
  catErr : String → Bool

/-- `table_prefix` (wrapped.rs 89-103): the directory of a table below the configured prefix. -/
def tablePrefix (base : Path) (uuid : String) : Path := base ++ [uuid]

/-- Is `p` an object below the prefix (`ObjectStore::list` matches whole segments). -/
def below (prefix_ p : Path) : Bool := prefix_.isPrefixOf p && p != prefix_

/-- Loop of `delete_in_prefix` (wrapped.rs 117-127) over the listing: listing errors are skipped, the first
deletion error ends it.  Result: remaining objects and success. -/
def deleteLoop (env : Env) : List Path → List Path → List Path × Bool
  | [], objs => (objs, true)
  | p :: ps, objs =>
    if env.listErr p then deleteLoop env ps objs
    else if env.delErr p then (objs, false)
    else deleteLoop env ps (objs.filter (· != p))

/-- `delete_in_prefix`. -/
def deleteInPrefix (env : Env) (objs : List Path) (prefix_ : Path) : List Path × Bool :=
  deleteLoop env (objs.filter (below prefix_)) objs

/-- Status after a failed deletion (utils.rs 83-87). -/
def afterFailure (st : Status) : Status := if st ≠ .pending then .retry else .failed

/-- Body of the loop (utils.rs 65-111) for one dropped table of the fetched list. -/
def gcStep (env : Env) (base : Path) (s : State) (d : Dropped) : State :=
  let r := deleteInPrefix env s.objs (tablePrefix base d.uuid)
  { objs := r.1
    dropped :=
      if env.catErr d.uuid then s.dropped
      else if r.2 then s.dropped.filter (·.uuid != d.uuid)
      else s.dropped.map (fun x => if x.uuid = d.uuid then { x with status := afterFailure d.status } else x) }

/-- The dropped tables a run processes: those of the database (all if none is given) that are not failed. -/
def selected (env : Env) (db : Option String) (s : State) : List Dropped :=
  if env.fetchErr then []
  else (s.dropped.filter (fun d => db.all (fun n => n == d.db))).filter (fun d => d.status != .failed)

/-- `gc_databases` (utils.rs 49-125). -/
def gc (env : Env) (base : Path) (db : Option String) (s : State) : State :=
  (selected env db s).foldl (gcStep env base) s

/-- Repeated runs. -/
def gcRuns (base : Path) : List (Env × Option String) → State → State
  | [], s => s
  | (env, db) :: rs, s => gcRuns base rs (gc env base db s)

end Seafowl.Gc
