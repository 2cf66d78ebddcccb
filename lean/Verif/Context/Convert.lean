import Verif.Context.StmtProps

/-!
# Model of `CONVERT 'location' TO DELTA name`

/repo/src/datafusion/parser.rs 188-204 (`parse_convert`; the grammar is in `Verif.Sql.Parser`), /repo/src/context/logical.rs
311-323, /repo/src/context/physical.rs 580-594 and `create_delta_table` with `FromPath` (/repo/src/context/delta.rs 275-380).

`ConvertToDeltaBuilder` belongs to the delta-rs crate.  Its behaviour is taken as follows: a location with a Delta log is
refused; otherwise the visible Parquet files are listed, there must be one, none may be in a partition directory (no
partition columns are declared), their schemas must merge, and the first commit of the new log adds all of them.  The
textual form of UUIDs and the merge of schemas are parameters.
-/

namespace Seafowl.Ddl

/-- An object below the prefix of a table. -/
structure PFile where
  /-- is it a Parquet file the builder lists -/
  parquet : Bool
  /-- is it in a partition directory (`a=1/`) -/
  partitioned : Bool
  schema : Nat
  rows : List Nat
deriving DecidableEq, Repr

/-- What is known of locations. -/
structure Locs where
  /-- `Uuid::try_parse` of the location (delta.rs 322) -/
  uuid : String → Option Nat
  /-- the objects below the prefix of a UUID -/
  files : Nat → List PFile
  /-- is there a log that cannot be loaded -/
  broken : Nat → Bool
  /-- `Schema::try_merge` of the files -/
  merge : List Nat → Option Nat

/-- Outcome of `ConvertToDeltaBuilder`. -/
inductive Built where
  | table (d : Delta)
  /-- "The given location is already a delta table location" -/
  | already
  | failed
deriving DecidableEq, Repr

/-- The files that become part of the table. -/
def dataFiles (L : Locs) (u : Nat) : List PFile := (L.files u).filter (·.parquet)

/-- `ConvertToDeltaBuilder` at the prefix `u` (delta.rs 330-338). -/
def build (env : Env) (L : Locs) (c : Ctx) (u : Nat) : Built :=
  if (c.data u).isSome || L.broken u then .already
  else if (dataFiles L u).isEmpty then .failed
  else if (dataFiles L u).any (·.partitioned) then .failed
  else
    match L.merge ((dataFiles L u).map (·.schema)) with
    | none => .failed
    | some s => if env.createOk then .table ⟨s, (dataFiles L u).flatMap (·.rows)⟩ else .failed

/-- delta.rs 345-354: the table at a location that is already one is loaded and nothing else is done. -/
def loadExisting (c : Ctx) (u : Nat) : Res :=
  match c.data u with
  | some _ => (c, .ok ())
  | none => (c, .error .load)

/-- delta.rs 361-379: the table is entered into the catalog and registered. -/
def enter (env : Env) (c : Ctx) (r : RRef) (u : Nat) (d : Delta) : Res :=
  match Catalog.createTable c.cat c.db r.sch r.tab (env.cols d.schema) u env.now true with
  | (s, .error e) => ({ setData c u (some d) with cat := s }, .error (.cat e))
  | (s, .ok _) =>
    if canRegister c r then ({ setData c u (some d) with cat := s }, .ok ())
    else ({ setData c u (some d) with cat := s }, .error .register)

/-- `create_delta_table` with `FromPath` (delta.rs 280-379). -/
def convertDelta (env : Env) (L : Locs) (c : Ctx) (r : RRef) (loc : String) : Res :=
  if !env.hasStore then (c, .error .noStore)
  else
    match Catalog.getSchema c.cat c.db r.sch with
    | .error e => (c, .error (.cat e))
    | .ok _ =>
      match L.uuid loc with
      | none => (c, .error .plan)
      | some u =>
        match build env L c u with
        | .failed => (c, .error .write)
        | .already => loadExisting c u
        | .table d => enter env c r u d

/-- The statement `CONVERT 'loc' TO DELTA name`, with the reload that precedes planning. -/
def convert (env : Env) (L : Locs) (c : Ctx) (loc name : String) : Res :=
  match reload env c with
  | (c1, .error e) => (c1, .error e)
  | (c1, .ok _) => convertDelta env L c1 (resolve c1 (env.parse name)) loc

end Seafowl.Ddl
