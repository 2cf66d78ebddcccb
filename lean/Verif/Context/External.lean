import Verif.Misc.StoreOpts

/-!
# External tables and the stores they read from

Modelled: /repo/src/context/physical.rs 108-122 (`CREATE EXTERNAL TABLE`), 775-855
(`prepare_create_external_table`), 498-507 (`DROP TABLE` in the staging schema),
/repo/object_store_factory/src/google.rs 30-40 (`from_bucket_and_options`), 65-81,
/repo/src/object_store/factory.rs 23-41 (`build_object_store`), and what DataFusion does with the
prepared statement: it looks whether the name is taken, then lists the files at the location, then
registers the table.  A listing table keeps its URL; whenever it is read DataFusion asks the runtime
environment for the store registered for scheme and host of this URL.

The runtime environment is shared by all sessions and databases (`scope_to`, context/mod.rs 44-63, hands
it on), as is the staging schema, so there is one state.  The chunk cache in front of a store is left out
(C22).  Stores for other schemes than S3 and GCS are registered at the start (http.rs 504-528) or built
into DataFusion and are never replaced.
-/
namespace Seafowl.External
open StoreOpts

inductive Scheme where
  | s3 | gcs
  /-- local files, HTTP, memory -/
  | other (n : Nat)
  deriving DecidableEq, Repr

/-- `ObjectStoreConfig` as far as it is looked at here. -/
inductive Internal where
  | s3 (c : S3Config)
  | gcs (c : GCSConfig)
  | other
  deriving DecidableEq, Repr

/-- A store that can be read from. -/
inductive Store where
  | s3 (s : S3Store)
  | gcs (bucket : String) (credentials : Option String)
  | builtin (n : Nat) (host : String)
  deriving DecidableEq, Repr

/-- A location: scheme, host (the bucket; a URL may have none) and path. -/
structure Loc where
  scheme : Scheme
  host : Option String
  path : String
  deriving DecidableEq, Repr

/-- The statement, with the name in the staging schema it resolves to (`resolve_staging_ref`). -/
structure Cmd where
  name : String
  loc : Loc
  options : Map
  ifNotExists : Bool
  deriving DecidableEq, Repr

inductive Err where
  | error | panic | noStore | exists_ | notFound | badOption
  deriving DecidableEq, Repr

/-- Outside: the internal store (`none`: not configured), the files every store shows at a path, whether
a GCS store can be built (its credentials are read from a file), and the format options DataFusion takes. -/
structure Env where
  internal : Option Internal
  files : Store → String → Option Nat
  gcsOk : GCSConfig → Bool
  formatOk : Map → Bool

/-- The stores registered in the runtime environment, and the staging schema. -/
structure Rt where
  reg : Scheme → String → Option Store
  ext : List (String × Loc)

/-- At the start. -/
def Rt.start : Rt where
  reg sch host := match sch with
    | .other n => some (.builtin n host)
    | _ => none
  ext := []

/-- `GCSConfig::from_bucket_and_options` (google.rs 30-40). -/
def gcsFromBucketAndOptions (bucket : String) (m : Map) : GCSConfig × Map :=
  let (credentials, m) := m.remove "format.google_application_credentials"
  ({ bucket, pathPrefix := none, credentials }, m)

/-- The S3 settings (808-826). -/
def s3Config (env : Env) (bucket : String) (m : Map) : Except Err (S3Config × Map) :=
  if m.isEmpty then
    match env.internal with
    | some (.s3 c) => .ok ({ c with bucket }, m)
    | _ => .error .error
  else .ok (S3Config.fromBucketAndOptions bucket m)

/-- The GCS settings (827-845). -/
def gcsConfig (env : Env) (bucket : String) (m : Map) : Except Err (GCSConfig × Map) :=
  if m.isEmpty then
    match env.internal with
    | some (.gcs c) => .ok ({ c with bucket }, m)
    | _ => .error .error
  else .ok (gcsFromBucketAndOptions bucket m)

/-- `build_object_store` for S3. -/
def buildS3 (c : S3Config) : Except Err Store :=
  match c.buildAmazonS3 with
  | .ok s => .ok (.s3 s)
  | .error .error => .error .error
  | .error .panic => .error .panic

/-- `build_object_store` for GCS. -/
def buildGcs (env : Env) (c : GCSConfig) : Except Err Store :=
  if env.gcsOk c then .ok (.gcs c.bucket c.credentials) else .error .error

/-- `register_object_store`: what was there is replaced. -/
def register (rt : Rt) (sch : Scheme) (host : String) (s : Store) : Rt :=
  { rt with reg := fun x y => if x = sch ∧ y = host then some s else rt.reg x y }

/-- `prepare_create_external_table` (775-855): the new runtime and the options that are left. -/
def prepare (env : Env) (rt : Rt) (cmd : Cmd) : Rt × Except Err Map :=
  match cmd.loc.scheme, cmd.loc.host with
  | .other _, _ => (rt, .ok cmd.options)
  | _, none => (rt, .error .error)
  | .s3, some host =>
    match s3Config env host cmd.options with
    | .error e => (rt, .error e)
    | .ok (c, m) =>
      match buildS3 c with
      | .error e => (rt, .error e)
      | .ok s => (register rt .s3 host s, .ok m)
  | .gcs, some host =>
    match gcsConfig env host cmd.options with
    | .error e => (rt, .error e)
    | .ok (c, m) =>
      match buildGcs env c with
      | .error e => (rt, .error e)
      | .ok s => (register rt .gcs host s, .ok m)

/-- What a listing table at this location shows. -/
def scan (env : Env) (rt : Rt) (loc : Loc) : Option Nat :=
  match rt.reg loc.scheme (loc.host.getD "") with
  | none => none
  | some s => env.files s loc.path

/-- DataFusion's `create_external_table`. -/
def createListing (env : Env) (rt : Rt) (cmd : Cmd) (m : Map) : Rt × Except Err Unit :=
  if rt.ext.any (·.1 == cmd.name) then
    (rt, if cmd.ifNotExists then .ok () else .error .exists_)
  else if !env.formatOk m then (rt, .error .badOption)
  else
    match scan env rt cmd.loc with
    | none => (rt, .error .notFound)
    | some _ => ({ rt with ext := rt.ext ++ [(cmd.name, cmd.loc)] }, .ok ())

/-- `CREATE EXTERNAL TABLE` (108-122). -/
def create (env : Env) (rt : Rt) (cmd : Cmd) : Rt × Except Err Unit :=
  if env.internal.isNone then (rt, .error .noStore)
  else
    match prepare env rt cmd with
    | (rt', .error e) => (rt', .error e)
    | (rt', .ok m) => createListing env rt' cmd m

/-- `DROP TABLE staging.name` (498-507): the table is deregistered, the store stays. -/
def drop (rt : Rt) (name : String) : Rt := { rt with ext := rt.ext.filter (·.1 != name) }

/-- The statements of a history, of whatever session. -/
inductive Stmt where
  | create (cmd : Cmd)
  | drop (name : String)
  deriving DecidableEq, Repr

def exec (env : Env) (rt : Rt) : Stmt → Rt
  | .create cmd => (create env rt cmd).1
  | .drop name => drop rt name

def execAll (env : Env) (rt : Rt) (l : List Stmt) : Rt := l.foldl (exec env) rt

/-- `SELECT` from a staging table. -/
def select (env : Env) (rt : Rt) (name : String) : Option Nat :=
  match rt.ext.find? (·.1 == name) with
  | none => none
  | some e => scan env rt e.2

end Seafowl.External
