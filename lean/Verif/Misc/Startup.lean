import Verif.Misc.Config

/-!
# Starting the server

Modelled: /repo/src/main.rs 105-250 (`main`: arguments, configuration, modes, frontends, the garbage collection task),
/repo/src/config/schema.rs 58-102 (`build_default_config`), 409-417 (`load_config`), and the creation of the default
database and schema in /repo/src/config/context.rs 158-190 (`build_context`).

Not modelled: logging, metrics, the network side of the frontends.
-/

namespace Seafowl.Startup

/-! ### configuration -/

/-- The key/value pairs of a configuration source. -/
abbrev Raw := List (String × String)

/-- A later source wins (`Config::builder().add_source(file).add_source(env)`). -/
def merge (file env : Raw) (key : String) : Option String :=
  match env.lookup key with
  | some v => some v
  | none => file.lookup key

/-- The files of the working directory that are configurations. -/
abbrev Fs := String → Option Raw

/-- `DEFAULT_CONFIG_PATH` (main.rs 37). -/
def defaultPath : String := "seafowl.toml"

/-- `build_default_config` (schema.rs 58-102): the content of the default file. -/
def defaultFile : Raw :=
  [("object_store.type", "local"), ("object_store.data_dir", "seafowl-data"), ("catalog.type", "sqlite"),
   ("catalog.dsn", "seafowl-data/seafowl.sqlite"), ("frontend.http.bind_host", "127.0.0.1"),
   ("frontend.http.bind_port", "8080"), ("frontend.http.read_access", "any"), ("frontend.http.write_access", "off")]

/-- `load_config` (schema.rs 409-417): the file need not exist (`required(false)`).  The settings, before they are
deserialized. -/
def loadConfig (fs : Fs) (env : Raw) (path : String) : String → Option String := merge ((fs path).getD []) env

/-- `config_path.exists() || config_path != default_path` (main.rs 127-143): the settings the server runs with and the
files afterwards. -/
def startConfig (fs : Fs) (env : Raw) (path : String) : (String → Option String) × Fs :=
  if (fs path).isSome || path != defaultPath then (loadConfig fs env path, fs)
  else (merge defaultFile env, fun p => if p = defaultPath then some defaultFile else fs p)

/-- `AccessSettings::deserialize` (schema.rs 216-231). -/
inductive Access where
  | any
  | off
  | password (hash : String)
  deriving DecidableEq, Repr

def parseAccess (s : String) : Access :=
  if s = "any" then .any
  else if s = "off" then .off
  else .password s

/-- The access settings of the HTTP frontend with their defaults (schema.rs 245-266). -/
def readAccess (cfg : String → Option String) : Access := ((cfg "frontend.http.read_access").map parseAccess).getD .any

def writeAccess (cfg : String → Option String) : Access := ((cfg "frontend.http.write_access").map parseAccess).getD .off

/-! ### modes -/

structure Args where
  version : Bool
  oneOff : Option String
  cli : Bool
  deriving DecidableEq, Repr

/-- The frontends of the configuration. -/
structure Frontends where
  flight : Bool
  postgres : Bool
  http : Bool
  deriving DecidableEq, Repr

/-- What the process does. -/
inductive Mode where
  | printVersion
  | oneOff (cmd : String)
  | cli
  | serve (f : Frontends) (gc : Option Nat)
  /-- `exit(-1)` -/
  | noFrontends
  | panic
  deriving DecidableEq, Repr

/-- `(context.config.misc.gc_interval * 3600) as u64` (main.rs 240-243): the product is computed in `u16`; in release
builds it wraps around. -/
def gcSeconds (interval : Nat) : Nat := (interval * 3600) % 2 ^ 16

/-- Lines 239-258: no task for 0 or without a default object store; `interval` panics for a period of 0. -/
def gcTask (interval : Nat) (store : Bool) : Option (Option Nat) :=
  if interval > 0 then
    if gcSeconds interval = 0 then none
    else if store then some (some (gcSeconds interval))
    else some none
  else some none

/-- `main` (105-258), once the context has been built. -/
def mode (a : Args) (f : Frontends) (interval : Nat) (store : Bool) : Mode :=
  if a.version then .printVersion
  else
    match a.oneOff with
    | some cmd => .oneOff cmd
    | none =>
      if a.cli then .cli
      else if !(f.flight || f.postgres || f.http) then .noFrontends
      else
        match gcTask interval store with
        | none => .panic
        | some gc => .serve f gc

/-! ### the default database and schema, with several servers starting on one catalog -/

/-- `DEFAULT_DB`, `DEFAULT_SCHEMA` (catalog/mod.rs). -/
def defaultDb : String := "default"

def defaultSchema : String := "public"

/-- The databases and schemas of the catalog database. -/
structure Cat where
  dbs : List String
  schemas : List (String × String)
  deriving DecidableEq, Repr

inductive Pc where
  /-- before `catalogs.get` -/
  | start
  /-- the database was not there -/
  | needDb
  /-- before `schemas.get` -/
  | haveDb
  /-- the schema was not there -/
  | needSchema
  | up
  /-- `unwrap` on an error -/
  | panicked
  deriving DecidableEq, Repr

/-- One access of a starting server to the catalog (context.rs 163-177); names are unique in the catalog. -/
def stepPc (c : Cat) : Pc → Cat × Pc
  | .start => if c.dbs.contains defaultDb then (c, .haveDb) else (c, .needDb)
  | .needDb =>
    if c.dbs.contains defaultDb then (c, .panicked)
    else ({ c with dbs := c.dbs ++ [defaultDb] }, .haveDb)
  | .haveDb => if c.schemas.contains (defaultDb, defaultSchema) then (c, .up) else (c, .needSchema)
  | .needSchema =>
    if c.schemas.contains (defaultDb, defaultSchema) then (c, .panicked)
    else ({ c with schemas := c.schemas ++ [(defaultDb, defaultSchema)] }, .up)
  | .up => (c, .up)
  | .panicked => (c, .panicked)

structure Sys where
  cat : Cat
  servers : List Pc
  deriving DecidableEq, Repr

/-- The server `i` makes an access. -/
def Sys.step (S : Sys) (i : Nat) : Sys :=
  match S.servers[i]? with
  | none => S
  | some pc => { cat := (stepPc S.cat pc).1, servers := S.servers.set i (stepPc S.cat pc).2 }

/-- Any interleaving. -/
def Sys.run (S : Sys) (sched : List Nat) : Sys := sched.foldl Sys.step S

/-- `n` servers start on a catalog. -/
def Sys.init (c : Cat) (n : Nat) : Sys := { cat := c, servers := List.replicate n .start }

end Seafowl.Startup
