import Verif.Misc.StoreOpts

/-!
# Options of a location and the environment

/repo/object_store_factory/src/aws.rs 188-247 (`map_options_into_amazon_s3_config_keys`, `add_amazon_s3_specific_options`,
`add_amazon_s3_environment_variables`), google.rs 90-140 (`map_options_into_google_config_keys`,
`add_google_cloud_storage_environment_variables`) and lib.rs 152-172 (`build_object_store_from_opts`).

`Verif.Misc.StoreOpts` takes the environment by key; here it is the list of its variables, in the order of `vars_os`.
Variables whose name or value is not Unicode are ignored by the code and are not in the list.
-/

namespace Seafowl.StoreOpts

/-! ### S3 -/

/-- The key a variable stands for (aws.rs 230-231): `AWS_…`, in lower case. -/
def Key.ofVar (others : String → Bool) (name : String) : Option Key :=
  if name.startsWith "AWS_" then Key.fromStr others name.toLower else none

/-- `entry(key).or_insert(value)` (aws.rs 232, google.rs 136), if the variable stands for a key. -/
def orInsert {κ : Type} [DecidableEq κ] (key : Option κ) (v : String) (o : κ → Option String) (q : κ) : Option String :=
  if key = some q then some ((o q).getD v) else o q

/-- The loop over the variables (aws.rs 228-236). -/
def envLoop (others : String → Bool) (env : Map) (o : KeyMap) : KeyMap :=
  env.foldl (fun o e => orInsert (Key.ofVar others e.1) e.2 o) o

/-- aws.rs 238-247: the variable `ALLOW_HTTP`. -/
def allowHttpVar (env : Map) (o : KeyMap) : KeyMap := fun q =>
  if q = .allowHttp ∧ env.get "ALLOW_HTTP" = some "true" then some ((o q).getD "true") else o q

/-- `add_amazon_s3_environment_variables` (aws.rs 225-247). -/
def addEnvironment (others : String → Bool) (env : Map) (o : KeyMap) : KeyMap :=
  allowHttpVar env (envLoop others env o)

/-- The settings of the store (lib.rs 153-155): the options, a detected region, the environment. -/
def s3Settings (others : String → Bool) (detect : Option String) (env m : Map) : Except Err KeyMap :=
  match mapOptions others m (fun _ => none) with
  | none => .error .error
  | some o =>
    match addSpecific detect o with
    | none => .error .panic
    | some o => .ok (addEnvironment others env o)

/-- The store of an S3 location (lib.rs 152-161). -/
def s3Store (others : String → Bool) (detect : Option String) (env : Map) (bucket path : String) (m : Map) :
    Except Err S3Store :=
  match s3Settings others detect env m with
  | .error e => .error e
  | .ok o => buildFromKeys bucket path o

/-! ### Google Cloud Storage -/

/-- `GoogleConfigKey`. -/
inductive GKey where
  | account | accountKey | bucket | credentials
  | other (name : String)
  deriving DecidableEq, Repr

/-- `GoogleConfigKey::from_str`. -/
def GKey.fromStr (others : String → Bool) (s : String) : Option GKey :=
  if s = "google_service_account" ∨ s = "service_account" ∨ s = "google_service_account_path" ∨
    s = "service_account_path" then some .account
  else if s = "google_service_account_key" ∨ s = "service_account_key" then some .accountKey
  else if s = "google_bucket" ∨ s = "google_bucket_name" ∨ s = "bucket" ∨ s = "bucket_name" then some .bucket
  else if s = "google_application_credentials" ∨ s = "application_credentials" then some .credentials
  else if others s then some (.other s)
  else none

abbrev GMap := GKey → Option String

/-- `map_options_into_google_config_keys` (google.rs 90-106). -/
def gMapOptions (others : String → Bool) : Map → GMap → Option GMap
  | [], acc => some acc
  | (k, v) :: rest, acc =>
    match GKey.fromStr others k with
    | some key => gMapOptions others rest (fun q => if q = key then some v else acc q)
    | none => none

/-- google.rs 117-125: the service account, if neither its path nor its key is given. -/
def gAccount (env : Map) (o : GMap) : GMap :=
  if o .account = none ∧ o .accountKey = none then
    match env.get "GOOGLE_SERVICE_ACCOUNT" with
    | some p => fun q => if q = .account then some p else o q
    | none =>
      match env.get "GOOGLE_SERVICE_ACCOUNT_KEY" with
      | some k => fun q => if q = .accountKey then some k else o q
      | none => o
  else o

/-- The key a variable stands for (google.rs 130-137); the service account is left out. -/
def GKey.ofVar (others : String → Bool) (name : String) : Option GKey :=
  if name.startsWith "GOOGLE_" then
    match GKey.fromStr others name.toLower with
    | some .account => none
    | some .accountKey => none
    | k => k
  else none

/-- google.rs 127-140. -/
def gEnvLoop (others : String → Bool) (env : Map) (o : GMap) : GMap :=
  env.foldl (fun o e => orInsert (GKey.ofVar others e.1) e.2 o) o

/-- The settings of a Google Cloud Storage location (lib.rs 163-165). -/
def gcsSettings (others : String → Bool) (env m : Map) : Option GMap :=
  match gMapOptions others m (fun _ => none) with
  | none => none
  | some o => some (gEnvLoop others env (gAccount env o))

end Seafowl.StoreOpts
