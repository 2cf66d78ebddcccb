/-
Object store options: configuration structures, their key/value form, and the stores built from
either.

Modelled: /repo/object_store_factory/src/local.rs 18-47, aws.rs 54-183 (`S3Config`), 188-247
(options to keys, defaults, environment), 268-302 (`s3_opts_to_file_io_props`), google.rs 18-81,
90-106, lib.rs 129-174 (`build_object_store_from_opts`), 205-220
(`object_store_opts_to_file_io_props`).

A `HashMap` is the list of its entries in iteration order.  Of `AmazonS3ConfigKey` the keys that
matter are listed; any other key the library knows is `other`, which keys those are is a parameter.
Region detection (a network request) and the environment variables are parameters.
-/
namespace Seafowl.StoreOpts

abbrev Map := List (String × String)

/-- `HashMap::get`. -/
def Map.get (m : Map) (k : String) : Option String := (m.find? (fun e => e.1 == k)).map (·.2)

/-- `HashMap::remove`. -/
def Map.remove (m : Map) (k : String) : Option String × Map :=
  (m.get k, m.filter (fun e => e.1 != k))

/-- `bool::to_string`. -/
def boolText (b : Bool) : String := if b then "true" else "false"

/-! ### Local file system -/

structure LocalConfig where
  dataDir : String
  disableHardlinks : Bool
  deriving DecidableEq, Repr

/-- `LocalConfig::from_hashmap` (local.rs 18-34); `none` is an error. -/
def LocalConfig.fromHashmap (m : Map) : Option LocalConfig :=
  match m.get "data_dir" with
  | none => none
  | some d => some ⟨d, ((m.get "disable_hardlinks").map (fun s => s == "true")).getD false⟩

/-- `LocalConfig::to_hashmap` (36-44). -/
def LocalConfig.toHashmap (c : LocalConfig) : Map :=
  [("data_dir", c.dataDir), ("disable_hardlinks", boolText c.disableHardlinks)]

/-! ### S3 -/

structure S3Config where
  region : Option String
  accessKeyId : Option String
  secretAccessKey : Option String
  sessionToken : Option String
  endpoint : Option String
  bucket : String
  pathPrefix : Option String
  allowHttp : Bool
  skipSignature : Bool
  deriving DecidableEq, Repr

/-- `S3Config::from_hashmap` (aws.rs 54-71); `none` is a panic. -/
def S3Config.fromHashmap (m : Map) : Option S3Config :=
  match m.get "bucket" with
  | none => none
  | some b => some {
      region := m.get "region"
      accessKeyId := m.get "access_key_id"
      secretAccessKey := m.get "secret_access_key"
      sessionToken := m.get "session_token"
      endpoint := m.get "endpoint"
      bucket := b
      pathPrefix := m.get "prefix"
      allowHttp := ((m.get "allow_http").map (fun s => s != "false")).getD true
      skipSignature := ((m.get "skip_signature").map (fun s => s != "false")).getD true }

/-- `S3Config::from_bucket_and_options` (73-94): the options are taken out of the map. -/
def S3Config.fromBucketAndOptions (bucket : String) (m : Map) : S3Config × Map :=
  let (region, m) := m.remove "format.region"
  let (accessKeyId, m) := m.remove "format.access_key_id"
  let (secretAccessKey, m) := m.remove "format.secret_access_key"
  let (sessionToken, m) := m.remove "format.session_token"
  let (endpoint, m) := m.remove "format.endpoint"
  let (allowHttp, m) := m.remove "format.allow_http"
  let (skipSignature, m) := m.remove "format.skip_signature"
  ({ region, accessKeyId, secretAccessKey, sessionToken, endpoint, bucket
     pathPrefix := none
     allowHttp := (allowHttp.map (fun s => s != "false")).getD true
     skipSignature := (skipSignature.map (fun s => s != "false")).getD true }, m)

/-- `if let Some(v) = … { map.insert(k, v) }`. -/
def entry (k : String) (v : Option String) : Map :=
  match v with
  | some v => [(k, v)]
  | none => []

/-- `S3Config::to_hashmap` (96-139); the names are `AmazonS3ConfigKey`'s. -/
def S3Config.toHashmap (c : S3Config) : Map :=
  entry "aws_region" c.region ++
  entry "aws_access_key_id" c.accessKeyId ++
  entry "aws_secret_access_key" c.secretAccessKey ++
  entry "aws_session_token" c.sessionToken ++
  entry "aws_endpoint" c.endpoint ++
  [("allow_http", boolText c.allowHttp), ("aws_skip_signature", boolText c.skipSignature)]

/-- How requests are authenticated. -/
inductive Auth where
  | anonymous
  | keys (id secret : String) (token : Option String)
  /-- credentials of the machine -/
  | ambient
  deriving DecidableEq, Repr

/-- A store: what its requests look like, and the path below which it lives. -/
structure S3Store where
  bucket : String
  region : String
  endpoint : Option String
  auth : Auth
  allowHttp : Bool
  conditionalPut : String
  root : String
  deriving DecidableEq, Repr

inductive Err where
  | error | panic
  deriving DecidableEq, Repr

/-- `build_amazon_s3` (145-176), and what `AmazonS3Builder` does with these settings.  The prefix is
not part of the store (`get_base_url`, 178-182, is applied by whoever uses it). -/
def S3Config.buildAmazonS3 (c : S3Config) : Except Err S3Store :=
  let base (a : Auth) : S3Store :=
    { bucket := c.bucket, region := c.region.getD "", endpoint := c.endpoint, auth := a
      allowHttp := c.allowHttp, conditionalPut := "etag", root := "" }
  match c.accessKeyId, c.secretAccessKey with
  | some id, some sec => .ok (base (.keys id sec c.sessionToken))
  | _, _ => if c.skipSignature then .ok (base .anonymous) else .error .panic

/-- `AmazonS3ConfigKey`. -/
inductive Key where
  | region | accessKeyId | secretAccessKey | token | endpoint | bucket | allowHttp | skipSignature
  | conditionalPut
  | other (name : String)
  deriving DecidableEq, Repr

/-- `AmazonS3ConfigKey::from_str`. -/
def Key.fromStr (others : String → Bool) (s : String) : Option Key :=
  if s = "aws_region" ∨ s = "region" then some .region
  else if s = "aws_access_key_id" ∨ s = "access_key_id" then some .accessKeyId
  else if s = "aws_secret_access_key" ∨ s = "secret_access_key" then some .secretAccessKey
  else if s = "aws_session_token" ∨ s = "aws_token" ∨ s = "session_token" ∨ s = "token" then some .token
  else if s = "aws_endpoint_url" ∨ s = "aws_endpoint" ∨ s = "endpoint_url" ∨ s = "endpoint" then
    some .endpoint
  else if s = "aws_bucket" ∨ s = "aws_bucket_name" ∨ s = "bucket_name" ∨ s = "bucket" then some .bucket
  else if s = "aws_allow_http" ∨ s = "allow_http" then some .allowHttp
  else if s = "aws_skip_signature" ∨ s = "skip_signature" then some .skipSignature
  else if s = "aws_conditional_put" ∨ s = "conditional_put" then some .conditionalPut
  else if others s then some (.other s)
  else none

/-- `AmazonS3ConfigKey::as_ref`. -/
def Key.name : Key → String
  | .region => "aws_region" | .accessKeyId => "aws_access_key_id"
  | .secretAccessKey => "aws_secret_access_key" | .token => "aws_session_token"
  | .endpoint => "aws_endpoint" | .bucket => "aws_bucket" | .allowHttp => "allow_http"
  | .skipSignature => "aws_skip_signature" | .conditionalPut => "aws_conditional_put"
  | .other s => s

/-- Options by key. -/
abbrev KeyMap := Key → Option String

/-- `map_options_into_amazon_s3_config_keys` (188-206): later entries replace earlier ones; any
unknown key is an error. -/
def mapOptions (others : String → Bool) : Map → KeyMap → Option KeyMap
  | [], acc => some acc
  | (k, v) :: rest, acc =>
    match Key.fromStr others k with
    | some key => mapOptions others rest (fun q => if q = key then some v else acc q)
    | none => none

/-- `add_amazon_s3_specific_options` (208-223); `none`: the detection failed, which panics. -/
def addSpecific (detect : Option String) (o : KeyMap) : Option KeyMap :=
  let withPut (o : KeyMap) : KeyMap := fun q =>
    if q = .conditionalPut then some ((o q).getD "etag") else o q
  if o .region = none ∧ o .endpoint = none then
    match detect with
    | none => none
    | some r => some (withPut (fun q => if q = .region then some r else o q))
  else some (withPut o)

/-- `add_amazon_s3_environment_variables` (225-247): variables fill what is not given.  `env` are
the `AWS_…` variables by key, `ALLOW_HTTP` is included if it is `true`. -/
def addEnv (env : KeyMap) (o : KeyMap) : KeyMap := fun q =>
  match o q with
  | some v => some v
  | none => env q

/-- `parse_url_opts` of the library for `s3://bucket`: the builder with these settings.  One of the
two access keys alone is an error. -/
def buildFromKeys (bucket root : String) (o : KeyMap) : Except Err S3Store :=
  let base (a : Auth) : S3Store :=
    { bucket, region := (o .region).getD "us-east-1", endpoint := o .endpoint, auth := a
      allowHttp := (o .allowHttp) == some "true"
      conditionalPut := (o .conditionalPut).getD "", root }
  let skip := (o .skipSignature) == some "true"
  match o .accessKeyId, o .secretAccessKey with
  | some id, some sec => .ok (base (if skip then .anonymous else .keys id sec (o .token)))
  | none, none => .ok (base (if skip then .anonymous else .ambient))
  | _, _ => .error .error

/-- `build_object_store_from_opts` for an S3 URL with the given bucket and path (lib.rs 152-161). -/
def buildS3FromOpts (others : String → Bool) (detect : Option String) (env : KeyMap)
    (bucket path : String) (m : Map) : Except Err S3Store :=
  match mapOptions others m (fun _ => none) with
  | none => .error .error
  | some o =>
    match addSpecific detect o with
    | none => .error .panic
    | some o => buildFromKeys bucket path (addEnv env o)

/-! ### Google Cloud Storage -/

structure GCSConfig where
  bucket : String
  pathPrefix : Option String
  credentials : Option String
  deriving DecidableEq, Repr

/-- `GCSConfig::from_hashmap` (google.rs 18-28); `none` is a panic. -/
def GCSConfig.fromHashmap (m : Map) : Option GCSConfig :=
  match m.get "bucket" with
  | none => none
  | some b => some ⟨b, m.get "prefix", m.get "google_application_credentials"⟩

/-- `GCSConfig::to_hashmap` (42-59). -/
def GCSConfig.toHashmap (c : GCSConfig) : Map :=
  [("google_bucket", c.bucket)] ++ entry "prefix" c.pathPrefix ++
    entry "google_application_credentials" c.credentials

/-- `map_options_into_google_config_keys` (90-106) fails for a key the library does not know. -/
def gcsOptionsAccepted (known : String → Bool) (m : Map) : Bool := m.all (fun e => known e.1)

/-! ### Iceberg file access -/

/-- A property map under construction. -/
abbrev Props := String → Option String

def Props.insert (p : Props) (k v : String) : Props := fun q => if q = k then some v else p q

/-- `val.to_lowercase()` is one of `true`, `t`, `1` (aws.rs 283-285). -/
def truthy (v : String) : Bool := v.toLower == "true" || v.toLower == "t" || v.toLower == "1"

/-- `s3_opts_to_file_io_props` (268-302). -/
def s3Props (key : Key) (val : String) (p : Props) : Props :=
  let p := p.insert "s3.disable-config-load" "true"
  let p : Props := fun q => if q = "s3.region" then some ((p q).getD "dummy-region") else p q
  match key with
  | .accessKeyId => p.insert "s3.access-key-id" val
  | .secretAccessKey => p.insert "s3.secret-access-key" val
  | .region => p.insert "s3.region" val
  | .endpoint => p.insert "s3.endpoint" val
  | k =>
    if k = .skipSignature ∧ truthy val = true then
      (p.insert "s3.allow-anonymous" val).insert "s3.disable-ec2-metadata" val
    else p.insert k.name val

/-- One entry of `object_store_opts_to_file_io_props` (lib.rs 210-218). -/
def propsStep (others : String → Bool) (p : Props) (e : String × String) : Props :=
  match Key.fromStr others e.1 with
  | some k => s3Props k e.2 p
  | none => p.insert e.1 e.2

/-- `object_store_opts_to_file_io_props` (lib.rs 205-220). -/
def fileIoProps (others : String → Bool) (m : Map) : Props :=
  m.foldl (propsStep others) (fun _ => none)

end Seafowl.StoreOpts
