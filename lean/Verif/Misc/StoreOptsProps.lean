import Verif.Misc.StoreOpts

/-
C59, C71: object store options.
-/
namespace Seafowl.StoreOpts
set_option linter.unusedSimpArgs false

/-! ### C59: local -/

/-- **C59 (local).**  The options of a local store survive their map form. -/
theorem C59_local (c : LocalConfig) : LocalConfig.fromHashmap c.toHashmap = some c := by
  obtain ⟨d, h⟩ := c
  cases h <;> simp [LocalConfig.fromHashmap, LocalConfig.toHashmap, Map.get, boolText]

/-- Any map is read with its own `data_dir`, or rejected if there is none. -/
theorem C59_local_read (m : Map) (c : LocalConfig) (h : LocalConfig.fromHashmap m = some c) :
    m.get "data_dir" = some c.dataDir ∧
    (c.disableHardlinks = true ↔ m.get "disable_hardlinks" = some "true") := by
  unfold LocalConfig.fromHashmap at h
  cases hd : m.get "data_dir" with
  | none => simp [hd] at h
  | some d =>
    simp only [hd, Option.some.injEq] at h
    subst h
    refine ⟨rfl, ?_⟩
    cases m.get "disable_hardlinks" <;> simp

/-! ### C59: S3 -/

/-- Any map is read with its own entries: `allow_http` and `skip_signature` are on unless they say `false`. -/
theorem C59_s3_read (m : Map) :
    (S3Config.fromHashmap m = none ↔ m.get "bucket" = none) ∧
    ∀ c, S3Config.fromHashmap m = some c →
      m.get "bucket" = some c.bucket ∧ c.region = m.get "region" ∧ c.accessKeyId = m.get "access_key_id" ∧
      c.secretAccessKey = m.get "secret_access_key" ∧ c.sessionToken = m.get "session_token" ∧
      c.endpoint = m.get "endpoint" ∧ c.pathPrefix = m.get "prefix" ∧
      (c.allowHttp = false ↔ m.get "allow_http" = some "false") ∧
      (c.skipSignature = false ↔ m.get "skip_signature" = some "false") := by
  have hb : ∀ o : Option String, (o.map (fun s => s != "false")).getD true = false ↔ o = some "false" := by
    intro o; cases o <;> simp
  unfold S3Config.fromHashmap
  cases hd : m.get "bucket" with
  | none => simp
  | some d =>
    refine ⟨by simp, ?_⟩
    intro c h
    simp only [Option.some.injEq] at h
    subst h
    exact ⟨rfl, rfl, rfl, rfl, rfl, rfl, rfl, hb _, hb _⟩

example : S3Config.fromHashmap [("bucket", "b"), ("allow_http", "false")] =
    some ⟨none, none, none, none, none, "b", none, false, true⟩ := by decide

/-- The same for GCS. -/
theorem C59_gcs_read (m : Map) :
    (GCSConfig.fromHashmap m = none ↔ m.get "bucket" = none) ∧
    ∀ c, GCSConfig.fromHashmap m = some c →
      m.get "bucket" = some c.bucket ∧ c.pathPrefix = m.get "prefix" ∧
      c.credentials = m.get "google_application_credentials" := by
  unfold GCSConfig.fromHashmap
  cases hd : m.get "bucket" with
  | none => simp
  | some d =>
    refine ⟨by simp, ?_⟩
    intro c h
    simp only [Option.some.injEq] at h
    subst h
    exact ⟨rfl, rfl, rfl⟩

/-- The map form `from_hashmap` reads: the field names. -/
def S3Config.fields (c : S3Config) : Map :=
  entry "region" c.region ++ entry "access_key_id" c.accessKeyId ++
  entry "secret_access_key" c.secretAccessKey ++ entry "session_token" c.sessionToken ++
  entry "endpoint" c.endpoint ++ [("bucket", c.bucket)] ++ entry "prefix" c.pathPrefix ++
  [("allow_http", boolText c.allowHttp), ("skip_signature", boolText c.skipSignature)]

theorem get_append (a b : Map) (k : String) : Map.get (a ++ b) k = (Map.get a k).or (Map.get b k) := by
  unfold Map.get
  rw [List.find?_append]
  cases a.find? (fun e => e.1 == k) <;> simp

theorem get_entry (n k : String) (v : Option String) :
    Map.get (entry n v) k = if n = k then v else none := by
  cases v with
  | none => simp [Map.get, entry]
  | some v =>
    by_cases h : n = k <;> simp [Map.get, entry, h]

theorem get_cons (e : String × String) (m : Map) (k : String) :
    Map.get (e :: m) k = if e.1 = k then some e.2 else Map.get m k := by
  unfold Map.get
  by_cases h : e.1 = k
  · simp [h]
  · rw [if_neg h, List.find?_cons_of_neg (by simpa using h)]

theorem get_nil (k : String) : Map.get [] k = none := rfl

theorem boolText_ne_false (b : Bool) : (boolText b != "false") = b := by cases b <;> decide

/-- **C59 (S3, by field names).**  A map with the field names is read as written. -/
theorem C59_s3_fields (c : S3Config) : S3Config.fromHashmap c.fields = some c := by
  unfold S3Config.fromHashmap S3Config.fields
  simp only [get_append, get_entry, get_cons, get_nil]
  simp [boolText_ne_false]

/-- **C59_s3_partial.**  The map form of an S3 configuration together with its bucket describes the
same store, if it has a region, and either complete credentials and `skip_signature = false` or no
credentials, and if no environment variable fills what the configuration leaves out.  Missing: see
the violations. -/
theorem C59_s3_partial (others : String → Bool) (detect : Option String) (env : KeyMap) (c : S3Config)
    (hr : c.region ≠ none)
    (hc : (c.accessKeyId ≠ none ∧ c.secretAccessKey ≠ none ∧ c.skipSignature = false) ∨
      (c.accessKeyId = none ∧ c.secretAccessKey = none ∧ c.skipSignature = true))
    (he : ∀ q, q = .endpoint ∨ q = .token ∨ q = .accessKeyId ∨ q = .secretAccessKey → env q = none) :
    buildS3FromOpts others detect env c.bucket "" c.toHashmap = c.buildAmazonS3 := by
  have e1 := he .endpoint (by simp)
  have e2 := he .token (by simp)
  have e3 := he .accessKeyId (by simp)
  have e4 := he .secretAccessKey (by simp)
  obtain ⟨region, ak, sk, tok, ep, bucket, pre, ah, ss⟩ := c
  simp only at hr hc ⊢
  cases region with
  | none => exact absurd rfl hr
  | some region =>
  rcases hc with ⟨ha, hs, hss⟩ | ⟨ha, hs, hss⟩
  · cases ak with
    | none => exact absurd rfl ha
    | some ak =>
    cases sk with
    | none => exact absurd rfl hs
    | some sk =>
    subst hss
    cases tok <;> cases ep <;> cases ah <;>
      simp [buildS3FromOpts, S3Config.toHashmap, entry, mapOptions, Key.fromStr, addSpecific, addEnv,
        buildFromKeys, S3Config.buildAmazonS3, boolText, e1, e2, e3, e4]
  · subst ha hs hss
    cases tok <;> cases ep <;> cases ah <;>
      simp [buildS3FromOpts, S3Config.toHashmap, entry, mapOptions, Key.fromStr, addSpecific, addEnv,
        buildFromKeys, S3Config.buildAmazonS3, boolText, e1, e2, e3, e4]

/-- Every option of the key/value form is one the library knows: the map form is never rejected for
its keys. -/
theorem C59_s3_known (others : String → Bool) (c : S3Config) :
    (mapOptions others c.toHashmap (fun _ => none)).isSome = true := by
  obtain ⟨region, ak, sk, tok, ep, bucket, pre, ah, ss⟩ := c
  cases region <;> cases ak <;> cases sk <;> cases tok <;> cases ep <;>
    simp [S3Config.toHashmap, entry, mapOptions, Key.fromStr]

/-- An option the library does not know is an error, whatever the other options are. -/
theorem C59_unknown (others : String → Bool) (detect : Option String) (env : KeyMap) (bucket path : String) (m : Map)
    (e : String × String) (he : e ∈ m) (hk : Key.fromStr others e.1 = none) :
    buildS3FromOpts others detect env bucket path m = .error .error := by
  have h : ∀ (m : Map) (acc : KeyMap), e ∈ m → mapOptions others m acc = none := by
    intro m
    induction m with
    | nil => intro _ h; simp at h
    | cons x m ih =>
      intro acc h
      obtain ⟨k, v⟩ := x
      rcases List.mem_cons.mp h with rfl | h
      · simp only at hk
        simp [mapOptions, hk]
      · unfold mapOptions
        split
        · exact ih _ h
        · rfl
  simp [buildS3FromOpts, h m _ he]

example : buildS3FromOpts (fun _ => false) none (fun _ => none) "b" "" [("region", "eu"), ("regoin", "us")] =
    .error .error := C59_unknown _ _ _ _ _ _ ("regoin", "us") (by simp) (by simp [Key.fromStr])

/-- One of the two access keys without the other is an error in both forms. -/
theorem C59_half (others : String → Bool) (detect : Option String) (env : KeyMap) (c : S3Config)
    (hr : c.region ≠ none) (hc : c.accessKeyId.isSome ≠ c.secretAccessKey.isSome) (hs : c.skipSignature = false)
    (he : env .accessKeyId = none ∧ env .secretAccessKey = none) :
    (∃ e, buildS3FromOpts others detect env c.bucket "" c.toHashmap = .error e) ∧ ∃ e, c.buildAmazonS3 = .error e := by
  obtain ⟨region, ak, sk, tok, ep, bucket, pre, ah, ss⟩ := c
  obtain ⟨e1, e2⟩ := he
  simp only at hr hc hs ⊢
  subst hs
  cases region with
  | none => exact absurd rfl hr
  | some region =>
  cases ak <;> cases sk <;> simp at hc <;> cases tok <;> cases ep <;> cases ah <;>
    simp [buildS3FromOpts, S3Config.toHashmap, entry, mapOptions, Key.fromStr, addSpecific, addEnv,
      buildFromKeys, S3Config.buildAmazonS3, boolText, e1, e2]

example : (⟨some "eu", some "k", none, none, none, "b", none, true, false⟩ : S3Config).accessKeyId.isSome ≠
    (⟨some "eu", some "k", none, none, none, "b", none, true, false⟩ : S3Config).secretAccessKey.isSome := by decide

/-- Options of CREATE EXTERNAL TABLE: what is read, and that exactly the read entries are taken. -/
theorem C59_external (bucket : String) (m : Map) :
    let r := S3Config.fromBucketAndOptions bucket m
    r.1.bucket = bucket ∧ r.1.region = m.get "format.region" ∧
    r.1.accessKeyId = m.get "format.access_key_id" ∧
    r.1.secretAccessKey = m.get "format.secret_access_key" ∧
    r.1.sessionToken = m.get "format.session_token" ∧
    r.1.endpoint = m.get "format.endpoint" ∧
    (r.1.allowHttp = false ↔ m.get "format.allow_http" = some "false") ∧
    (r.1.skipSignature = false ↔ m.get "format.skip_signature" = some "false") ∧
    r.2 = m.filter (fun e => !(["format.region", "format.access_key_id", "format.secret_access_key",
      "format.session_token", "format.endpoint", "format.allow_http", "format.skip_signature"].contains
        e.1)) := by
  have hg : ∀ (p : String × String → Bool) (b : String), (∀ e : String × String, e.1 = b → p e = true) →
      Map.get (m.filter p) b = Map.get m b := by
    intro p b hp
    unfold Map.get
    rw [List.find?_filter]
    congr 2
    funext e
    by_cases h : e.1 = b
    · simp [h, hp e h]
    · simp [h]
  have hb : ∀ o : Option String, (o.map (fun s => s != "false")).getD true = false ↔ o = some "false" := by
    intro o; cases o <;> simp
  simp only [S3Config.fromBucketAndOptions, Map.remove]
  simp only [List.filter_filter]
  refine ⟨trivial, trivial, ?_, ?_, ?_, ?_, ?_, ?_, ?_⟩
  iterate 4 exact hg _ _ (by intro e he; simp [he])
  iterate 2 rw [hb, hg _ _ (by intro e he; simp [he])]
  · congr 1
    funext e
    simp only [List.contains_cons, List.contains_nil, Bool.or_false, Bool.not_or, bne]
    ac_rfl

/-! ### C59: GCS -/

/-- **C59_gcs_partial.**  Without a prefix, a GCS configuration's map form is accepted by the
library.  Missing: configurations with a prefix. -/
theorem C59_gcs_partial (known : String → Bool) (h1 : known "google_bucket" = true)
    (h2 : known "google_application_credentials" = true) (c : GCSConfig) (hp : c.pathPrefix = none) :
    gcsOptionsAccepted known c.toHashmap = true ∧
    c.toHashmap.get "google_bucket" = some c.bucket ∧
    c.toHashmap.get "google_application_credentials" = c.credentials := by
  obtain ⟨b, p, cr⟩ := c
  simp only at hp
  subst hp
  cases cr <;> simp [gcsOptionsAccepted, GCSConfig.toHashmap, entry, h1, h2, Map.get]

/-! ### C59: violations -/

/-- **C59 is violated for S3**: reading back the map form always panics, for want of a bucket. -/
theorem C59_violated_s3 (c : S3Config) : S3Config.fromHashmap c.toHashmap = none := by
  obtain ⟨region, ak, sk, tok, ep, bucket, pre, ah, ss⟩ := c
  cases region <;> cases ak <;> cases sk <;> cases tok <;> cases ep <;>
    simp [S3Config.fromHashmap, S3Config.toHashmap, entry, Map.get]

/-- …and for Google: -/
theorem C59_violated_gcs (c : GCSConfig) : GCSConfig.fromHashmap c.toHashmap = none := by
  obtain ⟨b, p, cr⟩ := c
  cases p <;> cases cr <;> simp [GCSConfig.fromHashmap, GCSConfig.toHashmap, entry, Map.get]

/-- Even with the bucket known, complete credentials and the default `skip_signature` (true): the
configured store signs its requests, the store described by the map form is anonymous.  This holds
for all credentials, whatever the environment. -/
theorem C59_violated_signature (others : String → Bool) (detect : Option String) (env : KeyMap)
    (id sec region bucket : String) :
    let c : S3Config := ⟨some region, some id, some sec, none, none, bucket, none, true, true⟩
    (∃ s, c.buildAmazonS3 = .ok s ∧ s.auth = .keys id sec none) ∧
    (∃ s, buildS3FromOpts others detect env bucket "" c.toHashmap = .ok s ∧ s.auth = .anonymous) := by
  simp [buildS3FromOpts, S3Config.toHashmap, entry, mapOptions, Key.fromStr, addSpecific, addEnv,
    buildFromKeys, S3Config.buildAmazonS3, boolText]

/-- A store with only an endpoint has the empty region as configured and `us-east-1` by its map form. -/
theorem C59_violated_region (others : String → Bool) :
    let c : S3Config := ⟨none, none, none, none, some "http://minio", "b", none, true, true⟩
    (∃ s, c.buildAmazonS3 = .ok s ∧ s.region = "") ∧
    (∃ s, buildS3FromOpts others none (fun _ => none) "b" "" c.toHashmap = .ok s ∧
      s.region = "us-east-1") := by
  simp [buildS3FromOpts, S3Config.toHashmap, entry, mapOptions, Key.fromStr, addSpecific, addEnv,
    buildFromKeys, S3Config.buildAmazonS3, boolText]

/-- The prefix is lost: configurations with different prefixes have the same map form. -/
theorem C59_violated_prefix (c : S3Config) (p : Option String) :
    S3Config.toHashmap { c with pathPrefix := p } = c.toHashmap := rfl

/-- A GCS configuration with a prefix: its map form is rejected, `prefix` being no option of the
library. -/
theorem C59_violated_gcs_prefix (known : String → Bool) (h : known "prefix" = false) (b p : String)
    (cr : Option String) : gcsOptionsAccepted known (GCSConfig.toHashmap ⟨b, some p, cr⟩) = false := by
  cases cr <;> simp [gcsOptionsAccepted, GCSConfig.toHashmap, entry, h]

example : (⟨some "eu", some "k", some "s", some "t", none, "b", none, true, false⟩ : S3Config).region ≠ none
    := by simp

/-! ### C71: options for Iceberg tables -/

/-- The names under which Iceberg's file access looks for an option, given as seen by S3. -/
inductive Wanted : Key → String → String → String → Prop
  | id {v} : Wanted .accessKeyId v "s3.access-key-id" v
  | secret {v} : Wanted .secretAccessKey v "s3.secret-access-key" v
  | region {v} : Wanted .region v "s3.region" v
  | endpoint {v} : Wanted .endpoint v "s3.endpoint" v
  | anonymous {v} : v.toLower = "true" ∨ v.toLower = "t" ∨ v.toLower = "1" →
      Wanted .skipSignature v "s3.allow-anonymous" v
  | noMetadata {v} : v.toLower = "true" ∨ v.toLower = "t" ∨ v.toLower = "1" →
      Wanted .skipSignature v "s3.disable-ec2-metadata" v

/-- The properties an entry sets, other than the two defaults. -/
def targets (others : String → Bool) (e : String × String) : List String :=
  match Key.fromStr others e.1 with
  | none => [e.1]
  | some .accessKeyId => ["s3.access-key-id"]
  | some .secretAccessKey => ["s3.secret-access-key"]
  | some .region => ["s3.region"]
  | some .endpoint => ["s3.endpoint"]
  | some k =>
    if k = .skipSignature ∧ truthy e.2 = true then ["s3.allow-anonymous", "s3.disable-ec2-metadata"]
    else [k.name]

/-- No two entries set the same property, and none sets the property that is always set. -/
structure NoClash (others : String → Bool) (m : Map) : Prop where
  pair : m.Pairwise (fun a b => ∀ t ∈ targets others a, t ∉ targets others b)
  load : ∀ e ∈ m, "s3.disable-config-load" ∉ targets others e

theorem step_target {others : String → Bool} {p : Props} {e : String × String} {t : String}
    (h : t ∈ targets others e) : propsStep others p e t = some e.2 := by
  unfold targets at h
  unfold propsStep
  cases hk : Key.fromStr others e.1 with
  | none =>
    rw [hk] at h
    simp only [List.mem_singleton] at h
    subst h
    simp [Props.insert]
  | some k =>
    rw [hk] at h
    cases k <;> simp only [List.mem_singleton, s3Props] at h ⊢
    case skipSignature =>
      by_cases ht : truthy e.2 = true
      · simp only [true_and, ht, if_true, List.mem_cons, List.not_mem_nil, or_false] at h ⊢
        rcases h with rfl | rfl <;> simp [Props.insert]
      · simp only [true_and, ht, Bool.false_eq_true, if_false, List.mem_singleton] at h ⊢
        subst h; simp [Props.insert]
    all_goals first
      | (subst h; simp [Props.insert]; done)
      | (simp only [reduceCtorEq, false_and, if_false, List.mem_singleton] at h ⊢
         rw [Props.insert, if_pos h])

/-- An entry leaves the other properties alone, but for the two defaults. -/
theorem step_other {others : String → Bool} {p : Props} {e : String × String} {t : String}
    (h : t ∉ targets others e) :
    propsStep others p e t =
      if (Key.fromStr others e.1).isSome = true then
        if t = "s3.region" then some ((p t).getD "dummy-region")
        else if t = "s3.disable-config-load" then some "true" else p t
      else p t := by
  unfold targets at h
  unfold propsStep
  have base : ∀ q : String, (fun q => if q = "s3.region" then
      some ((p.insert "s3.disable-config-load" "true" q).getD "dummy-region") else
      p.insert "s3.disable-config-load" "true" q) q =
      if q = "s3.region" then some ((p q).getD "dummy-region")
        else if q = "s3.disable-config-load" then some "true" else p q := by
    intro q
    by_cases h1 : q = "s3.region"
    · subst h1; simp [Props.insert]
    · by_cases h2 : q = "s3.disable-config-load" <;> simp [h1, h2, Props.insert]
  cases hk : Key.fromStr others e.1 with
  | none =>
    rw [hk] at h
    simp only [List.mem_singleton] at h
    simp [Props.insert, h]
  | some k =>
    rw [hk] at h
    simp only [Option.isSome_some, if_true]
    rw [← base]
    cases k <;> simp only [List.mem_singleton, s3Props] at h ⊢
    case skipSignature =>
      by_cases ht : truthy e.2 = true
      · simp only [true_and, ht, if_true, List.mem_cons, List.not_mem_nil, or_false, not_or] at h ⊢
        rw [Props.insert, if_neg h.2, Props.insert, if_neg h.1]
      · simp only [true_and, ht, Bool.false_eq_true, if_false, List.mem_singleton] at h ⊢
        rw [Props.insert, if_neg h]
    all_goals first
      | (rw [Props.insert, if_neg h]; done)
      | (simp only [reduceCtorEq, false_and, if_false, List.mem_singleton] at h ⊢
         rw [Props.insert, if_neg h])

/-- The meaning of a list of entries without clashes, independent of their order. -/
theorem fold_spec {others : String → Bool} {m : Map} (h : NoClash others m) (p : Props) (t : String) :
    (∀ e ∈ m, t ∈ targets others e → m.foldl (propsStep others) p t = some e.2) ∧
    ((∀ e ∈ m, t ∉ targets others e) → m.foldl (propsStep others) p t =
      if (m.any (fun e => (Key.fromStr others e.1).isSome)) = true then
        if t = "s3.region" then some ((p t).getD "dummy-region")
        else if t = "s3.disable-config-load" then some "true" else p t
      else p t) := by
  induction m generalizing p with
  | nil => simp
  | cons e m ih =>
    have hp := List.pairwise_cons.1 h.pair
    have hm : NoClash others m := ⟨hp.2, fun e he => h.load e (List.mem_cons_of_mem _ he)⟩
    obtain ⟨ih1, ih2⟩ := ih hm (propsStep others p e)
    refine ⟨?_, ?_⟩
    · intro x hx ht
      rw [List.foldl_cons]
      rcases List.mem_cons.1 hx with rfl | hx
      · have hno : ∀ y ∈ m, t ∉ targets others y := fun y hy => hp.1 y hy t ht
        rw [ih2 hno, step_target ht]
        have hl : t ≠ "s3.disable-config-load" := by
          rintro rfl; exact h.load x List.mem_cons_self ht
        simp [hl]
      · exact ih1 x hx ht
    · intro hno
      rw [List.foldl_cons, ih2 (fun y hy => hno y (List.mem_cons_of_mem _ hy)),
        step_other (hno e List.mem_cons_self)]
      simp only [List.any_cons, Bool.or_eq_true]
      clear ih1 ih2 ih hno h hp hm
      generalize (m.any fun e => (Key.fromStr others e.1).isSome) = b
      generalize (Key.fromStr others e.1).isSome = a
      cases a <;> cases b <;>
        by_cases c : t = "s3.region" <;> by_cases d : t = "s3.disable-config-load" <;>
        simp [c, d]

theorem wanted_target {others : String → Bool} {e : String × String} {k : Key} {t v : String}
    (hk : Key.fromStr others e.1 = some k) (hw : Wanted k e.2 t v) : t ∈ targets others e ∧ v = e.2 := by
  unfold targets
  rw [hk]
  cases hw with
  | id => simp
  | secret => simp
  | region => simp
  | endpoint => simp
  | anonymous h =>
    have : truthy e.2 = true := by simpa [truthy, or_assoc] using h
    simp [this]
  | noMetadata h =>
    have : truthy e.2 = true := by simpa [truthy, or_assoc] using h
    simp [this]

/-- The spellings of the settings. -/
def spellings : Key → List String
  | .region => ["aws_region", "region"]
  | .accessKeyId => ["aws_access_key_id", "access_key_id"]
  | .secretAccessKey => ["aws_secret_access_key", "secret_access_key"]
  | .token => ["aws_session_token", "aws_token", "session_token", "token"]
  | .endpoint => ["aws_endpoint_url", "aws_endpoint", "endpoint_url", "endpoint"]
  | .bucket => ["aws_bucket", "aws_bucket_name", "bucket_name", "bucket"]
  | .allowHttp => ["aws_allow_http", "allow_http"]
  | .skipSignature => ["aws_skip_signature", "skip_signature"]
  | .conditionalPut => ["aws_conditional_put", "conditional_put"]
  | .other _ => []

/-- Every spelling is understood. -/
theorem C71_spellings (others : String → Bool) (k : Key) (s : String) (h : s ∈ spellings k) :
    Key.fromStr others s = some k := by
  cases k <;> simp only [spellings, List.mem_cons, List.not_mem_nil, or_false] at h <;>
    (repeat' rcases h with h | h) <;> subst_vars <;> simp [Key.fromStr]

/-- **C71_partial.**  Without clashing options, every credential, region, endpoint or request for
anonymous access reaches Iceberg's file access under the name it looks for; every option it does not
know is passed on as it is; the local configuration is ignored as soon as there is an S3 option, and
the region defaults to a dummy.  Missing: session tokens, and clashing options. -/
theorem C71_partial {others : String → Bool} {m : Map} (h : NoClash others m) :
    (∀ e ∈ m, ∀ k t v, Key.fromStr others e.1 = some k → Wanted k e.2 t v →
      fileIoProps others m t = some v) ∧
    (∀ e ∈ m, Key.fromStr others e.1 = none → fileIoProps others m e.1 = some e.2) ∧
    ((∃ e ∈ m, (Key.fromStr others e.1).isSome = true) →
      fileIoProps others m "s3.disable-config-load" = some "true" ∧
      (fileIoProps others m "s3.region").isSome = true) := by
  refine ⟨?_, ?_, ?_⟩
  · intro e he k t v hk hw
    obtain ⟨ht, rfl⟩ := wanted_target hk hw
    exact (fold_spec h _ t).1 e he ht
  · intro e he hk
    exact (fold_spec h _ e.1).1 e he (by simp [targets, hk])
  · rintro ⟨e, he, hs⟩
    have ha : (m.any fun e => (Key.fromStr others e.1).isSome) = true :=
      List.any_eq_true.2 ⟨e, he, hs⟩
    refine ⟨?_, ?_⟩
    · rw [fileIoProps, (fold_spec h _ _).2 h.load, ha]; simp
    · by_cases hr : ∃ x ∈ m, "s3.region" ∈ targets others x
      · obtain ⟨x, hx, ht⟩ := hr
        rw [fileIoProps, (fold_spec h _ _).1 x hx ht]; rfl
      · rw [fileIoProps, (fold_spec h _ _).2 (fun x hx ht => hr ⟨x, hx, ht⟩), ha]; simp

/-- **C71 (order).**  The order in which the hash map is iterated does not matter, without clashes. -/
theorem C71_order {others : String → Bool} {m m' : Map} (h : NoClash others m) (hp : m.Perm m') :
    fileIoProps others m = fileIoProps others m' := by
  have h' : NoClash others m' := by
    refine ⟨?_, fun e he => h.load e (hp.mem_iff.2 he)⟩
    refine (hp.pairwise_iff ?_).1 h.pair
    intro a b hab t ht ha
    exact hab t ha ht
  funext t
  unfold fileIoProps
  by_cases ht : ∃ e ∈ m, t ∈ targets others e
  · obtain ⟨e, he, ht⟩ := ht
    rw [(fold_spec h _ t).1 e he ht, (fold_spec h' _ t).1 e (hp.mem_iff.1 he) ht]
  · have hn : ∀ e ∈ m, t ∉ targets others e := fun e he ht' => ht ⟨e, he, ht'⟩
    rw [(fold_spec h _ t).2 hn, (fold_spec h' _ t).2 (fun e he => hn e (hp.mem_iff.2 he))]
    have : (m.any fun e => (Key.fromStr others e.1).isSome) =
        (m'.any fun e => (Key.fromStr others e.1).isSome) := by
      rw [Bool.eq_iff_iff, List.any_eq_true, List.any_eq_true]
      constructor
      · rintro ⟨x, hx, h⟩; exact ⟨x, hp.mem_iff.1 hx, h⟩
      · rintro ⟨x, hx, h⟩; exact ⟨x, hp.mem_iff.2 hx, h⟩
    rw [this]

/-- A typical map. -/
def exOpts : Map := [("aws_access_key_id", "k"), ("aws_secret_access_key", "s"),
  ("endpoint", "http://minio"), ("skip_signature", "false"), ("x", "y")]

example : NoClash (fun _ => false) exOpts := by
  refine ⟨?_, ?_⟩ <;> simp [exOpts, targets, Key.fromStr, Key.name, truthy] <;> decide +kernel

example : fileIoProps (fun _ => false) exOpts "s3.region" = some "dummy-region" := by
  decide +kernel

/-- **C71 is violated by session tokens**: they never reach the name Iceberg looks for. -/
theorem C71_violated_token (others : String → Bool) :
    fileIoProps others [("aws_session_token", "t")] "s3.session-token" = none ∧
    fileIoProps others [("aws_session_token", "t")] "aws_session_token" = some "t" := by
  simp [fileIoProps, propsStep, Key.fromStr, s3Props, Props.insert, Key.name]

/-- … whatever the options and however the token is spelled: Iceberg has a session token only if the options
spell out Iceberg's own name for it, which the stores of Delta tables do not understand. -/
theorem C71_violated_token_always (others : String → Bool) (m : Map)
    (h : ∀ e ∈ m, e.1 ≠ "s3.session-token") :
    fileIoProps others m "s3.session-token" = none := by
  have step : ∀ (p : Props) (e : String × String), e.1 ≠ "s3.session-token" → p "s3.session-token" = none →
      propsStep others p e "s3.session-token" = none := by
    intro p e he hp
    unfold propsStep
    cases hk : Key.fromStr others e.1 with
    | none => simp [Props.insert, hp, Ne.symm he]
    | some k =>
      cases k with
      | other s =>
        have hs : s ≠ "s3.session-token" := by
          intro es
          subst es
          unfold Key.fromStr at hk
          repeat' split at hk
          all_goals first | (simp only [Option.some.injEq, reduceCtorEq] at hk; done) | skip
          · simp only [Option.some.injEq, Key.other.injEq] at hk
            exact he hk
        simp [s3Props, Props.insert, Key.name, hp, Ne.symm hs]
      | _ => simp only [s3Props]; repeat' split
             all_goals simp_all [Props.insert, Key.name]
  have gen : ∀ (m : Map) (p : Props), (∀ e ∈ m, e.1 ≠ "s3.session-token") → p "s3.session-token" = none →
      m.foldl (propsStep others) p "s3.session-token" = none := by
    intro m
    induction m with
    | nil => intro p _ hp; exact hp
    | cons e m ih =>
      intro p hm hp
      exact ih _ (fun x hx => hm x (by simp [hx])) (step p e (hm e (by simp)) hp)
  exact gen m _ h rfl

/-- **C71 is violated by clashing options**: which of `region` and `aws_region` wins depends on the
order in which the hash map is iterated (it is random).  The same holds for the stores of Delta
tables. -/
theorem C71_violated_order (others : String → Bool) :
    fileIoProps others [("region", "a"), ("aws_region", "b")] "s3.region" = some "b" ∧
    fileIoProps others [("aws_region", "b"), ("region", "a")] "s3.region" = some "a" ∧
    (mapOptions others [("region", "a"), ("aws_region", "b")] (fun _ => none)).bind (· .region)
      = some "b" ∧
    (mapOptions others [("aws_region", "b"), ("region", "a")] (fun _ => none)).bind (· .region)
      = some "a" := by
  simp [fileIoProps, propsStep, Key.fromStr, s3Props, Props.insert, mapOptions]

end Seafowl.StoreOpts
