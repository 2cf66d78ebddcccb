import Verif.Context.External

/-!
# C110: an external table is read with the options it was created with

Proved: a statement that creates a table finds its files in the store its options (or, without options,
the settings of the internal store) describe (`C110_created`); later the table is read from this store
as long as no later statement names the same bucket with other settings (`C110_reads_partial`).  The
condition is needed: the store is found by the bucket alone, so any later statement for the bucket, even
one that fails or does nothing, redirects the tables that are there (`C110_violated`,
`C110_violated_failed`).
-/
namespace Seafowl.External
open StoreOpts

/-! ### specification -/

deriving instance DecidableEq for Except

/-- The S3 store for these settings: requests are signed if there is a key with its secret. -/
def s3For (bucket : String) (region endpoint id secret token : Option String) (allowHttp : Bool) : S3Store where
  bucket := bucket
  region := region.getD ""
  endpoint := endpoint
  auth := match id, secret with
    | some i, some s => .keys i s token
    | _, _ => .anonymous
  allowHttp := allowHttp
  conditionalPut := "etag"
  root := ""

/-- The store a statement asks for. -/
inductive Meant (env : Env) (cmd : Cmd) : Store → Prop where
  | builtin (n : Nat) (hs : cmd.loc.scheme = .other n) : Meant env cmd (.builtin n (cmd.loc.host.getD ""))
  | s3 (bucket : String) (hs : cmd.loc.scheme = .s3) (hh : cmd.loc.host = some bucket) (ho : cmd.options ≠ []) :
    Meant env cmd (.s3 (s3For bucket (cmd.options.get "format.region") (cmd.options.get "format.endpoint")
      (cmd.options.get "format.access_key_id") (cmd.options.get "format.secret_access_key")
      (cmd.options.get "format.session_token") (cmd.options.get "format.allow_http" != some "false")))
  | s3Internal (bucket : String) (c : S3Config) (hs : cmd.loc.scheme = .s3) (hh : cmd.loc.host = some bucket)
    (ho : cmd.options = []) (hc : env.internal = some (.s3 c)) :
    Meant env cmd (.s3 (s3For bucket c.region c.endpoint c.accessKeyId c.secretAccessKey c.sessionToken
      c.allowHttp))
  | gcs (bucket : String) (hs : cmd.loc.scheme = .gcs) (hh : cmd.loc.host = some bucket) (ho : cmd.options ≠ []) :
    Meant env cmd (.gcs bucket (cmd.options.get "format.google_application_credentials"))
  | gcsInternal (bucket : String) (c : GCSConfig) (hs : cmd.loc.scheme = .gcs) (hh : cmd.loc.host = some bucket)
    (ho : cmd.options = []) (hc : env.internal = some (.gcs c)) :
    Meant env cmd (.gcs bucket c.credentials)

/-- The two statements speak of the same bucket. -/
def SameBucket (a b : Cmd) : Prop :=
  a.loc.scheme = b.loc.scheme ∧ a.loc.host.getD "" = b.loc.host.getD ""

/-! ### options -/

theorem get_filter {m : Map} {p : String × String → Bool} {b : String}
    (hp : ∀ e : String × String, e.1 = b → p e = true) : Map.get (m.filter p) b = Map.get m b := by
  unfold Map.get
  rw [List.find?_filter]
  congr 2
  funext e
  by_cases h : e.1 = b
  · simp [h, hp e h]
  · simp [h]

theorem buildS3_ok {c : S3Config} {s : Store} (h : buildS3 c = .ok s) :
    s = .s3 (s3For c.bucket c.region c.endpoint c.accessKeyId c.secretAccessKey c.sessionToken c.allowHttp) := by
  unfold buildS3 at h
  split at h
  · next st hb =>
    simp only [Except.ok.injEq] at h
    subst h
    unfold S3Config.buildAmazonS3 at hb
    simp only at hb
    congr 1
    split at hb
    · next id sec h1 h2 =>
      simp only [Except.ok.injEq] at hb
      subst hb
      simp [s3For, h1, h2]
    · next hn =>
      split at hb
      · simp only [Except.ok.injEq] at hb
        subst hb
        simp only [s3For]
      · cases hb
  · cases h
  · cases h

theorem s3_options (bucket : String) (m : Map) :
    let c := (S3Config.fromBucketAndOptions bucket m).1
    c.bucket = bucket ∧ c.region = m.get "format.region" ∧ c.endpoint = m.get "format.endpoint" ∧
      c.accessKeyId = m.get "format.access_key_id" ∧ c.secretAccessKey = m.get "format.secret_access_key" ∧
      c.sessionToken = m.get "format.session_token" ∧
      c.allowHttp = (m.get "format.allow_http" != some "false") ∧
      c.skipSignature = (m.get "format.skip_signature" != some "false") := by
  have hb : ∀ o : Option String, (o.map (fun s => s != "false")).getD true = (o != some "false") := by
    intro o; cases o <;> simp [bne]
  simp only [S3Config.fromBucketAndOptions, Map.remove]
  simp only [List.filter_filter]
  refine ⟨trivial, trivial, ?_, ?_, ?_, ?_, ?_, ?_⟩
  iterate 4 exact get_filter (by intro e he; simp [he])
  iterate 2 rw [hb, get_filter (by intro e he; simp [he])]

/-! ### what preparing a statement does -/

/-- The store of the location is the meant one afterwards, and no other store has changed. -/
theorem prepare_ok {env : Env} {rt rt' : Rt} {cmd : Cmd} {m : Map} (h : prepare env rt cmd = (rt', .ok m))
    (hb : ∀ n host, rt.reg (.other n) host = some (.builtin n host)) :
    rt'.ext = rt.ext ∧ (∃ s, Meant env cmd s ∧ rt'.reg cmd.loc.scheme (cmd.loc.host.getD "") = some s) ∧
      ∀ sch host, ¬ (sch = cmd.loc.scheme ∧ host = cmd.loc.host.getD "") → rt'.reg sch host = rt.reg sch host := by
  unfold prepare at h
  split at h
  · next n hs =>
    simp only [Prod.mk.injEq] at h
    obtain ⟨rfl, -⟩ := h
    exact ⟨rfl, ⟨_, .builtin n hs, by rw [hs]; exact hb _ _⟩, fun _ _ _ => rfl⟩
  · simp at h
  · next host hs hh =>
    split at h
    · simp at h
    · next c m' hc =>
      split at h
      · simp at h
      · next s hbu =>
        simp only [Prod.mk.injEq] at h
        obtain ⟨rfl, -⟩ := h
        refine ⟨rfl, ⟨s, ?_, by simp [register, hs, hh]⟩, ?_⟩
        · have := buildS3_ok hbu
          subst this
          unfold s3Config at hc
          split at hc
          · next he =>
            split at hc
            · next c0 hi =>
              simp only [Except.ok.injEq, Prod.mk.injEq] at hc
              obtain ⟨rfl, -⟩ := hc
              exact .s3Internal host c0 hs hh (List.isEmpty_iff.1 he) hi
            · cases hc
          · next he =>
            simp only [Except.ok.injEq] at hc
            have h0 := s3_options host cmd.options
            rw [hc] at h0
            obtain ⟨h1, h2, h3, h4, h5, h6, h7, -⟩ := h0
            rw [h1, h2, h3, h4, h5, h6, h7]
            exact .s3 host hs hh (fun e => he (List.isEmpty_iff.2 e))
        · intro sch y hne
          simp only [register]
          rw [if_neg]
          rw [hs, hh] at hne
          exact hne
  · next host hs hh =>
    split at h
    · simp at h
    · next c m' hc =>
      split at h
      · simp at h
      · next s hbu =>
        simp only [Prod.mk.injEq] at h
        obtain ⟨rfl, -⟩ := h
        refine ⟨rfl, ⟨s, ?_, by simp [register, hs, hh]⟩, ?_⟩
        · unfold buildGcs at hbu
          split at hbu
          · simp only [Except.ok.injEq] at hbu
            subst hbu
            unfold gcsConfig at hc
            split at hc
            · next he =>
              split at hc
              · next c0 hi =>
                simp only [Except.ok.injEq, Prod.mk.injEq] at hc
                obtain ⟨rfl, -⟩ := hc
                exact .gcsInternal host c0 hs hh (List.isEmpty_iff.1 he) hi
              · cases hc
            · next he =>
              simp only [gcsFromBucketAndOptions, Map.remove, Except.ok.injEq, Prod.mk.injEq] at hc
              obtain ⟨rfl, -⟩ := hc
              exact .gcs host hs hh (fun e => he (List.isEmpty_iff.2 e))
          · cases hbu
        · intro sch y hne
          simp only [register]
          rw [if_neg]
          rw [hs, hh] at hne
          exact hne

theorem prepare_err {env : Env} {rt rt' : Rt} {cmd : Cmd} {e : Err} (h : prepare env rt cmd = (rt', .error e)) :
    rt' = rt := by
  unfold prepare at h
  split at h
  · simp at h
  · simp only [Prod.mk.injEq] at h; exact h.1.symm
  all_goals
    split at h
    · simp only [Prod.mk.injEq] at h; exact h.1.symm
    · split at h
      · simp only [Prod.mk.injEq] at h; exact h.1.symm
      · simp at h

/-- The built-in stores stay. -/
def Builtin (rt : Rt) : Prop := ∀ n host, rt.reg (.other n) host = some (.builtin n host)

theorem meant_fun {env : Env} {cmd : Cmd} {s s' : Store} (h : Meant env cmd s) (h' : Meant env cmd s') :
    s = s' := by
  cases h <;> cases h' <;> simp_all

theorem createListing_reg (env : Env) (rt : Rt) (cmd : Cmd) (m : Map) :
    (createListing env rt cmd m).1.reg = rt.reg := by
  unfold createListing
  split
  · rfl
  · split
    · rfl
    · split <;> rfl

theorem createListing_find (env : Env) (rt : Rt) (cmd : Cmd) (m : Map) (n : String) (e : String × Loc)
    (h : rt.ext.find? (·.1 == n) = some e) :
    (createListing env rt cmd m).1.ext.find? (·.1 == n) = some e := by
  unfold createListing
  split
  · exact h
  · split
    · exact h
    · split
      · exact h
      · simp [List.find?_append, h]

/-- What a statement can do to the stores. -/
theorem create_reg (env : Env) (rt : Rt) (cmd : Cmd) (hb : Builtin rt) (sch : Scheme) (host : String) :
    (create env rt cmd).1.reg sch host = rt.reg sch host ∨
      (sch = cmd.loc.scheme ∧ host = cmd.loc.host.getD "" ∧
        ∃ s, Meant env cmd s ∧ (create env rt cmd).1.reg sch host = some s) := by
  unfold create
  split
  · exact .inl rfl
  · split
    · next rt' e hp => rw [prepare_err hp]; exact .inl rfl
    · next rt' m hp =>
      obtain ⟨-, ⟨s, h1, h2⟩, h3⟩ := prepare_ok hp hb
      rw [createListing_reg]
      by_cases hk : sch = cmd.loc.scheme ∧ host = cmd.loc.host.getD ""
      · obtain ⟨rfl, rfl⟩ := hk
        exact .inr ⟨rfl, rfl, s, h1, h2⟩
      · exact .inl (h3 _ _ hk)

theorem create_builtin (env : Env) (rt : Rt) (cmd : Cmd) (hb : Builtin rt) : Builtin (create env rt cmd).1 := by
  intro n host
  rcases create_reg env rt cmd hb (.other n) host with h | ⟨h1, h2, s, h3, h4⟩
  · rw [h]; exact hb n host
  · rw [h4]
    cases h3 with
    | builtin m hs => rw [hs] at h1; cases h1; rw [h2]
    | s3 _ hs => rw [hs] at h1; cases h1
    | s3Internal _ _ hs => rw [hs] at h1; cases h1
    | gcs _ hs => rw [hs] at h1; cases h1
    | gcsInternal _ _ hs => rw [hs] at h1; cases h1

theorem exec_builtin (env : Env) (rt : Rt) (x : Stmt) (hb : Builtin rt) : Builtin (exec env rt x) := by
  cases x with
  | create cmd => exact create_builtin env rt cmd hb
  | drop name => exact hb

theorem execAll_builtin (env : Env) : ∀ (l : List Stmt) (rt : Rt), Builtin rt → Builtin (execAll env rt l)
  | [], _, h => h
  | x :: xs, rt, h => execAll_builtin env xs (exec env rt x) (exec_builtin env rt x h)

theorem create_find (env : Env) (rt : Rt) (cmd : Cmd) (hb : Builtin rt) (n : String) (e : String × Loc)
    (h : rt.ext.find? (·.1 == n) = some e) : (create env rt cmd).1.ext.find? (·.1 == n) = some e := by
  unfold create
  split
  · exact h
  · split
    · next rt' _ hp => rw [prepare_err hp]; exact h
    · next rt' m hp =>
      apply createListing_find
      rw [(prepare_ok hp hb).1]; exact h

theorem drop_find (rt : Rt) (name n : String) (hne : name ≠ n) (e : String × Loc)
    (h : rt.ext.find? (·.1 == n) = some e) : (drop rt name).ext.find? (·.1 == n) = some e := by
  simp only [drop, List.find?_filter]
  rw [← h]
  congr 1
  funext x
  by_cases hx : x.1 = n
  · simp [hx, Ne.symm hne]
  · simp [hx]

/-! ### C110 -/

/-- The name is not taken. -/
def Free (rt : Rt) (name : String) : Prop := ∀ e ∈ rt.ext, e.1 ≠ name

theorem free_find {rt : Rt} {n : String} (h : Free rt n) : rt.ext.find? (·.1 == n) = none := by
  rw [List.find?_eq_none]
  intro e he
  simpa using h e he

/-- What holds after a table has been created. -/
theorem created_state {env : Env} {rt : Rt} {cmd : Cmd} (hb : Builtin rt) (hf : Free rt cmd.name)
    (hok : (create env rt cmd).2 = .ok ()) :
    ∃ s d, Meant env cmd s ∧ env.files s cmd.loc.path = some d ∧
      (create env rt cmd).1.reg cmd.loc.scheme (cmd.loc.host.getD "") = some s ∧
      (create env rt cmd).1.ext = rt.ext ++ [(cmd.name, cmd.loc)] := by
  unfold create at hok ⊢
  split at hok
  · cases hok
  · next hint =>
    rw [if_neg hint]
    split at hok
    · cases hok
    · next rt' m hp =>
      obtain ⟨he, ⟨s, h1, h2⟩, -⟩ := prepare_ok hp hb
      unfold createListing at hok ⊢
      have hany : rt'.ext.any (·.1 == cmd.name) = false := by
        rw [he, List.any_eq_false]
        intro e hmem
        simpa using hf e hmem
      simp only [hany, Bool.false_eq_true, if_false] at hok ⊢
      split at hok
      · cases hok
      · next hfm =>
        simp only [hfm]
        split at hok
        · cases hok
        · next d hs =>
          have hs' := hs
          simp only [scan, h2] at hs'
          exact ⟨s, d, h1, hs', by simpa using h2, by simp [he]⟩

/-- C110, first part: a statement that creates a table has found its files in the store it asks for, and
right afterwards the table shows them; the other tables are still there. -/
theorem C110_created (env : Env) (l : List Stmt) (cmd : Cmd)
    (hf : Free (execAll env Rt.start l) cmd.name)
    (hok : (create env (execAll env Rt.start l) cmd).2 = .ok ()) :
    ∃ s d, Meant env cmd s ∧ env.files s cmd.loc.path = some d ∧
      select env (create env (execAll env Rt.start l) cmd).1 cmd.name = some d ∧
      (create env (execAll env Rt.start l) cmd).1.ext =
        (execAll env Rt.start l).ext ++ [(cmd.name, cmd.loc)] := by
  have hb := execAll_builtin env l Rt.start (fun _ _ => rfl)
  obtain ⟨s, d, h1, h2, h3, h4⟩ := created_state hb hf hok
  refine ⟨s, d, h1, h2, ?_, h4⟩
  simp only [select, h4, List.find?_append, free_find hf]
  simp [scan, h3, h2]

/-- C110, GCS: a bucket is registered exactly if the library takes its settings; otherwise the statement fails. -/
theorem C110_gcs (env : Env) (rt : Rt) (name bucket path credentials : String) (ine : Bool)
    (hi : env.internal.isSome) :
    let cmd : Cmd := ⟨name, ⟨.gcs, some bucket, path⟩, [("format.google_application_credentials", credentials)], ine⟩
    let r := create env rt cmd
    (env.gcsOk ⟨bucket, none, some credentials⟩ = true → r.1.reg .gcs bucket = some (.gcs bucket (some credentials))) ∧
    (env.gcsOk ⟨bucket, none, some credentials⟩ = false → r = (rt, .error .error)) := by
  have hn : env.internal.isNone = false := by simpa using hi
  have hc : gcsFromBucketAndOptions bucket [("format.google_application_credentials", credentials)] =
      (⟨bucket, none, some credentials⟩, []) := by
    simp [gcsFromBucketAndOptions, Map.remove, Map.get]
  constructor
  · intro hg
    simp only [create, hn, Bool.false_eq_true, if_false, prepare, gcsConfig, List.isEmpty_cons, hc, buildGcs, hg, if_true,
      createListing_reg]
    simp [register]
  · intro hg
    simp [create, hn, prepare, gcsConfig, hc, buildGcs, hg]

/-- Both cases occur. -/
example : (create ⟨some .other, fun _ _ => some 1, fun _ => true, fun _ => true⟩ Rt.start
      ⟨"t", ⟨.gcs, some "b", "f"⟩, [("format.google_application_credentials", "key")], false⟩).2 = .ok () ∧
    (create ⟨some .other, fun _ _ => some 1, fun _ => false, fun _ => true⟩ Rt.start
      ⟨"t", ⟨.gcs, some "b", "f"⟩, [("format.google_application_credentials", "key")], false⟩).2 = .error .error := by
  decide +kernel

/-- The invariant of the history after the creation. -/
theorem reads_later (env : Env) (n : String) (loc : Loc) (s : Store) : ∀ (l : List Stmt) (rt : Rt),
    Builtin rt → rt.ext.find? (·.1 == n) = some (n, loc) → rt.reg loc.scheme (loc.host.getD "") = some s →
    Stmt.drop n ∉ l →
    (∀ c, Stmt.create c ∈ l → c.loc.scheme = loc.scheme → c.loc.host.getD "" = loc.host.getD "" →
      ∀ s', Meant env c s' → s' = s) →
    select env (execAll env rt l) n = env.files s loc.path
  | [], rt, _, hfind, hreg, _, _ => by simp [execAll, select, hfind, scan, hreg]
  | .create c :: l, rt, hb, hfind, hreg, hd, hc => by
    refine reads_later env n loc s l (create env rt c).1 (create_builtin env rt c hb)
      (create_find env rt c hb n _ hfind) ?_ (fun h => hd (by simp [h])) (fun c' h => hc c' (by simp [h]))
    rcases create_reg env rt c hb loc.scheme (loc.host.getD "") with h | ⟨h1, h2, s', h3, h4⟩
    · rw [h]; exact hreg
    · rw [h4, hc c (by simp) h1.symm h2.symm s' h3]
  | .drop name :: l, rt, hb, hfind, hreg, hd, hc => by
    have hne : name ≠ n := fun e => hd (by simp [e])
    exact reads_later env n loc s l (drop rt name) hb (drop_find rt name n hne _ hfind) hreg
      (fun h => hd (by simp [h])) (fun c' h => hc c' (by simp [h]))

/-- C110, second part: after any further statements of any sessions the table, unless dropped, shows the
files of the store it was created with, if no later statement asks for another store for the same bucket.
(The bucket of local files and of HTTP is never asked otherwise.)  Missing: that condition. -/
theorem C110_reads_partial (env : Env) (l1 l2 : List Stmt) (cmd : Cmd)
    (hf : Free (execAll env Rt.start l1) cmd.name)
    (hok : (create env (execAll env Rt.start l1) cmd).2 = .ok ())
    (hd : Stmt.drop cmd.name ∉ l2) (s : Store) (hs : Meant env cmd s)
    (hsame : ∀ c, Stmt.create c ∈ l2 → SameBucket c cmd → ∀ s', Meant env c s' → s' = s) :
    select env (execAll env Rt.start (l1 ++ .create cmd :: l2)) cmd.name = env.files s cmd.loc.path := by
  have hb := execAll_builtin env l1 Rt.start (fun _ _ => rfl)
  obtain ⟨s', d, h1, h2, h3, h4⟩ := created_state hb hf hok
  have := meant_fun hs h1
  subst this
  have he : execAll env Rt.start (l1 ++ .create cmd :: l2) =
      execAll env (create env (execAll env Rt.start l1) cmd).1 l2 := by
    simp [execAll, exec]
  rw [he]
  refine reads_later env cmd.name cmd.loc s l2 _ (create_builtin env _ cmd hb) ?_ h3 hd
    (fun c hc h5 h6 => hsame c hc ⟨h5, h6⟩)
  simp [h4, List.find?_append, free_find hf]

/-- Tables on local files and over HTTP keep their store whatever else is created. -/
theorem C110_builtin (env : Env) (l1 l2 : List Stmt) (cmd : Cmd) (n : Nat) (hsch : cmd.loc.scheme = .other n)
    (hf : Free (execAll env Rt.start l1) cmd.name)
    (hok : (create env (execAll env Rt.start l1) cmd).2 = .ok ()) (hd : Stmt.drop cmd.name ∉ l2) :
    select env (execAll env Rt.start (l1 ++ .create cmd :: l2)) cmd.name =
      env.files (.builtin n (cmd.loc.host.getD "")) cmd.loc.path := by
  refine C110_reads_partial env l1 l2 cmd hf hok hd _ (.builtin n hsch) ?_
  intro c _ hb s' hs'
  have h1 : c.loc.scheme = .other n := hb.1.trans hsch
  cases hs' with
  | builtin m hm => rw [h1] at hm; cases hm; rw [hb.2]
  | s3 _ hm => rw [h1] at hm; cases hm
  | s3Internal _ _ hm => rw [h1] at hm; cases hm
  | gcs _ hm => rw [h1] at hm; cases hm
  | gcsInternal _ _ hm => rw [h1] at hm; cases hm

/-! ### cases -/

/-- The bucket `b` holds file 1 at endpoint `a` and file 2 at endpoint `z`; the internal store is local. -/
def demoEnv : Env where
  internal := some .other
  files s p :=
    match s with
    | .s3 st => if p = "f" then (if st.endpoint = some "a" then some 1 else some 2) else none
    | .gcs _ _ => none
    | .builtin _ _ => some 7
  gcsOk _ := true
  formatOk _ := true

def tableAt (name endpoint : String) (ine : Bool) : Cmd :=
  ⟨name, ⟨.s3, some "b", "f"⟩, [("format.endpoint", endpoint)], ine⟩

/-- The hypotheses of `C110_reads_partial`: a table, then others for the same bucket with the same
settings and for another bucket, and a local one. -/
example :
    let l1 : List Stmt := [.create ⟨"x", ⟨.other 0, none, "g"⟩, [], false⟩]
    let l2 : List Stmt := [.create (tableAt "u" "a" false), .drop "x",
      .create ⟨"v", ⟨.s3, some "c", "f"⟩, [("format.endpoint", "z")], false⟩]
    (create demoEnv (execAll demoEnv Rt.start l1) (tableAt "t" "a" false)).2 = .ok () ∧
    select demoEnv (execAll demoEnv Rt.start (l1 ++ .create (tableAt "t" "a" false) :: l2)) "t" = some 1 ∧
    select demoEnv (execAll demoEnv Rt.start (l1 ++ .create (tableAt "t" "a" false) :: l2)) "v" = some 2 := by
  intro l1 l2
  decide +kernel

example (s s' : Store) (h : Meant demoEnv (tableAt "t" "a" false) s) (h' : Meant demoEnv (tableAt "u" "a" false) s') :
    s' = s := by
  have : Meant demoEnv (tableAt "t" "a" false) s' := by
    cases h' with
    | builtin n hs => cases hs
    | s3 b hs hh ho => exact .s3 b hs hh ho
    | s3Internal b c hs hh ho => cases ho
    | gcs b hs => cases hs
    | gcsInternal b c hs => cases hs
  exact (meant_fun h this).symm

/-! ### violations -/

/-- **C110 is violated**: a second table in a bucket of the same name at another endpoint redirects the
first one. -/
theorem C110_violated :
    select demoEnv (execAll demoEnv Rt.start [.create (tableAt "t" "a" false)]) "t" = some 1 ∧
    select demoEnv (execAll demoEnv Rt.start [.create (tableAt "t" "a" false), .create (tableAt "u" "z" false)])
      "t" = some 2 := by decide +kernel

/-- Preparing fails only with these errors. -/
theorem prepare_kinds {env : Env} {rt rt' : Rt} {cmd : Cmd} {e : Err} (h : prepare env rt cmd = (rt', .error e)) :
    e = .error ∨ e = .panic := by
  unfold prepare at h
  split at h
  · cases h
  · simp only [Prod.mk.injEq, Except.error.injEq] at h
    exact .inl h.2.symm
  · split at h
    · next e' hc =>
      simp only [Prod.mk.injEq, Except.error.injEq] at h
      obtain ⟨-, rfl⟩ := h
      unfold s3Config at hc
      split at hc
      · split at hc
        · cases hc
        · cases hc; exact .inl rfl
      · cases hc
    · split at h
      · next e' hc =>
        simp only [Prod.mk.injEq, Except.error.injEq] at h
        obtain ⟨-, rfl⟩ := h
        unfold buildS3 at hc
        split at hc
        · cases hc
        · cases hc; exact .inl rfl
        · cases hc; exact .inr rfl
      · cases h
  · split at h
    · next e' hc =>
      simp only [Prod.mk.injEq, Except.error.injEq] at h
      obtain ⟨-, rfl⟩ := h
      unfold gcsConfig at hc
      split at hc
      · split at hc
        · cases hc
        · cases hc; exact .inl rfl
      · cases hc
    · split at h
      · next e' hc =>
        simp only [Prod.mk.injEq, Except.error.injEq] at h
        obtain ⟨-, rfl⟩ := h
        unfold buildGcs at hc
        split at hc
        · cases hc
        · cases hc; exact .inl rfl
      · cases h

/-- Whatever the history: a later statement for the bucket of a table, successful or failing because its table exists
already, its files do not or its format options are wrong, makes the table show the files of the store of *this*
statement. -/
theorem C110_violated_always (env : Env) (l1 l2 : List Stmt) (cmd c : Cmd)
    (hf : Free (execAll env Rt.start l1) cmd.name)
    (hok : (create env (execAll env Rt.start l1) cmd).2 = .ok ())
    (hd : Stmt.drop cmd.name ∉ l2) (hb : SameBucket c cmd) (s : Store) (hs : Meant env c s)
    (hc : (create env (execAll env Rt.start (l1 ++ .create cmd :: l2)) c).2 ∈
      [.ok (), .error .exists_, .error .notFound, .error .badOption]) :
    select env (execAll env Rt.start (l1 ++ .create cmd :: l2 ++ [.create c])) cmd.name = env.files s cmd.loc.path := by
  have key : ∀ (l : List Stmt) (rt : Rt), Builtin rt → rt.ext.find? (·.1 == cmd.name) = some (cmd.name, cmd.loc) →
      Stmt.drop cmd.name ∉ l → (execAll env rt l).ext.find? (·.1 == cmd.name) = some (cmd.name, cmd.loc) := by
    intro l
    induction l with
    | nil => intro rt _ h _; exact h
    | cons x l ih =>
      intro rt hb h hd
      refine ih (exec env rt x) (exec_builtin env rt x hb) ?_ (fun h => hd (by simp [h]))
      cases x with
      | create c => exact create_find env rt c hb _ _ h
      | drop n => exact drop_find rt n _ (fun e => hd (by simp [e])) _ h
  have hB := execAll_builtin env l1 Rt.start (fun _ _ => rfl)
  obtain ⟨s', d, h1, h2, h3, h4⟩ := created_state hB hf hok
  have he : execAll env Rt.start (l1 ++ .create cmd :: l2) =
      execAll env (create env (execAll env Rt.start l1) cmd).1 l2 := by
    simp [execAll, exec]
  have he2 : execAll env Rt.start (l1 ++ .create cmd :: l2 ++ [.create c]) =
      (create env (execAll env Rt.start (l1 ++ .create cmd :: l2)) c).1 := by
    simp [execAll, exec]
  have hfind := key l2 _ (create_builtin env _ cmd hB) (by simp [h4, List.find?_append, free_find hf]) hd
  rw [← he] at hfind
  have hB2 := execAll_builtin env (l1 ++ .create cmd :: l2) Rt.start (fun _ _ => rfl)
  rw [he2]
  have hfind2 := create_find env _ c hB2 _ _ hfind
  generalize execAll env Rt.start (l1 ++ .create cmd :: l2) = rt at *
  have hreg : (create env rt c).1.reg cmd.loc.scheme (cmd.loc.host.getD "") = some s := by
    rw [← hb.1, ← hb.2]
    unfold create at hc ⊢
    split at hc
    · simp at hc
    · next hi =>
      rw [if_neg hi]
      split at hc
      · next e hp =>
        simp only [List.mem_cons, Except.error.injEq, reduceCtorEq, List.not_mem_nil, or_false, false_or] at hc
        rcases prepare_kinds hp with rfl | rfl <;> simp at hc
      · next rt' m hp =>
        obtain ⟨-, ⟨s2, h5, h6⟩, -⟩ := prepare_ok hp hB2
        rw [createListing_reg, h6, meant_fun h5 hs]
  simp [select, hfind2, scan, hreg]

/-- A statement that fails, or that does nothing because of IF NOT EXISTS, redirects it as well, and so
does dropping the second table not bring the first one back. -/
theorem C110_violated_failed :
    let rt := execAll demoEnv Rt.start [.create (tableAt "t" "a" false)]
    (create demoEnv rt (tableAt "t" "z" false)).2 = .error .exists_ ∧
    select demoEnv (create demoEnv rt (tableAt "t" "z" false)).1 "t" = some 2 ∧
    (create demoEnv rt (tableAt "t" "z" true)).2 = .ok () ∧
    select demoEnv (create demoEnv rt (tableAt "t" "z" true)).1 "t" = some 2 ∧
    select demoEnv (execAll demoEnv rt [.create (tableAt "u" "z" false), .drop "u"]) "t" = some 2 := by
  intro rt
  decide +kernel

/-- Without options a bucket can only be read if the internal store is of the same kind: public buckets
are refused otherwise. -/
theorem C110_violated_public (env : Env) (rt : Rt) (name bucket path : String) (ine : Bool)
    (h : ∀ c, env.internal ≠ some (.s3 c)) :
    ∃ e, create env rt ⟨name, ⟨.s3, some bucket, path⟩, [], ine⟩ = (rt, .error e) := by
  cases hi : env.internal with
  | none => exact ⟨.noStore, by simp [create, hi]⟩
  | some i =>
    cases i with
    | s3 c => exact absurd hi (h c)
    | gcs c => exact ⟨.error, by simp [create, hi, prepare, s3Config]⟩
    | other => exact ⟨.error, by simp [create, hi, prepare, s3Config]⟩

/-- Asking for signed requests without keys panics. -/
theorem C110_violated_panic (env : Env) (rt : Rt) (name bucket path : String) (ine : Bool)
    (h : env.internal.isSome) :
    create env rt ⟨name, ⟨.s3, some bucket, path⟩, [("format.skip_signature", "false")], ine⟩ =
      (rt, .error .panic) := by
  have : env.internal.isNone = false := by simpa using h
  have hc : buildS3 (S3Config.fromBucketAndOptions bucket [("format.skip_signature", "false")]).1 =
      .error .panic := by
    obtain ⟨-, -, -, h4, -, -, -, h8⟩ := s3_options bucket [("format.skip_signature", "false")]
    have e4 : Map.get [("format.skip_signature", "false")] "format.access_key_id" = none := by decide +kernel
    have e8 : (Map.get [("format.skip_signature", "false")] "format.skip_signature" != some "false") = false := by
      decide +kernel
    rw [e4] at h4
    rw [e8] at h8
    simp only [buildS3, S3Config.buildAmazonS3, h4, h8, Bool.false_eq_true, if_false]
  simp only [create, this, prepare, s3Config, List.isEmpty_cons, Bool.false_eq_true, if_false, hc]

end Seafowl.External
