import Verif.Misc.StoreEnv

/-!
# C99: the options of a location win over the environment
-/

namespace Seafowl.StoreOpts

/-! ### specification -/

/-- Some entry of the list stands for the key `k` and has the value `v`. -/
def Given {κ : Type} (read : String → Option κ) (m : Map) (k : κ) (v : String) : Prop :=
  ∃ name, (name, v) ∈ m ∧ read name = some k

/-- No entry of the list stands for the key. -/
def Absent {κ : Type} (read : String → Option κ) (m : Map) (k : κ) : Prop := ∀ e ∈ m, read e.1 ≠ some k

/-- Entries for the same key agree. -/
def Agree {κ : Type} (read : String → Option κ) (m : Map) : Prop :=
  ∀ k v v', Given read m k v → Given read m k v' → v = v'

/-! ### lemmas -/

theorem fold_or_insert {κ : Type} [DecidableEq κ] (read : String → Option κ) (env : Map) :
    ∀ (o : κ → Option String) (q : κ),
    (env.foldl (fun o e => orInsert (read e.1) e.2 o) o) q =
    match o q with
    | some v => some v
    | none => (env.find? (fun e => decide (read e.1 = some q))).map (·.2) := by
  induction env with
  | nil => intro o q; simp; cases o q <;> rfl
  | cons e env ih =>
    intro o q
    simp only [List.foldl_cons, ih, orInsert]
    by_cases hq : read e.1 = some q
    · simp [hq]
      cases o q <;> rfl
    · simp [hq]

theorem find_given {κ : Type} [DecidableEq κ] {read : String → Option κ} {m : Map} (ha : Agree read m) {k : κ}
    {v : String} (h : Given read m k v) :
    (m.find? (fun e => decide (read e.1 = some k))).map (·.2) = some v := by
  obtain ⟨name, hm, hr⟩ := h
  cases hf : m.find? (fun e => decide (read e.1 = some k)) with
  | none =>
    rw [List.find?_eq_none] at hf
    exact absurd hr (by simpa using hf _ hm)
  | some e =>
    have h1 := List.mem_of_find?_eq_some hf
    have h2 := List.find?_some hf
    simp only [decide_eq_true_eq] at h2
    simp only [Option.map_some, Option.some.injEq]
    exact ha k e.2 v ⟨e.1, h1, h2⟩ ⟨name, hm, hr⟩

theorem find_absent {κ : Type} [DecidableEq κ] {read : String → Option κ} {m : Map} {k : κ} (h : Absent read m k) :
    (m.find? (fun e => decide (read e.1 = some k))).map (·.2) = none := by
  rw [Option.map_eq_none_iff, List.find?_eq_none]
  intro e he
  simpa using h e he

/-- The result of `mapOptions`, for one key. -/
theorem mapOptions_spec (others : String → Bool) : ∀ (m : Map) (acc o : KeyMap), mapOptions others m acc = some o →
    ∀ k, (Absent (Key.fromStr others) m k → o k = acc k) ∧
      (∀ v, Agree (Key.fromStr others) m → Given (Key.fromStr others) m k v → o k = some v) := by
  intro m
  induction m with
  | nil =>
    intro acc o h k
    injection h with h
    subst h
    exact ⟨fun _ => rfl, fun v _ hg => by obtain ⟨_, hm, _⟩ := hg; cases hm⟩
  | cons e m ih =>
    intro acc o h k
    obtain ⟨name, val⟩ := e
    simp only [mapOptions] at h
    cases hr : Key.fromStr others name with
    | none => rw [hr] at h; cases h
    | some key =>
      rw [hr] at h
      simp only at h
      obtain ⟨h1, h2⟩ := ih _ o h k
      constructor
      · intro ha
        have hk : k ≠ key := by
          intro he
          exact ha (name, val) (by simp) (by rw [he]; exact hr)
        rw [h1 (fun e he => ha e (by simp [he]))]
        simp [hk]
      · intro v hag hg
        have hag' : Agree (Key.fromStr others) m := fun k v v' ⟨n, hn, hr⟩ ⟨n', hn', hr'⟩ =>
          hag k v v' ⟨n, by simp [hn], hr⟩ ⟨n', by simp [hn'], hr'⟩
        by_cases hin : Absent (Key.fromStr others) m k
        · obtain ⟨n, hn, hrn⟩ := hg
          rcases List.mem_cons.1 hn with hn | hn
          · obtain ⟨rfl, rfl⟩ := Prod.mk.inj hn
            rw [h1 hin]
            rw [hr] at hrn
            injection hrn with hrn
            simp [hrn]
          · exact absurd hrn (hin _ hn)
        · have : ∃ v', Given (Key.fromStr others) m k v' := by
            simp only [Absent, Classical.not_forall, Classical.not_not] at hin
            obtain ⟨e, he, hre⟩ := hin
            exact ⟨e.2, e.1, he, hre⟩
          obtain ⟨v', hg'⟩ := this
          rw [h2 v' hag' hg']
          have : v' = v := hag k v' v (by obtain ⟨n, hn, hr⟩ := hg'; exact ⟨n, by simp [hn], hr⟩) hg
          rw [this]

theorem mapOptions_defined (others : String → Bool) : ∀ (m : Map) (acc : KeyMap),
    (∀ e ∈ m, Key.fromStr others e.1 ≠ none) → ∃ o, mapOptions others m acc = some o := by
  intro m
  induction m with
  | nil => intro acc _; exact ⟨acc, rfl⟩
  | cons e m ih =>
    intro acc h
    obtain ⟨name, val⟩ := e
    simp only [mapOptions]
    cases hr : Key.fromStr others name with
    | none => exact absurd hr (h (name, val) (by simp))
    | some key => exact ih _ (fun e he => h e (by simp [he]))

theorem mapOptions_unknown (others : String → Bool) : ∀ (m : Map) (acc : KeyMap) (e : String × String), e ∈ m →
    Key.fromStr others e.1 = none → mapOptions others m acc = none := by
  intro m
  induction m with
  | nil => intro _ _ h; cases h
  | cons x m ih =>
    intro acc e he hr
    obtain ⟨name, val⟩ := x
    simp only [mapOptions]
    rcases List.mem_cons.1 he with rfl | he
    · simp only at hr; rw [hr]
    · cases Key.fromStr others name with
      | none => rfl
      | some key => exact ih _ e he hr

theorem envLoop_eq (others : String → Bool) (env : Map) (o : KeyMap) (q : Key) :
    envLoop others env o q = match o q with
      | some v => some v
      | none => (env.find? (fun e => decide (Key.ofVar others e.1 = some q))).map (·.2) :=
  fold_or_insert (Key.ofVar others) env o q

theorem addSpecific_given {detect : Option String} {o o' : KeyMap} (h : addSpecific detect o = some o') (k : Key)
    {v : String} (hk : o k = some v) : o' k = some v := by
  simp only [addSpecific] at h
  split at h
  · next hr =>
    cases hd : detect with
    | none => rw [hd] at h; cases h
    | some r =>
      rw [hd] at h
      simp only [Option.some.injEq] at h
      subst h
      have : k ≠ .region := by intro he; rw [he, hr.1] at hk; cases hk
      by_cases hc : k = .conditionalPut
      · subst hc; simp [hk]
      · simp [hc, this, hk]
  · simp only [Option.some.injEq] at h
    subst h
    by_cases hc : k = .conditionalPut
    · subst hc; simp [hk]
    · simp [hc, hk]

theorem addSpecific_none {detect : Option String} {o o' : KeyMap} (h : addSpecific detect o = some o') (k : Key)
    (hk : o k = none) (h1 : k ≠ .region ∨ o .endpoint ≠ none) (h2 : k ≠ .conditionalPut) : o' k = none := by
  simp only [addSpecific] at h
  split at h
  · next hr =>
    cases hd : detect with
    | none => rw [hd] at h; cases h
    | some r =>
      rw [hd] at h
      simp only [Option.some.injEq] at h
      subst h
      have h3 : k ≠ .region := by
        rcases h1 with h1 | h1
        · exact h1
        · exact absurd hr.2 h1
      simp [h2, h3, hk]
  · simp only [Option.some.injEq] at h
    subst h
    simp [h2, hk]

theorem s3Settings_ok {others : String → Bool} {detect : Option String} {env m : Map} {s : KeyMap}
    (h : s3Settings others detect env m = .ok s) :
    ∃ o o', mapOptions others m (fun _ => none) = some o ∧ addSpecific detect o = some o' ∧
      s = addEnvironment others env o' := by
  simp only [s3Settings] at h
  split at h
  · cases h
  · next o ho =>
    split at h
    · cases h
    · next o' ho' =>
      injection h with h
      exact ⟨o, o', ho, ho', h.symm⟩

/-! ### S3 -/

/-- **C99** for S3: an option that is given is in force, whatever the environment holds and however it is spelled. -/
theorem C99_given {others : String → Bool} {detect : Option String} {env m : Map} {s : KeyMap}
    (h : s3Settings others detect env m = .ok s) (ha : Agree (Key.fromStr others) m) (k : Key) (v : String)
    (hg : Given (Key.fromStr others) m k v) : s k = some v := by
  obtain ⟨o, o', h1, h2, rfl⟩ := s3Settings_ok h
  have h3 := addSpecific_given h2 k ((mapOptions_spec others m _ o h1 k).2 v ha hg)
  simp only [addEnvironment, allowHttpVar, envLoop_eq, h3]
  split <;> rfl

/-- **C99** for S3, as far as it holds: what is not given comes from the environment.  Missing: the region when no
endpoint is given (`C99_violated_region`). -/
theorem C99_environment_partial {others : String → Bool} {detect : Option String} {env m : Map} {s : KeyMap}
    (h : s3Settings others detect env m = .ok s) (k : Key) (hk : Absent (Key.fromStr others) m k)
    (hr : k ≠ .region ∨ ∃ v, Agree (Key.fromStr others) m ∧ Given (Key.fromStr others) m .endpoint v)
    (hc : k ≠ .conditionalPut) :
    (∀ v, Agree (Key.ofVar others) env → Given (Key.ofVar others) env k v → s k = some v) ∧
    (Absent (Key.ofVar others) env k → (k = .allowHttp → env.get "ALLOW_HTTP" ≠ some "true") → s k = none) := by
  obtain ⟨o, o', h1, h2, rfl⟩ := s3Settings_ok h
  have h0 := (mapOptions_spec others m _ o h1 k).1 hk
  have h3 : o' k = none := by
    refine addSpecific_none h2 k h0 ?_ hc
    rcases hr with hr | ⟨v, ha, hg⟩
    · exact Or.inl hr
    · right
      rw [(mapOptions_spec others m _ o h1 .endpoint).2 v ha hg]
      simp
  constructor
  · intro v ha hg
    simp only [addEnvironment, allowHttpVar, envLoop_eq, h3, find_given ha hg]
    split <;> rfl
  · intro hn hh
    simp only [addEnvironment, allowHttpVar, envLoop_eq, h3, find_absent hn]
    rw [if_neg]
    rintro ⟨h4, h5⟩
    exact hh h4 h5

/-- Writes are conditional unless the options say otherwise: the environment has no influence. -/
theorem C99_conditional_put {others : String → Bool} {detect : Option String} {env m : Map} {s : KeyMap}
    (h : s3Settings others detect env m = .ok s) (hk : Absent (Key.fromStr others) m .conditionalPut) :
    s .conditionalPut = some "etag" := by
  obtain ⟨o, o', h1, h2, rfl⟩ := s3Settings_ok h
  have h0 := (mapOptions_spec others m _ o h1 .conditionalPut).1 hk
  have h3 : o' .conditionalPut = some "etag" := by
    simp only [addSpecific] at h2
    split at h2
    · cases hd : detect with
      | none => rw [hd] at h2; cases h2
      | some r =>
        rw [hd] at h2
        simp only [Option.some.injEq] at h2
        subst h2
        simp [h0]
    · simp only [Option.some.injEq] at h2
      subst h2
      simp [h0]
  simp [addEnvironment, allowHttpVar, envLoop_eq, h3]

/-- An option that the library does not know is an error, never ignored; known ones are accepted if the region or the
endpoint is given or the region can be found out. -/
theorem C99_known (others : String → Bool) (detect : Option String) (env m : Map) :
    ((∃ e ∈ m, Key.fromStr others e.1 = none) → s3Settings others detect env m = .error .error) ∧
    ((∀ e ∈ m, Key.fromStr others e.1 ≠ none) →
      (detect ≠ none ∨ ∃ v, Agree (Key.fromStr others) m ∧
        (Given (Key.fromStr others) m .region v ∨ Given (Key.fromStr others) m .endpoint v)) →
      ∃ s, s3Settings others detect env m = .ok s) := by
  constructor
  · rintro ⟨e, he, hr⟩
    simp only [s3Settings, mapOptions_unknown others m _ e he hr]
  · intro hk hd
    obtain ⟨o, ho⟩ := mapOptions_defined others m (fun _ => none) hk
    have hs : ∃ o', addSpecific detect o = some o' := by
      simp only [addSpecific]
      split
      · next hno =>
        cases hdt : detect with
        | some r => exact ⟨_, rfl⟩
        | none =>
          rcases hd with hd | ⟨v, ha, hg | hg⟩
          · exact absurd hdt hd
          · have := (mapOptions_spec others m _ o ho .region).2 v ha hg
            rw [hno.1] at this; cases this
          · have := (mapOptions_spec others m _ o ho .endpoint).2 v ha hg
            rw [hno.2] at this; cases this
      · exact ⟨_, rfl⟩
    obtain ⟨o', ho'⟩ := hs
    simp only [s3Settings, ho, ho']
    exact ⟨_, rfl⟩

/-- **C99 is violated** for the region: if neither region nor endpoint is given, the region is the one found out by a
request to Amazon, whatever `AWS_REGION` says; and if that request fails the server panics, even if `AWS_REGION` or
`AWS_ENDPOINT` are set. -/
theorem C99_violated_region (others : String → Bool) (detect : Option String) (env m : Map)
    (hkn : ∀ e ∈ m, Key.fromStr others e.1 ≠ none)
    (h1 : Absent (Key.fromStr others) m .region) (h2 : Absent (Key.fromStr others) m .endpoint) :
    match detect with
    | none => s3Settings others detect env m = .error .panic
    | some r => ∃ s, s3Settings others detect env m = .ok s ∧ s .region = some r := by
  obtain ⟨o, ho⟩ := mapOptions_defined others m (fun _ => none) hkn
  have hr := (mapOptions_spec others m _ o ho .region).1 h1
  have he := (mapOptions_spec others m _ o ho .endpoint).1 h2
  cases detect with
  | none => simp [s3Settings, ho, addSpecific, hr, he]
  | some r =>
    simp only [s3Settings, ho, addSpecific, hr, he, and_self, if_true]
    refine ⟨_, rfl, ?_⟩
    simp [addEnvironment, allowHttpVar, envLoop_eq]

/-- **C99 is violated** for credentials: with keys in the options, a session token of the environment is sent along with
them, one half of a pair is completed with the other half of the environment's pair, and `AWS_SKIP_SIGNATURE` switches
the given keys off. -/
theorem C99_violated_credentials :
    ((s3Store (fun _ => false) none [("AWS_SESSION_TOKEN", "env")] "b" ""
        [("region", "r"), ("access_key_id", "id"), ("secret_access_key", "sec")]).map (·.auth)).toOption =
      some (.keys "id" "sec" (some "env")) ∧
    ((s3Store (fun _ => false) none [("AWS_ACCESS_KEY_ID", "envid"), ("AWS_SECRET_ACCESS_KEY", "envsec")] "b" ""
        [("region", "r"), ("access_key_id", "id")]).map (·.auth)).toOption = some (.keys "id" "envsec" none) ∧
    ((s3Store (fun _ => false) none [("AWS_SKIP_SIGNATURE", "true")] "b" ""
        [("region", "r"), ("access_key_id", "id"), ("secret_access_key", "sec")]).map (·.auth)).toOption =
      some .anonymous := by
  decide +kernel

/-- Whatever the options and the environment: the session token of the environment is sent along with the given keys,
unless requests are not signed at all. -/
theorem C99_violated_token {others : String → Bool} {detect : Option String} {env m : Map} {s : KeyMap} (bucket path : String)
    (h : s3Settings others detect env m = .ok s) (ha : Agree (Key.fromStr others) m) (hae : Agree (Key.ofVar others) env)
    (id sec tok : String) (h1 : Given (Key.fromStr others) m .accessKeyId id)
    (h2 : Given (Key.fromStr others) m .secretAccessKey sec) (h3 : Absent (Key.fromStr others) m .token)
    (h4 : Given (Key.ofVar others) env .token tok) (hs : s .skipSignature ≠ some "true") :
    ∃ st, s3Store others detect env bucket path m = .ok st ∧ st.auth = .keys id sec (some tok) := by
  have e1 := C99_given h ha _ _ h1
  have e2 := C99_given h ha _ _ h2
  have e3 := (C99_environment_partial h .token h3 (.inl (by decide)) (by decide)).1 tok hae h4
  simp only [s3Store, h, buildFromKeys, e1, e2, e3]
  refine ⟨_, rfl, ?_⟩
  simp [hs]

/-- Whatever the options and the environment: half a pair of keys is completed with the other half of the environment's
pair. -/
theorem C99_violated_half {others : String → Bool} {detect : Option String} {env m : Map} {s : KeyMap} (bucket path : String)
    (h : s3Settings others detect env m = .ok s) (ha : Agree (Key.fromStr others) m) (hae : Agree (Key.ofVar others) env)
    (id sec : String) (h1 : Given (Key.fromStr others) m .accessKeyId id)
    (h2 : Absent (Key.fromStr others) m .secretAccessKey)
    (h4 : Given (Key.ofVar others) env .secretAccessKey sec) (hs : s .skipSignature ≠ some "true") :
    ∃ st tok, s3Store others detect env bucket path m = .ok st ∧ st.auth = .keys id sec tok := by
  have e1 := C99_given h ha _ _ h1
  have e2 := (C99_environment_partial h .secretAccessKey h2 (.inl (by decide)) (by decide)).1 sec hae h4
  simp only [s3Store, h, buildFromKeys, e1, e2]
  refine ⟨_, s .token, rfl, ?_⟩
  simp [hs]

/-- Whatever the options and the environment: `AWS_SKIP_SIGNATURE` of the environment switches given keys off. -/
theorem C99_violated_skip {others : String → Bool} {detect : Option String} {env m : Map} {s : KeyMap} (bucket path : String)
    (h : s3Settings others detect env m = .ok s) (ha : Agree (Key.fromStr others) m) (hae : Agree (Key.ofVar others) env)
    (id sec : String) (h1 : Given (Key.fromStr others) m .accessKeyId id)
    (h2 : Given (Key.fromStr others) m .secretAccessKey sec) (h3 : Absent (Key.fromStr others) m .skipSignature)
    (h4 : Given (Key.ofVar others) env .skipSignature "true") :
    ∃ st, s3Store others detect env bucket path m = .ok st ∧ st.auth = .anonymous := by
  have e1 := C99_given h ha _ _ h1
  have e2 := C99_given h ha _ _ h2
  have e3 := (C99_environment_partial h .skipSignature h3 (.inl (by decide)) (by decide)).1 "true" hae h4
  simp only [s3Store, h, buildFromKeys, e1, e2, e3]
  refine ⟨_, rfl, ?_⟩
  simp

theorem mapOptions_last (others : String → Bool) (m : Map) (acc : KeyMap) (n v : String) (k : Key)
    (hn : Key.fromStr others n = some k) (o : KeyMap) (h : mapOptions others (m ++ [(n, v)]) acc = some o) :
    o k = some v := by
  induction m generalizing acc with
  | nil =>
    simp only [List.nil_append, mapOptions, hn, Option.some.injEq] at h
    subst h
    simp
  | cons e m ih =>
    obtain ⟨name, val⟩ := e
    simp only [List.cons_append, mapOptions] at h
    cases hr : Key.fromStr others name with
    | none => rw [hr] at h; cases h
    | some key => rw [hr] at h; exact ih _ h

/-- Whatever the other options and the environment: of an option given under two names the one that comes last in the hash
map is in force. -/
theorem C99_violated_order (others : String → Bool) (detect : Option String) (env m : Map) (n1 n2 v1 v2 : String) (k : Key)
    (h1 : Key.fromStr others n1 = some k) (h2 : Key.fromStr others n2 = some k) :
    (∀ s, s3Settings others detect env (m ++ [(n1, v1), (n2, v2)]) = .ok s → s k = some v2) ∧
    (∀ s, s3Settings others detect env (m ++ [(n2, v2), (n1, v1)]) = .ok s → s k = some v1) := by
  have key : ∀ (m : Map) (n v : String), Key.fromStr others n = some k → ∀ s,
      s3Settings others detect env (m ++ [(n, v)]) = .ok s → s k = some v := by
    intro m n v hn s h
    obtain ⟨o, o', e1, e2, rfl⟩ := s3Settings_ok h
    have h3 := addSpecific_given e2 k (mapOptions_last others m _ n v k hn o e1)
    simp only [addEnvironment, allowHttpVar, envLoop_eq, h3]
    split <;> rfl
  constructor
  · intro s h
    refine key (m ++ [(n1, v1)]) n2 v2 h2 s ?_
    simpa using h
  · intro s h
    refine key (m ++ [(n2, v2)]) n1 v1 h1 s ?_
    simpa using h

/-- The simpler model of C59, with the environment as a function of the settings, describes the same store. -/
theorem C99_same (others : String → Bool) (detect : Option String) (env : Map) (bucket path : String) (m : Map) :
    s3Store others detect env bucket path m =
      buildS3FromOpts others detect (addEnvironment others env (fun _ => none)) bucket path m := by
  have h : ∀ o, addEnvironment others env o = addEnv (addEnvironment others env (fun _ => none)) o := by
    intro o
    funext q
    simp only [addEnvironment, allowHttpVar, addEnv, envLoop_eq]
    cases o q <;> simp
  simp only [s3Store, s3Settings, buildS3FromOpts]
  cases mapOptions others m (fun _ => none) with
  | none => rfl
  | some o =>
    simp only
    cases addSpecific detect o with
    | none => rfl
    | some o' => simp only; rw [h o']

/-- Given twice under two names, an option has the value that comes last in the hash map. -/
theorem C99_violated_spelling (others : String → Bool) (env : Map) : ∃ m m' s s', m.Perm m' ∧
    s3Settings others none env m = .ok s ∧ s3Settings others none env m' = .ok s' ∧
    s .endpoint = some "x" ∧ s' .endpoint = some "y" := by
  refine ⟨[("endpoint", "y"), ("aws_endpoint", "x")], [("aws_endpoint", "x"), ("endpoint", "y")], _, _,
    List.Perm.swap _ _ _, rfl, rfl, ?_, ?_⟩
  · simp [addEnvironment, allowHttpVar, envLoop_eq]
  · simp [addEnvironment, allowHttpVar, envLoop_eq]

/-! ### Google Cloud Storage -/

theorem gMapOptions_spec (others : String → Bool) : ∀ (m : Map) (acc o : GMap), gMapOptions others m acc = some o →
    ∀ k, (Absent (GKey.fromStr others) m k → o k = acc k) ∧
      (∀ v, Agree (GKey.fromStr others) m → Given (GKey.fromStr others) m k v → o k = some v) := by
  intro m
  induction m with
  | nil =>
    intro acc o h k
    injection h with h
    subst h
    exact ⟨fun _ => rfl, fun v _ hg => by obtain ⟨_, hm, _⟩ := hg; cases hm⟩
  | cons e m ih =>
    intro acc o h k
    obtain ⟨name, val⟩ := e
    simp only [gMapOptions] at h
    cases hr : GKey.fromStr others name with
    | none => rw [hr] at h; cases h
    | some key =>
      rw [hr] at h
      simp only at h
      obtain ⟨h1, h2⟩ := ih _ o h k
      constructor
      · intro ha
        have hk : k ≠ key := by
          intro he
          exact ha (name, val) (by simp) (by rw [he]; exact hr)
        rw [h1 (fun e he => ha e (by simp [he]))]
        simp [hk]
      · intro v hag hg
        have hag' : Agree (GKey.fromStr others) m := fun k v v' ⟨n, hn, hr⟩ ⟨n', hn', hr'⟩ =>
          hag k v v' ⟨n, by simp [hn], hr⟩ ⟨n', by simp [hn'], hr'⟩
        by_cases hin : Absent (GKey.fromStr others) m k
        · obtain ⟨n, hn, hrn⟩ := hg
          rcases List.mem_cons.1 hn with hn | hn
          · obtain ⟨rfl, rfl⟩ := Prod.mk.inj hn
            rw [h1 hin]
            rw [hr] at hrn
            injection hrn with hrn
            simp [hrn]
          · exact absurd hrn (hin _ hn)
        · have : ∃ v', Given (GKey.fromStr others) m k v' := by
            simp only [Absent, Classical.not_forall, Classical.not_not] at hin
            obtain ⟨e, he, hre⟩ := hin
            exact ⟨e.2, e.1, he, hre⟩
          obtain ⟨v', hg'⟩ := this
          rw [h2 v' hag' hg']
          have : v' = v := hag k v' v (by obtain ⟨n, hn, hr⟩ := hg'; exact ⟨n, by simp [hn], hr⟩) hg
          rw [this]

theorem gMapOptions_unknown (others : String → Bool) : ∀ (m : Map) (acc : GMap) (e : String × String), e ∈ m →
    GKey.fromStr others e.1 = none → gMapOptions others m acc = none := by
  intro m
  induction m with
  | nil => intro _ _ h; cases h
  | cons x m ih =>
    intro acc e he hr
    obtain ⟨name, val⟩ := x
    simp only [gMapOptions]
    rcases List.mem_cons.1 he with rfl | he
    · simp only at hr; rw [hr]
    · cases GKey.fromStr others name with
      | none => rfl
      | some key => exact ih _ e he hr

theorem gEnvLoop_eq (others : String → Bool) (env : Map) (o : GMap) (q : GKey) :
    gEnvLoop others env o q = match o q with
      | some v => some v
      | none => (env.find? (fun e => decide (GKey.ofVar others e.1 = some q))).map (·.2) :=
  fold_or_insert (GKey.ofVar others) env o q

theorem gcsSettings_some {others : String → Bool} {env m : Map} {s : GMap} (h : gcsSettings others env m = some s) :
    ∃ o, gMapOptions others m (fun _ => none) = some o ∧ s = gEnvLoop others env (gAccount env o) := by
  simp only [gcsSettings] at h
  split at h
  · cases h
  · next o ho =>
    injection h with h
    exact ⟨o, ho, h.symm⟩

theorem gAccount_given {env : Map} {o : GMap} {k : GKey} {v : String} (h : o k = some v) : gAccount env o k = some v := by
  unfold gAccount
  split
  · next hn =>
    cases env.get "GOOGLE_SERVICE_ACCOUNT" with
    | some p =>
      have : k ≠ .account := by intro he; rw [he, hn.1] at h; cases h
      simp [this, h]
    | none =>
      cases env.get "GOOGLE_SERVICE_ACCOUNT_KEY" with
      | some p =>
        have : k ≠ .accountKey := by intro he; rw [he, hn.2] at h; cases h
        simp [this, h]
      | none => exact h
  · exact h

theorem gAccount_other {env : Map} {o : GMap} {k : GKey} (h1 : k ≠ .account) (h2 : k ≠ .accountKey) :
    gAccount env o k = o k := by
  unfold gAccount
  split
  · cases env.get "GOOGLE_SERVICE_ACCOUNT" with
    | some p => simp [h1]
    | none =>
      cases env.get "GOOGLE_SERVICE_ACCOUNT_KEY" with
      | some p => simp [h2]
      | none => rfl
  · rfl

/-- No variable stands for the service account in the loop. -/
theorem ofVar_account (others : String → Bool) (name : String) :
    GKey.ofVar others name ≠ some .account ∧ GKey.ofVar others name ≠ some .accountKey := by
  simp only [GKey.ofVar]
  split
  · split
    · simp
    · simp
    · next h1 h2 =>
      constructor
      · exact h1
      · exact h2
  · simp

theorem gEnvLoop_account (others : String → Bool) (env : Map) (o : GMap) :
    gEnvLoop others env o .account = o .account ∧ gEnvLoop others env o .accountKey = o .accountKey := by
  rw [gEnvLoop_eq, gEnvLoop_eq, find_absent (fun e _ => (ofVar_account others e.1).1),
    find_absent (fun e _ => (ofVar_account others e.1).2)]
  constructor
  · cases o .account <;> rfl
  · cases o .accountKey <;> rfl

/-- **C99** for Google Cloud Storage: what is given is in force, the rest comes from the environment; an option that the
library does not know is an error. -/
theorem C99_google {others : String → Bool} {env m : Map} {s : GMap} (h : gcsSettings others env m = some s) :
    (∀ e ∈ m, GKey.fromStr others e.1 ≠ none) ∧
    (∀ k v, Agree (GKey.fromStr others) m → Given (GKey.fromStr others) m k v → s k = some v) ∧
    (∀ k, k ≠ .account → k ≠ .accountKey → Absent (GKey.fromStr others) m k →
      (∀ v, Agree (GKey.ofVar others) env → Given (GKey.ofVar others) env k v → s k = some v) ∧
      (Absent (GKey.ofVar others) env k → s k = none)) := by
  obtain ⟨o, h1, rfl⟩ := gcsSettings_some h
  refine ⟨?_, ?_, ?_⟩
  · intro e he hr
    rw [gMapOptions_unknown others m _ e he hr] at h1
    cases h1
  · intro k v ha hg
    have h2 := gAccount_given (env := env) ((gMapOptions_spec others m _ o h1 k).2 v ha hg)
    rw [gEnvLoop_eq, h2]
  · intro k hk1 hk2 habs
    have h2 : gAccount env o k = none := by
      rw [gAccount_other hk1 hk2]; exact (gMapOptions_spec others m _ o h1 k).1 habs
    constructor
    · intro v ha hg
      rw [gEnvLoop_eq, h2]
      exact find_given ha hg
    · intro hn
      rw [gEnvLoop_eq, h2]
      exact find_absent hn

/-- **C99** for the service account of Google Cloud Storage: never mixed.  If the options name a service account, by path
or by key, that is the only one; otherwise the path of the environment is used, or else its key. -/
theorem C99_google_account {others : String → Bool} {env m : Map} {s : GMap} (h : gcsSettings others env m = some s)
    (ha : Agree (GKey.fromStr others) m) :
    (∀ v, Given (GKey.fromStr others) m .account v → Absent (GKey.fromStr others) m .accountKey →
      s .account = some v ∧ s .accountKey = none) ∧
    (∀ v, Given (GKey.fromStr others) m .accountKey v → Absent (GKey.fromStr others) m .account →
      s .accountKey = some v ∧ s .account = none) ∧
    (Absent (GKey.fromStr others) m .account → Absent (GKey.fromStr others) m .accountKey →
      s .account = env.get "GOOGLE_SERVICE_ACCOUNT" ∧
      s .accountKey = match env.get "GOOGLE_SERVICE_ACCOUNT" with
        | some _ => none
        | none => env.get "GOOGLE_SERVICE_ACCOUNT_KEY") := by
  obtain ⟨o, h1, rfl⟩ := gcsSettings_some h
  rw [(gEnvLoop_account others env _).1, (gEnvLoop_account others env _).2]
  have hs := gMapOptions_spec others m _ o h1
  refine ⟨?_, ?_, ?_⟩
  · intro v hg hn
    have h2 := (hs .account).2 v ha hg
    have h3 := (hs .accountKey).1 hn
    simp [gAccount, h2, h3]
  · intro v hg hn
    have h2 := (hs .accountKey).2 v ha hg
    have h3 := (hs .account).1 hn
    simp [gAccount, h2, h3]
  · intro hn1 hn2
    have h2 := (hs .account).1 hn1
    have h3 := (hs .accountKey).1 hn2
    simp only [gAccount, h2, h3, and_self, if_true]
    cases h4 : env.get "GOOGLE_SERVICE_ACCOUNT" with
    | some p => simp [h3]
    | none =>
      simp only
      cases h5 : env.get "GOOGLE_SERVICE_ACCOUNT_KEY" with
      | some k => simp [h2]
      | none => simp [h2, h3]

/-- **C99 is violated** for Google Cloud Storage: `GOOGLE_SERVICE_ACCOUNT_PATH` stands for the service account, but is
not looked at. -/
theorem C99_violated_google_path (others : String → Bool) (v : String) :
    GKey.fromStr others "GOOGLE_SERVICE_ACCOUNT_PATH".toLower = some .account ∧
    ∃ s, gcsSettings others [("GOOGLE_SERVICE_ACCOUNT_PATH", v)] [] = some s ∧ s .account = none := by
  constructor
  · have : "GOOGLE_SERVICE_ACCOUNT_PATH".toLower = "google_service_account_path" := by decide +kernel
    rw [this]; rfl
  · refine ⟨_, rfl, ?_⟩
    rw [(gEnvLoop_account others _ _).1]
    simp [gAccount, Map.get]

/-- **C99** for Google Cloud Storage: the names of the settings, as the library documents them. -/
theorem C99_google_names (others : String → Bool) :
    (∀ n ∈ ["google_service_account", "service_account", "google_service_account_path", "service_account_path"],
      GKey.fromStr others n = some .account) ∧
    (∀ n ∈ ["google_service_account_key", "service_account_key"], GKey.fromStr others n = some .accountKey) ∧
    (∀ n ∈ ["google_bucket", "google_bucket_name", "bucket", "bucket_name"], GKey.fromStr others n = some .bucket) ∧
    (∀ n ∈ ["google_application_credentials", "application_credentials"],
      GKey.fromStr others n = some .credentials) := by
  refine ⟨?_, ?_, ?_, ?_⟩ <;> simp [GKey.fromStr]

/-- **C99**: only variables whose names begin with `AWS_` or `GOOGLE_` are settings, with the meaning that the name has in
lower case; the service account of Google Cloud Storage is not among them. -/
theorem C99_variables (others : String → Bool) (name : String) :
    (name.startsWith "AWS_" = false → Key.ofVar others name = none) ∧
    (name.startsWith "AWS_" = true → Key.ofVar others name = Key.fromStr others name.toLower) ∧
    (name.startsWith "GOOGLE_" = false → GKey.ofVar others name = none) ∧
    (name.startsWith "GOOGLE_" = true → ∀ k, k ≠ .account → k ≠ .accountKey →
      (GKey.ofVar others name = some k ↔ GKey.fromStr others name.toLower = some k)) := by
  refine ⟨fun h => by simp [Key.ofVar, h], fun h => by simp [Key.ofVar, h], fun h => by simp [GKey.ofVar, h], ?_⟩
  intro h k h1 h2
  simp only [GKey.ofVar, h, if_true]
  split
  · next e => rw [e]; simp [Ne.symm h1]
  · next e => rw [e]; simp [Ne.symm h2]
  · rfl

/-! ### concrete cases -/

namespace EnvDemo

def opts : Map := [("aws_access_key_id", "id"), ("secret_access_key", "sec"), ("endpoint", "http://minio")]

def env : Map := [("HOME", "/root"), ("AWS_REGION", "eu-west-1"), ("AWS_ACCESS_KEY_ID", "other"), ("ALLOW_HTTP", "true")]

/-- The keys of the options, the region and `ALLOW_HTTP` of the environment. -/
example : ∃ s, s3Settings (fun _ => false) none env opts = .ok s ∧
    [s .accessKeyId, s .secretAccessKey, s .endpoint, s .region, s .allowHttp, s .token, s .conditionalPut] =
      [some "id", some "sec", some "http://minio", some "eu-west-1", some "true", none, some "etag"] :=
  ⟨_, rfl, by decide +kernel⟩

example : s3Settings (fun _ => false) none env [("colour", "red")] = .error .error := by rfl

example : ∃ s, gcsSettings (fun _ => false) [("GOOGLE_SERVICE_ACCOUNT", "/p"), ("GOOGLE_SERVICE_ACCOUNT_KEY", "{}"),
      ("GOOGLE_BUCKET", "e")] [("bucket", "b")] = some s ∧
    [s .account, s .accountKey, s .bucket, s .credentials] = [some "/p", none, some "b", none] :=
  ⟨_, rfl, by decide +kernel⟩

end EnvDemo

end Seafowl.StoreOpts
