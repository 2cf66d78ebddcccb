import Verif.Context.DdlLemmas

/-!
# C57: uploads reach the right table
-/

namespace Seafowl.Ddl

open Seafowl.Catalog

set_option linter.unusedSimpArgs false

/-- Specification: `c'` is `c` with `rows` appended to `sch.tab` of the current database, the table being
created if it did not exist; no other table, no other data and no staging table changed. -/
def Uploaded (c c' : Ctx) (sch tab : String) (rows : List Nat) : Prop :=
  ∃ t d, IsTable c'.cat c.db sch tab t ∧ c'.data t.uuid = some d ∧
    ((∃ d0, IsTable c.cat c.db sch tab t ∧ c.data t.uuid = some d0 ∧ d = ⟨d0.schema, d0.rows ++ rows⟩) ∨
     ((∀ x, ¬ IsTable c.cat c.db sch tab x) ∧ c.data t.uuid = none ∧ d.rows = rows)) ∧
    (∀ u, u ≠ t.uuid → c'.data u = c.data u) ∧
    (∀ a b m x, (a, b, m) ≠ (c.db, sch, tab) → (IsTable c'.cat a b m x ↔ IsTable c.cat a b m x)) ∧
    c'.ext = c.ext

/-- The existence check changes nothing but, possibly, adds the schema. -/
theorem uploadCheck_frame {env : Env} {c c1 : Ctx} {sch tab : String} {p : Option Nat × Bool} (hw : WF c.cat)
    (h : uploadCheck env c sch tab = (c1, .ok p)) :
    ∃ s us, c1 = { c with cat := s, udfs := us } ∧ WF s ∧ s.dbs = c.cat.dbs ∧ s.tabs = c.cat.tabs ∧ s.vers = c.cat.vers ∧
      (∀ a b m x, IsTable s a b m x ↔ IsTable c.cat a b m x) := by
  simp only [uploadCheck] at h
  rcases hs : schemaTables c sch with _ | ts
  · simp only [hs] at h
    rcases hc : Catalog.createSchema c.cat c.db sch with ⟨s, e | _⟩
    · simp [hc] at h
    · simp only [hc] at h
      obtain ⟨k1, k2, k3, k4, k5, k6, k7, k8⟩ := createSchema_ok hw hc
      have hws : WF s := by
        have := C31_step c.cat hw (.createSchema c.db sch)
        simp only [Catalog.exec, hc] at this
        exact this
      obtain ⟨us, hr⟩ := reload_frame env { c with cat := s }
      rcases hre : reload env { c with cat := s } with ⟨c2, e | _⟩
      · simp [hre] at h
      · simp only [hre, Prod.mk.injEq] at h
        rw [hre] at hr
        obtain ⟨rfl, _⟩ := h
        exact ⟨s, us, hr, hws, k1, k2, k3, k8⟩
  · simp only [hs] at h
    have hc1 : c1 = c := by
      split at h <;> simp only [Prod.mk.injEq] at h <;> exact h.1.symm
    exact ⟨c.cat, c.udfs, hc1, hw, rfl, rfl, rfl, fun _ _ _ _ => Iff.rfl⟩

/-- A write to a freshly created table. -/
theorem create_then_plan {env : Env} {c c2 c' : Ctx} {r : RRef} {s u : Nat} {rows : List Nat} (hw : WF c.cat)
    (h1 : createDelta env c r s u = (c2, .ok ())) (h2 : planTo env c2 r rows = (c', .ok ())) :
    (∀ x, ¬ IsTable c.cat c.db r.sch r.tab x) ∧ c'.data u = some ⟨s, rows⟩ ∧ (∀ w, w ≠ u → c'.data w = c.data w) ∧
    c'.ext = c.ext ∧ c'.db = c.db ∧ (∃ t, t.uuid = u ∧ ∀ a b m x, IsTable c'.cat a b m x ↔
      IsTable c.cat a b m x ∨ (x = t ∧ (a, b, m) = (c.db, r.sch, r.tab))) := by
  obtain ⟨hr, hp, _, _, s2, hws, rfl, _, _, _, hno, t, hu, _, hiff⟩ := createDelta_ok hw h1
  obtain ⟨v, d, s3, ht, _, _, e1, e2, e3, _, rfl⟩ := planTo_ok h2
  obtain ⟨_, _, x, hx, hxu, hxd⟩ := tryDelta_ok _ _ _ _ ht
  simp only [setData] at hx hxd
  have hxt : x = t := by
    rcases (hiff _ _ _ _).1 hx with h | ⟨h, _⟩
    · exact absurd h (hno x)
    · exact h
  subst hxt
  have huv : v = u := hxu.symm.trans hu
  subst huv
  simp only [if_true, Option.some.injEq] at hxd
  subst hxd
  refine ⟨hno, ?_, ?_, rfl, rfl, x, hu, ?_⟩
  · simp [setData]
  · intro w hne; simp [setData, hne]
  · intro a b m y
    rw [← hiff a b m y]
    exact IsTable_congr e1 e2 e3 a b m y

/-- **C57**, safety: a successful upload appended the file's rows, read with some schema, to exactly the
table asked for (creating it if it did not exist); nothing else changed. -/
theorem C57_success (env : Env) (c c' : Ctx) (f : File) (sch tab : String) (u : Nat) (hw : WF c.cat)
    (hfresh : c.data u = none) (h : upload env c f sch tab u = (c', .ok ())) :
    ∃ s, Uploaded c c' sch tab (f.read s) := by
  simp only [upload] at h
  obtain ⟨us, hr⟩ := reload_frame env c
  rcases hre : reload env c with ⟨c0, e | _⟩
  · simp [hre] at h
  rw [hre] at hr
  simp only [hre] at h
  simp only at hr
  subst hr
  rcases hck : uploadCheck env { c with udfs := us } sch tab with ⟨c1, e | ⟨ts, ex⟩⟩
  · simp [hck] at h
  simp only [hck] at h
  obtain ⟨s1, us1, rfl, hws, k1, k2, k3, k4⟩ := uploadCheck_frame (c := { c with udfs := us }) hw hck
  cases hsup : f.supported with
  | false => simp [hsup] at h
  | true =>
    simp only [hsup, Bool.not_true, Bool.false_eq_true, if_false] at h
    rcases hsch : (ts.or f.own).or f.infer with _ | s
    · simp [hsch] at h
    · simp only [hsch] at h
      refine ⟨s, ?_⟩
      cases ex with
      | true =>
        simp only [if_true] at h
        obtain ⟨v, d, s3, ht, _, _, e1, e2, e3, _, rfl⟩ := planTo_ok h
        obtain ⟨_, _, x, hx, hxu, hxd⟩ := tryDelta_ok _ _ _ _ ht
        have hx' := (k4 _ _ _ _).1 hx
        refine ⟨x, ⟨d.schema, d.rows ++ f.read s⟩, ?_, ?_, Or.inl ⟨d, hx', ?_, rfl⟩, ?_, ?_, rfl⟩
        · exact (IsTable_congr e1 e2 e3 _ _ _ _).2 hx
        · simp [setData, hxu]
        · rw [hxu]; exact hxd
        · intro w hne; rw [hxu] at hne; simp [setData, hne]
        · intro a b m y _
          rw [IsTable_congr e1 e2 e3 a b m y]
          exact k4 a b m y
      | false =>
        simp only [Bool.false_eq_true, if_false] at h
        rcases hcd : createDelta env { c with cat := s1, udfs := us1 } ⟨c.db, sch, tab⟩ s u with ⟨c2, e | _⟩
        · simp [hcd] at h
        · simp only [hcd] at h
          obtain ⟨n1, n2, n3, n4, _, t, hu, hiff⟩ := create_then_plan (c := { c with cat := s1, udfs := us1 }) hws hcd h
          refine ⟨t, ⟨s, f.read s⟩, (hiff _ _ _ _).2 (Or.inr ⟨rfl, rfl⟩), ?_, Or.inr ⟨?_, ?_, rfl⟩, ?_, ?_, n4⟩
          · rw [hu]; exact n2
          · intro x hx; exact n1 x ((k4 _ _ _ _).2 hx)
          · rw [hu]; exact hfresh
          · intro w hne; rw [hu] at hne; exact n3 w hne
          · intro a b m y hne
            rw [hiff a b m y]
            constructor
            · rintro (hy | ⟨_, e⟩)
              · exact (k4 a b m y).1 hy
              · exact absurd e hne
            · intro hy; exact Or.inl ((k4 a b m y).2 hy)

/-! ### when it succeeds -/

/-- The object store, the database and the functions are in order. -/
structure Sound (env : Env) (c : Ctx) : Prop where
  store : env.hasStore = true
  create : env.createOk = true
  write : env.writeOk = true
  db : ∃ d, IsDb c.cat c.db d
  fns : ∀ f ∈ c.cat.fns, env.udfOk f.details = true
  cols : ∀ s, distinctNames (env.cols s) = true
  wf : WF c.cat
  versioned : Versioned c.cat

theorem planTo_eq {env : Env} {c : Ctx} {r : RRef} {rows : List Nat} {u : Nat} {d : Delta} {s' : Cat} {vid : Nat}
    (hs : env.hasStore = true) (hwr : env.writeOk = true) (htd : tryDelta c r = .ok (u, d))
    (hnv : newVersion c.cat u env.ver env.now true = (s', .ok vid)) :
    planTo env c r rows = ({ setData c u (some ⟨d.schema, d.rows ++ rows⟩) with cat := s' }, .ok ()) := by
  have hnv' : newVersion (setData c u (some { d with rows := d.rows ++ rows })).cat u env.ver env.now true =
    (s', .ok vid) := hnv
  simp only [planTo, htd, hs, hwr, Bool.not_true, Bool.false_eq_true, if_false, hnv']

/-- Creating a table that does not exist in an existing ordinary schema, and writing to it, succeeds. -/
theorem create_plan_ok (env : Env) (c : Ctx) (sch tab : String) (s u : Nat) (rows : List Nat)
    (hs : env.hasStore = true) (hc : env.createOk = true) (hwr : env.writeOk = true)
    (hcols : distinctNames (env.cols s) = true) (hw : WF c.cat) (hp : Plain sch)
    (hsch : ∃ x, IsSchema c.cat c.db sch x) (hno : ∀ t, ¬ IsTable c.cat c.db sch tab t) :
    ∃ c2 c', createDelta env c ⟨c.db, sch, tab⟩ s u = (c2, .ok ()) ∧ planTo env c2 ⟨c.db, sch, tab⟩ rows = (c', .ok ()) := by
  have hcreate : ∃ c2, createDelta env c ⟨c.db, sch, tab⟩ s u = (c2, .ok ()) := by
    obtain ⟨co, hco⟩ := hsch
    obtain ⟨⟨r, hr⟩, _⟩ := (C32_createTable c.cat hw c.db sch tab (env.cols s) u env.now true).2.2.2 hp.2.1 ⟨co, hco⟩ hno
      (Or.inr ⟨rfl, hcols⟩)
    simp only [createDelta, hs, hc, Bool.not_true, Bool.false_eq_true, if_false]
    rcases getSchema_cases c.cat c.db sch hp.2.1 with ⟨x, _, hg⟩ | ⟨hn, _⟩
    · simp only [hg]
      rcases hct : createTable (setData c u (some ⟨s, []⟩)).cat c.db sch tab (env.cols s) u env.now true with ⟨s', e | y⟩
      · have : createTable c.cat c.db sch tab (env.cols s) u env.now true = (s', .error e) := hct
        rw [this] at hr; simp at hr
      · have hcr : canRegister c ⟨c.db, sch, tab⟩ = true := by
          simp [canRegister, hp.1, hp.2.2]
        simp [hcr]
    · exact absurd hco (hn co)
  obtain ⟨c2, h2⟩ := hcreate
  obtain ⟨_, _, _, _, s2, hws, rfl, _, _, _, _, t, hu, hv, hiff⟩ := createDelta_ok hw h2
  have hit : IsTable s2 c.db sch tab t := (hiff _ _ _ _).2 (Or.inr ⟨rfl, rfl⟩)
  have htd : tryDelta { setData c u (some ⟨s, []⟩) with cat := s2 } ⟨c.db, sch, tab⟩ = .ok (u, ⟨s, []⟩) := by
    refine (tryDelta_iff { setData c u (some ⟨s, []⟩) with cat := s2 } hws sch tab hp u ⟨s, []⟩).2 ⟨t, hit, hu, ?_⟩
    simp [setData]
  obtain ⟨s', vid, hnv⟩ := newVersion_ok s2 t hit.1 hv env.ver env.now
  rw [hu] at hnv
  exact ⟨_, _, h2, planTo_eq hs hwr htd hnv⟩

/-- Writing to a loadable table succeeds. -/
theorem plan_ok (env : Env) (c : Ctx) (sch tab : String) (rows : List Nat)
    (hs : env.hasStore = true) (hwr : env.writeOk = true) (hw : WF c.cat) (hv : Versioned c.cat) (hp : Plain sch)
    (t : Tab) (ht : IsTable c.cat c.db sch tab t) (d : Delta) (hd : c.data t.uuid = some d) :
    ∃ c', planTo env c ⟨c.db, sch, tab⟩ rows = (c', .ok ()) := by
  have htd := (tryDelta_iff c hw sch tab hp t.uuid d).2 ⟨t, ht, rfl, hd⟩
  obtain ⟨s', vid, hnv⟩ := newVersion_ok c.cat t ht.1 (hv t ht.1) env.ver env.now
  exact ⟨_, planTo_eq hs hwr htd hnv⟩

/-- **C57** (partial): an upload of a readable file to a table of the *default* schema, under a name that
reads as itself, succeeds; the rows are read with the schema of the table if it exists, else with the given
or inferred one.  Missing: other existing schemas and other names, see `C57_violated`. -/
theorem C57_default_schema_partial (env : Env) (c : Ctx) (f : File) (tab : String) (u : Nat) (hs : Sound env c)
    (hp : Plain c.sch) (hsch : ∃ x, IsSchema c.cat c.db c.sch x) (hname : env.parse tab = { tab := tab })
    (hfresh : c.data u = none) (hsup : f.supported = true) (hinf : f.own.isSome = true ∨ f.infer.isSome = true)
    (hload : ∀ t, IsTable c.cat c.db c.sch tab t → (c.data t.uuid).isSome = true) :
    ∃ c', upload env c f c.sch tab u = (c', .ok ()) ∧
      ∃ s, Uploaded c c' c.sch tab (f.read s) ∧
        (∀ t d, IsTable c.cat c.db c.sch tab t → c.data t.uuid = some d → s = d.schema) ∧
        ((∀ t, ¬ IsTable c.cat c.db c.sch tab t) → some s = f.own.or f.infer) := by
  obtain ⟨d0, hd0⟩ := hs.db
  have hrl := reload_ok env c d0 hd0 hs.fns
  obtain ⟨us, hr⟩ := reload_frame env c
  rcases hre : reload env c with ⟨c0, x⟩
  rw [hre] at hrl hr
  simp only at hrl hr
  subst hrl hr
  have hst : ∃ ts, schemaTables { c with udfs := us } c.sch = some ts := by
    simp only [schemaTables, hp.2.1, hp.2.2, if_false]
    rcases getSchema_cases c.cat c.db c.sch hp.2.1 with ⟨x, _, hg⟩ | ⟨hn, _⟩
    · simp [hg]
    · exact absurd hsch.choose_spec (hn _)
  obtain ⟨ts, hst⟩ := hst
  have hres : resolve { c with udfs := us } (env.parse tab) = ⟨c.db, c.sch, tab⟩ := by simp [resolve, hname]
  rcases getTable_cases c.cat c.db c.sch tab with ⟨t, ht, hg⟩ | ⟨hno, hg⟩
  · obtain ⟨d, hd⟩ := Option.isSome_iff_exists.1 (hload t ht)
    have hlk : lookup { c with udfs := us } ⟨c.db, c.sch, tab⟩ = .ok (.delta t.uuid d) := by
      simp [lookup, hp.1, hp.2.1, hp.2.2, hg, hd]
    have hck : uploadCheck env { c with udfs := us } c.sch tab = ({ c with udfs := us }, .ok (some d.schema, true)) := by
      simp [uploadCheck, hst, hres, hlk]
    obtain ⟨c', hpl⟩ := plan_ok env { c with udfs := us } c.sch tab (f.read d.schema) hs.store hs.write hs.wf hs.versioned
      hp t ht d hd
    have hup : upload env c f c.sch tab u = (c', .ok ()) := by
      simp [upload, hre, hck, hsup, hpl]
    refine ⟨c', hup, d.schema, ?_, ?_, ?_⟩
    · obtain ⟨s, hU⟩ := C57_success env c c' f c.sch tab u hs.wf hfresh hup
      obtain ⟨v, d', s3, htr, _, _, e1, e2, e3, _, rfl⟩ := planTo_ok hpl
      obtain ⟨_, _, x, hx, hxu, hxd⟩ := tryDelta_ok _ _ _ _ htr
      have hxt : x = t := IsTable_unique hs.wf hx ht
      subst hxt
      subst hxu
      have hdd : d' = d := by
        have : c.data x.uuid = some d' := hxd
        rw [hd] at this; exact (Option.some.inj this).symm
      subst hdd
      refine ⟨x, ⟨d'.schema, d'.rows ++ f.read d'.schema⟩, (IsTable_congr e1 e2 e3 _ _ _ _).2 hx, by simp [setData],
        Or.inl ⟨d', ht, hd, rfl⟩, ?_, ?_, rfl⟩
      · intro w hne; simp [setData, hne]
      · intro a b m y _; exact IsTable_congr e1 e2 e3 a b m y
    · intro t' d' ht' hd'
      rw [IsTable_unique hs.wf ht' ht] at hd'
      rw [hd] at hd'
      rw [Option.some.inj hd']
    · intro hn; exact absurd ht (hn t)
  · have hlk : ∃ e, lookup { c with udfs := us } ⟨c.db, c.sch, tab⟩ = .error e := by
      simp [lookup, hp.1, hp.2.1, hp.2.2, hg]
    obtain ⟨e, hlk⟩ := hlk
    have hck : uploadCheck env { c with udfs := us } c.sch tab = ({ c with udfs := us }, .ok (none, false)) := by
      simp [uploadCheck, hst, hres, hlk]
    obtain ⟨s, hsv⟩ : ∃ s, f.own.or f.infer = some s := by
      cases ho : f.own with
      | some s => exact ⟨s, rfl⟩
      | none =>
        rw [ho] at hinf
        simp only [Option.isSome_none, Bool.false_eq_true, false_or] at hinf
        obtain ⟨s, hs⟩ := Option.isSome_iff_exists.1 hinf
        exact ⟨s, by simp [hs]⟩
    obtain ⟨c2, c', h2, h3⟩ := create_plan_ok env { c with udfs := us } c.sch tab s u (f.read s) hs.store hs.create hs.write
      (hs.cols s) hs.wf hp hsch hno
    have hup : upload env c f c.sch tab u = (c', .ok ()) := by
      have hor : ((none : Option Nat).or f.own).or f.infer = some s := by simpa using hsv
      simp [upload, hre, hck, hsup, hsv, h2, h3]
    refine ⟨c', hup, s, ?_, ?_, ?_⟩
    · obtain ⟨n1, n2, n3, n4, _, t, hu, hiff⟩ := create_then_plan (c := { c with udfs := us }) hs.wf h2 h3
      refine ⟨t, ⟨s, f.read s⟩, (hiff _ _ _ _).2 (Or.inr ⟨rfl, rfl⟩), by rw [hu]; exact n2,
        Or.inr ⟨hno, by rw [hu]; exact hfresh, rfl⟩, ?_, ?_, n4⟩
      · intro w hne; rw [hu] at hne; exact n3 w hne
      · intro a b m y hne
        rw [hiff a b m y]
        constructor
        · rintro (hy | ⟨_, e⟩)
          · exact hy
          · exact absurd e hne
        · exact Or.inl
    · intro t d ht; exact absurd ht (hno t)
    · intro _; exact hsv.symm

/-- **C57** (partial): an upload to a schema that does not exist creates schema and table. -/
theorem C57_new_schema_partial (env : Env) (c : Ctx) (f : File) (sch tab : String) (u : Nat) (hs : Sound env c)
    (hp : Plain sch) (hsch : ∀ x, ¬ IsSchema c.cat c.db sch x)
    (hfresh : c.data u = none) (hsup : f.supported = true) (s : Nat) (hinf : f.own.or f.infer = some s) :
    ∃ c', upload env c f sch tab u = (c', .ok ()) ∧ Uploaded c c' sch tab (f.read s) := by
  obtain ⟨d0, hd0⟩ := hs.db
  have hrl := reload_ok env c d0 hd0 hs.fns
  obtain ⟨us, hr⟩ := reload_frame env c
  rcases hre : reload env c with ⟨c0, x⟩
  rw [hre] at hrl hr
  simp only at hrl hr
  subst hrl hr
  have hst : schemaTables { c with udfs := us } sch = none := by
    simp only [schemaTables, hp.2.1, hp.2.2, if_false]
    rcases getSchema_cases c.cat c.db sch hp.2.1 with ⟨x, hx, hg⟩ | ⟨hn, hg⟩
    · exact absurd hx (hsch x)
    · simp [hg]
  have hcs := (C32_createSchema c.cat hs.wf c.db sch).2.2.2 hp.2.1 hs.db hsch
  rcases hc : Catalog.createSchema c.cat c.db sch with ⟨s1, x⟩
  rw [hc] at hcs
  simp only at hcs
  obtain ⟨rfl, hnew⟩ := hcs
  obtain ⟨k1, k2, k3, k4, k5, k6, k7, k8⟩ := createSchema_ok hs.wf hc
  have hws : WF s1 := by
    have := C31_step c.cat hs.wf (.createSchema c.db sch)
    simp only [Catalog.exec, hc] at this
    exact this
  have hd1 : IsDb s1 c.db d0 := by simp only [IsDb, k1]; exact hd0
  have hrl2 := reload_ok env { c with cat := s1, udfs := us } d0 hd1 (by intro g hg; exact hs.fns g (by simpa [k4] using hg))
  obtain ⟨us2, hr2⟩ := reload_frame env { c with cat := s1, udfs := us }
  rcases hre2 : reload env { c with cat := s1, udfs := us } with ⟨c1, x⟩
  rw [hre2] at hrl2 hr2
  simp only at hrl2 hr2
  subst hrl2 hr2
  have hck : uploadCheck env { c with udfs := us } sch tab = ({ c with cat := s1, udfs := us2 }, .ok (none, false)) := by
    simp [uploadCheck, hst, hc, hre2]
  have hno : ∀ t, ¬ IsTable s1 c.db sch tab t := by
    intro t ht
    obtain ⟨_, _, co, hco, _⟩ := (k8 _ _ _ _).1 ht
    exact hsch co hco
  obtain ⟨c2, c', h2, h3⟩ := create_plan_ok env { c with cat := s1, udfs := us2 } sch tab s u (f.read s) hs.store hs.create hs.write
    (hs.cols s) hws hp hnew hno
  have hup : upload env c f sch tab u = (c', .ok ()) := by
    simp [upload, hre, hck, hsup, hinf, h2, h3]
  refine ⟨c', hup, ?_⟩
  obtain ⟨n1, n2, n3, n4, _, t, hu, hiff⟩ := create_then_plan (c := { c with cat := s1, udfs := us2 }) hws h2 h3
  refine ⟨t, ⟨s, f.read s⟩, (hiff _ _ _ _).2 (Or.inr ⟨rfl, rfl⟩), by rw [hu]; exact n2,
    Or.inr ⟨?_, by rw [hu]; exact hfresh, rfl⟩, ?_, ?_, n4⟩
  · intro x hx; exact hno x ((k8 _ _ _ _).2 hx)
  · intro w hne; rw [hu] at hne; exact n3 w hne
  · intro a b m y hne
    rw [hiff a b m y]
    constructor
    · rintro (hy | ⟨_, e⟩)
      · exact (k8 a b m y).1 hy
      · exact absurd e hne
    · intro hy; exact Or.inl ((k8 a b m y).2 hy)

/-! ### witnesses -/

/-- Everything works; names read as themselves, except that upper case is folded. -/
def exEnv : Env :=
  { hasStore := true, parse := fun n => { tab := if n = "T" then "t" else n }, udfOk := fun _ => true
    createOk := true, writeOk := true, delOk := fun _ => true, left := fun _ => none
    cols := fun n => if n = 1 then [("a", "int"), ("b", "text")] else [("x", "int")], now := 200, ver := 1 }

/-- `exCat`: `public.t` has schema 1, `s2.t` schema 2. -/
def exCtx : Ctx :=
  { cat := exCat, data := fun u => if u = 77 then some ⟨1, [10]⟩ else if u = 79 then some ⟨2, [20]⟩ else none
    ext := [("e", 5)], udfs := [], db := "default", sch := "public" }

/-- A CSV file whose rows depend on the schema it is read with. -/
def exFile : File := { supported := true, own := none, infer := some 2, read := fun s => [100 + s] }

theorem exSound : Sound exEnv exCtx := by
  refine ⟨rfl, rfl, rfl, ⟨⟨1, "default"⟩, by simp [exCtx, exCat], rfl⟩, by intro f _; rfl, ?_, wf_exCat, ?_⟩
  · intro s
    simp only [exEnv]
    by_cases h : s = 1 <;> simp only [h, if_true, if_false] <;> decide +kernel
  · intro t ht
    simp only [exCtx, exCat, List.mem_cons, List.not_mem_nil, or_false] at ht
    rcases ht with rfl | rfl
    · exact ⟨⟨1, 1, 0, 100⟩, by simp [exCtx, exCat], rfl⟩
    · exact ⟨⟨2, 2, 0, 102⟩, by simp [exCtx, exCat], rfl⟩

/-- Appending to `public.t` and creating `s3.n`. -/
example : (upload exEnv exCtx exFile "public" "t" 500).2 = .ok () ∧
    (upload exEnv exCtx exFile "public" "t" 500).1.data 77 = some ⟨1, [10, 101]⟩ ∧
    (upload exEnv exCtx exFile "s3" "n" 500).2 = .ok () ∧
    (upload exEnv exCtx exFile "s3" "n" 500).1.data 500 = some ⟨2, [102]⟩ := by decide +kernel

/-- **C57**, violated: (1) uploading to `s2.t` reads the file with the schema of `public.t`; (2) uploading
to the table `s2.n`, after it was created by an upload, fails; (3) the first upload to `s3.t` fails
because `public.t` exists; (4) with a name that is folded the second upload fails. -/
theorem C57_violated :
    (upload exEnv exCtx exFile "s2" "t" 500).1.data 79 = some ⟨2, [20, 101]⟩ ∧
    ((upload exEnv exCtx exFile "s3" "n" 500).2 = .ok () ∧
      (upload exEnv (upload exEnv exCtx exFile "s3" "n" 500).1 exFile "s3" "n" 501).2 =
        .error (.cat (.tableAlreadyExists "n"))) ∧
    (upload exEnv (upload exEnv exCtx exFile "s3" "n" 500).1 exFile "s3" "t" 501).2 = .error .noTable ∧
    ((upload exEnv { exCtx with sch := "s4" } exFile "s4" "T" 500).2 = .ok () ∧
      (upload exEnv (upload exEnv { exCtx with sch := "s4" } exFile "s4" "T" 500).1 exFile "s4" "T" 501).2 =
        .error (.cat (.tableAlreadyExists "T"))) := by decide +kernel

end Seafowl.Ddl
