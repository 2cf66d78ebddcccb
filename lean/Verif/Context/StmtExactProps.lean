import Verif.Context.StmtProps
import Verif.Context.DropStmtProps
import Verif.Context.IsolationProps
import Verif.Context.DdlExactProps

/-!
# C73, C75-C78: exactly when they fail

`StmtProps.lean`, `DropStmtProps.lean` and `IsolationProps.lean` show single cases; here the same in every state.
-/

namespace Seafowl.Ddl

open Seafowl.Catalog

set_option linter.unusedSimpArgs false

/-! ### C73, C78: CREATE TABLE -/

/-- **C73, C78 are violated by every such name**: `CREATE TABLE` with the name of another database, or in a schema
called `system` or `information_schema`, always fails if the current database has a schema of that name without such a table,
and always creates the table there, in the *current* database. -/
theorem C73_violated_register (env : Env) (c : Ctx) (hw : WF c.cat) (hr : (reload env c).2 = .ok ()) (name : String)
    (ine orr : Bool) (s u : Nat) (hst : env.hasStore = true) (hco : env.createOk = true)
    (hcols : distinctNames (env.cols s) = true)
    (hbad : (resolve c (env.parse name)).cat ≠ c.db ∨ (resolve c (env.parse name)).sch = "information_schema" ∨
      (resolve c (env.parse name)).sch = "system")
    (hn : (resolve c (env.parse name)).sch ≠ "staging")
    (hsch : ∃ x, IsSchema c.cat c.db (resolve c (env.parse name)).sch x)
    (hnew : ∀ t, ¬ IsTable c.cat c.db (resolve c (env.parse name)).sch (resolve c (env.parse name)).tab t) :
    ∃ c', exec env c (.createTable name ine orr s u) = (c', .error .register) ∧ c'.data u = some ⟨s, []⟩ ∧
      ∃ t, t.uuid = u ∧ IsTable c'.cat c.db (resolve c (env.parse name)).sch (resolve c (env.parse name)).tab t := by
  obtain ⟨us, ⟨_, _, he⟩ | ⟨e, hb, _⟩⟩ := exec_cases env c (.createTable name ine orr s u)
  rotate_left
  · rw [hr] at hb; cases hb
  rw [he]
  have hres : resolve { c with udfs := us } (env.parse name) = resolve c (env.parse name) := rfl
  obtain ⟨⟨r, h1⟩, t, ht, htu⟩ := (C32_createTable c.cat hw c.db (resolve c (env.parse name)).sch (resolve c (env.parse name)).tab
    (env.cols s) u env.now true).2.2.2 hn hsch hnew (Or.inr ⟨rfl, hcols⟩)
  have hg : ∃ y, getSchema c.cat c.db (resolve c (env.parse name)).sch = .ok y := by
    rcases getSchema_cases c.cat c.db (resolve c (env.parse name)).sch hn with ⟨y, _, h2⟩ | ⟨h1, _⟩
    · exact ⟨y, h2⟩
    · exact absurd hsch.choose_spec (h1 _)
  obtain ⟨y, hg⟩ := hg
  have hcan : canRegister { c with udfs := us } (resolve c (env.parse name)) = false := by
    rcases hbad with h | h | h <;> simp [canRegister, h]
  rcases hct : Catalog.createTable c.cat c.db (resolve c (env.parse name)).sch (resolve c (env.parse name)).tab
      (env.cols s) u env.now true with ⟨s', e | r'⟩
  · rw [hct] at h1; cases h1
  · rw [hct] at ht
    refine ⟨{ setData { c with udfs := us } u (some ⟨s, []⟩) with cat := s' }, ?_, ?_, t, htu, ht⟩
    · simp only [execStmt, createDelta, hres, hst, hco, Bool.not_true, Bool.false_eq_true, if_false, hg, setData, hct, hcan]
    · simp [setData]

/-- **C78**: so `CREATE TABLE other.s.x` never creates anything in the other database. -/
theorem C78_violated_create (env : Env) (c : Ctx) (hw : WF c.cat) (hcols : ∀ s, distinctNames (env.cols s) = true)
    (name : String) (ine orr : Bool) (s u : Nat) (hne : (resolve c (env.parse name)).cat ≠ c.db) :
    (∃ e, (exec env c (.createTable name ine orr s u)).2 = .error e) ∧
    ∀ b m x, IsTable (exec env c (.createTable name ine orr s u)).1.cat (resolve c (env.parse name)).cat b m x ↔
      IsTable c.cat (resolve c (env.parse name)).cat b m x := by
  constructor
  · refine exec_error env c _ (fun us => ?_)
    simp only [execStmt]
    have hcan : canRegister { c with udfs := us } (resolve { c with udfs := us } (env.parse name)) = false := by
      have : (resolve { c with udfs := us } (env.parse name)).cat ≠ c.db := hne
      simp [canRegister, this]
    simp only [createDelta, hcan, Bool.false_eq_true, if_false]
    repeat' split
    all_goals exact ⟨_, rfl⟩
  · intro b m x
    exact ((C78_partial env c hw hcols (.createTable name ine orr s u) (by intros; contradiction)).1 _ b m x hne)

/-- **C73 is violated by every `CREATE TABLE AS` whose rows cannot be written**: an empty table remains. -/
theorem C73_violated_write (env : Env) (c : Ctx) (hw : WF c.cat) (hr : (reload env c).2 = .ok ()) (name : TRef)
    (ine orr : Bool) (s u : Nat) (rows : List Nat) (hst : env.hasStore = true) (hco : env.createOk = true)
    (hwr : env.writeOk = false) (hcols : distinctNames (env.cols s) = true)
    (hcat : (resolve c name).cat = c.db) (hp : Plain (resolve c name).sch)
    (hsch : ∃ x, IsSchema c.cat c.db (resolve c name).sch x)
    (hnew : ∀ t, ¬ IsTable c.cat c.db (resolve c name).sch (resolve c name).tab t) :
    ∃ c', exec env c (.ctas name ine orr (.rows s rows) u) = (c', .error .write) ∧
      lookup c' (resolve c name) = .ok (.delta u ⟨s, []⟩) := by
  obtain ⟨us, ⟨_, _, he⟩ | ⟨e, hb, _⟩⟩ := exec_cases env c (.ctas name ine orr (.rows s rows) u)
  rotate_left
  · rw [hr] at hb; cases hb
  rw [he]
  have hres : resolve { c with udfs := us } name = resolve c name := rfl
  obtain ⟨⟨r, h1⟩, t, ht, htu⟩ := (C32_createTable c.cat hw c.db (resolve c name).sch (resolve c name).tab
    (env.cols s) u env.now true).2.2.2 hp.2.1 hsch hnew (Or.inr ⟨rfl, hcols⟩)
  have hg : ∃ y, getSchema c.cat c.db (resolve c name).sch = .ok y := by
    rcases getSchema_cases c.cat c.db (resolve c name).sch hp.2.1 with ⟨y, _, h2⟩ | ⟨h1, _⟩
    · exact ⟨y, h2⟩
    · exact absurd hsch.choose_spec (h1 _)
  obtain ⟨y, hg⟩ := hg
  have hcan : canRegister { c with udfs := us } (resolve c name) = true := by
    simp [canRegister, hcat, hp.1, hp.2.2]
  rcases hct : Catalog.createTable c.cat c.db (resolve c name).sch (resolve c name).tab
      (env.cols s) u env.now true with ⟨s', e | r'⟩
  · rw [hct] at h1; cases h1
  · rw [hct] at ht
    have hws : WF s' := by
      have := C31_step c.cat hw (.createTable c.db (resolve c name).sch (resolve c name).tab (env.cols s) u env.now true)
      simp only [Catalog.exec, hct] at this
      exact this
    let c1 : Ctx := { setData { c with udfs := us } u (some ⟨s, []⟩) with cat := s' }
    have hcd : createDelta env { c with udfs := us } (resolve c name) s u = (c1, .ok ()) := by
      simp only [createDelta, hst, hco, Bool.not_true, Bool.false_eq_true, if_false, hg, setData, hct, hcan, if_true]
      rfl
    have htd : tryDelta c1 ⟨c1.db, (resolve c name).sch, (resolve c name).tab⟩ = .ok (u, ⟨s, []⟩) :=
      (tryDelta_iff c1 hws _ _ hp u ⟨s, []⟩).2 ⟨t, ht, htu, by simp [c1, setData]⟩
    have hrr : (⟨c1.db, (resolve c name).sch, (resolve c name).tab⟩ : RRef) = resolve c name := by
      have : c1.db = c.db := rfl
      rw [this, ← hcat]
    rw [hrr] at htd
    have hno : ∃ e, tryDelta { c with udfs := us } (resolve c name) = .error e := by
      rcases htd0 : tryDelta { c with udfs := us } (resolve c name) with e | ⟨v, dd⟩
      · exact ⟨e, rfl⟩
      · obtain ⟨_, _, x, hx, _⟩ := tryDelta_ok _ _ _ _ htd0
        exact absurd hx (hnew x)
    obtain ⟨e0, hno⟩ := hno
    have hres1 : resolve c1 name = resolve c name := rfl
    refine ⟨c1, ?_, ?_⟩
    · cases ine <;> simp only [execStmt, doCtas, hres, hno, hcd, hres1, planTo, htd, hst, hwr, Bool.not_true, Bool.false_eq_true,
        if_false, Bool.not_false, if_true]
    · simp only [tryDelta] at htd
      rcases hlk : lookup c1 (resolve c name) with e | p
      · simp [hlk] at htd
      · cases p <;> simp [hlk] at htd ⊢
        exact htd

/-! ### C75: DROP TABLE -/

/-- **C75 is violated for every external table and every table that does not load**: `DROP TABLE IF EXISTS` succeeds
and changes nothing, unless the table is a Delta table that loads. -/
theorem C75_violated_always (env : Env) (c : Ctx) (hr : (reload env c).2 = .ok ()) (name : TRef)
    (h : ∀ u d, lookup c (resolve c name) ≠ .ok (.delta u d)) :
    ∃ c', exec env c (.dropTable name true) = (c', .ok ()) ∧ Same c c' := by
  obtain ⟨us, ⟨_, _, he⟩ | ⟨e, hb, _⟩⟩ := exec_cases env c (.dropTable name true)
  rotate_left
  · rw [hr] at hb; cases hb
  rw [he]
  have htd : ∃ e, tryDelta { c with udfs := us } (resolve c name) = .error e := by
    have hlk : lookup { c with udfs := us } (resolve c name) = lookup c (resolve c name) := rfl
    simp only [tryDelta, hlk]
    cases hl : lookup c (resolve c name) with
    | error e => exact ⟨e, rfl⟩
    | ok p => cases p with
      | delta u d => exact absurd hl (h u d)
      | _ => exact ⟨.notDelta, rfl⟩
  obtain ⟨e, htd⟩ := htd
  have hres : resolve { c with udfs := us } name = resolve c name := rfl
  exact ⟨{ c with udfs := us }, by simp only [execStmt, doDropTable, hres, htd], rfl, rfl, rfl⟩

/-- The external table `e` and, with nothing in the store, the table `t` of the example. -/
example : (∀ u d, lookup exCtx (resolve exCtx { sch := some "staging", tab := "e" }) ≠ .ok (.delta u d)) ∧
    (∀ u d, lookup { exCtx with data := fun _ => none } (resolve exCtx { tab := "t" }) ≠ .ok (.delta u d)) := by
  have h1 : lookup exCtx (resolve exCtx { sch := some "staging", tab := "e" }) = .ok (.ext 5) := by decide +kernel
  have h2 : lookup { exCtx with data := fun _ => none } (resolve exCtx { tab := "t" }) = .error .load := by decide +kernel
  constructor
  · intro u d; rw [h1]; simp
  · intro u d; rw [h2]; simp

/-- **C75 is violated whenever the objects cannot be deleted**: the statement succeeds all the same, the table is gone from
the catalog, and whatever could not be deleted is left. -/
theorem C75_undeleted (env : Env) (c : Ctx) (hw : WF c.cat) (hr : (reload env c).2 = .ok ()) (name : TRef) (ie : Bool)
    (hcat : (resolve c name).cat = c.db) (hp : Plain (resolve c name).sch) (t : Tab) (d : Delta)
    (ht : IsTable c.cat c.db (resolve c name).sch (resolve c name).tab t) (hl : c.data t.uuid = some d)
    (hdel : env.delOk t.uuid = false) :
    ∃ c', exec env c (.dropTable name ie) = (c', .ok ()) ∧
      (∀ x, ¬ IsTable c'.cat c.db (resolve c name).sch (resolve c name).tab x) ∧ c'.data t.uuid = env.left t.uuid := by
  obtain ⟨us, ⟨_, _, he⟩ | ⟨e, hb, _⟩⟩ := exec_cases env c (.dropTable name ie)
  rotate_left
  · rw [hr] at hb; cases hb
  rw [he]
  have hres : resolve { c with udfs := us } name = resolve c name := rfl
  have hrr : (⟨c.db, (resolve c name).sch, (resolve c name).tab⟩ : RRef) = resolve c name := by rw [← hcat]
  have htd := (tryDelta_iff { c with udfs := us } hw (resolve c name).sch (resolve c name).tab hp t.uuid d).2 ⟨t, ht, rfl, hl⟩
  have htd' : tryDelta { c with udfs := us } (resolve c name) = .ok (t.uuid, d) := by rw [← hrr]; exact htd
  have hdd : deleteDelta env { c with udfs := us } (resolve c name) =
      (setData { c with udfs := us } t.uuid (env.left t.uuid), .error .del) := by
    simp [deleteDelta, htd', hdel]
  rcases deleteTable_cases c.cat hw c.db (resolve c name).sch (resolve c name).tab with ⟨s', g1, _, _, g3⟩ | ⟨e, _, g2⟩
  · have g1' : deleteTable (setData { c with udfs := us } t.uuid (env.left t.uuid)).cat (resolve c name).cat
        (resolve c name).sch (resolve c name).tab = (s', .ok ()) := by rw [hcat]; exact g1
    refine ⟨{ setData { c with udfs := us } t.uuid (env.left t.uuid) with cat := s' }, ?_, ?_, by simp [setData]⟩
    · cases ie <;> simp only [execStmt, doDropTable, hres, htd', hp.2.1, if_false, hdd, g1', liftCat]
    · intro x hx
      exact ((g3 _ _ _ _).1 hx).2 rfl
  · exact absurd ht (g2 t)

/-- **C78 is violated for every table of another database**: `DROP TABLE other.s.t` removes it from the catalog and leaves all
its data behind. -/
theorem C78_violated_drop (env : Env) (c : Ctx) (hw : WF c.cat) (hr : (reload env c).2 = .ok ()) (name : TRef)
    (hne : (resolve c name).cat ≠ c.db) (hn : (resolve c name).sch ≠ "staging") (t : Tab)
    (ht : IsTable c.cat (resolve c name).cat (resolve c name).sch (resolve c name).tab t) :
    ∃ c', exec env c (.dropTable name false) = (c', .ok ()) ∧
      (∀ x, ¬ IsTable c'.cat (resolve c name).cat (resolve c name).sch (resolve c name).tab x) ∧ c'.data = c.data := by
  obtain ⟨us, ⟨_, _, he⟩ | ⟨e, hb, _⟩⟩ := exec_cases env c (.dropTable name false)
  rotate_left
  · rw [hr] at hb; cases hb
  rw [he]
  have hres : resolve { c with udfs := us } name = resolve c name := rfl
  have htd : tryDelta { c with udfs := us } (resolve c name) = .error .noCatalog := by
    simp [tryDelta, lookup, hne]
  have hdd : deleteDelta env { c with udfs := us } (resolve c name) = ({ c with udfs := us }, .error .noCatalog) := by
    simp [deleteDelta, htd]
  rcases deleteTable_cases c.cat hw (resolve c name).cat (resolve c name).sch (resolve c name).tab with
    ⟨s', g1, _, _, g3⟩ | ⟨e, _, g2⟩
  · refine ⟨{ c with udfs := us, cat := s' }, ?_, ?_, rfl⟩
    · simp only [execStmt, doDropTable, hres, htd, hn, if_false, hdd, g1, liftCat]
    · intro x hx
      exact ((g3 _ _ _ _).1 hx).2 rfl
  · exact absurd ht (g2 t)

/-- **C78 is violated for every external table**: all databases see the same ones. -/
theorem C78_violated_external (c : Ctx) (db sch n : String) :
    lookup (scopeTo c db sch) ⟨db, "staging", n⟩ = lookup c ⟨c.db, "staging", n⟩ := by
  simp [lookup, scopeTo]

/-! ### C76: DROP SCHEMA -/

/-- **C76 is violated for every schema called `system`**: it can never be dropped. -/
theorem C76_violated_system (env : Env) (c : Ctx) (cat : Option String) (ie : Bool) :
    ∃ e, (exec env c (.dropSchema cat "system" ie)).2 = .error e := by
  refine exec_error env c _ (fun us => ?_)
  simp only [execStmt, doDropSchema]
  split
  · exact ⟨_, rfl⟩
  · simp [schemaTables, systemTables, dropLoop, deleteDelta, tryDelta, lookup]

/-- The loop succeeds on tables that load and can be deleted. -/
theorem dropLoop_pre (env : Env) (sch : String) (hp : Plain sch) (ts : List String) : ∀ (c : Ctx), WF c.cat → ts.Nodup →
    (∀ m ∈ ts, ∃ x, IsTable c.cat c.db sch m x) →
    (∀ m ∈ ts, ∀ x, IsTable c.cat c.db sch m x → (c.data x.uuid).isSome = true ∧ env.delOk x.uuid = true) →
    (∀ m m' x y, IsTable c.cat c.db sch m x → IsTable c.cat c.db sch m' y → x.uuid = y.uuid → m = m') →
    ∃ c', dropLoop env c sch ts = (c', .ok ()) := by
  induction ts with
  | nil => intro c _ _ _ _ _; exact ⟨c, rfl⟩
  | cons t ts ih =>
    intro c hw hnd hex hload huq
    obtain ⟨x, hx⟩ := hex t (by simp)
    obtain ⟨hsome, hdel⟩ := hload t (by simp) x hx
    obtain ⟨d, hd⟩ := Option.isSome_iff_exists.1 hsome
    have htd := (tryDelta_iff c hw sch t hp x.uuid d).2 ⟨x, hx, rfl, hd⟩
    have hdd : deleteDelta env c ⟨c.db, sch, t⟩ = (setData c x.uuid none, .ok ()) := by simp [deleteDelta, htd, hdel]
    rcases deleteTable_cases c.cat hw c.db sch t with ⟨s', g1, _, gw, g3⟩ | ⟨e, g1, g2⟩
    · have g1' : deleteTable (setData c x.uuid none).cat (setData c x.uuid none).db sch t = (s', .ok ()) := g1
      rw [List.nodup_cons] at hnd
      obtain ⟨c', hc'⟩ := ih { setData c x.uuid none with cat := s' } gw hnd.2
        (by
          intro m hm
          obtain ⟨y, hy⟩ := hex m (List.mem_cons_of_mem _ hm)
          refine ⟨y, (g3 _ _ _ _).2 ⟨hy, ?_⟩⟩
          rintro e
          simp only [Prod.mk.injEq] at e
          rw [e.2.2] at hm
          exact hnd.1 hm)
        (by
          intro m hm y hy
          obtain ⟨hy1, hy2⟩ := (g3 _ _ _ _).1 hy
          have hne : y.uuid ≠ x.uuid := by
            intro e
            apply hy2
            rw [huq m t y x hy1 hx e]
            rfl
          obtain ⟨k1, k2⟩ := hload m (List.mem_cons_of_mem _ hm) y hy1
          exact ⟨by simpa [setData, hne] using k1, k2⟩)
        (by
          intro m m' y z hy hz e
          exact huq m m' y z ((g3 _ _ _ _).1 hy).1 ((g3 _ _ _ _).1 hz).1 e)
      exact ⟨c', by simp only [dropLoop, hdd, g1', hc']⟩
    · exact absurd hx (g2 x)

theorem dropLoop_append (env : Env) (sch : String) (ts ts' : List String) : ∀ (c : Ctx),
    dropLoop env c sch (ts ++ ts') = match dropLoop env c sch ts with
      | (c1, .error e) => (c1, .error e)
      | (c1, .ok _) => dropLoop env c1 sch ts' := by
  induction ts with
  | nil => intro c; rfl
  | cons t ts ih =>
    intro c
    simp only [List.cons_append, dropLoop]
    split
    · rfl
    · split
      · rfl
      · exact ih _

/-- **C76 is violated by every table that cannot be removed**: `DROP SCHEMA` goes through the tables in the order of the
catalog; at the first that does not load or whose objects cannot be deleted it fails, when all tables before it are
gone with their data, and this and all others, and the schema, are left. -/
theorem C76_violated_midway (env : Env) (c : Ctx) (hw : WF c.cat) (hr : (reload env c).2 = .ok ()) (n : String) (ie : Bool)
    (hp : Plain n) (pre post : List String) (t : String) (x : Tab)
    (hts : schemaTables c n = some (pre ++ t :: post)) (hx : IsTable c.cat c.db n t x)
    (hbad : c.data x.uuid = none ∨ env.delOk x.uuid = false)
    (hpre : ∀ m ∈ pre, ∀ y, IsTable c.cat c.db n m y → (c.data y.uuid).isSome = true ∧ env.delOk y.uuid = true)
    (huq : ∀ x ∈ c.cat.tabs, ∀ y ∈ c.cat.tabs, x.uuid = y.uuid → x = y) :
    ∃ c' e, exec env c (.dropSchema none n ie) = (c', .error e) ∧
      (∀ m y, IsTable c'.cat c.db n m y ↔ IsTable c.cat c.db n m y ∧ m ∉ pre) ∧
      (∀ m ∈ pre, ∀ y, IsTable c.cat c.db n m y → c'.data y.uuid = none) ∧
      (∀ co, IsSchema c'.cat c.db n co ↔ IsSchema c.cat c.db n co) := by
  obtain ⟨us, ⟨_, _, he⟩ | ⟨e, hb, _⟩⟩ := exec_cases env c (.dropSchema none n ie)
  rotate_left
  · rw [hr] at hb; cases hb
  rw [he]
  have hts' : schemaTables { c with udfs := us } n = some (pre ++ t :: post) := hts
  have hnd : (pre ++ t :: post).Nodup := by
    simp only [schemaTables, hp.2.1, hp.2.2, if_false] at hts
    rcases getSchema_cases c.cat c.db n hp.2.1 with ⟨z, hz, hg⟩ | ⟨_, hg⟩
    · simp only [hg, Option.some.injEq] at hts
      rw [← hts]
      refine List.pairwise_map.2 ?_
      refine List.Pairwise.imp_of_mem ?_ (pairwise_filter _ hw.tabNames)
      intro a b ha hb hab e
      obtain ⟨_, ha⟩ := List.mem_filter.1 ha
      obtain ⟨_, hb⟩ := List.mem_filter.1 hb
      simp only [beq_iff_eq] at ha hb
      exact hab ⟨by rw [ha, hb], e⟩
    · simp [hg] at hts
  have hndp := (List.nodup_append.1 hnd).1
  have htp : t ∉ pre := fun h => (List.nodup_append.1 hnd).2.2 t h t (by simp) rfl
  obtain ⟨_, hmem⟩ := schemaTables_mem { c with udfs := us } hw n ⟨hp.2.1, hp.2.2⟩ _ hts'
  have huq' : ∀ m m' x y, IsTable c.cat c.db n m x → IsTable c.cat c.db n m' y → x.uuid = y.uuid → m = m' := by
    intro m m' x y hx hy e
    have hxy := huq x hx.1 y hy.1 e
    subst hxy
    have := IsTable_names hw hx hy
    simp only [Prod.mk.injEq] at this
    exact this.2.2.symm
  obtain ⟨c1, hl⟩ := dropLoop_pre env n hp pre { c with udfs := us } hw hndp
    (fun m hm => (hmem m).1 (List.mem_append.2 (Or.inl hm))) hpre huq'
  obtain ⟨i1, i2, i3, i4, i5, i6, i7, i8⟩ := dropLoop_ok pre (c := { c with udfs := us }) hw hl
  have hx1 : IsTable c1.cat c1.db n t x := by
    rw [i2]
    exact (i5 _ _ _ _).2 ⟨hx, fun h => htp h.2.2⟩
  have hd1 : c1.data x.uuid = c.data x.uuid := i7 x.uuid (fun m hm y hy e => htp (by
    rw [huq' t m x y hx hy e.symm]; exact hm))
  have hne : ∀ m ∈ pre, ∀ y, IsTable c.cat c.db n m y → y.uuid ≠ x.uuid := fun m hm y hy e =>
    htp (by rw [← huq' m t y x hy hx e]; exact hm)
  -- the table fails
  have hfail : ∃ c2 e, deleteDelta env c1 ⟨c1.db, n, t⟩ = (c2, .error e) ∧ c2.cat = c1.cat ∧
      ∀ u, u ≠ x.uuid → c2.data u = c1.data u := by
    rcases hdat : c1.data x.uuid with _ | d
    · rcases htd : tryDelta c1 ⟨c1.db, n, t⟩ with e | ⟨v, dd⟩
      · exact ⟨c1, e, by simp [deleteDelta, htd], rfl, fun _ _ => rfl⟩
      · obtain ⟨y, hy1, hy2, hy3⟩ := (tryDelta_iff c1 i1 n t hp v dd).1 htd
        have := IsTable_unique i1 hy1 hx1
        subst this
        rw [hy2, hy3] at hdat
        cases hdat
    · have htd := (tryDelta_iff c1 i1 n t hp x.uuid d).2 ⟨x, hx1, rfl, hdat⟩
      have hdel : env.delOk x.uuid = false := by
        rcases hbad with h | h
        · rw [hd1, h] at hdat; cases hdat
        · exact h
      refine ⟨setData c1 x.uuid (env.left x.uuid), .del, by simp [deleteDelta, htd, hdel], rfl, fun u hu => by simp [setData, hu]⟩
  obtain ⟨c2, e, hf1, hf2, hf3⟩ := hfail
  refine ⟨c2, e, ?_, ?_, ?_, ?_⟩
  · simp only [execStmt, doDropSchema, Option.getD_none, ne_eq, not_true_eq_false, if_false, hts', dropLoop_append, hl]
    simp only [dropLoop, hf1]
  · intro m y
    rw [hf2, i5]
    constructor
    · rintro ⟨h1, h2⟩
      exact ⟨h1, fun h => h2 ⟨rfl, rfl, h⟩⟩
    · rintro ⟨h1, h2⟩
      exact ⟨h1, fun h => h2 h.2.2⟩
  · intro m hm y hy
    rw [hf3 _ (hne m hm y hy)]
    exact i6 m hm y hy
  · intro co
    rw [hf2]
    exact i4 _ _ _

/-- The schema of `C76_violated`: `t` goes, `t2` stays. -/
example : schemaTables exTwo "public" = some (["t"] ++ "t2" :: []) ∧
    (getTable exTwo.cat exTwo.db "public" "t2").toOption.map (·.uuid) = some 600 := by decide +kernel

/-! ### C77: OR REPLACE -/

/-- **C77 is violated for every existing table**: `CREATE [OR REPLACE] TABLE … AS` always fails and leaves the table as it was. -/
theorem C77_violated_always (env : Env) (c : Ctx) (hw : WF c.cat) (name : TRef) (orr : Bool) (q : Query) (u : Nat) (t : Tab)
    (ht : IsTable c.cat c.db (resolve c name).sch (resolve c name).tab t) (hn : (resolve c name).sch ≠ "staging") :
    (∃ e, (exec env c (.ctas name false orr q u)).2 = .error e) ∧
    (exec env c (.ctas name false orr q u)).1.cat = c.cat ∧
    (t.uuid ≠ u → (exec env c (.ctas name false orr q u)).1.data t.uuid = c.data t.uuid) := by
  obtain ⟨us, ⟨_, _, he⟩ | ⟨e, _, he⟩⟩ := exec_cases env c (.ctas name false orr q u)
  rotate_left
  · rw [he]; exact ⟨⟨e, rfl⟩, rfl, fun _ => rfl⟩
  rw [he]
  have hres : resolve { c with udfs := us } name = resolve c name := rfl
  simp only [execStmt, doCtas, hres]
  cases q with
  | planErr => exact ⟨⟨.plan, rfl⟩, rfl, fun _ => rfl⟩
  | rows s rs =>
    have h0 := (C32_createTable c.cat hw c.db (resolve c name).sch (resolve c name).tab
      (env.cols s) u env.now true).2.2.1 hn ⟨t, ht⟩
    have hcd : ∃ c1 e, createDelta env { c with udfs := us } (resolve c name) s u = (c1, .error e) ∧ c1.cat = c.cat ∧
        (t.uuid ≠ u → c1.data t.uuid = c.data t.uuid) := by
      cases h1 : env.hasStore with
      | false => exact ⟨{ c with udfs := us }, .noStore, by simp only [createDelta, h1, Bool.not_false, if_true], rfl, fun _ => rfl⟩
      | true =>
        rcases hg : getSchema c.cat c.db (resolve c name).sch with e | y
        · exact ⟨{ c with udfs := us }, .cat e, by simp only [createDelta, h1, hg, Bool.not_true, Bool.false_eq_true, if_false], rfl, fun _ => rfl⟩
        · cases h2 : env.createOk with
          | false =>
            exact ⟨{ c with udfs := us }, .write, by simp only [createDelta, h1, hg, h2, Bool.not_true, Bool.not_false, Bool.false_eq_true, if_false, if_true], rfl, fun _ => rfl⟩
          | true =>
            refine ⟨setData { c with udfs := us } u (some ⟨s, []⟩), .cat (.tableAlreadyExists (resolve c name).tab), by
              simp only [createDelta, h1, hg, h2, Bool.not_true, Bool.false_eq_true, if_false, setData, h0], rfl, fun hne => ?_⟩
            simp [setData, hne]
    obtain ⟨c1, e, h1, h2, h3⟩ := hcd
    simp only [h1]
    exact ⟨⟨e, rfl⟩, h2, h3⟩

end Seafowl.Ddl
