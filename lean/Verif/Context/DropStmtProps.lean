import Verif.Context.DdlProps

/-!
# C75, C76: DROP TABLE and DROP SCHEMA
-/

namespace Seafowl.Ddl

open Seafowl.Catalog

set_option linter.unusedSimpArgs false

/-! ### catalog operations that fail change nothing -/

theorem deleteTable_cases (s : Cat) (h : WF s) (db sch n : String) :
    (∃ s', deleteTable s db sch n = (s', .ok ()) ∧ (∃ t, IsTable s db sch n t) ∧ WF s' ∧
      ∀ a b m x, IsTable s' a b m x ↔ IsTable s a b m x ∧ (a, b, m) ≠ (db, sch, n)) ∨
    (∃ e, deleteTable s db sch n = (s, .error e) ∧ ∀ t, ¬ IsTable s db sch n t) := by
  by_cases hex : ∃ t, IsTable s db sch n t
  · left
    have h2 := ((C32_deleteTable s h db sch n).2 hex).1
    rcases hd : deleteTable s db sch n with ⟨s', e | _⟩
    · rw [hd] at h2; cases h2
    · have hw : WF s' := by
        have := C31_step s h (.deleteTable db sch n)
        simp only [Catalog.exec, hd] at this
        exact this
      exact ⟨s', rfl, hex, hw, fun a b m x => C35_other_tables s s' h db sch n hd a b m x⟩
  · right
    have hno : ∀ t, ¬ IsTable s db sch n t := fun t ht => hex ⟨t, ht⟩
    exact ⟨_, ((C32_deleteTable s h db sch n).1 hno).1, hno⟩

theorem deleteTable_schemas {s s' : Cat} (h : WF s) {db sch n : String} (hd : deleteTable s db sch n = (s', .ok ()))
    (a b : String) (c : Coll) : IsSchema s' a b c ↔ IsSchema s a b c := by
  obtain ⟨t, _, hw⟩ := C35_table s s' h db sch n hd
  have hdb : ∀ m d, IsDb s' m d ↔ IsDb s m d := by intro m d; simp only [IsDb, hw.dbs]; simp
  simp only [IsSchema, hw.colls, hdb]; simp

/-! ### C75 -/

/-- What deleting the objects of a table does. -/
theorem deleteDelta_data (env : Env) (c : Ctx) (r : RRef) :
    (∃ e, tryDelta c r = .error e ∧ deleteDelta env c r = (c, .error e)) ∨
    (∃ t d v, r.cat = c.db ∧ Plain r.sch ∧ IsTable c.cat c.db r.sch r.tab t ∧ c.data t.uuid = some d ∧
      tryDelta c r = .ok (t.uuid, d) ∧
      (deleteDelta env c r).1 = setData c t.uuid v ∧
      (env.delOk t.uuid = true → v = none ∧ (deleteDelta env c r).2 = .ok ()) ∧
      (env.delOk t.uuid = false → (deleteDelta env c r).2 = .error .del)) := by
  rcases ht : tryDelta c r with e | ⟨u, d⟩
  · left; exact ⟨e, rfl, by simp [deleteDelta, ht]⟩
  · right
    obtain ⟨h1, h2, t, h3, rfl, h4⟩ := tryDelta_ok _ _ _ _ ht
    cases hd : env.delOk t.uuid with
    | true => exact ⟨t, d, none, h1, h2, h3, h4, rfl, by simp [deleteDelta, ht, hd], by simp [deleteDelta, ht, hd], by simp [hd]⟩
    | false => exact ⟨t, d, env.left t.uuid, h1, h2, h3, h4, rfl, by simp [deleteDelta, ht, hd], by simp [hd], by simp [deleteDelta, ht, hd]⟩

/-- **C75**, safety: whatever happens, `DROP TABLE` touches no other table, no other data and no other
staging table. -/
theorem C75_others (env : Env) (c : Ctx) (hw : WF c.cat) (name : TRef) (ie : Bool) :
    (∀ a b m x, (a, b, m) ≠ ((resolve c name).cat, (resolve c name).sch, (resolve c name).tab) →
      (IsTable (exec env c (.dropTable name ie)).1.cat a b m x ↔ IsTable c.cat a b m x)) ∧
    (∀ u, (∀ t, IsTable c.cat (resolve c name).cat (resolve c name).sch (resolve c name).tab t → t.uuid ≠ u) →
      (exec env c (.dropTable name ie)).1.data u = c.data u) ∧
    (∀ n i, ((resolve c name).sch ≠ "staging" ∨ n ≠ (resolve c name).tab) →
      ((n, i) ∈ (exec env c (.dropTable name ie)).1.ext ↔ (n, i) ∈ c.ext)) := by
  obtain ⟨us, ⟨_, _, he⟩ | ⟨e, _, he⟩⟩ := exec_cases env c (.dropTable name ie)
  rotate_left
  · rw [he]; exact ⟨fun _ _ _ _ _ => Iff.rfl, fun _ _ => rfl, fun _ _ _ => Iff.rfl⟩
  rw [he]
  simp only [execStmt, doDropTable]
  split
  · exact ⟨fun _ _ _ _ _ => Iff.rfl, fun _ _ => rfl, fun _ _ _ => Iff.rfl⟩
  · have hrr : resolve { c with udfs := us } name = resolve c name := rfl
    rw [hrr]
    generalize hr : resolve c name = r
    split
    · rename_i hst
      split
      · exact ⟨fun _ _ _ _ _ => Iff.rfl, fun _ _ => rfl, fun _ _ _ => Iff.rfl⟩
      · refine ⟨fun _ _ _ _ _ => Iff.rfl, fun _ _ => rfl, ?_⟩
        intro n i h
        have hn : n ≠ r.tab := by
          rcases h with h | h
          · exact absurd hst h
          · exact h
        simp [List.mem_filter, hn]
    · have hf := deleteDelta_frame env { c with udfs := us } r
      have hl := liftCat_ext (deleteDelta env { c with udfs := us } r).1
        (deleteTable (deleteDelta env { c with udfs := us } r).1.cat r.cat r.sch r.tab)
      have hdat : ∀ u, (∀ t, IsTable c.cat r.cat r.sch r.tab t → t.uuid ≠ u) →
          (deleteDelta env { c with udfs := us } r).1.data u = c.data u := by
        intro u hu
        rcases deleteDelta_data env { c with udfs := us } r with ⟨e, _, h⟩ | ⟨t, d, v, h1, _, h2, _, _, h3, _, _⟩
        · rw [h]
        · rw [h3]
          have : t.uuid ≠ u := hu t (by rw [h1]; exact h2)
          simp [setData, Ne.symm this]
      refine ⟨?_, ?_, ?_⟩
      · intro a b m x hne
        have hcat : (deleteDelta env { c with udfs := us } r).1.cat = c.cat := hf.2.2.2
        rw [hcat]
        rcases deleteTable_cases c.cat hw r.cat r.sch r.tab with ⟨s', h1, _, _, h3⟩ | ⟨e, h1, _⟩
        · rw [h1]
          simp only [liftCat]
          rw [h3 a b m x]
          exact ⟨fun h => h.1, fun h => ⟨h, hne⟩⟩
        · rw [h1]; simp only [liftCat]
      · intro u hu
        rw [hl.2.2.2]
        exact hdat u hu
      · intro n i _
        rw [hl.1, hf.1]

/-- **C75** (partial: for a table of the current database whose data loads and can be deleted): the table is
gone from the catalog together with its data. -/
theorem C75_drop_partial (env : Env) (c : Ctx) (hw : WF c.cat) (hr : (reload env c).2 = .ok ()) (name : TRef) (ie : Bool)
    (hcat : (resolve c name).cat = c.db) (hp : Plain (resolve c name).sch) (t : Tab)
    (ht : IsTable c.cat c.db (resolve c name).sch (resolve c name).tab t) (hl : (c.data t.uuid).isSome = true)
    (hdel : env.delOk t.uuid = true) :
    ∃ c', exec env c (.dropTable name ie) = (c', .ok ()) ∧
      (∀ x, ¬ IsTable c'.cat c.db (resolve c name).sch (resolve c name).tab x) ∧ c'.data t.uuid = none := by
  obtain ⟨us, ⟨_, _, he⟩ | ⟨e, hbad, _⟩⟩ := exec_cases env c (.dropTable name ie)
  rotate_left
  · rw [hr] at hbad; cases hbad
  rw [he]
  obtain ⟨d, hd⟩ := Option.isSome_iff_exists.1 hl
  have htd : tryDelta { c with udfs := us } (resolve c name) = .ok (t.uuid, d) := by
    have := (tryDelta_iff { c with udfs := us } hw _ _ hp t.uuid d).2 ⟨t, ht, rfl, hd⟩
    have hre : resolve c name = ⟨c.db, (resolve c name).sch, (resolve c name).tab⟩ := by rw [← hcat]
    rw [hre]
    exact this
  have hrr : resolve { c with udfs := us } name = resolve c name := rfl
  have hdd : deleteDelta env { c with udfs := us } (resolve c name) = (setData { c with udfs := us } t.uuid none, .ok ()) := by
    simp [deleteDelta, htd, hdel]
  rcases deleteTable_cases c.cat hw (resolve c name).cat (resolve c name).sch (resolve c name).tab with ⟨s', h1, _, _, h3⟩ | ⟨e, h1, h2⟩
  · have h1' : deleteTable (setData { c with udfs := us } t.uuid none).cat (resolve c name).cat (resolve c name).sch
        (resolve c name).tab = (s', .ok ()) := h1
    have hres : execStmt env { c with udfs := us } (.dropTable name ie) =
        ({ setData { c with udfs := us } t.uuid none with cat := s' }, .ok ()) := by
      simp only [execStmt, doDropTable, hrr, htd, hdd, h1', hp.2.1, if_false, liftCat]
    refine ⟨{ setData { c with udfs := us } t.uuid none with cat := s' }, hres, ?_, ?_⟩
    · intro x hx
      rw [← hcat] at hx
      exact ((h3 _ _ _ _).1 hx).2 rfl
    · simp [setData]
  · rw [hcat] at h2; exact absurd ht (h2 t)

/-- **C75**: without IF EXISTS a name that denotes no table is an error, which changes nothing. -/
theorem C75_missing (env : Env) (c : Ctx) (hw : WF c.cat) (hr : (reload env c).2 = .ok ()) (name : TRef)
    (hp : (resolve c name).sch ≠ "staging")
    (hno : ∀ t, ¬ IsTable c.cat (resolve c name).cat (resolve c name).sch (resolve c name).tab t) :
    ∃ c' e, exec env c (.dropTable name false) = (c', .error e) ∧ Same c c' := by
  obtain ⟨us, ⟨_, _, he⟩ | ⟨e, hbad, _⟩⟩ := exec_cases env c (.dropTable name false)
  rotate_left
  · rw [hr] at hbad; cases hbad
  rw [he]
  have hrr : resolve { c with udfs := us } name = resolve c name := rfl
  rcases deleteDelta_data env { c with udfs := us } (resolve c name) with ⟨e, ht, h⟩ | ⟨t, d, v, h1, _, h2, _⟩
  · rcases deleteTable_cases c.cat hw (resolve c name).cat (resolve c name).sch (resolve c name).tab with ⟨s', _, ⟨t, h2⟩, _⟩ | ⟨e', h1, _⟩
    · exact absurd h2 (hno t)
    · refine ⟨{ c with udfs := us }, .cat e', ?_, rfl, rfl, rfl⟩
      simp only [execStmt, doDropTable, hrr, hp, if_false, h]
      simp only [h1, liftCat]
  · rw [h1] at hno; exact absurd h2 (hno t)

/-- **C75** for staging tables, without IF EXISTS. -/
theorem C75_staging (env : Env) (c : Ctx) (hr : (reload env c).2 = .ok ()) (name : TRef)
    (hcat : (resolve c name).cat = c.db) (hs : (resolve c name).sch = "staging") :
    ∃ c', exec env c (.dropTable name false) = (c', .ok ()) ∧ c'.cat = c.cat ∧ c'.data = c.data ∧
      lookup c' (resolve c name) = .error .noTable ∧
      ∀ t, t ≠ (resolve c name).tab → lookup c' ⟨c.db, "staging", t⟩ = lookup c ⟨c.db, "staging", t⟩ := by
  obtain ⟨us, ⟨_, _, he⟩ | ⟨e, hbad, _⟩⟩ := exec_cases env c (.dropTable name false)
  rotate_left
  · rw [hr] at hbad; cases hbad
  rw [he]
  have hrr : resolve { c with udfs := us } name = resolve c name := rfl
  refine ⟨{ c with udfs := us, ext := c.ext.filter (·.1 != (resolve c name).tab) }, ?_, rfl, rfl, ?_, ?_⟩
  · simp only [execStmt, doDropTable, hrr, hs, if_true, hcat, ne_eq, not_true_eq_false, if_false]
  · have hf : (c.ext.filter (·.1 != (resolve c name).tab)).find? (·.1 == (resolve c name).tab) = none := by
      rw [List.find?_eq_none]
      intro x hx
      simpa using (List.mem_filter.1 hx).2
    have : lookup { c with udfs := us, ext := c.ext.filter (·.1 != (resolve c name).tab) } ⟨c.db, "staging", (resolve c name).tab⟩ =
        .error .noTable := by
      simp [lookup, hf]
    have hre : resolve c name = ⟨c.db, "staging", (resolve c name).tab⟩ := by rw [← hcat, ← hs]
    rw [hre]
    exact this
  · intro t hne
    have hf : ∀ l : List (String × Nat), (l.filter (·.1 != (resolve c name).tab)).find? (·.1 == t) = l.find? (·.1 == t) := by
      intro l
      induction l with
      | nil => rfl
      | cons x xs ih =>
        by_cases hx : x.1 = (resolve c name).tab
        · have h1 : ((resolve c name).tab == t) = false := by simp [Ne.symm hne]
          simp only [List.filter, List.find?, hx, bne_self_eq_false, h1]
          exact ih
        · have h1 : (x.1 != (resolve c name).tab) = true := by simp [hx]
          simp only [List.filter, h1, List.find?]
          rw [ih]
    simp only [lookup]
    rw [hf c.ext]

/-- `public.t` and `staging.e` of the example. -/
example : ∃ c', exec exEnv exCtx (.dropTable { tab := "t" } true) = (c', .ok ()) ∧
    (∀ x, ¬ IsTable c'.cat "default" "public" "t" x) ∧ c'.data 77 = none :=
  C75_drop_partial exEnv exCtx wf_exCat (by decide +kernel) { tab := "t" } true rfl
    ⟨by simp [resolve, exCtx], by simp [resolve, exCtx], by simp [resolve, exCtx]⟩ ⟨1, 1, "t", 77⟩
    ⟨by simp [exCtx, exCat], rfl, ⟨1, 1, "public"⟩, ⟨by simp [exCtx, exCat], rfl, ⟨1, "default"⟩,
      ⟨by simp [exCtx, exCat], rfl⟩, rfl⟩, rfl⟩ rfl rfl

/-- **C75**, violated: `DROP TABLE IF EXISTS` of an existing external table succeeds without dropping it;
so it does for a table whose log cannot be loaded; `DROP TABLE` of a missing staging table succeeds. -/
theorem C75_violated :
    ((exec exEnv exCtx (.dropTable { sch := some "staging", tab := "e" } true)).2 = .ok () ∧
      lookup (exec exEnv exCtx (.dropTable { sch := some "staging", tab := "e" } true)).1 ⟨"default", "staging", "e"⟩ = .ok (.ext 5)) ∧
    (let c := { exCtx with data := fun _ => none }
     (exec exEnv c (.dropTable { tab := "t" } true)).2 = .ok () ∧ (exec exEnv c (.dropTable { tab := "t" } true)).1.cat = exCat) ∧
    (lookup exCtx ⟨"default", "staging", "nope"⟩ = .error .noTable ∧
      (exec exEnv exCtx (.dropTable { sch := some "staging", tab := "nope" } false)).2 = .ok ()) := by decide +kernel

/-! ### C76 -/

/-- The loop of `DROP SCHEMA`, when it succeeds. -/
theorem dropLoop_ok {env : Env} (ts : List String) : ∀ {c c' : Ctx} {sch : String}, WF c.cat →
    dropLoop env c sch ts = (c', .ok ()) →
    WF c'.cat ∧ c'.db = c.db ∧ c'.ext = c.ext ∧
    (∀ a b x, IsSchema c'.cat a b x ↔ IsSchema c.cat a b x) ∧
    (∀ a b m x, IsTable c'.cat a b m x ↔ IsTable c.cat a b m x ∧ ¬ (a = c.db ∧ b = sch ∧ m ∈ ts)) ∧
    (∀ m ∈ ts, ∀ x, IsTable c.cat c.db sch m x → c'.data x.uuid = none) ∧
    (∀ u, (∀ m ∈ ts, ∀ x, IsTable c.cat c.db sch m x → x.uuid ≠ u) → c'.data u = c.data u) ∧
    (∀ u, c.data u = none → c'.data u = none) := by
  induction ts with
  | nil =>
    intro c c' sch hw h
    simp only [dropLoop, Prod.mk.injEq, and_true] at h
    subst h
    exact ⟨hw, rfl, rfl, fun _ _ _ => Iff.rfl, by simp, by simp, by simp, by simp⟩
  | cons t ts ih =>
    intro c c' sch hw h
    simp only [dropLoop] at h
    rcases hdd : deleteDelta env c ⟨c.db, sch, t⟩ with ⟨c1, e | _⟩
    · simp [hdd] at h
    · simp only [hdd] at h
      rcases deleteDelta_data env c ⟨c.db, sch, t⟩ with ⟨e, _, h1⟩ | ⟨x, d, v, _, _, hx, _, _, h3, hok, hbad⟩
      · rw [h1] at hdd; simp at hdd
      · have hv : v = none := by
          cases hdel : env.delOk x.uuid with
          | true => exact (hok hdel).1
          | false => rw [hdd] at hbad; simp at hbad; simp [hbad] at hdel
        subst hv
        rw [hdd] at h3
        simp only at h3
        subst h3
        rcases deleteTable_cases c.cat hw c.db sch t with ⟨s', g1, _, gw, g3⟩ | ⟨e, g1, _⟩
        · have g1' : deleteTable (setData c x.uuid none).cat (setData c x.uuid none).db sch t = (s', .ok ()) := g1
          simp only [g1'] at h
          obtain ⟨i1, i2, i3, i4, i5, i6, i7, i8⟩ := ih (c := { setData c x.uuid none with cat := s' }) gw h
          simp only at i1 i2 i3 i4 i5 i6 i7 i8
          have hdb : (setData c x.uuid none).db = c.db := rfl
          rw [hdb] at i2 i5 i6 i7
          refine ⟨i1, i2, i3, ?_, ?_, ?_, ?_, ?_⟩
          · intro a b y
            rw [i4 a b y]
            exact deleteTable_schemas hw g1 a b y
          · intro a b m y
            rw [i5 a b m y, g3 a b m y]
            simp only [List.mem_cons, ne_eq, Prod.mk.injEq]
            constructor
            · rintro ⟨⟨k1, k2⟩, k3⟩
              refine ⟨k1, ?_⟩
              rintro ⟨rfl, rfl, rfl | hm⟩
              · exact k2 ⟨rfl, rfl, rfl⟩
              · exact k3 ⟨rfl, rfl, hm⟩
            · rintro ⟨k1, k2⟩
              exact ⟨⟨k1, fun ⟨e1, e2, e3⟩ => k2 ⟨e1, e2, Or.inl e3⟩⟩, fun ⟨e1, e2, e3⟩ => k2 ⟨e1, e2, Or.inr e3⟩⟩
          · intro m hm y hy
            by_cases hmt : m = t
            · subst hmt
              have : y = x := IsTable_unique hw hy hx
              subst this
              exact i8 _ (by simp [setData])
            · rcases List.mem_cons.1 hm with hm | hm
              · exact absurd hm hmt
              · exact i6 m hm y ((g3 _ _ _ _).2 ⟨hy, by simp [hmt]⟩)
          · intro u hu
            rw [i7 u]
            · have : x.uuid ≠ u := hu t (by simp) x hx
              simp [setData, Ne.symm this]
            · intro m hm y hy
              exact hu m (List.mem_cons_of_mem _ hm) y ((g3 _ _ _ _).1 hy).1
          · intro u hu
            apply i8
            simp only [setData]
            by_cases e : u = x.uuid <;> simp [e, hu]
        · have g1' : deleteTable (setData c x.uuid none).cat (setData c x.uuid none).db sch t = (c.cat, .error e) := g1
          simp [g1'] at h

/-- The tables of an ordinary schema. -/
theorem schemaTables_mem (c : Ctx) (hw : WF c.cat) (n : String) (hp : n ≠ "staging" ∧ n ≠ "system") (ts : List String)
    (h : schemaTables c n = some ts) :
    (∃ co, IsSchema c.cat c.db n co) ∧ ∀ m, m ∈ ts ↔ ∃ x, IsTable c.cat c.db n m x := by
  simp only [schemaTables, hp.1, hp.2, if_false] at h
  rcases getSchema_cases c.cat c.db n hp.1 with ⟨co, hco, hg⟩ | ⟨_, hg⟩
  · simp only [hg, Option.some.injEq] at h
    subst h
    refine ⟨⟨co, hco⟩, fun m => ?_⟩
    simp only [List.mem_map, List.mem_filter, beq_iff_eq]
    constructor
    · rintro ⟨x, ⟨h1, h2⟩, h3⟩; exact ⟨x, h1, h3, co, hco, h2.symm⟩
    · rintro ⟨x, h1, h3, co', hco', h2⟩
      rw [IsSchema_unique hw hco' hco] at h2
      exact ⟨x, ⟨h1, h2.symm⟩, h3⟩
  · simp [hg] at h

/-- What a successful `SchemaStore::delete` leaves. -/
theorem deleteSchema_ok {s s' : Cat} (h : WF s) {db n : String} (hd : Catalog.deleteSchema s db n = (s', .ok ())) :
    (∀ a b x, IsSchema s' a b x ↔ IsSchema s a b x ∧ (a, b) ≠ (db, n)) ∧
    (∀ a b m x, IsTable s' a b m x ↔ IsTable s a b m x ∧ (a, b) ≠ (db, n)) := by
  obtain ⟨co, hco, hwo⟩ := C35_schema s s' h db n hd
  have hdb : ∀ m d, IsDb s' m d ↔ IsDb s m d := by intro m d; simp only [IsDb, hwo.dbs]; simp
  have huq : ∀ a b x, IsSchema s a b x → x.id = co.id → (a, b) = (db, n) := by
    intro a b x hx e
    have : x = co := eq_of_pairwise h.collIds hx.1 hco.1 (by simp [e]) (by simp [e])
    subst this
    obtain ⟨_, q2, d, hd1, hd3⟩ := hx
    obtain ⟨_, q2', d', hd1', hd3'⟩ := hco
    have : d = d' := eq_of_pairwise h.dbIds hd1.1 hd1'.1 (by simp [hd3, hd3']) (by simp [hd3, hd3'])
    subst this
    rw [← hd1.2, ← hd1'.2, ← q2, ← q2']
  have hsch : ∀ a b x, IsSchema s' a b x ↔ IsSchema s a b x ∧ (a, b) ≠ (db, n) := by
    intro a b x
    simp only [IsSchema, hwo.colls, hdb]
    constructor
    · rintro ⟨⟨h1, h2⟩, h3, d, hdd, h4⟩
      refine ⟨⟨h1, h3, d, hdd, h4⟩, ?_⟩
      intro e
      simp only [Prod.mk.injEq] at e
      obtain ⟨rfl, rfl⟩ := e
      exact h2 (IsSchema_unique h ⟨h1, h3, d, hdd, h4⟩ hco)
    · rintro ⟨⟨h1, h3, d, hd, h4⟩, hne⟩
      refine ⟨⟨h1, ?_⟩, h3, d, hd, h4⟩
      rintro rfl
      exact hne (huq a b x ⟨h1, h3, d, hd, h4⟩ rfl)
  refine ⟨hsch, ?_⟩
  intro a b m x
  simp only [IsTable, hwo.tabs, hsch]
  constructor
  · rintro ⟨⟨h1, _⟩, h3, co', ⟨hc1, hne⟩, h4⟩
    exact ⟨⟨h1, h3, co', hc1, h4⟩, hne⟩
  · rintro ⟨⟨h1, h3, co', hc1, h4⟩, hne⟩
    exact ⟨⟨h1, fun e => hne (huq a b co' hc1 (h4.trans e))⟩, h3, co', ⟨hc1, hne⟩, h4⟩

/-- **C76**: a successful `DROP SCHEMA` removes exactly the schema, its tables and their data. -/
theorem C76_success (env : Env) (c c' : Ctx) (hw : WF c.cat) (cat : Option String) (n : String) (ie : Bool)
    (hex : ∃ co, IsSchema c.cat c.db n co) (hn : n ≠ "system")
    (h : exec env c (.dropSchema cat n ie) = (c', .ok ())) :
    (∀ a b x, IsSchema c'.cat a b x ↔ IsSchema c.cat a b x ∧ (a, b) ≠ (c.db, n)) ∧
    (∀ a b m x, IsTable c'.cat a b m x ↔ IsTable c.cat a b m x ∧ (a, b) ≠ (c.db, n)) ∧
    (∀ m x, IsTable c.cat c.db n m x → c'.data x.uuid = none) ∧
    (∀ u, (∀ m x, IsTable c.cat c.db n m x → x.uuid ≠ u) → c'.data u = c.data u) ∧
    c'.ext = c.ext := by
  obtain ⟨us, ⟨_, _, he⟩ | ⟨e, _, he⟩⟩ := exec_cases env c (.dropSchema cat n ie)
  rotate_left
  · rw [he] at h; simp at h
  rw [he] at h
  simp only [execStmt, doDropSchema] at h
  by_cases hcat : cat.getD c.db ≠ c.db
  · simp [hcat] at h
  · simp only [hcat, if_false] at h
    by_cases hst : n = "staging"
    · -- the final removal from the catalog fails
      subst hst
      simp only [schemaTables, if_true] at h
      rcases hl : dropLoop env { c with udfs := us } "staging" (c.ext.map (·.1)) with ⟨c1, e | _⟩
      · simp [hl] at h
      · simp only [hl] at h
        have : Catalog.deleteSchema c1.cat c1.db "staging" = (c1.cat, .error .usedStagingSchema) := by
          simp [Catalog.deleteSchema, Catalog.getSchema, Catalog.staging]
        rw [this] at h
        simp [liftCat] at h
    · rcases hs : schemaTables { c with udfs := us } n with _ | ts
      · exfalso
        simp only [schemaTables, hst, hn, if_false] at hs
        obtain ⟨co, hco⟩ := hex
        rcases getSchema_cases c.cat c.db n hst with ⟨x, _, hg⟩ | ⟨hno, _⟩
        · simp [hg] at hs
        · exact hno co hco
      · obtain ⟨_, hmem⟩ := schemaTables_mem { c with udfs := us } hw n ⟨hst, hn⟩ ts hs
        simp only [hs] at h
        rcases hl : dropLoop env { c with udfs := us } n ts with ⟨c1, e | _⟩
        · simp [hl] at h
        · simp only [hl] at h
          obtain ⟨i1, i2, i3, i4, i5, i6, i7, i8⟩ := dropLoop_ok ts (c := { c with udfs := us }) hw hl
          rcases hds : Catalog.deleteSchema c1.cat c1.db n with ⟨s, e | _⟩
          · simp [hds, liftCat] at h
          · simp only [hds, liftCat, Prod.mk.injEq, and_true] at h
            subst h
            obtain ⟨hsch, htab⟩ := deleteSchema_ok i1 hds
            simp only [i2] at hsch htab
            refine ⟨?_, ?_, ?_, ?_, i3⟩
            · intro a b x
              rw [hsch a b x, i4 a b x]
            · intro a b m x
              rw [htab a b m x, i5 a b m x]
              constructor
              · rintro ⟨⟨k1, _⟩, k2⟩; exact ⟨k1, k2⟩
              · rintro ⟨k1, k2⟩
                exact ⟨⟨k1, fun ⟨q1, q2, _⟩ => k2 (by rw [q1, q2])⟩, k2⟩
            · intro m x hx
              exact i6 m ((hmem m).2 ⟨x, hx⟩) x hx
            · intro u hu
              exact i7 u (fun m _ x hx => hu m x hx)

/-- The loop succeeds if every table loads and can be deleted. -/
theorem dropLoop_succeeds (env : Env) (sch : String) (hp : Plain sch) (ts : List String) : ∀ (c : Ctx), WF c.cat → ts.Nodup →
    (∀ m ∈ ts, ∃ x, IsTable c.cat c.db sch m x) →
    (∀ m x, IsTable c.cat c.db sch m x → (c.data x.uuid).isSome = true ∧ env.delOk x.uuid = true) →
    (∀ m m' x y, IsTable c.cat c.db sch m x → IsTable c.cat c.db sch m' y → x.uuid = y.uuid → m = m') →
    ∃ c', dropLoop env c sch ts = (c', .ok ()) := by
  induction ts with
  | nil => intro c _ _ _ _ _; exact ⟨c, rfl⟩
  | cons t ts ih =>
    intro c hw hnd hex hload huq
    obtain ⟨x, hx⟩ := hex t (by simp)
    obtain ⟨hsome, hdel⟩ := hload t x hx
    obtain ⟨d, hd⟩ := Option.isSome_iff_exists.1 hsome
    have htd := (tryDelta_iff c hw sch t hp x.uuid d).2 ⟨x, hx, rfl, hd⟩
    have hdd : deleteDelta env c ⟨c.db, sch, t⟩ = (setData c x.uuid none, .ok ()) := by simp [deleteDelta, htd, hdel]
    rcases deleteTable_cases c.cat hw c.db sch t with ⟨s', g1, _, gw, g3⟩ | ⟨e, g1, g2⟩
    · have g1' : deleteTable (setData c x.uuid none).cat (setData c x.uuid none).db sch t = (s', .ok ()) := g1
      rw [List.nodup_cons] at hnd
      obtain ⟨c', hc'⟩ := ih { setData c x.uuid none with cat := s' } gw hnd.2
        (by
          intro m hm
          obtain ⟨y, hy⟩ := hex m (List.mem_cons_of_mem _ hm)
          refine ⟨y, (g3 _ _ _ _).2 ⟨hy, ?_⟩⟩
          rintro e
          simp only [Prod.mk.injEq] at e
          rw [e.2.2] at hm
          exact hnd.1 hm)
        (by
          intro m y hy
          obtain ⟨hy1, hy2⟩ := (g3 _ _ _ _).1 hy
          have hne : y.uuid ≠ x.uuid := by
            intro e
            apply hy2
            rw [huq m t y x hy1 hx e]
            rfl
          obtain ⟨k1, k2⟩ := hload m y hy1
          exact ⟨by simpa [setData, hne] using k1, k2⟩)
        (by
          intro m m' y z hy hz e
          exact huq m m' y z ((g3 _ _ _ _).1 hy).1 ((g3 _ _ _ _).1 hz).1 e)
      exact ⟨c', by simp only [dropLoop, hdd, g1', hc']⟩
    · exact absurd hx (g2 x)

/-- **C76** (partial: every table of the schema loads, its objects can be deleted, UUIDs are unique): the
statement succeeds. -/
theorem C76_succeeds_partial (env : Env) (c : Ctx) (hw : WF c.cat) (hr : (reload env c).2 = .ok ()) (n : String) (ie : Bool)
    (hp : Plain n) (co : Coll) (hco : IsSchema c.cat c.db n co)
    (hload : ∀ m x, IsTable c.cat c.db n m x → (c.data x.uuid).isSome = true ∧ env.delOk x.uuid = true)
    (huq : ∀ x ∈ c.cat.tabs, ∀ y ∈ c.cat.tabs, x.uuid = y.uuid → x = y) :
    ∃ c', exec env c (.dropSchema none n ie) = (c', .ok ()) := by
  obtain ⟨us, ⟨_, _, he⟩ | ⟨e, hbad, _⟩⟩ := exec_cases env c (.dropSchema none n ie)
  rotate_left
  · rw [hr] at hbad; cases hbad
  rw [he]
  have hst : ∃ ts, schemaTables { c with udfs := us } n = some ts ∧ ts.Nodup := by
    simp only [schemaTables, hp.2.1, hp.2.2, if_false]
    rcases getSchema_cases c.cat c.db n hp.2.1 with ⟨x, hx, hg⟩ | ⟨hn, _⟩
    · simp only [hg, Option.some.injEq]
      refine ⟨_, rfl, ?_⟩
      refine List.pairwise_map.2 ?_
      refine List.Pairwise.imp_of_mem ?_ (pairwise_filter _ hw.tabNames)
      intro a b ha hb hab e
      obtain ⟨_, ha⟩ := List.mem_filter.1 ha
      obtain ⟨_, hb⟩ := List.mem_filter.1 hb
      simp only [beq_iff_eq] at ha hb
      exact hab ⟨by rw [ha, hb], e⟩
    · exact absurd hco (hn co)
  obtain ⟨ts, hts, hnd⟩ := hst
  obtain ⟨_, hmem⟩ := schemaTables_mem { c with udfs := us } hw n ⟨hp.2.1, hp.2.2⟩ ts hts
  obtain ⟨c1, hl⟩ := dropLoop_succeeds env n hp ts { c with udfs := us } hw hnd (fun m hm => (hmem m).1 hm) hload
    (by
      intro m m' x y hx hy e
      have hxy := huq x hx.1 y hy.1 e
      subst hxy
      have := IsTable_names hw hx hy
      simp only [Prod.mk.injEq] at this
      exact this.2.2.symm)
  obtain ⟨i1, i2, i3, i4, _⟩ := dropLoop_ok ts (c := { c with udfs := us }) hw hl
  have hco1 : IsSchema c1.cat c1.db n co := by
    rw [i2]; exact (i4 _ _ _).2 hco
  have hok := ((C32_deleteSchema c1.cat i1 c1.db n).2.2 hp.2.1 ⟨co, hco1⟩).1
  rcases hds : Catalog.deleteSchema c1.cat c1.db n with ⟨s, e | _⟩
  · rw [hds] at hok; cases hok
  · refine ⟨{ c1 with cat := s }, ?_⟩
    simp only [execStmt, doDropSchema, Option.getD_none, ne_eq, not_true_eq_false, if_false, hts, hl, hds, liftCat]

/-- Dropping `public` of the example. -/
example : ∃ c', exec exEnv exCtx (.dropSchema none "public" false) = (c', .ok ()) := by
  refine C76_succeeds_partial exEnv exCtx wf_exCat (by decide +kernel) "public" false ⟨by simp, by simp, by simp⟩
    ⟨1, 1, "public"⟩ ⟨by simp [exCtx, exCat], rfl, ⟨1, "default"⟩, ⟨by simp [exCtx, exCat], rfl⟩, rfl⟩ ?_ ?_
  · rintro m x ⟨hx, _⟩
    simp only [exCtx, exCat, List.mem_cons, List.not_mem_nil, or_false] at hx
    rcases hx with rfl | rfl <;> simp [exCtx, exEnv]
  · intro x hx y hy e
    simp only [exCtx, exCat, List.mem_cons, List.not_mem_nil, or_false] at hx hy
    rcases hx with rfl | rfl <;> rcases hy with rfl | rfl <;> simp at e ⊢

/-- A schema with two tables, the objects of the second of which cannot be deleted. -/
def exTwo : Ctx := run exEnv exCtx [.createTable "t2" false false 1 600]

/-- **C76**, violated: when one table cannot be removed the statement fails after others are already gone;
a schema called `system` can be created but not dropped. -/
theorem C76_violated :
    (let env := { exEnv with delOk := fun u => u != 600 }
     let r := exec env exTwo (.dropSchema none "public" false)
     r.2 = .error .del ∧ exTwo.data 77 = some ⟨1, [10]⟩ ∧ r.1.data 77 = none ∧
     lookup r.1 ⟨"default", "public", "t"⟩ = .error .noTable) ∧
    ((exec exEnv exCtx (.createSchema "system" false)).2 = .ok () ∧
     (exec exEnv (exec exEnv exCtx (.createSchema "system" false)).1 (.dropSchema none "system" false)).2 = .error .notDelta) := by
  decide +kernel

end Seafowl.Ddl
