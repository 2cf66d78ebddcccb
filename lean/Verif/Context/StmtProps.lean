import Verif.Context.FnSessionProps

/-!
# C73, C77: failed statements, CREATE TABLE AS
-/

namespace Seafowl.Ddl

open Seafowl.Catalog

set_option linter.unusedSimpArgs false

/-! ### C73 -/

/-- A failed catalog operation embedded in a statement changes nothing. -/
theorem liftCat_err {α : Type} (c : Ctx) (x : Cat × Except CatErr α) (hx : ∀ s e, x = (s, .error e) → s = c.cat) (c' : Ctx)
    (e : Err) (h : liftCat c x = (c', .error e)) : c' = c := by
  obtain ⟨s, e' | a⟩ := x
  · simp only [liftCat, Prod.mk.injEq] at h
    rw [← h.1, hx s e' rfl]
  · simp [liftCat] at h

/-- `createDb` followed by its public schema. -/
theorem createDb_ok {s s' : Cat} (hw : WF s) {n : String} (h : createDb s n = (s', .ok ())) :
    (∀ d, ¬ IsDb s n d) ∧ (∃ d, IsDb s' n d) ∧ WF s' ∧ (∀ b c, ¬ IsSchema s' n b c) ∧
    (∀ a b m x, IsTable s' a b m x ↔ IsTable s a b m x) := by
  have hw' : WF s' := by
    have := C31_step s hw (.createDb n)
    simp only [Catalog.exec, h] at this
    exact this
  simp only [createDb, repoCreateDb] at h
  by_cases hany : s.dbs.any (·.name == n) = true
  · simp [hany] at h
  · simp only [hany, if_false, Bool.false_eq_true, Prod.mk.injEq, and_true] at h
    subst h
    have hpar : ∀ c ∈ s.colls, c.dbId ≠ newId (s.dbs.map (·.id)) := by
      intro c hc e
      obtain ⟨d, hd, hd2⟩ := hw.collParent c hc
      have := lt_newId_map (·.id) hd
      omega
    refine ⟨?_, ⟨_, List.mem_append.2 (Or.inr (List.mem_singleton.2 rfl)), rfl⟩, hw', ?_, ?_⟩
    · rintro d ⟨h1, h2⟩
      exact hany (List.any_eq_true.2 ⟨d, h1, by simp [h2]⟩)
    · rintro b c ⟨h1, _, d, ⟨hd1, hd2⟩, h4⟩
      rcases List.mem_append.1 hd1 with hd1 | hd1
      · exact hany (List.any_eq_true.2 ⟨d, hd1, by simp [hd2]⟩)
      · rw [List.mem_singleton] at hd1
        subst hd1
        exact hpar c h1 h4.symm
    · intro a b m x
      simp only [IsTable, IsSchema, IsDb]
      constructor
      · rintro ⟨h1, h2, c, ⟨h3, h4, d, ⟨hd1, hd2⟩, h5⟩, h6⟩
        refine ⟨h1, h2, c, ⟨h3, h4, d, ⟨?_, hd2⟩, h5⟩, h6⟩
        rcases List.mem_append.1 hd1 with hd1 | hd1
        · exact hd1
        · rw [List.mem_singleton] at hd1
          subst hd1
          exact absurd h5.symm (hpar c h3)
      · rintro ⟨h1, h2, c, ⟨h3, h4, d, ⟨hd1, hd2⟩, h5⟩, h6⟩
        exact ⟨h1, h2, c, ⟨h3, h4, d, ⟨List.mem_append.2 (Or.inl hd1), hd2⟩, h5⟩, h6⟩

/-- The statements whose failure is proved to leave no trace. -/
def Clean : Stmt → Prop
  | .createExternal .. | .createSchema .. | .createCatalog .. | .createFunction .. | .dropFunction .. | .rename .. | .dropTable .. => True
  | _ => False

/-- **C73** (partial): a failed CREATE EXTERNAL TABLE, SCHEMA, DATABASE, FUNCTION, a failed DROP TABLE,
DROP FUNCTION or RENAME changes nothing outside the session. -/
theorem C73_partial (env : Env) (c c' : Ctx) (hw : WF c.cat) (s : Stmt) (hs : Clean s) (e : Err)
    (h : exec env c s = (c', .error e)) : Same c c' := by
  obtain ⟨us, ⟨_, _, he⟩ | ⟨e', _, he⟩⟩ := exec_cases env c s
  rotate_left
  · rw [he] at h; simp only [Prod.mk.injEq] at h; rw [← h.1]; exact ⟨rfl, rfl, rfl⟩
  rw [he] at h
  suffices hsuff : ∃ us', c' = { c with udfs := us' } by
    obtain ⟨us', rfl⟩ := hsuff
    exact ⟨rfl, rfl, rfl⟩
  have hun : ∀ op : Op, (∀ a b n cs u w o, op ≠ .createTable a b n cs u w o) → (∀ u v w o, op ≠ .newVersion u v w o) →
      ∀ e', (Catalog.exec c.cat op).2 = some e' → (Catalog.exec c.cat op).1 = c.cat := by
    intro op h1 h2 e' h3
    refine C32_error_unchanged_partial c.cat op e' h3 ?_ ?_
    · intro a b n cs u w o h4; exact absurd h4 (h1 a b n cs u w o)
    · intro u v w o h4; exact absurd h4 (h2 u v w o)
  cases s with
  | createExternal name ine id =>
    simp only [execStmt, doCreateExternal] at h
    split at h
    · simp only [Prod.mk.injEq] at h; exact ⟨us, h.1.symm⟩
    · split at h
      · simp only [Prod.mk.injEq] at h; exact ⟨us, h.1.symm⟩
      · split at h
        · split at h <;> simp only [Prod.mk.injEq] at h
          · exact absurd h.2 (by simp)
          · exact ⟨us, h.1.symm⟩
        · simp at h
  | createSchema name ine =>
    refine ⟨us, liftCat_err _ _ ?_ c' e h⟩
    intro s' e' hx
    have := hun (.createSchema c.db name) (by simp) (by simp) e'
    simp only [Catalog.exec] at this
    have hx' : createSchema c.cat c.db name = (s', .error e') := hx
    rw [hx'] at this
    exact this rfl
  | createCatalog name ine =>
    simp only [execStmt, doCreateCatalog] at h
    split at h
    · split at h <;> simp only [Prod.mk.injEq] at h
      · exact absurd h.2 (by simp)
      · exact ⟨us, h.1.symm⟩
    · rcases hcd : createDb c.cat name with ⟨s1, e1 | _⟩
      · simp only [hcd, Prod.mk.injEq] at h
        have := hun (.createDb name) (by simp) (by simp) e1
        simp only [Catalog.exec, hcd] at this
        have h1 := this rfl
        subst h1
        exact ⟨us, h.1.symm⟩
      · simp only [hcd] at h
        obtain ⟨_, hdb, hw1, hno, _⟩ := createDb_ok hw hcd
        have hok := ((C32_createSchema s1 hw1 name "public").2.2.2 (by simp [staging]) hdb (hno "public")).1
        rcases hcs : createSchema s1 name "public" with ⟨s2, e2 | _⟩
        · rw [hcs] at hok; cases hok
        · simp [hcs, liftCat] at h
  | createFunction name orr det =>
    simp only [execStmt] at h
    split at h
    · refine ⟨setUdf us name det, liftCat_err _ _ ?_ c' e h⟩
      intro s' e' hx
      have := hun (.createFunction c.db name orr det) (by simp) (by simp) e'
      simp only [Catalog.exec] at this
      have hx' : createFunction c.cat c.db name orr det = (s', .error e') := hx
      rw [hx'] at this
      exact this rfl
    · simp only [Prod.mk.injEq] at h; exact ⟨us, h.1.symm⟩
  | dropFunction names ie =>
    refine ⟨us, liftCat_err _ _ ?_ c' e h⟩
    intro s' e' hx
    have := hun (.deleteFunctions c.db ie names) (by simp) (by simp) e'
    simp only [Catalog.exec] at this
    have hx' : deleteFunctions c.cat c.db ie names = (s', .error e') := hx
    rw [hx'] at this
    exact this rfl
  | rename old new =>
    simp only [execStmt, doRename] at h
    split at h
    · simp only [Prod.mk.injEq] at h; exact ⟨us, h.1.symm⟩
    · simp only [Prod.mk.injEq] at h; exact ⟨us, h.1.symm⟩
    · split at h
      · simp only [Prod.mk.injEq] at h; exact ⟨us, h.1.symm⟩
      · refine ⟨us, liftCat_err _ _ ?_ c' e h⟩
        intro s' e' hx
        have := hun (.renameTable c.db (resolve { c with udfs := us } (env.parse old)).sch (resolve { c with udfs := us } (env.parse old)).tab
          (resolve { c with udfs := us } (env.parse new)).sch (resolve { c with udfs := us } (env.parse new)).tab) (by simp) (by simp) e'
        simp only [Catalog.exec] at this
        have hx' : renameTable c.cat c.db (resolve { c with udfs := us } (env.parse old)).sch (resolve { c with udfs := us } (env.parse old)).tab
          (resolve { c with udfs := us } (env.parse new)).sch (resolve { c with udfs := us } (env.parse new)).tab = (s', .error e') := hx
        rw [hx'] at this
        exact this rfl
  | dropTable name ie =>
    simp only [execStmt, doDropTable] at h
    split at h
    · simp at h
    · split at h
      · split at h <;> simp only [Prod.mk.injEq] at h
        · exact ⟨us, h.1.symm⟩
        · exact absurd h.2 (by simp)
      · generalize hrr : resolve { c with udfs := us } name = r at h
        rcases deleteDelta_data env { c with udfs := us } r with ⟨e1, _, hd⟩ | ⟨t, d, v, h1, _, h2, _⟩
        · rw [hd] at h
          refine ⟨us, liftCat_err _ _ ?_ c' e h⟩
          intro s' e' hx
          have := hun (.deleteTable r.cat r.sch r.tab) (by simp) (by simp) e'
          simp only [Catalog.exec] at this
          have hx' : deleteTable c.cat r.cat r.sch r.tab = (s', .error e') := hx
          rw [hx'] at this
          exact this rfl
        · exfalso
          have hf := (deleteDelta_frame env { c with udfs := us } r).2.2.2
          rw [hf] at h
          rcases deleteTable_cases c.cat hw r.cat r.sch r.tab with ⟨s', g1, _⟩ | ⟨e1, _, g2⟩
          · simp only at h
            rw [g1] at h
            simp [liftCat] at h
          · exact g2 t (by rw [h1]; exact h2)
  | ctas | createTable | dropSchema => exact absurd hs (by simp [Clean])

/-- What a failed creation of a table in an ordinary schema of the current database leaves. -/
theorem createDelta_err {env : Env} {c c' : Ctx} {r : RRef} {schema u : Nat} {e : Err} (hcat : r.cat = c.db)
    (hp : r.sch ≠ "information_schema" ∧ r.sch ≠ "system") (hcols : distinctNames (env.cols schema) = true)
    (h : createDelta env c r schema u = (c', .error e)) :
    c'.cat = c.cat ∧ c'.ext = c.ext ∧ ∀ w, w ≠ u → c'.data w = c.data w := by
  simp only [createDelta] at h
  split at h
  · simp only [Prod.mk.injEq] at h; rw [← h.1]; exact ⟨rfl, rfl, fun _ _ => rfl⟩
  · split at h
    · simp only [Prod.mk.injEq] at h; rw [← h.1]; exact ⟨rfl, rfl, fun _ _ => rfl⟩
    · split at h
      · simp only [Prod.mk.injEq] at h; rw [← h.1]; exact ⟨rfl, rfl, fun _ _ => rfl⟩
      · have hdat : ∀ w, w ≠ u → (setData c u (some ⟨schema, []⟩)).data w = c.data w := by
          intro w hwu; simp [setData, hwu]
        rcases hct : createTable c.cat c.db r.sch r.tab (env.cols schema) u env.now true with ⟨s, e1 | x⟩
        · have hct' : createTable (setData c u (some ⟨schema, []⟩)).cat c.db r.sch r.tab (env.cols schema) u env.now true = (s, .error e1) := hct
          simp only [hct', Prod.mk.injEq] at h
          rw [← h.1]
          exact ⟨createTable_err hcols hct, rfl, hdat⟩
        · have hct' : createTable (setData c u (some ⟨schema, []⟩)).cat c.db r.sch r.tab (env.cols schema) u env.now true = (s, .ok x) := hct
          have hcr : canRegister c r = true := by simp [canRegister, hcat, hp.1, hp.2]
          simp [hct', hcr] at h

/-- **C73** (partial): a failed `CREATE TABLE` of a table of the current database, outside the reserved
schemas, leaves the catalog and all tables as they were; at most objects under the new UUID remain. -/
theorem C73_create_table_partial (env : Env) (c c' : Ctx) (name : String) (ine orr : Bool) (schema u : Nat) (e : Err)
    (hcat : (resolve c (env.parse name)).cat = c.db)
    (hp : (resolve c (env.parse name)).sch ≠ "information_schema" ∧ (resolve c (env.parse name)).sch ≠ "system")
    (hcols : distinctNames (env.cols schema) = true)
    (h : exec env c (.createTable name ine orr schema u) = (c', .error e)) :
    c'.cat = c.cat ∧ c'.ext = c.ext ∧ ∀ w, w ≠ u → c'.data w = c.data w := by
  obtain ⟨us, ⟨_, _, he⟩ | ⟨e', _, he⟩⟩ := exec_cases env c (.createTable name ine orr schema u)
  · rw [he] at h
    exact createDelta_err (c := { c with udfs := us }) hcat hp hcols h
  · rw [he] at h; simp only [Prod.mk.injEq] at h; rw [← h.1]; exact ⟨rfl, rfl, fun _ _ => rfl⟩

/-- **C73** (partial): the same for `CREATE TABLE AS` if writing the rows does not fail. -/
theorem C73_ctas_partial (env : Env) (c c' : Ctx) (hw : WF c.cat) (name : TRef) (ine orr : Bool) (q : Query) (u : Nat) (e : Err)
    (hcat : (resolve c name).cat = c.db)
    (hp : (resolve c name).sch ≠ "information_schema" ∧ (resolve c name).sch ≠ "system")
    (hcols : ∀ s, distinctNames (env.cols s) = true) (hwr : env.writeOk = true)
    (h : exec env c (.ctas name ine orr q u) = (c', .error e)) :
    c'.cat = c.cat ∧ c'.ext = c.ext ∧ ∀ w, w ≠ u → c'.data w = c.data w := by
  obtain ⟨us, ⟨_, _, he⟩ | ⟨e', _, he⟩⟩ := exec_cases env c (.ctas name ine orr q u)
  rotate_left
  · rw [he] at h; simp only [Prod.mk.injEq] at h; rw [← h.1]; exact ⟨rfl, rfl, fun _ _ => rfl⟩
  rw [he] at h
  simp only [execStmt, doCtas] at h
  split at h
  · simp at h
  · cases q with
    | planErr => simp only [Prod.mk.injEq] at h; rw [← h.1]; exact ⟨rfl, rfl, fun _ _ => rfl⟩
    | rows schema rows =>
      simp only at h
      rcases hcd : createDelta env { c with udfs := us } (resolve { c with udfs := us } name) schema u with ⟨c1, e1 | _⟩
      · rw [hcd] at h
        simp only [Prod.mk.injEq] at h
        rw [← h.1]
        exact createDelta_err (c := { c with udfs := us }) hcat hp (hcols schema) hcd
      · exfalso
        rw [hcd] at h
        simp only at h
        obtain ⟨hr, hpl, hst, hco, s, hws, rfl, hdbs, _, hcolls, hno, t, hu, hv, hiff⟩ := createDelta_ok (c := { c with udfs := us }) hw hcd
        have ht := (hiff c.db (resolve c name).sch (resolve c name).tab t).2 (Or.inr ⟨rfl, rfl⟩)
        have htd := (tryDelta_iff { setData { c with udfs := us } u (some ⟨schema, []⟩) with cat := s } hws
          (resolve c name).sch (resolve c name).tab hpl t.uuid ⟨schema, []⟩).2 ⟨t, ht, rfl, by simp [setData, hu]⟩
        obtain ⟨s', vid, hnv⟩ := newVersion_ok s t ht.1 hv env.ver env.now
        have hpt := planTo_eq (rows := rows) hst hwr htd hnv
        have hre : resolve { setData { c with udfs := us } u (some ⟨schema, []⟩) with cat := s } name =
            ⟨c.db, (resolve c name).sch, (resolve c name).tab⟩ := by
          have : resolve { setData { c with udfs := us } u (some ⟨schema, []⟩) with cat := s } name = resolve c name := rfl
          rw [this, ← hcat]
        rw [hre] at h
        have hpt' : planTo env { setData { c with udfs := us } u (some ⟨schema, []⟩) with cat := s }
          ⟨c.db, (resolve c name).sch, (resolve c name).tab⟩ rows = _ := hpt
        rw [hpt'] at h
        simp at h

/-- Failing statements of each kind. -/
example : (exec exEnv exCtx (.createSchema "s2" false)).2 = .error (.cat (.schemaAlreadyExists "s2")) ∧
    (exec exEnv exCtx (.createExternal "e" false 9)).2 = .error .exists_ ∧
    (exec exEnv exCtx (.dropTable { tab := "nope" } false)).2 = .error (.cat (.tableDoesNotExist "nope")) ∧
    (exec exEnv exCtx (.rename "t" "t")).2 = .error .exists_ ∧
    (exec exEnv exCtx (.createTable "t" false false 1 500)).2 = .error (.cat (.tableAlreadyExists "t")) ∧
    (exec exEnv exCtx (.ctas { tab := "t" } false false (.rows 1 [1]) 500)).2 = .error (.cat (.tableAlreadyExists "t")) := by
  decide +kernel

/-- An environment with three-part names. -/
def exEnv3 : Env :=
  { exEnv with parse := fun n => if n = "system.x" then { sch := some "system", tab := "x" }
                                 else if n = "other.public.x" then { cat := some "other", sch := some "public", tab := "x" }
                                 else { tab := n } }

/-- **C73**, violated: `CREATE TABLE system.x` after `CREATE SCHEMA system`, and `CREATE TABLE other.public.x`,
report an error but leave the table in the catalog, the latter in the *current* database; a `CREATE TABLE AS`
whose rows cannot be written leaves an empty table. -/
theorem C73_violated :
    (let c := (exec exEnv3 exCtx (.createSchema "system" false)).1
     let r := exec exEnv3 c (.createTable "system.x" false false 1 500)
     r.2 = .error .register ∧ r.1.cat.tabs = exCat.tabs ++ [⟨3, 3, "x", 500⟩]) ∧
    (let r := exec exEnv3 exCtx (.createTable "other.public.x" false false 1 500)
     r.2 = .error .register ∧ lookup r.1 ⟨"default", "public", "x"⟩ = .ok (.delta 500 ⟨1, []⟩)) ∧
    (let r := exec { exEnv with writeOk := false } exCtx (.ctas { tab := "n" } false false (.rows 1 [7]) 500)
     r.2 = .error .write ∧ lookup r.1 ⟨"default", "public", "n"⟩ = .ok (.delta 500 ⟨1, []⟩)) := by decide +kernel

/-! ### C77 -/

/-- **C77**: a successful `CREATE TABLE AS` that does not find its table makes the name denote a table with
the schema and exactly the rows of the query, in order, and changes no other table and no other data. -/
theorem C77_success (env : Env) (c c' : Ctx) (hw : WF c.cat) (name : TRef) (ine orr : Bool) (schema : Nat) (rows : List Nat) (u : Nat)
    (hnew : ∀ x, ¬ IsTable c.cat (resolve c name).cat (resolve c name).sch (resolve c name).tab x)
    (h : exec env c (.ctas name ine orr (.rows schema rows) u) = (c', .ok ())) :
    lookup c' (resolve c name) = .ok (.delta u ⟨schema, rows⟩) ∧
    (∀ a b m x, (a, b, m) ≠ ((resolve c name).cat, (resolve c name).sch, (resolve c name).tab) →
      (IsTable c'.cat a b m x ↔ IsTable c.cat a b m x)) ∧
    (∀ w, w ≠ u → c'.data w = c.data w) ∧ c'.ext = c.ext := by
  obtain ⟨us, ⟨_, _, he⟩ | ⟨e', _, he⟩⟩ := exec_cases env c (.ctas name ine orr (.rows schema rows) u)
  rotate_left
  · rw [he] at h; simp at h
  rw [he] at h
  have hrr : resolve { c with udfs := us } name = resolve c name := rfl
  simp only [execStmt, doCtas, hrr] at h
  split at h
  · rename_i x htd
    obtain ⟨u', d⟩ := x
    obtain ⟨h1, _, x, hx, _⟩ := tryDelta_ok _ _ _ _ htd
    rw [h1] at hnew
    exact absurd hx (hnew x)
  · rcases hcd : createDelta env { c with udfs := us } (resolve c name) schema u with ⟨c1, e1 | _⟩
    · rw [hcd] at h; simp at h
    · rw [hcd] at h
      simp only at h
      have hex := createDelta_ext env { c with udfs := us } (resolve c name) schema u
      rw [hcd] at hex
      have hre : resolve c1 name = resolve c name := by
        simp only [resolve]
        rw [hex.2.1, hex.2.2]
      rw [hre] at h
      obtain ⟨hrc, hpl, _⟩ := createDelta_ok (c := { c with udfs := us }) hw hcd
      obtain ⟨hno, hd, hdo, hext, hdb, t, hu, hiff⟩ := create_then_plan (c := { c with udfs := us }) hw hcd h
      have hw1 : WF c'.cat := by
        obtain ⟨_, _, _, _, s, hws, rfl, _⟩ := createDelta_ok (c := { c with udfs := us }) hw hcd
        obtain ⟨v, d, s3, ht, _, _, e1, e2, e3, _, hc'⟩ := planTo_ok h
        simp only [planTo, ht] at h
        split at h
        · simp at h
        · split at h
          · simp at h
          · rcases hnv : newVersion (setData { setData { c with udfs := us } u (some ⟨schema, []⟩) with cat := s } v
              (some { d with rows := d.rows ++ rows })).cat v env.ver env.now true with ⟨s4, e4 | w⟩
            · simp [hnv] at h
            · simp only [hnv, Prod.mk.injEq, and_true] at h
              rw [← h]
              have := C31_step s hws (.newVersion v env.ver env.now true)
              simp only [Catalog.exec] at this
              have hnv' : newVersion s v env.ver env.now true = (s4, .ok w) := hnv
              rw [hnv'] at this
              exact this
      have hit : IsTable c'.cat c'.db (resolve c name).sch (resolve c name).tab t :=
        (hiff _ _ _ _).2 (Or.inr ⟨rfl, by rw [hdb]⟩)
      have htd := (tryDelta_iff c' hw1 (resolve c name).sch (resolve c name).tab hpl u ⟨schema, rows⟩).2 ⟨t, hit, hu, hd⟩
      refine ⟨?_, ?_, hdo, hext⟩
      · have hr2 : resolve c name = ⟨c'.db, (resolve c name).sch, (resolve c name).tab⟩ := by
          rw [hdb]
          have : (resolve c name).cat = c.db := hrc
          rw [← this]
        rw [hr2]
        simp only [tryDelta] at htd
        rcases hlk : lookup c' ⟨c'.db, (resolve c name).sch, (resolve c name).tab⟩ with e | p
        · simp [hlk] at htd
        · cases p <;> simp [hlk] at htd ⊢
          exact htd
      · intro a b m x hne
        rw [hiff a b m x]
        constructor
        · rintro (h | ⟨_, h⟩)
          · exact h
          · exfalso; apply hne
            have : (resolve c name).cat = c.db := hrc
            rw [this]; exact h
        · exact Or.inl

/-- **C77** (partial: for names that denote no table): the statement succeeds, with or without OR REPLACE. -/
theorem C77_succeeds_partial (env : Env) (c : Ctx) (hs : Sound env c) (name : TRef) (ine orr : Bool) (schema : Nat) (rows : List Nat)
    (u : Nat) (hcat : (resolve c name).cat = c.db) (hp : Plain (resolve c name).sch)
    (hsch : ∃ x, IsSchema c.cat c.db (resolve c name).sch x)
    (hnew : ∀ x, ¬ IsTable c.cat c.db (resolve c name).sch (resolve c name).tab x) :
    ∃ c', exec env c (.ctas name ine orr (.rows schema rows) u) = (c', .ok ()) := by
  obtain ⟨hst, hco, hwr, ⟨d, hd⟩, hfn, hcols, hw, hv⟩ := hs
  have hr := reload_ok env c d hd hfn
  obtain ⟨us, ⟨_, _, he⟩ | ⟨e', hbad, _⟩⟩ := exec_cases env c (.ctas name ine orr (.rows schema rows) u)
  rotate_left
  · rw [hr] at hbad; cases hbad
  rw [he]
  have hre : resolve { c with udfs := us } name = ⟨c.db, (resolve c name).sch, (resolve c name).tab⟩ := by
    have : resolve { c with udfs := us } name = resolve c name := rfl
    rw [this, ← hcat]
  obtain ⟨c2, c', h1, h2⟩ := create_plan_ok env { c with udfs := us } (resolve c name).sch (resolve c name).tab schema u rows
    hst hco hwr (hcols schema) hw hp hsch hnew
  have hex := createDelta_ext env { c with udfs := us } ⟨c.db, (resolve c name).sch, (resolve c name).tab⟩ schema u
  have h1' : createDelta env { c with udfs := us } ⟨c.db, (resolve c name).sch, (resolve c name).tab⟩ schema u = (c2, .ok ()) := h1
  rw [h1'] at hex
  have hre2 : resolve c2 name = ⟨c.db, (resolve c name).sch, (resolve c name).tab⟩ := by
    rw [← hre]
    simp only [resolve]
    rw [hex.2.1, hex.2.2]
  have h2' : planTo env c2 ⟨c.db, (resolve c name).sch, (resolve c name).tab⟩ rows = (c', .ok ()) := h2
  rcases htd : tryDelta { c with udfs := us } ⟨c.db, (resolve c name).sch, (resolve c name).tab⟩ with e | ⟨v, dd⟩
  · refine ⟨c', ?_⟩
    cases ine <;> simp only [execStmt, doCtas, hre, htd, h1', hre2, h2']
  · obtain ⟨_, _, x, hx, _⟩ := tryDelta_ok _ _ _ _ htd
    exact absurd hx (hnew x)

/-- A new table in the example. -/
example : ∃ c', exec exEnv exCtx (.ctas { tab := "n" } false true (.rows 1 [7, 8]) 500) = (c', .ok ()) ∧
    lookup c' ⟨"default", "public", "n"⟩ = .ok (.delta 500 ⟨1, [7, 8]⟩) := by
  have hno : ∀ x, ¬ IsTable exCat "default" "public" "n" x := by
    rintro x ⟨h1, h2, _⟩
    simp only [exCat, List.mem_cons, List.not_mem_nil, or_false] at h1
    rcases h1 with rfl | rfl <;> simp at h2
  obtain ⟨c', h⟩ := C77_succeeds_partial exEnv exCtx exSound { tab := "n" } false true 1 [7, 8] 500 rfl
    ⟨by simp [resolve, exCtx], by simp [resolve, exCtx], by simp [resolve, exCtx]⟩
    ⟨⟨1, 1, "public"⟩, by simp [exCtx, exCat], rfl, ⟨1, "default"⟩, ⟨by simp [exCtx, exCat], rfl⟩, rfl⟩ hno
  exact ⟨c', h, (C77_success exEnv exCtx c' wf_exCat { tab := "n" } false true 1 [7, 8] 500 hno h).1⟩

/-- **C77**, violated: OR REPLACE is ignored, with and without a query. -/
theorem C77_violated :
    (exec exEnv exCtx (.ctas { tab := "t" } false true (.rows 2 [9]) 500)).2 = .error (.cat (.tableAlreadyExists "t")) ∧
    (exec exEnv exCtx (.createTable "t" false true 2 500)).2 = .error (.cat (.tableAlreadyExists "t")) := by decide +kernel

end Seafowl.Ddl
