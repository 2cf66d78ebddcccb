import Verif.Context.DdlProps
import Verif.Context.UploadProps

/-!
# C57 and C58: exactly when they fail

`DdlProps.lean` and `UploadProps.lean` show single cases; here the same in every state.
-/

namespace Seafowl.Ddl

open Seafowl.Catalog

set_option linter.unusedSimpArgs false

/-- A statement that fails after the reload fails. -/
theorem exec_error (env : Env) (c : Ctx) (s : Stmt)
    (h : ∀ us, ∃ e, (execStmt env { c with udfs := us } s).2 = .error e) : ∃ e, (exec env c s).2 = .error e := by
  obtain ⟨us, ⟨_, _, he⟩ | ⟨e, _, he⟩⟩ := exec_cases env c s
  · rw [he]; exact h us
  · exact ⟨e, by rw [he]⟩

/-- **C58 is violated for every schema**: `CREATE SCHEMA IF NOT EXISTS` of an existing schema always fails. -/
theorem C58_create_schema_fails (env : Env) (c : Ctx) (hw : WF c.cat) (n : String) (ine : Bool) (x : Coll)
    (hx : IsSchema c.cat c.db n x) :
    (∃ e, (exec env c (.createSchema n ine)).2 = .error e) ∧
    ((reload env c).2 = .ok () → n ≠ "staging" →
      (exec env c (.createSchema n ine)).2 = .error (.cat (.schemaAlreadyExists n))) := by
  have h1 : ∀ us, n ≠ "staging" →
      (execStmt env { c with udfs := us } (.createSchema n ine)).2 = .error (.cat (.schemaAlreadyExists n)) := by
    intro us hn
    have := (C32_createSchema c.cat hw c.db n).2.2.1 hn ⟨x, hx⟩
    simp only [execStmt, this, liftCat]
  refine ⟨exec_error env c _ (fun us => ?_), ?_⟩
  · by_cases hn : n = "staging"
    · subst hn
      exact ⟨.cat .usedStagingSchema, by simp [execStmt, createSchema, Catalog.staging, liftCat]⟩
    · exact ⟨_, h1 us hn⟩
  · intro hr hn
    obtain ⟨us, ⟨_, _, he⟩ | ⟨e, hbad, _⟩⟩ := exec_cases env c (.createSchema n ine)
    · rw [he]; exact h1 us hn
    · rw [hr] at hbad; cases hbad

/-- **C58 is violated for every table**: `CREATE TABLE IF NOT EXISTS` of an existing table always fails; unless
creating the Delta table fails first, that is left behind under a UUID no table of the catalog has. -/
theorem C58_create_table_fails (env : Env) (c : Ctx) (hw : WF c.cat) (name : String) (ine orr : Bool) (s u : Nat) (t : Tab)
    (ht : IsTable c.cat c.db (resolve c (env.parse name)).sch (resolve c (env.parse name)).tab t)
    (hn : (resolve c (env.parse name)).sch ≠ "staging") :
    (∃ e, (exec env c (.createTable name ine orr s u)).2 = .error e) ∧
    ((reload env c).2 = .ok () → env.hasStore = true → env.createOk = true →
      (exec env c (.createTable name ine orr s u)).2 = .error (.cat (.tableAlreadyExists (resolve c (env.parse name)).tab)) ∧
      (exec env c (.createTable name ine orr s u)).1.cat = c.cat ∧
      (exec env c (.createTable name ine orr s u)).1.data u = some ⟨s, []⟩) := by
  have hs := ht
  obtain ⟨_, _, x, hx, _⟩ := hs
  have h0 := (C32_createTable c.cat hw c.db (resolve c (env.parse name)).sch (resolve c (env.parse name)).tab
    (env.cols s) u env.now true).2.2.1 hn ⟨t, ht⟩
  have hres : ∀ us, resolve { c with udfs := us } (env.parse name) = resolve c (env.parse name) := fun _ => rfl
  have hg : ∃ y, getSchema c.cat c.db (resolve c (env.parse name)).sch = .ok y := by
    rcases getSchema_cases c.cat c.db (resolve c (env.parse name)).sch hn with ⟨y, _, h2⟩ | ⟨h1, _⟩
    · exact ⟨y, h2⟩
    · exact absurd hx (h1 x)
  obtain ⟨y, hg⟩ := hg
  have hfull : ∀ us, env.hasStore = true → env.createOk = true →
      execStmt env { c with udfs := us } (.createTable name ine orr s u) =
        (setData { c with udfs := us } u (some ⟨s, []⟩),
          .error (.cat (.tableAlreadyExists (resolve c (env.parse name)).tab))) := by
    intro us h1 h2
    simp only [execStmt, createDelta, hres, h1, h2, Bool.not_true, Bool.false_eq_true, if_false, hg, setData, h0]
  refine ⟨exec_error env c _ (fun us => ?_), ?_⟩
  · cases h1 : env.hasStore with
    | false => exact ⟨.noStore, by simp [execStmt, createDelta, h1]⟩
    | true =>
      cases h2 : env.createOk with
      | false => exact ⟨.write, by simp [execStmt, createDelta, h1, hres, hg, h2]⟩
      | true => exact ⟨_, by rw [hfull us h1 h2]⟩
  · intro hr h1 h2
    obtain ⟨us, ⟨_, _, he⟩ | ⟨e, hbad, _⟩⟩ := exec_cases env c (.createTable name ine orr s u)
    · rw [he, hfull us h1 h2]
      refine ⟨rfl, rfl, ?_⟩
      simp [setData]
    · rw [hr] at hbad; cases hbad

/-- **C58 is violated for every external table**: `CREATE TABLE IF NOT EXISTS … AS` over it always fails. -/
theorem C58_ctas_external_fails (env : Env) (c : Ctx) (name : TRef) (ine orr : Bool) (q : Query) (u : Nat)
    (hn : (resolve c name).sch = "staging") :
    ∃ e, (exec env c (.ctas name ine orr q u)).2 = .error e := by
  refine exec_error env c _ (fun us => ?_)
  have hres : resolve { c with udfs := us } name = resolve c name := rfl
  have htd : ∃ e, tryDelta { c with udfs := us } (resolve c name) = .error e := by
    simp only [tryDelta, lookup, hn]
    by_cases h1 : (resolve c name).cat ≠ c.db
    · exact ⟨.noCatalog, by simp [h1]⟩
    · simp only [if_neg h1, if_true]
      cases hf : c.ext.find? (·.1 == (resolve c name).tab) with
      | none => exact ⟨.noTable, by simp [hf]⟩
      | some e => exact ⟨.notDelta, by simp [hf]⟩
  obtain ⟨e, htd⟩ := htd
  have hgs : getSchema c.cat c.db "staging" = .error .usedStagingSchema := by simp [getSchema, Catalog.staging]
  have hcd : ∀ s, ∃ e, (createDelta env { c with udfs := us } (resolve c name) s u).2 = .error e := by
    intro s
    cases hs : env.hasStore with
    | false => exact ⟨.noStore, by simp [createDelta, hs]⟩
    | true => exact ⟨.cat .usedStagingSchema, by simp [createDelta, hs, hn, hgs]⟩
  simp only [execStmt, doCtas, hres, htd]
  cases q with
  | planErr => exact ⟨.plan, by cases ine <;> rfl⟩
  | rows s rs =>
    obtain ⟨e', he'⟩ := hcd s
    rcases hc : createDelta env { c with udfs := us } (resolve c name) s u with ⟨c1, r⟩
    rw [hc] at he'
    simp only at he'
    subst he'
    exact ⟨e', by cases ine <;> simp only [hc]⟩

/-- **C58 is violated for every other database**: `DROP SCHEMA IF EXISTS` always fails. -/
theorem C58_drop_schema_fails (env : Env) (c : Ctx) (cat n : String) (ie : Bool) (hne : cat ≠ c.db) :
    ∃ e, (exec env c (.dropSchema (some cat) n ie)).2 = .error e :=
  exec_error env c _ (fun us => ⟨.plan, by simp [execStmt, doDropSchema, hne]⟩)

/-- **C57 is violated in every other schema**: an upload to an existing schema fails, whatever the file, if the table
exists there and the bare name means nothing, or if the table does not exist there and the bare name means something. -/
theorem C57_violated_always (env : Env) (c : Ctx) (hw : WF c.cat) (f : File) (sch tab : String) (u : Nat) (hp : Plain sch)
    (hsch : ∃ x, IsSchema c.cat c.db sch x)
    (hne : ¬ ((∃ t, IsTable c.cat c.db sch tab t) ↔ ∃ p, lookup c (resolve c (env.parse tab)) = .ok p)) :
    ∃ e, (upload env c f sch tab u).2 = .error e := by
  obtain ⟨us, hr⟩ := reload_frame env c
  rcases hre : reload env c with ⟨c0, e | _⟩
  · exact ⟨e, by simp [upload, hre]⟩
  · rw [hre] at hr
    simp only at hr
    subst hr
    have hst : ∃ ts, schemaTables { c with udfs := us } sch = some ts := by
      simp only [schemaTables, hp.2.1, hp.2.2, if_false]
      rcases getSchema_cases c.cat c.db sch hp.2.1 with ⟨x, _, hg⟩ | ⟨hn, _⟩
      · simp [hg]
      · exact absurd hsch.choose_spec (hn _)
    obtain ⟨ts, hst⟩ := hst
    have hlk : lookup { c with udfs := us } (resolve { c with udfs := us } (env.parse tab)) =
        lookup c (resolve c (env.parse tab)) := rfl
    -- what the check says
    have hck : ∃ o b, uploadCheck env { c with udfs := us } sch tab = ({ c with udfs := us }, .ok (o, b)) ∧
        (b = true ↔ ∃ p, lookup c (resolve c (env.parse tab)) = .ok p) := by
      simp only [uploadCheck, hst, hlk]
      rcases hl : lookup c (resolve c (env.parse tab)) with e | p
      · exact ⟨none, false, rfl, by simp⟩
      · cases p <;> exact ⟨_, true, rfl, by simp⟩
    obtain ⟨o, b, hck, hb⟩ := hck
    simp only [upload, hre, hck]
    by_cases hsup : f.supported = true
    · simp only [hsup, Bool.not_true, Bool.false_eq_true, if_false]
      cases hsm : (o.or f.own).or f.infer with
      | none => exact ⟨.plan, rfl⟩
      | some s =>
        simp only
        by_cases hp2 : ∃ p, lookup c (resolve c (env.parse tab)) = .ok p
        · -- found by its bare name, but there is no such table
          have hno : ∀ t, ¬ IsTable c.cat c.db sch tab t := by
            intro t ht
            exact hne ⟨fun _ => hp2, fun _ => ⟨t, ht⟩⟩
          simp only [hb.2 hp2, if_true]
          have htd : ∃ e, tryDelta { c with udfs := us } ⟨c.db, sch, tab⟩ = .error e := by
            simp only [tryDelta, lookup, ne_eq, not_true_eq_false, if_false, hp.1, hp.2.1, hp.2.2]
            rcases getTable_cases c.cat c.db sch tab with ⟨t, ht, _⟩ | ⟨_, hg⟩
            · exact absurd ht (hno t)
            · exact ⟨.noTable, by simp [hg]⟩
          obtain ⟨e, htd⟩ := htd
          exact ⟨e, by simp [planTo, htd]⟩
        · -- not found, but there is one
          have hyes : ∃ t, IsTable c.cat c.db sch tab t := by
            refine Classical.byContradiction fun h => hne ⟨fun h' => absurd h' h, fun h' => absurd h' hp2⟩
          have hbf : b = false := by
            cases b with
            | false => rfl
            | true => exact absurd (hb.1 rfl) hp2
          simp only [hbf, Bool.false_eq_true, if_false]
          have h0 := (C32_createTable c.cat hw c.db sch tab (env.cols s) u env.now true).2.2.1 hp.2.1 hyes
          have hcd : ∃ e, (createDelta env { c with udfs := us } ⟨c.db, sch, tab⟩ s u).2 = .error e := by
            cases h1 : env.hasStore with
            | false => exact ⟨.noStore, by simp [createDelta, h1]⟩
            | true =>
              cases h2 : env.createOk with
              | false =>
                rcases hg : getSchema c.cat c.db sch with e | y
                · exact ⟨.cat e, by simp [createDelta, h1, hg]⟩
                · exact ⟨.write, by simp [createDelta, h1, hg, h2]⟩
              | true =>
                rcases hg : getSchema c.cat c.db sch with e | y
                · exact ⟨.cat e, by simp [createDelta, h1, hg]⟩
                · exact ⟨.cat (.tableAlreadyExists tab), by simp [createDelta, h1, hg, h2, setData, h0]⟩
          obtain ⟨e, he⟩ := hcd
          rcases hc : createDelta env { c with udfs := us } ⟨c.db, sch, tab⟩ s u with ⟨c2, r⟩
          rw [hc] at he
          simp only at he
          subst he
          exact ⟨e, by simp only [hc]⟩
    · exact ⟨.plan, by simp [hsup]⟩

/-- **C57 is violated by a wrong schema**: if both tables exist, the file is read with the schema of the table the bare
name means, not with that of the table it is appended to. -/
theorem C57_wrong_schema (env : Env) (c c' : Ctx) (f : File) (sch tab : String) (u v : Nat) (d : Delta)
    (hp : Plain sch) (hsch : ∃ x, IsSchema c.cat c.db sch x)
    (hlk : lookup c (resolve c (env.parse tab)) = .ok (.delta v d))
    (h : upload env c f sch tab u = (c', .ok ())) :
    ∃ t d0, IsTable c.cat c.db sch tab t ∧ c.data t.uuid = some d0 ∧
      c'.data t.uuid = some ⟨d0.schema, d0.rows ++ f.read d.schema⟩ := by
  obtain ⟨us, hr⟩ := reload_frame env c
  rcases hre : reload env c with ⟨c0, e | _⟩
  · simp [upload, hre] at h
  · rw [hre] at hr
    simp only at hr
    subst hr
    have hst : ∃ ts, schemaTables { c with udfs := us } sch = some ts := by
      simp only [schemaTables, hp.2.1, hp.2.2, if_false]
      rcases getSchema_cases c.cat c.db sch hp.2.1 with ⟨x, _, hg⟩ | ⟨hn, _⟩
      · simp [hg]
      · exact absurd hsch.choose_spec (hn _)
    obtain ⟨ts, hst⟩ := hst
    have hlk' : lookup { c with udfs := us } (resolve { c with udfs := us } (env.parse tab)) = .ok (.delta v d) := hlk
    simp only [upload, hre, uploadCheck, hst, hlk', Option.or_some, Option.some_or, if_true] at h
    by_cases hsup : f.supported = true
    · simp only [hsup, Bool.not_true, Bool.false_eq_true, if_false] at h
      obtain ⟨w, d0, s3, ht, _, _, _, _, _, _, rfl⟩ := planTo_ok h
      obtain ⟨_, _, t, hx, hxu, hxd⟩ := tryDelta_ok _ _ _ _ ht
      refine ⟨t, d0, hx, hxu ▸ hxd, ?_⟩
      simp [setData, hxu]
    · simp [hsup] at h

/-- The states of `C57_violated`: `t` exists in both schemas; `n` in neither; `u` in the default schema only. -/
example : lookup exCtx (resolve exCtx (exEnv.parse "t")) = .ok (.delta 77 ⟨1, [10]⟩) ∧
    (upload exEnv exCtx exFile "s2" "t" 500).2 = .ok () := by decide +kernel

/-- A table of another schema than the default one: the second upload to it meets the hypotheses of `C57_violated_always`. -/
example : let c1 := (upload exEnv exCtx exFile "s3" "n" 500).1
    ((getTable c1.cat c1.db "s3" "n").toOption.map (·.uuid)) = some 500 ∧
    lookup c1 (resolve c1 (exEnv.parse "n")) = .error .noTable := by decide +kernel

end Seafowl.Ddl
