import Verif.Context.UploadProps

/-!
# C56, C58: reserved schemas, IF [NOT] EXISTS
-/

namespace Seafowl.Ddl

open Seafowl.Catalog

set_option linter.unusedSimpArgs false

/-! ### C56 -/

/-- **C56**, staging: names of the staging schema resolve to the in-memory tables and to nothing else,
whatever the catalog, the object store and the session contain. -/
theorem C56_staging (c : Ctx) (t : String) :
    (∀ c' : Ctx, c'.ext = c.ext → lookup c' ⟨c'.db, "staging", t⟩ = lookup c ⟨c.db, "staging", t⟩) ∧
    (∀ p, lookup c ⟨c.db, "staging", t⟩ = .ok p → ∃ id, p = .ext id ∧ (t, id) ∈ c.ext) ∧
    (∀ id, (t, id) ∈ c.ext → (c.ext.map (·.1)).Nodup → lookup c ⟨c.db, "staging", t⟩ = .ok (.ext id)) ∧
    ((∀ id, (t, id) ∉ c.ext) → lookup c ⟨c.db, "staging", t⟩ = .error .noTable) := by
  have hdef : ∀ c : Ctx, lookup c ⟨c.db, "staging", t⟩ = (match c.ext.find? (·.1 == t) with
      | some e => .ok (.ext e.2) | none => .error .noTable) := by
    intro c
    rcases Option.eq_none_or_eq_some (c.ext.find? (·.1 == t)) with hn | ⟨e, hn⟩ <;> simp [lookup, hn]
  refine ⟨?_, ?_, ?_, ?_⟩
  · intro c' h
    rw [hdef, hdef, h]
  · intro p h
    rw [hdef] at h
    rcases Option.eq_none_or_eq_some (c.ext.find? (·.1 == t)) with hn | ⟨⟨a, b⟩, hn⟩
    · simp [hn] at h
    · simp only [hn, Except.ok.injEq] at h
      have h1 := List.mem_of_find?_eq_some hn
      have h2 := List.find?_some hn
      simp only [beq_iff_eq] at h2
      subst h2
      exact ⟨b, h.symm, h1⟩
  · intro id h hnd
    rw [hdef]
    rcases Option.eq_none_or_eq_some (c.ext.find? (·.1 == t)) with hn | ⟨⟨a, b⟩, hn⟩
    · rw [List.find?_eq_none] at hn
      exact absurd (by simp) (hn _ h)
    · have h1 := List.mem_of_find?_eq_some hn
      have h2 := List.find?_some hn
      simp only [beq_iff_eq] at h2
      subst h2
      have : (a, b) = (a, id) := by
        exact eq_of_pairwise (List.pairwise_map.1 hnd) h1 h (by simp) (by simp)
      simp only [hn]
      rw [(Prod.mk.inj this).2]
  · intro h
    rw [hdef]
    rcases Option.eq_none_or_eq_some (c.ext.find? (·.1 == t)) with hn | ⟨⟨a, b⟩, hn⟩
    · simp [hn]
    · have h1 := List.mem_of_find?_eq_some hn
      have h2 := List.find?_some hn
      simp only [beq_iff_eq] at h2
      subst h2
      exact absurd h1 (h b)

/-- **C56**, system: exactly the two system tables, whatever the catalog contains. -/
theorem C56_system (c : Ctx) (t : String) :
    lookup c ⟨c.db, "system", t⟩ =
      if t = "table_versions" ∨ t = "dropped_tables" then .ok .system else .error .noTable := by
  simp [lookup, systemTables]

/-- So is `information_schema`: its tables do not depend on the catalog. -/
theorem C56_information_schema (c : Ctx) (t : String) :
    (lookup c ⟨c.db, "information_schema", t⟩ = .ok .info ↔
      t = "tables" ∨ t = "views" ∨ t = "columns" ∨ t = "df_settings" ∨ t = "schemata") ∧
    ∀ p, lookup c ⟨c.db, "information_schema", t⟩ = .ok p → p = .info := by
  simp only [lookup, ne_eq, not_true_eq_false, if_false, if_true]
  constructor
  · by_cases h : infoTables.contains t = true
    · rw [if_pos h]; simpa [infoTables] using h
    · rw [if_neg h]; simpa [infoTables] using h
  · intro p hp
    split at hp
    · injection hp with hp; exact hp.symm
    · cases hp

/-- **C100.**  A request for a database (`scope_to_catalog`) or a schema (`scope_to_schema`) finds the tables it names
without one in that database and schema, and works on the same catalog and data as all others. -/
theorem C100_scope (c : Ctx) (db sch : String) (t : String) (s d : String) :
    resolve (scopeTo c db sch) ⟨none, none, t⟩ = ⟨db, sch, t⟩ ∧
    resolve (scopeTo c db sch) ⟨none, some s, t⟩ = ⟨db, s, t⟩ ∧
    resolve (scopeTo c db sch) ⟨some d, some s, t⟩ = ⟨d, s, t⟩ ∧
    (scopeTo c db sch).cat = c.cat ∧ (scopeTo c db sch).data = c.data ∧ (scopeTo c db sch).ext = c.ext ∧
    ∀ r : RRef, r.cat = db → r.sch ≠ "information_schema" → r.sch ≠ "staging" → r.sch ≠ "system" → ∀ p,
      lookup (scopeTo c db sch) r = .ok p →
        ∃ x e, Catalog.getTable c.cat db r.sch r.tab = .ok x ∧ c.data x.uuid = some e ∧ p = .delta x.uuid e := by
  refine ⟨rfl, rfl, rfl, rfl, rfl, rfl, ?_⟩
  intro r hr h1 h2 h3 p hp
  simp only [lookup, scopeTo, hr, ne_eq, not_true_eq_false, if_false, h1, h2, h3] at hp
  cases hg : Catalog.getTable c.cat db r.sch r.tab with
  | error e => simp [hg] at hp
  | ok x =>
    simp only [hg] at hp
    cases hd : c.data x.uuid with
    | none => simp [hd] at hp
    | some e =>
      simp only [hd, Except.ok.injEq] at hp
      exact ⟨x, e, rfl, hd, hp.symm⟩

theorem liftCat_ext {α : Type} (c : Ctx) (x : Cat × Except CatErr α) :
    (liftCat c x).1.ext = c.ext ∧ (liftCat c x).1.db = c.db ∧ (liftCat c x).1.sch = c.sch ∧ (liftCat c x).1.data = c.data := by
  obtain ⟨s, e | a⟩ := x <;> exact ⟨rfl, rfl, rfl, rfl⟩

theorem createDelta_ext (env : Env) (c : Ctx) (r : RRef) (s u : Nat) :
    (createDelta env c r s u).1.ext = c.ext ∧ (createDelta env c r s u).1.db = c.db ∧ (createDelta env c r s u).1.sch = c.sch := by
  simp only [createDelta]
  split
  · exact ⟨rfl, rfl, rfl⟩
  · split
    · exact ⟨rfl, rfl, rfl⟩
    · split
      · exact ⟨rfl, rfl, rfl⟩
      · split
        · exact ⟨rfl, rfl, rfl⟩
        · split <;> exact ⟨rfl, rfl, rfl⟩

theorem planTo_ext (env : Env) (c : Ctx) (r : RRef) (rows : List Nat) :
    (planTo env c r rows).1.ext = c.ext ∧ (planTo env c r rows).1.db = c.db ∧ (planTo env c r rows).1.sch = c.sch := by
  simp only [planTo]
  split
  · exact ⟨rfl, rfl, rfl⟩
  · split
    · exact ⟨rfl, rfl, rfl⟩
    · split
      · exact ⟨rfl, rfl, rfl⟩
      · split <;> exact ⟨rfl, rfl, rfl⟩

theorem deleteDelta_frame (env : Env) (c : Ctx) (r : RRef) :
    (deleteDelta env c r).1.ext = c.ext ∧ (deleteDelta env c r).1.db = c.db ∧ (deleteDelta env c r).1.sch = c.sch ∧
    (deleteDelta env c r).1.cat = c.cat := by
  simp only [deleteDelta]
  split
  · exact ⟨rfl, rfl, rfl, rfl⟩
  · split <;> exact ⟨rfl, rfl, rfl, rfl⟩

theorem dropLoop_ext (env : Env) (c : Ctx) (sch : String) (ts : List String) :
    (dropLoop env c sch ts).1.ext = c.ext ∧ (dropLoop env c sch ts).1.db = c.db ∧ (dropLoop env c sch ts).1.sch = c.sch := by
  induction ts generalizing c with
  | nil => exact ⟨rfl, rfl, rfl⟩
  | cons t ts ih =>
    simp only [dropLoop]
    have hd := deleteDelta_frame env c ⟨c.db, sch, t⟩
    rcases hdd : deleteDelta env c ⟨c.db, sch, t⟩ with ⟨c1, e | _⟩
    · rw [hdd] at hd
      exact ⟨hd.1, hd.2.1, hd.2.2.1⟩
    · rw [hdd] at hd
      simp only at hd ⊢
      rcases hc : Catalog.deleteTable c1.cat c1.db sch t with ⟨s, e | _⟩
      · exact ⟨hd.1, hd.2.1, hd.2.2.1⟩
      · obtain ⟨i1, i2, i3⟩ := ih { c1 with cat := s }
        exact ⟨i1.trans hd.1, i2.trans hd.2.1, i3.trans hd.2.2.1⟩

/-- Does the statement address the staging schema. -/
def touchesStaging (c : Ctx) : Stmt → Prop
  | .createExternal .. => True
  | .dropTable name _ => (resolve c name).sch = "staging"
  | _ => False

/-- Statements that do not address the staging schema leave it alone, and no statement changes the defaults. -/
theorem execStmt_ext (env : Env) (c : Ctx) (s : Stmt) :
    (¬ touchesStaging c s → (execStmt env c s).1.ext = c.ext) ∧ (execStmt env c s).1.db = c.db ∧
    (execStmt env c s).1.sch = c.sch := by
  cases s with
  | createExternal name ine id =>
    refine ⟨fun h => absurd trivial h, ?_⟩
    simp only [execStmt, doCreateExternal]
    split
    · exact ⟨rfl, rfl⟩
    · split
      · exact ⟨rfl, rfl⟩
      · split
        · split <;> exact ⟨rfl, rfl⟩
        · exact ⟨rfl, rfl⟩
  | createSchema name ine =>
    obtain ⟨h1, h2, h3, _⟩ := liftCat_ext c (Catalog.createSchema c.cat c.db name)
    exact ⟨fun _ => h1, h2, h3⟩
  | createCatalog name ine =>
    simp only [execStmt, doCreateCatalog]
    split
    · split <;> exact ⟨fun _ => rfl, rfl, rfl⟩
    · split
      · exact ⟨fun _ => rfl, rfl, rfl⟩
      · rename_i s _ _
        obtain ⟨h1, h2, h3, _⟩ := liftCat_ext c (Catalog.createSchema s name "public")
        exact ⟨fun _ => h1, h2, h3⟩
  | ctas name ine orr q u =>
    simp only [execStmt, doCtas]
    split
    · exact ⟨fun _ => rfl, rfl, rfl⟩
    · cases q with
      | planErr => exact ⟨fun _ => rfl, rfl, rfl⟩
      | rows schema rows =>
        simp only
        have h := createDelta_ext env c (resolve c name) schema u
        rcases hcd : createDelta env c (resolve c name) schema u with ⟨c1, e | _⟩
        · rw [hcd] at h
          exact ⟨fun _ => h.1, h.2.1, h.2.2⟩
        · rw [hcd] at h
          have h2 := planTo_ext env c1 (resolve c1 name) rows
          exact ⟨fun _ => h2.1.trans h.1, h2.2.1.trans h.2.1, h2.2.2.trans h.2.2⟩
  | createTable name ine orr schema u =>
    have h := createDelta_ext env c (resolve c (env.parse name)) schema u
    exact ⟨fun _ => h.1, h.2.1, h.2.2⟩
  | dropTable name ie =>
    simp only [execStmt, doDropTable, touchesStaging]
    split
    · exact ⟨fun _ => rfl, rfl, rfl⟩
    · split
      · rename_i hs
        refine ⟨fun h => absurd hs h, ?_⟩
        split <;> exact ⟨rfl, rfl⟩
      · have hd := deleteDelta_frame env c (resolve c name)
        obtain ⟨h1, h2, h3, _⟩ := liftCat_ext (deleteDelta env c (resolve c name)).1
          (Catalog.deleteTable (deleteDelta env c (resolve c name)).1.cat (resolve c name).cat (resolve c name).sch (resolve c name).tab)
        exact ⟨fun _ => h1.trans hd.1, h2.trans hd.2.1, h3.trans hd.2.2.1⟩
  | dropSchema cat name ie =>
    simp only [execStmt, doDropSchema]
    split
    · exact ⟨fun _ => rfl, rfl, rfl⟩
    · split
      · split <;> exact ⟨fun _ => rfl, rfl, rfl⟩
      · rename_i ts _
        have h := dropLoop_ext env c name ts
        rcases hl : dropLoop env c name ts with ⟨c1, e | _⟩
        · rw [hl] at h
          exact ⟨fun _ => h.1, h.2.1, h.2.2⟩
        · rw [hl] at h
          obtain ⟨h1, h2, h3, _⟩ := liftCat_ext c1 (Catalog.deleteSchema c1.cat c1.db name)
          exact ⟨fun _ => h1.trans h.1, h2.trans h.2.1, h3.trans h.2.2⟩
  | createFunction name orr details =>
    simp only [execStmt]
    split
    · obtain ⟨h1, h2, h3, _⟩ := liftCat_ext { c with udfs := setUdf c.udfs name details }
        (Catalog.createFunction c.cat c.db name orr details)
      exact ⟨fun _ => h1, h2, h3⟩
    · exact ⟨fun _ => rfl, rfl, rfl⟩
  | dropFunction names ie =>
    obtain ⟨h1, h2, h3, _⟩ := liftCat_ext c (Catalog.deleteFunctions c.cat c.db ie names)
    exact ⟨fun _ => h1, h2, h3⟩
  | rename old new =>
    simp only [execStmt, doRename]
    split
    · exact ⟨fun _ => rfl, rfl, rfl⟩
    · exact ⟨fun _ => rfl, rfl, rfl⟩
    · split
      · exact ⟨fun _ => rfl, rfl, rfl⟩
      · obtain ⟨h1, h2, h3, _⟩ := liftCat_ext c (Catalog.renameTable c.cat c.db (resolve c (env.parse old)).sch
          (resolve c (env.parse old)).tab (resolve c (env.parse new)).sch (resolve c (env.parse new)).tab)
        exact ⟨fun _ => h1, h2, h3⟩

/-- Splitting off the reload. -/
theorem exec_cases (env : Env) (c : Ctx) (s : Stmt) :
    ∃ us, ((reload env c).2 = .ok () ∧ (reload env c).1 = { c with udfs := us } ∧ exec env c s = execStmt env { c with udfs := us } s) ∨
      (∃ e, (reload env c).2 = .error e ∧ exec env c s = ({ c with udfs := us }, .error e)) := by
  obtain ⟨us, hr⟩ := reload_frame env c
  refine ⟨us, ?_⟩
  rcases hre : reload env c with ⟨c0, e | _⟩
  · rw [hre] at hr
    right
    exact ⟨e, rfl, by simp only [exec, hre]; rw [← hr]⟩
  · rw [hre] at hr
    left
    simp only at hr
    subst hr
    exact ⟨rfl, rfl, by simp only [exec, hre]⟩

/-- **C56**, over executions: a sequence of statements none of which addresses the staging schema — whatever
schemas and tables it creates, drops or renames — leaves the meaning of every staging name as it was. -/
theorem C56_run (env : Env) (c : Ctx) (ss : List Stmt)
    (h : ∀ s ∈ ss, ∀ c' : Ctx, c'.db = c.db → c'.sch = c.sch → ¬ touchesStaging c' s) (t : String) :
    lookup (run env c ss) ⟨c.db, "staging", t⟩ = lookup c ⟨c.db, "staging", t⟩ := by
  have key : ∀ (c : Ctx) (ss : List Stmt), (∀ s ∈ ss, ∀ c' : Ctx, c'.db = c.db → c'.sch = c.sch → ¬ touchesStaging c' s) →
      (run env c ss).ext = c.ext ∧ (run env c ss).db = c.db := by
    intro c ss
    induction ss generalizing c with
    | nil => intro _; exact ⟨rfl, rfl⟩
    | cons s ss ih =>
      intro h
      have h1 : (exec env c s).1.ext = c.ext ∧ (exec env c s).1.db = c.db ∧ (exec env c s).1.sch = c.sch := by
        obtain ⟨us, ⟨_, _, he⟩ | ⟨e, _, he⟩⟩ := exec_cases env c s
        · rw [he]
          obtain ⟨k1, k2, k3⟩ := execStmt_ext env { c with udfs := us } s
          exact ⟨k1 (h s (by simp) _ rfl rfl), k2, k3⟩
        · rw [he]; exact ⟨rfl, rfl, rfl⟩
      obtain ⟨i1, i2⟩ := ih (exec env c s).1 (fun s' hs' c' e1 e2 =>
        h s' (List.mem_cons_of_mem _ hs') c' (e1.trans h1.2.1) (e2.trans h1.2.2))
      exact ⟨i1.trans h1.1, i2.trans h1.2.1⟩
  obtain ⟨k1, k2⟩ := key c ss h
  rw [← k2]
  rw [(C56_staging c t).1 (run env c ss) k1, k2]

/-- **C56**, external tables: a successful `CREATE EXTERNAL TABLE` makes the name resolve to the new
provider (to the existing one under IF NOT EXISTS) in the staging schema of the current database, without
touching catalog or object store; names in other schemas or databases are rejected. -/
theorem C56_external (env : Env) (c c' : Ctx) (name : String) (ine : Bool) (id : Nat)
    (h : execStmt env c (.createExternal name ine id) = (c', .ok ())) :
    (env.parse name).cat.getD c.db = c.db ∧ (env.parse name).sch.getD "staging" = "staging" ∧
    c'.cat = c.cat ∧ c'.data = c.data ∧
    ∃ id', lookup c' ⟨c.db, "staging", (env.parse name).tab⟩ = .ok (.ext id') ∧
      (id' = id ∨ (ine = true ∧ lookup c ⟨c.db, "staging", (env.parse name).tab⟩ = .ok (.ext id'))) ∧
      ∀ t, t ≠ (env.parse name).tab → lookup c' ⟨c.db, "staging", t⟩ = lookup c ⟨c.db, "staging", t⟩ := by
  simp only [execStmt, doCreateExternal] at h
  cases hs : env.hasStore with
  | false => simp [hs] at h
  | true =>
    simp only [hs, Bool.not_true, Bool.false_eq_true, if_false, resolveStaging] at h
    by_cases hbad : (env.parse name).cat.getD c.db ≠ c.db ∨ (env.parse name).sch.getD "staging" ≠ "staging"
    · simp [hbad] at h
    · simp only [hbad, if_false] at h
      rw [not_or, Classical.not_not, Classical.not_not] at hbad
      refine ⟨hbad.1, hbad.2, ?_⟩
      by_cases hex : c.ext.any (·.1 == (env.parse name).tab) = true
      · simp only [hex, if_true] at h
        cases ine with
        | false => simp at h
        | true =>
          simp only [if_true, Prod.mk.injEq, and_true] at h
          subst h
          refine ⟨rfl, rfl, ?_⟩
          obtain ⟨⟨a, b⟩, hm, hab⟩ := List.any_eq_true.1 hex
          rcases Option.eq_none_or_eq_some (c.ext.find? (·.1 == (env.parse name).tab)) with hn | ⟨e, hn⟩
          · rw [List.find?_eq_none] at hn
            exact absurd hab (hn _ hm)
          · have hl : lookup c ⟨c.db, "staging", (env.parse name).tab⟩ = .ok (.ext e.2) := by simp [lookup, hn]
            exact ⟨e.2, hl, Or.inr ⟨rfl, hl⟩, fun _ _ => rfl⟩
      · simp only [hex, Bool.false_eq_true, if_false, Prod.mk.injEq, and_true] at h
        subst h
        refine ⟨rfl, rfl, id, ?_, Or.inl rfl, ?_⟩
        · have hf : c.ext.find? (·.1 == (env.parse name).tab) = none := by
            rw [List.find?_eq_none]
            intro x hx hxe
            exact hex (List.any_eq_true.2 ⟨x, hx, hxe⟩)
          simp [lookup, List.find?_append, hf]
        · intro t ht
          have : (((env.parse name).tab == t) = true) = False := by simp [Ne.symm ht]
          simp [lookup, List.find?_append, this, Ne.symm ht]

/-- The staging schema has at most one table of each name, after any statements. -/
theorem C56_unique (env : Env) (c : Ctx) (ss : List Stmt) (h : (c.ext.map (·.1)).Nodup) :
    ((run env c ss).ext.map (·.1)).Nodup := by
  induction ss generalizing c with
  | nil => exact h
  | cons s ss ih =>
    refine ih (exec env c s).1 ?_
    obtain ⟨us, ⟨_, _, he⟩ | ⟨e, _, he⟩⟩ := exec_cases env c s
    · rw [he]
      by_cases ht : touchesStaging { c with udfs := us } s
      · cases s with
        | createExternal name ine id =>
          simp only [execStmt, doCreateExternal]
          split
          · exact h
          · split
            · exact h
            · split
              · split <;> exact h
              · rename_i r _ hex
                simp only [List.map_append, List.map_cons, List.map_nil]
                rw [List.nodup_append]
                refine ⟨h, by simp, ?_⟩
                intro a ha b hb e
                simp only [List.mem_singleton] at hb
                subst hb
                subst e
                obtain ⟨x, hx, hxa⟩ := List.mem_map.1 ha
                exact hex (List.any_eq_true.2 ⟨x, hx, by simp [hxa]⟩)
        | dropTable name ie =>
          simp only [execStmt, doDropTable]
          split
          · exact h
          · split
            · split
              · exact h
              · exact List.Sublist.nodup (List.Sublist.map _ List.filter_sublist) h
            · have hd := deleteDelta_frame env { c with udfs := us } (resolve { c with udfs := us } name)
              have hl := liftCat_ext (deleteDelta env { c with udfs := us } (resolve { c with udfs := us } name)).1
                (Catalog.deleteTable (deleteDelta env { c with udfs := us } (resolve { c with udfs := us } name)).1.cat
                  (resolve { c with udfs := us } name).cat (resolve { c with udfs := us } name).sch
                  (resolve { c with udfs := us } name).tab)
              rw [hl.1, hd.1]
              exact h
        | createSchema | createCatalog | ctas | createTable | dropSchema | createFunction | dropFunction | rename =>
          exact absurd ht (by simp [touchesStaging])
      · rw [(execStmt_ext env { c with udfs := us } s).1 ht]
        exact h
    · rw [he]; exact h

/-- A table of the same name in every other place does not matter: `staging.e` is the external table. -/
example : lookup { exCtx with cat := (run exEnv exCtx [.createSchema "system" false]).cat } ⟨"default", "staging", "e"⟩ = .ok (.ext 5) ∧
    lookup (run exEnv exCtx [.createSchema "system" false, .createTable "t2" false false 1 600]) ⟨"default", "system", "table_versions"⟩ =
      .ok .system := by decide +kernel

/-! ### C58 -/

/-- Nothing changed outside the session. -/
def Same (c c' : Ctx) : Prop := c'.cat = c.cat ∧ c'.data = c.data ∧ c'.ext = c.ext

/-- The statement succeeds and changes nothing. -/
def NoOp (env : Env) (c : Ctx) (s : Stmt) : Prop := ∃ c', exec env c s = (c', .ok ()) ∧ Same c c'

theorem noop_of (env : Env) (c : Ctx) (s : Stmt) (hr : (reload env c).2 = .ok ())
    (h : ∀ us, execStmt env { c with udfs := us } s = ({ c with udfs := us }, .ok ())) : NoOp env c s := by
  obtain ⟨us, ⟨_, _, he⟩ | ⟨e, hbad, _⟩⟩ := exec_cases env c s
  · exact ⟨{ c with udfs := us }, by rw [he, h us], rfl, rfl, rfl⟩
  · rw [hr] at hbad; cases hbad

/-- **C58**, databases. -/
theorem C58_create_database (env : Env) (c : Ctx) (hr : (reload env c).2 = .ok ()) (n : String) (d : Db)
    (hd : IsDb c.cat n d) : NoOp env c (.createCatalog n true) := by
  refine noop_of env c _ hr (fun us => ?_)
  rcases getDb_cases c.cat n with ⟨e, h1, h2⟩ | ⟨h1, h2⟩
  · simp [execStmt, doCreateCatalog, h2]
  · exact absurd hd (h1 d)

/-- **C58**, external tables. -/
theorem C58_create_external (env : Env) (c : Ctx) (hr : (reload env c).2 = .ok ()) (hs : env.hasStore = true)
    (name : String) (id id' : Nat) (hc : (env.parse name).cat.getD c.db = c.db)
    (hsch : (env.parse name).sch.getD "staging" = "staging") (hex : ((env.parse name).tab, id') ∈ c.ext) :
    NoOp env c (.createExternal name true id) := by
  refine noop_of env c _ hr (fun us => ?_)
  have : c.ext.any (·.1 == (env.parse name).tab) = true := List.any_eq_true.2 ⟨_, hex, by simp⟩
  have hrs : resolveStaging env { c with udfs := us } name = .ok ⟨c.db, "staging", (env.parse name).tab⟩ := by
    simp only [resolveStaging, hc, hsch, ne_eq, not_true_eq_false, or_self, if_false]
  simp only [execStmt, doCreateExternal, hs, Bool.not_true, Bool.false_eq_true, if_false, hrs, this, if_true]

/-- **C58**, `CREATE TABLE AS` (partial: only if the existing table is a Delta table that loads). -/
theorem C58_ctas_partial (env : Env) (c : Ctx) (hr : (reload env c).2 = .ok ()) (hw : WF c.cat) (name : TRef) (orr : Bool)
    (q : Query) (u : Nat) (hcat : (resolve c name).cat = c.db) (hp : Plain (resolve c name).sch) (t : Tab)
    (ht : IsTable c.cat c.db (resolve c name).sch (resolve c name).tab t) (hl : (c.data t.uuid).isSome = true) :
    NoOp env c (.ctas name true orr q u) := by
  refine noop_of env c _ hr (fun us => ?_)
  obtain ⟨d, hd⟩ := Option.isSome_iff_exists.1 hl
  have h := (tryDelta_iff { c with udfs := us } hw _ _ hp t.uuid d).2 ⟨t, ht, rfl, hd⟩
  have hrr : resolve { c with udfs := us } name = ⟨c.db, (resolve c name).sch, (resolve c name).tab⟩ := by
    have : resolve { c with udfs := us } name = resolve c name := rfl
    rw [this, ← hcat]
  simp only [execStmt, doCtas, hrr, h]

/-- **C58**, `DROP TABLE`: for a name that resolves to no table. -/
theorem C58_drop_table (env : Env) (c : Ctx) (hr : (reload env c).2 = .ok ()) (name : TRef) (e : Err)
    (hno : lookup c (resolve c name) = .error e) : NoOp env c (.dropTable name true) := by
  refine noop_of env c _ hr (fun us => ?_)
  have h1 : lookup { c with udfs := us } (resolve { c with udfs := us } name) = .error e := hno
  simp only [execStmt, doDropTable, tryDelta, h1]

/-- **C58**, `DROP SCHEMA` (partial: not for schemas of other databases). -/
theorem C58_drop_schema_partial (env : Env) (c : Ctx) (hr : (reload env c).2 = .ok ()) (cat : Option String) (n : String)
    (hcat : cat = none ∨ cat = some c.db) (hp : Plain n) (hno : ∀ x, ¬ IsSchema c.cat c.db n x) :
    NoOp env c (.dropSchema cat n true) := by
  refine noop_of env c _ hr (fun us => ?_)
  have hst : schemaTables { c with udfs := us } n = none := by
    simp only [schemaTables, hp.2.1, hp.2.2, if_false]
    rcases getSchema_cases c.cat c.db n hp.2.1 with ⟨x, hx, hg⟩ | ⟨hn, hg⟩
    · exact absurd hx (hno x)
    · simp [hg]
  have hc : ¬ cat.getD c.db ≠ c.db := by rcases hcat with rfl | rfl <;> simp
  simp [execStmt, doDropSchema, hc, hst]

/-- **C58**, `DROP FUNCTION`. -/
theorem C58_drop_function (env : Env) (c : Ctx) (hr : (reload env c).2 = .ok ()) (names : List String)
    (hno : ∀ n ∈ names, ∀ f, ¬ IsFn c.cat c.db n f) : NoOp env c (.dropFunction names true) := by
  refine noop_of env c _ hr (fun us => ?_)
  have hok : ∃ d, getDb c.cat c.db = .ok d := by
    rcases getDb_cases c.cat c.db with ⟨e, h1, h2⟩ | ⟨h1, h2⟩
    · exact ⟨e, h2⟩
    · simp [reload, listFunctions, h2] at hr
  obtain ⟨d, hd⟩ := hok
  have hdd := getDb_ok hd
  have hany : c.cat.fns.any (fun f => f.dbId == d.id && (names.map (fun _ => names.head?)).contains (some f.name)) = false := by
    rw [List.any_eq_false]
    intro f hf hb
    simp only [Bool.and_eq_true, beq_iff_eq, List.contains_iff_mem, List.mem_map] at hb
    obtain ⟨h1, x, hx, h2⟩ := hb
    have : f.name ∈ names := List.mem_of_mem_head? h2
    exact hno f.name this f ⟨hf, rfl, d, hdd, h1.symm⟩
  simp only [execStmt, deleteFunctions, hd, repoDropFn, hany, Bool.false_eq_true, if_false, if_true, liftCat]

/-- The example state with all hypotheses. -/
example : NoOp exEnv exCtx (.createCatalog "default" true) ∧ NoOp exEnv exCtx (.createExternal "e" true 9) ∧
    NoOp exEnv exCtx (.ctas { tab := "t" } true false (.rows 1 [1]) 500) ∧
    NoOp exEnv exCtx (.dropTable { tab := "nope" } true) ∧ NoOp exEnv exCtx (.dropSchema none "nope" true) ∧
    NoOp exEnv exCtx (.dropFunction ["nope"] true) := by
  have hr : (reload exEnv exCtx).2 = .ok () := by decide +kernel
  refine ⟨C58_create_database exEnv exCtx hr "default" ⟨1, "default"⟩ ⟨by simp [exCtx, exCat], rfl⟩,
    C58_create_external exEnv exCtx hr rfl "e" 9 5 rfl rfl (by simp [exCtx, exEnv]),
    C58_ctas_partial exEnv exCtx hr wf_exCat { tab := "t" } false _ 500 rfl
      ⟨by simp [resolve, exCtx], by simp [resolve, exCtx], by simp [resolve, exCtx]⟩ ⟨1, 1, "t", 77⟩ ?_ rfl,
    C58_drop_table exEnv exCtx hr { tab := "nope" } .noTable (by decide +kernel),
    C58_drop_schema_partial exEnv exCtx hr none "nope" (Or.inl rfl) ⟨by simp, by simp, by simp⟩ ?_,
    C58_drop_function exEnv exCtx hr ["nope"] ?_⟩
  · exact ⟨by simp [exCtx, exCat], rfl, ⟨1, 1, "public"⟩, ⟨by simp [exCtx, exCat], rfl, ⟨1, "default"⟩,
      ⟨by simp [exCtx, exCat], rfl⟩, rfl⟩, rfl⟩
  · rintro x ⟨h1, h2, _⟩
    simp only [exCtx, exCat, List.mem_cons, List.not_mem_nil, or_false] at h1
    rcases h1 with rfl | rfl <;> simp at h2
  · rintro n hn f ⟨h1, h2, _⟩
    simp only [exCtx, exCat, List.mem_cons, List.not_mem_nil, or_false] at h1 hn
    subst hn
    rcases h1 with rfl | rfl <;> simp at h2

/-- **C58**, violated: `CREATE SCHEMA IF NOT EXISTS` of an existing schema fails; `CREATE TABLE IF NOT EXISTS`
of an existing table fails and leaves an orphaned Delta table behind; `CREATE TABLE IF NOT EXISTS … AS` over
an existing external table fails; `DROP SCHEMA IF EXISTS` with another database fails. -/
theorem C58_violated :
    (exec exEnv exCtx (.createSchema "public" true)).2 = .error (.cat (.schemaAlreadyExists "public")) ∧
    ((exec exEnv exCtx (.createTable "t" true false 1 500)).2 = .error (.cat (.tableAlreadyExists "t")) ∧
      (exec exEnv exCtx (.createTable "t" true false 1 500)).1.data 500 = some ⟨1, []⟩) ∧
    (lookup exCtx ⟨"default", "staging", "e"⟩ = .ok (.ext 5) ∧
      (exec exEnv exCtx (.ctas { sch := some "staging", tab := "e" } true false (.rows 1 []) 500)).2 =
        .error (.cat .usedStagingSchema)) ∧
    (exec exEnv exCtx (.dropSchema (some "other") "nope" true)).2 = .error .plan := by decide +kernel

end Seafowl.Ddl
