import Verif.Context.Ddl
import Verif.Catalog.HistProps

/-!
# Lemmas about the DDL model
-/

namespace Seafowl.Ddl

open Seafowl.Catalog

set_option linter.unusedSimpArgs false

/-- A table has one name. -/
theorem IsTable_names {s : Cat} (h : WF s) {a b n a' b' n' : String} {t : Tab} (h1 : IsTable s a b n t)
    (h2 : IsTable s a' b' n' t) : (a', b', n') = (a, b, n) := by
  obtain ⟨_, e3, c, hc, h4⟩ := h1
  obtain ⟨_, e3', c', hc', h4'⟩ := h2
  have : c = c' := eq_of_pairwise h.collIds hc.1 hc'.1 (by simp [h4, h4']) (by simp [h4, h4'])
  subst this
  obtain ⟨_, e2, d, hd, hd2⟩ := hc
  obtain ⟨_, e2', d', hd', hd2'⟩ := hc'
  have : d = d' := eq_of_pairwise h.dbIds hd.1 hd'.1 (by simp [hd2, hd2']) (by simp [hd2, hd2'])
  subst this
  rw [← hd.2, ← hd'.2, ← e2, ← e2', ← e3, ← e3']

/-- Tables are found through databases, schemas and tables only. -/
theorem IsTable_congr {s s' : Cat} (h1 : s'.dbs = s.dbs) (h2 : s'.colls = s.colls) (h3 : s'.tabs = s.tabs)
    (a b n : String) (t : Tab) : IsTable s' a b n t ↔ IsTable s a b n t := by
  simp only [IsTable, IsSchema, IsDb, h1, h2, h3]

theorem IsSchema_congr {s s' : Cat} (h1 : s'.dbs = s.dbs) (h2 : s'.colls = s.colls)
    (a b : String) (c : Coll) : IsSchema s' a b c ↔ IsSchema s a b c := by
  simp only [IsSchema, IsDb, h1, h2]

/-- `create_new_version` touches versions and columns only. -/
theorem newVersion_frame (s : Cat) (u : Nat) (v now : Int) (ok : Bool) :
    (newVersion s u v now ok).1.dbs = s.dbs ∧ (newVersion s u v now ok).1.colls = s.colls ∧
    (newVersion s u v now ok).1.tabs = s.tabs ∧ (newVersion s u v now ok).1.fns = s.fns := by
  rw [fst_newVersion]
  simp only [repoNewVersion]
  split
  · exact ⟨rfl, rfl, rfl, rfl⟩
  · split
    · exact ⟨rfl, rfl, rfl, rfl⟩
    · cases ok <;> exact ⟨rfl, rfl, rfl, rfl⟩

/-- `create_new_version` succeeds for a table with a version. -/
theorem newVersion_ok (s : Cat) (t : Tab) (ht : t ∈ s.tabs) (hv : ∃ v ∈ s.vers, v.tableId = t.id) (ver now : Int) :
    ∃ s' vid, newVersion s t.uuid ver now true = (s', .ok vid) := by
  obtain ⟨v, hv1, hv2⟩ := hv
  have hmem : v.id ∈ (s.vers.filter (fun v => s.tabs.any (fun x => x.id == v.tableId && x.uuid == t.uuid))).map (·.id) := by
    apply List.mem_map_of_mem
    refine List.mem_filter.2 ⟨hv1, ?_⟩
    rw [List.any_eq_true]
    exact ⟨t, ht, by simp [hv2]⟩
  rcases Option.eq_none_or_eq_some (lastVersion s t.uuid) with hl | ⟨m, hl⟩
  · exfalso
    simp only [lastVersion, maxOf_none] at hl
    rw [hl] at hmem
    simp at hmem
  · have hm := hl
    simp only [lastVersion, maxOf_some] at hm
    obtain ⟨w, hw, hwm⟩ := List.mem_map.1 hm.1
    obtain ⟨hw1, _⟩ := List.mem_filter.1 hw
    rcases Option.eq_none_or_eq_some (s.vers.find? (·.id == m)) with hf | ⟨x, hf⟩
    · exfalso
      rw [List.find?_eq_none] at hf
      exact hf w hw1 (by simp [hwm])
    · simp [newVersion, repoNewVersion, hl, hf]

/-- What a successful `create_table` does. -/
theorem createTable_ok {s s' : Cat} {db sch n : String} {cs : List (String × String)} {u : Nat} {now : Int} {ok : Bool}
    {r : Nat × Nat} (h : createTable s db sch n cs u now ok = (s', .ok r)) :
    s'.dbs = s.dbs ∧ s'.colls = s.colls ∧ s'.fns = s.fns ∧ (∀ v ∈ s.vers, v ∈ s'.vers) ∧
    ∃ t, t.uuid = u ∧ IsTable s' db sch n t ∧ s'.tabs = s.tabs ++ [t] ∧ (∃ v ∈ s'.vers, v.tableId = t.id) ∧
      sch ≠ "staging" ∧ ∃ c, IsSchema s db sch c ∧ t.collId = c.id ∧ ∀ x ∈ s.tabs, ¬ (x.name = n ∧ x.collId = c.id) := by
  by_cases hst : sch = staging
  · simp [createTable, getSchema, hst] at h
  rcases getSchema_cases s db sch hst with ⟨c, hc, hg⟩ | ⟨_, hg⟩
  · simp only [createTable, hg, repoCreateTab] at h
    by_cases hany : s.tabs.any (fun t => t.name == n && t.collId == c.id) = true
    · simp [hany] at h
    · by_cases hfk : s.colls.any (·.id == c.id) = true
      · simp only [hany, hfk, if_false, Bool.not_true, Bool.false_eq_true] at h
        have hno : ∀ x ∈ s.tabs, ¬ (x.name = n ∧ x.collId = c.id) := by
          intro x hx e
          apply hany
          rw [List.any_eq_true]
          exact ⟨x, hx, by simp [e.1, e.2]⟩
        by_cases hE : cs.isEmpty = true
        · simp only [hE, if_true, Prod.mk.injEq] at h
          obtain ⟨rfl, _⟩ := h
          refine ⟨rfl, rfl, rfl, fun v hv => List.mem_append.2 (Or.inl hv),
            ⟨newId (s.tabs.map (·.id)), c.id, n, u⟩, rfl, ?_, rfl, ?_, hst, c, hc, rfl, hno⟩
          · exact ⟨List.mem_append.2 (Or.inr (List.mem_singleton.2 rfl)), rfl, c, hc, rfl⟩
          · exact ⟨_, List.mem_append.2 (Or.inr (List.mem_singleton.2 rfl)), rfl⟩
        · cases ok with
          | false => simp [hE] at h
          | true =>
            by_cases hd : distinctNames cs = true
            · simp only [hE, hd, if_false, Bool.not_true, Bool.false_eq_true, Prod.mk.injEq] at h
              obtain ⟨rfl, _⟩ := h
              refine ⟨rfl, rfl, rfl, fun v hv => List.mem_append.2 (Or.inl hv),
                ⟨newId (s.tabs.map (·.id)), c.id, n, u⟩, rfl, ?_, rfl, ?_, hst, c, hc, rfl, hno⟩
              · exact ⟨List.mem_append.2 (Or.inr (List.mem_singleton.2 rfl)), rfl, c, hc, rfl⟩
              · exact ⟨_, List.mem_append.2 (Or.inr (List.mem_singleton.2 rfl)), rfl⟩
            · simp [hE, hd] at h
      · simp [hany, hfk] at h
  · simp [createTable, hg] at h

/-- A failing `create_table` with distinct columns leaves the catalog unchanged. -/
theorem createTable_err {s s' : Cat} {db sch n : String} {cs : List (String × String)} {u : Nat} {now : Int}
    {e : CatErr} (hd : distinctNames cs = true) (h : createTable s db sch n cs u now true = (s', .error e)) : s' = s := by
  by_cases hst : sch = staging
  · simp only [createTable, getSchema, hst, if_true, Prod.mk.injEq] at h; exact h.1.symm
  rcases getSchema_cases s db sch hst with ⟨c, hc, hg⟩ | ⟨_, hg⟩
  · simp only [createTable, hg, repoCreateTab] at h
    by_cases hany : s.tabs.any (fun t => t.name == n && t.collId == c.id) = true
    · simp only [hany, if_true, Prod.mk.injEq] at h; exact h.1.symm
    · by_cases hfk : s.colls.any (·.id == c.id) = true
      · by_cases hE : cs.isEmpty = true
        · simp [hany, hfk, hE] at h
        · simp [hany, hfk, hE, hd] at h
      · simp [hany, hfk] at h; exact h.1.symm
  · simp only [createTable, hg, Prod.mk.injEq] at h; exact h.1.symm

/-- The tables of the catalog after a successful `create_table`. -/
theorem createTable_tables {s s' : Cat} (hw : WF s) (hw' : WF s') {db sch n : String} {cs : List (String × String)} {u : Nat}
    {now : Int} {ok : Bool} {r : Nat × Nat} (h : createTable s db sch n cs u now ok = (s', .ok r)) :
    (∀ x, ¬ IsTable s db sch n x) ∧
    ∃ t, t.uuid = u ∧ ∀ a b m x, IsTable s' a b m x ↔ IsTable s a b m x ∨ (x = t ∧ (a, b, m) = (db, sch, n)) := by
  obtain ⟨h1, h2, _, _, t, hu, ht, htabs, _, _, c, hc, hcid, hno⟩ := createTable_ok h
  have hin : ∀ a b m x, x ∈ s.tabs → (IsTable s' a b m x ↔ IsTable s a b m x) := by
    intro a b m x hx
    simp only [IsTable, IsSchema, IsDb, h1, h2, htabs]
    simp [hx]
  constructor
  · rintro x ⟨hx, hxn, c', hc', hcid'⟩
    have := IsSchema_unique hw hc hc'
    subst this
    exact hno x hx ⟨hxn, hcid'.symm⟩
  · refine ⟨t, hu, ?_⟩
    intro a b m x
    constructor
    · intro hx
      have hm := hx.1
      rw [htabs] at hm
      rcases List.mem_append.1 hm with hm | hm
      · exact Or.inl ((hin a b m x hm).1 hx)
      · rw [List.mem_singleton.1 hm] at hx
        exact Or.inr ⟨List.mem_singleton.1 hm, IsTable_names hw' ht hx⟩
    · rintro (hx | ⟨rfl, e⟩)
      · exact (hin a b m x hx.1).2 hx
      · simp only [Prod.mk.injEq] at e
        obtain ⟨rfl, rfl, rfl⟩ := e
        exact ht

/-- What a successful `CREATE SCHEMA` does to names. -/
theorem createSchema_ok {s s' : Cat} (hw : WF s) {db n : String} (h : createSchema s db n = (s', .ok ())) :
    s'.dbs = s.dbs ∧ s'.tabs = s.tabs ∧ s'.vers = s.vers ∧ s'.fns = s.fns ∧ n ≠ "staging" ∧ (∀ c, ¬ IsSchema s db n c) ∧
    (∃ c, IsSchema s' db n c) ∧ (∀ a b m x, IsTable s' a b m x ↔ IsTable s a b m x) := by
  by_cases hst : n = staging
  · simp [createSchema, hst] at h
  rcases getDb_cases s db with ⟨d, hd, hg⟩ | ⟨_, hg⟩
  · simp only [createSchema, if_neg hst, hg, repoCreateColl] at h
    by_cases hany : s.colls.any (fun c => c.name == n && c.dbId == d.id) = true
    · simp [hany] at h
    · by_cases hfk : s.dbs.any (·.id == d.id) = true
      · simp only [hany, hfk, if_false, Bool.not_true, Bool.false_eq_true, Prod.mk.injEq, and_true] at h
        subst h
        refine ⟨rfl, rfl, rfl, rfl, hst, ?_, ?_, ?_⟩
        · rintro c ⟨hc1, hc2, d', hd', hd3⟩
          have := IsDb_unique hw hd hd'
          subst this
          apply hany
          rw [List.any_eq_true]
          exact ⟨c, hc1, by simp [hc2, hd3]⟩
        · exact ⟨_, List.mem_append.2 (Or.inr (List.mem_singleton.2 rfl)), rfl, d, hd, rfl⟩
        · intro a b m x
          simp only [IsTable, IsSchema]
          constructor
          · rintro ⟨h1, h2, c, ⟨hc, h3⟩, h4⟩
            rcases List.mem_append.1 hc with hc | hc
            · exact ⟨h1, h2, c, ⟨hc, h3⟩, h4⟩
            · exfalso
              rw [List.mem_singleton.1 hc] at h4
              obtain ⟨c', hc', h5⟩ := hw.tabParent x h1
              have := lt_newId_map (fun c : Coll => c.id) hc'
              simp only at h4
              omega
          · rintro ⟨h1, h2, c, ⟨hc, h3⟩, h4⟩
            exact ⟨h1, h2, c, ⟨List.mem_append.2 (Or.inl hc), h3⟩, h4⟩
      · simp [hany, hfk] at h
  · simp [createSchema, hst, hg] at h

/-! ### reload -/

/-- Registering functions changes the session only. -/
theorem registerAll_frame (env : Env) (c : Ctx) (fs : List Fn) :
    ∃ us, (registerAll env c fs).1 = { c with udfs := us } := by
  induction fs generalizing c with
  | nil => exact ⟨c.udfs, rfl⟩
  | cons f fs ih =>
    simp only [registerAll]
    split
    · obtain ⟨us, h⟩ := ih { c with udfs := setUdf c.udfs f.name f.details }
      exact ⟨us, h⟩
    · exact ⟨c.udfs, rfl⟩

/-- A reload changes the session only. -/
theorem reload_frame (env : Env) (c : Ctx) : ∃ us, (reload env c).1 = { c with udfs := us } := by
  simp only [reload]
  split
  · exact ⟨c.udfs, rfl⟩
  · exact registerAll_frame env c _

/-- Lookups do not depend on the functions. -/
theorem lookup_udfs (c : Ctx) (us : List (String × String)) (r : RRef) : lookup { c with udfs := us } r = lookup c r := rfl

/-- Registration succeeds if all definitions are accepted. -/
theorem registerAll_ok (env : Env) (c : Ctx) (fs : List Fn) (h : ∀ f ∈ fs, env.udfOk f.details = true) :
    (registerAll env c fs).2 = .ok () := by
  induction fs generalizing c with
  | nil => rfl
  | cons f fs ih =>
    simp only [registerAll, h f (by simp), if_true]
    exact ih _ (fun g hg => h g (List.mem_cons_of_mem _ hg))

/-- The reload succeeds if the database exists and its functions are accepted. -/
theorem reload_ok (env : Env) (c : Ctx) (d : Db) (hd : IsDb c.cat c.db d) (h : ∀ f ∈ c.cat.fns, env.udfOk f.details = true) :
    (reload env c).2 = .ok () := by
  simp only [reload, listFunctions]
  rcases getDb_cases c.cat c.db with ⟨e, h1, h2⟩ | ⟨h1, h2⟩
  · rw [h2]
    exact registerAll_ok env c _ (fun f hf => h f (List.mem_filter.1 hf).1)
  · exact absurd hd (h1 d)

/-! ### lookups -/

/-- Not one of the schemas served without the catalog. -/
def Plain (sch : String) : Prop := sch ≠ "information_schema" ∧ sch ≠ "staging" ∧ sch ≠ "system"

/-- Lookups in ordinary schemas find exactly the loadable tables of the catalog. -/
theorem tryDelta_iff (c : Ctx) (hw : WF c.cat) (sch t : String) (hp : Plain sch) (u : Nat) (d : Delta) :
    tryDelta c ⟨c.db, sch, t⟩ = .ok (u, d) ↔ ∃ x, IsTable c.cat c.db sch t x ∧ x.uuid = u ∧ c.data u = some d := by
  obtain ⟨p1, p2, p3⟩ := hp
  simp only [tryDelta, lookup, ne_eq, not_true_eq_false, if_false, p1, p2, p3]
  rcases getTable_cases c.cat c.db sch t with ⟨x, h1, h2⟩ | ⟨h1, h2⟩
  · simp only [h2]
    rcases Option.eq_none_or_eq_some (c.data x.uuid) with hn | ⟨e, hn⟩
    · simp only [hn, reduceCtorEq, false_iff]
      rintro ⟨y, hy, rfl, hd⟩
      rw [IsTable_unique hw hy h1, hn] at hd
      cases hd
    · simp only [hn, Except.ok.injEq, Prod.mk.injEq]
      constructor
      · rintro ⟨rfl, rfl⟩; exact ⟨x, h1, rfl, hn⟩
      · rintro ⟨y, hy, rfl, hd⟩
        rw [IsTable_unique hw hy h1] at hd ⊢
        rw [hn] at hd
        exact ⟨rfl, Option.some.inj hd⟩
  · simp only [h2, reduceCtorEq, false_iff]
    rintro ⟨y, hy, _⟩
    exact h1 y hy

/-- A Delta table found under any reference is a table of the current catalog. -/
theorem tryDelta_ok (c : Ctx) (r : RRef) (u : Nat) (d : Delta) (h : tryDelta c r = .ok (u, d)) :
    r.cat = c.db ∧ Plain r.sch ∧ ∃ x, IsTable c.cat c.db r.sch r.tab x ∧ x.uuid = u ∧ c.data u = some d := by
  simp only [tryDelta, lookup] at h
  by_cases h1 : r.cat = c.db
  · by_cases h2 : r.sch = "information_schema"
    · simp only [h1, ne_eq, not_true_eq_false, if_false, h2, if_true] at h
      by_cases h3 : r.tab ∈ infoTables <;> simp [h3] at h
    · by_cases h4 : r.sch = "staging"
      · simp only [h1, ne_eq, not_true_eq_false, if_false, h2, h4, if_true] at h
        rcases Option.eq_none_or_eq_some (c.ext.find? (·.1 == r.tab)) with hn | ⟨e, hn⟩ <;> simp [hn] at h
      · by_cases h5 : r.sch = "system"
        · simp only [h1, ne_eq, not_true_eq_false, if_false, h2, h4, h5, if_true] at h
          by_cases h3 : r.tab ∈ systemTables <;> simp [h3] at h
        · simp only [h1, ne_eq, not_true_eq_false, if_false, h2, h4, h5] at h
          refine ⟨h1, ⟨h2, h4, h5⟩, ?_⟩
          rcases getTable_cases c.cat c.db r.sch r.tab with ⟨x, g1, g2⟩ | ⟨g1, g2⟩
          · simp only [g2] at h
            rcases Option.eq_none_or_eq_some (c.data x.uuid) with hn | ⟨e, hn⟩
            · simp [hn] at h
            · simp only [hn, Except.ok.injEq, Prod.mk.injEq] at h
              obtain ⟨rfl, rfl⟩ := h
              exact ⟨x, g1, rfl, hn⟩
          · simp [g2] at h
  · simp [h1] at h

/-- What a successful write does. -/
theorem planTo_ok {env : Env} {c c' : Ctx} {r : RRef} {rows : List Nat} (h : planTo env c r rows = (c', .ok ())) :
    ∃ u d s, tryDelta c r = .ok (u, d) ∧ env.hasStore = true ∧ env.writeOk = true ∧
      s.dbs = c.cat.dbs ∧ s.colls = c.cat.colls ∧ s.tabs = c.cat.tabs ∧ s.fns = c.cat.fns ∧
      c' = { setData c u (some { d with rows := d.rows ++ rows }) with cat := s } := by
  simp only [planTo] at h
  rcases ht : tryDelta c r with e | ⟨u, d⟩
  · simp [ht] at h
  · simp only [ht] at h
    cases hs : env.hasStore with
    | false => simp [hs] at h
    | true =>
      cases hwk : env.writeOk with
      | false => simp [hs, hwk] at h
      | true =>
        simp only [hs, hwk, Bool.not_true, Bool.false_eq_true, if_false] at h
        have hf := newVersion_frame (setData c u (some { d with rows := d.rows ++ rows })).cat u env.ver env.now true
        rcases hn : newVersion (setData c u (some { d with rows := d.rows ++ rows })).cat u env.ver env.now true with ⟨s, e | v⟩
        · simp [hn] at h
        · simp only [hn, Prod.mk.injEq, and_true] at h
          rw [hn] at hf
          obtain ⟨f1, f2, f3, f4⟩ := hf
          exact ⟨u, d, s, rfl, rfl, rfl, f1, f2, f3, f4, h.symm⟩

/-- What a successful creation does. -/
theorem createDelta_ok {env : Env} {c c' : Ctx} {r : RRef} {schema u : Nat} (hw : WF c.cat)
    (h : createDelta env c r schema u = (c', .ok ())) :
    r.cat = c.db ∧ Plain r.sch ∧ env.hasStore = true ∧ env.createOk = true ∧
    ∃ s, WF s ∧ c' = { setData c u (some ⟨schema, []⟩) with cat := s } ∧ s.dbs = c.cat.dbs ∧ s.fns = c.cat.fns ∧
      s.colls = c.cat.colls ∧
      (∀ x, ¬ IsTable c.cat c.db r.sch r.tab x) ∧
      ∃ t, t.uuid = u ∧ (∃ v ∈ s.vers, v.tableId = t.id) ∧
        ∀ a b m x, IsTable s a b m x ↔ IsTable c.cat a b m x ∨ (x = t ∧ (a, b, m) = (c.db, r.sch, r.tab)) := by
  simp only [createDelta] at h
  cases hs : env.hasStore with
  | false => simp [hs] at h
  | true =>
    simp only [hs, Bool.not_true, Bool.false_eq_true, if_false] at h
    rcases hg : getSchema c.cat c.db r.sch with e | co
    · simp [hg] at h
    · simp only [hg] at h
      cases hk : env.createOk with
      | false => simp [hk] at h
      | true =>
        simp only [hk, Bool.not_true, Bool.false_eq_true, if_false] at h
        rcases hc : createTable (setData c u (some ⟨schema, []⟩)).cat c.db r.sch r.tab (env.cols schema) u env.now true with ⟨s, e | x⟩
        · simp [hc] at h
        · simp only [hc] at h
          by_cases hr : canRegister c r = true
          · simp only [hr, if_true, Prod.mk.injEq, and_true] at h
            have hws : WF s := by
              have := C31_step (setData c u (some ⟨schema, []⟩)).cat hw (.createTable c.db r.sch r.tab (env.cols schema) u env.now true)
              simp only [Catalog.exec, hc] at this
              exact this
            have hok := createTable_ok hc
            obtain ⟨t0, hu0, hit0, _, hv0, hst, _⟩ := hok.2.2.2.2
            obtain ⟨hno, t, hu, hiff⟩ := createTable_tables (s := (setData c u (some ⟨schema, []⟩)).cat) hw hws hc
            simp only [canRegister, Bool.and_eq_true, beq_iff_eq, bne_iff_ne, ne_eq] at hr
            have htt : t0 = t := by
              rcases (hiff _ _ _ _).1 hit0 with h1 | ⟨h1, _⟩
              · exact absurd h1 (hno t0)
              · exact h1
            refine ⟨hr.1.1, ⟨hr.1.2, hst, hr.2⟩, rfl, rfl, s, hws, h.symm, hok.1, hok.2.2.1, hok.2.1, hno, t, hu, ?_, hiff⟩
            rw [← htt]; exact hv0
          · simp [hr] at h

end Seafowl.Ddl
