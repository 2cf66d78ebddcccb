import Verif.Context.Convert

/-!
# C98: CONVERT TO DELTA turns a directory of Parquet files into a table
-/

namespace Seafowl.Ddl

open Seafowl.Catalog

set_option linter.unusedSimpArgs false

/-! ### specification -/

/-- How often a row occurs in the Parquet files of a directory. -/
def occurs (x : Nat) : List PFile → Nat
  | [] => 0
  | f :: fs => (if f.parquet then f.rows.count x else 0) + occurs x fs

/-- The files of a directory make up one table: there are some, they are not partitioned, their schemas merge. -/
def Convertible (L : Locs) (u s : Nat) : Prop :=
  (∃ f ∈ L.files u, f.parquet = true) ∧ (∀ f ∈ L.files u, f.parquet = true → f.partitioned = false) ∧
  L.merge (((L.files u).filter (·.parquet)).map (·.schema)) = some s

/-- Nothing can be loaded from the directory and there is no log in it. -/
def Raw (L : Locs) (c : Ctx) (u : Nat) : Prop := c.data u = none ∧ L.broken u = false

/-! ### lemmas -/

theorem count_files (x : Nat) (fs : List PFile) : ((fs.filter (·.parquet)).flatMap (·.rows)).count x = occurs x fs := by
  induction fs with
  | nil => rfl
  | cons f fs ih =>
    cases hf : f.parquet with
    | true => simp [List.filter_cons, hf, occurs, List.count_append, ih]
    | false => simp [List.filter_cons, hf, occurs, ih]

/-- The outcome of the builder. -/
theorem build_table {env : Env} {L : Locs} {c : Ctx} {u : Nat} {d : Delta} (h : build env L c u = .table d) :
    Raw L c u ∧ Convertible L u d.schema ∧ env.createOk = true ∧ ∀ x, d.rows.count x = occurs x (L.files u) := by
  unfold build at h
  split at h
  · cases h
  rename_i h1
  split at h
  · cases h
  rename_i h2
  split at h
  · cases h
  rename_i h3
  split at h
  · cases h
  rename_i s hm
  split at h
  rotate_left
  · cases h
  rename_i hco
  injection h with h
  subst h
  simp only [Bool.or_eq_true, not_or, Bool.not_eq_true, Option.isSome_eq_false_iff, Option.isNone_iff_eq_none] at h1
  refine ⟨h1, ⟨?_, ?_, hm⟩, hco, fun x => count_files x _⟩
  · have : dataFiles L u ≠ [] := by simpa using h2
    obtain ⟨f, hf⟩ := List.exists_mem_of_ne_nil _ this
    obtain ⟨a, b⟩ := List.mem_filter.1 hf
    exact ⟨f, a, b⟩
  · intro f hf hp
    cases hpart : f.partitioned with
    | false => rfl
    | true => exact absurd (List.any_eq_true.2 ⟨f, List.mem_filter.2 ⟨hf, hp⟩, hpart⟩) h3

theorem build_of {env : Env} {L : Locs} {c : Ctx} {u s : Nat} (hr : Raw L c u) (hc : Convertible L u s) (hco : env.createOk = true) :
    ∃ d, build env L c u = .table d ∧ d.schema = s := by
  obtain ⟨⟨f, hf, hfp⟩, hpart, hm⟩ := hc
  unfold build
  rw [if_neg (by simp [hr.1, hr.2]), if_neg, if_neg]
  · have hm' : L.merge ((dataFiles L u).map (·.schema)) = some s := hm
    simp only [hm', hco, if_true]
    exact ⟨_, rfl, rfl⟩
  · rw [List.any_eq_true]
    rintro ⟨g, hg, hgp⟩
    obtain ⟨a, b⟩ := List.mem_filter.1 hg
    rw [hpart g a b] at hgp
    cases hgp
  · have : f ∈ dataFiles L u := List.mem_filter.2 ⟨hf, hfp⟩
    intro he
    rw [List.isEmpty_iff.1 he] at this
    cases this

/-- Entering a table in the catalog, whatever the outcome: at most one row is added, with the given UUID. -/
theorem createTable_any (s : Cat) (db sch n : String) (cs : List (String × String)) (u : Nat) (now : Int) (ok : Bool) :
    (createTable s db sch n cs u now ok).1.dbs = s.dbs ∧ (createTable s db sch n cs u now ok).1.colls = s.colls ∧
    (createTable s db sch n cs u now ok).1.fns = s.fns ∧
    ((createTable s db sch n cs u now ok).1.tabs = s.tabs ∨
      ∃ t, (createTable s db sch n cs u now ok).1.tabs = s.tabs ++ [t] ∧ t.uuid = u ∧ t.name = n ∧
        ∃ c, IsSchema s db sch c ∧ t.collId = c.id) := by
  by_cases hst : sch = staging
  · simp [createTable, getSchema, hst]
  rcases getSchema_cases s db sch hst with ⟨c, hc, hg⟩ | ⟨_, hg⟩
  · simp only [createTable, hg, repoCreateTab]
    by_cases hany : s.tabs.any (fun t => t.name == n && t.collId == c.id) = true
    · simp [hany]
    · by_cases hfk : s.colls.any (·.id == c.id) = true
      · simp only [hany, hfk, if_false, Bool.not_true, Bool.false_eq_true]
        have hrow : ∃ t, s.tabs ++ [(⟨newId (s.tabs.map (·.id)), c.id, n, u⟩ : Tab)] = s.tabs ++ [t] ∧ t.uuid = u ∧ t.name = n ∧
            ∃ c, IsSchema s db sch c ∧ t.collId = c.id := ⟨_, rfl, rfl, rfl, c, hc, rfl⟩
        by_cases hE : cs.isEmpty = true
        · simp only [hE, if_true]; exact ⟨trivial, trivial, trivial, Or.inr hrow⟩
        · cases ok with
          | false => simp only [hE, if_false, Bool.not_false, if_true, Bool.false_eq_true]; exact ⟨trivial, trivial, trivial, Or.inr hrow⟩
          | true =>
            by_cases hd : distinctNames cs = true
            · simp only [hE, hd, if_false, Bool.not_true, Bool.false_eq_true]; exact ⟨trivial, trivial, trivial, Or.inr hrow⟩
            · simp only [hE, hd, if_false, Bool.not_true, Bool.false_eq_true, Bool.not_false, if_true]
              exact ⟨trivial, trivial, trivial, Or.inr hrow⟩
      · simp [hany, hfk]
  · simp [createTable, hg]

/-- Entering a table, by the result of the catalog. -/
theorem enter_state (env : Env) (c : Ctx) (r : RRef) (u : Nat) (d : Delta) :
    (enter env c r u d).1 =
      { setData c u (some d) with cat := (createTable c.cat c.db r.sch r.tab (env.cols d.schema) u env.now true).1 } := by
  unfold enter
  split
  · rename_i h; rw [h]
  · rename_i h
    split <;> rw [h]

theorem enter_ok {env : Env} {c c' : Ctx} {r : RRef} {u : Nat} {d : Delta} (hw : WF c.cat) (h : enter env c r u d = (c', .ok ())) :
    r.cat = c.db ∧ Plain r.sch ∧
    ∃ s, WF s ∧ c' = { setData c u (some d) with cat := s } ∧ (∀ x, ¬ IsTable c.cat c.db r.sch r.tab x) ∧
      ∃ t, t.uuid = u ∧
        ∀ a b m x, IsTable s a b m x ↔ IsTable c.cat a b m x ∨ (x = t ∧ (a, b, m) = (c.db, r.sch, r.tab)) := by
  unfold enter at h
  split at h
  · simp at h
  rename_i s x hct
  split at h
  rotate_left
  · simp at h
  rename_i hr
  simp only [Prod.mk.injEq, and_true] at h
  have hws : WF s := by
    have := C31_step c.cat hw (.createTable c.db r.sch r.tab (env.cols d.schema) u env.now true)
    simp only [Catalog.exec, hct] at this
    exact this
  have hok := createTable_ok hct
  obtain ⟨_, _, _, _, _, hst, _⟩ := hok.2.2.2.2
  obtain ⟨hno, t, hu, hiff⟩ := createTable_tables hw hws hct
  simp only [canRegister, Bool.and_eq_true, beq_iff_eq, bne_iff_ne, ne_eq] at hr
  exact ⟨hr.1.1, ⟨hr.1.2, hst, hr.2⟩, s, hws, h.symm, hno, t, hu, hiff⟩

/-- The cases of the statement: the functions of the session cannot be loaded; it ends without an effect; it found a table
there; it entered the table. -/
theorem convert_cases (env : Env) (L : Locs) (c : Ctx) (loc name : String) :
    ∃ us, (∃ e, convert env L c loc name = ({ c with udfs := us }, .error e)) ∨
      ((reload env c).2 = .ok () ∧ env.hasStore = true ∧ ∃ u co, L.uuid loc = some u ∧
        getSchema c.cat c.db (resolve c (env.parse name)).sch = .ok co ∧
        ((∃ d, c.data u = some d ∧ convert env L c loc name = ({ c with udfs := us }, .ok ())) ∨
         (∃ d, build env L c u = .table d ∧
           convert env L c loc name = enter env { c with udfs := us } (resolve c (env.parse name)) u d))) := by
  obtain ⟨us, hr⟩ := reload_frame env c
  refine ⟨us, ?_⟩
  rcases hre : reload env c with ⟨c0, e | _⟩
  · rw [hre] at hr
    left
    exact ⟨e, by simp only [convert, hre]; rw [← hr]⟩
  rw [hre] at hr
  simp only at hr
  subst hr
  have hres : resolve { c with udfs := us } (env.parse name) = resolve c (env.parse name) := rfl
  simp only [convert, hre, hres, convertDelta]
  cases hs : env.hasStore with
  | false => left; exact ⟨_, rfl⟩
  | true =>
    simp only [Bool.not_true, Bool.false_eq_true, if_false]
    rcases hg : getSchema c.cat c.db (resolve c (env.parse name)).sch with e | co
    · left; exact ⟨_, rfl⟩
    · rcases hu : L.uuid loc with _ | u
      · left; exact ⟨_, rfl⟩
      · have hb : build env L { c with udfs := us } u = build env L c u := rfl
        simp only [hb]
        rcases hbb : build env L c u with d | _ | _
        · right
          exact ⟨by first | rfl | trivial, by first | rfl | trivial, u, co, rfl, rfl, Or.inr ⟨d, hbb, rfl⟩⟩
        · rcases hd : c.data u with _ | d
          · left; exact ⟨.load, by simp [loadExisting, hd]⟩
          · right
            exact ⟨by first | rfl | trivial, by first | rfl | trivial, u, co, rfl, rfl, Or.inl ⟨d, hd, by simp [loadExisting, hd]⟩⟩
        · left; exact ⟨_, rfl⟩

theorem lookup_of_try {c : Ctx} {r : RRef} {u : Nat} {d : Delta} (h : tryDelta c r = .ok (u, d)) : lookup c r = .ok (.delta u d) := by
  simp only [tryDelta] at h
  rcases hlk : lookup c r with e | p
  · simp [hlk] at h
  · cases p <;> simp [hlk] at h ⊢
    exact h

/-! ### C98 -/

/-- **C98**: a CONVERT of a directory that was no table, if it succeeds, makes the name denote a table with exactly the rows
of the Parquet files of the directory; the name was free; all other tables, locations and staging tables are untouched. -/
theorem C98_converted (env : Env) (L : Locs) (c c' : Ctx) (hw : WF c.cat) (loc name : String) (u : Nat) (hu : L.uuid loc = some u)
    (hraw : c.data u = none) (h : convert env L c loc name = (c', .ok ())) :
    (∃ d, lookup c' (resolve c (env.parse name)) = .ok (.delta u d) ∧ Convertible L u d.schema ∧
      ∀ x, d.rows.count x = occurs x (L.files u)) ∧
    (∀ x, ¬ IsTable c.cat (resolve c (env.parse name)).cat (resolve c (env.parse name)).sch (resolve c (env.parse name)).tab x) ∧
    (∀ a b m x, (a, b, m) ≠ ((resolve c (env.parse name)).cat, (resolve c (env.parse name)).sch, (resolve c (env.parse name)).tab) →
      (IsTable c'.cat a b m x ↔ IsTable c.cat a b m x)) ∧
    (∀ w, w ≠ u → c'.data w = c.data w) ∧ c'.ext = c.ext := by
  obtain ⟨us, ⟨e, he⟩ | ⟨_, _, u', co, hu', _, ⟨d, hd, _⟩ | ⟨d, hb, he⟩⟩⟩ := convert_cases env L c loc name
  · rw [he] at h; simp at h
  · rw [hu] at hu'; injection hu' with hu'; subst hu'; rw [hraw] at hd; cases hd
  · rw [hu] at hu'; injection hu' with hu'; subst hu'
    rw [he] at h
    obtain ⟨_, hconv, _, hrows⟩ := build_table hb
    obtain ⟨hrc, hpl, s, hws, rfl, hno, t, htu, hiff⟩ := enter_ok (c := { c with udfs := us }) hw h
    have hrc' : (resolve c (env.parse name)).cat = c.db := hrc
    have hit : IsTable s c.db (resolve c (env.parse name)).sch (resolve c (env.parse name)).tab t := (hiff _ _ _ _).2 (Or.inr ⟨rfl, rfl⟩)
    have htd := (tryDelta_iff { setData { c with udfs := us } u (some d) with cat := s } hws (resolve c (env.parse name)).sch
      (resolve c (env.parse name)).tab hpl u d).2 ⟨t, hit, htu, by simp [setData]⟩
    have hr2 : resolve c (env.parse name) = ⟨c.db, (resolve c (env.parse name)).sch, (resolve c (env.parse name)).tab⟩ := by
      rw [← hrc']
    refine ⟨⟨d, ?_, hconv, hrows⟩, ?_, ?_, ?_, rfl⟩
    · rw [hr2]; exact lookup_of_try htd
    · rw [hrc']; exact hno
    · intro a b m x hne
      show IsTable s a b m x ↔ _
      rw [hiff a b m x]
      constructor
      · rintro (h | ⟨_, h⟩)
        · exact h
        · exact absurd (by rw [hrc']; exact h) hne
      · exact Or.inl
    · intro w hwu
      simp [setData, hwu]

/-- **C98**: whatever the outcome of a CONVERT, every table that could be read before can be read under its name as before,
with the same rows. -/
theorem C98_others (env : Env) (L : Locs) (c : Ctx) (hw : WF c.cat) (loc name : String) (sch tab : String) (u : Nat) (d : Delta)
    (h : tryDelta c ⟨c.db, sch, tab⟩ = .ok (u, d)) :
    tryDelta (convert env L c loc name).1 ⟨c.db, sch, tab⟩ = .ok (u, d) := by
  obtain ⟨us, ⟨e, he⟩ | ⟨_, _, u', co, hu', _, ⟨_, _, he⟩ | ⟨d', hb, he⟩⟩⟩ := convert_cases env L c loc name
  · rw [he]; exact h
  · rw [he]; exact h
  · rw [he, enter_state]
    obtain ⟨_, hpl, x, hx, hxu, hd⟩ := tryDelta_ok _ _ _ _ h
    obtain ⟨⟨hnone, _⟩, _⟩ := build_table hb
    have hne : u ≠ u' := by rintro rfl; rw [hnone] at hd; cases hd
    have hws : WF (createTable c.cat c.db (resolve c (env.parse name)).sch (resolve c (env.parse name)).tab (env.cols d'.schema) u' env.now true).1 := by
      have := C31_step c.cat hw (.createTable c.db (resolve c (env.parse name)).sch (resolve c (env.parse name)).tab (env.cols d'.schema) u' env.now true)
      simpa only [Catalog.exec] using this
    obtain ⟨e1, e2, _, e3⟩ := createTable_any c.cat c.db (resolve c (env.parse name)).sch (resolve c (env.parse name)).tab (env.cols d'.schema) u' env.now true
    refine (tryDelta_iff { setData { c with udfs := us } u' (some d') with cat := _ } hws sch tab hpl u d).2 ⟨x, ?_, hxu, ?_⟩
    · obtain ⟨hx1, hx2, cc, hcc, hx3⟩ := hx
      refine ⟨?_, hx2, cc, ?_, hx3⟩
      · rcases e3 with e3 | ⟨t, e3, _⟩
        · show x ∈ (createTable _ _ _ _ _ _ _ _).1.tabs
          rw [e3]; exact hx1
        · show x ∈ (createTable _ _ _ _ _ _ _ _).1.tabs
          rw [e3]; exact List.mem_append.2 (Or.inl hx1)
      · exact (IsSchema_congr e1 e2 _ _ _).2 hcc
    · simp [setData, hne, hd]

/-- **C98** (partial: for names of the current database outside the reserved schemas, and distinct column names): a CONVERT
that fails changes no name and no other location. -/
theorem C98_failed_partial (env : Env) (L : Locs) (c c' : Ctx) (loc name : String) (e : Err)
    (hcat : (resolve c (env.parse name)).cat = c.db)
    (hp : (resolve c (env.parse name)).sch ≠ "information_schema" ∧ (resolve c (env.parse name)).sch ≠ "system")
    (hcols : ∀ s, distinctNames (env.cols s) = true)
    (h : convert env L c loc name = (c', .error e)) :
    c'.cat = c.cat ∧ c'.ext = c.ext ∧ ∀ w, L.uuid loc ≠ some w → c'.data w = c.data w := by
  obtain ⟨us, ⟨e', he⟩ | ⟨_, _, u', co, hu', _, ⟨_, _, he⟩ | ⟨d', hb, he⟩⟩⟩ := convert_cases env L c loc name
  · rw [he] at h; simp only [Prod.mk.injEq] at h; rw [← h.1]; exact ⟨rfl, rfl, fun _ _ => rfl⟩
  · rw [he] at h; simp at h
  · rw [he] at h
    have hst := enter_state env { c with udfs := us } (resolve c (env.parse name)) u' d'
    rw [h] at hst
    simp only at hst
    refine ⟨?_, by rw [hst]; rfl, ?_⟩
    · unfold enter at h
      split at h
      · rename_i s e1 hct
        simp only [Prod.mk.injEq] at h
        rw [← h.1]
        exact createTable_err (hcols _) hct
      · have hcr : canRegister { c with udfs := us } (resolve c (env.parse name)) = true := by
          simp [canRegister, hcat, hp.1, hp.2]
        simp [hcr] at h
    · intro w hne
      rw [hst]
      have : w ≠ u' := by rintro rfl; exact hne hu'
      simp [setData, this]

/-- **C98**: a directory of Parquet files that make up one table can be converted under any free name of an ordinary
schema. -/
theorem C98_succeeds (env : Env) (L : Locs) (c : Ctx) (hs : Sound env c) (loc name : String) (u s : Nat)
    (hcat : (resolve c (env.parse name)).cat = c.db) (hp : Plain (resolve c (env.parse name)).sch)
    (hsch : ∃ x, IsSchema c.cat c.db (resolve c (env.parse name)).sch x)
    (hnew : ∀ x, ¬ IsTable c.cat c.db (resolve c (env.parse name)).sch (resolve c (env.parse name)).tab x)
    (hu : L.uuid loc = some u) (hraw : Raw L c u) (hconv : Convertible L u s) :
    ∃ c', convert env L c loc name = (c', .ok ()) := by
  obtain ⟨d0, hd0⟩ := hs.db
  have hr := reload_ok env c d0 hd0 hs.fns
  obtain ⟨us, hfr⟩ := reload_frame env c
  obtain ⟨d, hb, hds⟩ := build_of (env := env) hraw hconv hs.create
  rcases hre : reload env c with ⟨c0, e | _⟩
  · rw [hre] at hr; cases hr
  rw [hre] at hfr
  simp only at hfr
  subst hfr
  have hres : resolve { c with udfs := us } (env.parse name) = resolve c (env.parse name) := rfl
  have hbu : build env L { c with udfs := us } u = .table d := hb
  obtain ⟨co, hco⟩ := hsch
  rcases getSchema_cases c.cat c.db (resolve c (env.parse name)).sch hp.2.1 with ⟨x, _, hg⟩ | ⟨hn, _⟩
  rotate_left
  · exact absurd hco (hn co)
  obtain ⟨⟨r, hct⟩, _⟩ := (C32_createTable c.cat hs.wf c.db (resolve c (env.parse name)).sch (resolve c (env.parse name)).tab
    (env.cols d.schema) u env.now true).2.2.2 hp.2.1 ⟨co, hco⟩ hnew (Or.inr ⟨rfl, hs.cols _⟩)
  simp only [convert, hre, hres, convertDelta, hs.store, Bool.not_true, Bool.false_eq_true, if_false, hg, hu, hbu]
  unfold enter
  rcases hct' : createTable c.cat c.db (resolve c (env.parse name)).sch (resolve c (env.parse name)).tab
    (env.cols d.schema) u env.now true with ⟨s', e | y⟩
  · rw [hct'] at hct; simp at hct
  · have hcr : canRegister { c with udfs := us } (resolve c (env.parse name)) = true := by
      simp [canRegister, hcat, hp.1, hp.2.2]
    simp [hct', hcr]

/-- **C98**: what is not a directory of Parquet files that make up one table is refused, and then nothing changes. -/
theorem C98_refused (env : Env) (L : Locs) (c : Ctx) (loc name : String)
    (h : L.uuid loc = none ∨ ∃ u, L.uuid loc = some u ∧ c.data u = none ∧ (L.broken u = true ∨ ∀ s, ¬ Convertible L u s)) :
    ∃ c' e, convert env L c loc name = (c', .error e) ∧ Same c c' := by
  obtain ⟨us, ⟨e', he⟩ | ⟨_, _, u', co, hu', _, ⟨_, hd, he⟩ | ⟨d', hb, he⟩⟩⟩ := convert_cases env L c loc name
  · exact ⟨_, _, he, rfl, rfl, rfl⟩
  · exfalso
    rcases h with h | ⟨u, hu, hn, _⟩
    · rw [h] at hu'; cases hu'
    · rw [hu] at hu'; injection hu' with hu'; subst hu'; rw [hn] at hd; cases hd
  · exfalso
    obtain ⟨⟨_, hbr⟩, hconv, _⟩ := build_table hb
    rcases h with h | ⟨u, hu, _, h | h⟩
    · rw [h] at hu'; cases hu'
    · rw [hu] at hu'; injection hu' with hu'; subst hu'; rw [h] at hbr; cases hbr
    · rw [hu] at hu'; injection hu' with hu'; subst hu'; exact h _ hconv

/-- A CONVERT of a location that already holds a table succeeds and does nothing, whatever the name. -/
theorem C98_violated_already (env : Env) (L : Locs) (c : Ctx) (loc name : String) (u : Nat) (d : Delta) (co : Coll)
    (hst : env.hasStore = true) (hr : (reload env c).2 = .ok ()) (hu : L.uuid loc = some u) (hd : c.data u = some d)
    (hg : getSchema c.cat c.db (resolve c (env.parse name)).sch = .ok co) :
    ∃ c', convert env L c loc name = (c', .ok ()) ∧ Same c c' := by
  obtain ⟨us, hfr⟩ := reload_frame env c
  rcases hre : reload env c with ⟨c0, e | _⟩
  · rw [hre] at hr; cases hr
  rw [hre] at hfr
  simp only at hfr
  subst hfr
  have hres : resolve { c with udfs := us } (env.parse name) = resolve c (env.parse name) := rfl
  have hb : build env L { c with udfs := us } u = .already := by
    simp [build, hd]
  refine ⟨{ c with udfs := us }, ?_, rfl, rfl, rfl⟩
  simp only [convert, hre, hres, convertDelta, hst, Bool.not_true, Bool.false_eq_true, if_false, hg, hu, hb, loadExisting, hd]

/-- **C98**: repeating a successful CONVERT succeeds and changes nothing. -/
theorem C98_repeat (env : Env) (L : Locs) (c c' : Ctx) (loc name : String)
    (h : convert env L c loc name = (c', .ok ())) :
    ∃ c'', convert env L c' loc name = (c'', .ok ()) ∧ Same c' c'' := by
  obtain ⟨us, ⟨e', he⟩ | ⟨hr, hst, u, co, hu, hg, hcase⟩⟩ := convert_cases env L c loc name
  · rw [he] at h; simp at h
  have key : ∀ d, c'.data u = some d → c'.cat.dbs = c.cat.dbs → c'.cat.colls = c.cat.colls → c'.cat.fns = c.cat.fns → c'.db = c.db →
      c'.sch = c.sch → ∃ c'', convert env L c' loc name = (c'', .ok ()) ∧ Same c' c'' := by
    intro d hd h1 h2 h3 h4 h5
    have hres : resolve c' (env.parse name) = resolve c (env.parse name) := by simp only [resolve, h4, h5]
    refine C98_violated_already env L c' loc name u d co hst ?_ hu hd ?_
    · have hl : listFunctions c'.cat c'.db = listFunctions c.cat c.db := by
        simp only [listFunctions, getDb, repoGetDb, h1, h3, h4]
      have : ∀ (fs : List Fn) (a b : Ctx), (registerAll env a fs).2 = (registerAll env b fs).2 := by
        intro fs
        induction fs with
        | nil => intro a b; rfl
        | cons f fs ih =>
          intro a b
          simp only [registerAll]
          split
          · exact ih _ _
          · rfl
      simp only [reload] at hr ⊢
      rw [hl]
      cases hlf : listFunctions c.cat c.db with
      | error e => rw [hlf] at hr; cases hr
      | ok fs =>
        rw [hlf] at hr
        exact (this fs c' c).trans hr
    · have : getSchema c'.cat c'.db (resolve c' (env.parse name)).sch = getSchema c.cat c.db (resolve c (env.parse name)).sch := by
        rw [hres, h4]
        simp only [getSchema, repoGetColl, h1, h2]
      rw [this]; exact hg
  rcases hcase with ⟨d, hd, he⟩ | ⟨d, hb, he⟩
  · rw [he] at h
    simp only [Prod.mk.injEq, and_true] at h
    subst h
    exact key d hd rfl rfl rfl rfl rfl
  · rw [he] at h
    have hes := enter_state env { c with udfs := us } (resolve c (env.parse name)) u d
    rw [h] at hes
    simp only at hes
    obtain ⟨e1, e2, e3, _⟩ := createTable_any c.cat c.db (resolve c (env.parse name)).sch (resolve c (env.parse name)).tab
      (env.cols d.schema) u env.now true
    refine key d ?_ ?_ ?_ ?_ ?_ ?_
    · rw [hes]; simp [setData]
    · rw [hes]; exact e1
    · rw [hes]; exact e2
    · rw [hes]; exact e3
    · rw [hes]; rfl
    · rw [hes]; rfl

/-- Every table has a location of its own, from which it can be loaded. -/
def OneEach (c : Ctx) : Prop := c.cat.tabs.Pairwise (fun a b => a.uuid ≠ b.uuid) ∧ ∀ t ∈ c.cat.tabs, (c.data t.uuid).isSome = true

/-- **C98**: no CONVERT, whatever its outcome, makes two tables share a location, if all tables can be loaded. -/
theorem C98_separate (env : Env) (L : Locs) (c : Ctx) (h : OneEach c) (cmds : List (String × String)) :
    OneEach (cmds.foldl (fun c p => (convert env L c p.1 p.2).1) c) := by
  induction cmds generalizing c with
  | nil => exact h
  | cons p ps ih =>
    simp only [List.foldl_cons]
    apply ih
    obtain ⟨us, ⟨e', he⟩ | ⟨_, _, u, co, _, _, ⟨_, _, he⟩ | ⟨d, hb, he⟩⟩⟩ := convert_cases env L c p.1 p.2
    · rw [he]; exact h
    · rw [he]; exact h
    · rw [he, enter_state]
      obtain ⟨⟨hnone, _⟩, _⟩ := build_table hb
      obtain ⟨_, _, _, e3⟩ := createTable_any c.cat c.db (resolve c (env.parse p.2)).sch (resolve c (env.parse p.2)).tab
        (env.cols d.schema) u env.now true
      have hne : ∀ t ∈ c.cat.tabs, t.uuid ≠ u := by
        rintro t ht rfl
        have := h.2 t ht
        rw [hnone] at this
        cases this
      rcases e3 with e3 | ⟨t, e3, htu, _⟩
      · refine ⟨?_, ?_⟩
        · show (createTable _ _ _ _ _ _ _ _).1.tabs.Pairwise _
          rw [e3]; exact h.1
        · intro x hx
          have hx' : x ∈ c.cat.tabs := by rw [← e3]; exact hx
          simp [setData, hne x hx', h.2 x hx']
      · refine ⟨?_, ?_⟩
        · show (createTable _ _ _ _ _ _ _ _).1.tabs.Pairwise _
          rw [e3]
          exact pairwise_snoc h.1 (fun b hb => by rw [htu]; exact hne b hb)
        · intro x hx
          have hx' : x ∈ c.cat.tabs ++ [t] := by rw [← e3]; exact hx
          rcases List.mem_append.1 hx' with hx' | hx'
          · simp [setData, hne x hx', h.2 x hx']
          · rw [List.mem_singleton.1 hx', htu]
            simp [setData]

/-! ### examples -/

/-- Directory 500 has two Parquet files and another object; 501 is partitioned; 502 is empty. -/
def exLocs : Locs :=
  { uuid := fun s => if s = "u500" then some 500 else if s = "u501" then some 501 else if s = "u502" then some 502
      else if s = "u77" then some 77 else none
    files := fun u =>
      if u = 500 then [⟨true, false, 1, [7, 8]⟩, ⟨false, false, 9, [99]⟩, ⟨true, false, 1, [8]⟩]
      else if u = 501 then [⟨true, true, 1, [7]⟩]
      else if u = 77 then [⟨true, false, 1, [10]⟩]
      else []
    broken := fun _ => false
    merge := fun l => l.head? }

theorem exConvertible : Convertible exLocs 500 1 := by
  refine ⟨⟨⟨true, false, 1, [7, 8]⟩, by simp [exLocs], rfl⟩, ?_, by rfl⟩
  intro f hf _
  simp only [exLocs, if_true, List.mem_cons, List.not_mem_nil, or_false] at hf
  rcases hf with rfl | rfl | rfl <;> rfl

/-- Converting directory 500 as `n`. -/
example : ∃ c', convert exEnv exLocs exCtx "u500" "n" = (c', .ok ()) ∧
    (∃ d, lookup c' ⟨"default", "public", "n"⟩ = .ok (.delta 500 d) ∧ d.rows.count 8 = 2 ∧ d.rows.count 99 = 0) ∧
    lookup c' ⟨"default", "public", "t"⟩ = .ok (.delta 77 ⟨1, [10]⟩) := by
  have hno : ∀ x, ¬ IsTable exCat "default" "public" "n" x := by
    rintro x ⟨h1, h2, _⟩
    simp only [exCat, List.mem_cons, List.not_mem_nil, or_false] at h1
    rcases h1 with rfl | rfl <;> simp at h2
  obtain ⟨c', h⟩ := C98_succeeds exEnv exLocs exCtx exSound "u500" "n" 500 1 rfl
    ⟨by simp [resolve, exCtx, exEnv], by simp [resolve, exCtx, exEnv], by simp [resolve, exCtx, exEnv]⟩
    ⟨⟨1, 1, "public"⟩, by simp [exCtx, exCat], rfl, ⟨1, "default"⟩, ⟨by simp [exCtx, exCat], rfl⟩, rfl⟩ hno rfl ⟨rfl, rfl⟩ exConvertible
  obtain ⟨⟨d, hl, _, hc⟩, _⟩ := C98_converted exEnv exLocs exCtx c' wf_exCat "u500" "n" 500 rfl rfl h
  have hc' : c' = (convert exEnv exLocs exCtx "u500" "n").1 := by rw [h]
  refine ⟨c', h, ⟨d, hl, (hc 8).trans (by decide +kernel), (hc 99).trans (by decide +kernel)⟩, ?_⟩
  rw [hc']
  decide +kernel

/-- Refused directories, and a failure. -/
example : (convert exEnv exLocs exCtx "u501" "n").2 = .error .write ∧ (convert exEnv exLocs exCtx "u502" "n").2 = .error .write ∧
    (convert exEnv exLocs exCtx "x" "n").2 = .error .plan ∧
    (convert exEnv exLocs exCtx "u500" "t").2 = .error (.cat (.tableAlreadyExists "t")) ∧ OneEach exCtx := by
  refine ⟨by decide +kernel, by decide +kernel, by decide +kernel, by decide +kernel, by decide +kernel, ?_⟩
  intro t ht
  simp only [exCtx, exCat, List.mem_cons, List.not_mem_nil, or_false] at ht
  rcases ht with rfl | rfl <;> rfl

/-- **C98**, violated: after a CONVERT failed because its name was taken, the directory is a Delta table that no name denotes;
the same CONVERT with a free name is reported as done, and the name denotes nothing. -/
theorem C98_violated_retry :
    let c1 := (convert exEnv exLocs exCtx "u500" "t")
    let c2 := (convert exEnv exLocs c1.1 "u500" "n")
    c1.2 = .error (.cat (.tableAlreadyExists "t")) ∧ c1.1.data 500 = some ⟨1, [7, 8, 8]⟩ ∧
    c2.2 = .ok () ∧ lookup c2.1 ⟨"default", "public", "n"⟩ = .error .noTable := by decide +kernel

/-- **C98**, violated: a second name for a converted directory is reported as done and denotes nothing. -/
theorem C98_violated_second_name :
    let c1 := (convert exEnv exLocs exCtx "u500" "n")
    let c2 := (convert exEnv exLocs c1.1 "u500" "m")
    c1.2 = .ok () ∧ c2.2 = .ok () ∧ lookup c2.1 ⟨"default", "public", "m"⟩ = .error .noTable := by decide +kernel

/-- Whatever the state: a CONVERT of a location that already holds a table to a name that denotes nothing is reported as
done, and the name still denotes nothing. -/
theorem C98_violated_name (env : Env) (L : Locs) (c : Ctx) (loc name : String) (u : Nat) (d : Delta) (co : Coll)
    (hst : env.hasStore = true) (hr : (reload env c).2 = .ok ()) (hu : L.uuid loc = some u) (hd : c.data u = some d)
    (hg : getSchema c.cat c.db (resolve c (env.parse name)).sch = .ok co)
    (hcat : (resolve c (env.parse name)).cat = c.db) (hp : Plain (resolve c (env.parse name)).sch)
    (hnew : ∀ x, ¬ IsTable c.cat c.db (resolve c (env.parse name)).sch (resolve c (env.parse name)).tab x) :
    ∃ c', convert env L c loc name = (c', .ok ()) ∧ Same c c' ∧
      lookup c' (resolve c (env.parse name)) = .error .noTable := by
  obtain ⟨us, hfr⟩ := reload_frame env c
  rcases hre : reload env c with ⟨c0, e | _⟩
  · rw [hre] at hr; cases hr
  rw [hre] at hfr
  simp only at hfr
  subst hfr
  have hres : resolve { c with udfs := us } (env.parse name) = resolve c (env.parse name) := rfl
  have hb : build env L { c with udfs := us } u = .already := by
    simp [build, hd]
  refine ⟨{ c with udfs := us }, ?_, ⟨rfl, rfl, rfl⟩, ?_⟩
  · simp only [convert, hre, hres, convertDelta, hst, Bool.not_true, Bool.false_eq_true, if_false, hg, hu, hb, loadExisting, hd]
  · rcases getTable_cases c.cat c.db (resolve c (env.parse name)).sch (resolve c (env.parse name)).tab with ⟨x, h1, _⟩ | ⟨_, h2⟩
    · exact absurd h1 (hnew x)
    · obtain ⟨p1, p2, p3⟩ := hp
      simp [lookup, hcat, p1, p2, p3, h2]

/-- **C98**, the hypothesis of `C98_separate` is needed: a DROP SCHEMA that fails after it deleted the log of a table leaves
the name of the table in the catalog; a CONVERT of the directory makes a second name for it, and both share the rows. -/
theorem C98_violated_shared :
    let env := { exEnv with delOk := fun _ => false, left := fun _ => none }
    let c1 := exec env exCtx (.dropSchema none "public" false)
    let c2 := convert exEnv exLocs c1.1 "u77" "n"
    c1.2 = .error .del ∧ c2.2 = .ok () ∧ lookup c2.1 ⟨"default", "public", "n"⟩ = .ok (.delta 77 ⟨1, [10]⟩) ∧
    lookup c2.1 ⟨"default", "public", "t"⟩ = .ok (.delta 77 ⟨1, [10]⟩) := by decide +kernel

end Seafowl.Ddl
