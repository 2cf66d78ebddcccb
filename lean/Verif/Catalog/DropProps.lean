import Verif.Catalog.CatalogProps

/-!
# Dropping (C35) and functions (C37)
-/

namespace Seafowl.Catalog

set_option linter.unusedSimpArgs false

/-! ### C35 -/

/-- Version `v` belongs to a table that satisfies `p`. -/
def VerOf (s : Cat) (p : Tab → Prop) (v : Ver) : Prop := ∃ t ∈ s.tabs, p t ∧ t.id = v.tableId

/-- Column `c` belongs to a table that satisfies `p`. -/
def ColOf (s : Cat) (p : Tab → Prop) (c : Col) : Prop := ∃ v ∈ s.vers, VerOf s p v ∧ v.id = c.verId

/-- `s'` is `s` without the databases, schemas and tables that satisfy `pd`, `pc`, `pt`, without the
versions and columns of those tables and without the functions that satisfy `pf`. -/
structure Without (s s' : Cat) (pd : Db → Prop) (pc : Coll → Prop) (pt : Tab → Prop) (pf : Fn → Prop) : Prop where
  dbs : ∀ x, x ∈ s'.dbs ↔ x ∈ s.dbs ∧ ¬ pd x
  colls : ∀ x, x ∈ s'.colls ↔ x ∈ s.colls ∧ ¬ pc x
  tabs : ∀ x, x ∈ s'.tabs ↔ x ∈ s.tabs ∧ ¬ pt x
  vers : ∀ x, x ∈ s'.vers ↔ x ∈ s.vers ∧ ¬ VerOf s pt x
  cols : ∀ x, x ∈ s'.cols ↔ x ∈ s.cols ∧ ¬ ColOf s pt x
  fns : ∀ x, x ∈ s'.fns ↔ x ∈ s.fns ∧ ¬ pf x

theorem without_dropTabs (s : Cat) (gone : Tab → Bool) :
    Without s (dropTabs s gone) (fun _ => False) (fun _ => False) (fun t => gone t = true) (fun _ => False) := by
  constructor
  · intro x; simp [dropTabs, dropVers]
  · intro x; simp [dropTabs, dropVers]
  · intro x; simp [dropTabs, dropVers]
  · intro x
    simp only [dropTabs, dropVers, List.mem_filter, Bool.not_eq_true', VerOf, and_congr_right_iff]
    intro _
    rw [← Bool.not_eq_true, List.any_eq_true]
    simp
  · intro x
    simp only [dropTabs, dropVers, List.mem_filter, Bool.not_eq_true', ColOf, VerOf, and_congr_right_iff]
    intro _
    rw [← Bool.not_eq_true, List.any_eq_true]
    simp
  · intro x; simp [dropTabs, dropVers]

theorem without_dropColls (s : Cat) (gone : Coll → Bool) :
    Without s (dropColls s gone) (fun _ => False) (fun c => gone c = true)
      (fun t => ∃ c ∈ s.colls, gone c = true ∧ c.id = t.collId) (fun _ => False) := by
  have h := without_dropTabs s (fun t => s.colls.any (fun c => gone c && c.id == t.collId))
  have he : (fun t : Tab => s.colls.any (fun c => gone c && c.id == t.collId) = true) =
      (fun t => ∃ c ∈ s.colls, gone c = true ∧ c.id = t.collId) := by
    funext t
    simp [List.any_eq_true]
  rw [he] at h
  exact { h with
    colls := by intro x; simp [dropColls, dropTabs, dropVers] }

/-- **C35** for tables: exactly the table, its versions and its columns go. -/
theorem C35_table (s s' : Cat) (h : WF s) (db sch n : String) (hr : deleteTable s db sch n = (s', .ok ())) :
    ∃ t, IsTable s db sch n t ∧ Without s s' (fun _ => False) (fun _ => False) (fun x => x = t) (fun _ => False) := by
  rcases getTable_cases s db sch n with ⟨t, ht, hg⟩ | ⟨_, hg⟩
  · refine ⟨t, ht, ?_⟩
    have hany : s.tabs.any (·.id == t.id) = true := List.any_eq_true.2 ⟨t, ht.1, by simp⟩
    simp only [deleteTable, hg, repoDeleteTab, hany, if_true, Prod.mk.injEq, and_true] at hr
    subst hr
    have hw := without_dropTabs s (·.id == t.id)
    have hiff : ∀ x ∈ s.tabs, ((x.id == t.id) = true ↔ x = t) := by
      intro x hx
      simp only [beq_iff_eq]
      exact ⟨fun e => eq_of_pairwise h.tabIds hx ht.1 (by simp [e]) (by simp [e]), fun e => by rw [e]⟩
    have hvo : ∀ v, VerOf s (fun x => (x.id == t.id) = true) v ↔ VerOf s (fun x => x = t) v := by
      intro v
      constructor
      · rintro ⟨x, hx, h1, h2⟩; exact ⟨x, hx, (hiff x hx).1 h1, h2⟩
      · rintro ⟨x, hx, h1, h2⟩; exact ⟨x, hx, (hiff x hx).2 h1, h2⟩
    refine { hw with tabs := ?_, vers := ?_, cols := ?_ }
    · intro x
      rw [hw.tabs x]
      exact and_congr_right (fun hx => not_congr (hiff x hx))
    · intro x
      rw [hw.vers x, hvo]
    · intro x
      rw [hw.cols x]
      have : ColOf s (fun x => (x.id == t.id) = true) x ↔ ColOf s (fun x => x = t) x := by
        simp only [ColOf, hvo]
      rw [this]
  · simp [deleteTable, hg] at hr

/-- **C35** for schemas: exactly the schema and its tables with versions and columns go. -/
theorem C35_schema (s s' : Cat) (h : WF s) (db n : String) (hr : deleteSchema s db n = (s', .ok ())) :
    ∃ c, IsSchema s db n c ∧
      Without s s' (fun _ => False) (fun x => x = c) (fun t => t.collId = c.id) (fun _ => False) := by
  by_cases hst : n = staging
  · simp [deleteSchema, getSchema, hst] at hr
  rcases getSchema_cases s db n hst with ⟨c, hc, hg⟩ | ⟨_, hg⟩
  · refine ⟨c, hc, ?_⟩
    have hany : s.colls.any (·.id == c.id) = true := List.any_eq_true.2 ⟨c, hc.1, by simp⟩
    simp only [deleteSchema, hg, repoDeleteColl, hany, if_true, Prod.mk.injEq, and_true] at hr
    subst hr
    have hw := without_dropColls s (·.id == c.id)
    have he : (fun t : Tab => ∃ x ∈ s.colls, (x.id == c.id) = true ∧ x.id = t.collId) = (fun t => t.collId = c.id) := by
      funext t
      simp only [beq_iff_eq, eq_iff_iff]
      constructor
      · rintro ⟨x, _, h1, h2⟩; rw [← h2, h1]
      · intro e; exact ⟨c, hc.1, rfl, e.symm⟩
    rw [he] at hw
    refine { hw with colls := ?_ }
    intro x
    rw [hw.colls x]
    refine and_congr_right (fun hx => not_congr ?_)
    simp only [beq_iff_eq]
    exact ⟨fun e => eq_of_pairwise h.collIds hx hc.1 (by simp [e]) (by simp [e]), fun e => by rw [e]⟩
  · simp [deleteSchema, hg] at hr

/-- **C35** for databases: exactly the database, its schemas with their tables and its functions go. -/
theorem C35_database (s s' : Cat) (h : WF s) (n : String) (hr : deleteDb s n = (s', .ok ())) :
    ∃ d, IsDb s n d ∧
      Without s s' (fun x => x = d) (fun c => c.dbId = d.id) (fun t => ∃ c ∈ s.colls, c.dbId = d.id ∧ c.id = t.collId)
        (fun f => f.dbId = d.id) := by
  rcases getDb_cases s n with ⟨d, hd, hg⟩ | ⟨_, hg⟩
  · refine ⟨d, hd, ?_⟩
    have hany : s.dbs.any (·.id == d.id) = true := List.any_eq_true.2 ⟨d, hd.1, by simp⟩
    simp only [deleteDb, hg, repoDeleteDb, hany, if_true, Prod.mk.injEq, and_true] at hr
    subst hr
    have hw := without_dropColls s (·.dbId == d.id)
    have he : (fun t : Tab => ∃ x ∈ s.colls, (x.dbId == d.id) = true ∧ x.id = t.collId) =
        (fun t => ∃ c ∈ s.colls, c.dbId = d.id ∧ c.id = t.collId) := by
      funext t; simp
    have he2 : (fun c : Coll => (c.dbId == d.id) = true) = (fun c => c.dbId = d.id) := by
      funext c; simp
    rw [he, he2] at hw
    refine { hw with dbs := ?_, fns := ?_ }
    · intro x
      simp only [List.mem_filter, bne_iff_ne, ne_eq]
      rw [hw.dbs x]
      simp only [not_false_eq_true, and_true]
      refine and_congr_right (fun hx => not_congr ?_)
      exact ⟨fun e => eq_of_pairwise h.dbIds hx hd.1 (by simp [e]) (by simp [e]), fun e => by rw [e]⟩
    · intro x
      simp only [List.mem_filter, bne_iff_ne, ne_eq]
      rw [hw.fns x]
      simp
  · simp [deleteDb, hg] at hr

/-- **C35**, seen through names: after dropping a table every other table is found as before. -/
theorem C35_other_tables (s s' : Cat) (h : WF s) (db sch n : String) (hr : deleteTable s db sch n = (s', .ok ()))
    (db' sch' n' : String) (u : Tab) :
    IsTable s' db' sch' n' u ↔ IsTable s db' sch' n' u ∧ (db', sch', n') ≠ (db, sch, n) := by
  obtain ⟨t, ht, hw⟩ := C35_table s s' h db sch n hr
  have hdb : ∀ m d, IsDb s' m d ↔ IsDb s m d := by
    intro m d; simp only [IsDb, hw.dbs]; simp
  have hsch : ∀ a b c, IsSchema s' a b c ↔ IsSchema s a b c := by
    intro a b c; simp only [IsSchema, hw.colls, hdb]; simp
  simp only [IsTable, hw.tabs, hsch]
  constructor
  · rintro ⟨⟨h1, h2⟩, h3, c, hc, h4⟩
    refine ⟨⟨h1, h3, c, hc, h4⟩, ?_⟩
    intro e
    simp only [Prod.mk.injEq] at e
    obtain ⟨rfl, rfl, rfl⟩ := e
    exact h2 (IsTable_unique h ⟨h1, h3, c, hc, h4⟩ ht)
  · rintro ⟨⟨h1, h3, c, hc, h4⟩, hne⟩
    refine ⟨⟨h1, ?_⟩, h3, c, hc, h4⟩
    rintro rfl
    apply hne
    obtain ⟨_, e3, c', hc', h4'⟩ := ht
    have : c = c' := eq_of_pairwise h.collIds hc.1 hc'.1 (by simp [h4, h4']) (by simp [h4, h4'])
    subst this
    obtain ⟨_, e2, d, hd, hd2⟩ := hc
    obtain ⟨_, e2', d', hd', hd2'⟩ := hc'
    have : d = d' := eq_of_pairwise h.dbIds hd.1 hd'.1 (by simp [hd2, hd2']) (by simp [hd2, hd2'])
    subst this
    rw [← hd.2, ← hd'.2, ← e2, ← e2', ← h3, ← e3]

/-- Dropping the schema `public` of the example leaves `s2.t` with its version and column. -/
example : (deleteSchema exCat "default" "public").2 = .ok () ∧
    (deleteSchema exCat "default" "public").1 =
      { exCat with colls := [⟨2, 1, "s2"⟩], tabs := [⟨2, 2, "t", 79⟩], vers := [⟨2, 2, 0, 102⟩], cols := [⟨2, "x", "int"⟩] } := by
  decide +kernel

/-! ### C37 -/

/-- **C37**: a plain `CREATE FUNCTION` of a new name adds exactly that function, and `CREATE OR REPLACE`
of an existing one changes exactly its definition. -/
theorem C37_create (s s' : Cat) (h : WF s) (db n : String) (o : Bool) (det : String)
    (hr : createFunction s db n o det = (s', .ok ())) :
    (∃ f, IsFn s' db n f ∧ f.details = det ∧ (∀ g, IsFn s db n g → f.id = g.id ∧ f.dbId = g.dbId)) ∧
    (∀ db' n' g, (db', n') ≠ (db, n) → (IsFn s' db' n' g ↔ IsFn s db' n' g)) ∧
    s'.dbs = s.dbs ∧ s'.colls = s.colls ∧ s'.tabs = s.tabs ∧ s'.vers = s.vers ∧ s'.cols = s.cols ∧
    ((∃ g, IsFn s db n g) → o = true) := by
  have hex := (C32_createFunction s h db n o det).2.1
  rcases getDb_cases s db with ⟨d, hd, hg⟩ | ⟨_, hg⟩
  · have key : ∀ db' x, IsDb s db' x → x.id = d.id → db' = db := by
      intro db' x hx e
      have : x = d := eq_of_pairwise h.dbIds hx.1 hd.1 (by simp [e]) (by simp [e])
      rw [← hx.2, ← hd.2, this]
    have hlast : (∃ g, IsFn s db n g) → o = true := by
      intro hg2
      cases o with
      | true => rfl
      | false => rw [hex hg2 rfl] at hr; simp at hr
    simp only [createFunction, hg, repoCreateFn] at hr
    cases hf : s.fns.find? (fun f => f.name == n && f.dbId == d.id) with
    | some f =>
      obtain ⟨hf1, hf2⟩ := find_some hf
      simp only [Bool.and_eq_true, beq_iff_eq] at hf2
      have ho : o = true := hlast ⟨f, hf1, hf2.1, d, hd, hf2.2.symm⟩
      simp only [hf, ho, if_true, Prod.mk.injEq, and_true] at hr
      subst hr
      refine ⟨⟨{ f with details := det }, ⟨List.mem_map.2 ⟨f, hf1, by simp⟩, hf2.1, d, hd, hf2.2.symm⟩, rfl, ?_⟩, ?_, rfl, rfl, rfl, rfl, rfl, hlast⟩
      · intro g hgf
        have : f = g := IsFn_unique h ⟨hf1, hf2.1, d, hd, hf2.2.symm⟩ hgf
        subst this
        exact ⟨rfl, rfl⟩
      · intro db' n' g hne
        have hgid : ∀ x : Db, IsDb s db' x → x.id = g.dbId → g.name = n' → g.dbId = f.dbId → g.name = f.name → False := by
          intro x hx e1 e2 e3 e4
          apply hne
          rw [key db' x hx (by rw [e1, e3, hf2.2]), ← e2, e4, hf2.1]
        constructor
        · rintro ⟨h1, h2, x, hx, h3⟩
          obtain ⟨w, hw, rfl⟩ := List.mem_map.1 h1
          by_cases e : w.id = f.id
          · have : w = f := eq_of_pairwise h.fnIds hw hf1 (by simp [e]) (by simp [e])
            subst this
            simp only [if_true] at h2 h3
            exact (hgid x hx (by simpa using h3) (by simpa using h2) (by simp) (by simp)).elim
          · simp only [if_neg e] at h2 h3 ⊢
            exact ⟨hw, h2, x, hx, h3⟩
        · rintro ⟨h1, h2, x, hx, h3⟩
          refine ⟨List.mem_map.2 ⟨g, h1, ?_⟩, h2, x, hx, h3⟩
          rw [if_neg]
          intro e
          have : g = f := eq_of_pairwise h.fnIds h1 hf1 (by simp [e]) (by simp [e])
          subst this
          exact hgid x hx h3 h2 rfl rfl
    | none =>
      have hfk : s.dbs.any (·.id == d.id) = true := List.any_eq_true.2 ⟨d, hd.1, by simp⟩
      simp only [hf, hfk, Bool.not_true, Bool.false_eq_true, if_false, Prod.mk.injEq, and_true] at hr
      subst hr
      rw [List.find?_eq_none] at hf
      refine ⟨⟨_, ⟨List.mem_append.2 (Or.inr (List.mem_singleton.2 rfl)), rfl, d, hd, rfl⟩, rfl, ?_⟩, ?_, rfl, rfl, rfl, rfl, rfl, hlast⟩
      · rintro g ⟨h1, h2, x, hx, h3⟩
        have := IsDb_unique h hd hx
        subst this
        exact absurd (by simp [h2, h3]) (hf g h1)
      · intro db' n' g hne
        constructor
        · rintro ⟨h1, h2, x, hx, h3⟩
          rcases List.mem_append.1 h1 with h1 | h1
          · exact ⟨h1, h2, x, hx, h3⟩
          · simp only [List.mem_singleton] at h1
            subst h1
            exact absurd (by rw [key db' x hx h3]; simp at h2; rw [h2]) hne
        · rintro ⟨h1, h2, x, hx, h3⟩
          exact ⟨List.mem_append.2 (Or.inl h1), h2, x, hx, h3⟩
  · simp [createFunction, hg] at hr

/-- **C37** (`_partial`: for a single name): `DROP FUNCTION f` removes exactly `f`; without such a function
it fails, unless `IF EXISTS` was given, and changes nothing. -/
theorem C37_drop_partial (s : Cat) (h : WF s) (db n : String) (i : Bool) :
    ((∃ f, IsFn s db n f) → (deleteFunctions s db i [n]).2 = .ok () ∧
      ∀ db' n' g, IsFn (deleteFunctions s db i [n]).1 db' n' g ↔ IsFn s db' n' g ∧ (db', n') ≠ (db, n)) ∧
    ((∃ d, IsDb s db d) → (∀ f, ¬ IsFn s db n f) →
      deleteFunctions s db i [n] = (s, if i then .ok () else .error (.functionNotFound [n]))) := by
  rcases getDb_cases s db with ⟨d, hd, hg⟩ | ⟨hno, hg⟩
  · have key : ∀ db' x, IsDb s db' x → x.id = d.id → db' = db := by
      intro db' x hx e
      have : x = d := eq_of_pairwise h.dbIds hx.1 hd.1 (by simp [e]) (by simp [e])
      rw [← hx.2, ← hd.2, this]
    constructor
    · rintro ⟨f, hf1, hf2, x, hx, hx3⟩
      have := IsDb_unique h hd hx
      subst this
      have hany : s.fns.any (fun f => f.dbId == d.id && ([n].map (fun _ => [n].head?)).contains (some f.name)) = true :=
        List.any_eq_true.2 ⟨f, hf1, by simp [hf2, hx3]⟩
      simp only [deleteFunctions, hg, repoDropFn, hany, if_true]
      refine ⟨trivial, ?_⟩
      intro db' n' g
      simp only [IsFn, List.mem_filter, IsDb]
      constructor
      · rintro ⟨⟨h1, h2⟩, h3, y, hy, h4⟩
        refine ⟨⟨h1, h3, y, hy, h4⟩, ?_⟩
        intro e
        simp only [Prod.mk.injEq] at e
        obtain ⟨rfl, rfl⟩ := e
        have : d = y := IsDb_unique h hd hy
        subst this
        simp [h3, h4] at h2
      · rintro ⟨⟨h1, h3, y, hy, h4⟩, hne⟩
        refine ⟨⟨h1, ?_⟩, h3, y, hy, h4⟩
        simp only [List.map_cons, List.head?_cons, List.map_nil, List.contains_cons, List.contains_nil, Bool.or_false,
          Bool.not_eq_true', Bool.and_eq_false_iff, beq_eq_false_iff_ne, ne_eq, Option.some.injEq]
        by_cases e : g.dbId = d.id
        · right
          intro e2
          apply hne
          rw [key db' y hy (by rw [h4, e]), ← h3, e2]
        · exact Or.inl e
    · intro _ hno
      have hany : s.fns.any (fun f => f.dbId == d.id && ([n].map (fun _ => [n].head?)).contains (some f.name)) = false := by
        rw [List.any_eq_false]
        intro f hf e
        simp at e
        exact hno f ⟨hf, e.2, d, hd, e.1.symm⟩
      simp only [deleteFunctions, hg, repoDropFn, hany, Bool.false_eq_true, if_false]
      cases i <;> simp
  · constructor
    · rintro ⟨f, _, _, x, hx, _⟩; exact absurd hx (hno x)
    · rintro ⟨x, hx⟩; exact absurd hx (hno x)

/-- **C37 does not hold** for lists of names: `DROP FUNCTION f, g` reports success and leaves `g`. -/
theorem C37_violated : (∃ f, IsFn exCat "default" "g" f) ∧
    (deleteFunctions exCat "default" false ["f", "g"]).2 = .ok () ∧
    (∃ f, IsFn (deleteFunctions exCat "default" false ["f", "g"]).1 "default" "g" f) := by
  refine ⟨⟨⟨2, 1, "g", "d2"⟩, by decide +kernel, rfl, ⟨1, "default"⟩, ⟨by decide +kernel, rfl⟩, rfl⟩, by decide +kernel,
    ⟨2, 1, "g", "d2"⟩, by decide +kernel, rfl, ⟨1, "default"⟩, ⟨by decide +kernel, rfl⟩, rfl⟩

/-- **C37 does not hold** for lists of names, in every state: `DROP FUNCTION f, …` does what `DROP FUNCTION f` does,
whatever the other names. -/
theorem C37_first_only (s : Cat) (db n : String) (i : Bool) (rest : List String) :
    (deleteFunctions s db i (n :: rest)).1 = (deleteFunctions s db i [n]).1 ∧
    ((deleteFunctions s db i (n :: rest)).2 = .ok () ↔ (deleteFunctions s db i [n]).2 = .ok ()) := by
  have hhit : ∀ f : Fn, ((n :: rest).map (fun _ => (n :: rest).head?)).contains (some f.name) =
      ([n].map (fun _ => [n].head?)).contains (some f.name) := by
    intro f
    have h1 : ∀ l : List String, (l.map (fun _ => some n)).contains (some f.name) = true → f.name = n := by
      intro l h
      rw [List.contains_iff_mem, List.mem_map] at h
      obtain ⟨_, _, e⟩ := h
      exact (Option.some.inj e).symm
    by_cases e : f.name = n
    · simp [e]
    · have h2 : ((n :: rest).map (fun _ => (n :: rest).head?)).contains (some f.name) = false := by
        cases hc : ((n :: rest).map (fun _ => (n :: rest).head?)).contains (some f.name) with
        | false => rfl
        | true => exact absurd (h1 _ hc) e
      have h3 : ([n].map (fun _ => [n].head?)).contains (some f.name) = false := by
        cases hc : ([n].map (fun _ => [n].head?)).contains (some f.name) with
        | false => rfl
        | true => exact absurd (h1 _ hc) e
      rw [h2, h3]
  unfold deleteFunctions
  cases getDb s db with
  | error e => exact ⟨rfl, Iff.rfl⟩
  | ok d =>
    simp only [repoDropFn, hhit]
    cases hany : s.fns.any (fun f => f.dbId == d.id && ([n].map (fun _ => [n].head?)).contains (some f.name)) with
    | true => simp
    | false => cases i <;> simp

/-- So whenever the first function exists, the statement succeeds and every other function named is still there. -/
theorem C37_violated_always (s : Cat) (h : WF s) (db n m : String) (i : Bool) (rest : List String) (hn : ∃ f, IsFn s db n f)
    (g : Fn) (hm : IsFn s db m g) (hne : m ≠ n) :
    (deleteFunctions s db i (n :: rest)).2 = .ok () ∧ IsFn (deleteFunctions s db i (n :: rest)).1 db m g := by
  obtain ⟨h1, h2⟩ := (C37_drop_partial s h db n i).1 hn
  obtain ⟨e1, e2⟩ := C37_first_only s db n i rest
  rw [e1]
  exact ⟨e2.2 h1, (h2 db m g).2 ⟨hm, by simp [hne]⟩⟩

/-- `CREATE OR REPLACE` of `f` in the example. -/
example : createFunction exCat "default" "f" true "d9" = ({ exCat with fns := [⟨1, 1, "f", "d9"⟩, ⟨2, 1, "g", "d2"⟩] }, .ok ()) := by
  decide +kernel

end Seafowl.Catalog
