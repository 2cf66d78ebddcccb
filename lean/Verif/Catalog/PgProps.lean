import Verif.Catalog.PgInv
import Verif.Catalog.HistProps

/-!
# C139: a catalog in PostgreSQL shows what one in SQLite shows

The same operations are performed on both.  The specification compares what can be seen through the stores: the errors, the
listing, the functions, the tables by name and the versions.
-/

namespace Seafowl.Catalog

set_option linter.unusedSimpArgs false
set_option linter.unusedVariables false

/-! ### specification -/

/-- The functions of a database, without identifiers. -/
def seenFunctions (s : Cat) (db : String) : Option (List (String × String)) :=
  match listFunctions s db with
  | .ok fs => some (fs.map fun f => (f.name, f.details))
  | .error _ => none

/-- The uuid of a table. -/
def seenTable (s : Cat) (db sch n : String) : Option Nat :=
  match getTable s db sch n with
  | .ok t => some t.uuid
  | .error _ => none

/-- The versions, without identifiers, with the given view of the time. -/
def seenVersions (view : Int → Int) (s : Cat) (db : String) (names : Option (List String)) : List (String × String × String × Int × Int) :=
  (allVersions s db names).map fun r => (r.db, r.coll, r.table, r.version, view r.time)

/-- A history PostgreSQL can have: what the sequences give is larger than all identifiers in use, the clock is not behind the
versions in use, and `DROP FUNCTION` names a function. -/
def Admissible (p : Cat) : List (Ids × Op) → Prop
  | [] => True
  | (i, op) :: rest => Fresh p i ∧ OpOk p op ∧ Admissible ((postgres i).exec p op).1 rest

/-! ### the histories go together -/

theorem ren_history : ∀ (hist : List (Ids × Op)) (r : Ren) (p : Cat), Good r p → Admissible p hist →
    ∃ r' : Ren, (sqliteHistory (r.cat p) (hist.map (·.2))).1 = r'.cat (pgHistory p hist).1 ∧
      (sqliteHistory (r.cat p) (hist.map (·.2))).2 = (pgHistory p hist).2 ∧ Good r' (pgHistory p hist).1
  | [], r, p, g, _ => ⟨r, rfl, rfl, g⟩
  | (i, op) :: rest, r, p, g, h => by
    obtain ⟨h1, h2, h3⟩ := h
    obtain ⟨r1, a, b, c⟩ := ren_step g i h1 op h2
    obtain ⟨r2, a2, b2, c2⟩ := ren_history rest r1 _ c h3
    refine ⟨r2, ?_, ?_, c2⟩
    · simp only [List.map_cons, sqliteHistory, pgHistory, a]
      exact a2
    · simp only [List.map_cons, sqliteHistory, pgHistory, a, b, b2]

/-- The empty catalog. -/
theorem good_empty : Good ⟨id, id, id, id, id⟩ {} := by
  constructor <;> intro x hx <;> simp at hx

theorem ren_empty (r : Ren) : r.cat {} = {} := rfl

/-! ### what is seen -/

theorem pgLatest_eq {p : Cat} (ho : ∀ w ∈ p.vers, ∀ v ∈ p.vers, w.id ≤ v.id → w.time ≤ v.time) (t : Nat) : pgLatest p t = latest p t := by
  simp only [pgLatest]
  cases e : p.vers.find? (fun v => v.tableId == t && isNewest p.vers v) with
  | some v =>
    obtain ⟨hv, h⟩ := find_some e
    simp only [Bool.and_eq_true, beq_iff_eq] at h
    symm
    rw [Option.map_some, latest_iff]
    refine ⟨v, ⟨hv, h.1, ?_⟩, rfl⟩
    intro w hw ht
    have := h.2
    rw [newest_ids ho hv, List.all_eq_true] at this
    have := this w hw
    simp only [Bool.or_eq_true, bne_iff_ne, decide_eq_true_eq] at this
    rcases this with x | x
    · exact absurd (ht.trans h.1.symm) x
    · exact x
  | none =>
    cases e2 : latest p t with
    | none => rfl
    | some m =>
      obtain ⟨v, ⟨hv, ht, hm⟩, _⟩ := (latest_iff p t m).1 e2
      have := (List.find?_eq_none.1 e) v hv
      refine absurd ?_ this
      simp only [Bool.and_eq_true, beq_iff_eq]
      refine ⟨ht, ?_⟩
      rw [newest_ids ho hv, List.all_eq_true]
      intro w hw
      simp only [Bool.or_eq_true, bne_iff_ne, decide_eq_true_eq]
      by_cases x : w.tableId = v.tableId
      · exact .inr (hm w hw (x.trans ht))
      · exact .inl x

theorem ren_latest {r : Ren} {p : Cat} (g : Good r p) {t : Nat} (ht : t ∈ p.tabs.map (·.id)) :
    latest (r.cat p) (r.t t) = (latest p t).map r.v := by
  have e : (r.cat p).vers.filter (·.tableId == r.t t) = (p.vers.filter (·.tableId == t)).map r.ver :=
    filter_map_mem _ _ _ _ (fun v hv => g.mt.beq (g.verP v hv) ht)
  simp only [latest, e]
  have e2 : ((p.vers.filter (·.tableId == t)).map r.ver).map (·.id) = ((p.vers.filter (·.tableId == t)).map (·.id)).map r.v := by
    rw [List.map_map, List.map_map]; rfl
  rw [e2]
  refine maxOf_map (g.mv.sub (fun a ha => ?_))
  obtain ⟨v, hv, e⟩ := List.mem_map.1 ha
  exact List.mem_map.2 ⟨v, (List.mem_filter.1 hv).1, e⟩

theorem ren_currentCols {r : Ren} {p : Cat} (g : Good r p) {t : Nat} (ht : t ∈ p.tabs.map (·.id)) :
    currentCols (r.cat p) (r.t t) = (pgCurrentCols p t).map r.col := by
  simp only [currentCols, pgCurrentCols, ren_latest g ht, pgLatest_eq g.ord]
  cases e : latest p t with
  | none => rfl
  | some v =>
    obtain ⟨w, ⟨hw, _⟩, rfl⟩ := (latest_iff p t v).1 e
    exact filter_map_mem _ _ _ _ (fun c hc => g.mv.beq (g.colP c hc) (mem_ids (f := (·.id)) hw))

theorem ren_tableRows {r : Ren} {p : Cat} (g : Good r p) (coll : String) {t : Tab} (ht : t ∈ p.tabs) :
    tableRows (r.cat p) coll (r.tab t) = pgTableRows p coll t := by
  have e : currentCols (r.cat p) (r.tab t).id = (pgCurrentCols p t.id).map r.col := ren_currentCols g (mem_ids (f := (·.id)) ht)
  simp only [tableRows, pgTableRows, e, List.isEmpty_map, List.map_map]
  rfl

theorem flatMap_map_mem {α β γ : Type} (f : α → β) (h : β → List γ) (h' : α → List γ) (l : List α) (he : ∀ a ∈ l, h (f a) = h' a) :
    (l.map f).flatMap h = l.flatMap h' := by
  induction l with
  | nil => rfl
  | cons a l ih =>
    simp only [List.map_cons, List.flatMap_cons]
    rw [he a (by simp), ih (fun b hb => he b (by simp [hb]))]

theorem ren_collRows {r : Ren} {p : Cat} (g : Good r p) {c : Coll} (hc : c ∈ p.colls) : collRows (r.cat p) (r.coll c) = pgCollRows p c := by
  have e : (r.cat p).tabs.filter (·.collId == (r.coll c).id) = (p.tabs.filter (·.collId == c.id)).map r.tab :=
    filter_map_mem _ _ _ _ (fun t ht => g.mc.beq (g.tabP t ht) (mem_ids (f := (·.id)) hc))
  have hn : (r.coll c).name = c.name := rfl
  simp only [collRows, pgCollRows, e, List.isEmpty_map, hn]
  rw [flatMap_map_mem r.tab _ (pgTableRows p c.name) _ (fun t ht => ren_tableRows g _ (List.mem_filter.1 ht).1)]

theorem ren_joined {r : Ren} {p : Cat} (g : Good r p) (db : String) : joinedRows (r.cat p) db = pgJoinedRows p db := by
  have e : (r.cat p).dbs.filter (·.name == db) = (p.dbs.filter (·.name == db)).map r.db := filter_map_mem _ _ _ _ (fun _ _ => rfl)
  simp only [joinedRows, pgJoinedRows, e]
  refine flatMap_map_mem r.db _ _ _ (fun d hd => ?_)
  have e2 : (r.cat p).colls.filter (·.dbId == (r.db d).id) = (p.colls.filter (·.dbId == d.id)).map r.coll :=
    filter_map_mem _ _ _ _ (fun c hc => g.md.beq (g.collP c hc) (mem_ids (f := (·.id)) (List.mem_filter.1 hd).1))
  rw [e2]
  exact flatMap_map_mem r.coll _ _ _ (fun c hc => ren_collRows g (List.mem_filter.1 hc).1)

theorem ren_functions {r : Ren} {p : Cat} (g : Good r p) (db : String) : seenFunctions (r.cat p) db = seenFunctions p db := by
  simp only [seenFunctions, listFunctions, ren_getDb]
  cases h : getDb p db with
  | error e => rfl
  | ok d =>
    have e2 : (r.cat p).fns.filter (·.dbId == r.d d.id) = (p.fns.filter (·.dbId == d.id)).map r.fn :=
      filter_map_mem _ _ _ _ (fun c hc => g.md.beq (g.fnP c hc) (id_db h))
    simp only [Except.map, Ren.db, e2, List.map_map]
    rfl

theorem ren_table {r : Ren} {p : Cat} (g : Good r p) (db sch n : String) : seenTable (r.cat p) db sch n = seenTable p db sch n := by
  simp only [seenTable, ren_getTab g]
  cases getTable p db sch n <;> rfl

theorem ren_versions {r : Ren} {p : Cat} (g : Good r p) (db : String) (names : Option (List String)) :
    seenVersions id (r.cat p) db names = seenVersions sqliteSeconds p db names := by
  simp only [seenVersions, allVersions, List.map_flatMap, List.map_map]
  refine flatMap_map_mem r.ver _ _ _ (fun v hv => ?_)
  have e1 : (r.cat p).tabs.filter (·.id == (r.ver v).tableId) = (p.tabs.filter (·.id == v.tableId)).map r.tab :=
    filter_map_mem _ _ _ _ (fun t ht => g.mt.beq (mem_ids (f := (·.id)) ht) (g.verP v hv))
  rw [e1]
  refine flatMap_map_mem r.tab _ _ _ (fun t ht => ?_)
  have ht := (List.mem_filter.1 ht).1
  have e2 : (r.cat p).colls.filter (·.id == (r.tab t).collId) = (p.colls.filter (·.id == t.collId)).map r.coll :=
    filter_map_mem _ _ _ _ (fun c hc => g.mc.beq (mem_ids (f := (·.id)) hc) (g.tabP t ht))
  rw [e2]
  refine flatMap_map_mem r.coll _ _ _ (fun c hc => ?_)
  have hc := (List.mem_filter.1 hc).1
  have e3 : (r.cat p).dbs.filter (·.id == (r.coll c).dbId) = (p.dbs.filter (·.id == c.dbId)).map r.db :=
    filter_map_mem _ _ _ _ (fun d hd => g.md.beq (mem_ids (f := (·.id)) hd) (g.collP c hc))
  rw [e3, filter_map_mem r.db _ (fun d => d.name == db && nameClause names t.name) _ (fun _ _ => rfl), List.map_map]
  rfl

/-- **C139 (partial)**: whatever is done, a catalog in PostgreSQL gives the errors one in SQLite gives, and shows the same schemas,
tables, columns, functions and versions; the times of SQLite are those of PostgreSQL without their fractions.  What is missing
(and wrong, see below): clocks that go back, and the times as `system.table_versions` shows them. -/
theorem C139_partial (hist : List (Ids × Op)) (h : Admissible {} hist) :
    let p := pgHistory {} hist
    let s := sqliteHistory {} (hist.map (·.2))
    s.2 = p.2 ∧ (∀ db, joinedRows s.1 db = pgJoinedRows p.1 db) ∧ (∀ db, seenFunctions s.1 db = seenFunctions p.1 db) ∧
      (∀ db sch n, seenTable s.1 db sch n = seenTable p.1 db sch n) ∧
      ∀ db names, seenVersions id s.1 db names = seenVersions sqliteSeconds p.1 db names := by
  intro p s
  obtain ⟨r, a, b, g⟩ := ren_history hist _ _ good_empty h
  rw [ren_empty] at a b
  refine ⟨b, ?_⟩
  have a' : s.1 = r.cat p.1 := a
  rw [a']
  exact ⟨ren_joined g, ren_functions g, ren_table g, ren_versions g⟩

/-- The state between the operations does not matter: the same holds from any two catalogs that go together. -/
theorem C139_step_partial {r : Ren} {p : Cat} (g : Good r p) (i : Ids) (hi : Fresh p i) (op : Op) (ho : OpOk p op) :
    (exec (r.cat p) op.seconds).2 = ((postgres i).exec p op).2 ∧
      ∀ db, joinedRows (exec (r.cat p) op.seconds).1 db = pgJoinedRows ((postgres i).exec p op).1 db := by
  obtain ⟨r', a, b, c⟩ := ren_step g i hi op ho
  refine ⟨b, fun db => ?_⟩
  rw [a]
  exact ren_joined c db

/-! ### which histories there are -/

/-- After an operation there are only the old identifiers and the new ones, and only the old times and that of the clock. -/
structure Grows (p q : Cat) (i : Ids) (now : Option Int) : Prop where
  db : ∀ a ∈ q.dbs.map (·.id), a ∈ p.dbs.map (·.id) ∨ a = i.db
  coll : ∀ a ∈ q.colls.map (·.id), a ∈ p.colls.map (·.id) ∨ a = i.coll
  tab : ∀ a ∈ q.tabs.map (·.id), a ∈ p.tabs.map (·.id) ∨ a = i.tab
  ver : ∀ a ∈ q.vers.map (·.id), a ∈ p.vers.map (·.id) ∨ a = i.ver
  fn : ∀ a ∈ q.fns.map (·.id), a ∈ p.fns.map (·.id) ∨ a = i.fn
  time : ∀ v ∈ q.vers, v ∈ p.vers ∨ now = some v.time

theorem Grows.refl (p : Cat) (i : Ids) (now : Option Int) : Grows p p i now :=
  ⟨fun _ h => .inl h, fun _ h => .inl h, fun _ h => .inl h, fun _ h => .inl h, fun _ h => .inl h, fun _ h => .inl h⟩

theorem ids_filter {α : Type} (f : α → Nat) (k : α → Bool) (l : List α) : ∀ a ∈ (l.filter k).map f, a ∈ l.map f := by
  intro a ha
  obtain ⟨v, hv, e⟩ := List.mem_map.1 ha
  exact List.mem_map.2 ⟨v, (List.mem_filter.1 hv).1, e⟩

theorem ids_snoc {α : Type} (f : α → Nat) (l : List α) (x : α) : ∀ a ∈ (l ++ [x]).map f, a ∈ l.map f ∨ a = f x := by
  intro a ha
  simpa using ha

theorem grows_dropColls (p : Cat) (k : Coll → Bool) (i : Ids) (now : Option Int) : Grows p (dropColls p k) i now :=
  ⟨fun _ h => .inl h, fun _ h => .inl (ids_filter _ _ _ _ h), fun _ h => .inl (ids_filter _ _ _ _ h),
    fun _ h => .inl (ids_filter _ _ _ _ h), fun _ h => .inl h, fun _ h => .inl (List.mem_filter.1 h).1⟩

theorem grows_dropTabs (p : Cat) (k : Tab → Bool) (i : Ids) (now : Option Int) : Grows p (dropTabs p k) i now :=
  ⟨fun _ h => .inl h, fun _ h => .inl h, fun _ h => .inl (ids_filter _ _ _ _ h),
    fun _ h => .inl (ids_filter _ _ _ _ h), fun _ h => .inl h, fun _ h => .inl (List.mem_filter.1 h).1⟩

theorem grows_rename (p : Cat) (t : Nat) (n : String) (c : Option Nat) (i : Ids) (now : Option Int) :
    Grows p (repoRename p t n c).1 i now := by
  simp only [repoRename]
  cases p.tabs.find? (·.id == t) with
  | none => exact .refl p i now
  | some x =>
    simp only
    split
    · exact .refl p i now
    · split
      · exact .refl p i now
      · refine ⟨fun _ h => .inl h, fun _ h => .inl h, ?_, fun _ h => .inl h, fun _ h => .inl h, fun _ h => .inl h⟩
        intro a ha
        left
        rw [List.map_map] at ha
        obtain ⟨u, hu, e⟩ := List.mem_map.1 ha
        refine List.mem_map.2 ⟨u, hu, ?_⟩
        simp only [Function.comp] at e
        split at e <;> exact e

theorem grows_tab (p : Cat) (c : Nat) (n : String) (cs : List (String × String)) (u : Nat) (now : Int) (ok : Bool) (i : Ids) :
    Grows p (insertTab i.tab i.ver p c n cs u now ok).1 i (some now) := by
  have key : ∀ cols, Grows p { p with
      tabs := p.tabs ++ [{ id := i.tab, collId := c, name := n, uuid := u }]
      vers := p.vers ++ [{ id := i.ver, tableId := i.tab, version := 0, time := now }]
      cols := cols } i (some now) := by
    intro cols
    refine ⟨fun _ h => .inl h, fun _ h => .inl h, ids_snoc _ _ _, ids_snoc _ _ _, fun _ h => .inl h, ?_⟩
    intro v hv
    rcases List.mem_append.1 hv with hv | hv
    · exact .inl hv
    · simp only [List.mem_singleton] at hv
      subst hv
      exact .inr rfl
  simp only [insertTab]
  split
  · exact .refl _ _ _
  · split
    · exact .refl _ _ _
    · split
      · exact key _
      · split
        · exact key _
        · split <;> exact key _

theorem grows_ver (p : Cat) (u : Nat) (v now : Int) (ok : Bool) (i : Ids) : Grows p (insertVer i.ver p u v now ok).1 i (some now) := by
  have key : ∀ cols t, Grows p { p with vers := p.vers ++ [{ id := i.ver, tableId := t, version := v, time := now }], cols := cols } i (some now) := by
    intro cols t
    refine ⟨fun _ h => .inl h, fun _ h => .inl h, fun _ h => .inl h, ids_snoc _ _ _, fun _ h => .inl h, ?_⟩
    intro v hv
    rcases List.mem_append.1 hv with hv | hv
    · exact .inl hv
    · simp only [List.mem_singleton] at hv
      subst hv
      exact .inr rfl
  simp only [insertVer]
  cases lastVersion p u with
  | none => exact .refl _ _ _
  | some last =>
    simp only
    cases p.vers.find? (·.id == last) with
    | none => exact .refl _ _ _
    | some w =>
      simp only
      split <;> exact key _ _

theorem grows_fn (p : Cat) (d : Nat) (n : String) (o : Bool) (x : String) (i : Ids) (now : Option Int) :
    Grows p (insertFn i.fn p d n o x).1 i now := by
  simp only [insertFn]
  cases p.fns.find? (fun f => f.name == n && f.dbId == d) with
  | some f =>
    simp only
    split
    · refine ⟨fun _ h => .inl h, fun _ h => .inl h, fun _ h => .inl h, fun _ h => .inl h, ?_, fun _ h => .inl h⟩
      intro a ha
      left
      rw [List.map_map] at ha
      obtain ⟨u, hu, e⟩ := List.mem_map.1 ha
      refine List.mem_map.2 ⟨u, hu, ?_⟩
      simp only [Function.comp] at e
      split at e <;> exact e
    · exact .refl _ _ _
  | none =>
    simp only
    split
    · exact .refl _ _ _
    · exact ⟨fun _ h => .inl h, fun _ h => .inl h, fun _ h => .inl h, fun _ h => .inl h, ids_snoc _ _ _, fun _ h => .inl h⟩

theorem grows_exec (p : Cat) (i : Ids) (op : Op) : Grows p ((postgres i).exec p op).1 i op.clock := by
  cases op with
  | createDb n =>
    have h : Grows p (insertDb i.db p n).1 i none := by
      simp only [insertDb]
      split
      · exact .refl _ _ _
      · exact ⟨ids_snoc _ _ _, fun _ h => .inl h, fun _ h => .inl h, fun _ h => .inl h, fun _ h => .inl h, fun _ h => .inl h⟩
    simp only [Backend.exec, postgres, Op.clock]
    rcases h1 : insertDb i.db p n with ⟨q, e⟩
    rw [h1] at h
    cases e with
    | none => exact h
    | some e => cases e <;> exact h
  | createSchema db n =>
    simp only [Backend.exec, postgres, Op.clock]
    split
    · exact .refl _ _ _
    · cases getDb p db with
      | error e => exact .refl _ _ _
      | ok d =>
        have h : Grows p (insertColl i.coll p d.id n).1 i none := by
          simp only [insertColl]
          split
          · exact .refl _ _ _
          · split
            · exact .refl _ _ _
            · exact ⟨fun _ h => .inl h, ids_snoc _ _ _, fun _ h => .inl h, fun _ h => .inl h, fun _ h => .inl h, fun _ h => .inl h⟩
        simp only
        rcases h1 : insertColl i.coll p d.id n with ⟨q, e⟩
        rw [h1] at h
        cases e with
        | none => exact h
        | some e => cases e <;> exact h
  | createTable db sch n columns uuid now ok =>
    simp only [Backend.exec, postgres, Op.clock]
    cases getSchema p db sch with
    | error e => exact .refl _ _ _
    | ok c =>
      have h := grows_tab p c.id n columns uuid now ok i
      simp only
      rcases h1 : insertTab i.tab i.ver p c.id n columns uuid now ok with ⟨q, e⟩
      rw [h1] at h
      cases e with
      | none => exact h
      | some e => cases e <;> exact h
  | newVersion uuid v now ok =>
    simp only [Backend.exec, postgres, Op.clock]
    have h := grows_ver p uuid v now ok i
    rcases h1 : insertVer i.ver p uuid v now ok with ⟨q, e⟩
    rw [h1] at h
    cases e with
    | none => exact h
    | some e => cases e <;> exact h
  | createFunction db n o x =>
    simp only [Backend.exec, postgres, Op.clock]
    cases getDb p db with
    | error e => exact .refl _ _ _
    | ok d =>
      have h := grows_fn p d.id n o x i none
      simp only
      rcases h1 : insertFn i.fn p d.id n o x with ⟨q, e⟩
      rw [h1] at h
      cases e with
      | none => exact h
      | some e => cases e <;> exact h
  | deleteFunctions db ie ns =>
    simp only [Backend.exec, postgres, Op.clock]
    cases getDb p db with
    | error e => exact .refl _ _ _
    | ok d =>
      have h : Grows p (pgDropFn p d.id ns).1 i none := by
        simp only [pgDropFn]
        split
        · exact .refl _ _ _
        · simp only [repoDropFn]
          split
          · exact ⟨fun _ h => .inl h, fun _ h => .inl h, fun _ h => .inl h, fun _ h => .inl h,
              fun _ h => .inl (ids_filter _ _ _ _ h), fun _ h => .inl h⟩
          · exact .refl _ _ _
      simp only
      rcases h1 : pgDropFn p d.id ns with ⟨q, e⟩
      rw [h1] at h
      cases e with
      | none => exact h
      | some e => cases e <;> cases ie <;> exact h
  | deleteDb n =>
    simp only [Backend.exec, exec, deleteDb, Op.clock]
    cases getDb p n with
    | error e => exact .refl _ _ _
    | ok d =>
      simp only [repoDeleteDb]
      by_cases hh : p.dbs.any (·.id == d.id) = true
      · simp only [hh, if_true]
        have := grows_dropColls p (·.dbId == d.id) i none
        exact ⟨fun _ h => this.db _ (ids_filter _ _ _ _ h), this.coll, this.tab, this.ver,
          fun _ h => this.fn _ (ids_filter _ _ _ _ h), this.time⟩
      · simp only [hh]; exact .refl _ _ _
  | deleteSchema db n =>
    simp only [Backend.exec, exec, deleteSchema, Op.clock]
    cases getSchema p db n with
    | error e => exact .refl _ _ _
    | ok d =>
      simp only [repoDeleteColl]
      by_cases hh : p.colls.any (·.id == d.id) = true
      · simp only [hh, if_true]; exact grows_dropColls p _ i none
      · simp only [hh]; exact .refl _ _ _
  | deleteTable db sch n =>
    simp only [Backend.exec, exec, deleteTable, Op.clock]
    cases getTable p db sch n with
    | error e => exact .refl _ _ _
    | ok d =>
      simp only [repoDeleteTab]
      by_cases hh : p.tabs.any (·.id == d.id) = true
      · simp only [hh, if_true]; exact grows_dropTabs p _ i none
      · simp only [hh]; exact .refl _ _ _
  | deleteOldVersions db sch n =>
    simp only [Backend.exec, exec, deleteOldVersions, Op.clock]
    cases getTable p db sch n with
    | error e => exact .refl _ _ _
    | ok d =>
      exact ⟨fun _ h => .inl h, fun _ h => .inl h, fun _ h => .inl h, fun _ h => .inl (ids_filter _ _ _ _ h), fun _ h => .inl h,
        fun _ h => .inl (List.mem_filter.1 h).1⟩
  | renameTable db os on ns nn =>
    simp only [Backend.exec, exec, renameTable, Op.clock]
    cases getTable p db os on with
    | error e => exact .refl _ _ _
    | ok d =>
      simp only
      cases (if ns ≠ os then
          match getSchema p db ns with
          | .error e => .error e
          | .ok c => .ok (some c.id)
        else .ok none : Except CatErr (Option Nat)) with
      | error e => exact .refl _ _ _
      | ok c =>
        have h := grows_rename p d.id nn c i none
        simp only
        rcases h1 : repoRename p d.id nn c with ⟨q, e⟩
        rw [h1] at h
        cases e with
        | ok _ => exact h
        | error e => cases e <;> exact h

/-- Everything that is still to come is later than everything in use. -/
structure Ahead (p : Cat) (hist : List (Ids × Op)) : Prop where
  ids : ∀ x ∈ hist, Fresh p x.1
  clock : ∀ x ∈ hist, ∀ now, x.2.clock = some now → ∀ v ∈ p.vers, v.time ≤ now

theorem admissible_of : ∀ (hist : List (Ids × Op)) (p : Cat), Ahead p hist →
    hist.Pairwise (fun x y => x.1.db < y.1.db ∧ x.1.coll < y.1.coll ∧ x.1.tab < y.1.tab ∧ x.1.ver < y.1.ver ∧ x.1.fn < y.1.fn) →
    hist.Pairwise (fun x y => ∀ a b, x.2.clock = some a → y.2.clock = some b → a ≤ b) →
    (∀ x ∈ hist, ∀ db i, x.2 ≠ .deleteFunctions db i []) → Admissible p hist
  | [], _, _, _, _, _ => trivial
  | (i, op) :: rest, p, ha, hi, hc, hf => by
    rw [List.pairwise_cons] at hi hc
    refine ⟨ha.ids _ List.mem_cons_self, ⟨ha.clock _ List.mem_cons_self, hf _ List.mem_cons_self⟩, ?_⟩
    have g := grows_exec p i op
    refine admissible_of rest _ ⟨?_, ?_⟩ hi.2 hc.2 (fun x hx => hf x (by simp [hx]))
    · intro x hx
      have f := ha.ids x (by simp [hx])
      obtain ⟨h1, h2, h3, h4, h5⟩ := hi.1 x hx
      refine ⟨?_, ?_, ?_, ?_, ?_⟩ <;> intro a h
      · rcases g.db a h with h | rfl
        · exact f.db a h
        · exact h1
      · rcases g.coll a h with h | rfl
        · exact f.coll a h
        · exact h2
      · rcases g.tab a h with h | rfl
        · exact f.tab a h
        · exact h3
      · rcases g.ver a h with h | rfl
        · exact f.ver a h
        · exact h4
      · rcases g.fn a h with h | rfl
        · exact f.fn a h
        · exact h5
    · intro x hx now hn v hv
      rcases g.time v hv with h | h
      · exact ha.clock x (by simp [hx]) now hn v h
      · exact hc.1 x hx _ _ h hn

/-- **C139**: every list of operations whose clock does not go back is a history PostgreSQL can have, whatever rising numbers the
sequences give. -/
theorem C139_histories (hist : List (Ids × Op))
    (hi : hist.Pairwise (fun x y => x.1.db < y.1.db ∧ x.1.coll < y.1.coll ∧ x.1.tab < y.1.tab ∧ x.1.ver < y.1.ver ∧ x.1.fn < y.1.fn))
    (hc : hist.Pairwise (fun x y => ∀ a b, x.2.clock = some a → y.2.clock = some b → a ≤ b))
    (hf : ∀ x ∈ hist, ∀ db i, x.2 ≠ .deleteFunctions db i []) : Admissible {} hist := by
  refine admissible_of hist {} ⟨?_, ?_⟩ hi hc hf
  · intro x _
    constructor <;> intro a h <;> simp at h
  · intro x _ now _ v hv
    simp at hv

/-! ### examples -/

/-- The numbers of a sequence of its own for each kind of row, with gaps. -/
def num (k : Nat) : Ids := ⟨10 * k + 1, 10 * k + 2, 10 * k + 3, 10 * k + 4, 10 * k + 5⟩

/-- A history with errors, a renamed, an updated and a vacuumed table and a function. -/
def sample : List (Ids × Op) :=
  [(num 1, .createDb "d"), (num 2, .createDb "d"), (num 3, .createSchema "d" "s"),
   (num 4, .createTable "d" "s" "t" [("a", "int")] 7 1500000 true), (num 5, .createFunction "d" "f" false "x"),
   (num 6, .newVersion 7 1 2600000 true), (num 7, .createTable "d" "s" "u" [("b", "text")] 8 2700000 true),
   (num 8, .renameTable "d" "s" "t" "s" "w"), (num 9, .deleteOldVersions "d" "s" "w"), (num 10, .deleteTable "d" "s" "t")]

example : Admissible {} sample := by
  refine C139_histories _ ?_ ?_ ?_
  · simp [sample, num]
  · simp [sample, Op.clock]
  · simp [sample]

example : (pgHistory {} sample).2 =
    [none, some (.catalogAlreadyExists "d"), none, none, none, none, none, none, none, some (.tableDoesNotExist "t")] := by rfl

example : pgJoinedRows (pgHistory {} sample).1 "d" =
    [⟨"s", some ("w", 7), some ("a", "int")⟩, ⟨"s", some ("u", 8), some ("b", "text")⟩] := by decide +kernel

example : (pgVersions (pgHistory {} sample).1 "d" none).map (fun r => (r.table, r.verId, r.version, r.time)) =
    [("w", 64, 1, 3), ("u", 74, 0, 3)] := by decide +kernel

example : (allVersions (sqliteHistory {} (sample.map (·.2))).1 "d" none).map (fun r => (r.table, r.verId, r.version, r.time)) =
    [("w", 2, 1, 2), ("u", 3, 0, 2)] := by decide +kernel

/-! ### where they differ -/

/-- The time shown is that of SQLite if less than half a second has passed, and one second more otherwise. -/
theorem pgSeconds_eq (t : Int) : pgSeconds t = if t % 1000000 < 500000 then sqliteSeconds t else sqliteSeconds t + 1 := by
  simp only [pgSeconds, sqliteSeconds]
  split <;> omega

/-- **C139 is violated (time)**: the creation times of versions that `system.table_versions` shows are those of SQLite for the
versions created in the first half of a second, and one second later for all the others. -/
theorem C139_violated_time (hist : List (Ids × Op)) (h : Admissible {} hist) (db : String) (names : Option (List String)) :
    let p := pgHistory {} hist
    let s := sqliteHistory {} (hist.map (·.2))
    (seenVersions id s.1 db names).length = (pgVersions p.1 db names).length ∧
      ∀ (k : Nat) (a : String × String × String × Int × Int) (r : VersionRow), (seenVersions id s.1 db names)[k]? = some a →
        (allVersions p.1 db names)[k]? = some r →
        (pgVersions p.1 db names)[k]?.map (·.time) = some (if r.time % 1000000 < 500000 then a.2.2.2.2 else a.2.2.2.2 + 1) := by
  intro p s
  have e := (C139_partial hist h).2.2.2.2 db names
  constructor
  · show (seenVersions id (sqliteHistory {} (hist.map (·.2))).1 db names).length = _
    rw [e]
    simp [seenVersions, pgVersions, p]
  · intro k a r ha hr
    have ha' : (seenVersions sqliteSeconds p.1 db names)[k]? = some a := by rw [← e]; exact ha
    simp only [seenVersions, List.getElem?_map, hr, Option.map_some, Option.some.injEq] at ha'
    subst ha'
    simp only [pgVersions, List.getElem?_map, hr, Option.map_some, pgSeconds_eq]

/-- A table written twice and vacuumed, by a clock that goes back. -/
def backwards (t1 t2 : Int) : List (Ids × Op) :=
  [(num 1, .createDb "d"), (num 2, .createSchema "d" "s"), (num 3, .createTable "d" "s" "t" [] 7 t1 true),
   (num 4, .newVersion 7 1 t2 true), (num 5, .deleteOldVersions "d" "s" "t")]

/-- **C139 is violated (clock)**: if the clock goes back within a second, then VACUUM leaves the first version in PostgreSQL and
the second one in SQLite. -/
theorem C139_violated_clock {t1 t2 : Int} (h : t2 < t1) (hs : t1 / 1000000 = t2 / 1000000) :
    (allVersions (pgHistory {} (backwards t1 t2)).1 "d" none).map (·.version) = [0] ∧
      (allVersions (sqliteHistory {} ((backwards t1 t2).map (·.2))).1 "d" none).map (·.version) = [1] := by
  have e1 : (pgHistory {} (backwards t1 t2)).1 = repoDeleteOld { dbs := [⟨11, "d"⟩], colls := [⟨22, 11, "s"⟩], tabs := [⟨33, 22, "t", 7⟩], vers := [⟨34, 33, 0, t1⟩, ⟨44, 33, 1, t2⟩] } 33 := rfl
  have e2 : (sqliteHistory {} ((backwards t1 t2).map (·.2))).1 = repoDeleteOld { dbs := [⟨1, "d"⟩], colls := [⟨1, 1, "s"⟩], tabs := [⟨1, 1, "t", 7⟩], vers := [⟨1, 1, 0, t1 / 1000000⟩, ⟨2, 1, 1, t2 / 1000000⟩] } 1 := rfl
  have n1 : ¬ t1 < t2 := by omega
  have n2 : t1 ≠ t2 := by omega
  rw [e1, e2, hs]
  constructor
  · simp [repoDeleteOld, isNewest, allVersions, nameClause, h, n1, n2]
  · simp [repoDeleteOld, isNewest, allVersions, nameClause]

example : (1999999 : Int) / 1000000 = 1000000 / 1000000 ∧ (1000000 : Int) < 1999999 := by decide

end Seafowl.Catalog
