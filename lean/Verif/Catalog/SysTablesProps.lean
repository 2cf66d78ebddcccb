import Verif.Catalog.SysTables
import Verif.Catalog.CatalogProps
import Verif.Catalog.DropProps

/-!
# The system tables show the catalog (C83)
-/

namespace Seafowl.Catalog

/-- Specification: `v` is a version of the table `db.sch.n`. -/
def IsVersion (s : Cat) (db sch n : String) (v : Ver) : Prop :=
  v ∈ s.vers ∧ ∃ t, IsTable s db sch n t ∧ t.id = v.tableId

theorem mem_allVersions (s : Cat) (db : String) (names : Option (List String)) (r : VersionRow) :
    r ∈ allVersions s db names ↔
      ∃ v, IsVersion s db r.coll r.table v ∧ nameClause names r.table = true ∧
        r = { db := db, coll := r.coll, table := r.table, verId := v.id, version := v.version, time := v.time } := by
  simp only [allVersions, List.mem_flatMap, List.mem_map, List.mem_filter, beq_iff_eq, Bool.and_eq_true]
  constructor
  · rintro ⟨v, hv, t, ⟨ht, e1⟩, c, ⟨hc, e2⟩, d, ⟨⟨hd, e3⟩, e4, e5⟩, rfl⟩
    exact ⟨v, ⟨hv, t, ⟨ht, rfl, c, ⟨hc, rfl, d, ⟨hd, e4⟩, e3⟩, e2⟩, e1⟩, e5, by simp [e4]⟩
  · rintro ⟨v, ⟨hv, t, ⟨ht, e0, c, ⟨hc, e1, d, ⟨hd, e4⟩, e3⟩, e2⟩, e5⟩, hn, hr⟩
    refine ⟨v, hv, t, ⟨ht, e5⟩, c, ⟨hc, e2⟩, d, ⟨⟨hd, e3⟩, e4, by rw [e0]; exact hn⟩, ?_⟩
    rw [hr]
    simp [e0, e1, e4]

theorem filter_length_le_one {α : Type} {β : Type} [DecidableEq β] (f : α → β) (b : β) :
    ∀ l : List α, l.Pairwise (fun x y => f x ≠ f y) → (l.filter (fun x => f x == b)).length ≤ 1 := by
  intro l
  induction l with
  | nil => intro _; simp
  | cons a l ih =>
    intro h
    rw [List.pairwise_cons] at h
    by_cases ha : f a = b
    · have : l.filter (fun x => f x == b) = [] := by
        rw [List.filter_eq_nil_iff]
        intro x hx
        simp only [beq_iff_eq]
        intro e
        exact h.1 x hx (by rw [ha, e])
      simp [ha, this]
    · simp only [List.filter_cons, beq_iff_eq, ha, if_false]
      exact ih h.2

theorem flatMap_length_le_one {α β : Type} (l : List α) (f : α → List β) (hl : l.length ≤ 1)
    (hf : ∀ a ∈ l, (f a).length ≤ 1) : (l.flatMap f).length ≤ 1 := by
  match l, hl with
  | [], _ => simp
  | [a], _ => simpa using hf a (by simp)

/-- Each version gives at most one row. -/
theorem allVersions_ids (s : Cat) (h : WF s) (db : String) (names : Option (List String)) :
    (allVersions s db names).Pairwise (fun a b => a.verId ≠ b.verId) := by
  unfold allVersions
  have hv := h.verIds
  revert hv
  generalize s.vers = vs
  induction vs with
  | nil => intro _; simp
  | cons v vs ih =>
    intro hv
    rw [List.pairwise_cons] at hv
    rw [List.flatMap_cons, List.pairwise_append]
    refine ⟨?_, ih hv.2, ?_⟩
    · have hlen := flatMap_length_le_one (s.tabs.filter (·.id == v.tableId)) (fun t =>
        (s.colls.filter (·.id == t.collId)).flatMap (fun c =>
          ((s.dbs.filter (·.id == c.dbId)).filter (fun d => d.name == db && nameClause names t.name)).map
          (fun d => ({ db := d.name, coll := c.name, table := t.name, verId := v.id, version := v.version, time := v.time } : VersionRow))))
        (filter_length_le_one (·.id) v.tableId s.tabs h.tabIds)
        (fun t _ => flatMap_length_le_one _ _ (filter_length_le_one (·.id) t.collId s.colls h.collIds)
          (fun c _ => by
            rw [List.length_map]
            exact Nat.le_trans (List.length_filter_le _ _) (filter_length_le_one (·.id) c.dbId s.dbs h.dbIds)))
      generalize (s.tabs.filter (·.id == v.tableId)).flatMap _ = l at hlen ⊢
      match l, hlen with
      | [], _ => simp
      | [a], _ => simp
    · intro a ha b hb
      simp only [List.mem_flatMap, List.mem_map, List.mem_filter] at ha hb
      obtain ⟨t, _, c, _, d, _, rfl⟩ := ha
      obtain ⟨v', hv', t', _, c', _, d', _, rfl⟩ := hb
      exact hv.1 v' hv'

/-- **C83 (versions).** For every catalog the operations can lead to, `system.table_versions` of a
database has exactly one row for each version of each of its tables: schema and name of the table, the
identifier, the Delta version and the time of the version.  Versions of tables of other databases are
not shown. -/
theorem C83_versions (ops : List Op) (ds : List DroppedRow) (db : String) :
    ∃ rows : List VersionRow,
      sysScan (.repository (run {} ops) ds) db .versions none = some (rows.map versionCells) ∧
      rows.Pairwise (fun a b => a.verId ≠ b.verId) ∧
      ∀ sch n i v t, (∃ r ∈ rows, r.coll = sch ∧ r.table = n ∧ r.verId = i ∧ r.version = v ∧ r.time = t) ↔
        ∃ x, IsVersion (run {} ops) db sch n x ∧ x.id = i ∧ x.version = v ∧ x.time = t := by
  refine ⟨allVersions (run {} ops) db none, ?_, allVersions_ids _ (C31_intact ops) db none, ?_⟩
  · simp only [sysScan, loadBatch]
    have : ∀ rows : List (List Cell), rows.mapM (projectRow none) = some rows := by
      intro rows
      induction rows with
      | nil => simp
      | cons r rows ih => simp [List.mapM_cons, ih, projectRow]
    exact this _
  · intro sch n i v t
    constructor
    · rintro ⟨r, hr, rfl, rfl, rfl, rfl, rfl⟩
      obtain ⟨x, hx, _, he⟩ := (mem_allVersions _ db none r).1 hr
      exact ⟨x, hx, by rw [he], by rw [he], by rw [he]⟩
    · rintro ⟨x, hx, rfl, rfl, rfl⟩
      exact ⟨_, (mem_allVersions _ db none ⟨db, sch, n, x.id, x.version, x.time⟩).2 ⟨x, hx, rfl, rfl⟩,
        rfl, rfl, rfl, rfl, rfl⟩

/-- **C83 (after DROP TABLE).** The versions of a dropped table are gone, those of the others stay. -/
theorem C83_drop (s s' : Cat) (h : WF s) (db sch n : String) (hr : deleteTable s db sch n = (s', .ok ()))
    (db' sch' n' : String) (v : Ver) :
    IsVersion s' db' sch' n' v ↔ IsVersion s db' sch' n' v ∧ ¬ (db' = db ∧ sch' = sch ∧ n' = n) := by
  obtain ⟨t, ht, hw⟩ := C35_table s s' h db sch n hr
  have hdb : ∀ m d, IsDb s' m d ↔ IsDb s m d := by intro m d; simp [IsDb, hw.dbs]
  have hsch : ∀ a b c, IsSchema s' a b c ↔ IsSchema s a b c := by
    intro a b c; simp [IsSchema, hw.colls, hdb]
  have htab : ∀ x, IsTable s' db' sch' n' x ↔ IsTable s db' sch' n' x ∧ x ≠ t := by
    intro x; simp only [IsTable, hw.tabs, hsch]
    constructor
    · rintro ⟨⟨a, b⟩, c, d⟩; exact ⟨⟨a, c, d⟩, b⟩
    · rintro ⟨⟨a, c, d⟩, b⟩; exact ⟨⟨a, b⟩, c, d⟩
  constructor
  · rintro ⟨hv, x, hx, e⟩
    obtain ⟨hx, hne⟩ := (htab x).1 hx
    refine ⟨⟨((hw.vers v).1 hv).1, x, hx, e⟩, ?_⟩
    rintro ⟨rfl, rfl, rfl⟩
    exact hne (IsTable_unique h hx ht)
  · rintro ⟨⟨hv, x, hx, e⟩, hne⟩
    have hxt : x ≠ t := by
      rintro rfl
      obtain ⟨h1, h2, c, ⟨hc1, hc2, d, ⟨hd1, hd2⟩, hd3⟩, hc3⟩ := hx
      obtain ⟨_, h2', c', ⟨hc1', hc2', d', ⟨hd1', hd2'⟩, hd3'⟩, hc3'⟩ := ht
      have hcc : c = c' := eq_of_pairwise h.collIds hc1 hc1' (by simp [hc3, hc3']) (by simp [hc3, hc3'])
      subst hcc
      have hdd : d = d' := eq_of_pairwise h.dbIds hd1 hd1' (by simp [hd3, hd3']) (by simp [hd3, hd3'])
      subst hdd
      exact hne ⟨by rw [← hd2, hd2'], by rw [← hc2, hc2'], by rw [← h2, h2']⟩
    refine ⟨(hw.vers v).2 ⟨hv, ?_⟩, x, (htab x).2 ⟨hx, hxt⟩, e⟩
    rintro ⟨y, hy, rfl, e'⟩
    exact hxt (eq_of_pairwise h.tabIds hx.1 hy (by simp [e, e']) (by simp [e, e']))

/-- **C83 (dropped tables).** `system.dropped_tables` shows the dropped tables of the database, all of
them and no others, in the order and number recorded. -/
theorem C83_dropped (s : Cat) (ds : List DroppedRow) (db : String) :
    ∃ rows : List DroppedRow,
      sysScan (.repository s ds) db .dropped none = some (rows.map droppedCells) ∧
      (∀ r, rows.count r = if r.db = db then ds.count r else 0) ∧ rows.Sublist ds := by
  refine ⟨ds.filter (·.db == db), ?_, ?_, List.filter_sublist⟩
  · simp only [sysScan, loadBatch, droppedTables]
    have : ∀ rows : List (List Cell), rows.mapM (projectRow none) = some rows := by
      intro rows
      induction rows with
      | nil => simp
      | cons r rows ih => simp [List.mapM_cons, ih, projectRow]
    exact this _
  · intro r
    split
    · rename_i he
      exact List.count_filter (by simp [he])
    · rename_i he
      rw [List.count_eq_zero]
      intro hm
      exact he (by simpa using (List.mem_filter.1 hm).2)

/-- **C83 (columns).** The value in the column of a name is the named property. -/
theorem C83_columns (r : VersionRow) (d : DroppedRow) :
    (sysColumns .versions).zip (versionCells r) =
      [("table_schema", .str r.coll), ("table_name", .str r.table), ("table_version_id", .int r.verId),
       ("version", .int r.version), ("creation_time", .int r.time)] ∧
    (sysColumns .dropped).zip (droppedCells d) =
      [("table_schema", .str d.coll), ("table_name", .str d.table), ("uuid", .str d.uuid),
       ("deletion_status", .str d.status), ("drop_time", .int d.time)] := ⟨rfl, rfl⟩

/-- **C83 (projection).** A projection picks the columns by their position, from all rows. -/
theorem C83_projection (st : SysStore) (db : String) (t : SysTable) (ixs : List Nat) (rows : List (List Cell))
    (h : sysScan st db t none = some rows) (hi : ∀ i ∈ ixs, i < (sysColumns t).length) :
    ∃ out, sysScan st db t (some ixs) = some out ∧ out.length = rows.length ∧
      ∀ (k : Nat) (row o : List Cell), rows[k]? = some row → out[k]? = some o →
        o.length = ixs.length ∧ ∀ (j i : Nat), ixs[j]? = some i → o[j]? = row[i]? := by
  unfold sysScan at h ⊢
  cases hl : loadBatch st db t with
  | none => simp [hl] at h
  | some batch =>
    simp only [hl] at h ⊢
    have hself : ∀ rows : List (List Cell), rows.mapM (projectRow none) = some rows := by
      intro rows
      induction rows with
      | nil => simp
      | cons r rows ih => simp [List.mapM_cons, ih, projectRow]
    rw [hself] at h
    injection h with h
    subst h
    have hw : ∀ row ∈ batch, row.length = (sysColumns t).length := by
      intro row hrow
      cases t <;> cases st <;> simp only [loadBatch, Option.some.injEq, reduceCtorEq] at hl <;> subst hl <;>
        obtain ⟨r, _, rfl⟩ := List.mem_map.1 hrow <;> rfl
    have hpick : ∀ (ixs : List Nat) (row : List Cell), (∀ i ∈ ixs, i < row.length) →
        ∃ o, ixs.mapM (fun i => row[i]?) = some o ∧ o.length = ixs.length ∧
          ∀ (j i : Nat), ixs[j]? = some i → o[j]? = row[i]? := by
      intro ixs
      induction ixs with
      | nil => intro row _; exact ⟨[], by simp⟩
      | cons a ixs ih =>
        intro row hb
        obtain ⟨o, h1, h2, h3⟩ := ih row (fun i hi => hb i (by simp [hi]))
        have ha : row[a]? = some (row[a]'(hb a (by simp))) := List.getElem?_eq_getElem _
        refine ⟨row[a]'(hb a (by simp)) :: o, by simp [List.mapM_cons, h1, ha], by simp [h2], ?_⟩
        intro j i hj
        cases j with
        | zero => simp only [List.getElem?_cons_zero, Option.some.injEq] at hj ⊢; subst hj; exact ha.symm
        | succ j => simp only [List.getElem?_cons_succ] at hj ⊢; exact h3 j i hj
    clear hl
    induction batch with
    | nil => exact ⟨[], by simp⟩
    | cons row batch ih =>
      obtain ⟨out, h1, h2, h3⟩ := ih (fun r hr => hw r (by simp [hr]))
      obtain ⟨o, h4, h5, h6⟩ := hpick ixs row (fun i hi' => by rw [hw row (by simp)]; exact hi i hi')
      refine ⟨o :: out, by simp [List.mapM_cons, projectRow, h1, h4], by simp [h2], ?_⟩
      intro k r' o' hr ho
      cases k with
      | zero =>
        simp only [List.getElem?_cons_zero, Option.some.injEq] at hr ho
        subst hr; subst ho
        exact ⟨h5, h6⟩
      | succ k =>
        simp only [List.getElem?_cons_succ] at hr ho
        exact h3 k r' o' hr ho

/-- **C83 (names).** The tables found under a name are those listed, and all listed ones are found. -/
theorem C83_names (n : String) : n ∈ sysNames ↔ (sysLookup n).isSome = true := by
  unfold sysNames sysLookup
  by_cases h1 : n = "table_versions"
  · simp [h1]
  · by_cases h2 : n = "dropped_tables"
    · simp [h2]
    · simp [h1, h2]

/-- A table that exists under its name is reported as existing (partial: the converse fails). -/
theorem C83_exists_partial (n : String) (h : (sysLookup n).isSome = true) : sysExists n = true := by
  rcases List.mem_cons.1 ((C83_names n).2 h) with rfl | h
  · decide +kernel
  · rcases List.mem_cons.1 h with rfl | h
    · decide +kernel
    · simp at h

/-- `a` is the letter `b` of the alphabet a-z, or its capital, or another character and the same. -/
def SameLetter (a b : Char) : Prop :=
  a = b ∨ ('a' ≤ b ∧ b ≤ 'z' ∧ a.toNat + 32 = b.toNat)

/-- The names differ at most in the case of the letters A-Z. -/
def SameName : List Char → List Char → Prop
  | [], [] => True
  | a :: s, b :: t => SameLetter a b ∧ SameName s t
  | _, _ => False

theorem lower_letter (a b : Char) (hb : ¬ (65 ≤ b.toNat ∧ b.toNat ≤ 90)) :
    (if 65 ≤ a.toNat ∧ a.toNat ≤ 90 then Char.ofNat (a.toNat + 32) else a) = b ↔ SameLetter a b := by
  unfold SameLetter
  have hz : ('a' ≤ b ∧ b ≤ 'z') ↔ (97 ≤ b.toNat ∧ b.toNat ≤ 122) := by
    rw [Char.le_def, Char.le_def, UInt32.le_iff_toNat_le, UInt32.le_iff_toNat_le]
    exact Iff.rfl
  rw [← and_assoc, hz]
  by_cases h : 65 ≤ a.toNat ∧ a.toNat ≤ 90
  · rw [if_pos h]
    have ht : (Char.ofNat (a.toNat + 32)).toNat = a.toNat + 32 := by
      have hv : (a.toNat + 32).isValidChar := by left; omega
      unfold Char.ofNat
      rw [dif_pos hv]
      rfl
    constructor
    · rintro rfl; right; omega
    · rintro (rfl | h')
      · exact absurd h hb
      · apply Char.toNat_inj.1; omega
  · rw [if_neg h]
    constructor
    · exact .inl
    · rintro (rfl | h')
      · rfl
      · omega

theorem lower_name : ∀ (s t : List Char), (∀ b ∈ t, ¬ (65 ≤ b.toNat ∧ b.toNat ≤ 90)) →
    (s.map (fun c => if 65 ≤ c.toNat ∧ c.toNat ≤ 90 then Char.ofNat (c.toNat + 32) else c) = t ↔
      SameName s t)
  | [], [], _ => by simp [SameName]
  | [], b :: t, _ => by simp [SameName]
  | a :: s, [], _ => by simp [SameName]
  | a :: s, b :: t, h => by
    simp only [List.map_cons, List.cons.injEq, SameName]
    rw [lower_letter a b (h b (by simp)), lower_name s t (fun c hc => h c (by simp [hc]))]

/-- Exactly the names of the two tables, in any mixture of capital and small letters, are reported as
existing. -/
theorem C83_exists_exact (n : String) : sysExists n = true ↔
    SameName n.toList "table_versions".toList ∨ SameName n.toList "dropped_tables".toList := by
  have e : ∀ t : String, (∀ b ∈ t.toList, ¬ (65 ≤ b.toNat ∧ b.toNat ≤ 90)) →
      (asciiLower n = t ↔ SameName n.toList t.toList) := by
    intro t ht
    rw [← lower_name n.toList t.toList ht]
    unfold asciiLower
    constructor
    · intro h; rw [← h]; simp
    · intro h; rw [h]; simp
  unfold sysExists sysNames
  rw [← e _ (by decide), ← e _ (by decide)]
  simp

/-- **Violation of C83.** A name in capital letters is reported as existing, but no table is found. -/
theorem C83_violated_case : sysExists "TABLE_VERSIONS" = true ∧ sysLookup "TABLE_VERSIONS" = none := by
  decide +kernel

/-- Without a catalog database the system tables cannot be read. -/
theorem C83_other (db : String) (t : SysTable) (p : Option (List Nat)) : sysScan .other db t p = none := by
  cases t <;> rfl

/-- **C83 (restricting by table name).** -/
theorem C83_named (s : Cat) (db : String) (names : List String) (hne : names ≠ []) (r : VersionRow) :
    r ∈ allVersions s db (some names) ↔ r ∈ allVersions s db none ∧ r.table ∈ names := by
  have hc : nameClause (some names) r.table = true ↔ r.table ∈ names := by
    cases names with
    | nil => exact absurd rfl hne
    | cons a l => simp [nameClause]
  rw [mem_allVersions, mem_allVersions]
  constructor
  · rintro ⟨v, h1, h2, h3⟩; exact ⟨⟨v, h1, rfl, h3⟩, hc.1 h2⟩
  · rintro ⟨⟨v, h1, _, h3⟩, h2⟩; exact ⟨v, h1, hc.2 h2, h3⟩

/-- **C83 (no names).** An empty list of names is no restriction. -/
theorem C83_no_names (s : Cat) (db : String) : allVersions s db (some []) = allVersions s db none := rfl

/-- **C83 (by name).** `system.table_versions` has the versions and `system.dropped_tables` the dropped tables of the
database, and there is no other system table. -/
theorem C83_by_name (s : Cat) (ds : List DroppedRow) (db n : String) :
    (sysLookup n).map (fun t => sysScan (.repository s ds) db t none) =
      if n = "table_versions" then some (some ((allVersions s db none).map versionCells))
      else if n = "dropped_tables" then some (some ((ds.filter (·.db == db)).map droppedCells))
      else none := by
  have hp : ∀ rows : List (List Cell), rows.mapM (projectRow none) = some rows := by
    intro rows
    induction rows with
    | nil => rfl
    | cons r rs ih => rw [List.mapM_cons, ih]; rfl
  unfold sysLookup
  split
  · simp only [Option.map_some, sysScan, loadBatch, hp]
  · split
    · simp only [Option.map_some, sysScan, loadBatch, hp, droppedTables]
    · rfl

/-- The catalog of the examples: three versions of `public.t`, one of `s2.t`. -/
example : sysScan (.repository exCat []) "default" .versions none = some
    [[.str "public", .str "t", .int 1, .int 0, .int 100], [.str "s2", .str "t", .int 2, .int 0, .int 102],
     [.str "public", .str "t", .int 3, .int 1, .int 103], [.str "public", .str "t", .int 4, .int 2, .int 104]] := by
  decide +kernel

example : sysScan (.repository exCat []) "other" .versions none = some [] := by decide +kernel

example : sysScan (.repository exCat [⟨"default", "public", "x", "u", "PENDING", 5⟩, ⟨"o", "p", "y", "w", "RETRY", 6⟩]) "default"
    .dropped (some [3, 1]) = some [[.str "PENDING", .str "x"]] := by decide +kernel

example : IsVersion exCat "default" "public" "t" ⟨3, 1, 1, 103⟩ :=
  ⟨by decide, ⟨1, 1, "t", 77⟩, ⟨by decide, rfl, ⟨1, 1, "public"⟩, ⟨by decide, rfl, ⟨1, "default"⟩, ⟨by decide, rfl⟩, rfl⟩, rfl⟩, rfl⟩

end Seafowl.Catalog
