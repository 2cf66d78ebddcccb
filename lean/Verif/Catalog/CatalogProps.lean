import Verif.Catalog.CatalogInv

/-!
# Errors (C32), renaming (C33), versions (C34), dropping (C35) and functions (C37)
-/

namespace Seafowl.Catalog

set_option linter.unusedSimpArgs false

deriving instance DecidableEq for Except

/-! ### specification: which object a name denotes -/

/-- `d` is the database named `n`. -/
def IsDb (s : Cat) (n : String) (d : Db) : Prop := d ∈ s.dbs ∧ d.name = n

/-- `c` is the schema `db.n`. -/
def IsSchema (s : Cat) (db n : String) (c : Coll) : Prop := c ∈ s.colls ∧ c.name = n ∧ ∃ d, IsDb s db d ∧ d.id = c.dbId

/-- `t` is the table `db.sch.n`. -/
def IsTable (s : Cat) (db sch n : String) (t : Tab) : Prop :=
  t ∈ s.tabs ∧ t.name = n ∧ ∃ c, IsSchema s db sch c ∧ c.id = t.collId

/-- `f` is the function `n` of database `db`. -/
def IsFn (s : Cat) (db n : String) (f : Fn) : Prop := f ∈ s.fns ∧ f.name = n ∧ ∃ d, IsDb s db d ∧ d.id = f.dbId

/-! ### lookups -/

theorem IsDb_unique {s : Cat} (h : WF s) {n : String} {a b : Db} (ha : IsDb s n a) (hb : IsDb s n b) : a = b :=
  eq_of_pairwise h.dbNames ha.1 hb.1 (by simp [ha.2, hb.2]) (by simp [ha.2, hb.2])

theorem IsSchema_unique {s : Cat} (h : WF s) {db n : String} {a b : Coll} (ha : IsSchema s db n a) (hb : IsSchema s db n b) :
    a = b := by
  obtain ⟨ha1, ha2, d1, hd1, e1⟩ := ha
  obtain ⟨hb1, hb2, d2, hd2, e2⟩ := hb
  have := IsDb_unique h hd1 hd2
  subst this
  refine eq_of_pairwise h.collNames ha1 hb1 ?_ ?_ <;> simp [ha2, hb2, ← e1, ← e2]

theorem IsTable_unique {s : Cat} (h : WF s) {db sch n : String} {a b : Tab} (ha : IsTable s db sch n a)
    (hb : IsTable s db sch n b) : a = b := by
  obtain ⟨ha1, ha2, d1, hd1, e1⟩ := ha
  obtain ⟨hb1, hb2, d2, hd2, e2⟩ := hb
  have := IsSchema_unique h hd1 hd2
  subst this
  refine eq_of_pairwise h.tabNames ha1 hb1 ?_ ?_ <;> simp [ha2, hb2, ← e1, ← e2]

theorem IsFn_unique {s : Cat} (h : WF s) {db n : String} {a b : Fn} (ha : IsFn s db n a)
    (hb : IsFn s db n b) : a = b := by
  obtain ⟨ha1, ha2, d1, hd1, e1⟩ := ha
  obtain ⟨hb1, hb2, d2, hd2, e2⟩ := hb
  have := IsDb_unique h hd1 hd2
  subst this
  refine eq_of_pairwise h.fnNames ha1 hb1 ?_ ?_ <;> simp [ha2, hb2, ← e1, ← e2]

theorem getDb_ok {s : Cat} {n : String} {d : Db} (h : getDb s n = .ok d) : IsDb s n d := by
  simp only [getDb, repoGetDb] at h
  cases hf : s.dbs.find? (·.name == n) with
  | none => simp [hf] at h
  | some x =>
    simp only [hf, Except.ok.injEq] at h
    subst h
    obtain ⟨h1, h2⟩ := find_some hf
    exact ⟨h1, by simpa using h2⟩

theorem getDb_cases (s : Cat) (n : String) :
    (∃ d, IsDb s n d ∧ getDb s n = .ok d) ∨ ((∀ d, ¬ IsDb s n d) ∧ getDb s n = .error (.catalogDoesNotExist n)) := by
  cases hf : s.dbs.find? (·.name == n) with
  | none =>
    right
    refine ⟨?_, by simp [getDb, repoGetDb, hf]⟩
    rintro d ⟨h1, h2⟩
    rw [List.find?_eq_none] at hf
    exact hf d h1 (by simp [h2])
  | some x =>
    left
    have hok : getDb s n = .ok x := by simp [getDb, repoGetDb, hf]
    exact ⟨x, getDb_ok hok, hok⟩

theorem repoGetColl_cases (s : Cat) (db n : String) :
    (∃ c, IsSchema s db n c ∧ repoGetColl s db n = .ok c) ∨
      ((∀ c, ¬ IsSchema s db n c) ∧ repoGetColl s db n = .error .notFound) := by
  simp only [repoGetColl]
  cases hf : s.colls.find? (fun c => c.name == n && s.dbs.any (fun d => d.id == c.dbId && d.name == db)) with
  | none =>
    right
    refine ⟨?_, rfl⟩
    rintro c ⟨h1, h2, d, ⟨hd1, hd2⟩, hd3⟩
    rw [List.find?_eq_none] at hf
    apply hf c h1
    simp only [Bool.and_eq_true, beq_iff_eq, List.any_eq_true]
    exact ⟨h2, d, hd1, hd3, hd2⟩
  | some c =>
    left
    obtain ⟨h1, h2⟩ := find_some hf
    simp only [Bool.and_eq_true, beq_iff_eq, List.any_eq_true] at h2
    obtain ⟨h2, d, hd1, hd3, hd2⟩ := h2
    exact ⟨c, ⟨h1, h2, d, ⟨hd1, hd2⟩, hd3⟩, rfl⟩

theorem getSchema_cases (s : Cat) (db n : String) (hn : n ≠ staging) :
    (∃ c, IsSchema s db n c ∧ getSchema s db n = .ok c) ∨
      ((∀ c, ¬ IsSchema s db n c) ∧ getSchema s db n = .error (.schemaDoesNotExist n)) := by
  simp only [getSchema, if_neg hn]
  rcases repoGetColl_cases s db n with ⟨c, h1, h2⟩ | ⟨h1, h2⟩
  · left; exact ⟨c, h1, by rw [h2]⟩
  · right; exact ⟨h1, by rw [h2]⟩

theorem getTable_cases (s : Cat) (db sch n : String) :
    (∃ t, IsTable s db sch n t ∧ getTable s db sch n = .ok t) ∨
      ((∀ t, ¬ IsTable s db sch n t) ∧ getTable s db sch n = .error (.tableDoesNotExist n)) := by
  simp only [getTable, repoGetTab]
  cases hf : s.tabs.find? (fun t => t.name == n && s.colls.any (fun c => c.id == t.collId && c.name == sch &&
      s.dbs.any (fun d => d.id == c.dbId && d.name == db))) with
  | none =>
    right
    refine ⟨?_, rfl⟩
    rintro t ⟨h1, h2, c, ⟨hc1, hc2, d, ⟨hd1, hd2⟩, hd3⟩, hc3⟩
    rw [List.find?_eq_none] at hf
    apply hf t h1
    simp only [Bool.and_eq_true, beq_iff_eq, List.any_eq_true]
    exact ⟨h2, c, hc1, ⟨hc3, hc2⟩, d, hd1, hd3, hd2⟩
  | some t =>
    left
    obtain ⟨h1, h2⟩ := find_some hf
    simp only [Bool.and_eq_true, beq_iff_eq, List.any_eq_true] at h2
    obtain ⟨h2, c, hc1, ⟨hc3, hc2⟩, d, hd1, hd3, hd2⟩ := h2
    exact ⟨t, ⟨h1, h2, c, ⟨hc1, hc2, d, ⟨hd1, hd2⟩, hd3⟩, hc3⟩, rfl⟩

/-- Lookups return exactly the object the name denotes. -/
theorem getTable_iff {s : Cat} (h : WF s) (db sch n : String) (t : Tab) :
    getTable s db sch n = .ok t ↔ IsTable s db sch n t := by
  rcases getTable_cases s db sch n with ⟨u, h1, h2⟩ | ⟨h1, h2⟩
  · rw [h2]
    constructor
    · intro e; cases e; exact h1
    · intro ht; rw [IsTable_unique h h1 ht]
  · rw [h2]
    constructor
    · intro e; cases e
    · intro ht; exact absurd ht (h1 t)

/-! ### C32 -/

/-- **C32** for databases: creation. -/
theorem C32_createDb (s : Cat) (n : String) :
    ((∃ d, IsDb s n d) → createDb s n = (s, .error (.catalogAlreadyExists n))) ∧
    ((∀ d, ¬ IsDb s n d) → (createDb s n).2 = .ok () ∧ ∃ d, IsDb (createDb s n).1 n d) := by
  constructor
  · rintro ⟨d, h1, h2⟩
    have : s.dbs.any (·.name == n) = true := List.any_eq_true.2 ⟨d, h1, by simp [h2]⟩
    simp [createDb, repoCreateDb, this]
  · intro hno
    have : s.dbs.any (·.name == n) = false := by
      rw [List.any_eq_false]
      intro d hd e
      exact hno d ⟨hd, by simpa using e⟩
    simp only [createDb, repoCreateDb, this, Bool.false_eq_true, if_false]
    exact ⟨trivial, _, List.mem_append.2 (Or.inr (List.mem_singleton.2 rfl)), rfl⟩

/-- **C32** for databases: removal. -/
theorem C32_deleteDb (s : Cat) (h : WF s) (n : String) :
    ((∃ d, IsDb s n d) → (deleteDb s n).2 = .ok () ∧ ∀ d, ¬ IsDb (deleteDb s n).1 n d) ∧
    ((∀ d, ¬ IsDb s n d) → deleteDb s n = (s, .error (.catalogDoesNotExist n))) := by
  rcases getDb_cases s n with ⟨d, h1, h2⟩ | ⟨h1, h2⟩
  · refine ⟨fun _ => ?_, fun hno => absurd h1 (hno d)⟩
    have hany : s.dbs.any (·.id == d.id) = true := List.any_eq_true.2 ⟨d, h1.1, by simp⟩
    simp only [deleteDb, h2, repoDeleteDb, hany, if_true]
    refine ⟨trivial, ?_⟩
    rintro e ⟨he1, he2⟩
    obtain ⟨he3, he4⟩ := List.mem_filter.1 he1
    have := IsDb_unique h h1 (⟨he3, he2⟩ : IsDb s n e)
    subst this
    simp at he4
  · refine ⟨fun ⟨d, hd⟩ => absurd hd (h1 d), fun _ => ?_⟩
    simp only [deleteDb, h2]

/-- **C32** for schemas: creation. -/
theorem C32_createSchema (s : Cat) (h : WF s) (db n : String) :
    (n = staging → createSchema s db n = (s, .error .usedStagingSchema)) ∧
    (n ≠ staging → (∀ d, ¬ IsDb s db d) → createSchema s db n = (s, .error (.catalogDoesNotExist db))) ∧
    (n ≠ staging → (∃ c, IsSchema s db n c) → createSchema s db n = (s, .error (.schemaAlreadyExists n))) ∧
    (n ≠ staging → (∃ d, IsDb s db d) → (∀ c, ¬ IsSchema s db n c) →
      (createSchema s db n).2 = .ok () ∧ ∃ c, IsSchema (createSchema s db n).1 db n c) := by
  refine ⟨?_, ?_, ?_, ?_⟩
  · intro e; simp [createSchema, e]
  · intro hn hno
    rcases getDb_cases s db with ⟨d, h1, h2⟩ | ⟨h1, h2⟩
    · exact absurd h1 (hno d)
    · simp [createSchema, hn, h2]
  · rintro hn ⟨c, hc1, hc2, d, hd, hd3⟩
    rcases getDb_cases s db with ⟨e, h1, h2⟩ | ⟨h1, h2⟩
    · have := IsDb_unique h hd h1
      subst this
      have hany : s.colls.any (fun c => c.name == n && c.dbId == d.id) = true :=
        List.any_eq_true.2 ⟨c, hc1, by simp [hc2, hd3]⟩
      simp [createSchema, hn, h2, repoCreateColl, hany]
    · exact absurd hd (h1 d)
  · rintro hn ⟨d, hd⟩ hno
    rcases getDb_cases s db with ⟨e, h1, h2⟩ | ⟨h1, h2⟩
    · have := IsDb_unique h hd h1
      subst this
      have hany : s.colls.any (fun c => c.name == n && c.dbId == d.id) = false := by
        rw [List.any_eq_false]
        intro c hc e
        simp only [Bool.and_eq_true, beq_iff_eq] at e
        exact hno c ⟨hc, e.1, d, hd, e.2.symm⟩
      have hfk : s.dbs.any (·.id == d.id) = true := List.any_eq_true.2 ⟨d, hd.1, by simp⟩
      simp only [createSchema, if_neg hn, h2, repoCreateColl, hany, hfk, Bool.false_eq_true, if_false, Bool.not_true]
      exact ⟨trivial, _, List.mem_append.2 (Or.inr (List.mem_singleton.2 rfl)), rfl, d, hd, rfl⟩
    · exact absurd hd (h1 d)

/-- **C32** for schemas: lookup and removal. -/
theorem C32_deleteSchema (s : Cat) (h : WF s) (db n : String) :
    (n = staging → deleteSchema s db n = (s, .error .usedStagingSchema)) ∧
    (n ≠ staging → (∀ c, ¬ IsSchema s db n c) → deleteSchema s db n = (s, .error (.schemaDoesNotExist n))) ∧
    (n ≠ staging → (∃ c, IsSchema s db n c) →
      (deleteSchema s db n).2 = .ok () ∧ ∀ c, ¬ IsSchema (deleteSchema s db n).1 db n c) := by
  refine ⟨?_, ?_, ?_⟩
  · intro e; simp [deleteSchema, getSchema, e]
  · intro hn hno
    rcases getSchema_cases s db n hn with ⟨c, h1, h2⟩ | ⟨h1, h2⟩
    · exact absurd h1 (hno c)
    · simp [deleteSchema, h2]
  · rintro hn ⟨c, hc⟩
    rcases getSchema_cases s db n hn with ⟨e, h1, h2⟩ | ⟨h1, h2⟩
    · have := IsSchema_unique h hc h1
      subst this
      have hany : s.colls.any (·.id == c.id) = true := List.any_eq_true.2 ⟨c, hc.1, by simp⟩
      simp only [deleteSchema, h2, repoDeleteColl, hany, if_true]
      refine ⟨trivial, ?_⟩
      rintro e ⟨he1, he2, d, hd, hd3⟩
      obtain ⟨he3, he4⟩ := List.mem_filter.1 he1
      have : c = e := IsSchema_unique h hc ⟨he3, he2, d, hd, hd3⟩
      subst this
      simp at he4
    · exact absurd hc (h1 c)

/-- **C32** for tables: creation.  The last clause needs the columns to be distinct and the second
statement of `create_table` to reach the database. -/
theorem C32_createTable (s : Cat) (h : WF s) (db sch n : String) (cs : List (String × String)) (u : Nat) (now : Int) (ok : Bool) :
    (sch = staging → createTable s db sch n cs u now ok = (s, .error .usedStagingSchema)) ∧
    (sch ≠ staging → (∀ c, ¬ IsSchema s db sch c) →
      createTable s db sch n cs u now ok = (s, .error (.schemaDoesNotExist sch))) ∧
    (sch ≠ staging → (∃ t, IsTable s db sch n t) →
      createTable s db sch n cs u now ok = (s, .error (.tableAlreadyExists n))) ∧
    (sch ≠ staging → (∃ c, IsSchema s db sch c) → (∀ t, ¬ IsTable s db sch n t) →
      (cs = [] ∨ (ok = true ∧ distinctNames cs = true)) →
      (∃ r, (createTable s db sch n cs u now ok).2 = .ok r) ∧
      ∃ t, IsTable (createTable s db sch n cs u now ok).1 db sch n t ∧ t.uuid = u) := by
  refine ⟨?_, ?_, ?_, ?_⟩
  · intro e; simp [createTable, getSchema, e]
  · intro hn hno
    rcases getSchema_cases s db sch hn with ⟨c, h1, h2⟩ | ⟨h1, h2⟩
    · exact absurd h1 (hno c)
    · simp [createTable, h2]
  · rintro hn ⟨t, ht1, ht2, c, hc, hc3⟩
    rcases getSchema_cases s db sch hn with ⟨e, h1, h2⟩ | ⟨h1, h2⟩
    · have := IsSchema_unique h hc h1
      subst this
      have hany : s.tabs.any (fun t => t.name == n && t.collId == c.id) = true :=
        List.any_eq_true.2 ⟨t, ht1, by simp [ht2, hc3]⟩
      simp [createTable, h2, repoCreateTab, hany]
    · exact absurd hc (h1 c)
  · rintro hn ⟨c, hc⟩ hno hcs
    rcases getSchema_cases s db sch hn with ⟨e, h1, h2⟩ | ⟨h1, h2⟩
    · have := IsSchema_unique h hc h1
      subst this
      have hany : s.tabs.any (fun t => t.name == n && t.collId == c.id) = false := by
        rw [List.any_eq_false]
        intro t ht e
        simp only [Bool.and_eq_true, beq_iff_eq] at e
        exact hno t ⟨ht, e.1, c, hc, e.2.symm⟩
      have hfk : s.colls.any (·.id == c.id) = true := List.any_eq_true.2 ⟨c, hc.1, by simp⟩
      rcases hcs with rfl | ⟨rfl, hd⟩
      · simp only [createTable, h2, repoCreateTab, hany, hfk, Bool.false_eq_true, if_false, Bool.not_true, List.isEmpty_nil, if_true]
        exact ⟨⟨_, rfl⟩, _, ⟨List.mem_append.2 (Or.inr (List.mem_singleton.2 rfl)), rfl, c, hc, rfl⟩, rfl⟩
      · simp only [createTable, h2, repoCreateTab, hany, hfk, Bool.false_eq_true, if_false, Bool.not_true, hd]
        cases hE : cs.isEmpty <;> simp only [Bool.false_eq_true, if_false, if_true] <;>
          exact ⟨⟨_, rfl⟩, _, ⟨List.mem_append.2 (Or.inr (List.mem_singleton.2 rfl)), rfl, c, hc, rfl⟩, rfl⟩
    · exact absurd hc (h1 c)

/-- **C32** for tables: a schema that is said not to exist does not, whatever fails in the database. -/
theorem C32_createTable_error (s : Cat) (db sch n x : String) (cs : List (String × String)) (u : Nat)
    (now : Int) (ok : Bool) (he : (createTable s db sch n cs u now ok).2 = .error (.schemaDoesNotExist x)) :
    x = sch ∧ ∀ c, ¬ IsSchema s db sch c := by
  by_cases hn : sch = staging
  · simp [createTable, getSchema, hn] at he
  · rcases getSchema_cases s db sch hn with ⟨c, h1, h2⟩ | ⟨h1, h2⟩
    · exfalso
      have hfk : s.colls.any (·.id == c.id) = true := List.any_eq_true.2 ⟨c, h1.1, by simp⟩
      simp only [createTable, h2, repoCreateTab, hfk] at he
      cases hu : s.tabs.any (fun t => t.name == n && t.collId == c.id) <;> cases hE : cs.isEmpty <;> cases ok <;>
        cases hd : distinctNames cs <;> simp [hu, hE, hd, genericErr] at he
    · refine ⟨?_, h1⟩
      simp only [createTable, h2] at he
      injection he with he
      injection he with he
      exact he.symm

/-- **C32** for tables: removal and lookup. -/
theorem C32_deleteTable (s : Cat) (h : WF s) (db sch n : String) :
    ((∀ t, ¬ IsTable s db sch n t) → deleteTable s db sch n = (s, .error (.tableDoesNotExist n)) ∧
      deleteOldVersions s db sch n = (s, .error (.tableDoesNotExist n))) ∧
    ((∃ t, IsTable s db sch n t) →
      (deleteTable s db sch n).2 = .ok () ∧ (∀ t, ¬ IsTable (deleteTable s db sch n).1 db sch n t) ∧
      (deleteOldVersions s db sch n).2 = .ok ()) := by
  constructor
  · intro hno
    rcases getTable_cases s db sch n with ⟨c, h1, h2⟩ | ⟨h1, h2⟩
    · exact absurd h1 (hno c)
    · simp [deleteTable, deleteOldVersions, h2]
  · rintro ⟨t, ht⟩
    have hg := (getTable_iff h db sch n t).2 ht
    have hany : s.tabs.any (·.id == t.id) = true := List.any_eq_true.2 ⟨t, ht.1, by simp⟩
    simp only [deleteTable, deleteOldVersions, hg, repoDeleteTab, hany, if_true]
    refine ⟨trivial, ?_, trivial⟩
    rintro e ⟨he1, he2, c, hc, hc3⟩
    obtain ⟨he3, he4⟩ := List.mem_filter.1 he1
    have : t = e := IsTable_unique h ht ⟨he3, he2, c, hc, hc3⟩
    subst this
    simp at he4

/-- **C32** for tables: renaming. -/
theorem C32_rename (s : Cat) (h : WF s) (db os on ns nn : String) :
    ((∀ t, ¬ IsTable s db os on t) → renameTable s db os on ns nn = (s, .error (.tableDoesNotExist on))) ∧
    (∀ t, IsTable s db os on t →
      (ns ≠ os → ns = staging → renameTable s db os on ns nn = (s, .error .usedStagingSchema)) ∧
      (ns ≠ os → ns ≠ staging → (∀ c, ¬ IsSchema s db ns c) →
        renameTable s db os on ns nn = (s, .error (.schemaDoesNotExist ns))) ∧
      ((ns = os ∨ ns ≠ staging) → (∃ t', IsTable s db ns nn t' ∧ t' ≠ t) →
        renameTable s db os on ns nn = (s, .error (.tableAlreadyExists nn))) ∧
      ((ns = os ∨ ns ≠ staging) → (∃ c, IsSchema s db ns c) → (∀ t', IsTable s db ns nn t' → t' = t) →
        (renameTable s db os on ns nn).2 = .ok ())) := by
  constructor
  · intro hno
    rcases getTable_cases s db os on with ⟨c, h1, h2⟩ | ⟨h1, h2⟩
    · exact absurd h1 (hno c)
    · simp [renameTable, h2]
  · intro t ht
    have hg := (getTable_iff h db os on t).2 ht
    -- the target collection
    have htarget : ∀ c, IsSchema s db ns c → (ns = os ∨ ns ≠ staging) →
        ∃ o : Option Nat, o.getD t.collId = c.id ∧
          (∀ s', repoRename s t.id nn o = (s', .ok ()) → renameTable s db os on ns nn = (s', .ok ())) ∧
          (∀ s', repoRename s t.id nn o = (s', .error .unique) →
            renameTable s db os on ns nn = (s', .error (.tableAlreadyExists nn))) := by
      intro c hc hor
      by_cases e : ns = os
      · subst e
        obtain ⟨_, _, c', hc', e'⟩ := ht
        have := IsSchema_unique h hc hc'
        subst this
        refine ⟨none, by simp [e'], ?_, ?_⟩ <;> intro s' hs <;> simp [renameTable, hg, hs]
      · have hst : ns ≠ staging := hor.resolve_left e
        rcases getSchema_cases s db ns hst with ⟨c', h1, h2⟩ | ⟨h1, h2⟩
        · have := IsSchema_unique h hc h1
          subst this
          refine ⟨some c.id, rfl, ?_, ?_⟩ <;> intro s' hs <;> simp [renameTable, hg, e, h2, hs]
        · exact absurd hc (h1 c)
    have hfind : s.tabs.find? (·.id == t.id) = some t := by
      cases hf : s.tabs.find? (·.id == t.id) with
      | none =>
        rw [List.find?_eq_none] at hf
        exact absurd (by simp) (hf t ht.1)
      | some u =>
        obtain ⟨h1, h2⟩ := find_some hf
        simp only [beq_iff_eq] at h2
        rw [eq_of_pairwise h.tabIds h1 ht.1 (by simp [h2]) (by simp [h2])]
    refine ⟨?_, ?_, ?_, ?_⟩
    · intro e1 e2
      subst e2
      simp [renameTable, hg, e1, getSchema]
    · intro e1 e2 hno
      rcases getSchema_cases s db ns e2 with ⟨c', h1, h2⟩ | ⟨h1, h2⟩
      · exact absurd h1 (hno c')
      · simp [renameTable, hg, e1, h2]
    · rintro hor ⟨t', ⟨ht1, ht2, c, hc, hc3⟩, hne⟩
      obtain ⟨o, ho, _, hr⟩ := htarget c hc hor
      have hidne : t'.id ≠ t.id := fun e => hne (eq_of_pairwise h.tabIds ht1 ht.1 (by simp [e]) (by simp [e]))
      have hany : s.tabs.any (fun u => u.id != t.id && u.name == nn && u.collId == o.getD t.collId) = true :=
        List.any_eq_true.2 ⟨t', ht1, by simp [hidne, ht2, ho, hc3]⟩
      exact hr s (by simp only [repoRename, hfind, hany, if_true])
    · rintro hor ⟨c, hc⟩ hno
      obtain ⟨o, ho, hr, _⟩ := htarget c hc hor
      have hany : s.tabs.any (fun u => u.id != t.id && u.name == nn && u.collId == o.getD t.collId) = false := by
        rw [List.any_eq_false]
        intro u hu e
        simp only [Bool.and_eq_true, bne_iff_ne, ne_eq, beq_iff_eq] at e
        have := hno u ⟨hu, e.1.2, c, hc, by rw [← ho, e.2]⟩
        exact e.1.1 (by rw [this])
      have hfk : s.colls.any (·.id == o.getD t.collId) = true := List.any_eq_true.2 ⟨c, hc.1, by simp [ho]⟩
      rw [hr _ (by simp only [repoRename, hfind, hany, hfk, Bool.false_eq_true, if_false, Bool.not_true]; rfl)]

/-- **C32** for functions. -/
theorem C32_createFunction (s : Cat) (h : WF s) (db n : String) (o : Bool) (d : String) :
    ((∀ x, ¬ IsDb s db x) → createFunction s db n o d = (s, .error (.catalogDoesNotExist db))) ∧
    ((∃ f, IsFn s db n f) → o = false → createFunction s db n o d = (s, .error (.functionAlreadyExists n))) ∧
    ((∃ x, IsDb s db x) → ((∀ f, ¬ IsFn s db n f) ∨ o = true) → (createFunction s db n o d).2 = .ok ()) := by
  refine ⟨?_, ?_, ?_⟩
  · intro hno
    rcases getDb_cases s db with ⟨e, h1, h2⟩ | ⟨h1, h2⟩
    · exact absurd h1 (hno e)
    · simp [createFunction, h2]
  · rintro ⟨f, hf1, hf2, x, hx, hx3⟩ ho
    rcases getDb_cases s db with ⟨e, h1, h2⟩ | ⟨h1, h2⟩
    · have := IsDb_unique h hx h1
      subst this
      cases hfind : s.fns.find? (fun f => f.name == n && f.dbId == x.id) with
      | none =>
        rw [List.find?_eq_none] at hfind
        exact absurd (by simp [hf2, hx3]) (hfind f hf1)
      | some g => simp [createFunction, h2, repoCreateFn, hfind, ho]
    · exact absurd hx (h1 x)
  · rintro ⟨x, hx⟩ hor
    rcases getDb_cases s db with ⟨e, h1, h2⟩ | ⟨h1, h2⟩
    · have := IsDb_unique h hx h1
      subst this
      have hfk : s.dbs.any (·.id == x.id) = true := List.any_eq_true.2 ⟨x, hx.1, by simp⟩
      cases hfind : s.fns.find? (fun f => f.name == n && f.dbId == x.id) with
      | none => simp [createFunction, h2, repoCreateFn, hfind, hfk]
      | some g =>
        obtain ⟨g1, g2⟩ := find_some hfind
        simp only [Bool.and_eq_true, beq_iff_eq] at g2
        rcases hor with hno | ho
        · exact absurd ⟨g1, g2.1, x, hx, g2.2.symm⟩ (hno g)
        · simp [createFunction, h2, repoCreateFn, hfind, ho]
    · exact absurd hx (h1 x)

theorem repoErr_unchanged :
    (∀ s n e s', repoCreateDb s n = (s', .error e) → s' = s) ∧
    (∀ s d n e s', repoCreateColl s d n = (s', .error e) → s' = s) ∧
    (∀ s i n c e s', repoRename s i n c = (s', .error e) → s' = s) ∧
    (∀ s i e s', repoDeleteTab s i = (s', .error e) → s' = s) ∧
    (∀ s i e s', repoDeleteColl s i = (s', .error e) → s' = s) ∧
    (∀ s i e s', repoDeleteDb s i = (s', .error e) → s' = s) ∧
    (∀ s d n o x e s', repoCreateFn s d n o x = (s', .error e) → s' = s) ∧
    (∀ s d ns e s', repoDropFn s d ns = (s', .error e) → s' = s) := by
  refine ⟨?_, ?_, ?_, ?_, ?_, ?_, ?_, ?_⟩
  · intro s n e s' h; simp only [repoCreateDb] at h; split at h <;> simp_all
  · intro s d n e s' h; simp only [repoCreateColl] at h; split at h <;> (try split at h) <;> simp_all
  · intro s i n c e s' h
    simp only [repoRename] at h
    split at h
    · simp_all
    · split at h <;> (try split at h) <;> simp_all
  · intro s i e s' h; simp only [repoDeleteTab] at h; split at h <;> simp_all
  · intro s i e s' h; simp only [repoDeleteColl] at h; split at h <;> simp_all
  · intro s i e s' h; simp only [repoDeleteDb] at h; split at h <;> simp_all
  · intro s d n o x e s' h
    simp only [repoCreateFn] at h
    split at h
    · split at h <;> simp_all
    · split at h <;> simp_all
  · intro s d ns e s' h; simp only [repoDropFn] at h; split at h <;> simp_all

theorem repoCreateTab_unchanged (s : Cat) (n : String) (cs : List (String × String)) (u : Nat) (now : Int)
    (hd : distinctNames cs = true) : ∀ i e s', repoCreateTab s i n cs u now true = (s', .error e) → s' = s := by
  intro i e s' hr
  simp only [repoCreateTab, hd, Bool.not_true, Bool.false_eq_true, if_false] at hr
  split at hr
  · simp only [Prod.mk.injEq] at hr; exact hr.1.symm
  · split at hr
    · simp only [Prod.mk.injEq] at hr; exact hr.1.symm
    · split at hr <;> simp at hr

theorem repoNewVersion_unchanged (s : Cat) (u : Nat) (v now : Int) :
    ∀ e s', repoNewVersion s u v now true = (s', .error e) → s' = s := by
  intro e s' hr
  simp only [repoNewVersion, Bool.not_true, Bool.false_eq_true, if_false] at hr
  split at hr
  · simp only [Prod.mk.injEq] at hr; exact hr.1.symm
  · split at hr
    · simp only [Prod.mk.injEq] at hr; exact hr.1.symm
    · simp at hr

/-- If `r` is an error, it leaves `s` as it is. -/
def Unch {α : Type} (s : Cat) (r : Cat × Except CatErr α) : Prop := ∀ e, r.2 = .error e → r.1 = s

theorem unch_ok {α : Type} {s s' : Cat} {a : α} : Unch s (s', .ok a) := by intro e h; simp at h

theorem unch_of {α : Type} {s s' : Cat} {r : Except CatErr α} (h : s' = s) : Unch s (s', r) := fun _ _ => h

theorem unch_exec {α : Type} {s : Cat} {r : Cat × Except CatErr α} (h : Unch s r) :
    ∀ o, (r.1, errOf r.2) = o → ∀ e, o.2 = some e → o.1 = s := by
  rintro o rfl e he
  obtain ⟨s', v⟩ := r
  cases v with
  | ok a => simp [errOf] at he
  | error x => exact h x rfl

/-- **C32** (`_partial`: `createTable` and `newVersion` are only covered if their second statement, which
inserts the columns, reaches the database and the column names are distinct): an operation that reports an
error changes nothing. -/
theorem C32_error_unchanged_partial (s : Cat) (op : Op) (e : CatErr) (h : (exec s op).2 = some e)
    (ht : ∀ db sch n cs u now ok, op = .createTable db sch n cs u now ok → ok = true ∧ distinctNames cs = true)
    (hv : ∀ u v now ok, op = .newVersion u v now ok → ok = true) : (exec s op).1 = s := by
  obtain ⟨r1, r2, r3, r4, r5, r6, r7, r8⟩ := repoErr_unchanged
  suffices hs : ∀ o : Cat × Option CatErr, exec s op = o → ∀ e', o.2 = some e' → o.1 = s from hs _ rfl e h
  cases op with
  | createDb n =>
    refine unch_exec (s := s) (r := createDb s n) ?_
    unfold createDb
    split
    · exact unch_ok
    · next heq => exact unch_of (r1 _ _ _ _ heq)
    · next heq => exact unch_of (r1 _ _ _ _ heq)
  | deleteDb n =>
    refine unch_exec (s := s) (r := deleteDb s n) ?_
    unfold deleteDb
    split
    · exact unch_of rfl
    · split
      · exact unch_ok
      · next heq => exact unch_of (r6 _ _ _ _ heq)
      · next heq => exact unch_of (r6 _ _ _ _ heq)
  | createSchema db n =>
    refine unch_exec (s := s) (r := createSchema s db n) ?_
    unfold createSchema
    split
    · exact unch_of rfl
    · split
      · exact unch_of rfl
      · split
        · exact unch_ok
        · next heq => exact unch_of (r2 _ _ _ _ _ heq)
        · next heq => exact unch_of (r2 _ _ _ _ _ heq)
  | deleteSchema db n =>
    refine unch_exec (s := s) (r := deleteSchema s db n) ?_
    unfold deleteSchema
    split
    · exact unch_of rfl
    · split
      · exact unch_ok
      · next heq => exact unch_of (r5 _ _ _ _ heq)
      · next heq => exact unch_of (r5 _ _ _ _ heq)
  | createTable db sch n cs u now ok =>
    obtain ⟨rfl, hd⟩ := ht _ _ _ _ _ _ _ rfl
    have r9 := repoCreateTab_unchanged s n cs u now hd
    refine unch_exec (s := s) (r := createTable s db sch n cs u now true) ?_
    unfold createTable
    split
    · exact unch_of rfl
    · split
      · exact unch_ok
      · next heq => exact unch_of (r9 _ _ _ heq)
      · next heq => exact unch_of (r9 _ _ _ heq)
      · next heq => exact unch_of (r9 _ _ _ heq)
  | newVersion u v now ok =>
    have := hv _ _ _ _ rfl
    subst this
    have r9 := repoNewVersion_unchanged s u v now
    refine unch_exec (s := s) (r := newVersion s u v now true) ?_
    unfold newVersion
    split
    · exact unch_ok
    · next heq => exact unch_of (r9 _ _ heq)
    · next heq => exact unch_of (r9 _ _ heq)
  | deleteOldVersions db sch n =>
    refine unch_exec (s := s) (r := deleteOldVersions s db sch n) ?_
    unfold deleteOldVersions
    split
    · exact unch_of rfl
    · exact unch_ok
  | renameTable db os on ns nn =>
    refine unch_exec (s := s) (r := renameTable s db os on ns nn) ?_
    unfold renameTable
    split
    · exact unch_of rfl
    · extract_lets tgt
      clear_value tgt
      split
      · exact unch_of rfl
      · split
        · exact unch_ok
        · next heq => exact unch_of (r3 _ _ _ _ _ _ heq)
        · next heq => exact unch_of (r3 _ _ _ _ _ _ heq)
        · next heq => exact unch_of (r3 _ _ _ _ _ _ heq)
        · next heq => exact unch_of (r3 _ _ _ _ _ _ heq)
  | deleteTable db sch n =>
    refine unch_exec (s := s) (r := deleteTable s db sch n) ?_
    unfold deleteTable
    split
    · exact unch_of rfl
    · split
      · exact unch_ok
      · next heq => exact unch_of (r4 _ _ _ _ heq)
      · next heq => exact unch_of (r4 _ _ _ _ heq)
  | createFunction db n o d =>
    refine unch_exec (s := s) (r := createFunction s db n o d) ?_
    unfold createFunction
    split
    · exact unch_of rfl
    · split
      · exact unch_ok
      · next heq => exact unch_of (r7 _ _ _ _ _ _ _ heq)
      · next heq => exact unch_of (r7 _ _ _ _ _ _ _ heq)
      · next heq => exact unch_of (r7 _ _ _ _ _ _ _ heq)
  | deleteFunctions db i ns =>
    refine unch_exec (s := s) (r := deleteFunctions s db i ns) ?_
    unfold deleteFunctions
    split
    · exact unch_of rfl
    · split
      · exact unch_ok
      · next heq => exact unch_of (r8 _ _ _ _ _ heq)
      · next heq => split <;> exact unch_of (r8 _ _ _ _ _ heq)
      · next heq => exact unch_of (r8 _ _ _ _ _ heq)

/-- **C32 does not hold** for `createTable`: with a repeated column name the error says that the table
exists already, although it did not, and the table has been created (without columns). -/
theorem C32_violated_columns :
    (∀ t, ¬ IsTable exCat "default" "s2" "new" t) ∧
    (createTable exCat "default" "s2" "new" [("a", "int"), ("a", "int")] 80 105 true).2 = .error (.tableAlreadyExists "new") ∧
    (∃ t, IsTable (createTable exCat "default" "s2" "new" [("a", "int"), ("a", "int")] 80 105 true).1 "default" "s2" "new" t) := by
  refine ⟨?_, by decide +kernel, ?_⟩
  · rintro t ⟨h1, h2, _⟩
    simp only [exCat, List.mem_cons, List.not_mem_nil, or_false] at h1
    rcases h1 with rfl | rfl <;> simp at h2
  · refine ⟨⟨3, 2, "new", 80⟩, by decide +kernel, rfl, ⟨2, 1, "s2"⟩, ⟨by decide +kernel, rfl, ⟨1, "default"⟩, ⟨by decide +kernel, rfl⟩, rfl⟩, rfl⟩

/-- **C32 does not hold** for `newVersion`: an unknown UUID is reported as an internal SQL error, not as
`TableUuidDoesNotExist`. -/
theorem C32_violated_uuid : (∀ t ∈ exCat.tabs, t.uuid ≠ 999) ∧
    (newVersion exCat 999 1 105 true).2 = .error .sqlx := by
  refine ⟨?_, by decide +kernel⟩
  intro t ht
  simp only [exCat, List.mem_cons, List.not_mem_nil, or_false] at ht
  rcases ht with rfl | rfl <;> simp

/-! ### C33 -/

/-- **C33**: a successful rename keeps everything but the name and schema of the table: its id and UUID,
all versions and columns, and every other table. -/
theorem C33_rename (s s' : Cat) (h : WF s) (db os on ns nn : String) (hr : renameTable s db os on ns nn = (s', .ok ())) :
    ∃ t, IsTable s db os on t ∧
      (∃ t', IsTable s' db ns nn t' ∧ t'.id = t.id ∧ t'.uuid = t.uuid) ∧
      ((os, on) ≠ (ns, nn) → ∀ u, ¬ IsTable s' db os on u) ∧
      s'.vers = s.vers ∧ s'.cols = s.cols ∧ s'.dbs = s.dbs ∧ s'.colls = s.colls ∧ s'.fns = s.fns ∧
      (∀ db' sch n u, u.id ≠ t.id → (IsTable s' db' sch n u ↔ IsTable s db' sch n u)) := by
  rcases getTable_cases s db os on with ⟨t, ht, hg⟩ | ⟨_, hg⟩
  · refine ⟨t, ht, ?_⟩
    -- the target collection
    have hstep : ∃ (o : Option Nat) (c : Coll), IsSchema s db ns c ∧ o.getD t.collId = c.id ∧ repoRename s t.id nn o = (s', .ok ()) := by
      simp only [renameTable, hg] at hr
      split at hr
      · simp at hr
      · next o ho =>
        have hro : repoRename s t.id nn o = (s', .ok ()) := by
          split at hr
          · next s1 x heq => simp only [Prod.mk.injEq] at hr; rw [heq, hr.1]
          · simp at hr
          · simp at hr
          · simp at hr
          · simp at hr
        by_cases e : ns = os
        · subst e
          simp only [ne_eq, not_true_eq_false, if_false, Except.ok.injEq] at ho
          subst ho
          obtain ⟨_, _, c, hc, e'⟩ := ht
          exact ⟨none, c, hc, by simp [e'], hro⟩
        · rw [if_pos e] at ho
          by_cases hst : ns = staging
          · simp [getSchema, hst] at ho
          · rcases getSchema_cases s db ns hst with ⟨c, h1, h2⟩ | ⟨h1, h2⟩
            · rw [h2] at ho
              simp only [Except.ok.injEq] at ho
              subst ho
              exact ⟨some c.id, c, h1, rfl, hro⟩
            · rw [h2] at ho; simp at ho
    obtain ⟨o, c, hc, hoc, hro⟩ := hstep
    have hfind : s.tabs.find? (·.id == t.id) = some t := by
      cases hf : s.tabs.find? (·.id == t.id) with
      | none =>
        rw [List.find?_eq_none] at hf
        exact absurd (by simp) (hf t ht.1)
      | some u =>
        obtain ⟨h1, h2⟩ := find_some hf
        simp only [beq_iff_eq] at h2
        rw [eq_of_pairwise h.tabIds h1 ht.1 (by simp [h2]) (by simp [h2])]
    simp only [repoRename, hfind, hoc] at hro
    split at hro
    · simp at hro
    · next hany =>
      split at hro
      · simp at hro
      · simp only [Prod.mk.injEq, and_true] at hro
        subst hro
        -- lookups of schemas are unchanged
        have hmem : ∀ u : Tab, u.id ≠ t.id →
            (u ∈ s.tabs.map (fun u => if u.id = t.id then { u with name := nn, collId := c.id } else u) ↔ u ∈ s.tabs) := by
          intro u hu
          rw [List.mem_map]
          constructor
          · rintro ⟨w, hw, rfl⟩
            by_cases e : w.id = t.id
            · simp [e] at hu
            · simpa [e] using hw
          · intro hw; exact ⟨u, hw, by simp [hu]⟩
        have hmemt : ∀ u : Tab, u.id = t.id →
            (u ∈ s.tabs.map (fun u => if u.id = t.id then { u with name := nn, collId := c.id } else u) →
              u = { t with name := nn, collId := c.id }) := by
          intro u hu hm
          obtain ⟨w, hw, rfl⟩ := List.mem_map.1 hm
          by_cases e : w.id = t.id
          · have : w = t := eq_of_pairwise h.tabIds hw ht.1 (by simp [e]) (by simp [e])
            subst this; simp
          · simp [e] at hu
        refine ⟨⟨{ t with name := nn, collId := c.id }, ⟨?_, rfl, c, hc, rfl⟩, rfl, rfl⟩, ?_, rfl, rfl, rfl, rfl, rfl, ?_⟩
        · exact List.mem_map.2 ⟨t, ht.1, by simp⟩
        · rintro hne u ⟨hu1, hu2, c', hc', e'⟩
          by_cases e : u.id = t.id
          · have := hmemt u e hu1
            subst this
            simp only at hu2 e'
            have hcc : c' = c := eq_of_pairwise h.collIds hc'.1 hc.1 (by simp [e']) (by simp [e'])
            subst hcc
            apply hne
            have : os = ns := by rw [← hc.2.1]; exact hc'.2.1.symm
            rw [this, hu2]
          · have hu := (hmem u e).1 hu1
            have : t = u := IsTable_unique h ht ⟨hu, hu2, c', hc', e'⟩
            exact e (by rw [this])
        · intro db' sch n u hu
          constructor
          · rintro ⟨h1, h2, h3⟩
            exact ⟨(hmem u hu).1 h1, h2, h3⟩
          · rintro ⟨h1, h2, h3⟩
            exact ⟨(hmem u hu).2 h1, h2, h3⟩
  · simp [renameTable, hg] at hr

/-- The table `public.t` moves to schema `s2` as `u`. -/
example : (renameTable exCat "default" "public" "t" "s2" "u").2 = .ok () ∧
    (renameTable exCat "default" "public" "t" "s2" "u").1.tabs = [⟨1, 2, "u", 77⟩, ⟨2, 2, "t", 79⟩] := by decide +kernel

/-- Moving it onto the existing `s2.t` is refused. -/
example : renameTable exCat "default" "public" "t" "s2" "t" = (exCat, .error (.tableAlreadyExists "t")) := by decide +kernel

end Seafowl.Catalog
