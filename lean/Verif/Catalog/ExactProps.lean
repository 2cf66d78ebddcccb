import Verif.Catalog.HistProps

/-!
# C32 and C34: exactly when they fail

`CatalogProps.lean` and `HistProps.lean` show single states in which an error of the catalog leaves a table behind, is
the wrong one, or in which the vacuum deletes the current version.  Here: in every state, under exactly which
conditions.
-/

namespace Seafowl.Catalog

set_option linter.unusedSimpArgs false

/-! ### C32 -/

/-- The test of the unique constraint is what it should be. -/
theorem distinct_iff (cs : List (String × String)) : distinctNames cs = true ↔ (cs.map (·.1)).Nodup := by
  induction cs with
  | nil => simp [distinctNames]
  | cons c cs ih =>
    simp only [distinctNames, Bool.and_eq_true, Bool.not_eq_true', ih, List.map_cons, List.nodup_cons, List.mem_map,
      List.any_eq_false, beq_iff_eq]
    constructor
    · rintro ⟨h1, h2⟩
      exact ⟨fun ⟨x, hx, e⟩ => h1 x hx e, h2⟩
    · rintro ⟨h1, h2⟩
      exact ⟨fun x hx e => h1 ⟨x, hx, e⟩, h2⟩

/-- **C32 does not hold** for `createTable`, in every state: if the schema exists, has no table of that name, and two
columns have the same name or the statement inserting the columns fails, then an error is reported — in the first
case that the table exists already — but the table was created, without columns; and creating it again, properly,
is refused. -/
theorem C32_violated_always (s : Cat) (h : WF s) (db sch n : String) (cs : List (String × String)) (u : Nat) (now : Int)
    (ok : Bool) (hn : sch ≠ staging) (hs : ∃ c, IsSchema s db sch c) (hno : ∀ t, ¬ IsTable s db sch n t)
    (hcs : cs ≠ []) (hbad : ok = false ∨ ¬ (cs.map (·.1)).Nodup) :
    (createTable s db sch n cs u now ok).2 = .error (if ok then .tableAlreadyExists n else .sqlx) ∧
    (∃ t v, IsTable (createTable s db sch n cs u now ok).1 db sch n t ∧ t.uuid = u ∧
      Current (createTable s db sch n cs u now ok).1 t.id v ∧ colsOf (createTable s db sch n cs u now ok).1 v.id = []) ∧
    ∀ cs' u' now' ok', createTable (createTable s db sch n cs u now ok).1 db sch n cs' u' now' ok' =
      ((createTable s db sch n cs u now ok).1, .error (.tableAlreadyExists n)) := by
  obtain ⟨c, hc⟩ := hs
  have hwf : WF (createTable s db sch n cs u now ok).1 := C31_step s h (.createTable db sch n cs u now ok)
  rcases getSchema_cases s db sch hn with ⟨e, h1, h2⟩ | ⟨h1, h2⟩
  · have := IsSchema_unique h hc h1
    subst this
    have hany : s.tabs.any (fun t => t.name == n && t.collId == c.id) = false := by
      rw [List.any_eq_false]
      intro t ht e
      simp only [Bool.and_eq_true, beq_iff_eq] at e
      exact hno t ⟨ht, e.1, c, hc, e.2.symm⟩
    have hfk : s.colls.any (·.id == c.id) = true := List.any_eq_true.2 ⟨c, hc.1, by simp⟩
    have hE : cs.isEmpty = false := by cases cs with | nil => exact absurd rfl hcs | cons => rfl
    have hd : ok = true → distinctNames cs = false := by
      intro e
      rcases hbad with hb | hb
      · rw [e] at hb; exact absurd hb (by simp)
      · cases hd : distinctNames cs with
        | false => rfl
        | true => exact absurd ((distinct_iff cs).1 hd) hb
    have hres : createTable s db sch n cs u now ok =
        ({ s with
            tabs := s.tabs ++ [{ id := newId (s.tabs.map (·.id)), collId := c.id, name := n, uuid := u }]
            vers := s.vers ++ [{ id := newId (s.vers.map (·.id)), tableId := newId (s.tabs.map (·.id)), version := 0, time := now }] },
          .error (if ok then .tableAlreadyExists n else .sqlx)) := by
      cases ok with
      | false => simp [createTable, h2, repoCreateTab, hany, hfk, hE, genericErr]
      | true => simp [createTable, h2, repoCreateTab, hany, hfk, hE, hd rfl]
    have ht : IsTable (createTable s db sch n cs u now ok).1 db sch n
        { id := newId (s.tabs.map (·.id)), collId := c.id, name := n, uuid := u } := by
      rw [hres]
      exact ⟨List.mem_append.2 (Or.inr (List.mem_singleton.2 rfl)), rfl, c, hc, rfl⟩
    refine ⟨by rw [hres], ⟨_, { id := newId (s.vers.map (·.id)), tableId := newId (s.tabs.map (·.id)), version := 0, time := now },
      ht, rfl, ?_, ?_⟩, ?_⟩
    · rw [hres]
      refine ⟨List.mem_append.2 (Or.inr (List.mem_singleton.2 rfl)), rfl, ?_⟩
      intro w hw _
      rcases List.mem_append.1 hw with hw | hw
      · exact Nat.le_of_lt (lt_newId_map (fun x => x.id) hw)
      · simp only [List.mem_singleton] at hw
        subst hw
        exact Nat.le_refl _
    · rw [hres]
      simp only [colsOf, List.map_eq_nil_iff, List.filter_eq_nil_iff]
      intro x hx e
      obtain ⟨w, hw, e2⟩ := h.colParent x hx
      have hlt : w.id < newId (s.vers.map (fun x => x.id)) := lt_newId_map (fun x => x.id) hw
      simp only [beq_iff_eq] at e
      omega
    · intro cs' u' now' ok'
      exact (C32_createTable _ hwf db sch n cs' u' now' ok').2.2.1 hn ⟨_, ht⟩
  · exact absurd hc (h1 c)

/-- A case: the repeated column of `C32_violated_columns`. -/
example : (createTable exCat "default" "s2" "new" [("a", "int"), ("a", "int")] 80 105 true).2 = .error (.tableAlreadyExists "new") ∧
    (createTable (createTable exCat "default" "s2" "new" [("a", "int"), ("a", "int")] 80 105 true).1
      "default" "s2" "new" [("a", "int"), ("b", "int")] 81 106 true).2 = .error (.tableAlreadyExists "new") := by
  constructor <;> decide +kernel

/-- **C32 does not hold** for `newVersion`, in every state: an unknown UUID is always reported as an internal SQL
error, never as `TableUuidDoesNotExist`; no error of `newVersion` ever is. -/
theorem C32_uuid_always (s : Cat) (u : Nat) (version now : Int) (ok : Bool) :
    ((∀ t ∈ s.tabs, t.uuid ≠ u) → newVersion s u version now ok = (s, .error .sqlx)) ∧
    ∀ s' e, newVersion s u version now ok = (s', .error e) → e = .sqlx := by
  constructor
  · intro hno
    have hlast : lastVersion s u = none := by
      simp only [lastVersion, maxOf_none, List.map_eq_nil_iff, List.filter_eq_nil_iff]
      intro v _ hany
      obtain ⟨t, ht, e⟩ := List.any_eq_true.1 hany
      simp only [Bool.and_eq_true, beq_iff_eq] at e
      exact hno t ht e.2
    simp [newVersion, repoNewVersion, hlast, genericErr]
  · intro s' e he
    cases hl : lastVersion s u with
    | none =>
      simp only [newVersion, repoNewVersion, hl, genericErr, Prod.mk.injEq, Except.error.injEq] at he
      exact he.2.symm
    | some i =>
      obtain ⟨hm, _⟩ := (maxOf_some _ _).1 hl
      obtain ⟨v, hv, rfl⟩ := List.mem_map.1 hm
      cases hf : s.vers.find? (fun w => w.id == v.id) with
      | none =>
        rw [List.find?_eq_none] at hf
        exact absurd (by simp) (hf v (List.mem_filter.1 hv).1)
      | some w =>
        cases ok with
        | false =>
          simp [newVersion, repoNewVersion, hl, hf, genericErr] at he
          exact he.2.symm
        | true => simp [newVersion, repoNewVersion, hl, hf] at he

/-! ### C34 -/

/-- `v` is the version of table `tid` the vacuum keeps: the one created last, and of those created at the same time
the one with the largest identifier. -/
def Youngest (s : Cat) (tid : Nat) (v : Ver) : Prop :=
  v ∈ s.vers ∧ v.tableId = tid ∧ ∀ w ∈ s.vers, w.tableId = tid → w.time < v.time ∨ (w.time = v.time ∧ w.id ≤ v.id)

theorem newest_iff (s : Cat) (v : Ver) (hv : v ∈ s.vers) : isNewest s.vers v = true ↔ Youngest s v.tableId v := by
  simp only [isNewest, List.all_eq_true, Bool.or_eq_true, bne_iff_ne, ne_eq, decide_eq_true_eq, Youngest]
  constructor
  · intro hall
    refine ⟨hv, trivial, fun w hw e => ?_⟩
    rcases hall w hw with h1 | h1
    · exact absurd e h1
    · exact h1
  · rintro ⟨_, _, h3⟩ w hw
    by_cases e : w.tableId = v.tableId
    · exact Or.inr (h3 w hw e)
    · exact Or.inl e

/-- **C34**: what `VACUUM TABLE` does, whatever the clock did: of the versions of the table it keeps exactly the youngest
one, with its columns, and nothing else changes. -/
theorem C34_vacuum_exact (s s' : Cat) (h : WF s) (db sch n : String) (hr : deleteOldVersions s db sch n = (s', .ok ())) :
    ∃ t, IsTable s db sch n t ∧
      (∀ v, v ∈ s'.vers ↔ v ∈ s.vers ∧ (v.tableId = t.id → Youngest s t.id v)) ∧
      (∀ v ∈ s'.vers, colsOf s' v.id = colsOf s v.id) ∧
      (∀ i, i ≠ t.id → ∀ v, Current s' i v ↔ Current s i v) ∧
      s'.tabs = s.tabs ∧ s'.colls = s.colls ∧ s'.dbs = s.dbs ∧ s'.fns = s.fns := by
  rcases getTable_cases s db sch n with ⟨t, ht, hg⟩ | ⟨_, hg⟩
  · refine ⟨t, ht, ?_⟩
    simp only [deleteOldVersions, hg, Prod.mk.injEq, and_true] at hr
    subst hr
    have hmem : ∀ v, v ∈ (repoDeleteOld s t.id).vers ↔ v ∈ s.vers ∧ (v.tableId = t.id → Youngest s t.id v) := by
      intro v
      simp only [repoDeleteOld, List.mem_filter, Bool.not_eq_true', and_congr_right_iff]
      intro hv
      rw [← Bool.not_eq_true, List.contains_iff_mem, List.mem_map]
      constructor
      · intro hno e
        cases hn : isNewest s.vers v with
        | true => rw [← e]; exact (newest_iff s v hv).1 hn
        | false => exact absurd ⟨v, List.mem_filter.2 ⟨hv, by simp [hn, e]⟩, rfl⟩ hno
      · rintro hcur ⟨w, hw, ew⟩
        obtain ⟨hw1, hw2⟩ := List.mem_filter.1 hw
        have : w = v := eq_of_pairwise h.verIds hw1 hv (by simp [ew]) (by simp [ew])
        subst this
        simp only [Bool.and_eq_true, beq_iff_eq, Bool.not_eq_true'] at hw2
        have hc := hcur hw2.1
        rw [← hw2.1] at hc
        rw [(newest_iff s w hv).2 hc] at hw2
        simp at hw2
    refine ⟨hmem, ?_, ?_, rfl, rfl, rfl, rfl⟩
    · intro v hv
      have hkeep : ∀ (c : Col), c.verId = v.id →
          (!((s.vers.filter (fun v => v.tableId == t.id && !isNewest s.vers v)).map (·.id)).contains c.verId) = true := by
        intro c hc
        rw [hc]
        exact (List.mem_filter.1 hv).2
      simp only [colsOf, repoDeleteOld, List.filter_filter]
      congr 1
      apply List.filter_congr
      intro c _
      by_cases e : c.verId = v.id
      · rw [hkeep c e]; simp
      · simp [e]
    · intro i hi v
      constructor
      · rintro ⟨h1, h2, h3⟩
        refine ⟨((hmem v).1 h1).1, h2, fun w hw hwt => ?_⟩
        exact h3 w ((hmem w).2 ⟨hw, fun e2 => absurd (hwt.symm.trans e2) hi⟩) hwt
      · rintro ⟨h1, h2, h3⟩
        refine ⟨(hmem v).2 ⟨h1, fun e => absurd (h2.symm.trans e) hi⟩, h2, ?_⟩
        intro w hw hwt
        exact h3 w ((hmem w).1 hw).1 hwt
  · simp [deleteOldVersions, hg] at hr

/-- **C34**: hence `VACUUM TABLE` keeps the version that lookups use exactly if no version of the table was created
later than that one, i.e. the clock of the database had not stepped back before it was written; otherwise lookups
then use another, older version. -/
theorem C34_vacuum_iff (s s' : Cat) (h : WF s) (db sch n : String) (t : Tab) (ht : IsTable s db sch n t) (v : Ver)
    (hv : Current s t.id v) (hr : deleteOldVersions s db sch n = (s', .ok ())) :
    (v ∈ s'.vers ↔ ∀ w ∈ s.vers, w.tableId = t.id → w.time ≤ v.time) ∧
    (v ∈ s'.vers → Current s' t.id v) ∧
    (v ∉ s'.vers → ∃ w, Current s' t.id w ∧ w.id < v.id ∧ v.time < w.time) := by
  obtain ⟨t', ht', hmem, _⟩ := C34_vacuum_exact s s' h db sch n hr
  have htt : t' = t := IsTable_unique h ht' ht
  subst htt
  have hy : Youngest s t'.id v ↔ ∀ w ∈ s.vers, w.tableId = t'.id → w.time ≤ v.time := by
    constructor
    · intro hY w hw e
      have := hY.2.2 w hw e
      omega
    · intro hall
      refine ⟨hv.1, hv.2.1, fun w hw e => ?_⟩
      have h1 := hall w hw e
      have h2 := hv.2.2 w hw e
      omega
  have hiff : v ∈ s'.vers ↔ ∀ w ∈ s.vers, w.tableId = t'.id → w.time ≤ v.time := by
    rw [hmem v, ← hy]
    exact ⟨fun ⟨_, hh⟩ => hh hv.2.1, fun hh => ⟨hv.1, fun _ => hh⟩⟩
  refine ⟨hiff, fun hin => ⟨hin, hv.2.1, fun w hw e => hv.2.2 w ((hmem w).1 hw).1 e⟩, fun hout => ?_⟩
  obtain ⟨m, hm1, hm2, hm3⟩ := newest_exists s.vers v hv.1
  have hmt : m.tableId = t'.id := hm2.trans hv.2.1
  have hmY : Youngest s t'.id m := by rw [← hmt]; exact (newest_iff s m hm1).1 hm3
  have hms : m ∈ s'.vers := (hmem m).2 ⟨hm1, fun _ => hmY⟩
  have hne : m ≠ v := fun e => hout (e ▸ hms)
  have hidne : m.id ≠ v.id := fun e => hne (eq_of_pairwise h.verIds hm1 hv.1 (by simp [e]) (by simp [e]))
  have hle := hv.2.2 m hm1 hmt
  refine ⟨m, ⟨hms, hmt, fun w hw e => ?_⟩, by omega, ?_⟩
  · obtain ⟨hw1, hw2⟩ := (hmem w).1 hw
    have hwY := hw2 e
    have a := hwY.2.2 m hm1 hmt
    have b := hmY.2.2 w hw1 e
    omega
  · have := hmY.2.2 v hv.1 hv.2.1
    omega

/-- A case: in the state of `C34_violated_clock` the third version is the current one and was created earlier than the
second one. -/
example : let s := (newVersion exCat 77 3 50 true).1
    let s' := (deleteOldVersions s "default" "public" "t").1
    (∃ v ∈ s.vers, v.id = 5 ∧ v.tableId = 1 ∧ v.time = 50) ∧ (∃ w ∈ s.vers, w.tableId = 1 ∧ 50 < w.time) ∧
    (∀ v ∈ s'.vers, v.id ≠ 5) ∧ ∃ w ∈ s'.vers, w.tableId = 1 ∧ w.id = 4 := by decide +kernel

end Seafowl.Catalog
