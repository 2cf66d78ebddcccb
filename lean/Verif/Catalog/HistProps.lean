import Verif.Catalog.CatalogProps

/-!
# C34: version history
-/

namespace Seafowl.Catalog

set_option linter.unusedSimpArgs false

/-! ### specification -/

/-- `v` is the version of table `tid` that lookups use: the one with the largest identifier. -/
def Current (s : Cat) (tid : Nat) (v : Ver) : Prop :=
  v ∈ s.vers ∧ v.tableId = tid ∧ ∀ w ∈ s.vers, w.tableId = tid → w.id ≤ v.id

/-- Columns (name and type) of a version. -/
def colsOf (s : Cat) (vid : Nat) : List (String × String) := (s.cols.filter (·.verId == vid)).map (fun c => (c.name, c.typ))

/-- Every table has a version. -/
def Versioned (s : Cat) : Prop := ∀ t ∈ s.tabs, ∃ v ∈ s.vers, v.tableId = t.id

/-- Creation times grow with the identifiers. -/
def TimesMono (s : Cat) : Prop := ∀ v ∈ s.vers, ∀ w ∈ s.vers, v.id ≤ w.id → v.time ≤ w.time

/-! ### lemmas -/

theorem maxOf_none (l : List Nat) : maxOf l = none ↔ l = [] := by
  cases l <;> simp [maxOf]

theorem maxOf_some (l : List Nat) (m : Nat) : maxOf l = some m ↔ m ∈ l ∧ ∀ x ∈ l, x ≤ m := by
  induction l generalizing m with
  | nil => simp [maxOf]
  | cons a l ih =>
    simp only [maxOf, Option.some.injEq]
    cases h : maxOf l with
    | none =>
      have := (maxOf_none l).1 h
      subst this
      simp only [List.mem_singleton, forall_eq]
      constructor
      · rintro rfl; exact ⟨rfl, Nat.le_refl _⟩
      · rintro ⟨rfl, _⟩; rfl
    | some j =>
      obtain ⟨h1, h2⟩ := (ih j).1 h
      simp only
      constructor
      · rintro rfl
        refine ⟨?_, ?_⟩
        · rcases Nat.le_total a j with h | h
          · rw [Nat.max_eq_right h]; exact List.mem_cons_of_mem _ h1
          · rw [Nat.max_eq_left h]; exact List.mem_cons_self
        · intro x hx
          rcases List.mem_cons.1 hx with rfl | hx
          · exact Nat.le_max_left _ _
          · exact Nat.le_trans (h2 x hx) (Nat.le_max_right _ _)
      · rintro ⟨hm, hle⟩
        have ha := hle a List.mem_cons_self
        have hj := hle j (List.mem_cons_of_mem _ h1)
        have hu : m ≤ max a j := by
          rcases List.mem_cons.1 hm with rfl | hm
          · exact Nat.le_max_left _ _
          · exact Nat.le_trans (h2 m hm) (Nat.le_max_right _ _)
        have hl : max a j ≤ m := Nat.max_le.2 ⟨ha, hj⟩
        omega

/-- What the lookups compute is the current version. -/
theorem latest_iff (s : Cat) (tid vid : Nat) :
    latest s tid = some vid ↔ ∃ v, Current s tid v ∧ v.id = vid := by
  simp only [latest, maxOf_some, List.mem_map, List.mem_filter, beq_iff_eq]
  constructor
  · rintro ⟨⟨v, ⟨hv1, hv2⟩, rfl⟩, hle⟩
    exact ⟨v, ⟨hv1, hv2, fun w hw hwt => hle w.id ⟨w, ⟨hw, hwt⟩, rfl⟩⟩, rfl⟩
  · rintro ⟨v, ⟨hv1, hv2, hv3⟩, rfl⟩
    refine ⟨⟨v, ⟨hv1, hv2⟩, rfl⟩, ?_⟩
    rintro x ⟨w, ⟨hw1, hw2⟩, rfl⟩
    exact hv3 w hw1 hw2

theorem exists_max {α : Type} (f : α → Nat) (l : List α) (a : α) (ha : a ∈ l) : ∃ m ∈ l, ∀ x ∈ l, f x ≤ f m := by
  cases h : maxOf (l.map f) with
  | none => rw [maxOf_none] at h; simp at h; subst h; simp at ha
  | some m =>
    rw [maxOf_some] at h
    obtain ⟨h1, h2⟩ := h
    obtain ⟨x, hx, rfl⟩ := List.mem_map.1 h1
    exact ⟨x, hx, fun y hy => h2 _ (List.mem_map_of_mem hy)⟩

theorem current_exists (s : Cat) (hv : Versioned s) (t : Tab) (ht : t ∈ s.tabs) : ∃ v, Current s t.id v := by
  obtain ⟨v, hv1, hv2⟩ := hv t ht
  obtain ⟨m, hm, hmax⟩ := exists_max (fun v : Ver => v.id) (s.vers.filter (fun v => v.tableId == t.id)) v
    (List.mem_filter.2 ⟨hv1, by simp [hv2]⟩)
  obtain ⟨hm1, hm2⟩ := List.mem_filter.1 hm
  refine ⟨m, hm1, by simpa using hm2, ?_⟩
  intro w hw hwt
  exact hmax w (List.mem_filter.2 ⟨hw, by simp [hwt]⟩)

/-- Among the versions of a table there is a newest one in the order of `delete_old_versions`. -/
theorem newest_exists (vs : List Ver) (v : Ver) (hv : v ∈ vs) : ∃ m ∈ vs, m.tableId = v.tableId ∧ isNewest vs m = true := by
  -- maximum of the lexicographic order, by induction on a sublist of candidates
  have aux : ∀ l : List Ver, (∀ x ∈ l, x ∈ vs ∧ x.tableId = v.tableId) → ∀ m, m ∈ vs → m.tableId = v.tableId →
      ∃ m' ∈ vs, m'.tableId = v.tableId ∧ (m.time < m'.time ∨ (m.time = m'.time ∧ m.id ≤ m'.id)) ∧
        ∀ x ∈ l, x.time < m'.time ∨ (x.time = m'.time ∧ x.id ≤ m'.id) := by
    intro l
    induction l with
    | nil => intro _ m hm hmt; exact ⟨m, hm, hmt, Or.inr ⟨rfl, Nat.le_refl _⟩, by simp⟩
    | cons a l ih =>
      intro hl m hm hmt
      have ha := hl a List.mem_cons_self
      have hl' : ∀ x ∈ l, x ∈ vs ∧ x.tableId = v.tableId := fun x hx => hl x (List.mem_cons_of_mem _ hx)
      by_cases hc : m.time < a.time ∨ (m.time = a.time ∧ m.id ≤ a.id)
      · obtain ⟨m', h1, h2, h3, h4⟩ := ih hl' a ha.1 ha.2
        refine ⟨m', h1, h2, by omega, ?_⟩
        intro x hx
        rcases List.mem_cons.1 hx with rfl | hx
        · exact h3
        · exact h4 x hx
      · obtain ⟨m', h1, h2, h3, h4⟩ := ih hl' m hm hmt
        refine ⟨m', h1, h2, h3, ?_⟩
        intro x hx
        rcases List.mem_cons.1 hx with rfl | hx
        · omega
        · exact h4 x hx
  obtain ⟨m, h1, h2, _, h4⟩ := aux (vs.filter (fun x => x.tableId == v.tableId))
    (by intro x hx; obtain ⟨a, b⟩ := List.mem_filter.1 hx; exact ⟨a, by simpa using b⟩) v hv rfl
  refine ⟨m, h1, h2, ?_⟩
  simp only [isNewest, List.all_eq_true, Bool.or_eq_true, bne_iff_ne, ne_eq, decide_eq_true_eq]
  intro w hw
  by_cases e : w.tableId = m.tableId
  · exact Or.inr (h4 w (List.mem_filter.2 ⟨hw, by simp [e, h2]⟩))
  · exact Or.inl e

/-! ### every table has a version -/

theorem versioned_dropTabs (s : Cat) (h : WF s) (hv : Versioned s) (gone : Tab → Bool) : Versioned (dropTabs s gone) := by
  intro t ht
  obtain ⟨ht1, ht2⟩ := List.mem_filter.1 ht
  obtain ⟨v, hv1, hv2⟩ := hv t ht1
  refine ⟨v, List.mem_filter.2 ⟨hv1, ?_⟩, hv2⟩
  rw [Bool.not_eq_true', List.any_eq_false]
  intro u hu e
  simp only [Bool.and_eq_true, beq_iff_eq] at e
  have : u = t := eq_of_pairwise h.tabIds hu ht1 (by simp [e.2, hv2]) (by simp [e.2, hv2])
  subst this
  simp [e.1] at ht2

theorem versioned_step (s : Cat) (h : WF s) (hv : Versioned s) (op : Op) : Versioned (exec s op).1 := by
  cases op with
  | createDb n =>
    simp only [exec, fst_createDb, repoCreateDb]
    split <;> exact hv
  | deleteDb n =>
    rcases fst_deleteDb s n with e | ⟨id, e⟩ <;> simp only [exec, e]
    · exact hv
    · simp only [repoDeleteDb]
      split
      · exact versioned_dropTabs s h hv _
      · exact hv
  | createSchema db n =>
    rcases fst_createSchema s db n with e | ⟨id, e⟩ <;> simp only [exec, e]
    · exact hv
    · simp only [repoCreateColl]
      split
      · exact hv
      · split <;> exact hv
  | deleteSchema db n =>
    rcases fst_deleteSchema s db n with e | ⟨id, e⟩ <;> simp only [exec, e]
    · exact hv
    · simp only [repoDeleteColl]
      split
      · exact versioned_dropTabs s h hv _
      · exact hv
  | createTable db sch n cs u now ok =>
    rcases fst_createTable s db sch n cs u now ok with e | ⟨id, e⟩ <;> simp only [exec, e]
    · exact hv
    · have key : Versioned { s with
          tabs := s.tabs ++ [{ id := newId (s.tabs.map (·.id)), collId := id, name := n, uuid := u }]
          vers := s.vers ++ [{ id := newId (s.vers.map (·.id)), tableId := newId (s.tabs.map (·.id)), version := 0, time := now }] } := by
        intro t ht
        rcases List.mem_append.1 ht with ht | ht
        · obtain ⟨v, hv1, hv2⟩ := hv t ht
          exact ⟨v, List.mem_append.2 (Or.inl hv1), hv2⟩
        · simp only [List.mem_singleton] at ht
          subst ht
          exact ⟨_, List.mem_append.2 (Or.inr (List.mem_singleton.2 rfl)), rfl⟩
      simp only [repoCreateTab]
      split
      · exact hv
      · split
        · exact hv
        · split
          · exact key
          · split
            · exact key
            · split <;> exact key
  | newVersion u v now ok =>
    simp only [exec, fst_newVersion, repoNewVersion]
    split
    · exact hv
    · split
      · exact hv
      · have key : ∀ w : Ver, Versioned { s with vers := s.vers ++ [w] } := by
          intro w t ht
          obtain ⟨v, hv1, hv2⟩ := hv t ht
          exact ⟨v, List.mem_append.2 (Or.inl hv1), hv2⟩
        split <;> exact key _
  | deleteOldVersions db sch n =>
    rcases fst_deleteOld s db sch n with e | ⟨id, e⟩ <;> simp only [exec, e]
    · exact hv
    · intro t ht
      obtain ⟨v, hv1, hv2⟩ := hv t ht
      obtain ⟨m, hm1, hm2, hm3⟩ := newest_exists s.vers v hv1
      refine ⟨m, List.mem_filter.2 ⟨hm1, ?_⟩, by rw [hm2, hv2]⟩
      rw [Bool.not_eq_true', ← Bool.not_eq_true, List.contains_iff_mem, List.mem_map]
      rintro ⟨w, hw, ew⟩
      obtain ⟨hw1, hw2⟩ := List.mem_filter.1 hw
      have : w = m := eq_of_pairwise h.verIds hw1 hm1 (by simp [ew]) (by simp [ew])
      subst this
      simp [hm3] at hw2
  | renameTable db os on ns nn =>
    rcases fst_rename s db os on ns nn with e | ⟨id, c, e⟩ <;> simp only [exec, e]
    · exact hv
    · simp only [repoRename]
      split
      · exact hv
      · split
        · exact hv
        · split
          · exact hv
          · intro t ht
            obtain ⟨u, hu, rfl⟩ := List.mem_map.1 ht
            obtain ⟨v, hv1, hv2⟩ := hv u hu
            refine ⟨v, hv1, ?_⟩
            rw [hv2]
            split <;> rfl
  | deleteTable db sch n =>
    rcases fst_deleteTable s db sch n with e | ⟨id, e⟩ <;> simp only [exec, e]
    · exact hv
    · simp only [repoDeleteTab]
      split
      · exact versioned_dropTabs s h hv _
      · exact hv
  | createFunction db n o d =>
    rcases fst_createFunction s db n o d with e | ⟨id, e⟩ <;> simp only [exec, e]
    · exact hv
    · simp only [repoCreateFn]
      split
      · split <;> exact hv
      · split <;> exact hv
  | deleteFunctions db i ns =>
    rcases fst_deleteFunctions s db i ns with e | ⟨id, e⟩ <;> simp only [exec, e]
    · exact hv
    · simp only [repoDropFn]
      split <;> exact hv

theorem versioned_run (s : Cat) (h : WF s) (hv : Versioned s) (ops : List Op) : Versioned (run s ops) := by
  induction ops generalizing s with
  | nil => exact hv
  | cons op ops ih => exact ih _ (C31_step s h op) (versioned_step s h hv op)

/-- **C34**: after any sequence of operations every table has a current version, and it is the one lookups
find. -/
theorem C34_current (ops : List Op) (t : Tab) (ht : t ∈ (run {} ops).tabs) :
    ∃ v, Current (run {} ops) t.id v ∧ latest (run {} ops) t.id = some v.id := by
  have hv : Versioned (run {} ops) := versioned_run {} wf_empty (by intro t ht; simp at ht) ops
  obtain ⟨v, hc⟩ := current_exists _ hv t ht
  exact ⟨v, hc, (latest_iff _ _ _).2 ⟨v, hc, rfl⟩⟩

/-! ### new versions -/

/-- **C34**: recording a change appends one version with the columns of the current one; it becomes
current; nothing else changes.  `huniq`: table UUIDs are unique. -/
theorem C34_newVersion (s : Cat) (h : WF s) (hv : Versioned s) (t : Tab) (ht : t ∈ s.tabs)
    (huniq : ∀ t' ∈ s.tabs, t'.uuid = t.uuid → t' = t) (version now : Int) :
    ∃ s' vid, newVersion s t.uuid version now true = (s', .ok vid) ∧
      s'.vers = s.vers ++ [⟨vid, t.id, version, now⟩] ∧
      Current s' t.id ⟨vid, t.id, version, now⟩ ∧
      (∀ v, Current s t.id v → colsOf s' vid = colsOf s v.id) ∧
      (∀ i, i ≠ t.id → ∀ v, Current s' i v ↔ Current s i v) ∧
      (∀ i, i ≠ vid → colsOf s' i = colsOf s i) ∧
      s'.tabs = s.tabs ∧ s'.colls = s.colls ∧ s'.dbs = s.dbs ∧ s'.fns = s.fns := by
  obtain ⟨c, hc⟩ := current_exists s hv t ht
  have hlast : lastVersion s t.uuid = some c.id := by
    simp only [lastVersion, maxOf_some, List.mem_map, List.mem_filter, List.any_eq_true, Bool.and_eq_true, beq_iff_eq]
    refine ⟨⟨c, ⟨hc.1, t, ht, hc.2.1.symm, rfl⟩, rfl⟩, ?_⟩
    rintro x ⟨w, ⟨hw, u, hu, hu1, hu2⟩, rfl⟩
    have := huniq u hu hu2
    subst this
    exact hc.2.2 w hw hu1.symm
  have hfind : s.vers.find? (·.id == c.id) = some c := by
    cases hf : s.vers.find? (·.id == c.id) with
    | none =>
      rw [List.find?_eq_none] at hf
      exact absurd (by simp) (hf c hc.1)
    | some u =>
      obtain ⟨h1, h2⟩ := find_some hf
      simp only [beq_iff_eq] at h2
      rw [eq_of_pairwise h.verIds h1 hc.1 (by simp [h2]) (by simp [h2])]
  have hlt : ∀ w ∈ s.vers, w.id < newId (s.vers.map (fun x => x.id)) := fun w hw => lt_newId_map (fun x => x.id) hw
  have hres : newVersion s t.uuid version now true =
      ({ s with
          vers := s.vers ++ [⟨newId (s.vers.map (·.id)), c.tableId, version, now⟩]
          cols := s.cols ++ (s.cols.filter (·.verId == c.id)).map (fun x => { x with verId := newId (s.vers.map (·.id)) }) },
        .ok (newId (s.vers.map (·.id)))) := by
    simp only [newVersion, repoNewVersion, hlast, hfind, Bool.not_true, Bool.false_eq_true, if_false]
  refine ⟨_, _, hres, ?_, ?_, ?_, ?_, ?_, rfl, rfl, rfl, rfl⟩
  · rw [hc.2.1]
  · refine ⟨List.mem_append.2 (Or.inr (List.mem_singleton.2 (by rw [hc.2.1]))), rfl, ?_⟩
    intro w hw _
    rcases List.mem_append.1 hw with hw | hw
    · exact Nat.le_of_lt (hlt w hw)
    · simp only [List.mem_singleton] at hw
      subst hw
      exact Nat.le_refl _
  · intro v hvc
    have hvc' : v = c := eq_of_pairwise h.verIds hvc.1 hc.1
      (by have h1 := hvc.2.2 c hc.1 hc.2.1; have h2 := hc.2.2 v hvc.1 hvc.2.1; simp; omega)
      (by have h1 := hvc.2.2 c hc.1 hc.2.1; have h2 := hc.2.2 v hvc.1 hvc.2.1; simp; omega)
    subst hvc'
    simp only [colsOf, List.filter_append, List.map_append]
    have h1 : s.cols.filter (fun x => x.verId == newId (s.vers.map (fun x => x.id))) = [] := by
      rw [List.filter_eq_nil_iff]
      intro x hx e
      obtain ⟨w, hw, e2⟩ := h.colParent x hx
      have := hlt w hw
      simp only [beq_iff_eq] at e
      omega
    rw [h1, List.filter_eq_self.2]
    · simp [List.map_map, Function.comp_def]
    · intro x hx
      obtain ⟨y, _, rfl⟩ := List.mem_map.1 hx
      simp
  · intro i hi v
    constructor
    · rintro ⟨h1, h2, h3⟩
      rcases List.mem_append.1 h1 with h1 | h1
      · exact ⟨h1, h2, fun w hw hwt => h3 w (List.mem_append.2 (Or.inl hw)) hwt⟩
      · simp only [List.mem_singleton] at h1
        subst h1
        exact absurd (h2.symm.trans hc.2.1) hi
    · rintro ⟨h1, h2, h3⟩
      refine ⟨List.mem_append.2 (Or.inl h1), h2, ?_⟩
      intro w hw hwt
      rcases List.mem_append.1 hw with hw | hw
      · exact h3 w hw hwt
      · simp only [List.mem_singleton] at hw
        subst hw
        exact absurd (hwt.symm.trans hc.2.1) hi
  · intro i hi
    simp only [colsOf, List.filter_append, List.map_append]
    have hnil : ((s.cols.filter (·.verId == c.id)).map (fun x => ({ x with verId := newId (s.vers.map (fun x => x.id)) } : Col))).filter
        (fun x => x.verId == i) = [] := by
      rw [List.filter_eq_nil_iff]
      intro x hx e
      obtain ⟨y, _, rfl⟩ := List.mem_map.1 hx
      simp only [beq_iff_eq] at e
      exact hi e.symm
    rw [hnil]
    simp

/-- The example: a third version of `public.t`. -/
example : ∃ s', newVersion exCat 77 3 105 true = (s', .ok 5) ∧ colsOf s' 5 = [("a", "int"), ("b", "text")] ∧
    latest s' 1 = some 5 ∧ latest s' 2 = some 2 := by
  refine ⟨(newVersion exCat 77 3 105 true).1, by decide +kernel, by decide +kernel, by decide +kernel, by decide +kernel⟩

/-! ### vacuum -/

/-- **C34** (`_partial`: if creation times grow with the identifiers): vacuuming a table removes every
version of it but the current one, keeps the columns of the remaining versions, and touches no other
table. -/
theorem C34_vacuum_partial (s s' : Cat) (h : WF s) (hm : TimesMono s) (db sch n : String)
    (hr : deleteOldVersions s db sch n = (s', .ok ())) :
    ∃ t, IsTable s db sch n t ∧
      (∀ v, v ∈ s'.vers ↔ v ∈ s.vers ∧ (v.tableId = t.id → Current s t.id v)) ∧
      (∀ v ∈ s'.vers, colsOf s' v.id = colsOf s v.id) ∧
      (∀ i v, Current s' i v ↔ Current s i v) ∧
      s'.tabs = s.tabs ∧ s'.colls = s.colls ∧ s'.dbs = s.dbs ∧ s'.fns = s.fns := by
  rcases getTable_cases s db sch n with ⟨t, ht, hg⟩ | ⟨_, hg⟩
  · refine ⟨t, ht, ?_⟩
    simp only [deleteOldVersions, hg, Prod.mk.injEq, and_true] at hr
    subst hr
    -- the version kept is the current one
    have hnew : ∀ v ∈ s.vers, isNewest s.vers v = true ↔ Current s v.tableId v := by
      intro v hv
      simp only [isNewest, List.all_eq_true, Bool.or_eq_true, bne_iff_ne, ne_eq, decide_eq_true_eq]
      constructor
      · intro hall
        refine ⟨hv, rfl, ?_⟩
        intro w hw hwt
        rcases hall w hw with h1 | h1
        · exact absurd hwt h1
        · rcases Nat.le_total w.id v.id with h2 | h2
          · exact h2
          · have := hm v hv w hw h2
            omega
      · rintro ⟨_, _, h3⟩ w hw
        by_cases e : w.tableId = v.tableId
        · right
          have h1 := h3 w hw e
          have := hm w hw v hv h1
          omega
        · exact Or.inl e
    have hmem : ∀ v, v ∈ (repoDeleteOld s t.id).vers ↔ v ∈ s.vers ∧ (v.tableId = t.id → Current s t.id v) := by
      intro v
      simp only [repoDeleteOld, List.mem_filter, Bool.not_eq_true', and_congr_right_iff]
      intro hv
      rw [← Bool.not_eq_true, List.contains_iff_mem, List.mem_map]
      constructor
      · intro hno e
        cases hn : isNewest s.vers v with
        | true => rw [← e]; exact (hnew v hv).1 hn
        | false =>
          exact absurd ⟨v, List.mem_filter.2 ⟨hv, by simp [hn, e]⟩, rfl⟩ hno
      · rintro hcur ⟨w, hw, ew⟩
        obtain ⟨hw1, hw2⟩ := List.mem_filter.1 hw
        have : w = v := eq_of_pairwise h.verIds hw1 hv (by simp [ew]) (by simp [ew])
        subst this
        simp only [Bool.and_eq_true, beq_iff_eq, Bool.not_eq_true'] at hw2
        have hc := hcur hw2.1
        rw [← hw2.1] at hc
        rw [(hnew w hv).2 hc] at hw2
        simp at hw2
    refine ⟨hmem, ?_, ?_, rfl, rfl, rfl, rfl⟩
    · intro v hv
      have hkeep : ∀ (c : Col), c.verId = v.id →
          (!((s.vers.filter (fun v => v.tableId == t.id && !isNewest s.vers v)).map (·.id)).contains c.verId) = true := by
        intro c hc
        rw [hc]
        exact (List.mem_filter.1 hv).2
      simp only [colsOf, repoDeleteOld, List.filter_filter]
      congr 1
      apply List.filter_congr
      intro c _
      by_cases e : c.verId = v.id
      · rw [hkeep c e]; simp
      · simp [e]
    · intro i v
      constructor
      · rintro ⟨h1, h2, h3⟩
        obtain ⟨hv1, hv2⟩ := (hmem v).1 h1
        by_cases e : i = t.id
        · subst e; exact hv2 h2
        · refine ⟨hv1, h2, ?_⟩
          intro w hw hwt
          exact h3 w ((hmem w).2 ⟨hw, fun e2 => absurd (hwt.symm.trans e2) e⟩) hwt
      · rintro ⟨h1, h2, h3⟩
        refine ⟨(hmem v).2 ⟨h1, ?_⟩, h2, ?_⟩
        · intro e
          exact ⟨h1, e, by rw [← e, h2]; exact h3⟩
        · intro w hw hwt
          exact h3 w ((hmem w).1 hw).1 hwt
  · simp [deleteOldVersions, hg] at hr

/-- The clock readings of the operations never step back, starting from `lo`. -/
def Clocked : Int → List Op → Prop
  | _, [] => True
  | lo, .createTable _ _ _ _ _ now _ :: ops => lo ≤ now ∧ Clocked now ops
  | lo, .newVersion _ _ now _ :: ops => lo ≤ now ∧ Clocked now ops
  | lo, _ :: ops => Clocked lo ops

theorem mono_sub (s : Cat) (vs : List Ver) (h : TimesMono s) (lo : Int) (hlo : ∀ v ∈ s.vers, v.time ≤ lo)
    (hsub : ∀ v ∈ vs, v ∈ s.vers) : (∀ v ∈ vs, ∀ w ∈ vs, v.id ≤ w.id → v.time ≤ w.time) ∧ ∀ v ∈ vs, v.time ≤ lo :=
  ⟨fun v hv w hw => h v (hsub v hv) w (hsub w hw), fun v hv => hlo v (hsub v hv)⟩

theorem mono_snoc (s : Cat) (h : TimesMono s) (lo now : Int) (hlo : ∀ v ∈ s.vers, v.time ≤ lo) (hn : lo ≤ now)
    (tid : Nat) (ver : Int) :
    (∀ v ∈ s.vers ++ [⟨newId (s.vers.map (·.id)), tid, ver, now⟩],
      ∀ w ∈ s.vers ++ [(⟨newId (s.vers.map (·.id)), tid, ver, now⟩ : Ver)], v.id ≤ w.id → v.time ≤ w.time) ∧
    ∀ v ∈ s.vers ++ [(⟨newId (s.vers.map (·.id)), tid, ver, now⟩ : Ver)], v.time ≤ now := by
  have hlt : ∀ w ∈ s.vers, w.id < newId (s.vers.map (fun x => x.id)) := fun w hw => lt_newId_map (fun x => x.id) hw
  constructor
  · intro v hv w hw hle
    rcases List.mem_append.1 hv with hv | hv <;> rcases List.mem_append.1 hw with hw | hw
    · exact h v hv w hw hle
    · simp only [List.mem_singleton] at hw
      subst hw
      have := hlo v hv
      simp only
      omega
    · simp only [List.mem_singleton] at hv
      subst hv
      have := hlt w hw
      simp only at hle
      omega
    · simp only [List.mem_singleton] at hv hw
      subst hv hw
      exact Int.le_refl _
  · intro v hv
    rcases List.mem_append.1 hv with hv | hv
    · have := hlo v hv; omega
    · simp only [List.mem_singleton] at hv
      subst hv
      exact Int.le_refl _

/-- The hypothesis of `C34_vacuum_partial` holds in every state reached with a clock that never steps
back. -/
theorem C34_times (s : Cat) (ops : List Op) (h : TimesMono s) (lo : Int) (hlo : ∀ v ∈ s.vers, v.time ≤ lo)
    (hc : Clocked lo ops) : TimesMono (run s ops) := by
  induction ops generalizing s lo with
  | nil => exact h
  | cons op ops ih =>
    -- an operation that only removes versions
    have sub : ∀ s1 : Cat, (∀ v ∈ s1.vers, v ∈ s.vers) → (exec s op).1 = s1 → Clocked lo ops →
        TimesMono (run s (op :: ops)) := by
      intro s1 hs e hc
      obtain ⟨h1, h2⟩ := mono_sub s s1.vers h lo hlo hs
      have : run s (op :: ops) = run s1 ops := by simp only [run, List.foldl_cons, e]
      rw [this]
      exact ih s1 h1 lo h2 hc
    cases op with
    | createDb n =>
      refine sub _ ?_ rfl hc
      simp only [exec, fst_createDb, repoCreateDb]
      split <;> exact fun v hv => hv
    | deleteDb n =>
      refine sub _ ?_ rfl hc
      rcases fst_deleteDb s n with e | ⟨id, e⟩ <;> simp only [exec, e]
      · exact fun v hv => hv
      · simp only [repoDeleteDb]
        split
        · exact fun v hv => (List.mem_filter.1 hv).1
        · exact fun v hv => hv
    | createSchema db n =>
      refine sub _ ?_ rfl hc
      rcases fst_createSchema s db n with e | ⟨id, e⟩ <;> simp only [exec, e]
      · exact fun v hv => hv
      · simp only [repoCreateColl]
        split
        · exact fun v hv => hv
        · split <;> exact fun v hv => hv
    | deleteSchema db n =>
      refine sub _ ?_ rfl hc
      rcases fst_deleteSchema s db n with e | ⟨id, e⟩ <;> simp only [exec, e]
      · exact fun v hv => hv
      · simp only [repoDeleteColl]
        split
        · exact fun v hv => (List.mem_filter.1 hv).1
        · exact fun v hv => hv
    | createTable db sch n cs u now ok =>
      obtain ⟨hn, hc⟩ := hc
      have hnow : TimesMono s ∧ ∀ v ∈ s.vers, v.time ≤ now := ⟨h, fun v hv => Int.le_trans (hlo v hv) hn⟩
      have key : TimesMono (exec s (.createTable db sch n cs u now ok)).1 ∧
          ∀ v ∈ (exec s (.createTable db sch n cs u now ok)).1.vers, v.time ≤ now := by
        rcases fst_createTable s db sch n cs u now ok with e | ⟨id, e⟩ <;> simp only [exec, e]
        · exact hnow
        · have hk := mono_snoc s h lo now hlo hn (newId (s.tabs.map (·.id))) 0
          simp only [repoCreateTab]
          split
          · exact hnow
          · split
            · exact hnow
            · split
              · exact hk
              · split
                · exact hk
                · split <;> exact hk
      have hrun := ih _ key.1 now key.2 hc
      simpa only [run, List.foldl_cons] using hrun
    | newVersion u v now ok =>
      obtain ⟨hn, hc⟩ := hc
      have hnow : TimesMono s ∧ ∀ v ∈ s.vers, v.time ≤ now := ⟨h, fun v hv => Int.le_trans (hlo v hv) hn⟩
      have key : TimesMono (exec s (.newVersion u v now ok)).1 ∧
          ∀ w ∈ (exec s (.newVersion u v now ok)).1.vers, w.time ≤ now := by
        simp only [exec, fst_newVersion, repoNewVersion]
        split
        · exact hnow
        · split
          · exact hnow
          · next w _ =>
            have hk := mono_snoc s h lo now hlo hn w.tableId v
            split <;> exact hk
      have hrun := ih _ key.1 now key.2 hc
      simpa only [run, List.foldl_cons] using hrun
    | deleteOldVersions db sch n =>
      refine sub _ ?_ rfl hc
      rcases fst_deleteOld s db sch n with e | ⟨id, e⟩ <;> simp only [exec, e]
      · exact fun v hv => hv
      · exact fun v hv => (List.mem_filter.1 hv).1
    | renameTable db os on ns nn =>
      refine sub _ ?_ rfl hc
      rcases fst_rename s db os on ns nn with e | ⟨id, c, e⟩ <;> simp only [exec, e]
      · exact fun v hv => hv
      · simp only [repoRename]
        split
        · exact fun v hv => hv
        · split
          · exact fun v hv => hv
          · split <;> exact fun v hv => hv
    | deleteTable db sch n =>
      refine sub _ ?_ rfl hc
      rcases fst_deleteTable s db sch n with e | ⟨id, e⟩ <;> simp only [exec, e]
      · exact fun v hv => hv
      · simp only [repoDeleteTab]
        split
        · exact fun v hv => (List.mem_filter.1 hv).1
        · exact fun v hv => hv
    | createFunction db n o d =>
      refine sub _ ?_ rfl hc
      rcases fst_createFunction s db n o d with e | ⟨id, e⟩ <;> simp only [exec, e]
      · exact fun v hv => hv
      · simp only [repoCreateFn]
        split
        · split <;> exact fun v hv => hv
        · split <;> exact fun v hv => hv
    | deleteFunctions db i ns =>
      refine sub _ ?_ rfl hc
      rcases fst_deleteFunctions s db i ns with e | ⟨id, e⟩ <;> simp only [exec, e]
      · exact fun v hv => hv
      · simp only [repoDropFn]
        split <;> exact fun v hv => hv

/-- The example history has such a clock, and vacuuming `public.t` keeps its last version. -/
example : Clocked 0 exOps ∧ (deleteOldVersions exCat "default" "public" "t").2 = .ok () ∧
    (deleteOldVersions exCat "default" "public" "t").1.vers = [⟨2, 2, 0, 102⟩, ⟨4, 1, 2, 104⟩] := by
  refine ⟨by simp [Clocked, exOps], by decide +kernel, by decide +kernel⟩

/-- **C34 does not hold** when the clock of the database steps back: the vacuum then deletes the current
version and lookups fall back to an older one. -/
theorem C34_violated_clock :
    let s := (newVersion exCat 77 3 50 true).1
    let s' := (deleteOldVersions s "default" "public" "t").1
    latest s 1 = some 5 ∧ latest s' 1 = some 4 := by decide +kernel

end Seafowl.Catalog
