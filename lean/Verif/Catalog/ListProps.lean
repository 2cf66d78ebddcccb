import Verif.Catalog.HistProps

/-!
# C36: the listing of a database
-/

namespace Seafowl.Catalog

set_option linter.unusedSimpArgs false

/-! ### the rows of the query -/

/-- Row `r` describes table `t`: one row per column of the current version, or a row without a column if
there is none. -/
def RowOfTable (s : Cat) (t : Tab) (r : ListRow) : Prop :=
  r.table = some (t.name, t.uuid) ∧
    ((∃ v c, Current s t.id v ∧ c ∈ s.cols ∧ c.verId = v.id ∧ r.column = some (c.name, c.typ)) ∨
     (r.column = none ∧ ∀ v c, Current s t.id v → c ∈ s.cols → c.verId ≠ v.id))

/-- Row `r` describes schema `c` (without tables) or one of its tables. -/
def RowOfSchema (s : Cat) (c : Coll) (r : ListRow) : Prop :=
  r.coll = c.name ∧
    ((∃ t ∈ s.tabs, t.collId = c.id ∧ RowOfTable s t r) ∨
     ((∀ t ∈ s.tabs, t.collId ≠ c.id) ∧ r.table = none ∧ r.column = none))

theorem current_id (s : Cat) (tid : Nat) (v w : Ver) (hv : Current s tid v) (hw : Current s tid w) : v.id = w.id := by
  have h1 := hv.2.2 w hw.1 hw.2.1
  have h2 := hw.2.2 v hv.1 hv.2.1
  omega

theorem mem_tableRows (s : Cat) (coll : String) (t : Tab) (r : ListRow) :
    r ∈ tableRows s coll t ↔ r.coll = coll ∧ RowOfTable s t r := by
  have hcols : ∀ c, c ∈ currentCols s t.id ↔ ∃ v, Current s t.id v ∧ c ∈ s.cols ∧ c.verId = v.id := by
    intro c
    unfold currentCols
    cases h : latest s t.id with
    | none =>
      simp only [List.not_mem_nil, false_iff]
      rintro ⟨v, hv, _⟩
      have := (latest_iff s t.id v.id).2 ⟨v, hv, rfl⟩
      rw [h] at this
      cases this
    | some vid =>
      obtain ⟨v, hv, rfl⟩ := (latest_iff s t.id vid).1 h
      simp only [List.mem_filter, beq_iff_eq]
      constructor
      · rintro ⟨h1, h2⟩; exact ⟨v, hv, h1, h2⟩
      · rintro ⟨w, hw, h1, h2⟩; exact ⟨h1, by rw [h2, current_id s t.id w v hw hv]⟩
  simp only [tableRows]
  generalize currentCols s t.id = columns at hcols
  obtain ⟨rc, rt, rcol⟩ := r
  cases columns with
  | nil =>
    simp only [List.isEmpty_nil, if_true, List.mem_singleton, ListRow.mk.injEq, RowOfTable]
    constructor
    · rintro ⟨h1, h2, h3⟩
      refine ⟨h1, h2, Or.inr ⟨h3, ?_⟩⟩
      intro v c hv hc e
      exact absurd ((hcols c).2 ⟨v, hv, hc, e⟩) (by simp)
    · rintro ⟨h1, h2, h3 | h3⟩
      · obtain ⟨v, c, hv, hc, e, _⟩ := h3
        exact absurd ((hcols c).2 ⟨v, hv, hc, e⟩) (by simp)
      · exact ⟨h1, h2, h3.1⟩
  | cons a as =>
    simp only [List.isEmpty_cons, Bool.false_eq_true, if_false, List.mem_map, ListRow.mk.injEq, RowOfTable]
    constructor
    · rintro ⟨c, hc, h1, h2, h3⟩
      obtain ⟨v, hv, hc1, hc2⟩ := (hcols c).1 hc
      exact ⟨h1.symm, h2.symm, Or.inl ⟨v, c, hv, hc1, hc2, h3.symm⟩⟩
    · rintro ⟨h1, h2, h3 | h3⟩
      · obtain ⟨v, c, hv, hc, e, he⟩ := h3
        exact ⟨c, (hcols c).2 ⟨v, hv, hc, e⟩, h1.symm, h2.symm, he.symm⟩
      · obtain ⟨v, hv, hc1, hc2⟩ := (hcols a).1 List.mem_cons_self
        exact absurd hc2 (h3.2 v a hv hc1)

/-- **C36** for the query: its rows are exactly those of the schemas of the database, the tables in them
and the columns of their current versions. -/
theorem C36_rows (s : Cat) (db : String) (r : ListRow) :
    r ∈ joinedRows s db ↔ ∃ c n, IsSchema s db n c ∧ RowOfSchema s c r := by
  simp only [joinedRows, List.mem_flatMap, List.mem_filter, beq_iff_eq]
  have hcoll : ∀ c, r ∈ collRows s c ↔ RowOfSchema s c r := by
    intro c
    simp only [collRows, RowOfSchema]
    by_cases he : (s.tabs.filter (·.collId == c.id)).isEmpty = true
    · rw [if_pos he]
      have hno : ∀ t ∈ s.tabs, t.collId ≠ c.id := by
        rw [List.isEmpty_iff, List.filter_eq_nil_iff] at he
        intro t ht e
        exact he t ht (by simp [e])
      obtain ⟨rc, rt, rcol⟩ := r
      simp only [List.mem_singleton, ListRow.mk.injEq]
      constructor
      · rintro ⟨h1, h2, h3⟩; exact ⟨h1, Or.inr ⟨hno, h2, h3⟩⟩
      · rintro ⟨h1, h2 | h2⟩
        · obtain ⟨t, ht, e, _⟩ := h2
          exact absurd e (hno t ht)
        · exact ⟨h1, h2.2.1, h2.2.2⟩
    · rw [if_neg he]
      simp only [List.mem_flatMap, List.mem_filter, beq_iff_eq, mem_tableRows]
      constructor
      · rintro ⟨t, ⟨h1, h2⟩, h3, h4⟩; exact ⟨h3, Or.inl ⟨t, h1, h2, h4⟩⟩
      · rintro ⟨h1, h2 | h2⟩
        · obtain ⟨t, ht, e, h3⟩ := h2
          exact ⟨t, ⟨ht, e⟩, h1, h3⟩
        · exfalso
          apply he
          rw [List.isEmpty_iff, List.filter_eq_nil_iff]
          intro t ht e
          exact h2.1 t ht (by simpa using e)
  constructor
  · rintro ⟨d, ⟨hd1, hd2⟩, c, ⟨hc1, hc2⟩, hr⟩
    exact ⟨c, c.name, ⟨hc1, rfl, d, ⟨hd1, hd2⟩, hc2.symm⟩, (hcoll c).1 hr⟩
  · rintro ⟨c, n, ⟨hc1, _, d, ⟨hd1, hd2⟩, hc2⟩, hr⟩
    exact ⟨d, ⟨hd1, hd2⟩, c, ⟨hc1, hc2.symm⟩, (hcoll c).2 hr⟩

/-! ### grouping -/

theorem chunkBy_head {α κ : Type} [DecidableEq κ] (key : α → κ) (a : α) (l : List α) :
    ∃ g rest, chunkBy key (a :: l) = (key a, a :: g) :: rest := by
  simp only [chunkBy]
  split
  · exact ⟨[], [], rfl⟩
  · next k g rest _ =>
    split
    · next e => exact ⟨g, rest, by rw [e]⟩
    · exact ⟨[], _, rfl⟩

/-- On a list sorted by key the groups are the elements per key, with strictly increasing keys. -/
theorem chunkBy_sorted {α κ : Type} [DecidableEq κ] (key : α → κ) (R : κ → κ → Prop) (htr : ∀ a b c, R a b → R b c → R a c)
    (hir : ∀ a, ¬ R a a) (l : List α) (hs : l.Pairwise (fun a b => key a = key b ∨ R (key a) (key b))) :
    (chunkBy key l).Pairwise (fun g h => R g.1 h.1) ∧
    (∀ k g, (k, g) ∈ chunkBy key l ↔ (∃ a ∈ l, key a = k) ∧ g = l.filter (fun a => key a = k)) := by
  induction l with
  | nil => simp [chunkBy]
  | cons a l ih =>
    rw [List.pairwise_cons] at hs
    obtain ⟨ih1, ih2⟩ := ih hs.2
    cases l with
    | nil =>
      simp only [chunkBy, List.pairwise_cons, List.not_mem_nil, false_implies, implies_true, List.Pairwise.nil, and_self,
        List.mem_singleton, Prod.mk.injEq, exists_eq_left, true_and]
      intro k g
      constructor
      · rintro ⟨rfl, rfl⟩; simp
      · rintro ⟨rfl, rfl⟩; simp
    | cons b l =>
      obtain ⟨g0, rest, hch⟩ := chunkBy_head key b l
      have hhd := hs.1 b List.mem_cons_self
      rw [hch] at ih1 ih2
      rw [List.pairwise_cons] at ih1
      by_cases e : key a = key b
      · have hstep : chunkBy key (a :: b :: l) = (key b, a :: b :: g0) :: rest := by
          rw [chunkBy, hch]
          simp only [if_pos e]
        rw [hstep]
        refine ⟨List.pairwise_cons.2 ⟨ih1.1, ih1.2⟩, ?_⟩
        intro k g
        have hb := ((ih2 (key b) (b :: g0)).1 List.mem_cons_self).2
        by_cases ek : k = key b
        · subst ek
          constructor
          · intro hm
            rcases List.mem_cons.1 hm with hm | hm
            · simp only [Prod.mk.injEq, true_and] at hm
              subst hm
              refine ⟨⟨a, List.mem_cons_self, e⟩, ?_⟩
              rw [List.filter_cons_of_pos (by simp [e]), hb]
            · exact absurd (ih1.1 _ hm) (hir _)
          · rintro ⟨_, rfl⟩
            rw [List.filter_cons_of_pos (by simp [e]), ← hb]
            exact List.mem_cons_self
        · have hne : key a ≠ k := fun h => ek (by rw [← h, e])
          constructor
          · intro hm
            rcases List.mem_cons.1 hm with hm | hm
            · simp only [Prod.mk.injEq] at hm
              exact absurd hm.1 ek
            · obtain ⟨⟨x, hx1, hx2⟩, hg⟩ := (ih2 k g).1 (List.mem_cons_of_mem _ hm)
              refine ⟨⟨x, List.mem_cons_of_mem _ hx1, hx2⟩, ?_⟩
              rw [List.filter_cons_of_neg (by simp [hne]), hg]
          · rintro ⟨⟨x, hx1, hx2⟩, rfl⟩
            rw [List.filter_cons_of_neg (by simp [hne])]
            rcases List.mem_cons.1 hx1 with rfl | hx1
            · exact absurd hx2 hne
            · have hm := (ih2 k _).2 ⟨⟨x, hx1, hx2⟩, rfl⟩
              rcases List.mem_cons.1 hm with hm | hm
              · simp only [Prod.mk.injEq] at hm
                exact absurd hm.1 ek
              · exact List.mem_cons_of_mem _ hm
      · have hR : R (key a) (key b) := hhd.resolve_left e
        have hstep : chunkBy key (a :: b :: l) = (key a, [a]) :: (key b, b :: g0) :: rest := by
          rw [chunkBy, hch]
          simp only [if_neg e]
        have hlt : ∀ h ∈ (key b, b :: g0) :: rest, R (key a) h.1 := by
          intro h hh
          rcases List.mem_cons.1 hh with rfl | hh
          · exact hR
          · exact htr _ _ _ hR (ih1.1 h hh)
        rw [hstep]
        refine ⟨List.pairwise_cons.2 ⟨hlt, List.pairwise_cons.2 ih1⟩, ?_⟩
        have hnone : ∀ x ∈ b :: l, key x ≠ key a := by
          intro x hx ex
          have := (ih2 (key x) _).2 ⟨⟨x, hx, rfl⟩, rfl⟩
          have := hlt _ this
          rw [ex] at this
          exact hir _ this
        intro k g
        by_cases ek : k = key a
        · subst ek
          have hf : (b :: l).filter (fun x => decide (key x = key a)) = [] := by
            rw [List.filter_eq_nil_iff]
            intro x hx; simp [hnone x hx]
          rw [List.filter_cons_of_pos (by simp), hf]
          constructor
          · intro hm
            rcases List.mem_cons.1 hm with hm | hm
            · simp only [Prod.mk.injEq, true_and] at hm
              exact ⟨⟨a, List.mem_cons_self, rfl⟩, hm⟩
            · exact absurd (hlt _ hm) (hir _)
          · rintro ⟨_, rfl⟩
            exact List.mem_cons_self
        · rw [List.filter_cons_of_neg (by simp; exact fun h => ek h.symm)]
          constructor
          · intro hm
            rcases List.mem_cons.1 hm with hm | hm
            · simp only [Prod.mk.injEq] at hm
              exact absurd hm.1 ek
            · obtain ⟨⟨x, hx1, hx2⟩, hg⟩ := (ih2 k g).1 hm
              exact ⟨⟨x, List.mem_cons_of_mem _ hx1, hx2⟩, hg⟩
          · rintro ⟨⟨x, hx1, hx2⟩, rfl⟩
            rcases List.mem_cons.1 hx1 with rfl | hx1
            · exact absurd hx2.symm ek
            · exact List.mem_cons_of_mem _ ((ih2 k _).2 ⟨⟨x, hx1, hx2⟩, rfl⟩)

/-! ### the listing -/

/-- Strict order of optional names, NULLs first. -/
def optLt : Option String → Option String → Prop
  | none, some _ => True
  | some a, some b => a < b
  | _, none => False

/-- `ORDER BY collection_name, table_name`. -/
def RowsSorted (rows : List ListRow) : Prop :=
  rows.Pairwise (fun a b => a.coll < b.coll ∨
    (a.coll = b.coll ∧ (a.table.map (·.1) = b.table.map (·.1) ∨ optLt (a.table.map (·.1)) (b.table.map (·.1)))))

/-- **C36**: the listing of a database (from the rows of the query in the order it asks for) names every
schema exactly once, and under it every table exactly once with its storage UUID. -/
theorem C36_listing (s : Cat) (h : WF s) (db : String) (rows : List ListRow)
    (hrows : ∀ r, r ∈ rows ↔ r ∈ joinedRows s db) (hsort : RowsSorted rows) :
    ((listSchemas rows).map (·.1)).Nodup ∧
    (∀ n, (∃ ts, (n, ts) ∈ listSchemas rows) ↔ ∃ c, IsSchema s db n c) ∧
    (∀ n ts, (n, ts) ∈ listSchemas rows →
      (ts.map (·.1)).Nodup ∧ ∀ m u, (m, u) ∈ ts ↔ ∃ t, IsTable s db n m t ∧ t.uuid = u) := by
  have hmem : ∀ r, r ∈ rows ↔ ∃ c n, IsSchema s db n c ∧ RowOfSchema s c r := fun r => (hrows r).trans (C36_rows s db r)
  obtain ⟨g1, g2⟩ := chunkBy_sorted (fun r : ListRow => r.coll) (· < ·) (fun a b c => String.lt_trans)
    (fun a => String.lt_irrefl a) rows (hsort.imp (fun hab => by
      rcases hab with h1 | h1
      · exact Or.inr h1
      · exact Or.inl h1.1))
  -- a schema name occurs in the rows iff the schema exists
  have hschema : ∀ n, (∃ r ∈ rows, r.coll = n) ↔ ∃ c, IsSchema s db n c := by
    intro n
    constructor
    · rintro ⟨r, hr, rfl⟩
      obtain ⟨c, m, hc, hrc⟩ := (hmem r).1 hr
      refine ⟨c, ?_⟩
      rw [hrc.1, hc.2.1]
      exact hc
    · rintro ⟨c, hc⟩
      have hsome : ∃ r, RowOfSchema s c r := by
        by_cases hex : ∃ t ∈ s.tabs, t.collId = c.id
        · obtain ⟨t, ht, e⟩ := hex
          by_cases hcol : ∃ v x, Current s t.id v ∧ x ∈ s.cols ∧ x.verId = v.id
          · obtain ⟨v, x, hv, hx, ex⟩ := hcol
            exact ⟨⟨c.name, some (t.name, t.uuid), some (x.name, x.typ)⟩, rfl, Or.inl ⟨t, ht, e, rfl, Or.inl ⟨v, x, hv, hx, ex, rfl⟩⟩⟩
          · exact ⟨⟨c.name, some (t.name, t.uuid), none⟩, rfl, Or.inl ⟨t, ht, e, rfl, Or.inr ⟨rfl, fun v x hv hx ex => hcol ⟨v, x, hv, hx, ex⟩⟩⟩⟩
        · exact ⟨⟨c.name, none, none⟩, rfl, Or.inr ⟨fun t ht e => hex ⟨t, ht, e⟩, rfl, rfl⟩⟩
      obtain ⟨r, hr⟩ := hsome
      exact ⟨r, (hmem r).2 ⟨c, n, hc, hr⟩, by rw [hr.1, hc.2.1]⟩
  refine ⟨?_, ?_, ?_⟩
  · simp only [listSchemas, List.map_map, List.Nodup]
    rw [List.pairwise_map]
    refine g1.imp ?_
    intro a b hab e
    simp only [Function.comp_apply] at e
    rw [e] at hab
    exact String.lt_irrefl _ hab
  · intro n
    rw [← hschema n]
    simp only [listSchemas, List.mem_map, Prod.mk.injEq]
    constructor
    · rintro ⟨ts, ⟨k, g⟩, hg, rfl, _⟩
      exact ((g2 k g).1 hg).1
    · rintro hex
      exact ⟨_, ⟨n, _⟩, (g2 n _).2 ⟨hex, rfl⟩, rfl, rfl⟩
  · intro n ts hts
    simp only [listSchemas, List.mem_map, Prod.mk.injEq] at hts
    obtain ⟨⟨k, g⟩, hg, rfl, rfl⟩ := hts
    obtain ⟨⟨r0, hr0, e0⟩, rfl⟩ := (g2 k g).1 hg
    simp only at e0 ⊢
    obtain ⟨c, hc⟩ := (hschema k).1 ⟨r0, hr0, e0⟩
    -- the rows of this schema
    have hrow : ∀ r ∈ rows.filter (fun a => decide (a.coll = k)), RowOfSchema s c r := by
      intro r hr
      obtain ⟨hr1, hr2⟩ := List.mem_filter.1 hr
      obtain ⟨c', m, hc', hrc⟩ := (hmem r).1 hr1
      have hm : m = k := by
        have := hrc.1
        rw [hc'.2.1] at this
        simp only [decide_eq_true_eq] at hr2
        rw [← this, hr2]
      subst hm
      rw [IsSchema_unique h hc hc']
      exact hrc
    -- equal names mean equal tables
    have hkey : ∀ a ∈ rows.filter (fun a => decide (a.coll = k)), ∀ b ∈ rows.filter (fun a => decide (a.coll = k)),
        a.table.map (·.1) = b.table.map (·.1) → a.table = b.table := by
      intro a ha b hb e
      rcases (hrow a ha).2 with ⟨t, ht, et, hta, _⟩ | ⟨_, hta, _⟩ <;> rcases (hrow b hb).2 with ⟨u, hu, eu, hub, _⟩ | ⟨_, hub, _⟩
      · rw [hta, hub] at e
        simp only [Option.map_some, Option.some.injEq] at e
        have : t = u := eq_of_pairwise h.tabNames ht hu (by simp [e, et, eu]) (by simp [e, et, eu])
        rw [hta, hub, this]
      · rw [hta, hub] at e; simp at e
      · rw [hta, hub] at e; simp at e
      · rw [hta, hub]
    have hsorted : (rows.filter (fun a => decide (a.coll = k))).Pairwise
        (fun a b => a.table = b.table ∨ optLt (a.table.map (·.1)) (b.table.map (·.1))) := by
      refine List.Pairwise.imp_of_mem ?_ (pairwise_filter _ hsort)
      intro a b ha hb hab
      have ea : a.coll = k := by simpa using (List.mem_filter.1 ha).2
      have eb : b.coll = k := by simpa using (List.mem_filter.1 hb).2
      rcases hab with h1 | ⟨_, h1 | h1⟩
      · rw [ea, eb] at h1; exact absurd h1 (String.lt_irrefl _)
      · exact Or.inl (hkey a ha b hb h1)
      · exact Or.inr h1
    obtain ⟨t1, t2⟩ := chunkBy_sorted (fun r : ListRow => r.table)
      (fun a b => optLt (a.map (·.1)) (b.map (·.1)))
      (by
        intro a b c h1 h2
        cases a <;> cases b <;> cases c <;> simp_all [optLt]
        exact String.lt_trans h1 h2)
      (by intro a; cases a <;> simp [optLt, String.lt_irrefl])
      _ hsorted
    constructor
    · simp only [List.Nodup]
      rw [List.pairwise_map, List.pairwise_filterMap]
      refine t1.imp ?_
      intro a b hab x hx y hy e
      simp only [hx, hy, Option.map_some, optLt, e] at hab
      exact String.lt_irrefl _ hab
    · intro m u
      simp only [List.mem_filterMap]
      constructor
      · rintro ⟨⟨kt, gt⟩, hgt, hkt⟩
        obtain ⟨⟨r, hr, er⟩, _⟩ := (t2 kt gt).1 hgt
        simp only at hkt er
        subst hkt
        rcases (hrow r hr).2 with ⟨t, ht, et, htr, _⟩ | ⟨_, htr, _⟩
        · rw [htr] at er
          simp only [Option.some.injEq, Prod.mk.injEq] at er
          exact ⟨t, ⟨ht, er.1, c, hc, et.symm⟩, er.2⟩
        · rw [htr] at er; simp at er
      · rintro ⟨t, ⟨ht, en, c', hc', et⟩, rfl⟩
        have := IsSchema_unique h hc hc'
        subst this
        have hrt : ∃ r, RowOfTable s t r ∧ r.coll = k := by
          by_cases hcol : ∃ v x, Current s t.id v ∧ x ∈ s.cols ∧ x.verId = v.id
          · obtain ⟨v, x, hv, hx, ex⟩ := hcol
            exact ⟨⟨k, some (t.name, t.uuid), some (x.name, x.typ)⟩, ⟨rfl, Or.inl ⟨v, x, hv, hx, ex, rfl⟩⟩, rfl⟩
          · exact ⟨⟨k, some (t.name, t.uuid), none⟩, ⟨rfl, Or.inr ⟨rfl, fun v x hv hx ex => hcol ⟨v, x, hv, hx, ex⟩⟩⟩, rfl⟩
        obtain ⟨r, hr, erk⟩ := hrt
        have hin : r ∈ rows := (hmem r).2 ⟨c, k, hc, by rw [erk, hc.2.1], Or.inl ⟨t, ht, et.symm, hr⟩⟩
        refine ⟨(r.table, _), (t2 r.table _).2 ⟨⟨r, List.mem_filter.2 ⟨hin, by simp [erk]⟩, rfl⟩, rfl⟩, ?_⟩
        simp only [hr.1, en]

/-- The listing of the example (its rows come out sorted). -/
example : listSchemas (joinedRows exCat "default") = [("public", [("t", 77)]), ("s2", [("t", 79)])] ∧
    joinedRows exCat "default" =
      [⟨"public", some ("t", 77), some ("a", "int")⟩, ⟨"public", some ("t", 77), some ("b", "text")⟩,
       ⟨"s2", some ("t", 79), some ("x", "int")⟩] := by
  decide +kernel

/-- A schema without tables is listed, with no tables. -/
example : listSchemas (joinedRows (deleteTable exCat "default" "s2" "t").1 "default") = [("public", [("t", 77)]), ("s2", [])] := by
  decide +kernel

end Seafowl.Catalog
