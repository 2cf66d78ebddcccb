import Verif.Catalog.Pg
import Verif.Catalog.CatalogInv

/-!
# C139: the catalogs in PostgreSQL and in SQLite go together

The catalog in SQLite is the one in PostgreSQL with other identifiers, in the same order, and times without fractions.
-/

namespace Seafowl.Catalog

set_option linter.unusedSimpArgs false
set_option linter.unusedVariables false

/-- Other identifiers. -/
structure Ren where
  d : Nat → Nat
  c : Nat → Nat
  t : Nat → Nat
  v : Nat → Nat
  f : Nat → Nat

def Ren.db (r : Ren) (x : Db) : Db := { x with id := r.d x.id }
def Ren.coll (r : Ren) (x : Coll) : Coll := { x with id := r.c x.id, dbId := r.d x.dbId }
def Ren.tab (r : Ren) (x : Tab) : Tab := { x with id := r.t x.id, collId := r.c x.collId }
def Ren.ver (r : Ren) (x : Ver) : Ver := { x with id := r.v x.id, tableId := r.t x.tableId, time := sqliteSeconds x.time }
def Ren.col (r : Ren) (x : Col) : Col := { x with verId := r.v x.verId }
def Ren.fn (r : Ren) (x : Fn) : Fn := { x with id := r.f x.id, dbId := r.d x.dbId }

/-- The catalog with other identifiers and times without fractions. -/
def Ren.cat (r : Ren) (p : Cat) : Cat where
  dbs := p.dbs.map r.db
  colls := p.colls.map r.coll
  tabs := p.tabs.map r.tab
  vers := p.vers.map r.ver
  cols := p.cols.map r.col
  fns := p.fns.map r.fn

/-- Strictly rising on the members of a list. -/
def RisesOn (f : Nat → Nat) (l : List Nat) : Prop := ∀ a ∈ l, ∀ b ∈ l, a < b → f a < f b

theorem RisesOn.eq_iff {f : Nat → Nat} {l : List Nat} (h : RisesOn f l) {a b : Nat} (ha : a ∈ l) (hb : b ∈ l) : f a = f b ↔ a = b := by
  constructor
  · intro e
    rcases Nat.lt_trichotomy a b with x | x | x
    · have := h a ha b hb x; omega
    · exact x
    · have := h b hb a ha x; omega
  · rintro rfl; rfl

theorem RisesOn.beq {f : Nat → Nat} {l : List Nat} (h : RisesOn f l) {a b : Nat} (ha : a ∈ l) (hb : b ∈ l) : (f a == f b) = (a == b) := by
  have := h.eq_iff ha hb
  rw [Bool.eq_iff_iff]; simp [this]

theorem RisesOn.le_iff {f : Nat → Nat} {l : List Nat} (h : RisesOn f l) {a b : Nat} (ha : a ∈ l) (hb : b ∈ l) : f a ≤ f b ↔ a ≤ b := by
  constructor
  · intro e
    rcases Nat.lt_or_ge b a with x | x
    · have := h b hb a ha x; omega
    · exact x
  · intro e
    rcases Nat.lt_or_eq_of_le e with x | x
    · exact Nat.le_of_lt (h a ha b hb x)
    · rw [x]; exact Nat.le_refl _

theorem RisesOn.sub {f : Nat → Nat} {l l' : List Nat} (h : RisesOn f l) (hs : ∀ a ∈ l', a ∈ l) : RisesOn f l' :=
  fun a ha b hb => h a (hs a ha) b (hs b hb)

/-- References are intact, identifiers keep their order, later versions are not older. -/
structure Good (r : Ren) (p : Cat) : Prop where
  collP : ∀ c ∈ p.colls, c.dbId ∈ p.dbs.map (·.id)
  tabP : ∀ t ∈ p.tabs, t.collId ∈ p.colls.map (·.id)
  verP : ∀ v ∈ p.vers, v.tableId ∈ p.tabs.map (·.id)
  colP : ∀ c ∈ p.cols, c.verId ∈ p.vers.map (·.id)
  fnP : ∀ f ∈ p.fns, f.dbId ∈ p.dbs.map (·.id)
  md : RisesOn r.d (p.dbs.map (·.id))
  mc : RisesOn r.c (p.colls.map (·.id))
  mt : RisesOn r.t (p.tabs.map (·.id))
  mv : RisesOn r.v (p.vers.map (·.id))
  mf : RisesOn r.f (p.fns.map (·.id))
  ord : ∀ w ∈ p.vers, ∀ v ∈ p.vers, w.id ≤ v.id → w.time ≤ v.time

/-! ### lists -/

theorem any_congr_mem {α : Type} {p q : α → Bool} {l : List α} (h : ∀ a ∈ l, p a = q a) : l.any p = l.any q := by
  induction l with
  | nil => rfl
  | cons a l ih =>
    simp only [List.any_cons]
    rw [h a (by simp), ih (fun b hb => h b (by simp [hb]))]

theorem all_congr_mem {α : Type} {p q : α → Bool} {l : List α} (h : ∀ a ∈ l, p a = q a) : l.all p = l.all q := by
  induction l with
  | nil => rfl
  | cons a l ih =>
    simp only [List.all_cons]
    rw [h a (by simp), ih (fun b hb => h b (by simp [hb]))]

theorem find_congr_mem {α : Type} {p q : α → Bool} {l : List α} (h : ∀ a ∈ l, p a = q a) : l.find? p = l.find? q := by
  induction l with
  | nil => rfl
  | cons a l ih =>
    simp only [List.find?_cons]
    rw [h a (by simp), ih (fun b hb => h b (by simp [hb]))]

theorem find_map {α β : Type} (f : α → β) (q : β → Bool) (l : List α) : (l.map f).find? q = (l.find? (fun a => q (f a))).map f := by
  induction l with
  | nil => rfl
  | cons a l ih =>
    simp only [List.map_cons, List.find?_cons]
    cases q (f a) with
    | true => rfl
    | false => exact ih

theorem filter_map_mem {α β : Type} (f : α → β) (q : β → Bool) (q' : α → Bool) (l : List α) (h : ∀ a ∈ l, q (f a) = q' a) :
    (l.map f).filter q = (l.filter q').map f := by
  induction l with
  | nil => rfl
  | cons a l ih =>
    have ih := ih (fun b hb => h b (by simp [hb]))
    simp only [List.map_cons, List.filter_cons, h a (by simp), ih]
    cases q' a <;> rfl

theorem any_map_mem {α β : Type} (f : α → β) (q : β → Bool) (q' : α → Bool) (l : List α) (h : ∀ a ∈ l, q (f a) = q' a) :
    (l.map f).any q = l.any q' := by
  rw [List.any_map]
  exact any_congr_mem h

theorem find_map_mem {α β : Type} (f : α → β) (q : β → Bool) (q' : α → Bool) (l : List α) (h : ∀ a ∈ l, q (f a) = q' a) :
    (l.map f).find? q = (l.find? q').map f := by
  rw [find_map]
  congr 1
  exact find_congr_mem h

theorem mem_ids {α : Type} {f : α → Nat} {l : List α} {a : α} (h : a ∈ l) : f a ∈ l.map f := List.mem_map_of_mem h

/-! ### lookups -/

theorem ren_getDb (r : Ren) (p : Cat) (n : String) : getDb (r.cat p) n = (getDb p n).map r.db := by
  have e : (r.cat p).dbs.find? (·.name == n) = (p.dbs.find? (·.name == n)).map r.db := find_map _ _ _
  simp only [getDb, repoGetDb, e]
  cases p.dbs.find? (·.name == n) <;> rfl

theorem getDb_mem {p : Cat} {n : String} {d : Db} (h : getDb p n = .ok d) : d ∈ p.dbs := by
  simp only [getDb, repoGetDb] at h
  cases e : p.dbs.find? (·.name == n) with
  | none => rw [e] at h; cases h
  | some x =>
    rw [e] at h
    simp only [Except.ok.injEq] at h
    subst h
    exact (find_some e).1

theorem ren_dbName {r : Ren} {p : Cat} (g : Good r p) {i : Nat} (hi : i ∈ p.dbs.map (·.id)) (db : String) :
    (r.cat p).dbs.any (fun d => d.id == r.d i && d.name == db) = p.dbs.any (fun d => d.id == i && d.name == db) :=
  any_map_mem _ _ _ _ (fun d hd => by
    have := g.md.beq (mem_ids (f := (·.id)) hd) hi
    show (r.d d.id == r.d i && d.name == db) = _
    rw [this])

theorem ren_getColl {r : Ren} {p : Cat} (g : Good r p) (db n : String) : getSchema (r.cat p) db n = (getSchema p db n).map r.coll := by
  have e : (r.cat p).colls.find? (fun c => c.name == n && (r.cat p).dbs.any (fun d => d.id == c.dbId && d.name == db))
      = (p.colls.find? (fun c => c.name == n && p.dbs.any (fun d => d.id == c.dbId && d.name == db))).map r.coll :=
    find_map_mem _ _ _ _ (fun c hc => by
      have := ren_dbName g (g.collP c hc) db
      show (c.name == n && (r.cat p).dbs.any (fun d => d.id == r.d c.dbId && d.name == db)) = _
      rw [this])
  simp only [getSchema, repoGetColl, e]
  split
  · rfl
  · cases p.colls.find? (fun c => c.name == n && p.dbs.any (fun d => d.id == c.dbId && d.name == db)) <;> rfl

theorem getSchema_mem {p : Cat} {db n : String} {c : Coll} (h : getSchema p db n = .ok c) : c ∈ p.colls := by
  simp only [getSchema, repoGetColl] at h
  split at h
  · cases h
  · cases e : p.colls.find? (fun c => c.name == n && p.dbs.any (fun d => d.id == c.dbId && d.name == db)) with
    | none => rw [e] at h; cases h
    | some x =>
      rw [e] at h
      simp only [Except.ok.injEq] at h
      subst h
      exact (find_some e).1

theorem ren_getTab {r : Ren} {p : Cat} (g : Good r p) (db sch n : String) : getTable (r.cat p) db sch n = (getTable p db sch n).map r.tab := by
  have e : (r.cat p).tabs.find? (fun t => t.name == n && (r.cat p).colls.any (fun c => c.id == t.collId && c.name == sch &&
        (r.cat p).dbs.any (fun d => d.id == c.dbId && d.name == db)))
      = (p.tabs.find? (fun t => t.name == n && p.colls.any (fun c => c.id == t.collId && c.name == sch &&
        p.dbs.any (fun d => d.id == c.dbId && d.name == db)))).map r.tab :=
    find_map_mem _ _ _ _ (fun t ht => by
      show (t.name == n && (r.cat p).colls.any (fun c => c.id == r.c t.collId && c.name == sch &&
        (r.cat p).dbs.any (fun d => d.id == c.dbId && d.name == db))) = _
      congr 1
      refine any_map_mem _ _ _ _ (fun c hc => ?_)
      have h1 := ren_dbName g (g.collP c hc) db
      have h2 := g.mc.beq (mem_ids (f := (·.id)) hc) (g.tabP t ht)
      show (r.c c.id == r.c t.collId && c.name == sch && (r.cat p).dbs.any (fun d => d.id == r.d c.dbId && d.name == db)) = _
      rw [h1, h2])
  simp only [getTable, repoGetTab, e]
  cases p.tabs.find? _ <;> rfl

theorem getTable_mem {p : Cat} {db sch n : String} {t : Tab} (h : getTable p db sch n = .ok t) : t ∈ p.tabs := by
  simp only [getTable, repoGetTab] at h
  cases e : p.tabs.find? (fun t => t.name == n && p.colls.any (fun c => c.id == t.collId && c.name == sch &&
      p.dbs.any (fun d => d.id == c.dbId && d.name == db))) with
  | none => rw [e] at h; cases h
  | some x =>
    rw [e] at h
    simp only [Except.ok.injEq] at h
    subst h
    exact (find_some e).1

/-! ### deletions -/

theorem ren_dropVers {r : Ren} {p : Cat} (g : Good r p) (k k' : Ver → Bool) (h : ∀ v ∈ p.vers, k' (r.ver v) = k v) :
    dropVers (r.cat p) k' = r.cat (dropVers p k) ∧ Good r (dropVers p k) := by
  constructor
  · have e1 : (r.cat p).vers.filter (fun v => !k' v) = (p.vers.filter (fun v => !k v)).map r.ver :=
      filter_map_mem _ _ _ _ (fun v hv => by rw [h v hv])
    have e2 : (r.cat p).cols.filter (fun c => !((r.cat p).vers.any (fun v => k' v && v.id == c.verId)))
        = (p.cols.filter (fun c => !(p.vers.any (fun v => k v && v.id == c.verId)))).map r.col :=
      filter_map_mem _ _ _ _ (fun c hc => by
        congr 1
        refine any_map_mem _ _ _ _ (fun v hv => ?_)
        have h2 := g.mv.beq (mem_ids (f := (·.id)) hv) (g.colP c hc)
        show (k' (r.ver v) && r.v v.id == r.v c.verId) = _
        rw [h v hv, h2])
    simp only [dropVers, e1, e2]
    rfl
  · refine { g with verP := fun v hv => g.verP v (List.mem_filter.1 hv).1, colP := ?_, mv := ?_, ord := ?_ }
    · intro c hc
      obtain ⟨hc1, hc2⟩ := List.mem_filter.1 hc
      obtain ⟨v, hv, e⟩ := List.mem_map.1 (g.colP c hc1)
      refine List.mem_map.2 ⟨v, List.mem_filter.2 ⟨hv, ?_⟩, e⟩
      simp only [Bool.not_eq_true'] at hc2 ⊢
      have := any_false hc2 v hv
      simp only [e, beq_self_eq_true, Bool.and_true] at this
      exact this
    · refine g.mv.sub (fun a ha => ?_)
      obtain ⟨v, hv, e⟩ := List.mem_map.1 ha
      exact List.mem_map.2 ⟨v, (List.mem_filter.1 hv).1, e⟩
    · intro w hw v hv
      exact g.ord w (List.mem_filter.1 hw).1 v (List.mem_filter.1 hv).1

theorem ren_dropTabs {r : Ren} {p : Cat} (g : Good r p) (k k' : Tab → Bool) (h : ∀ t ∈ p.tabs, k' (r.tab t) = k t) :
    dropTabs (r.cat p) k' = r.cat (dropTabs p k) ∧ Good r (dropTabs p k) := by
  obtain ⟨e, g1⟩ := ren_dropVers g (fun v => p.tabs.any (fun t => k t && t.id == v.tableId))
    (fun v => (r.cat p).tabs.any (fun t => k' t && t.id == v.tableId)) (fun v hv => by
      refine any_map_mem _ _ _ _ (fun t ht => ?_)
      have h2 := g.mt.beq (mem_ids (f := (·.id)) ht) (g.verP v hv)
      show (k' (r.tab t) && r.t t.id == r.t v.tableId) = _
      rw [h t ht, h2])
  constructor
  · have e1 : (r.cat p).tabs.filter (fun t => !k' t) = (p.tabs.filter (fun t => !k t)).map r.tab :=
      filter_map_mem _ _ _ _ (fun v hv => by rw [h v hv])
    have e2 : (dropVers (r.cat p) (fun v => (r.cat p).tabs.any (fun t => k' t && t.id == v.tableId))).tabs = (r.cat p).tabs := rfl
    simp only [dropTabs, e2, e1]
    rw [e]
    rfl
  · refine { g1 with tabP := fun t ht => g1.tabP t (List.mem_filter.1 ht).1, verP := ?_, mt := ?_ }
    · intro v hv
      obtain ⟨hv1, hv2⟩ := List.mem_filter.1 hv
      obtain ⟨t, ht, e⟩ := List.mem_map.1 (g.verP v hv1)
      refine List.mem_map.2 ⟨t, List.mem_filter.2 ⟨ht, ?_⟩, e⟩
      simp only [Bool.not_eq_true'] at hv2 ⊢
      have := any_false hv2 t ht
      simp only [e, beq_self_eq_true, Bool.and_true] at this
      exact this
    · refine g1.mt.sub (fun a ha => ?_)
      obtain ⟨v, hv, e⟩ := List.mem_map.1 ha
      exact List.mem_map.2 ⟨v, (List.mem_filter.1 hv).1, e⟩

theorem ren_dropColls {r : Ren} {p : Cat} (g : Good r p) (k k' : Coll → Bool) (h : ∀ t ∈ p.colls, k' (r.coll t) = k t) :
    dropColls (r.cat p) k' = r.cat (dropColls p k) ∧ Good r (dropColls p k) := by
  obtain ⟨e, g1⟩ := ren_dropTabs g (fun v => p.colls.any (fun t => k t && t.id == v.collId))
    (fun v => (r.cat p).colls.any (fun t => k' t && t.id == v.collId)) (fun v hv => by
      refine any_map_mem _ _ _ _ (fun t ht => ?_)
      have h2 := g.mc.beq (mem_ids (f := (·.id)) ht) (g.tabP v hv)
      show (k' (r.coll t) && r.c t.id == r.c v.collId) = _
      rw [h t ht, h2])
  constructor
  · have e1 : (r.cat p).colls.filter (fun t => !k' t) = (p.colls.filter (fun t => !k t)).map r.coll :=
      filter_map_mem _ _ _ _ (fun v hv => by rw [h v hv])
    have e2 : (dropTabs (r.cat p) (fun v => (r.cat p).colls.any (fun t => k' t && t.id == v.collId))).colls = (r.cat p).colls := rfl
    simp only [dropColls, e2, e1]
    rw [e]
    rfl
  · refine { g1 with collP := fun t ht => g1.collP t (List.mem_filter.1 ht).1, tabP := ?_, mc := ?_ }
    · intro v hv
      obtain ⟨hv1, hv2⟩ := List.mem_filter.1 hv
      obtain ⟨t, ht, e⟩ := List.mem_map.1 (g.tabP v hv1)
      refine List.mem_map.2 ⟨t, List.mem_filter.2 ⟨ht, ?_⟩, e⟩
      simp only [Bool.not_eq_true'] at hv2 ⊢
      have := any_false hv2 t ht
      simp only [e, beq_self_eq_true, Bool.and_true] at this
      exact this
    · refine g1.mc.sub (fun a ha => ?_)
      obtain ⟨v, hv, e⟩ := List.mem_map.1 ha
      exact List.mem_map.2 ⟨v, (List.mem_filter.1 hv).1, e⟩

/-! ### versions -/

theorem seconds_mono {a b : Int} (h : a ≤ b) : sqliteSeconds a ≤ sqliteSeconds b := Int.ediv_le_ediv (by decide) h

/-- With times in the order of the identifiers the newest version is the one with the largest identifier. -/
theorem newest_ids {l : List Ver} (ho : ∀ w ∈ l, ∀ v ∈ l, w.id ≤ v.id → w.time ≤ v.time) {v : Ver} (hv : v ∈ l) :
    isNewest l v = l.all (fun w => w.tableId != v.tableId || decide (w.id ≤ v.id)) := by
  refine all_congr_mem (fun w hw => ?_)
  congr 1
  refine decide_eq_decide.2 ⟨?_, ?_⟩
  · rintro (h | h)
    · rcases Nat.le_total w.id v.id with x | x
      · exact x
      · have := ho v hv w hw x; omega
    · exact h.2
  · intro h
    have := ho w hw v hv h
    omega

theorem ord_cat {r : Ren} {p : Cat} (g : Good r p) : ∀ w ∈ (r.cat p).vers, ∀ v ∈ (r.cat p).vers, w.id ≤ v.id → w.time ≤ v.time := by
  intro w hw v hv hle
  obtain ⟨w0, hw0, rfl⟩ := List.mem_map.1 hw
  obtain ⟨v0, hv0, rfl⟩ := List.mem_map.1 hv
  exact seconds_mono (g.ord w0 hw0 v0 hv0 ((g.mv.le_iff (mem_ids (f := (·.id)) hw0) (mem_ids (f := (·.id)) hv0)).1 hle))

theorem ren_newest {r : Ren} {p : Cat} (g : Good r p) {v : Ver} (hv : v ∈ p.vers) :
    isNewest (r.cat p).vers (r.ver v) = isNewest p.vers v := by
  rw [newest_ids g.ord hv, newest_ids (ord_cat g) (List.mem_map_of_mem hv)]
  show (p.vers.map r.ver).all _ = _
  rw [List.all_map]
  refine all_congr_mem (fun w hw => ?_)
  have h1 := g.mt.beq (g.verP w hw) (g.verP v hv)
  have h2 := g.mv.le_iff (mem_ids (f := (·.id)) hw) (mem_ids (f := (·.id)) hv)
  show ((r.t w.tableId != r.t v.tableId) || decide (r.v w.id ≤ r.v v.id)) = _
  simp only [bne, h1, h2]

theorem ren_deleteOld {r : Ren} {p : Cat} (g : Good r p) {i : Nat} (hi : i ∈ p.tabs.map (·.id)) :
    repoDeleteOld (r.cat p) (r.t i) = r.cat (repoDeleteOld p i) ∧ Good r (repoDeleteOld p i) := by
  have e0 : ((r.cat p).vers.filter (fun v => v.tableId == r.t i && !isNewest (r.cat p).vers v))
      = (p.vers.filter (fun v => v.tableId == i && !isNewest p.vers v)).map r.ver :=
    filter_map_mem _ _ _ _ (fun v hv => by
      have h1 := g.mt.beq (g.verP v hv) hi
      show (r.t v.tableId == r.t i && !isNewest (r.cat p).vers (r.ver v)) = _
      rw [h1, ren_newest g hv])
  have e1 : ∀ j ∈ p.vers.map (·.id),
      (((p.vers.filter (fun v => v.tableId == i && !isNewest p.vers v)).map r.ver).map (·.id)).contains (r.v j)
        = ((p.vers.filter (fun v => v.tableId == i && !isNewest p.vers v)).map (·.id)).contains j := by
    intro j hj
    rw [Bool.eq_iff_iff]
    simp only [List.contains_iff_mem, List.mem_map]
    constructor
    · rintro ⟨x, ⟨y, hy, rfl⟩, e⟩
      exact ⟨y, hy, (g.mv.eq_iff (mem_ids (f := (·.id)) (List.mem_filter.1 hy).1) hj).1 e⟩
    · rintro ⟨y, hy, rfl⟩
      exact ⟨r.ver y, ⟨y, hy, rfl⟩, rfl⟩
  constructor
  · have e2 : (r.cat p).vers.filter (fun v => !(((p.vers.filter (fun v => v.tableId == i && !isNewest p.vers v)).map r.ver).map (·.id)).contains v.id)
        = (p.vers.filter (fun v => !((p.vers.filter (fun v => v.tableId == i && !isNewest p.vers v)).map (·.id)).contains v.id)).map r.ver :=
      filter_map_mem _ _ _ _ (fun v hv => by
        rw [← e1 v.id (mem_ids (f := (·.id)) hv)]; rfl)
    have e3 : (r.cat p).cols.filter (fun c => !(((p.vers.filter (fun v => v.tableId == i && !isNewest p.vers v)).map r.ver).map (·.id)).contains c.verId)
        = (p.cols.filter (fun c => !((p.vers.filter (fun v => v.tableId == i && !isNewest p.vers v)).map (·.id)).contains c.verId)).map r.col :=
      filter_map_mem _ _ _ _ (fun c hc => by
        rw [← e1 c.verId (g.colP c hc)]; rfl)
    simp only [repoDeleteOld, e0, e2, e3]
    rfl
  · refine { g with verP := fun v hv => g.verP v (List.mem_filter.1 hv).1, colP := ?_, mv := ?_, ord := ?_ }
    · intro c hc
      obtain ⟨hc1, hc2⟩ := List.mem_filter.1 hc
      obtain ⟨v, hv, e⟩ := List.mem_map.1 (g.colP c hc1)
      refine List.mem_map.2 ⟨v, List.mem_filter.2 ⟨hv, ?_⟩, e⟩
      show _ = true
      have : v.id = c.verId := e
      rw [this]
      exact hc2
    · refine g.mv.sub (fun a ha => ?_)
      obtain ⟨v, hv, e⟩ := List.mem_map.1 ha
      exact List.mem_map.2 ⟨v, (List.mem_filter.1 hv).1, e⟩
    · intro w hw v hv
      exact g.ord w (List.mem_filter.1 hw).1 v (List.mem_filter.1 hv).1

/-! ### renaming and functions -/

theorem ren_rename {r : Ren} {p : Cat} (g : Good r p) {i : Nat} (hi : i ∈ p.tabs.map (·.id)) (n : String) (k : Option Nat)
    (hk : ∀ c, k = some c → c ∈ p.colls.map (·.id)) :
    (repoRename (r.cat p) (r.t i) n (k.map r.c)).1 = r.cat (repoRename p i n k).1 ∧
      (repoRename (r.cat p) (r.t i) n (k.map r.c)).2 = (repoRename p i n k).2 ∧ Good r (repoRename p i n k).1 := by
  have e0 : (r.cat p).tabs.find? (·.id == r.t i) = (p.tabs.find? (·.id == i)).map r.tab :=
    find_map_mem _ _ _ _ (fun t ht => g.mt.beq (mem_ids (f := (·.id)) ht) hi)
  simp only [repoRename, e0]
  cases e : p.tabs.find? (·.id == i) with
  | none => exact ⟨rfl, rfl, g⟩
  | some t =>
    have ht := (find_some e).1
    have ec : (k.map r.c).getD (r.tab t).collId = r.c (k.getD t.collId) := by cases k <;> rfl
    have hc : k.getD t.collId ∈ p.colls.map (·.id) := by
      cases k with
      | none => exact g.tabP t ht
      | some c => exact hk c rfl
    have e1 : (r.cat p).tabs.any (fun u => u.id != r.t i && u.name == n && u.collId == r.c (k.getD t.collId))
        = p.tabs.any (fun u => u.id != i && u.name == n && u.collId == k.getD t.collId) :=
      any_map_mem _ _ _ _ (fun u hu => by
        have h1 := g.mt.beq (mem_ids (f := (·.id)) hu) hi
        have h2 := g.mc.beq (g.tabP u hu) hc
        show (r.t u.id != r.t i && u.name == n && r.c u.collId == r.c (k.getD t.collId)) = _
        simp only [bne, h1, h2])
    have e2 : (r.cat p).colls.any (·.id == r.c (k.getD t.collId)) = p.colls.any (·.id == k.getD t.collId) :=
      any_map_mem _ _ _ _ (fun c hc' => g.mc.beq (mem_ids (f := (·.id)) hc') hc)
    simp only [Option.map_some, ec, e1, e2]
    split
    · exact ⟨rfl, rfl, g⟩
    · split
      · exact ⟨rfl, rfl, g⟩
      · refine ⟨?_, rfl, ?_⟩
        · have : (r.cat p).tabs.map (fun u => if u.id = r.t i then { u with name := n, collId := r.c (k.getD t.collId) } else u)
              = (p.tabs.map (fun u => if u.id = i then { u with name := n, collId := k.getD t.collId } else u)).map r.tab := by
            show (p.tabs.map r.tab).map _ = _
            rw [List.map_map, List.map_map]
            refine List.map_congr_left (fun u hu => ?_)
            have h1 := g.mt.eq_iff (mem_ids (f := (·.id)) hu) hi
            show (if r.t u.id = r.t i then _ else _) = r.tab (if u.id = i then _ else _)
            by_cases h : u.id = i
            · rw [if_pos h, if_pos (h1.2 h)]; rfl
            · rw [if_neg h, if_neg (fun x => h (h1.1 x))]
          simp only [this]
          rfl
        · have ids : (p.tabs.map (fun u => if u.id = i then { u with name := n, collId := k.getD t.collId } else u)).map (·.id)
              = p.tabs.map (·.id) := by
            rw [List.map_map]
            refine List.map_congr_left (fun u _ => ?_)
            simp only [Function.comp]
            split <;> rfl
          refine { g with tabP := ?_, verP := ?_, mt := ?_ }
          · intro u hu
            obtain ⟨w, hw, rfl⟩ := List.mem_map.1 hu
            by_cases h : w.id = i
            · simp only [h, if_true]; exact hc
            · simp only [h, if_false]; exact g.tabP w hw
          · intro v hv
            show _ ∈ List.map _ (List.map _ _)
            rw [ids]
            exact g.verP v hv
          · show RisesOn r.t (List.map _ (List.map _ _))
            rw [ids]
            exact g.mt

theorem ren_dropFn {r : Ren} {p : Cat} (g : Good r p) {i : Nat} (hi : i ∈ p.dbs.map (·.id)) (ns : List String) :
    (repoDropFn (r.cat p) (r.d i) ns).1 = r.cat (repoDropFn p i ns).1 ∧
      (repoDropFn (r.cat p) (r.d i) ns).2 = (repoDropFn p i ns).2 ∧ Good r (repoDropFn p i ns).1 := by
  have hh : ∀ f ∈ p.fns, ((r.fn f).dbId == r.d i && (ns.map (fun _ => ns.head?)).contains (some (r.fn f).name))
      = (f.dbId == i && (ns.map (fun _ => ns.head?)).contains (some f.name)) := by
    intro f hf
    have := g.md.beq (g.fnP f hf) hi
    show (r.d f.dbId == r.d i && _) = _
    rw [this]; rfl
  have e1 : (r.cat p).fns.any (fun f => f.dbId == r.d i && (ns.map (fun _ => ns.head?)).contains (some f.name))
      = p.fns.any (fun f => f.dbId == i && (ns.map (fun _ => ns.head?)).contains (some f.name)) :=
    any_map_mem _ _ _ _ hh
  have e2 : (r.cat p).fns.filter (fun f => !(f.dbId == r.d i && (ns.map (fun _ => ns.head?)).contains (some f.name)))
      = (p.fns.filter (fun f => !(f.dbId == i && (ns.map (fun _ => ns.head?)).contains (some f.name)))).map r.fn :=
    filter_map_mem _ _ _ _ (fun f hf => congrArg _ (hh f hf))
  simp only [repoDropFn, e1, e2]
  split
  · refine ⟨rfl, rfl, ?_⟩
    refine { g with fnP := fun f hf => g.fnP f (List.mem_filter.1 hf).1, mf := ?_ }
    refine g.mf.sub (fun a ha => ?_)
    obtain ⟨v, hv, e⟩ := List.mem_map.1 ha
    exact List.mem_map.2 ⟨v, (List.mem_filter.1 hv).1, e⟩
  · exact ⟨rfl, rfl, g⟩

/-! ### insertions -/

/-- One more value. -/
def upd (f : Nat → Nat) (k v : Nat) : Nat → Nat := fun x => if x = k then v else f x

theorem upd_at (f : Nat → Nat) (k v : Nat) : upd f k v k = v := by simp [upd]

theorem upd_old {f : Nat → Nat} {k v : Nat} {l : List Nat} (h : ∀ a ∈ l, a < k) {a : Nat} (ha : a ∈ l) : upd f k v a = f a := by
  have := h a ha
  have : a ≠ k := by omega
  simp [upd, this]

theorem rises_snoc {f : Nat → Nat} {l : List Nat} {k v : Nat} (h : RisesOn f l) (h1 : ∀ a ∈ l, a < k) (h2 : ∀ a ∈ l, f a < v) :
    RisesOn (upd f k v) (l ++ [k]) := by
  intro a ha b hb hab
  rcases List.mem_append.1 ha with ha' | ha' <;> rcases List.mem_append.1 hb with hb' | hb'
  · rw [upd_old h1 ha', upd_old h1 hb']; exact h a ha' b hb' hab
  · simp only [List.mem_singleton] at hb'
    subst hb'
    rw [upd_old h1 ha', upd_at]
    exact h2 a ha'
  · simp only [List.mem_singleton] at ha'
    subst ha'
    have := h1 b hb'
    omega
  · simp only [List.mem_singleton] at ha' hb'
    omega

theorem rises_upd {f : Nat → Nat} {l : List Nat} {k v : Nat} (h : RisesOn f l) (h1 : ∀ a ∈ l, a < k) : RisesOn (upd f k v) l := by
  intro a ha b hb hab
  rw [upd_old h1 ha, upd_old h1 hb]; exact h a ha b hb hab

/-- All identifiers in use are below what the sequences give next. -/
structure Fresh (p : Cat) (i : Ids) : Prop where
  db : ∀ a ∈ p.dbs.map (·.id), a < i.db
  coll : ∀ a ∈ p.colls.map (·.id), a < i.coll
  tab : ∀ a ∈ p.tabs.map (·.id), a < i.tab
  ver : ∀ a ∈ p.vers.map (·.id), a < i.ver
  fn : ∀ a ∈ p.fns.map (·.id), a < i.fn

theorem new_above {α : Type} (f : Nat → Nat) (g : α → Nat) (h : α → α) (l : List α) (he : ∀ a ∈ l, g (h a) = f (g a)) :
    ∀ a ∈ l.map g, f a < newId ((l.map h).map g) := by
  intro a ha
  obtain ⟨x, hx, rfl⟩ := List.mem_map.1 ha
  rw [← he x hx]
  exact lt_newId _ _ (List.mem_map_of_mem (List.mem_map_of_mem hx))

theorem ren_insertDb {r : Ren} {p : Cat} (g : Good r p) {i : Nat} (hi : ∀ a ∈ p.dbs.map (·.id), a < i) (n : String) :
    ∃ r' : Ren, (insertDb (newId ((r.cat p).dbs.map (·.id))) (r.cat p) n).1 = r'.cat (insertDb i p n).1 ∧
      (insertDb (newId ((r.cat p).dbs.map (·.id))) (r.cat p) n).2 = (insertDb i p n).2 ∧ Good r' (insertDb i p n).1 := by
  have e1 : (r.cat p).dbs.any (·.name == n) = p.dbs.any (·.name == n) := any_map_mem _ _ _ _ (fun _ _ => rfl)
  simp only [insertDb, e1]
  split
  · exact ⟨r, rfl, rfl, g⟩
  · have hn := new_above r.d (fun d : Db => d.id) r.db p.dbs (fun _ _ => rfl)
    refine ⟨{ r with d := upd r.d i (newId ((r.cat p).dbs.map (·.id))) }, ?_, rfl, ?_⟩
    · simp only [Ren.cat, List.map_append, Cat.mk.injEq, List.map_cons, List.map_nil, and_true, true_and]
      refine ⟨?_, ?_, rfl, rfl, rfl, ?_⟩
      · congr 1
        · exact List.map_congr_left (fun d hd => by simp only [Ren.db, upd_old hi (mem_ids (f := (·.id)) hd)])
        · simp only [Ren.db, upd_at]
      · exact List.map_congr_left (fun c hc => by simp only [Ren.coll, upd_old hi (g.collP c hc)])
      · exact List.map_congr_left (fun c hc => by simp only [Ren.fn, upd_old hi (g.fnP c hc)])
    · refine { g with collP := ?_, fnP := ?_, md := ?_ }
      · intro c hc; simp only [List.map_append]; exact List.mem_append_left _ (g.collP c hc)
      · intro c hc; simp only [List.map_append]; exact List.mem_append_left _ (g.fnP c hc)
      · simp only [List.map_append, List.map_cons, List.map_nil]
        exact rises_snoc g.md hi hn

theorem ren_insertColl {r : Ren} {p : Cat} (g : Good r p) {i : Nat} (hi : ∀ a ∈ p.colls.map (·.id), a < i) {d : Nat}
    (hd : d ∈ p.dbs.map (·.id)) (n : String) :
    ∃ r' : Ren, (insertColl (newId ((r.cat p).colls.map (·.id))) (r.cat p) (r.d d) n).1 = r'.cat (insertColl i p d n).1 ∧
      (insertColl (newId ((r.cat p).colls.map (·.id))) (r.cat p) (r.d d) n).2 = (insertColl i p d n).2 ∧ Good r' (insertColl i p d n).1 := by
  have e1 : (r.cat p).colls.any (fun c => c.name == n && c.dbId == r.d d) = p.colls.any (fun c => c.name == n && c.dbId == d) :=
    any_map_mem _ _ _ _ (fun c hc => by
      have := g.md.beq (g.collP c hc) hd
      show (c.name == n && r.d c.dbId == r.d d) = _
      rw [this])
  have e2 : (r.cat p).dbs.any (·.id == r.d d) = p.dbs.any (·.id == d) :=
    any_map_mem _ _ _ _ (fun c hc => g.md.beq (mem_ids (f := (·.id)) hc) hd)
  simp only [insertColl, e1, e2]
  split
  · exact ⟨r, rfl, rfl, g⟩
  · split
    · exact ⟨r, rfl, rfl, g⟩
    · have hn := new_above r.c (fun d : Coll => d.id) r.coll p.colls (fun _ _ => rfl)
      refine ⟨{ r with c := upd r.c i (newId ((r.cat p).colls.map (·.id))) }, ?_, rfl, ?_⟩
      · simp only [Ren.cat, List.map_append, Cat.mk.injEq, List.map_cons, List.map_nil, and_true, true_and]
        refine ⟨rfl, ?_, ?_, rfl, rfl, rfl⟩
        · congr 1
          · exact List.map_congr_left (fun d hd => by simp only [Ren.coll, upd_old hi (mem_ids (f := (·.id)) hd)])
          · simp only [Ren.coll, upd_at]
        · exact List.map_congr_left (fun c hc => by simp only [Ren.tab, upd_old hi (g.tabP c hc)])
      · refine { g with collP := ?_, tabP := ?_, mc := ?_ }
        · intro c hc
          rcases List.mem_append.1 hc with hc | hc
          · exact g.collP c hc
          · simp only [List.mem_singleton] at hc
            subst hc
            exact hd
        · intro c hc; simp only [List.map_append]; exact List.mem_append_left _ (g.tabP c hc)
        · simp only [List.map_append, List.map_cons, List.map_nil]
          exact rises_snoc g.mc hi hn

theorem ren_insertFn {r : Ren} {p : Cat} (g : Good r p) {i : Nat} (hi : ∀ a ∈ p.fns.map (·.id), a < i) {d : Nat}
    (hd : d ∈ p.dbs.map (·.id)) (n : String) (o : Bool) (x : String) :
    ∃ r' : Ren, (insertFn (newId ((r.cat p).fns.map (·.id))) (r.cat p) (r.d d) n o x).1 = r'.cat (insertFn i p d n o x).1 ∧
      (insertFn (newId ((r.cat p).fns.map (·.id))) (r.cat p) (r.d d) n o x).2 = (insertFn i p d n o x).2 ∧
      Good r' (insertFn i p d n o x).1 := by
  have e0 : (r.cat p).fns.find? (fun f => f.name == n && f.dbId == r.d d) = (p.fns.find? (fun f => f.name == n && f.dbId == d)).map r.fn :=
    find_map_mem _ _ _ _ (fun c hc => by
      have := g.md.beq (g.fnP c hc) hd
      show (c.name == n && r.d c.dbId == r.d d) = _
      rw [this])
  have e2 : (r.cat p).dbs.any (·.id == r.d d) = p.dbs.any (·.id == d) :=
    any_map_mem _ _ _ _ (fun c hc => g.md.beq (mem_ids (f := (·.id)) hc) hd)
  simp only [insertFn, e0, e2]
  cases e : p.fns.find? (fun f => f.name == n && f.dbId == d) with
  | some f =>
    have hf := (find_some e).1
    simp only [Option.map_some]
    cases o with
    | false => exact ⟨r, rfl, rfl, g⟩
    | true =>
      refine ⟨r, ?_, rfl, ?_⟩
      · simp only [if_true]
        have : (r.cat p).fns.map (fun h => if h.id = (r.fn f).id then { h with details := x } else h)
            = (p.fns.map (fun h => if h.id = f.id then { h with details := x } else h)).map r.fn := by
          show (p.fns.map r.fn).map _ = _
          rw [List.map_map, List.map_map]
          refine List.map_congr_left (fun u hu => ?_)
          have h1 := g.mf.eq_iff (mem_ids (f := (·.id)) hu) (mem_ids (f := (·.id)) hf)
          show (if r.f u.id = r.f f.id then _ else _) = r.fn (if u.id = f.id then _ else _)
          by_cases h : u.id = f.id
          · rw [if_pos h, if_pos (h1.2 h)]; rfl
          · rw [if_neg h, if_neg (fun x => h (h1.1 x))]
        rw [this]
        rfl
      · simp only [if_true]
        have ids : (p.fns.map (fun h => if h.id = f.id then { h with details := x } else h)).map (·.id) = p.fns.map (·.id) := by
          rw [List.map_map]
          refine List.map_congr_left (fun u _ => ?_)
          simp only [Function.comp]
          split <;> rfl
        refine { g with fnP := ?_, mf := ?_ }
        · intro u hu
          obtain ⟨w, hw, rfl⟩ := List.mem_map.1 hu
          by_cases h : w.id = f.id
          · simp only [h, if_true]; exact g.fnP w hw
          · simp only [h, if_false]; exact g.fnP w hw
        · show RisesOn r.f (List.map _ (List.map _ _))
          rw [ids]
          exact g.mf
  | none =>
    simp only [Option.map_none]
    split
    · exact ⟨r, rfl, rfl, g⟩
    · have hn := new_above r.f (fun d : Fn => d.id) r.fn p.fns (fun _ _ => rfl)
      refine ⟨{ r with f := upd r.f i (newId ((r.cat p).fns.map (·.id))) }, ?_, rfl, ?_⟩
      · simp only [Ren.cat, List.map_append, Cat.mk.injEq, List.map_cons, List.map_nil, and_true, true_and]
        refine ⟨rfl, rfl, rfl, rfl, rfl, ?_⟩
        congr 1
        · exact List.map_congr_left (fun d hd => by simp only [Ren.fn, upd_old hi (mem_ids (f := (·.id)) hd)])
        · simp only [Ren.fn, upd_at]
      · refine { g with fnP := ?_, mf := ?_ }
        · intro c hc
          rcases List.mem_append.1 hc with hc | hc
          · exact g.fnP c hc
          · simp only [List.mem_singleton] at hc
            subst hc
            exact hd
        · simp only [List.map_append, List.map_cons, List.map_nil]
          exact rises_snoc g.mf hi hn

theorem ren_addCols {r : Ren} {q : Cat} (g : Good r q) (cs : List Col) (h : ∀ c ∈ cs, c.verId ∈ q.vers.map (·.id)) :
    { r.cat q with cols := (r.cat q).cols ++ cs.map r.col } = r.cat { q with cols := q.cols ++ cs } ∧
      Good r { q with cols := q.cols ++ cs } := by
  refine ⟨by simp [Ren.cat], { g with colP := ?_ }⟩
  intro c hc
  rcases List.mem_append.1 hc with hc | hc
  · exact g.colP c hc
  · exact h c hc

theorem ren_addVer {r : Ren} {p : Cat} (g : Good r p) {i : Nat} (hi : ∀ a ∈ p.vers.map (·.id), a < i) {t : Nat}
    (ht : t ∈ p.tabs.map (·.id)) (version now : Int) (hc : ∀ v ∈ p.vers, v.time ≤ now) :
    let r' : Ren := { r with v := upd r.v i (newId ((r.cat p).vers.map (·.id))) }
    let q := { p with vers := p.vers ++ [{ id := i, tableId := t, version := version, time := now }] }
    { r.cat p with vers := (r.cat p).vers ++
        [{ id := newId ((r.cat p).vers.map (·.id)), tableId := r.t t, version := version, time := sqliteSeconds now }] } = r'.cat q ∧ Good r' q := by
  intro r' q
  have hn := new_above r.v (fun d : Ver => d.id) r.ver p.vers (fun _ _ => rfl)
  constructor
  · simp only [r', q, Ren.cat, List.map_append, Cat.mk.injEq, List.map_cons, List.map_nil, and_true, true_and]
    refine ⟨rfl, rfl, rfl, ?_, ?_, rfl⟩
    · congr 1
      · exact List.map_congr_left (fun d hd => by simp only [Ren.ver, upd_old hi (mem_ids (f := (·.id)) hd)])
      · simp only [Ren.ver, upd_at]
    · exact List.map_congr_left (fun c hc => by simp only [Ren.col, upd_old hi (g.colP c hc)])
  · refine { g with verP := ?_, colP := ?_, mv := ?_, ord := ?_ }
    · intro v hv
      rcases List.mem_append.1 hv with hv | hv
      · exact g.verP v hv
      · simp only [List.mem_singleton] at hv
        subst hv
        exact ht
    · intro c hc; simp only [q, List.map_append]; exact List.mem_append_left _ (g.colP c hc)
    · simp only [q, List.map_append, List.map_cons, List.map_nil]
      exact rises_snoc g.mv hi hn
    · intro w hw v hv hle
      rcases List.mem_append.1 hw with hw' | hw' <;> rcases List.mem_append.1 hv with hv' | hv'
      · exact g.ord w hw' v hv' hle
      · simp only [List.mem_singleton] at hv'
        subst hv'
        exact hc w hw'
      · simp only [List.mem_singleton] at hw'
        subst hw'
        have := hi v.id (mem_ids (f := (·.id)) hv')
        simp only at hle
        omega
      · simp only [List.mem_singleton] at hw' hv'
        subst hw' hv'
        exact Int.le_refl _

theorem ren_addTab {r : Ren} {p : Cat} (g : Good r p) {i : Nat} (hi : ∀ a ∈ p.tabs.map (·.id), a < i) {c : Nat}
    (hc : c ∈ p.colls.map (·.id)) (n : String) (uuid : Nat) :
    let r' : Ren := { r with t := upd r.t i (newId ((r.cat p).tabs.map (·.id))) }
    let q := { p with tabs := p.tabs ++ [{ id := i, collId := c, name := n, uuid := uuid }] }
    { r.cat p with tabs := (r.cat p).tabs ++
        [{ id := newId ((r.cat p).tabs.map (·.id)), collId := r.c c, name := n, uuid := uuid }] } = r'.cat q ∧ Good r' q := by
  intro r' q
  have hn := new_above r.t (fun d : Tab => d.id) r.tab p.tabs (fun _ _ => rfl)
  constructor
  · simp only [r', q, Ren.cat, List.map_append, Cat.mk.injEq, List.map_cons, List.map_nil, and_true, true_and]
    refine ⟨rfl, rfl, ?_, ?_, rfl, rfl⟩
    · congr 1
      · exact List.map_congr_left (fun d hd => by simp only [Ren.tab, upd_old hi (mem_ids (f := (·.id)) hd)])
      · simp only [Ren.tab, upd_at]
    · exact List.map_congr_left (fun c hc => by simp only [Ren.ver, upd_old hi (g.verP c hc)])
  · refine { g with tabP := ?_, verP := ?_, mt := ?_ }
    · intro v hv
      rcases List.mem_append.1 hv with hv | hv
      · exact g.tabP v hv
      · simp only [List.mem_singleton] at hv
        subst hv
        exact hc
    · intro c hc; simp only [q, List.map_append]; exact List.mem_append_left _ (g.verP c hc)
    · simp only [q, List.map_append, List.map_cons, List.map_nil]
      exact rises_snoc g.mt hi hn

theorem ren_insertTab {r : Ren} {p : Cat} (g : Good r p) {i j : Nat} (hi : ∀ a ∈ p.tabs.map (·.id), a < i)
    (hj : ∀ a ∈ p.vers.map (·.id), a < j) {c : Nat} (hc : c ∈ p.colls.map (·.id)) (n : String) (cs : List (String × String))
    (uuid : Nat) (now : Int) (hk : ∀ v ∈ p.vers, v.time ≤ now) (ok : Bool) :
    ∃ r' : Ren, (insertTab (newId ((r.cat p).tabs.map (·.id))) (newId ((r.cat p).vers.map (·.id))) (r.cat p) (r.c c) n cs uuid
          (sqliteSeconds now) ok).1 = r'.cat (insertTab i j p c n cs uuid now ok).1 ∧
      (insertTab (newId ((r.cat p).tabs.map (·.id))) (newId ((r.cat p).vers.map (·.id))) (r.cat p) (r.c c) n cs uuid
          (sqliteSeconds now) ok).2 = (insertTab i j p c n cs uuid now ok).2 ∧
      Good r' (insertTab i j p c n cs uuid now ok).1 := by
  have e1 : (r.cat p).tabs.any (fun t => t.name == n && t.collId == r.c c) = p.tabs.any (fun t => t.name == n && t.collId == c) :=
    any_map_mem _ _ _ _ (fun t ht => by
      have := g.mc.beq (g.tabP t ht) hc
      show (t.name == n && r.c t.collId == r.c c) = _
      rw [this])
  have e2 : (r.cat p).colls.any (·.id == r.c c) = p.colls.any (·.id == c) :=
    any_map_mem _ _ _ _ (fun x hx => g.mc.beq (mem_ids (f := (·.id)) hx) hc)
  obtain ⟨a1, a2⟩ := ren_addTab g hi hc n uuid
  obtain ⟨b1, b2⟩ := ren_addVer (p := { p with tabs := p.tabs ++ [{ id := i, collId := c, name := n, uuid := uuid }] }) a2 hj
    (t := i) (by simp) 0 now hk
  rw [← a1] at b1 b2
  simp only [upd_at] at b1
  simp only [insertTab, e1, e2]
  split
  · exact ⟨r, rfl, rfl, g⟩
  · split
    · exact ⟨r, rfl, rfl, g⟩
    · split
      · exact ⟨_, b1, rfl, b2⟩
      · split
        · exact ⟨_, b1, rfl, b2⟩
        · split
          · exact ⟨_, b1, rfl, b2⟩
          · obtain ⟨c1, c2⟩ := ren_addCols b2 (cs.map (fun c => { verId := j, name := c.1, typ := c.2 })) (by
              intro c hc
              obtain ⟨x, _, rfl⟩ := List.mem_map.1 hc
              simp)
            refine ⟨_, ?_, rfl, c2⟩
            rw [← c1, ← b1]
            simp only [List.map_map, Function.comp_def, Ren.col, upd_at]

theorem maxOf_mem : ∀ (l : List Nat) (m : Nat), maxOf l = some m → m ∈ l ∧ ∀ a ∈ l, a ≤ m
  | [], _, h => by cases h
  | i :: is, m, h => by
    simp only [maxOf, Option.some.injEq] at h
    cases e : maxOf is with
    | none =>
      rw [e] at h
      simp only at h
      subst h
      have : is = [] := by cases is with
        | nil => rfl
        | cons a l => simp [maxOf] at e
      subst this
      simp
    | some j =>
      rw [e] at h
      simp only at h
      obtain ⟨h1, h2⟩ := maxOf_mem is j e
      subst h
      refine ⟨?_, ?_⟩
      · rcases Nat.le_total i j with x | x
        · rw [Nat.max_eq_right x]; exact List.mem_cons_of_mem _ h1
        · rw [Nat.max_eq_left x]; simp
      · intro a ha
        rcases List.mem_cons.1 ha with rfl | ha
        · omega
        · have := h2 a ha; omega

theorem maxOf_map {f : Nat → Nat} : ∀ {l : List Nat}, RisesOn f l → maxOf (l.map f) = (maxOf l).map f
  | [], _ => rfl
  | i :: is, h => by
    have ih := maxOf_map (l := is) (h.sub (fun a ha => by simp [ha]))
    simp only [List.map_cons, maxOf, ih]
    cases e : maxOf is with
    | none => rfl
    | some j =>
      have hj := (maxOf_mem is j e).1
      simp only [Option.map_some, Option.some.injEq]
      have := h.le_iff (a := i) (b := j) (by simp) (by simp [hj])
      have := h.le_iff (a := j) (b := i) (by simp [hj]) (by simp)
      rcases Nat.le_total i j with x | x
      · rw [Nat.max_eq_right x]; omega
      · rw [Nat.max_eq_left x]; omega

theorem ren_last {r : Ren} {p : Cat} (g : Good r p) (u : Nat) : lastVersion (r.cat p) u = (lastVersion p u).map r.v := by
  have e : (r.cat p).vers.filter (fun v => (r.cat p).tabs.any (fun t => t.id == v.tableId && t.uuid == u))
      = (p.vers.filter (fun v => p.tabs.any (fun t => t.id == v.tableId && t.uuid == u))).map r.ver :=
    filter_map_mem _ _ _ _ (fun v hv => any_map_mem _ _ _ _ (fun t ht => by
      have := g.mt.beq (mem_ids (f := (·.id)) ht) (g.verP v hv)
      show (r.t t.id == r.t v.tableId && t.uuid == u) = _
      rw [this]))
  simp only [lastVersion, e]
  have e2 : ((p.vers.filter (fun v => p.tabs.any (fun t => t.id == v.tableId && t.uuid == u))).map r.ver).map (·.id)
      = ((p.vers.filter (fun v => p.tabs.any (fun t => t.id == v.tableId && t.uuid == u))).map (·.id)).map r.v := by
    rw [List.map_map, List.map_map]; rfl
  rw [e2]
  refine maxOf_map (g.mv.sub (fun a ha => ?_))
  obtain ⟨v, hv, e⟩ := List.mem_map.1 ha
  exact List.mem_map.2 ⟨v, (List.mem_filter.1 hv).1, e⟩

theorem ren_insertVer {r : Ren} {p : Cat} (g : Good r p) {j : Nat} (hj : ∀ a ∈ p.vers.map (·.id), a < j) (uuid : Nat)
    (version now : Int) (hk : ∀ v ∈ p.vers, v.time ≤ now) (ok : Bool) :
    ∃ r' : Ren, (insertVer (newId ((r.cat p).vers.map (·.id))) (r.cat p) uuid version (sqliteSeconds now) ok).1
        = r'.cat (insertVer j p uuid version now ok).1 ∧
      (insertVer (newId ((r.cat p).vers.map (·.id))) (r.cat p) uuid version (sqliteSeconds now) ok).2
        = (insertVer j p uuid version now ok).2 ∧
      Good r' (insertVer j p uuid version now ok).1 := by
  simp only [insertVer, ren_last g]
  cases e : lastVersion p uuid with
  | none => exact ⟨r, rfl, rfl, g⟩
  | some last =>
    have hl : last ∈ p.vers.map (·.id) := by
      have := (maxOf_mem _ _ e).1
      obtain ⟨v, hv, e⟩ := List.mem_map.1 this
      exact List.mem_map.2 ⟨v, (List.mem_filter.1 hv).1, e⟩
    have e0 : (r.cat p).vers.find? (·.id == r.v last) = (p.vers.find? (·.id == last)).map r.ver :=
      find_map_mem _ _ _ _ (fun t ht => g.mv.beq (mem_ids (f := (·.id)) ht) hl)
    simp only [Option.map_some, e0]
    cases e1 : p.vers.find? (·.id == last) with
    | none => exact ⟨r, rfl, rfl, g⟩
    | some v =>
      have hv := (find_some e1).1
      obtain ⟨b1, b2⟩ := ren_addVer g hj (g.verP v hv) version now hk
      simp only [Option.map_some]
      split
      · exact ⟨_, b1, rfl, b2⟩
      · obtain ⟨c1, c2⟩ := ren_addCols b2 ((p.cols.filter (·.verId == last)).map (fun c => { c with verId := j })) (by
          intro c hc
          obtain ⟨x, _, rfl⟩ := List.mem_map.1 hc
          simp)
        refine ⟨_, ?_, rfl, c2⟩
        rw [← c1, ← b1]
        have e3 : (r.cat p).cols.filter (·.verId == r.v last) = (p.cols.filter (·.verId == last)).map r.col :=
          filter_map_mem _ _ _ _ (fun c hc => g.mv.beq (g.colP c hc) hl)
        simp only [e3, List.map_map, Function.comp_def, Ren.col, upd_at]
        rfl

/-! ### the stores -/

theorem sqlite_db (s : Cat) (n : String) : sqlite.createDb s n = ((repoCreateDb s n).1, repoErrOf (repoCreateDb s n).2) := by
  simp only [sqlite, insertDb, repoCreateDb]
  split <;> rfl

theorem sqlite_coll (s : Cat) (d : Nat) (n : String) :
    sqlite.createColl s d n = ((repoCreateColl s d n).1, repoErrOf (repoCreateColl s d n).2) := by
  simp only [sqlite, insertColl, repoCreateColl]
  split
  · rfl
  · split <;> rfl

theorem sqlite_tab (s : Cat) (c : Nat) (n : String) (cs : List (String × String)) (u : Nat) (now : Int) (ok : Bool) :
    sqlite.createTab s c n cs u now ok = ((repoCreateTab s c n cs u now ok).1, repoErrOf (repoCreateTab s c n cs u now ok).2) := by
  simp only [sqlite, insertTab, repoCreateTab]
  split
  · rfl
  · split
    · rfl
    · split
      · rfl
      · split
        · rfl
        · split <;> rfl

theorem sqlite_ver (s : Cat) (u : Nat) (v now : Int) (ok : Bool) :
    sqlite.newVersion s u v now ok = ((repoNewVersion s u v now ok).1, repoErrOf (repoNewVersion s u v now ok).2) := by
  simp only [sqlite, insertVer, repoNewVersion]
  cases lastVersion s u with
  | none => rfl
  | some last =>
    simp only
    cases s.vers.find? (·.id == last) with
    | none => rfl
    | some w => simp only; split <;> rfl

theorem sqlite_fn (s : Cat) (d : Nat) (n : String) (o : Bool) (x : String) :
    sqlite.createFn s d n o x = ((repoCreateFn s d n o x).1, repoErrOf (repoCreateFn s d n o x).2) := by
  simp only [sqlite, insertFn, repoCreateFn]
  cases s.fns.find? (fun f => f.name == n && f.dbId == d) with
  | some f => simp only; split <;> rfl
  | none => simp only; split <;> rfl

/-- The stores on SQLite are those of the model of the catalog. -/
theorem sqlite_exec (s : Cat) (op : Op) : sqlite.exec s op = exec s op := by
  cases op with
  | createDb n =>
    simp only [Backend.exec, sqlite_db, exec, createDb]
    rcases repoCreateDb s n with ⟨s', e⟩
    cases e with
    | ok _ => rfl
    | error e => cases e <;> rfl
  | createSchema db n =>
    simp only [Backend.exec, sqlite_coll, exec, createSchema]
    split
    · rfl
    · cases getDb s db with
      | error e => rfl
      | ok d =>
        simp only
        rcases repoCreateColl s d.id n with ⟨s', e⟩
        cases e with
        | ok _ => rfl
        | error e => cases e <;> rfl
  | createTable db sch n columns uuid now ok =>
    simp only [Backend.exec, sqlite_tab, exec, createTable]
    cases getSchema s db sch with
    | error e => rfl
    | ok c =>
      simp only
      rcases repoCreateTab s c.id n columns uuid now ok with ⟨s', e⟩
      cases e with
      | ok _ => rfl
      | error e => cases e <;> rfl
  | newVersion uuid v now ok =>
    simp only [Backend.exec, sqlite_ver, exec, newVersion]
    rcases repoNewVersion s uuid v now ok with ⟨s', e⟩
    cases e with
    | ok _ => rfl
    | error e => cases e <;> rfl
  | createFunction db n o d =>
    simp only [Backend.exec, sqlite_fn, exec, createFunction]
    cases getDb s db with
    | error e => rfl
    | ok x =>
      simp only
      rcases repoCreateFn s x.id n o d with ⟨s', e⟩
      cases e with
      | ok _ => rfl
      | error e => cases e <;> rfl
  | deleteFunctions db i ns =>
    simp only [Backend.exec, sqlite, exec, deleteFunctions]
    cases getDb s db with
    | error e => rfl
    | ok x =>
      simp only
      rcases repoDropFn s x.id ns with ⟨s', e⟩
      cases e with
      | ok _ => rfl
      | error e => cases e <;> cases i <;> rfl
  | deleteDb _ => rfl
  | deleteSchema _ _ => rfl
  | deleteOldVersions _ _ _ => rfl
  | renameTable _ _ _ _ _ => rfl
  | deleteTable _ _ _ => rfl

/-- The operations of a history: the clock is not behind the versions in use, `DROP FUNCTION` has a name (the grammar). -/
def OpOk (p : Cat) (op : Op) : Prop :=
  (∀ now, op.clock = some now → ∀ v ∈ p.vers, v.time ≤ now) ∧ (∀ db i, op ≠ .deleteFunctions db i [])

theorem id_db {p : Cat} {n : String} {d : Db} (h : getDb p n = .ok d) : d.id ∈ p.dbs.map (·.id) := mem_ids (f := (·.id)) (getDb_mem h)

theorem ren_step {r : Ren} {p : Cat} (g : Good r p) (i : Ids) (hi : Fresh p i) (op : Op) (ho : OpOk p op) :
    ∃ r' : Ren, (exec (r.cat p) op.seconds).1 = r'.cat ((postgres i).exec p op).1 ∧
      (exec (r.cat p) op.seconds).2 = ((postgres i).exec p op).2 ∧ Good r' ((postgres i).exec p op).1 := by
  rw [← sqlite_exec]
  cases op with
  | createDb n =>
    obtain ⟨r', a, b, c⟩ := ren_insertDb g hi.db n
    simp only [Op.seconds, Backend.exec, sqlite, postgres]
    rcases h1 : insertDb (newId ((r.cat p).dbs.map (·.id))) (r.cat p) n with ⟨s1, e1⟩
    rcases h2 : insertDb i.db p n with ⟨p1, e2⟩
    rw [h1, h2] at a b
    rw [h2] at c
    simp only at a b c
    subst a b
    simp only [h1]
    cases e1 with
    | none => exact ⟨r', rfl, rfl, c⟩
    | some e => cases e <;> exact ⟨r', rfl, rfl, c⟩
  | createSchema db n =>
    simp only [Op.seconds, Backend.exec, sqlite, postgres]
    split
    · exact ⟨r, rfl, rfl, g⟩
    · rw [ren_getDb]
      cases hd : getDb p db with
      | error e => exact ⟨r, rfl, rfl, g⟩
      | ok d =>
        obtain ⟨r', a, b, c⟩ := ren_insertColl g hi.coll (id_db hd) n
        simp only [Except.map, Ren.db]
        rcases h1 : insertColl (newId ((r.cat p).colls.map (·.id))) (r.cat p) (r.d d.id) n with ⟨s1, e1⟩
        rcases h2 : insertColl i.coll p d.id n with ⟨p1, e2⟩
        rw [h1, h2] at a b
        rw [h2] at c
        simp only at a b c
        subst a b
        simp only [h1]
        cases e1 with
        | none => exact ⟨r', rfl, rfl, c⟩
        | some e => cases e <;> exact ⟨r', rfl, rfl, c⟩
  | createTable db sch n columns uuid now ok =>
    simp only [Op.seconds, Backend.exec, sqlite, postgres]
    rw [ren_getColl g]
    cases hd : getSchema p db sch with
    | error e => exact ⟨r, rfl, rfl, g⟩
    | ok d =>
      obtain ⟨r', a, b, c⟩ := ren_insertTab g hi.tab hi.ver (mem_ids (f := (·.id)) (getSchema_mem hd)) n columns uuid now
        (ho.1 now rfl) ok
      simp only [Except.map, Ren.coll]
      rcases h1 : insertTab (newId ((r.cat p).tabs.map (·.id))) (newId ((r.cat p).vers.map (·.id))) (r.cat p) (r.c d.id) n columns
        uuid (sqliteSeconds now) ok with ⟨s1, e1⟩
      rcases h2 : insertTab i.tab i.ver p d.id n columns uuid now ok with ⟨p1, e2⟩
      rw [h1, h2] at a b
      rw [h2] at c
      simp only at a b c
      subst a b
      simp only [h1]
      cases e1 with
      | none => exact ⟨r', rfl, rfl, c⟩
      | some e => cases e <;> exact ⟨r', rfl, rfl, c⟩
  | newVersion uuid v now ok =>
    obtain ⟨r', a, b, c⟩ := ren_insertVer g hi.ver uuid v now (ho.1 now rfl) ok
    simp only [Op.seconds, Backend.exec, sqlite, postgres]
    rcases h1 : insertVer (newId ((r.cat p).vers.map (·.id))) (r.cat p) uuid v (sqliteSeconds now) ok with ⟨s1, e1⟩
    rcases h2 : insertVer i.ver p uuid v now ok with ⟨p1, e2⟩
    rw [h1, h2] at a b
    rw [h2] at c
    simp only at a b c
    subst a b
    simp only [h1]
    cases e1 with
    | none => exact ⟨r', rfl, rfl, c⟩
    | some e => cases e <;> exact ⟨r', rfl, rfl, c⟩
  | createFunction db n o x =>
    simp only [Op.seconds, Backend.exec, sqlite, postgres]
    rw [ren_getDb]
    cases hd : getDb p db with
    | error e => exact ⟨r, rfl, rfl, g⟩
    | ok d =>
      obtain ⟨r', a, b, c⟩ := ren_insertFn g hi.fn (id_db hd) n o x
      simp only [Except.map, Ren.db]
      rcases h1 : insertFn (newId ((r.cat p).fns.map (·.id))) (r.cat p) (r.d d.id) n o x with ⟨s1, e1⟩
      rcases h2 : insertFn i.fn p d.id n o x with ⟨p1, e2⟩
      rw [h1, h2] at a b
      rw [h2] at c
      simp only at a b c
      subst a b
      simp only [h1]
      cases e1 with
      | none => exact ⟨r', rfl, rfl, c⟩
      | some e => cases e <;> exact ⟨r', rfl, rfl, c⟩
  | deleteFunctions db ie ns =>
    have hns : ns.isEmpty = false := by
      cases ns with
      | nil => exact absurd rfl (ho.2 db ie)
      | cons _ _ => rfl
    simp only [Op.seconds, Backend.exec, sqlite, postgres]
    rw [ren_getDb]
    cases hd : getDb p db with
    | error e => exact ⟨r, rfl, rfl, g⟩
    | ok d =>
      obtain ⟨a, b, c⟩ := ren_dropFn g (id_db hd) ns
      simp only [Except.map, Ren.db, pgDropFn, hns, Bool.false_eq_true, if_false]
      rcases h1 : repoDropFn (r.cat p) (r.d d.id) ns with ⟨s1, e1⟩
      rcases h2 : repoDropFn p d.id ns with ⟨p1, e2⟩
      rw [h1, h2] at a b
      rw [h2] at c
      simp only at a b c
      subst a b
      simp only [h1]
      cases e1 with
      | ok _ => exact ⟨r, rfl, rfl, c⟩
      | error e => cases e <;> cases ie <;> exact ⟨r, rfl, rfl, c⟩
  | deleteDb n =>
    simp only [Op.seconds, Backend.exec, exec, deleteDb]
    rw [ren_getDb]
    cases hd : getDb p n with
    | error e => exact ⟨r, rfl, rfl, g⟩
    | ok d =>
      have hm := id_db hd
      obtain ⟨a, c⟩ := ren_dropColls g (fun c => c.dbId == d.id) (fun c => c.dbId == r.d d.id) (fun c hc => g.md.beq (g.collP c hc) hm)
      have e1 : (r.cat p).dbs.any (·.id == r.d d.id) = true :=
        List.any_eq_true.2 ⟨r.db d, List.mem_map_of_mem (getDb_mem hd), by simp [Ren.db]⟩
      have e2 : p.dbs.any (·.id == d.id) = true := List.any_eq_true.2 ⟨d, getDb_mem hd, by simp⟩
      have f1 : (r.cat p).dbs.filter (·.id != r.d d.id) = (p.dbs.filter (·.id != d.id)).map r.db :=
        filter_map_mem _ _ _ _ (fun x hx => congrArg _ (g.md.beq (mem_ids (f := (·.id)) hx) hm))
      have f2 : (r.cat p).fns.filter (·.dbId != r.d d.id) = (p.fns.filter (·.dbId != d.id)).map r.fn :=
        filter_map_mem _ _ _ _ (fun x hx => congrArg _ (g.md.beq (g.fnP x hx) hm))
      simp only [Except.map, repoDeleteDb, e1, e2, if_true, Ren.db, errOf]
      refine ⟨r, ?_, trivial, ?_⟩
      · rw [a]
        have g1 : (r.cat (dropColls p (fun c => c.dbId == d.id))).dbs = (r.cat p).dbs := rfl
        have g2 : (r.cat (dropColls p (fun c => c.dbId == d.id))).fns = (r.cat p).fns := rfl
        rw [g1, g2, f1, f2]
        rfl
      · refine { c with collP := ?_, fnP := ?_, md := ?_, mf := ?_ }
        · intro x hx
          have hx' := List.mem_filter.1 hx
          obtain ⟨y, hy, e⟩ := List.mem_map.1 (g.collP x hx'.1)
          refine List.mem_map.2 ⟨y, List.mem_filter.2 ⟨hy, ?_⟩, e⟩
          have := hx'.2
          simp only [bne_iff_ne, Bool.not_eq_true', beq_eq_false_iff_ne] at this ⊢
          intro he; exact this (e.symm.trans he)
        · intro x hx
          have hx' := List.mem_filter.1 hx
          obtain ⟨y, hy, e⟩ := List.mem_map.1 (g.fnP x hx'.1)
          refine List.mem_map.2 ⟨y, List.mem_filter.2 ⟨hy, ?_⟩, e⟩
          have := hx'.2
          simp only [bne_iff_ne] at this ⊢
          intro he; exact this (e.symm.trans he)
        · refine c.md.sub (fun a ha => ?_)
          obtain ⟨v, hv, e⟩ := List.mem_map.1 ha
          exact List.mem_map.2 ⟨v, (List.mem_filter.1 hv).1, e⟩
        · refine c.mf.sub (fun a ha => ?_)
          obtain ⟨v, hv, e⟩ := List.mem_map.1 ha
          exact List.mem_map.2 ⟨v, (List.mem_filter.1 hv).1, e⟩
  | deleteSchema db n =>
    simp only [Op.seconds, Backend.exec, exec, deleteSchema]
    rw [ren_getColl g]
    cases hd : getSchema p db n with
    | error e => exact ⟨r, rfl, rfl, g⟩
    | ok d =>
      have hm := mem_ids (f := (·.id)) (getSchema_mem hd)
      obtain ⟨a, c⟩ := ren_dropColls g (fun c => c.id == d.id) (fun c => c.id == r.c d.id)
        (fun c hc => g.mc.beq (mem_ids (f := (·.id)) hc) hm)
      have e1 : (r.cat p).colls.any (·.id == r.c d.id) = true :=
        List.any_eq_true.2 ⟨r.coll d, List.mem_map_of_mem (getSchema_mem hd), by simp [Ren.coll]⟩
      have e2 : p.colls.any (·.id == d.id) = true := List.any_eq_true.2 ⟨d, getSchema_mem hd, by simp⟩
      simp only [Except.map, repoDeleteColl, e1, e2, if_true, Ren.coll, errOf]
      exact ⟨r, a, trivial, c⟩
  | deleteTable db sch n =>
    simp only [Op.seconds, Backend.exec, exec, deleteTable]
    rw [ren_getTab g]
    cases hd : getTable p db sch n with
    | error e => exact ⟨r, rfl, rfl, g⟩
    | ok d =>
      have hm := mem_ids (f := (·.id)) (getTable_mem hd)
      obtain ⟨a, c⟩ := ren_dropTabs g (fun c => c.id == d.id) (fun c => c.id == r.t d.id)
        (fun c hc => g.mt.beq (mem_ids (f := (·.id)) hc) hm)
      have e1 : (r.cat p).tabs.any (·.id == r.t d.id) = true :=
        List.any_eq_true.2 ⟨r.tab d, List.mem_map_of_mem (getTable_mem hd), by simp [Ren.tab]⟩
      have e2 : p.tabs.any (·.id == d.id) = true := List.any_eq_true.2 ⟨d, getTable_mem hd, by simp⟩
      simp only [Except.map, repoDeleteTab, e1, e2, if_true, Ren.tab, errOf]
      exact ⟨r, a, trivial, c⟩
  | deleteOldVersions db sch n =>
    simp only [Op.seconds, Backend.exec, exec, deleteOldVersions]
    rw [ren_getTab g]
    cases hd : getTable p db sch n with
    | error e => exact ⟨r, rfl, rfl, g⟩
    | ok d =>
      obtain ⟨a, c⟩ := ren_deleteOld g (mem_ids (f := (·.id)) (getTable_mem hd))
      exact ⟨r, a, rfl, c⟩
  | renameTable db os on ns nn =>
    simp only [Op.seconds, Backend.exec, exec, renameTable]
    rw [ren_getTab g]
    cases hd : getTable p db os on with
    | error e => exact ⟨r, rfl, rfl, g⟩
    | ok d =>
      have hm := mem_ids (f := (·.id)) (getTable_mem hd)
      simp only [Except.map]
      by_cases hne : ns ≠ os
      · simp only [hne, ne_eq, not_false_eq_true, if_true]
        rw [ren_getColl g]
        cases hc : getSchema p db ns with
        | error e => exact ⟨r, rfl, rfl, g⟩
        | ok x =>
          obtain ⟨a, b, c⟩ := ren_rename g hm nn (some x.id) (fun y hy => by
            cases hy; exact mem_ids (f := (·.id)) (getSchema_mem hc))
          simp only [Except.map, Ren.tab, Ren.coll]
          simp only [Option.map_some] at a b
          rcases h1 : repoRename (r.cat p) (r.t d.id) nn (some (r.c x.id)) with ⟨s1, e1⟩
          rcases h2 : repoRename p d.id nn (some x.id) with ⟨p1, e2⟩
          rw [h1, h2] at a b
          rw [h2] at c
          simp only at a b c
          subst a b
          cases e1 with
          | ok _ => exact ⟨r, rfl, rfl, c⟩
          | error e => cases e <;> exact ⟨r, rfl, rfl, c⟩
      · simp only [hne, if_false]
        obtain ⟨a, b, c⟩ := ren_rename g hm nn none (fun y hy => by cases hy)
        simp only [Ren.tab]
        simp only [Option.map_none] at a b
        rcases h1 : repoRename (r.cat p) (r.t d.id) nn none with ⟨s1, e1⟩
        rcases h2 : repoRename p d.id nn none with ⟨p1, e2⟩
        rw [h1, h2] at a b
        rw [h2] at c
        simp only at a b c
        subst a b
        cases e1 with
        | ok _ => exact ⟨r, rfl, rfl, c⟩
        | error e => cases e <;> exact ⟨r, rfl, rfl, c⟩

end Seafowl.Catalog
