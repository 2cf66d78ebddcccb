import Verif.Context.Alter
import Verif.Context.DdlProps

/-!
# C140: ALTER TABLE ... RENAME TO
-/

namespace Seafowl.Ddl

open Seafowl.Catalog

set_option linter.unusedSimpArgs false

/-- The table a text refers to in a session. -/
def refOf (env : Env) (c : Ctx) (text : String) : RRef := resolve c (env.parse text)

/-! ### lookups -/

/-- A lookup in an ordinary schema shows the table of the catalog. -/
theorem lookup_table (c : Ctx) (hw : WF c.cat) (r : RRef) (hc : r.cat = c.db) (hp : Plain r.sch) (t : Tab)
    (ht : IsTable c.cat c.db r.sch r.tab t) :
    lookup c r = match c.data t.uuid with
      | none => .error .load
      | some d => .ok (.delta t.uuid d) := by
  obtain ⟨p1, p2, p3⟩ := hp
  simp only [lookup, hc, ne_eq, not_true_eq_false, if_false, p1, p2, p3, (getTable_iff hw c.db r.sch r.tab t).2 ht]
  cases c.data t.uuid <;> rfl

theorem lookup_no_table (c : Ctx) (r : RRef) (hc : r.cat = c.db) (hp : Plain r.sch)
    (ht : ∀ t, ¬ IsTable c.cat c.db r.sch r.tab t) : lookup c r = .error .noTable := by
  obtain ⟨p1, p2, p3⟩ := hp
  rcases getTable_cases c.cat c.db r.sch r.tab with ⟨t, h1, _⟩ | ⟨_, h2⟩
  · exact absurd h1 (ht t)
  · simp only [lookup, hc, ne_eq, not_true_eq_false, if_false, p1, p2, p3, h2]

/-- Lookups depend on the tables of the catalog under the name looked up only. -/
theorem lookup_same (c c' : Ctx) (hw' : WF c'.cat) (hdb : c'.db = c.db) (hd : c'.data = c.data)
    (he : c'.ext = c.ext) (r : RRef)
    (h : ∀ t, IsTable c'.cat c.db r.sch r.tab t ↔ IsTable c.cat c.db r.sch r.tab t) : lookup c' r = lookup c r := by
  have hg : (∃ t, getTable c'.cat c.db r.sch r.tab = .ok t ∧ getTable c.cat c.db r.sch r.tab = .ok t) ∨
      (∃ e e', getTable c'.cat c.db r.sch r.tab = .error e ∧ getTable c.cat c.db r.sch r.tab = .error e') := by
    rcases getTable_cases c.cat c.db r.sch r.tab with ⟨t, h1, h2⟩ | ⟨h1, h2⟩
    · exact .inl ⟨t, (getTable_iff hw' _ _ _ _).2 ((h t).2 h1), h2⟩
    · rcases getTable_cases c'.cat c.db r.sch r.tab with ⟨t, h3, _⟩ | ⟨_, h4⟩
      · exact absurd ((h t).1 h3) (h1 t)
      · exact .inr ⟨_, _, h4, h2⟩
  rcases hg with ⟨t, h1, h2⟩ | ⟨e, e', h1, h2⟩
  · simp only [lookup, hdb, hd, he, h1, h2]
  · simp only [lookup, hdb, hd, he, h1, h2]

/-! ### what the statement does -/

/-- The statement takes effect after the reload, which changes the functions of the session only. -/
theorem alter_eq (env : Env) (c : Ctx) (a : Alter) : ∃ us, alter env c a =
    match (reload env c).2 with
    | .error e => ({ c with udfs := us }, .error e)
    | .ok _ =>
      match a.ops with
      | [.renameTo new] => doRename env { c with udfs := us } a.name new
      | _ => ({ c with udfs := us }, .error .plan) := by
  obtain ⟨us, h⟩ := reload_frame env c
  refine ⟨us, ?_⟩
  rcases hr : reload env c with ⟨c1, e | _⟩
  · rw [hr] at h; simp only at h; subst h
    simp only [alter, hr]
  · rw [hr] at h; simp only at h; subst h
    simp only [alter, hr]
    split <;> simp_all

/-- A rename that fails changes nothing; one that succeeds is one of the catalog. -/
theorem doRename_cases (env : Env) (c : Ctx) (hw : WF c.cat) (old new : String) :
    (∃ e, doRename env c old new = (c, .error e)) ∨
    (∃ s p e, lookup c (refOf env c old) = .ok p ∧ lookup c (refOf env c new) = .error e ∧ (refOf env c new).cat = c.db ∧
      renameTable c.cat c.db (refOf env c old).sch (refOf env c old).tab (refOf env c new).sch (refOf env c new).tab = (s, .ok ()) ∧
      doRename env c old new = ({ c with cat := s }, .ok ())) := by
  simp only [doRename, refOf]
  rcases h1 : lookup c (resolve c (env.parse old)) with e | p
  · exact .inl ⟨_, rfl⟩
  · rcases h2 : lookup c (resolve c (env.parse new)) with e | q
    · by_cases h3 : (resolve c (env.parse new)).cat = c.db
      · simp only [h3, ne_eq, not_true_eq_false, if_false]
        rcases h4 : renameTable c.cat c.db (resolve c (env.parse old)).sch (resolve c (env.parse old)).tab
          (resolve c (env.parse new)).sch (resolve c (env.parse new)).tab with ⟨s, x | x⟩
        · left
          refine ⟨.cat x, ?_⟩
          have hs : s = c.cat := by
            rcases C32_rename c.cat hw c.db (resolve c (env.parse old)).sch (resolve c (env.parse old)).tab
              (resolve c (env.parse new)).sch (resolve c (env.parse new)).tab with ⟨k1, k2⟩
            by_cases ht : ∃ t, IsTable c.cat c.db (resolve c (env.parse old)).sch (resolve c (env.parse old)).tab t
            · obtain ⟨t, ht⟩ := ht
              obtain ⟨m1, m2, m3, m4⟩ := k2 t ht
              by_cases n1 : (resolve c (env.parse new)).sch = (resolve c (env.parse old)).sch ∨ (resolve c (env.parse new)).sch ≠ staging
              · by_cases n2 : ∃ k, IsSchema c.cat c.db (resolve c (env.parse new)).sch k
                · by_cases n3 : ∃ t', IsTable c.cat c.db (resolve c (env.parse new)).sch (resolve c (env.parse new)).tab t' ∧ t' ≠ t
                  · have := m3 n1 n3
                    rw [h4] at this
                    exact (Prod.mk.inj this).1
                  · have := m4 n1 n2 (fun t' ht' => Classical.byContradiction fun hne => n3 ⟨t', ht', hne⟩)
                    rw [h4] at this
                    cases this
                · have n4 : (resolve c (env.parse new)).sch ≠ (resolve c (env.parse old)).sch := by
                    intro e4
                    obtain ⟨_, _, k, hk, _⟩ := ht
                    exact n2 ⟨k, e4 ▸ hk⟩
                  have n5 : (resolve c (env.parse new)).sch ≠ staging := n1.resolve_left n4
                  have := m2 n4 n5 (fun k hk => n2 ⟨k, hk⟩)
                  rw [h4] at this
                  exact (Prod.mk.inj this).1
              · have n4 : (resolve c (env.parse new)).sch ≠ (resolve c (env.parse old)).sch := fun e4 => n1 (.inl e4)
                have n5 : (resolve c (env.parse new)).sch = staging := Classical.byContradiction fun e4 => n1 (.inr e4)
                have := m1 n4 n5
                rw [h4] at this
                exact (Prod.mk.inj this).1
            · have := k1 (fun t ht' => ht ⟨t, ht'⟩)
              rw [h4] at this
              exact (Prod.mk.inj this).1
          simp only [liftCat, hs]
        · right
          exact ⟨s, p, e, rfl, rfl, trivial, rfl, rfl⟩
      · left
        exact ⟨.plan, by simp only [h3, ne_eq, not_false_eq_true, if_true]⟩
    · exact .inl ⟨_, rfl⟩

/-- **C140**: an ALTER TABLE statement that fails changes no table, schema or data. -/
theorem C140_failed (env : Env) (c : Ctx) (hw : WF c.cat) (a : Alter) (e : Err) (h : (alter env c a).2 = .error e) :
    (alter env c a).1.cat = c.cat ∧ (alter env c a).1.data = c.data ∧ (alter env c a).1.ext = c.ext := by
  obtain ⟨us, ha⟩ := alter_eq env c a
  rw [ha] at h ⊢
  cases hr : (reload env c).2 with
  | error e1 => exact ⟨rfl, rfl, rfl⟩
  | ok _ =>
    rw [hr] at h
    simp only at h ⊢
    split
    · next new hn =>
      rw [hn] at h
      simp only at h
      rcases doRename_cases env { c with udfs := us } hw a.name new with ⟨e1, h1⟩ | ⟨s, p, e1, _, _, _, _, h1⟩
      · rw [h1]; exact ⟨rfl, rfl, rfl⟩
      · rw [h1] at h; cases h
    · exact ⟨rfl, rfl, rfl⟩

/-- What a statement that succeeds was and did. -/
theorem alter_ok {env : Env} {c c' : Ctx} (hw : WF c.cat) {a : Alter} (h : alter env c a = (c', .ok ())) :
    ∃ new us s p e, a.ops = [.renameTo new] ∧ lookup c (refOf env c a.name) = .ok p ∧ lookup c (refOf env c new) = .error e ∧
      (refOf env c new).cat = c.db ∧ (refOf env c a.name).cat = c.db ∧
      renameTable c.cat c.db (refOf env c a.name).sch (refOf env c a.name).tab (refOf env c new).sch (refOf env c new).tab =
        (s, .ok ()) ∧
      c' = { c with udfs := us, cat := s } := by
  obtain ⟨us, ha⟩ := alter_eq env c a
  rw [ha] at h
  cases hr : (reload env c).2 with
  | error e1 => rw [hr] at h; simp only [Prod.mk.injEq] at h; cases h.2
  | ok _ =>
    rw [hr] at h
    simp only at h
    split at h
    · next new hn =>
      rcases doRename_cases env { c with udfs := us } hw a.name new with ⟨e1, h1⟩ | ⟨s, p, e1, k1, k2, k3, k4, h1⟩
      · rw [h1] at h; simp only [Prod.mk.injEq] at h; cases h.2
      · rw [h1] at h
        refine ⟨new, us, s, p, e1, hn, k1, k2, k3, ?_, k4, ?_⟩
        · apply Classical.byContradiction
          intro hne
          have : lookup c (refOf env c a.name) = .error .noCatalog := by
            simp only [lookup, ne_eq, hne, not_false_eq_true, if_true]
          have k1' : lookup c (refOf env c a.name) = .ok p := k1
          rw [this] at k1'
          cases k1'
        · exact (Prod.mk.inj h).1.symm
    · simp only [Prod.mk.injEq] at h; cases h.2

/-- **C140, partial**: a successful ALTER TABLE ... RENAME TO between ordinary schemas.  Under the new name there is what
was under the old one, under the old name there is nothing, every other name, in every schema, leads where it led, and no
data and no external table is touched. -/
theorem C140_renamed_partial (env : Env) (c c' : Ctx) (hw : WF c.cat) (a : Alter) (new : String)
    (ho : a.ops = [.renameTo new]) (h : alter env c a = (c', .ok ()))
    (h1 : Plain (refOf env c a.name).sch) (h2 : Plain (refOf env c new).sch) :
    lookup c' (refOf env c new) = lookup c (refOf env c a.name) ∧
      lookup c' (refOf env c a.name) = .error .noTable ∧
      (∀ r, r ≠ refOf env c a.name → r ≠ refOf env c new → lookup c' r = lookup c r) ∧
      c'.data = c.data ∧ c'.ext = c.ext ∧ c'.cat.vers = c.cat.vers ∧ c'.cat.cols = c.cat.cols := by
  obtain ⟨new', us, s, p, e, hn, k1, k2, k3, k4, k5, rfl⟩ := alter_ok hw h
  rw [ho] at hn
  simp only [List.cons.injEq, AlterOp.renameTo.injEq, and_true] at hn
  subst hn
  have hws : WF s := by
    have := C31_step c.cat hw (.renameTable c.db (refOf env c a.name).sch (refOf env c a.name).tab (refOf env c new).sch (refOf env c new).tab)
    simp only [Catalog.exec, k5] at this
    exact this
  obtain ⟨t, ht, ⟨t', ht', hid, huu⟩, hgone, hv, hcols, _, _, _, hoth⟩ := C33_rename c.cat s hw c.db _ _ _ _ k5
  have hne : refOf env c a.name ≠ refOf env c new := by
    intro e'; rw [e', k2] at k1; cases k1
  have hne' : ((refOf env c a.name).sch, (refOf env c a.name).tab) ≠ ((refOf env c new).sch, (refOf env c new).tab) := by
    intro e'
    apply hne
    simp only [Prod.mk.injEq] at e'
    have : ∀ x y : RRef, x.cat = y.cat → x.sch = y.sch → x.tab = y.tab → x = y := by
      rintro ⟨a1, b1, c1⟩ ⟨a2, b2, c2⟩ e1 e2 e3
      simp only at e1 e2 e3
      subst e1; subst e2; subst e3; rfl
    exact this _ _ (k4.trans k3.symm) e'.1 e'.2
  refine ⟨?_, ?_, ?_, rfl, rfl, hv, hcols⟩
  · rw [lookup_table { c with udfs := us, cat := s } hws (refOf env c new) k3 h2 t' ht', lookup_table c hw _ k4 h1 t ht]
    simp only [huu]
  · exact lookup_no_table { c with udfs := us, cat := s } _ k4 h1 (hgone hne')
  · intro r hr1 hr2
    by_cases hc : r.cat = c.db
    · apply lookup_same c { c with udfs := us, cat := s } hws rfl rfl rfl
      intro u
      by_cases hu : u.id = t.id
      · have hext : ∀ x y : RRef, x.cat = y.cat → x.sch = y.sch → x.tab = y.tab → x = y := by
          rintro ⟨a1, b1, c1⟩ ⟨a2, b2, c2⟩ e1 e2 e3
          simp only at e1 e2 e3
          subst e1; subst e2; subst e3; rfl
        constructor
        · intro hx
          have : u = t' := eq_of_pairwise hws.tabIds hx.1 ht'.1 (by simp [hu, hid]) (by simp [hu, hid])
          subst this
          have e' := IsTable_names hws hx ht'
          simp only [Prod.mk.injEq] at e'
          exact absurd (hext r (refOf env c new) (hc.trans k3.symm) e'.2.1.symm e'.2.2.symm) hr2
        · intro hx
          have : u = t := eq_of_pairwise hw.tabIds hx.1 ht.1 (by simp [hu]) (by simp [hu])
          subst this
          have e' := IsTable_names hw hx ht
          simp only [Prod.mk.injEq] at e'
          exact absurd (hext r (refOf env c a.name) (hc.trans k4.symm) e'.2.1.symm e'.2.2.symm) hr1
      · exact hoth c.db r.sch r.tab u hu
    · simp only [lookup, ne_eq, hc, not_false_eq_true, if_true]

/-- **C140**: exactly the renamings that can be made succeed.  Between ordinary schemas, they are those of a table that can be
read to a name of the same database, in an existing schema, that no table has. -/
theorem C140_exact (env : Env) (c : Ctx) (hw : WF c.cat) (a : Alter) (new : String) (ho : a.ops = [.renameTo new])
    (h1 : Plain (refOf env c a.name).sch) (h2 : Plain (refOf env c new).sch) :
    (alter env c a).2 = .ok () ↔
      (reload env c).2 = .ok () ∧ (refOf env c new).cat = c.db ∧ (∃ p, lookup c (refOf env c a.name) = .ok p) ∧
      (∃ k, IsSchema c.cat c.db (refOf env c new).sch k) ∧ ∀ t, ¬ IsTable c.cat c.db (refOf env c new).sch (refOf env c new).tab t := by
  constructor
  · intro h
    have hr : (reload env c).2 = .ok () := by
      obtain ⟨us, ha⟩ := alter_eq env c a
      rw [ha] at h
      cases hr : (reload env c).2 with
      | error e1 => rw [hr] at h; cases h
      | ok _ => rfl
    obtain ⟨c', hc⟩ : ∃ c', alter env c a = (c', .ok ()) := ⟨(alter env c a).1, by rw [← h]⟩
    obtain ⟨new', us, s, p, e, hn, k1, k2, k3, k4, k5, _⟩ := alter_ok hw hc
    rw [ho] at hn
    simp only [List.cons.injEq, AlterOp.renameTo.injEq, and_true] at hn
    subst hn
    obtain ⟨t, ht, ⟨t', ht', hid, huu⟩, hgone, hv, hcols, hdbs, hcolls, _, hoth⟩ := C33_rename c.cat s hw c.db _ _ _ _ k5
    refine ⟨hr, k3, ⟨p, k1⟩, ?_, ?_⟩
    · obtain ⟨_, _, k, hk, _⟩ := ht'
      exact ⟨k, (IsSchema_congr hdbs hcolls _ _ _).1 hk⟩
    · intro u hu
      by_cases hut : u.id = t.id
      · have : u = t := eq_of_pairwise hw.tabIds hu.1 ht.1 (by simp [hut]) (by simp [hut])
        subst this
        have e' := IsTable_names hw hu ht
        simp only [Prod.mk.injEq] at e'
        have : refOf env c new = refOf env c a.name := by
          have hext : ∀ x y : RRef, x.cat = y.cat → x.sch = y.sch → x.tab = y.tab → x = y := by
            rintro ⟨a1, b1, c1⟩ ⟨a2, b2, c2⟩ e1 e2 e3
            simp only at e1 e2 e3
            subst e1; subst e2; subst e3; rfl
          exact hext _ _ (k3.trans k4.symm) e'.2.1.symm e'.2.2.symm
        rw [this, k1] at k2
        cases k2
      · have hws : WF s := by
          have := C31_step c.cat hw (.renameTable c.db (refOf env c a.name).sch (refOf env c a.name).tab (refOf env c new).sch (refOf env c new).tab)
          simp only [Catalog.exec, k5] at this
          exact this
        have hu' := (hoth c.db _ _ u hut).2 hu
        exact hut ((congrArg Tab.id (IsTable_unique hws hu' ht')).trans hid)
  · rintro ⟨hr, k3, ⟨p, k1⟩, hk, hno⟩
    obtain ⟨us, ha⟩ := alter_eq env c a
    rw [ha, hr, ho]
    simp only
    have k2 : lookup c (refOf env c new) = .error .noTable := lookup_no_table c _ k3 h2 hno
    have k4 : (refOf env c a.name).cat = c.db := by
      apply Classical.byContradiction
      intro hne
      simp only [lookup, ne_eq, hne, not_false_eq_true, if_true] at k1
      cases k1
    have ht : ∃ t, IsTable c.cat c.db (refOf env c a.name).sch (refOf env c a.name).tab t := by
      apply Classical.byContradiction
      intro hne
      rw [lookup_no_table c _ k4 h1 (fun t ht => hne ⟨t, ht⟩)] at k1
      cases k1
    obtain ⟨t, ht⟩ := ht
    have hren := ((C32_rename c.cat hw c.db (refOf env c a.name).sch (refOf env c a.name).tab (refOf env c new).sch
      (refOf env c new).tab).2 t ht).2.2.2 (.inr h2.2.1) hk (fun t' ht' => absurd ht' (hno t'))
    have l1 : lookup { c with udfs := us } (resolve { c with udfs := us } (env.parse a.name)) = .ok p := k1
    have l2 : lookup { c with udfs := us } (resolve { c with udfs := us } (env.parse new)) = .error .noTable := k2
    have l3 : (resolve { c with udfs := us } (env.parse new)).cat = c.db := k3
    simp only [doRename, l1, l2, l3, ne_eq, not_true_eq_false, if_false]
    have hren' : (renameTable c.cat c.db (resolve { c with udfs := us } (env.parse a.name)).sch
      (resolve { c with udfs := us } (env.parse a.name)).tab (resolve { c with udfs := us } (env.parse new)).sch
      (resolve { c with udfs := us } (env.parse new)).tab).2 = .ok () := hren
    rcases hx : renameTable c.cat c.db (resolve { c with udfs := us } (env.parse a.name)).sch
      (resolve { c with udfs := us } (env.parse a.name)).tab (resolve { c with udfs := us } (env.parse new)).sch
      (resolve { c with udfs := us } (env.parse new)).tab with ⟨s, x | x⟩
    · rw [hx] at hren'; cases hren'
    · rfl

/-- Resolving a name does not depend on the catalog. -/
theorem refOf_frame (env : Env) (c c' : Ctx) (h1 : c'.db = c.db) (h2 : c'.sch = c.sch) (x : String) : refOf env c' x = refOf env c x := by
  simp only [refOf, resolve, h1, h2]

/-- **C140**: renaming a table and renaming it back succeeds, and every name leads where it led before. -/
theorem C140_back (env : Env) (c c1 : Ctx) (hw : WF c.cat) (a b : Alter) (new : String)
    (ho : a.ops = [.renameTo new]) (hb : b.name = new) (hbo : b.ops = [.renameTo a.name]) (h : alter env c a = (c1, .ok ()))
    (h1 : Plain (refOf env c a.name).sch) (h2 : Plain (refOf env c new).sch) :
    ∃ c2, alter env c1 b = (c2, .ok ()) ∧ ∀ r, lookup c2 r = lookup c r := by
  have hA := C140_renamed_partial env c c1 hw a new ho h h1 h2
  have hE := (C140_exact env c hw a new ho h1 h2).1 (by rw [h])
  obtain ⟨new', us, s, p, e, hn, k1, k2, k3, k4, k5, rfl⟩ := alter_ok hw h
  rw [ho] at hn
  simp only [List.cons.injEq, AlterOp.renameTo.injEq, and_true] at hn
  subst hn
  obtain ⟨t, ht, ⟨t', ht', hid, huu⟩, hgone, hv, hcols, hdbs, hcolls, hfns, hoth⟩ := C33_rename c.cat s hw c.db _ _ _ _ k5
  have hws : WF s := by
    have := C31_step c.cat hw (.renameTable c.db (refOf env c a.name).sch (refOf env c a.name).tab (refOf env c new).sch (refOf env c new).tab)
    simp only [Catalog.exec, k5] at this
    exact this
  have hne : refOf env c a.name ≠ refOf env c new := by
    intro e'; rw [e', k2] at k1; cases k1
  have hne' : ((refOf env c a.name).sch, (refOf env c a.name).tab) ≠ ((refOf env c new).sch, (refOf env c new).tab) := by
    intro e'
    apply hne
    simp only [Prod.mk.injEq] at e'
    have : ∀ x y : RRef, x.cat = y.cat → x.sch = y.sch → x.tab = y.tab → x = y := by
      rintro ⟨a1, b1, c1⟩ ⟨a2, b2, c2⟩ e1 e2 e3
      simp only at e1 e2 e3
      subst e1; subst e2; subst e3; rfl
    exact this _ _ (k4.trans k3.symm) e'.1 e'.2
  -- the reload succeeds again: the functions are the same
  have hrel : (reload env { c with udfs := us, cat := s }).2 = .ok () := by
    have hall : ∀ (fs : List Fn) (x y : Ctx), (registerAll env x fs).2 = (registerAll env y fs).2 := by
      intro fs
      induction fs with
      | nil => intro x y; rfl
      | cons f fs ih =>
        intro x y
        simp only [registerAll]
        split
        · exact ih _ _
        · rfl
    have hl : listFunctions s c.db = listFunctions c.cat c.db := by
      simp only [listFunctions, getDb, repoGetDb, hdbs, hfns]
    have h0 := hE.1
    simp only [reload] at h0 ⊢
    rw [hl]
    cases hx : listFunctions c.cat c.db with
    | error e => rw [hx] at h0; cases h0
    | ok fs => rw [hx] at h0; simp only at h0 ⊢; rw [← h0]; exact hall fs _ _
  have hok : (alter env { c with udfs := us, cat := s } b).2 = .ok () := by
    rw [C140_exact env { c with udfs := us, cat := s } hws b a.name hbo (by rw [hb]; exact h2) h1]
    refine ⟨hrel, k4, ?_, ?_, hgone hne'⟩
    · rw [hb]; exact ⟨p, hA.1.trans k1⟩
    · obtain ⟨_, _, k, hk, _⟩ := ht
      exact ⟨k, (IsSchema_congr hdbs hcolls _ _ _).2 hk⟩
  obtain ⟨c2, hc2⟩ : ∃ c2, alter env { c with udfs := us, cat := s } b = (c2, .ok ()) := ⟨_, by rw [← hok]⟩
  refine ⟨c2, hc2, ?_⟩
  obtain ⟨g1, g2, g3, _⟩ := C140_renamed_partial env { c with udfs := us, cat := s } c2 hws b a.name hbo hc2 (by rw [hb]; exact h2) h1
  rw [hb] at g1 g2 g3
  intro r
  by_cases e1 : r = refOf env c a.name
  · subst e1
    exact g1.trans hA.1
  · by_cases e2 : r = refOf env c new
    · subst e2
      rw [lookup_no_table c _ k3 h2 hE.2.2.2.2]
      exact g2
    · exact (g3 r e2 e1).trans (hA.2.2.1 r e1 e2)

/-- **C140**: statements that are not one RENAME TO are refused. -/
theorem C140_other_refused (env : Env) (c : Ctx) (a : Alter) (h : ∀ new, a.ops ≠ [.renameTo new]) : (alter env c a).2 ≠ .ok () := by
  obtain ⟨us, ha⟩ := alter_eq env c a
  rw [ha]
  cases (reload env c).2 with
  | error e => simp
  | ok _ =>
    simp

/-! ### violations -/

/-- **Violated, always**: IF EXISTS is ignored; for a table that does not exist the statement is an error. -/
theorem C140_violated_if_exists_always (env : Env) (c : Ctx) (hw : WF c.cat) (a : Alter) (e : Err)
    (h : lookup c (refOf env c a.name) = .error e) : (alter env c { a with ifExists := true }).2 ≠ .ok () := by
  intro hok
  obtain ⟨c', hc⟩ : ∃ c', alter env c { a with ifExists := true } = (c', .ok ()) := ⟨_, by rw [← hok]⟩
  obtain ⟨_, _, _, p, _, _, k1, _⟩ := alter_ok hw hc
  have k1' : lookup c (refOf env c a.name) = .ok p := k1
  rw [h] at k1'
  cases k1'

/-- **Violated, always**: a new name without a schema is one of the default schema of the session, not of the schema of the
table.  Renaming `s.t` to `u` moves the table out of its schema: `s.u` does not become the table. -/
theorem C140_violated_schema_always (env : Env) (c c' : Ctx) (hw : WF c.cat) (a : Alter) (new : String)
    (ho : a.ops = [.renameTo new]) (h : alter env c a = (c', .ok ())) (hb : (env.parse new).sch = none)
    (h1 : Plain (refOf env c a.name).sch) (h2 : Plain c.sch) (hs : (refOf env c a.name).sch ≠ c.sch) :
    lookup c' ⟨c.db, c.sch, (env.parse new).tab⟩ = lookup c (refOf env c a.name) ∧
      ∀ u d, (refOf env c a.name).tab ≠ (env.parse new).tab →
        lookup c' ⟨c.db, (refOf env c a.name).sch, (env.parse new).tab⟩ = .ok (.delta u d) →
        lookup c ⟨c.db, (refOf env c a.name).sch, (env.parse new).tab⟩ = .ok (.delta u d) := by
  have hsch : (refOf env c new).sch = c.sch := by simp [refOf, resolve, hb]
  obtain ⟨new', us, s, p, e, hn, k1, k2, k3, k4, k5, _⟩ := alter_ok hw h
  have hn' := hn
  rw [ho] at hn'
  simp only [List.cons.injEq, AlterOp.renameTo.injEq, and_true] at hn'
  subst hn'
  obtain ⟨g1, g2, g3, _⟩ := C140_renamed_partial env c c' hw a new ho h h1 (by rw [hsch]; exact h2)
  have hr : refOf env c new = ⟨c.db, c.sch, (env.parse new).tab⟩ := by
    have : ∀ x : RRef, x = ⟨x.cat, x.sch, x.tab⟩ := fun _ => rfl
    rw [this (refOf env c new), k3, hsch]; rfl
  rw [hr] at g1
  refine ⟨g1, fun u d hne hl => ?_⟩
  rw [← hl]
  refine (g3 _ ?_ ?_).symm
  · intro e'; exact hne (congrArg RRef.tab e').symm
  · rw [hr]; intro e'; exact hs (congrArg RRef.sch e')

/-- **Violated, always**: a table moved to the schema `system` or `information_schema`, which CREATE SCHEMA makes as any other
one, is gone: the statement succeeds, and no name leads to the table any more. -/
theorem C140_violated_hidden_always (env : Env) (c c' : Ctx) (hw : WF c.cat) (a : Alter) (new : String)
    (ho : a.ops = [.renameTo new]) (h : alter env c a = (c', .ok ()))
    (h2 : (refOf env c new).sch = "system" ∨ (refOf env c new).sch = "information_schema") :
    ∃ t, IsTable c.cat c.db (refOf env c a.name).sch (refOf env c a.name).tab t ∧
      ((∀ x ∈ c.cat.tabs, x.uuid = t.uuid → x = t) → ∀ r d, lookup c' r ≠ .ok (.delta t.uuid d)) := by
  obtain ⟨new', us, s, p, e, hn, k1, k2, k3, k4, k5, rfl⟩ := alter_ok hw h
  rw [ho] at hn
  simp only [List.cons.injEq, AlterOp.renameTo.injEq, and_true] at hn
  subst hn
  obtain ⟨t, ht, ⟨t', ht', hid, huu⟩, hgone, hv, hcols, hdbs, hcolls, hfns, hoth⟩ := C33_rename c.cat s hw c.db _ _ _ _ k5
  have hws : WF s := by
    have := C31_step c.cat hw (.renameTable c.db (refOf env c a.name).sch (refOf env c a.name).tab (refOf env c new).sch (refOf env c new).tab)
    simp only [Catalog.exec, k5] at this
    exact this
  refine ⟨t, ht, fun hu r d hl => ?_⟩
  have hd : tryDelta { c with udfs := us, cat := s } r = .ok (t.uuid, d) := by simp only [tryDelta, hl]
  obtain ⟨_, hp, x, hx, hxu, _⟩ := tryDelta_ok _ _ _ _ hd
  by_cases hxt : x.id = t.id
  · have : x = t' := eq_of_pairwise hws.tabIds hx.1 ht'.1 (by simp [hxt, hid]) (by simp [hxt, hid])
    subst this
    have e' := IsTable_names hws hx ht'
    simp only [Prod.mk.injEq] at e'
    rw [e'.2.1] at h2
    rcases h2 with h2 | h2
    · exact hp.2.2 h2
    · exact hp.1 h2
  · have := hu x ((hoth c.db r.sch r.tab x hxt).1 hx).1 hxu
    exact hxt (congrArg Tab.id this)

/-! ### examples -/

/-- Names with and without a schema. -/
def altEnv : Env :=
  { exEnv with parse := fun n =>
      if n = "s2.t" then { sch := some "s2", tab := "t" } else if n = "s2.v" then { sch := some "s2", tab := "v" }
      else if n = "system.t" then { sch := some "system", tab := "t" } else { tab := n } }

/-- `public.t` becomes `s2.v`; then back. -/
example : (alter altEnv exCtx ⟨false, "t", [.renameTo "s2.v"]⟩).2 = .ok () ∧
    lookup (alter altEnv exCtx ⟨false, "t", [.renameTo "s2.v"]⟩).1 ⟨"default", "s2", "v"⟩ = .ok (.delta 77 ⟨1, [10]⟩) ∧
    Plain (refOf altEnv exCtx "t").sch ∧ Plain (refOf altEnv exCtx "s2.v").sch :=
  ⟨by rfl, by rfl, by simp [Plain, refOf, resolve, altEnv, exCtx], by simp [Plain, refOf, resolve, altEnv, exCtx]⟩

/-- Names that are taken, a missing table, other changes. -/
example : (alter altEnv exCtx ⟨false, "t", [.renameTo "s2.t"]⟩).2 = .error .exists_ ∧
    (alter altEnv exCtx ⟨true, "w", [.renameTo "v"]⟩).2 = .error .noTable ∧
    (alter altEnv exCtx ⟨false, "t", [.other 1]⟩).2 = .error .plan := ⟨by rfl, by rfl, by rfl⟩

/-- **C140, violated**: `ALTER TABLE s2.t RENAME TO v` takes the table out of `s2`. -/
theorem C140_violated :
    (alter altEnv exCtx ⟨false, "s2.t", [.renameTo "v"]⟩).2 = .ok () ∧
    lookup (alter altEnv exCtx ⟨false, "s2.t", [.renameTo "v"]⟩).1 ⟨"default", "s2", "v"⟩ = .error .noTable ∧
    lookup (alter altEnv exCtx ⟨false, "s2.t", [.renameTo "v"]⟩).1 ⟨"default", "public", "v"⟩ = .ok (.delta 79 ⟨2, [20]⟩) :=
  ⟨by rfl, by rfl, by rfl⟩

/-- **C140, violated**: after `CREATE SCHEMA system`, `ALTER TABLE t RENAME TO system.t` loses the table. -/
theorem C140_violated_hidden :
    let c := (exec altEnv exCtx (.createSchema "system" false)).1
    (exec altEnv exCtx (.createSchema "system" false)).2 = .ok () ∧
    (alter altEnv c ⟨false, "t", [.renameTo "system.t"]⟩).2 = .ok () ∧
    lookup (alter altEnv c ⟨false, "t", [.renameTo "system.t"]⟩).1 ⟨"default", "system", "t"⟩ = .error .noTable ∧
    (alter altEnv (alter altEnv c ⟨false, "t", [.renameTo "system.t"]⟩).1 ⟨false, "system.t", [.renameTo "t"]⟩).2 = .error .noTable :=
  ⟨by rfl, by rfl, by rfl, by rfl⟩

end Seafowl.Ddl
