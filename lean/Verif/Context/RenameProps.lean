import Verif.Context.IsolationProps

/-!
# C33 for the statement `ALTER TABLE … RENAME TO …`
-/

namespace Seafowl.Ddl

open Seafowl.Catalog

/-- The tables after a successful rename, by name. -/
theorem rename_tables {s s' : Cat} (hw : WF s) {db os on ns nn : String} (hr : renameTable s db os on ns nn = (s', .ok ())) :
    ∃ t t', IsTable s db os on t ∧ IsTable s' db ns nn t' ∧ t'.uuid = t.uuid ∧
      ((os, on) ≠ (ns, nn) → ∀ x, ¬ IsTable s' db os on x) ∧
      ∀ b n x, (b, n) ≠ (os, on) → (b, n) ≠ (ns, nn) → (IsTable s' db b n x ↔ IsTable s db b n x) := by
  have hw' : WF s' := by
    have := C31_step s hw (.renameTable db os on ns nn)
    simp only [Catalog.exec, hr] at this
    exact this
  obtain ⟨t, ht, ⟨t', ht', hid, hu⟩, hold, _, _, _, _, _, hoth⟩ := C33_rename s s' hw db os on ns nn hr
  refine ⟨t, t', ht, ht', hu, hold, ?_⟩
  intro b n x h1 h2
  constructor
  · intro hx
    refine (hoth db b n x ?_).mp hx
    intro e
    have : x = t' := eq_of_pairwise hw'.tabIds hx.1 ht'.1 (by simp [e, hid]) (by simp [e, hid])
    subst this
    have := IsTable_names hw' ht' hx
    simp only [Prod.mk.injEq, true_and] at this
    exact h2 (by rw [this.1, this.2])
  · intro hx
    refine (hoth db b n x ?_).mpr hx
    intro e
    have : x = t := eq_of_pairwise hw.tabIds hx.1 ht.1 (by simp [e]) (by simp [e])
    subst this
    have := IsTable_names hw ht hx
    simp only [Prod.mk.injEq, true_and] at this
    exact h1 (by rw [this.1, this.2])

/-- Lookups depend on the catalog only through the table of the name. -/
theorem lookup_congr (c : Ctx) (s' : Cat) (us : List (String × String)) (hw : WF c.cat) (r : RRef)
    (h : ∀ x, IsTable s' c.db r.sch r.tab x ↔ IsTable c.cat c.db r.sch r.tab x) :
    lookup { c with udfs := us, cat := s' } r = lookup c r := by
  have hg : getTable s' c.db r.sch r.tab = getTable c.cat c.db r.sch r.tab := by
    rcases getTable_cases s' c.db r.sch r.tab with ⟨x, h1, h2⟩ | ⟨h1, h2⟩
    · rcases getTable_cases c.cat c.db r.sch r.tab with ⟨y, h3, h4⟩ | ⟨h3, h4⟩
      · rw [h2, h4, IsTable_unique hw ((h x).mp h1) h3]
      · exact absurd ((h x).mp h1) (h3 x)
    · rcases getTable_cases c.cat c.db r.sch r.tab with ⟨y, h3, h4⟩ | ⟨h3, h4⟩
      · exact absurd ((h y).mpr h3) (h1 y)
      · rw [h2, h4]
  unfold lookup
  simp only [hg]

/-- **C33** (statement).  After a successful `ALTER TABLE old RENAME TO new` the new name stands for the table with
its data, the old name for nothing, and every other name for what it stood for; both names are of the
current database; no data changes.  The schemas must be ordinary ones, see `C33_system`. -/
theorem C33_statement (env : Env) (c c' : Ctx) (hw : WF c.cat) (old new : String)
    (ho : Plain (resolve c (env.parse old)).sch) (hn : Plain (resolve c (env.parse new)).sch)
    (h : exec env c (.rename old new) = (c', .ok ())) :
    let o := resolve c (env.parse old)
    let n := resolve c (env.parse new)
    o.cat = c.db ∧ n.cat = c.db ∧ o ≠ n ∧
    (∃ u d, lookup c o = .ok (.delta u d) ∧ lookup c' n = .ok (.delta u d)) ∧
    lookup c n = .error .noTable ∧ lookup c' o = .error .noTable ∧
    (∀ r, r ≠ o → r ≠ n → lookup c' r = lookup c r) ∧ c'.data = c.data ∧ c'.ext = c.ext ∧ c'.db = c.db ∧ c'.sch = c.sch := by
  intro o n
  obtain ⟨us, ⟨_, _, he⟩ | ⟨e, _, he⟩⟩ := exec_cases env c (.rename old new)
  rotate_left
  · rw [he] at h; simp at h
  rw [he] at h
  simp only [execStmt, doRename] at h
  have hro : resolve { c with udfs := us } (env.parse old) = o := rfl
  have hrn : resolve { c with udfs := us } (env.parse new) = n := rfl
  rw [hro, hrn, lookup_udfs c us o, lookup_udfs c us n] at h
  have hocat : ∀ p, lookup c o = .ok p → o.cat = c.db := by
    intro p hp
    by_cases e : o.cat = c.db
    · exact e
    · simp [lookup, e] at hp
  have hplain : ∀ r : RRef, r.cat = c.db → Plain r.sch → ∀ c'' : Ctx, c''.db = c.db → lookup c'' r =
      match getTable c''.cat c.db r.sch r.tab with
      | .error _ => .error .noTable
      | .ok t => match c''.data t.uuid with
        | none => .error .load
        | some d => .ok (.delta t.uuid d) := by
    intro r hr ⟨p1, p2, p3⟩ c'' hdb
    unfold lookup
    rw [hdb]
    simp only [hr, ne_eq, not_true_eq_false, if_false, p1, p2, p3]
    rfl
  cases hlo : lookup c o with
  | error e => rw [hlo] at h; simp at h
  | ok p =>
    cases hln : lookup c n with
    | ok q => rw [hlo, hln] at h; simp at h
    | error e =>
      rw [hlo, hln] at h
      simp only at h
      by_cases hcat : n.cat = c.db
      · simp only [hcat, ne_eq, not_true_eq_false, if_false] at h
        have hne : o ≠ n := by
          intro e'; rw [e'] at hlo; rw [hlo] at hln; cases hln
        have hoc := hocat p hlo
        have hnames : (o.sch, o.tab) ≠ (n.sch, n.tab) := by
          intro e'
          apply hne
          simp only [Prod.mk.injEq] at e'
          obtain ⟨oc, os, ot⟩ := o
          obtain ⟨nc, ns, nt⟩ := n
          simp only at *
          simp [hoc, hcat, e']
        cases hr : renameTable c.cat c.db o.sch o.tab n.sch n.tab with
        | mk s' res =>
          cases res with
          | error e' => rw [hr] at h; simp [liftCat] at h
          | ok x =>
            rw [hr] at h
            simp only [liftCat, Prod.mk.injEq, and_true] at h
            subst h
            obtain ⟨t, t', ht, ht', hu, hold, hoth⟩ := rename_tables hw hr
            have hw' : WF s' := by
              have := C31_step c.cat hw (.renameTable c.db o.sch o.tab n.sch n.tab)
              simp only [Catalog.exec, hr] at this
              exact this
            have hlo' := hplain o hoc ho c rfl
            rw [(getTable_iff hw c.db o.sch o.tab t).2 ht] at hlo'
            simp only at hlo'
            have hdat : ∃ d, c.data t.uuid = some d := by
              cases hd : c.data t.uuid with
              | some d => exact ⟨d, rfl⟩
              | none => rw [hd, hlo] at hlo'; simp at hlo'
            obtain ⟨d, hd⟩ := hdat
            rw [hd] at hlo'
            have hno : ∀ x, ¬ IsTable c.cat c.db n.sch n.tab x := by
              intro x hx
              have h1 := ((C32_rename c.cat hw c.db o.sch o.tab n.sch n.tab).2 t ht).2.2.1 (.inr hn.2.1) ⟨x, hx, by
                rintro rfl
                have := IsTable_names hw hx ht
                simp only [Prod.mk.injEq, true_and] at this
                exact hnames (by rw [this.1, this.2])⟩
              rw [hr] at h1
              simp at h1
            refine ⟨hoc, hcat, hne, ⟨t.uuid, d, by rw [← hlo, hlo'], ?_⟩, ?_, ?_, ?_, rfl, rfl, rfl, rfl⟩
            · rw [hplain n hcat hn { c with udfs := us, cat := s' } rfl]
              simp only
              rw [(getTable_iff hw' c.db n.sch n.tab t').2 ht']
              simp only
              rw [hu, hd]
            · rw [← hln, hplain n hcat hn c rfl]
              rcases getTable_cases c.cat c.db n.sch n.tab with ⟨x, h1, _⟩ | ⟨_, h2⟩
              · exact absurd h1 (hno x)
              · rw [h2]
            · rw [hplain o hoc ho { c with udfs := us, cat := s' } rfl]
              simp only
              rcases getTable_cases s' c.db o.sch o.tab with ⟨x, h1, _⟩ | ⟨_, h2⟩
              · exact absurd h1 (hold hnames x)
              · rw [h2]
            · intro r h1 h2
              by_cases hrc : r.cat = c.db
              · refine lookup_congr c s' us hw r ?_
                intro x
                refine hoth r.sch r.tab x ?_ ?_
                · intro e'
                  apply h1
                  simp only [Prod.mk.injEq] at e'
                  obtain ⟨rc, rs, rt⟩ := r
                  simp only at e' hrc
                  rw [hrc, e'.1, e'.2, ← hoc]
                · intro e'
                  apply h2
                  simp only [Prod.mk.injEq] at e'
                  obtain ⟨rc, rs, rt⟩ := r
                  simp only at e' hrc
                  rw [hrc, e'.1, e'.2, ← hcat]
              · simp [lookup, hrc]
      · simp [hcat] at h

/-- **C33** (statement succeeds).  It succeeds if the old name stands for a table, and the new one is of the current
database, in an existing schema, and not taken. -/
theorem C33_succeeds (env : Env) (c : Ctx) (hw : WF c.cat) (hr : (reload env c).2 = .ok ()) (old new : String) (u : Nat) (d : Delta)
    (ho : lookup c (resolve c (env.parse old)) = .ok (.delta u d))
    (hn : Plain (resolve c (env.parse new)).sch) (hc : (resolve c (env.parse new)).cat = c.db)
    (hs : ∃ x, IsSchema c.cat c.db (resolve c (env.parse new)).sch x)
    (hfree : ∀ x, ¬ IsTable c.cat c.db (resolve c (env.parse new)).sch (resolve c (env.parse new)).tab x) :
    (exec env c (.rename old new)).2 = .ok () := by
  obtain ⟨us, ⟨_, _, he⟩ | ⟨e, hbad, _⟩⟩ := exec_cases env c (.rename old new)
  rotate_left
  · rw [hr] at hbad; cases hbad
  rw [he]
  simp only [execStmt, doRename]
  have hro : resolve { c with udfs := us } (env.parse old) = resolve c (env.parse old) := rfl
  have hrn : resolve { c with udfs := us } (env.parse new) = resolve c (env.parse new) := rfl
  rw [hro, hrn, lookup_udfs c us (resolve c (env.parse old)), lookup_udfs c us (resolve c (env.parse new)), ho]
  have htd : tryDelta c (resolve c (env.parse old)) = .ok (u, d) := by simp [tryDelta, ho]
  obtain ⟨_, _, t, ht, _⟩ := tryDelta_ok c _ u d htd
  have hln : ∃ e, lookup c (resolve c (env.parse new)) = .error e := by
    obtain ⟨p1, p2, p3⟩ := hn
    unfold lookup
    simp only [hc, ne_eq, not_true_eq_false, if_false, p1, p2, p3]
    rcases getTable_cases c.cat c.db (resolve c (env.parse new)).sch (resolve c (env.parse new)).tab with ⟨x, h1, _⟩ | ⟨_, h2⟩
    · exact absurd h1 (hfree x)
    · rw [h2]; exact ⟨_, rfl⟩
  obtain ⟨e, hln⟩ := hln
  rw [hln]
  simp only [hc, ne_eq, not_true_eq_false, if_false]
  have := ((C32_rename c.cat hw c.db (resolve c (env.parse old)).sch (resolve c (env.parse old)).tab
    (resolve c (env.parse new)).sch (resolve c (env.parse new)).tab).2 t ht).2.2.2 (.inr hn.2.1) hs
    (fun x hx => absurd hx (hfree x))
  rcases hx : renameTable c.cat c.db (resolve c (env.parse old)).sch (resolve c (env.parse old)).tab
    (resolve c (env.parse new)).sch (resolve c (env.parse new)).tab with ⟨s', e' | x⟩
  · rw [hx] at this; simp at this
  · simp [liftCat]

/-- **C33** (statement refused).  If the old name does not stand for a table, the client is told so and nothing changes; likewise if
the new name is taken. -/
theorem C33_refused (env : Env) (c : Ctx) (hr : (reload env c).2 = .ok ()) (old new : String) :
    ((∃ e, lookup c (resolve c (env.parse old)) = .error e) →
      (exec env c (.rename old new)).2 = .error .noTable ∧ (exec env c (.rename old new)).1.cat = c.cat ∧
        (exec env c (.rename old new)).1.data = c.data) ∧
    ((∃ p q, lookup c (resolve c (env.parse old)) = .ok p ∧ lookup c (resolve c (env.parse new)) = .ok q) →
      (exec env c (.rename old new)).2 = .error .exists_ ∧ (exec env c (.rename old new)).1.cat = c.cat ∧
        (exec env c (.rename old new)).1.data = c.data) := by
  obtain ⟨us, ⟨_, _, he⟩ | ⟨e, hbad, _⟩⟩ := exec_cases env c (.rename old new)
  rotate_left
  · rw [hr] at hbad; cases hbad
  rw [he]
  simp only [execStmt, doRename]
  have hro : resolve { c with udfs := us } (env.parse old) = resolve c (env.parse old) := rfl
  have hrn : resolve { c with udfs := us } (env.parse new) = resolve c (env.parse new) := rfl
  rw [hro, hrn, lookup_udfs c us (resolve c (env.parse old)), lookup_udfs c us (resolve c (env.parse new))]
  constructor
  · rintro ⟨e, h⟩
    rw [h]
    exact ⟨rfl, rfl, rfl⟩
  · rintro ⟨p, q, h1, h2⟩
    rw [h1, h2]
    exact ⟨rfl, rfl, rfl⟩

example : (exec exEnv exCtx (.rename "missing" "x")).2 = .error .noTable ∧
    (exec exEnv exCtx (.rename "t" "t")).2 = .error .exists_ := by decide +kernel

def exEnv4 : Env :=
  { exEnv with parse := fun n => if n = "s2.u" then { sch := some "s2", tab := "u" }
                                 else if n = "system.u" then { sch := some "system", tab := "u" }
                                 else if n = "other.public.x" then { cat := some "other", sch := some "public", tab := "x" }
                                 else { tab := n } }

/-- `t` becomes `s2.u`; a name of another database is refused. -/
example : (exec exEnv4 exCtx (.rename "t" "s2.u")).2 = .ok () ∧
    lookup (exec exEnv4 exCtx (.rename "t" "s2.u")).1 ⟨"default", "s2", "u"⟩ = .ok (.delta 77 ⟨1, [10]⟩) ∧
    (exec exEnv4 exTwoDb (.rename "t" "other.public.x")).2 = .error .plan := by decide +kernel

/-- In contrast, with the schema `system` (if it was created): the statement succeeds and the table can no longer be
read under any name. -/
theorem C33_system :
    let c := (exec exEnv4 exCtx (.createSchema "system" false)).1
    let c' := (exec exEnv4 c (.rename "t" "system.u")).1
    (exec exEnv4 c (.rename "t" "system.u")).2 = .ok () ∧ lookup c ⟨"default", "public", "t"⟩ = .ok (.delta 77 ⟨1, [10]⟩) ∧
      ∀ r d, lookup c' r ≠ .ok (.delta 77 d) := by
  refine ⟨by decide +kernel, by decide +kernel, ?_⟩
  intro r d h
  have htd : tryDelta (exec exEnv4 (exec exEnv4 exCtx (.createSchema "system" false)).1 (.rename "t" "system.u")).1 r = .ok (77, d) := by
    simp [tryDelta, h]
  obtain ⟨_, hp, x, hx, hu, _⟩ := tryDelta_ok _ r 77 d htd
  obtain ⟨hm, _, k, hk, hkx⟩ := hx
  have htabs : ∀ y ∈ (exec exEnv4 (exec exEnv4 exCtx (.createSchema "system" false)).1 (.rename "t" "system.u")).1.cat.tabs,
      y.uuid = 77 → ∀ k ∈ (exec exEnv4 (exec exEnv4 exCtx (.createSchema "system" false)).1 (.rename "t" "system.u")).1.cat.colls,
        k.id = y.collId → k.name = "system" := by decide +kernel
  have := htabs x hm hu k hk.1 (by simp [hkx])
  rw [hk.2.1] at this
  exact hp.2.2 this

end Seafowl.Ddl
