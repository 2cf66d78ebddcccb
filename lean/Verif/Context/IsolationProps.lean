import Verif.Context.StmtProps

/-!
# C78: statements of one database leave the tables of the others alone
-/

namespace Seafowl.Ddl

open Seafowl.Catalog

set_option linter.unusedSimpArgs false

/-- The tables of all databases but `db` are the same ones. -/
def OthersKept (db : String) (s s' : Cat) : Prop := ∀ a b m x, a ≠ db → (IsTable s' a b m x ↔ IsTable s a b m x)

theorem OthersKept.refl (db : String) (s : Cat) : OthersKept db s s := fun _ _ _ _ _ => Iff.rfl

theorem OthersKept.trans {db : String} {s s' s'' : Cat} (h1 : OthersKept db s s') (h2 : OthersKept db s' s'') :
    OthersKept db s s'' := fun a b m x h => (h2 a b m x h).trans (h1 a b m x h)

theorem kept_err {s s' : Cat} {db : String} (h : s' = s) : OthersKept db s s' := by subst h; exact OthersKept.refl _ _

theorem kept_createSchema {s s' : Cat} (hw : WF s) {db d n : String} {r : Except CatErr Unit}
    (h : createSchema s d n = (s', r)) : OthersKept db s s' := by
  rcases r with e | _
  · have := C32_error_unchanged_partial s (.createSchema d n) e (by simp [Catalog.exec, h, errOf]) (by intros; contradiction) (by intros; contradiction)
    simp only [Catalog.exec, h] at this
    exact kept_err this
  · exact fun a b m x _ => (createSchema_ok hw h).2.2.2.2.2.2.2 a b m x

theorem kept_createDelta (env : Env) (c : Ctx) (hw : WF c.cat) (r : RRef) (schema u : Nat)
    (hcols : distinctNames (env.cols schema) = true) :
    OthersKept c.db c.cat (createDelta env c r schema u).1.cat ∧ WF (createDelta env c r schema u).1.cat ∧
    ∀ w, w ≠ u → (createDelta env c r schema u).1.data w = c.data w := by
  simp only [createDelta]
  split
  · exact ⟨OthersKept.refl _ _, hw, fun _ _ => rfl⟩
  · split
    · exact ⟨OthersKept.refl _ _, hw, fun _ _ => rfl⟩
    · split
      · exact ⟨OthersKept.refl _ _, hw, fun _ _ => rfl⟩
      · have hdat : ∀ w, w ≠ u → (setData c u (some ⟨schema, []⟩)).data w = c.data w := by
          intro w hwu; simp [setData, hwu]
        have hws := C31_step c.cat hw (.createTable c.db r.sch r.tab (env.cols schema) u env.now true)
        rcases hct : createTable c.cat c.db r.sch r.tab (env.cols schema) u env.now true with ⟨s, e1 | x⟩
        · have hct' : createTable (setData c u (some ⟨schema, []⟩)).cat c.db r.sch r.tab (env.cols schema) u env.now true = (s, .error e1) := hct
          simp only [Catalog.exec, hct] at hws
          rw [hct']
          exact ⟨kept_err (createTable_err hcols hct), hws, hdat⟩
        · have hct' : createTable (setData c u (some ⟨schema, []⟩)).cat c.db r.sch r.tab (env.cols schema) u env.now true = (s, .ok x) := hct
          simp only [Catalog.exec, hct] at hws
          rw [hct']
          obtain ⟨_, t, _, hiff⟩ := createTable_tables hw hws hct
          have hk : OthersKept c.db c.cat s := by
            intro a b m y ha
            rw [hiff a b m y]
            constructor
            · rintro (h | ⟨_, h⟩)
              · exact h
              · exact absurd (Prod.mk.inj h).1 ha
            · exact Or.inl
          simp only
          split <;> exact ⟨hk, hws, hdat⟩

theorem kept_planTo (env : Env) (c : Ctx) (r : RRef) (rows : List Nat) :
    (∀ db, OthersKept db c.cat (planTo env c r rows).1.cat) ∧
    ∀ w, (∀ x, IsTable c.cat c.db r.sch r.tab x → x.uuid ≠ w) → (planTo env c r rows).1.data w = c.data w := by
  simp only [planTo]
  rcases ht : tryDelta c r with e | ⟨v, d⟩
  · exact ⟨fun _ => OthersKept.refl _ _, fun _ _ => rfl⟩
  · simp only
    obtain ⟨_, _, x, hx, hxu, _⟩ := tryDelta_ok _ _ _ _ ht
    split
    · exact ⟨fun _ => OthersKept.refl _ _, fun _ _ => rfl⟩
    · split
      · exact ⟨fun _ => OthersKept.refl _ _, fun _ _ => rfl⟩
      · have hf := newVersion_frame c.cat v env.ver env.now true
        have hk : ∀ s, (newVersion c.cat v env.ver env.now true).1 = s → ∀ db, OthersKept db c.cat s := by
          rintro s rfl db a b m y _
          exact IsTable_congr hf.1 hf.2.1 hf.2.2.1 a b m y
        have hdat : ∀ w, (∀ x, IsTable c.cat c.db r.sch r.tab x → x.uuid ≠ w) →
            (setData c v (some { d with rows := d.rows ++ rows })).data w = c.data w := by
          intro w hw'
          have : w ≠ v := by rw [← hxu]; exact fun e => hw' x hx e.symm
          simp [setData, this]
        rcases hnv : newVersion c.cat v env.ver env.now true with ⟨s, e | y⟩
        · have hnv' : newVersion (setData c v (some { d with rows := d.rows ++ rows })).cat v env.ver env.now true = (s, .error e) := hnv
          rw [hnv']
          exact ⟨hk s (by rw [hnv]), hdat⟩
        · have hnv' : newVersion (setData c v (some { d with rows := d.rows ++ rows })).cat v env.ver env.now true = (s, .ok y) := hnv
          rw [hnv']
          exact ⟨hk s (by rw [hnv]), hdat⟩

theorem kept_deleteTable (s : Cat) (hw : WF s) (db sch n : String) :
    OthersKept db s (deleteTable s db sch n).1 ∧ WF (deleteTable s db sch n).1 ∧
    ∀ b m x, IsTable (deleteTable s db sch n).1 db b m x → IsTable s db b m x := by
  rcases deleteTable_cases s hw db sch n with ⟨s', h1, _, h2, h3⟩ | ⟨e, h1, _⟩
  · rw [h1]
    refine ⟨?_, h2, fun b m x h => ((h3 _ _ _ _).1 h).1⟩
    intro a b m x ha
    rw [h3 a b m x]
    exact ⟨fun h => h.1, fun h => ⟨h, fun e => ha (Prod.mk.inj e).1⟩⟩
  · rw [h1]; exact ⟨OthersKept.refl _ _, hw, fun _ _ _ h => h⟩

/-- A loop of `DROP SCHEMA`, finished or not. -/
theorem kept_dropLoop (env : Env) (sch : String) (ts : List String) : ∀ (c : Ctx), WF c.cat →
    OthersKept c.db c.cat (dropLoop env c sch ts).1.cat ∧ WF (dropLoop env c sch ts).1.cat ∧
    ∀ w, (∀ b m x, IsTable c.cat c.db b m x → x.uuid ≠ w) → (dropLoop env c sch ts).1.data w = c.data w := by
  induction ts with
  | nil => intro c hw; exact ⟨OthersKept.refl _ _, hw, fun _ _ => rfl⟩
  | cons t ts ih =>
    intro c hw
    simp only [dropLoop]
    have hf := deleteDelta_frame env c ⟨c.db, sch, t⟩
    have hdat : ∀ w, (∀ b m x, IsTable c.cat c.db b m x → x.uuid ≠ w) → (deleteDelta env c ⟨c.db, sch, t⟩).1.data w = c.data w := by
      intro w hw'
      rcases deleteDelta_data env c ⟨c.db, sch, t⟩ with ⟨e, _, h⟩ | ⟨x, d, v, _, _, hx, _, _, h3, _, _⟩
      · rw [h]
      · rw [h3]
        have : w ≠ x.uuid := fun e => hw' _ _ x hx e.symm
        simp [setData, this]
    rcases hdd : deleteDelta env c ⟨c.db, sch, t⟩ with ⟨c1, e | _⟩
    · rw [hdd] at hf hdat
      simp only at hf ⊢
      exact ⟨kept_err hf.2.2.2, by rw [hf.2.2.2]; exact hw, hdat⟩
    · rw [hdd] at hf hdat
      simp only at hf ⊢
      obtain ⟨k1, k2, k3⟩ := kept_deleteTable c.cat hw c.db sch t
      rw [hf.2.2.2, hf.2.1]
      rcases hdt : deleteTable c.cat c.db sch t with ⟨s, e | _⟩
      · rw [hdt] at k1 k2
        exact ⟨k1, k2, hdat⟩
      · rw [hdt] at k1 k2 k3
        simp only at k1 k2 k3 ⊢
        obtain ⟨i1, i2, i3⟩ := ih { c1 with cat := s } k2
        rw [hf.2.1] at i1 i3
        have hdb1 : c1.db = c.db := hf.2.1
        rw [hdb1] at i2
        refine ⟨k1.trans i1, i2, ?_⟩
        intro w hw'
        rw [i3 w (fun b m x hx => hw' b m x (k3 b m x hx))]
        exact hdat w hw'

theorem kept_rename {s s' : Cat} (hw : WF s) {db os on ns nn : String} {r : Except CatErr Unit}
    (h : renameTable s db os on ns nn = (s', r)) : OthersKept db s s' := by
  have hws := C31_step s hw (.renameTable db os on ns nn)
  simp only [Catalog.exec, h] at hws
  rcases r with e | _
  · have := C32_error_unchanged_partial s (.renameTable db os on ns nn) e (by simp [Catalog.exec, h, errOf]) (by intros; contradiction) (by intros; contradiction)
    simp only [Catalog.exec, h] at this
    exact kept_err this
  · obtain ⟨t, ht, ⟨t', ht', hid, _⟩, _, _, _, _, _, _, hoth⟩ := C33_rename s s' hw db os on ns nn h
    intro a b m x ha
    by_cases hx : x.id = t.id
    · constructor
      · intro hxs
        have : x = t' := eq_of_pairwise hws.tabIds hxs.1 ht'.1 (by simp [hx, hid]) (by simp [hx, hid])
        subst this
        exact absurd (Prod.mk.inj (IsTable_names hws ht' hxs)).1 ha
      · intro hxs
        have : x = t := eq_of_pairwise hw.tabIds hxs.1 ht.1 (by simp [hx]) (by simp [hx])
        subst this
        exact absurd (Prod.mk.inj (IsTable_names hw ht hxs)).1 ha
    · exact hoth a b m x hx

/-- The UUID a statement creates a table under. -/
def newUuid : Stmt → Option Nat
  | .ctas _ _ _ _ u => some u
  | .createTable _ _ _ _ u => some u
  | _ => none

/-- **C78** (partial): whatever a statement does and whether or not it succeeds, every table of every other
database exists afterwards exactly if it did before, and no data is touched but that of tables of the current
database and of the new table.  Missing: `DROP TABLE` with the name of another database, see `C78_violated`. -/
theorem C78_partial (env : Env) (c : Ctx) (hw : WF c.cat) (hcols : ∀ s, distinctNames (env.cols s) = true) (s : Stmt)
    (hdrop : ∀ name ie, s = .dropTable name ie → (resolve c name).cat = c.db) :
    OthersKept c.db c.cat (exec env c s).1.cat ∧
    ∀ w, (∀ b m x, IsTable c.cat c.db b m x → x.uuid ≠ w) → newUuid s ≠ some w → (exec env c s).1.data w = c.data w := by
  obtain ⟨us, ⟨_, _, he⟩ | ⟨e, _, he⟩⟩ := exec_cases env c s
  rotate_left
  · rw [he]; exact ⟨OthersKept.refl _ _, fun _ _ _ => by trivial⟩
  rw [he]
  have hwu : WF ({ c with udfs := us } : Ctx).cat := hw
  cases s with
  | createExternal name ine id =>
    simp only [execStmt, doCreateExternal]
    split
    · exact ⟨OthersKept.refl _ _, fun _ _ _ => by trivial⟩
    · split
      · exact ⟨OthersKept.refl _ _, fun _ _ _ => by trivial⟩
      · split
        · split <;> exact ⟨OthersKept.refl _ _, fun _ _ _ => by trivial⟩
        · exact ⟨OthersKept.refl _ _, fun _ _ _ => by trivial⟩
  | createSchema name ine =>
    simp only [execStmt]
    rcases hcs : createSchema c.cat c.db name with ⟨s, e | _⟩ <;> simp only [liftCat] <;>
      exact ⟨kept_createSchema hw hcs, fun _ _ _ => by trivial⟩
  | createCatalog name ine =>
    simp only [execStmt, doCreateCatalog]
    split
    · split <;> exact ⟨OthersKept.refl _ _, fun _ _ _ => by trivial⟩
    · rcases hcd : createDb c.cat name with ⟨s1, e1 | _⟩
      · simp only
        have := C32_error_unchanged_partial c.cat (.createDb name) e1 (by simp [Catalog.exec, hcd, errOf]) (by intros; contradiction) (by intros; contradiction)
        simp only [Catalog.exec, hcd] at this
        exact ⟨kept_err this, fun _ _ _ => by trivial⟩
      · simp only
        obtain ⟨_, _, hw1, _, hiff⟩ := createDb_ok hw hcd
        have hk1 : OthersKept c.db c.cat s1 := fun a b m x _ => hiff a b m x
        rcases hcs : createSchema s1 name "public" with ⟨s2, e2 | _⟩ <;> simp only [liftCat] <;>
          exact ⟨hk1.trans (kept_createSchema hw1 hcs), fun _ _ _ => by trivial⟩
  | ctas name ine orr q u =>
    simp only [execStmt, doCtas]
    split
    · exact ⟨OthersKept.refl _ _, fun _ _ _ => by trivial⟩
    · cases q with
      | planErr => exact ⟨OthersKept.refl _ _, fun _ _ _ => by trivial⟩
      | rows schema rows =>
        simp only
        obtain ⟨k1, k2, k3⟩ := kept_createDelta env { c with udfs := us } hw (resolve { c with udfs := us } name) schema u (hcols schema)
        rcases hcd : createDelta env { c with udfs := us } (resolve { c with udfs := us } name) schema u with ⟨c1, e1 | _⟩
        · rw [hcd] at k1 k3
          refine ⟨k1, fun w _ h2 => k3 w ?_⟩
          rintro rfl; exact h2 rfl
        · rw [hcd] at k1 k2 k3
          simp only at k1 k2 k3 ⊢
          have hx1 := createDelta_ext env { c with udfs := us } (resolve { c with udfs := us } name) schema u
          rw [hcd] at hx1
          simp only at hx1
          obtain ⟨p1, p2⟩ := kept_planTo env c1 (resolve c1 name) rows
          refine ⟨k1.trans (p1 c.db), fun w h1 h2 => ?_⟩
          have hwu' : w ≠ u := by rintro rfl; exact h2 rfl
          rw [p2 w, k3 w hwu']
          intro x hx e
          -- a table of the current database, or the new one
          obtain ⟨_, _, _, _, s, _, hc1, _, _, _, _, t, hu, _, hiff⟩ := createDelta_ok (c := { c with udfs := us }) hw hcd
          rw [hc1] at hx
          simp only [setData] at hx
          rcases (hiff _ _ _ _).1 hx with h | ⟨h, _⟩
          · exact h1 _ _ x h e
          · rw [h, hu] at e; exact hwu' e.symm
  | createTable name ine orr schema u =>
    obtain ⟨k1, _, k3⟩ := kept_createDelta env { c with udfs := us } hw (resolve { c with udfs := us } (env.parse name)) schema u (hcols schema)
    refine ⟨k1, fun w _ h2 => k3 w ?_⟩
    rintro rfl; exact h2 rfl
  | dropTable name ie =>
    have hcat := hdrop name ie rfl
    rw [← he]
    obtain ⟨k1, k2, _⟩ := C75_others env c hw name ie
    constructor
    · intro a b m x ha
      exact k1 a b m x (by rw [hcat]; exact fun e => ha (Prod.mk.inj e).1)
    · intro w h1 _
      exact k2 w (fun t ht => h1 _ _ t (by rw [hcat] at ht; exact ht))
  | dropSchema cat name ie =>
    simp only [execStmt, doDropSchema]
    split
    · exact ⟨OthersKept.refl _ _, fun _ _ _ => by trivial⟩
    · split
      · split <;> exact ⟨OthersKept.refl _ _, fun _ _ _ => by trivial⟩
      · rename_i ts _
        obtain ⟨k1, k2, k3⟩ := kept_dropLoop env name ts { c with udfs := us } hw
        have hx1 := dropLoop_ext env { c with udfs := us } name ts
        rcases hl : dropLoop env { c with udfs := us } name ts with ⟨c1, e | _⟩
        · rw [hl] at k1 k3
          exact ⟨k1, fun w h1 _ => k3 w h1⟩
        · rw [hl] at k1 k2 k3 hx1
          simp only at k1 k2 k3 hx1 ⊢
          rw [hx1.2.1]
          rcases hds : Catalog.deleteSchema c1.cat c.db name with ⟨s, e | _⟩
          · simp only [liftCat]
            have := C32_error_unchanged_partial c1.cat (.deleteSchema c.db name) e (by simp [Catalog.exec, hds, errOf]) (by intros; contradiction) (by intros; contradiction)
            simp only [Catalog.exec, hds] at this
            exact ⟨k1.trans (kept_err this), fun w h1 _ => k3 w h1⟩
          · simp only [liftCat]
            refine ⟨k1.trans ?_, fun w h1 _ => k3 w h1⟩
            intro a b m x ha
            rw [(deleteSchema_ok k2 hds).2 a b m x]
            exact ⟨fun h => h.1, fun h => ⟨h, fun e => ha (Prod.mk.inj e).1⟩⟩
  | createFunction name orr det =>
    simp only [execStmt]
    split
    · have hfn : ∀ s r, createFunction c.cat c.db name orr det = (s, r) → OthersKept c.db c.cat s := by
        intro s r h
        rcases r with e | _
        · have := C32_error_unchanged_partial c.cat (.createFunction c.db name orr det) e (by simp [Catalog.exec, h, errOf]) (by intros; contradiction) (by intros; contradiction)
          simp only [Catalog.exec, h] at this
          exact kept_err this
        · obtain ⟨_, _, e1, e2, e3, _⟩ := C37_create c.cat s hw c.db name orr det h
          exact fun a b m x _ => IsTable_congr e1 e2 e3 a b m x
      rcases hcf : createFunction c.cat c.db name orr det with ⟨s, e | _⟩ <;> simp only [liftCat] <;>
        exact ⟨hfn _ _ hcf, fun _ _ _ => by trivial⟩
    · exact ⟨OthersKept.refl _ _, fun _ _ _ => by trivial⟩
  | dropFunction names ie =>
    have hfn : OthersKept c.db c.cat (deleteFunctions c.cat c.db ie names).1 := by
      have hfr : (deleteFunctions c.cat c.db ie names).1.dbs = c.cat.dbs ∧ (deleteFunctions c.cat c.db ie names).1.colls = c.cat.colls ∧
          (deleteFunctions c.cat c.db ie names).1.tabs = c.cat.tabs := by
        rcases fst_deleteFunctions c.cat c.db ie names with h | ⟨id, h⟩
        · rw [h]; exact ⟨rfl, rfl, rfl⟩
        · rw [h]
          simp only [repoDropFn]
          split <;> exact ⟨rfl, rfl, rfl⟩
      exact fun a b m x _ => IsTable_congr hfr.1 hfr.2.1 hfr.2.2 a b m x
    simp only [execStmt]
    rcases hdf : deleteFunctions c.cat c.db ie names with ⟨s, e | _⟩ <;> rw [hdf] at hfn <;> simp only [liftCat] <;>
      exact ⟨hfn, fun _ _ _ => by trivial⟩
  | rename old new =>
    simp only [execStmt, doRename]
    split
    · exact ⟨OthersKept.refl _ _, fun _ _ _ => by trivial⟩
    · exact ⟨OthersKept.refl _ _, fun _ _ _ => by trivial⟩
    · split
      · exact ⟨OthersKept.refl _ _, fun _ _ _ => by trivial⟩
      · generalize hq : renameTable c.cat c.db _ _ _ _ = q
        obtain ⟨s, e | _⟩ := q <;> simp only [liftCat] <;> exact ⟨kept_rename hw hq, fun _ _ _ => by trivial⟩

/-- Two databases with a table `public.t` each, whose data are under 77 and 88; the session is in "default". -/
def exTwoDb : Ctx :=
  let c := run exEnv (run exEnv exCtx [.createCatalog "other" false]) []
  let o := (exec exEnv (scopeTo c "other" "public") (.createTable "t" false false 1 88)).1
  scopeTo o "default" "public"

example : exTwoDb.cat.dbs.map (·.name) = ["default", "other"] ∧ (exTwoDb.data 88).isSome = true ∧
    (exec exEnv exTwoDb (.dropSchema none "public" false)).2 = .ok () ∧
    (exec exEnv exTwoDb (.dropSchema none "public" false)).1.data 88 = some ⟨1, []⟩ := by decide +kernel

/-- **C78**, violated: `CREATE TABLE other.public.x` creates `x` in the current database;
`DROP TABLE other.public.t` removes the table of the other database from the catalog, leaving its files behind;
an external table created in one database is visible in the other. -/
theorem C78_violated :
    (let c := (exec exEnv3 exTwoDb (.createTable "other.public.x" false false 1 500)).1
     lookup c ⟨"default", "public", "x"⟩ = .ok (.delta 500 ⟨1, []⟩) ∧
     lookup (scopeTo c "other" "public") ⟨"other", "public", "x"⟩ = .error .noTable) ∧
    (let r := exec exEnv3 exTwoDb (.dropTable { cat := some "other", sch := some "public", tab := "t" } false)
     r.2 = .ok () ∧ lookup (scopeTo r.1 "other" "public") ⟨"other", "public", "t"⟩ = .error .noTable ∧ r.1.data 88 = some ⟨1, []⟩) ∧
    (let c := (exec exEnv exTwoDb (.createExternal "mine" false 9)).1
     lookup (scopeTo c "other" "public") ⟨"other", "staging", "mine"⟩ = .ok (.ext 9)) := by decide +kernel

end Seafowl.Ddl
