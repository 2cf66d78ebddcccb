import Verif.Context.DropStmtProps

/-!
# C72: which functions a session can call
-/

namespace Seafowl.Ddl

open Seafowl.Catalog

set_option linter.unusedSimpArgs false

/-- The definition a call of `n` runs in a session. -/
def udf (c : Ctx) (n : String) : Option String := (c.udfs.find? (·.1 == n)).map (·.2)

theorem find_setUdf (us : List (String × String)) (n d m : String) :
    ((setUdf us n d).find? (·.1 == m)).map (·.2) = if m = n then some d else (us.find? (·.1 == m)).map (·.2) := by
  by_cases h : m = n
  · subst h; simp [setUdf]
  · have h1 : (n == m) = false := by simp [Ne.symm h]
    simp only [setUdf, List.find?, h1, h, if_false]
    congr 1
    induction us with
    | nil => rfl
    | cons x xs ih =>
      by_cases hx : x.1 = n
      · have h2 : (x.1 == m) = false := by simp [hx, Ne.symm h]
        have h3 : (x.1 != n) = false := by simp [hx]
        simp only [List.filter, h3, List.find?, h2]
        exact ih
      · have h3 : (x.1 != n) = true := by simp [hx]
        simp only [List.filter, h3, List.find?]
        rw [ih]

/-- What registering a list of functions leaves callable. -/
theorem registerAll_udf (env : Env) (fs : List Fn) : ∀ (c : Ctx), (registerAll env c fs).2 = .ok () →
    fs.Pairwise (fun a b => a.name ≠ b.name) →
    ∀ n, (∀ f ∈ fs, f.name = n → udf (registerAll env c fs).1 n = some f.details) ∧
      ((∀ f ∈ fs, f.name ≠ n) → udf (registerAll env c fs).1 n = udf c n) := by
  induction fs with
  | nil => intro c _ _ n; exact ⟨by simp, fun _ => rfl⟩
  | cons g fs ih =>
    intro c hok hpw n
    rw [List.pairwise_cons] at hpw
    by_cases hg : env.udfOk g.details = true
    · simp only [registerAll, hg, if_true] at hok ⊢
      obtain ⟨i1, i2⟩ := ih _ hok hpw.2 n
      constructor
      · intro f hf hn
        rcases List.mem_cons.1 hf with rfl | hf
        · rw [i2 (fun f' hf' e => hpw.1 f' hf' (hn.trans e.symm))]
          simp only [udf, find_setUdf, hn, if_true]
        · exact i1 f hf hn
      · intro hno
        rw [i2 (fun f hf => hno f (List.mem_cons_of_mem _ hf))]
        have : ¬ n = g.name := fun e => hno g (by simp) e.symm
        simp only [udf, find_setUdf, this, if_false]
    · simp [registerAll, hg] at hok

/-- What a statement finds callable: the functions stored in the database and, below them, what the session
had before. -/
theorem reload_udf (env : Env) (c : Ctx) (hw : WF c.cat) (h : (reload env c).2 = .ok ()) (n : String) :
    (∀ f, IsFn c.cat c.db n f → udf (reload env c).1 n = some f.details) ∧
    ((∀ f, ¬ IsFn c.cat c.db n f) → udf (reload env c).1 n = udf c n) := by
  simp only [reload, listFunctions] at h ⊢
  rcases getDb_cases c.cat c.db with ⟨d, h1, h2⟩ | ⟨h1, h2⟩
  · simp only [h2] at h ⊢
    have hpw : (c.cat.fns.filter (·.dbId == d.id)).Pairwise (fun a b => a.name ≠ b.name) := by
      refine List.Pairwise.imp_of_mem ?_ (pairwise_filter _ hw.fnNames)
      intro a b ha hb hab e
      have ha := (List.mem_filter.1 ha).2
      have hb := (List.mem_filter.1 hb).2
      simp only [beq_iff_eq] at ha hb
      exact hab ⟨by rw [ha, hb], e⟩
    obtain ⟨i1, i2⟩ := registerAll_udf env _ c h hpw n
    constructor
    · rintro f ⟨hf, hn, d', hd', e⟩
      have := IsDb_unique hw hd' h1
      subst this
      exact i1 f (List.mem_filter.2 ⟨hf, by simp [e]⟩) hn
    · intro hno
      refine i2 (fun f hf hn => ?_)
      obtain ⟨hf1, hf2⟩ := List.mem_filter.1 hf
      simp only [beq_iff_eq] at hf2
      exact hno f ⟨hf1, hn, d, h1, hf2.symm⟩
  · simp [h2] at h

/-- **C72**, fresh sessions: they call exactly the functions stored in their database. -/
theorem C72_fresh (env : Env) (c : Ctx) (hw : WF c.cat) (db sch : String)
    (h : (reload env (scopeTo c db sch)).2 = .ok ()) (n d : String) :
    udf (reload env (scopeTo c db sch)).1 n = some d ↔ ∃ f, IsFn c.cat db n f ∧ f.details = d := by
  obtain ⟨i1, i2⟩ := reload_udf env (scopeTo c db sch) hw h n
  have i1' : ∀ f, IsFn c.cat db n f → udf (reload env (scopeTo c db sch)).1 n = some f.details := i1
  constructor
  · intro hu
    by_cases hex : ∃ f, IsFn c.cat db n f
    · obtain ⟨f, hf⟩ := hex
      rw [i1' f hf] at hu
      exact ⟨f, hf, by simpa using hu⟩
    · rw [i2 (fun f hf => hex ⟨f, hf⟩)] at hu
      simp [udf, scopeTo] at hu
  · rintro ⟨f, hf, rfl⟩
    exact i1' f hf

/-- **C72**, creation: after `CREATE [OR REPLACE] FUNCTION` succeeded, the next statement of every session
of that database, old or new, calls the new definition, and no statement fails because of it. -/
theorem C72_created (env : Env) (c c' : Ctx) (hw : WF c.cat) (n d : String) (o : Bool)
    (h : exec env c (.createFunction n o d) = (c', .ok ())) (c2 : Ctx) (hc : c2.cat = c'.cat) (hdb : c2.db = c.db) :
    (reload env c2).2 = .ok () ∧ udf (reload env c2).1 n = some d := by
  obtain ⟨us, ⟨hr, _, he⟩ | ⟨e, _, he⟩⟩ := exec_cases env c (.createFunction n o d)
  rotate_left
  · rw [he] at h; simp at h
  rw [he] at h
  simp only [execStmt] at h
  by_cases hok : env.udfOk d = true
  · simp only [hok, if_true] at h
    rcases hcf : createFunction c.cat c.db n o d with ⟨s, e | _⟩
    · simp [hcf, liftCat] at h
    · simp only [hcf, liftCat, Prod.mk.injEq, and_true] at h
      subst h
      simp only at hc
      obtain ⟨⟨f, hf, hfd, _⟩, hoth, hdbs, _⟩ := C37_create c.cat s hw c.db n o d hcf
      have hws : WF s := by
        have := C31_step c.cat hw (.createFunction c.db n o d)
        simp only [Catalog.exec, hcf] at this
        exact this
      have hrel : (reload env c2).2 = .ok () := by
        simp only [reload, listFunctions, hc, hdb]
        rcases getDb_cases s c.db with ⟨x, h1, h2⟩ | ⟨h1, h2⟩
        · simp only [h2]
          apply registerAll_ok
          intro g hg
          obtain ⟨hg1, hg2⟩ := List.mem_filter.1 hg
          simp only [beq_iff_eq] at hg2
          have hgf : IsFn s c.db g.name g := ⟨hg1, rfl, x, h1, hg2.symm⟩
          by_cases hgn : g.name = n
          · rw [hgn] at hgf
            rw [IsFn_unique hws hgf hf, hfd]
            exact hok
          · have hgo := (hoth c.db g.name g (by simp [hgn])).1 hgf
            -- it was accepted by the reload of this statement
            obtain ⟨k1, k2, y, hy, k3⟩ := hgo
            simp only [reload, listFunctions] at hr
            rcases getDb_cases c.cat c.db with ⟨z, z1, z2⟩ | ⟨z1, z2⟩
            · have := IsDb_unique hw hy z1
              subst this
              simp only [z2] at hr
              have hall : ∀ (fs : List Fn) (c : Ctx), (registerAll env c fs).2 = .ok () → ∀ f ∈ fs, env.udfOk f.details = true := by
                intro fs
                induction fs with
                | nil => intro _ _ f hf; simp at hf
                | cons a fs ih =>
                  intro c hc f hf
                  by_cases ha : env.udfOk a.details = true
                  · simp only [registerAll, ha, if_true] at hc
                    rcases List.mem_cons.1 hf with rfl | hf
                    · exact ha
                    · exact ih _ hc f hf
                  · simp [registerAll, ha] at hc
              exact hall _ c hr g (List.mem_filter.2 ⟨k1, by simp [k3]⟩)
            · simp [z2] at hr
        · obtain ⟨_, _, x, hx, _⟩ := hf
          exact absurd hx (h1 x)
      refine ⟨hrel, ?_⟩
      have hf2 : IsFn c2.cat c2.db n f := by rw [hc, hdb]; exact hf
      rw [(reload_udf env c2 (by rw [hc]; exact hws) hrel n).1 f hf2, hfd]
  · simp [hok] at h

/-- **C72**, failed creation: no other session notices, and in this session the next statement calls the
stored definition. -/
theorem C72_failed (env : Env) (c c' : Ctx) (hw : WF c.cat) (n d : String) (o : Bool) (e : Err)
    (h : exec env c (.createFunction n o d) = (c', .error e)) :
    c'.cat = c.cat ∧ (∀ f, IsFn c.cat c.db n f → (reload env c').2 = .ok () → udf (reload env c').1 n = some f.details) := by
  have hcat : c'.cat = c.cat ∧ c'.db = c.db := by
    obtain ⟨us, ⟨hr, _, he⟩ | ⟨e', _, he⟩⟩ := exec_cases env c (.createFunction n o d)
    rotate_left
    · rw [he] at h; simp only [Prod.mk.injEq] at h; rw [← h.1]; exact ⟨rfl, rfl⟩
    rw [he] at h
    simp only [execStmt] at h
    by_cases hok : env.udfOk d = true
    · simp only [hok, if_true] at h
      have hun := C32_error_unchanged_partial c.cat (.createFunction c.db n o d)
      rcases hcf : createFunction c.cat c.db n o d with ⟨s, e' | _⟩
      · simp only [hcf, liftCat, Prod.mk.injEq] at h
        rw [← h.1]
        have := hun e' (by simp [Catalog.exec, hcf, errOf]) (by intros; contradiction) (by intros; contradiction)
        simp only [Catalog.exec, hcf] at this
        exact ⟨this, rfl⟩
      · simp [hcf, liftCat] at h
    · simp only [hok, if_false, Prod.mk.injEq, Bool.false_eq_true] at h
      rw [← h.1]; exact ⟨rfl, rfl⟩
  refine ⟨hcat.1, fun f hf hr => ?_⟩
  refine (reload_udf env c' (by rw [hcat.1]; exact hw) hr n).1 f ?_
  rw [hcat.1, hcat.2]; exact hf

/-- **C72** (partial): after `DROP FUNCTION n`, *fresh* sessions cannot call it and can call all others as
before.  Missing: the session itself, see `C72_violated`. -/
theorem C72_dropped_partial (env : Env) (c c' : Ctx) (hw : WF c.cat) (n : String) (ie : Bool)
    (h : exec env c (.dropFunction [n] ie) = (c', .ok ())) (sch : String)
    (hr : (reload env (scopeTo c' c.db sch)).2 = .ok ()) (m d : String) :
    udf (reload env (scopeTo c' c.db sch)).1 m = some d ↔ m ≠ n ∧ ∃ f, IsFn c.cat c.db m f ∧ f.details = d := by
  have hcat : c'.cat = (deleteFunctions c.cat c.db ie [n]).1 := by
    obtain ⟨us, ⟨_, _, he⟩ | ⟨e, _, he⟩⟩ := exec_cases env c (.dropFunction [n] ie)
    rotate_left
    · rw [he] at h; simp at h
    rw [he] at h
    simp only [execStmt] at h
    rcases hdf : deleteFunctions c.cat c.db ie [n] with ⟨s, e | _⟩
    · simp [hdf, liftCat] at h
    · simp only [hdf, liftCat, Prod.mk.injEq, and_true] at h
      rw [← h]
  have hw' : WF c'.cat := by
    rw [hcat]
    exact C31_step c.cat hw (.deleteFunctions c.db ie [n])
  rw [C72_fresh env c' hw' c.db sch hr m d, hcat]
  have hdbx : ∃ x, IsDb c.cat c.db x := by
    rcases getDb_cases c.cat c.db with ⟨x, h1, h2⟩ | ⟨h1, h2⟩
    · exact ⟨x, h1⟩
    · exfalso
      have : (reload env c).2 = .error (.cat (.catalogDoesNotExist c.db)) := by simp [reload, listFunctions, h2]
      obtain ⟨us, ⟨hr', _, he⟩ | ⟨e, _, he⟩⟩ := exec_cases env c (.dropFunction [n] ie)
      · rw [hr'] at this; cases this
      · rw [he] at h; simp at h
  obtain ⟨k1, k2⟩ := C37_drop_partial c.cat hw c.db n ie
  by_cases hex : ∃ f, IsFn c.cat c.db n f
  · have := (k1 hex).2
    simp only [this]
    constructor
    · rintro ⟨f, ⟨h1, h2⟩, h3⟩
      exact ⟨fun e => h2 (by rw [e]), f, h1, h3⟩
    · rintro ⟨h1, f, h2, h3⟩
      exact ⟨f, ⟨h2, by simp [h1]⟩, h3⟩
  · have hno : ∀ f, ¬ IsFn c.cat c.db n f := fun f hf => hex ⟨f, hf⟩
    rw [k2 hdbx hno]
    constructor
    · rintro ⟨f, h1, h2⟩
      exact ⟨fun e => hno f (by rw [← e]; exact h1), f, h1, h2⟩
    · rintro ⟨_, h⟩; exact h

/-- `f` is stored with definition `d1`; replacing and dropping it. -/
example : udf (reload exEnv (scopeTo exCtx "default" "public")).1 "f" = some "d1" ∧
    (exec exEnv exCtx (.createFunction "f" true "d9")).2 = .ok () ∧
    udf (reload exEnv (exec exEnv exCtx (.createFunction "f" true "d9")).1).1 "f" = some "d9" ∧
    (exec exEnv exCtx (.createFunction "f" false "d9")).2 = .error (.cat (.functionAlreadyExists "f")) ∧
    (exec exEnv exCtx (.dropFunction ["f"] false)).2 = .ok () ∧
    udf (reload exEnv (scopeTo (exec exEnv exCtx (.dropFunction ["f"] false)).1 "default" "public")).1 "f" = none := by
  decide +kernel

/-- **C72**, violated: the session that dropped a function can still call it in later statements. -/
theorem C72_violated :
    (exec exEnv exCtx (.dropFunction ["f"] false)).2 = .ok () ∧
    udf (reload exEnv (exec exEnv exCtx (.dropFunction ["f"] false)).1).1 "f" = some "d1" := by decide +kernel

/-- … and so it is for every function in every session: after `DROP FUNCTION n` succeeded, the session that
executed it, and every other session of the database that has registered `n`, goes on calling the definition it
knows. -/
theorem C72_violated_always (env : Env) (c c' : Ctx) (hw : WF c.cat) (n : String) (ie : Bool) (f : Fn)
    (hf : IsFn c.cat c.db n f) (h : exec env c (.dropFunction [n] ie) = (c', .ok ())) :
    ((reload env c').2 = .ok () → udf (reload env c').1 n = some f.details) ∧
    (∀ c2 : Ctx, c2.cat = c'.cat → c2.db = c.db → (reload env c2).2 = .ok () →
      udf (reload env c2).1 n = udf c2 n) := by
  obtain ⟨us, ⟨hr, hu, he⟩ | ⟨e, _, he⟩⟩ := exec_cases env c (.dropFunction [n] ie)
  rotate_left
  · rw [he] at h; simp at h
  rw [he] at h
  simp only [execStmt] at h
  obtain ⟨k1, k2⟩ := (C37_drop_partial c.cat hw c.db n ie).1 ⟨f, hf⟩
  have hw' : WF (deleteFunctions c.cat c.db ie [n]).1 := C31_step c.cat hw (.deleteFunctions c.db ie [n])
  rcases hdf : deleteFunctions c.cat c.db ie [n] with ⟨s, e | _⟩
  · simp [hdf, liftCat] at h
  · simp only [hdf, liftCat, Prod.mk.injEq, and_true] at h
    rw [hdf] at hw' k2
    simp only at hw' k2
    have hno : ∀ g, ¬ IsFn s c.db n g := fun g hg => ((k2 c.db n g).1 hg).2 rfl
    have old : udf { c with udfs := us } n = some f.details := by
      rw [← hu]; exact (reload_udf env c hw hr n).1 f hf
    constructor
    · intro hr'
      subst h
      rw [(reload_udf env _ hw' hr' n).2 hno]
      exact old
    · intro c2 hc hdb hr'
      have hc2 : c2.cat = s := by rw [hc, ← h]
      refine (reload_udf env c2 (by rw [hc2]; exact hw') hr' n).2 ?_
      rw [hc2, hdb]; exact hno

end Seafowl.Ddl
