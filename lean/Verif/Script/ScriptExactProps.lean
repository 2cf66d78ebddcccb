import Verif.Script.ScriptProps

/-!
# Scripts on the command line (C95) and portals (C96): when exactly they go wrong
-/

namespace Seafowl.Script

variable {α : Type}

theorem mapM_none {β γ : Type} {f : β → Option γ} {x : β} (hx : f x = none) :
    ∀ {l : List β}, x ∈ l → l.mapM f = none
  | [], h => by cases h
  | y :: l, h => by
    rw [List.mapM_cons]
    rcases List.mem_cons.1 h with rfl | h
    · simp [hx]
    · cases hf : f y with
      | none => rfl
      | some v => simp [mapM_none hx h]

theorem mapM_mem {β γ : Type} {f : β → Option γ} : ∀ {l : List β} {r : List γ}, l.mapM f = some r →
    ∀ {x : β} {y : γ}, x ∈ l → f x = some y → y ∈ r
  | [], r, _, x, y, hx, _ => by cases hx
  | z :: l, r, hr, x, y, hx, hy => by
    rw [List.mapM_cons] at hr
    cases hf : f z with
    | none => simp [hf] at hr
    | some v =>
      cases hl : l.mapM f with
      | none => simp [hf, hl] at hr
      | some r' =>
        have hr' : v :: r' = r := by simpa [hf, hl] using hr
        subst hr'
        rcases List.mem_cons.1 hx with rfl | hx
        · rw [hf] at hy; injection hy with hy; subst hy; simp
        · exact List.mem_cons_of_mem _ (mapM_mem hl hx hy)

/-- A planned query cannot be collected once one of its tables is dropped, if that table has a file. -/
theorem collect_dropped {w w' : World α} (hw : w.WF) {q : Query α} {p : Plan α} {n : String} {t : Tbl}
    (hc : w.capture q = some p) (hn : n ∈ q.tables) (ht : w.names n = some t) (hf : t.files ≠ [])
    (hd : w.doDrop n = some w') : w'.collect p = none := by
  unfold World.capture at hc
  cases hm : q.tables.mapM fun n => (w.names n).map Tbl.files with
  | none => simp [hm] at hc
  | some fs =>
    have hp : { files := fs, eval := q.eval } = p := by simpa [hm] using hc
    subst hp
    have hmem : t.files ∈ fs := mapM_mem hm hn (by simp [ht])
    have hw' : (w.remove fun uuid _ => uuid == t.uuid).setName n none = w' := by simpa [World.doDrop, ht] using hd
    subst hw'
    obtain ⟨i, hi⟩ := List.exists_mem_of_ne_nil _ hf
    obtain ⟨rows, hs⟩ := hw.files n t i ht hi
    have h1 : (((w.remove fun uuid _ => uuid == t.uuid).setName n none).store i).map Prod.snd = none := by
      simp [World.setName, World.remove, hs]
    have h2 : ((w.remove fun uuid _ => uuid == t.uuid).setName n none).scan t.files = none := by
      have := mapM_none (f := fun i => (((w.remove fun uuid _ => uuid == t.uuid).setName n none).store i).map Prod.snd) h1 hi
      simp only [World.scan, this, Option.map_none]
    simp only [World.collect, mapM_none h2 hmem, Option.bind_none]

/-- **C95 does not hold** on the command line: whatever the database, a query followed by a DROP TABLE of one of its tables
(that is not empty) shows an error and no rows. -/
theorem C95_violated_drop (w : World α) (hw : w.WF) (q : Query α) (n : String) (t : Tbl) (hn : n ∈ q.tables)
    (ht : w.names n = some t) (hf : t.files ≠ []) (rows : List α) (hq : q.on w.db = some rows) :
    (cli w [.read q, .drop n]).out = [] ∧ (cli w [.read q, .drop n]).ok = false ∧
    (Script w.db [.read q, .drop n]).out = [rows, []] ∧ (Script w.db [.read q, .drop n]).ok = true := by
  cases hc : w.capture q with
  | none => rw [on_none_of_capture hc] at hq; cases hq
  | some p =>
    have hd : w.doDrop n = some ((w.remove fun uuid _ => uuid == t.uuid).setName n none) := by simp [World.doDrop, ht]
    have hcol := collect_dropped hw hc hn ht hf hd
    have hsome : (w.db n).isSome = true := by rw [db_isSome hw, ht]; rfl
    refine ⟨?_, ?_, ?_, ?_⟩
    · simp [cli, planAll, World.plan, hc, hd, collectAll, hcol]
    · simp [cli, planAll, World.plan, hc, hd, collectAll, hcol]
    · simp [Script, Means, hq, hsome]
    · simp [Script, Means, hq, hsome]

/-- … whatever the database, an error in planning a later statement takes the output of all statements before it. -/
theorem C95_violated_output (w : World α) (hw : w.WF) (qs : List (Query α)) (outs : List (List α)) (s : Stmt α)
    (hq : qs.mapM (fun q => q.on w.db) = some outs) (hs : w.plan s = none) :
    (cli w (qs.map .read ++ [s])).out = [] ∧ (Script w.db (qs.map .read ++ [s])).out = outs := by
  have hm := (plan_means hw s).1 hs
  constructor
  · have : (planAll w (qs.map .read ++ [s])).2 = none := by
      clear hq
      induction qs with
      | nil => simp [planAll, hs]
      | cons q qs ih =>
        simp only [List.map_cons, List.cons_append, planAll, World.plan]
        cases w.capture q with
        | none => rfl
        | some p => simp [ih]
    unfold cli
    split
    · rfl
    · next w' ps heq => rw [heq] at this; cases this
  · clear hs
    induction qs generalizing outs with
    | nil =>
      have : outs = [] := by simpa using hq.symm
      subst this
      simp [Script, hm]
    | cons q qs ih =>
      rw [List.mapM_cons] at hq
      cases h1 : q.on w.db with
      | none => simp [h1] at hq
      | some r =>
        cases h2 : qs.mapM (fun q => q.on w.db) with
        | none => simp [h1, h2] at hq
        | some rs =>
          have : r :: rs = outs := by simpa [h1, h2] using hq
          subst this
          simp only [List.map_cons, List.cons_append, Script, Means, h1, Option.map_some, ih rs h2]

/-- … whatever the database, a change after a query that fails at run time is made. -/
theorem C95_violated_goes_on (w : World α) (hw : w.WF) (q : Query α) (p : Plan α) (s : Stmt α) (db' : Db α) (out : List α)
    (hc : w.capture q = some p) (hq : q.on w.db = none) (hs : s.isRead = false) (hm : Means w.db s = some (db', out)) :
    (cli w [.read q, s]).world.db = db' ∧ (Script w.db [.read q, s]).world = w.db := by
  have hp := plan_means hw s
  cases h : w.plan s with
  | none => rw [hp.1 h] at hm; cases hm
  | some r =>
    obtain ⟨w', p'⟩ := r
    obtain ⟨_, hm', hd, _⟩ := hp.2 w' p' h
    rw [hd hs, collect_dummy, hm] at hm'
    simp only [Option.map_some, Option.some.injEq, Prod.mk.injEq] at hm'
    constructor
    · have hr : w.plan (.read q) = some (w, p) := by simp [World.plan, hc]
      have : (planAll w [.read q, s]) = (w', some [p, p']) := by simp [planAll, hr, h]
      rw [cli, this]
      exact hm'.1.symm
    · simp [Script, Means, hq]

/-- **C96 does not hold** for queries, whatever the session: the portal of a query shows the rows that were there when it
was bound, whatever statements other than DROP TABLE and VACUUM are executed in between. -/
theorem C96_violated_stale (S : Session α) (hw : S.world.WF) (portal name : String) (q : Query α) (rows : List α)
    (hn : S.prepared name = some (.read q)) (hq : q.on S.world.db = some rows) (ss : List (Stmt α))
    (hs : ∀ s ∈ ss, s.removes = false) :
    ((((S.step (.bind portal name)).1.run (ss.map .query)).1).step (.execute portal)).2 = .rows rows := by
  cases hc : S.world.capture q with
  | none => rw [on_none_of_capture hc] at hq; cases hq
  | some p =>
    have h1 : S.step (.bind portal name) =
        ({ S with portals := fun n => if n = portal then some p else S.portals n }, .done) := by
      simp only [Session.step, hn, World.plan, hc, Option.map_some]
    have hcol : S.world.collect p = some rows := by rw [collect_of_capture hc]; exact hq
    rw [h1]
    have key : ∀ (ss : List (Stmt α)) (T : Session α), T.world.WF → T.portals portal = some p →
        T.world.collect p = some rows → (∀ s ∈ ss, s.removes = false) →
        ((T.run (ss.map .query)).1.step (.execute portal)).2 = .rows rows := by
      intro ss
      induction ss with
      | nil =>
        intro T _ hp hcol _
        simp [Session.run, Session.step, hp, hcol]
      | cons s ss ih =>
        intro T hw hp hcol hs
        simp only [List.map_cons, Session.run]
        refine ih _ ?_ ?_ ?_ (fun x hx => hs x (List.mem_cons_of_mem _ hx))
        · exact (simple_executes T.world hw s).1
        · exact hp
        · simp only [Session.step, simpleQuery]
          split
          · cases h : T.world.plan s with
            | none => exact hcol
            | some r =>
              obtain ⟨w', p'⟩ := r
              have := collect_stable (plan_store hw h (hs s (by simp))) hcol
              cases hc2 : w'.collect p' <;> simp [hc2, this]
          · exact hcol
    exact key ss _ hw (by simp) hcol hs

/-- … and it fails if one of its tables (that is not empty) is dropped in between. -/
theorem C96_violated_gone (S : Session α) (hw : S.world.WF) (portal name : String) (q : Query α) (p : Plan α) (n : String)
    (t : Tbl) (hp : S.prepared name = some (.read q)) (hc : S.world.capture q = some p) (hn : n ∈ q.tables)
    (ht : S.world.names n = some t) (hf : t.files ≠ []) :
    (S.run [.bind portal name, .query (.drop n), .execute portal]).2 = [.done, .rows [], .error] := by
  have hd : S.world.doDrop n = some ((S.world.remove fun uuid _ => uuid == t.uuid).setName n none) := by
    simp [World.doDrop, ht]
  have hcol := collect_dropped hw hc hn ht hf hd
  simp [Session.run, Session.step, hp, World.plan, hc, simpleQuery, World.logicalOk, hd, collect_dummy, hcol]

/-- The hypotheses hold for a query of two tables, one of which is dropped. -/
example : w0.WF ∧ (⟨["t", "u"], fun l => some l.flatten⟩ : Query Nat).on w0.db = some [1, 2, 3] ∧ w0.names "u" = some ⟨1, [1]⟩ ∧
    w0.plan (.drop "missing") = none ∧
    (w0.capture ⟨["t"], fun _ => none⟩).isSome = true ∧ (⟨["t"], fun _ => none⟩ : Query Nat).on w0.db = none :=
  ⟨w0_wf, by decide, by decide, by rfl, by decide, by decide⟩

end Seafowl.Script
