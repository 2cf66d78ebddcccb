import Verif.Catalog.GcProps

/-!
# C38: exactly what a run does to a dropped table

`GcProps.lean` shows the faults of the retry logic on single runs.  Here: the outcome for every dropped table of every
run, and from it that the faults always show.
-/

namespace Seafowl.Gc

set_option linter.unusedSimpArgs false

/-- `p` is an object of the table with this UUID. -/
def ObjOf (base : Path) (uuid : String) (p : Path) : Prop := ∃ rest, rest ≠ [] ∧ p = base ++ uuid :: rest

/-- The run works on `d`: the list of dropped tables was fetched, `d` is of the database and not given up. -/
def Worked (env : Env) (db : Option String) (d : Dropped) : Prop :=
  env.fetchErr = false ∧ d.status ≠ .failed ∧ ∀ n, db = some n → d.db = n

theorem below_iff (base : Path) (u : String) (p : Path) : below (tablePrefix base u) p = true ↔ ObjOf base u p := by
  simp only [below, tablePrefix, ObjOf, Bool.and_eq_true, List.isPrefixOf_iff_prefix, bne_iff_ne, ne_eq]
  constructor
  · rintro ⟨⟨rest, hr⟩, hne⟩
    refine ⟨rest, ?_, by rw [← hr]; simp⟩
    rintro rfl
    exact hne (by rw [← hr]; simp)
  · rintro ⟨rest, hr, rfl⟩
    refine ⟨⟨rest, by simp⟩, ?_⟩
    intro e
    have := congrArg List.length e
    simp at this
    exact hr this

theorem objOf_unique (base : Path) (u v : String) (p : Path) (hu : ObjOf base u p) (hv : ObjOf base v p) : u = v := by
  obtain ⟨r1, _, e1⟩ := hu
  obtain ⟨r2, _, e2⟩ := hv
  rw [e1] at e2
  have := List.append_cancel_left e2
  injection this

theorem worked_iff (env : Env) (db : Option String) (s : State) (d : Dropped) :
    d ∈ selected env db s ↔ d ∈ s.dropped ∧ Worked env db d := by
  cases hf : env.fetchErr with
  | true => simp [selected, hf, Worked]
  | false =>
    simp only [selected, hf, Bool.false_eq_true, if_false, List.mem_filter, bne_iff_ne, ne_eq, Worked, true_and]
    cases db with
    | none => simp
    | some n =>
      simp only [Option.all_some, beq_iff_eq, Option.some.injEq, forall_eq']
      constructor
      · rintro ⟨⟨h1, h2⟩, h3⟩; exact ⟨h1, h3, h2.symm⟩
      · rintro ⟨h1, h2, h3⟩; exact ⟨⟨h1, h3.symm⟩, h2⟩

/-! ### one deletion -/

theorem deleteLoop_fails (env : Env) (ps objs : List Path) :
    (deleteLoop env ps objs).2 = false ↔ ∃ p ∈ ps, env.listErr p = false ∧ env.delErr p = true := by
  induction ps generalizing objs with
  | nil => simp [deleteLoop]
  | cons q ps ih =>
    simp only [deleteLoop, List.mem_cons, exists_eq_or_imp]
    cases hl : env.listErr q with
    | true => simp [ih]
    | false =>
      cases hd : env.delErr q with
      | true => simp
      | false => simp [ih]

theorem deleteLoop_left (env : Env) (ps objs : List Path) (hok : (deleteLoop env ps objs).2 = true) (p : Path) (hp : p ∈ ps) :
    p ∈ (deleteLoop env ps objs).1 → env.listErr p = true := by
  induction ps generalizing objs with
  | nil => simp at hp
  | cons q ps ih =>
    simp only [deleteLoop] at hok ⊢
    cases hl : env.listErr q with
    | true =>
      simp only [hl, if_true] at hok ⊢
      intro hin
      rcases List.mem_cons.1 hp with rfl | hp
      · exact hl
      · exact ih objs hok hp hin
    | false =>
      simp only [hl, Bool.false_eq_true, if_false] at hok ⊢
      cases hd : env.delErr q with
      | true => simp [hd] at hok
      | false =>
        simp only [hd, Bool.false_eq_true, if_false] at hok ⊢
        intro hin
        rcases List.mem_cons.1 hp with rfl | hp
        · have := (List.mem_filter.1 (deleteLoop_sub env ps _ _ hin)).2
          simp at this
        · exact ih _ hok hp hin

theorem deleteLoop_unlisted (env : Env) (ps objs : List Path) (p : Path) (hp : p ∈ objs) (hl : env.listErr p = true) :
    p ∈ (deleteLoop env ps objs).1 := by
  induction ps generalizing objs with
  | nil => exact hp
  | cons q ps ih =>
    simp only [deleteLoop]
    cases hq : env.listErr q with
    | true => simp only [if_true]; exact ih objs hp
    | false =>
      simp only [Bool.false_eq_true, if_false]
      split
      · exact hp
      · refine ih _ (List.mem_filter.2 ⟨hp, ?_⟩)
        simp only [bne_iff_ne, ne_eq]
        rintro rfl
        rw [hl] at hq
        simp at hq

theorem deleteLoop_undeletable (env : Env) (ps objs : List Path) (p : Path) (hp : p ∈ objs) (hl : env.delErr p = true) :
    p ∈ (deleteLoop env ps objs).1 := by
  induction ps generalizing objs with
  | nil => exact hp
  | cons q ps ih =>
    simp only [deleteLoop]
    split
    · exact ih objs hp
    · cases hq : env.delErr q with
      | true => simp only [if_true]; exact hp
      | false =>
        simp only [Bool.false_eq_true, if_false]
        refine ih _ (List.mem_filter.2 ⟨hp, ?_⟩)
        simp only [bne_iff_ne, ne_eq]
        rintro rfl
        rw [hl] at hq
        simp at hq

/-! ### a whole run -/

/-- Objects of other tables are not touched by the steps. -/
theorem foldl_same_objs (env : Env) (base : Path) (ds : List Dropped) (s : State) (u : String) (hno : ∀ d ∈ ds, d.uuid ≠ u)
    (p : Path) (hp : ObjOf base u p) : p ∈ (ds.foldl (gcStep env base) s).objs ↔ p ∈ s.objs := by
  refine ⟨foldl_objs_sub env base ds s p, fun hin => foldl_objs_keep env base ds s p hin ?_⟩
  intro d hd
  cases hb : below (tablePrefix base d.uuid) p with
  | false => rfl
  | true => exact absurd (objOf_unique base _ _ p ((below_iff base d.uuid p).1 hb) hp) (hno d hd)

/-- Rows of other tables neither go nor change. -/
theorem foldl_other_rows (env : Env) (base : Path) (ds : List Dropped) (s : State) (u : String) (hno : ∀ d ∈ ds, d.uuid ≠ u)
    (x : Dropped) (hx : x.uuid = u) : x ∈ (ds.foldl (gcStep env base) s).dropped ↔ x ∈ s.dropped := by
  induction ds generalizing s with
  | nil => exact Iff.rfl
  | cons e ds ih =>
    have he := hno e List.mem_cons_self
    simp only [List.foldl_cons]
    rw [ih _ (fun d hd => hno d (List.mem_cons_of_mem _ hd))]
    simp only [gcStep]
    split
    · exact Iff.rfl
    · split
      · simp only [List.mem_filter, bne_iff_ne, ne_eq, and_iff_left_iff_imp]
        intro _ e2
        exact he (e2.symm.trans hx)
      · simp only [List.mem_map]
        constructor
        · rintro ⟨y, hy, e2⟩
          by_cases hc : y.uuid = e.uuid
          · rw [if_pos hc] at e2
            exact absurd ((show x.uuid = y.uuid by rw [← e2]).symm.trans hx |>.symm.trans hc |>.symm) he
          · rw [if_neg hc] at e2
            rw [← e2]; exact hy
        · intro hxs
          exact ⟨x, hxs, if_neg (fun e2 => he (e2.symm.trans hx))⟩

theorem nodup_split (ds : List Dropped) (hn : (ds.map (·.uuid)).Nodup) (d : Dropped) (hd : d ∈ ds) :
    ∃ a b, ds = a ++ d :: b ∧ (∀ x ∈ a, x.uuid ≠ d.uuid) ∧ ∀ x ∈ b, x.uuid ≠ d.uuid := by
  obtain ⟨a, b, rfl⟩ := List.append_of_mem hd
  refine ⟨a, b, rfl, ?_, ?_⟩
  · intro x hx e
    rw [List.map_append, List.nodup_append] at hn
    exact hn.2.2 x.uuid (List.mem_map_of_mem hx) d.uuid (by simp) e
  · intro x hx e
    rw [List.map_append, List.nodup_append] at hn
    have := hn.2.1
    simp only [List.map_cons, List.nodup_cons, List.mem_map] at this
    exact this.1 ⟨x, hx, e⟩

theorem selected_nodup (env : Env) (db : Option String) (s : State) (hn : (s.dropped.map (·.uuid)).Nodup) :
    ((selected env db s).map (·.uuid)).Nodup := by
  simp only [selected]
  split
  · simp
  · exact hn.sublist (((List.filter_sublist).trans List.filter_sublist).map _)

theorem row_unique (l : List Dropped) (hn : (l.map (·.uuid)).Nodup) (x y : Dropped) (hx : x ∈ l) (hy : y ∈ l)
    (e : x.uuid = y.uuid) : x = y := by
  obtain ⟨a, b, rfl, h1, h2⟩ := nodup_split l hn y hy
  rcases List.mem_append.1 hx with hx | hx
  · exact absurd e (h1 x hx)
  · rcases List.mem_cons.1 hx with rfl | hx
    · rfl
    · exact absurd e (h2 x hx)

/-- A run changes a dropped table `d` it works on in exactly one way. -/
theorem gc_row (env : Env) (base : Path) (db : Option String) (s : State) (hn : (s.dropped.map (·.uuid)).Nodup)
    (d : Dropped) (hd : d ∈ s.dropped) (hw : Worked env db d) :
    (∀ x, x.uuid = d.uuid → (x ∈ (gc env base db s).dropped ↔
      if env.catErr d.uuid = true then x = d
      else if (deleteInPrefix env s.objs (tablePrefix base d.uuid)).2 = true then False
      else x = { d with status := afterFailure d.status })) := by
  obtain ⟨a, b, hab, ha, hb⟩ := nodup_split _ (selected_nodup env db s hn) d ((worked_iff env db s d).2 ⟨hd, hw⟩)
  intro x hx
  have hgc : gc env base db s = (b.foldl (gcStep env base) (gcStep env base (a.foldl (gcStep env base) s) d)) := by
    simp only [gc, hab, List.foldl_append, List.foldl_cons]
  rw [hgc, foldl_other_rows env base b _ d.uuid hb x hx]
  have hrow : ∀ y, y.uuid = d.uuid → (y ∈ (a.foldl (gcStep env base) s).dropped ↔ y = d) := by
    intro y hy
    rw [foldl_other_rows env base a s d.uuid ha y hy]
    exact ⟨fun h => row_unique _ hn y d h hd hy, fun h => h ▸ hd⟩
  have hobjs : (deleteInPrefix env (a.foldl (gcStep env base) s).objs (tablePrefix base d.uuid)).2 =
      (deleteInPrefix env s.objs (tablePrefix base d.uuid)).2 := by
    have key : (deleteInPrefix env (a.foldl (gcStep env base) s).objs (tablePrefix base d.uuid)).2 = false ↔
        (deleteInPrefix env s.objs (tablePrefix base d.uuid)).2 = false := by
      simp only [deleteInPrefix, deleteLoop_fails, List.mem_filter, below_iff]
      constructor
      · rintro ⟨p, ⟨h1, h2⟩, h3⟩
        exact ⟨p, ⟨(foldl_same_objs env base a s d.uuid ha p h2).1 h1, h2⟩, h3⟩
      · rintro ⟨p, ⟨h1, h2⟩, h3⟩
        exact ⟨p, ⟨(foldl_same_objs env base a s d.uuid ha p h2).2 h1, h2⟩, h3⟩
    cases h1 : (deleteInPrefix env (a.foldl (gcStep env base) s).objs (tablePrefix base d.uuid)).2 <;>
      cases h2 : (deleteInPrefix env s.objs (tablePrefix base d.uuid)).2 <;> simp [h1, h2] at key ⊢
  simp only [gcStep, hobjs]
  by_cases hc : env.catErr d.uuid = true
  · simp only [if_pos hc]
    exact hrow x hx
  · simp only [if_neg hc]
    by_cases hok : (deleteInPrefix env s.objs (tablePrefix base d.uuid)).2 = true
    · simp only [if_pos hok, List.mem_filter, bne_iff_ne, ne_eq, iff_false]
      rintro ⟨_, h2⟩
      exact h2 hx
    · simp only [if_neg hok, List.mem_map]
      constructor
      · rintro ⟨y, hy, e⟩
        by_cases hyd : y.uuid = d.uuid
        · rw [if_pos hyd] at e
          rw [(hrow y hyd).1 hy] at e
          exact e.symm
        · rw [if_neg hyd] at e
          rw [e] at hyd
          exact absurd hx hyd
      · rintro rfl
        exact ⟨d, (hrow d rfl).2 rfl, if_pos rfl⟩

theorem gc_objs (env : Env) (base : Path) (db : Option String) (s : State) (hn : (s.dropped.map (·.uuid)).Nodup)
    (d : Dropped) (hd : d ∈ s.dropped) (hw : Worked env db d) (p : Path) (hp : ObjOf base d.uuid p) :
    ∃ objs, (∀ q, ObjOf base d.uuid q → (q ∈ objs ↔ q ∈ s.objs)) ∧
      (p ∈ (gc env base db s).objs ↔ p ∈ (deleteInPrefix env objs (tablePrefix base d.uuid)).1) := by
  obtain ⟨a, b, hab, ha, hb⟩ := nodup_split _ (selected_nodup env db s hn) d ((worked_iff env db s d).2 ⟨hd, hw⟩)
  refine ⟨(a.foldl (gcStep env base) s).objs, fun q hq => foldl_same_objs env base a s d.uuid ha q hq, ?_⟩
  have hgc : gc env base db s = (b.foldl (gcStep env base) (gcStep env base (a.foldl (gcStep env base) s) d)) := by
    simp only [gc, hab, List.foldl_append, List.foldl_cons]
  rw [hgc, foldl_same_objs env base b _ d.uuid hb p hp]
  rfl

/-- **C38**: exactly what a run does to a dropped table it works on (`hn`: UUIDs are unique).  If an object of the table
that is listed cannot be deleted, the table stays and is marked `failed` when it was `pending`, and `retry` when it
was `retry`; the object stays.  Otherwise the table is forgotten, and exactly those of its objects are left that the
listing reported as errors.  If the catalog cannot be updated the table stays as it was. -/
theorem C38_exact (env : Env) (base : Path) (db : Option String) (s : State) (hn : (s.dropped.map (·.uuid)).Nodup)
    (d : Dropped) (hd : d ∈ s.dropped) (hw : Worked env db d) :
    (env.catErr d.uuid = true → d ∈ (gc env base db s).dropped) ∧
    (env.catErr d.uuid = false → ∀ p ∈ s.objs, ObjOf base d.uuid p → env.listErr p = false → env.delErr p = true →
      { d with status := if d.status = .pending then .failed else .retry } ∈ (gc env base db s).dropped ∧
      p ∈ (gc env base db s).objs) ∧
    (env.catErr d.uuid = false → (∀ p ∈ s.objs, ObjOf base d.uuid p → env.listErr p = false → env.delErr p = false) →
      (∀ x ∈ (gc env base db s).dropped, x.uuid ≠ d.uuid) ∧
      ∀ p, ObjOf base d.uuid p → (p ∈ (gc env base db s).objs ↔ p ∈ s.objs ∧ env.listErr p = true)) := by
  have hrow := gc_row env base db s hn d hd hw
  refine ⟨?_, ?_, ?_⟩
  · intro hc
    rw [hrow d rfl, if_pos hc]
  · intro hc p hp hpo hl hde
    have hfail : (deleteInPrefix env s.objs (tablePrefix base d.uuid)).2 = false := by
      simp only [deleteInPrefix, deleteLoop_fails, List.mem_filter, below_iff]
      exact ⟨p, ⟨hp, hpo⟩, hl, hde⟩
    constructor
    · refine (hrow { d with status := if d.status = .pending then .failed else .retry } rfl).2 ?_
      rw [if_neg (by simp [hc]), if_neg (by simp [hfail])]
      cases hs : d.status <;> simp [afterFailure]
    · obtain ⟨objs, h1, h2⟩ := gc_objs env base db s hn d hd hw p hpo
      rw [h2]
      exact deleteLoop_undeletable env _ _ p ((h1 p hpo).2 hp) hde
  · intro hc hall
    have hok : ∀ objs : List Path, (∀ q, ObjOf base d.uuid q → (q ∈ objs ↔ q ∈ s.objs)) →
        (deleteInPrefix env objs (tablePrefix base d.uuid)).2 = true := by
      intro objs hobjs
      cases hf : (deleteInPrefix env objs (tablePrefix base d.uuid)).2 with
      | true => rfl
      | false =>
        simp only [deleteInPrefix, deleteLoop_fails, List.mem_filter, below_iff] at hf
        obtain ⟨p, ⟨hp, hpo⟩, hl, hde⟩ := hf
        rw [hall p ((hobjs p hpo).1 hp) hpo hl] at hde
        simp at hde
    constructor
    · intro x hx e
      rw [hrow x e, if_neg (by simp [hc]), if_pos (hok s.objs (fun _ _ => Iff.rfl))] at hx
      exact hx
    · intro p hpo
      obtain ⟨objs, h1, h2⟩ := gc_objs env base db s hn d hd hw p hpo
      rw [h2]
      constructor
      · intro hin
        have hin' : p ∈ objs := deleteLoop_sub env _ _ p hin
        exact ⟨(h1 p hpo).1 hin', deleteLoop_left env _ _ (hok objs h1) p
          (List.mem_filter.2 ⟨hin', (below_iff base d.uuid p).2 hpo⟩) hin⟩
      · rintro ⟨hin, hl⟩
        exact deleteLoop_unlisted env _ _ p ((h1 p hpo).2 hin) hl

/-! ### several runs -/

theorem gcStep_nodup (env : Env) (base : Path) (s : State) (d : Dropped) (hn : (s.dropped.map (·.uuid)).Nodup) :
    ((gcStep env base s d).dropped.map (·.uuid)).Nodup := by
  simp only [gcStep]
  split
  · exact hn
  · split
    · exact hn.sublist (List.filter_sublist.map _)
    · rw [List.map_map]
      have : ((fun x : Dropped => x.uuid) ∘ fun x => if x.uuid = d.uuid then { x with status := afterFailure d.status } else x) =
          fun x => x.uuid := by
        funext x
        simp only [Function.comp]
        split <;> rfl
      rw [this]
      exact hn

theorem gc_nodup (env : Env) (base : Path) (db : Option String) (s : State) (hn : (s.dropped.map (·.uuid)).Nodup) :
    ((gc env base db s).dropped.map (·.uuid)).Nodup := by
  have : ∀ (ds : List Dropped) (s : State), (s.dropped.map (·.uuid)).Nodup →
      ((ds.foldl (gcStep env base) s).dropped.map (·.uuid)).Nodup := by
    intro ds
    induction ds with
    | nil => intro s h; exact h
    | cons d ds ih => intro s h; exact ih _ (gcStep_nodup env base s d h)
  exact this _ s hn

theorem failed_runs (base : Path) (rs : List (Env × Option String)) (s : State) (hn : (s.dropped.map (·.uuid)).Nodup)
    (d : Dropped) (hd : d ∈ s.dropped) (hf : d.status = .failed) (p : Path) (hp : p ∈ s.objs) (hpo : ObjOf base d.uuid p) :
    d ∈ (gcRuns base rs s).dropped ∧ p ∈ (gcRuns base rs s).objs := by
  induction rs generalizing s with
  | nil => exact ⟨hd, hp⟩
  | cons r rs ih =>
    obtain ⟨env, db⟩ := r
    have huniq : ∀ x ∈ s.dropped, x.uuid = d.uuid → x = d := fun x hx e => row_unique _ hn x d hx hd e
    refine ih _ (gc_nodup env base db s hn) (C38_failed_kept env base db s d hd hf huniq) ?_
    refine Classical.byContradiction fun hgone => ?_
    obtain ⟨x, hx, hxs, _, rest, hr, hpr⟩ := C38_only_dropped env base db s p hp hgone
    have := huniq x hx (objOf_unique base _ _ p ⟨rest, hr, hpr⟩ hpo)
    subst this
    exact hxs hf

/-- **C38 does not hold** for any dropped table whose first deletion fails: it is given up at once, and whatever runs
follow, even ones without any failure, the object that could not be deleted is never deleted. -/
theorem C38_never_retried (env : Env) (base : Path) (db : Option String) (s : State) (hn : (s.dropped.map (·.uuid)).Nodup)
    (d : Dropped) (hd : d ∈ s.dropped) (hp : d.status = .pending) (hf : env.fetchErr = false) (hdb : ∀ n, db = some n → d.db = n)
    (hc : env.catErr d.uuid = false) (p : Path) (hin : p ∈ s.objs) (hpo : ObjOf base d.uuid p) (hl : env.listErr p = false)
    (hde : env.delErr p = true) (rs : List (Env × Option String)) :
    { d with status := .failed } ∈ (gcRuns base ((env, db) :: rs) s).dropped ∧ p ∈ (gcRuns base ((env, db) :: rs) s).objs := by
  have hw : Worked env db d := ⟨hf, by simp [hp], hdb⟩
  obtain ⟨h1, h2⟩ := (C38_exact env base db s hn d hd hw).2.1 hc p hin hpo hl hde
  rw [hp] at h1
  simp only [if_true] at h1
  exact failed_runs base rs (gc env base db s) (gc_nodup env base db s hn) { d with status := .failed } h1 rfl p h2 hpo

/-- **C38 does not hold** for any dropped table in status `retry`: it is never given up, however often deleting one of
its objects fails. -/
theorem C38_retried_forever (base : Path) (rs : List (Env × Option String)) (s : State) (hn : (s.dropped.map (·.uuid)).Nodup)
    (d : Dropped) (hd : d ∈ s.dropped) (hr : d.status = .retry) (p : Path) (hin : p ∈ s.objs) (hpo : ObjOf base d.uuid p)
    (hfail : ∀ r ∈ rs, r.1.listErr p = false ∧ r.1.delErr p = true) :
    d ∈ (gcRuns base rs s).dropped := by
  induction rs generalizing s with
  | nil => exact hd
  | cons r rs ih =>
    obtain ⟨env, db⟩ := r
    obtain ⟨hl, hde⟩ := hfail _ List.mem_cons_self
    simp only at hl hde
    have hgoal : d ∈ (gc env base db s).dropped ∧ p ∈ (gc env base db s).objs := by
      by_cases hw : Worked env db d
      · have hx := C38_exact env base db s hn d hd hw
        have hpin : p ∈ (gc env base db s).objs := by
          obtain ⟨objs, h1, h2⟩ := gc_objs env base db s hn d hd hw p hpo
          rw [h2]
          exact deleteLoop_undeletable env _ _ p ((h1 p hpo).2 hin) hde
        cases hc : env.catErr d.uuid with
        | true => exact ⟨hx.1 hc, hpin⟩
        | false =>
          have h1 := (hx.2.1 hc p hin hpo hl hde).1
          rw [hr] at h1
          simp only [reduceCtorEq, if_false] at h1
          rw [← hr] at h1
          exact ⟨h1, hpin⟩
      · have hno : ∀ e ∈ selected env db s, e.uuid ≠ d.uuid := by
          intro e he heq
          obtain ⟨h1, h2⟩ := (worked_iff env db s e).1 he
          rw [row_unique _ hn e d h1 hd heq] at h2
          exact hw h2
        exact ⟨foldl_untouched env base _ s d hd hno, (foldl_same_objs env base _ s d.uuid hno p hpo).2 hin⟩
    exact ih _ (gc_nodup env base db s hn) hgoal.1 hgoal.2 (fun r hr => hfail r (List.mem_cons_of_mem _ hr))

/-- Cases: the three tables of `exState`; the first is given up at its first failure, and the second tried for ever. -/
example : (exState.dropped.map (·.uuid)).Nodup ∧ Worked (exDelErr "u1") (some "default") ⟨"default", "u1", .pending⟩ ∧
    ObjOf ["data"] "u1" ["data", "u1", "a.parquet"] ∧ (exDelErr "u1").delErr ["data", "u1", "a.parquet"] = true := by
  refine ⟨by decide +kernel, ⟨rfl, by simp, by simp⟩, ⟨["a.parquet"], by simp, by simp⟩, by decide +kernel⟩

example : ObjOf ["data"] "u2" ["data", "u2", "b.parquet"] ∧ (exDelErr "u2").delErr ["data", "u2", "b.parquet"] = true ∧
    (exDelErr "u2").listErr ["data", "u2", "b.parquet"] = false := by
  refine ⟨⟨["b.parquet"], by simp, by simp⟩, by decide +kernel, rfl⟩

theorem gcStep_uuids (env : Env) (base : Path) (s : State) (d x : Dropped) (hx : x ∈ (gcStep env base s d).dropped) :
    ∃ y ∈ s.dropped, y.uuid = x.uuid := by
  simp only [gcStep] at hx
  split at hx
  · exact ⟨x, hx, rfl⟩
  · split at hx
    · exact ⟨x, (List.mem_filter.1 hx).1, rfl⟩
    · obtain ⟨y, h1, rfl⟩ := List.mem_map.1 hx
      refine ⟨y, h1, ?_⟩
      split <;> rfl

theorem gc_uuids (env : Env) (base : Path) (db : Option String) (s : State) (x : Dropped) (hx : x ∈ (gc env base db s).dropped) :
    ∃ y ∈ s.dropped, y.uuid = x.uuid := by
  have : ∀ (ds : List Dropped) (s : State), x ∈ (ds.foldl (gcStep env base) s).dropped → ∃ y ∈ s.dropped, y.uuid = x.uuid := by
    intro ds
    induction ds with
    | nil => intro s h; exact ⟨x, h, rfl⟩
    | cons d ds ih =>
      intro s h
      obtain ⟨y, h1, h2⟩ := ih _ h
      obtain ⟨z, h3, h4⟩ := gcStep_uuids env base s d y h1
      exact ⟨z, h3, h4.trans h2⟩
  exact this _ _ hx

/-- **C143 (garbage collection)**: no run deletes anything from the directory of a table that is not listed in `dropped_table`.  No
statement of this version enters a table there (/repo/src/repository/default.rs 515-523 deletes the entry of the table and no more),
so what a DROP TABLE leaves behind stays. -/
theorem C143_gc (base : Path) (rs : List (Env × Option String)) (s : State) (u : String) (hu : ∀ d ∈ s.dropped, d.uuid ≠ u)
    (p : Path) (hp : ObjOf base u p) : p ∈ (gcRuns base rs s).objs ↔ p ∈ s.objs := by
  induction rs generalizing s with
  | nil => exact Iff.rfl
  | cons r rs ih =>
    obtain ⟨env, db⟩ := r
    have h1 : ∀ d ∈ (gc env base db s).dropped, d.uuid ≠ u := by
      intro d hd he
      obtain ⟨y, h2, h3⟩ := gc_uuids env base db s d hd
      exact hu y h2 (h3.trans he)
    refine (ih (gc env base db s) h1).trans ?_
    refine foldl_same_objs env base _ s u (fun e he => ?_) p hp
    exact hu e ((worked_iff env db s e).1 he).1

example : (∀ d ∈ exState.dropped, d.uuid ≠ "u9") ∧ ObjOf ["data"] "u9" ["data", "u9", "a.parquet"] := by
  refine ⟨by decide +kernel, ["a.parquet"], by simp, by simp⟩

end Seafowl.Gc
