import Verif.Catalog.Gc

/-!
# C38: garbage collection of dropped tables
-/

namespace Seafowl.Gc

set_option linter.unusedSimpArgs false

/-! ### lemmas -/

theorem deleteLoop_sub (env : Env) (ps objs : List Path) : ∀ p ∈ (deleteLoop env ps objs).1, p ∈ objs := by
  induction ps generalizing objs with
  | nil => intro p hp; exact hp
  | cons q ps ih =>
    intro p hp
    simp only [deleteLoop] at hp
    split at hp
    · exact ih objs p hp
    · split at hp
      · exact hp
      · exact (List.mem_filter.1 (ih _ p hp)).1

theorem deleteLoop_keeps (env : Env) (ps objs : List Path) (p : Path) (hp : p ∈ objs) (hno : p ∉ ps) :
    p ∈ (deleteLoop env ps objs).1 := by
  induction ps generalizing objs with
  | nil => exact hp
  | cons q ps ih =>
    have h1 : p ≠ q := fun e => hno (by rw [e]; exact List.mem_cons_self)
    have h2 : p ∉ ps := fun e => hno (List.mem_cons_of_mem _ e)
    simp only [deleteLoop]
    split
    · exact ih objs hp h2
    · split
      · exact hp
      · exact ih _ (List.mem_filter.2 ⟨hp, by simp [h1]⟩) h2

theorem deleteLoop_done (env : Env) (hl : ∀ p, env.listErr p = false) (ps objs : List Path)
    (hok : (deleteLoop env ps objs).2 = true) : ∀ p ∈ (deleteLoop env ps objs).1, p ∉ ps := by
  induction ps generalizing objs with
  | nil => intro p _; simp
  | cons q ps ih =>
    simp only [deleteLoop, hl, Bool.false_eq_true, if_false] at hok ⊢
    by_cases hd : env.delErr q = true
    · rw [if_pos hd] at hok; simp at hok
    · rw [if_neg hd] at hok ⊢
      intro p hp hm
      rcases List.mem_cons.1 hm with rfl | hm
      · have := (List.mem_filter.1 (deleteLoop_sub env ps _ _ hp)).2
        simp at this
      · exact ih _ hok p hp hm

theorem gcStep_objs (env : Env) (base : Path) (s : State) (d : Dropped) :
    (∀ p ∈ (gcStep env base s d).objs, p ∈ s.objs) ∧
    (∀ p ∈ s.objs, below (tablePrefix base d.uuid) p = false → p ∈ (gcStep env base s d).objs) := by
  refine ⟨fun p hp => deleteLoop_sub env _ _ p hp, ?_⟩
  intro p hp hb
  refine deleteLoop_keeps env _ _ p hp ?_
  intro hm
  rw [(List.mem_filter.1 hm).2] at hb
  simp at hb

theorem foldl_objs_sub (env : Env) (base : Path) (ds : List Dropped) (s : State) :
    ∀ p ∈ (ds.foldl (gcStep env base) s).objs, p ∈ s.objs := by
  induction ds generalizing s with
  | nil => intro p hp; exact hp
  | cons d ds ih =>
    intro p hp
    exact (gcStep_objs env base s d).1 p (ih _ p hp)

theorem foldl_objs_keep (env : Env) (base : Path) (ds : List Dropped) (s : State) (p : Path) (hp : p ∈ s.objs)
    (hno : ∀ d ∈ ds, below (tablePrefix base d.uuid) p = false) : p ∈ (ds.foldl (gcStep env base) s).objs := by
  induction ds generalizing s with
  | nil => exact hp
  | cons d ds ih =>
    refine ih _ ((gcStep_objs env base s d).2 p hp (hno d List.mem_cons_self)) ?_
    exact fun x hx => hno x (List.mem_cons_of_mem _ hx)

/-! ### C38 -/

/-- **C38**: a run deletes objects only below the prefixes of dropped tables (of the given database) that
are not marked failed. -/
theorem C38_only_dropped (env : Env) (base : Path) (db : Option String) (s : State) (p : Path) (hp : p ∈ s.objs)
    (hgone : p ∉ (gc env base db s).objs) :
    ∃ d ∈ s.dropped, d.status ≠ .failed ∧ (∀ n, db = some n → d.db = n) ∧ ∃ rest, rest ≠ [] ∧ p = base ++ d.uuid :: rest := by
  refine Classical.byContradiction (fun hno => hgone ?_)
  refine foldl_objs_keep env base _ s p hp ?_
  intro d hd
  simp only [selected] at hd
  split at hd
  · simp at hd
  · obtain ⟨hd1, hd2⟩ := List.mem_filter.1 hd
    obtain ⟨hd3, hd4⟩ := List.mem_filter.1 hd1
    cases hb : below (tablePrefix base d.uuid) p with
    | false => rfl
    | true =>
      exfalso
      apply hno
      refine ⟨d, hd3, by simpa using hd2, ?_, ?_⟩
      · rintro n rfl
        simp at hd4
        exact hd4.symm
      · simp only [below, tablePrefix, Bool.and_eq_true, List.isPrefixOf_iff_prefix, bne_iff_ne, ne_eq] at hb
        obtain ⟨⟨rest, hr⟩, hne⟩ := hb
        refine ⟨rest, ?_, by rw [← hr]; simp⟩
        rintro rfl
        exact hne (by rw [← hr]; simp)

/-- No run creates or changes objects. -/
theorem C38_objs_shrink (env : Env) (base : Path) (db : Option String) (s : State) :
    ∀ p ∈ (gc env base db s).objs, p ∈ s.objs := foldl_objs_sub env base _ s

theorem foldl_dropped (env : Env) (base : Path) (hl : ∀ p, env.listErr p = false) (ds : List Dropped) (s : State)
    (d : Dropped) (hd : ∃ x ∈ s.dropped, x.uuid = d.uuid) :
    (∃ x ∈ (ds.foldl (gcStep env base) s).dropped, x.uuid = d.uuid) ∨
    (∀ p ∈ (ds.foldl (gcStep env base) s).objs, below (tablePrefix base d.uuid) p = false) := by
  induction ds generalizing s with
  | nil => exact Or.inl hd
  | cons e ds ih =>
    simp only [List.foldl_cons]
    by_cases hin : ∃ x ∈ (gcStep env base s e).dropped, x.uuid = d.uuid
    · exact ih _ hin
    · right
      intro p hp
      have hp1 := foldl_objs_sub env base ds _ p hp
      -- the row went away in this step, so the deletion succeeded
      obtain ⟨x, hx, hxu⟩ := hd
      simp only [gcStep] at hin hp1
      by_cases hc : env.catErr e.uuid = true
      · rw [if_pos hc] at hin; exact absurd ⟨x, hx, hxu⟩ hin
      · rw [if_neg hc] at hin
        by_cases hok : (deleteInPrefix env s.objs (tablePrefix base e.uuid)).2 = true
        · rw [if_pos hok] at hin
          by_cases hue : d.uuid = e.uuid
          · have := deleteLoop_done env hl _ _ hok p hp1
            rw [hue]
            cases hb : below (tablePrefix base e.uuid) p with
            | false => rfl
            | true => exact absurd (List.mem_filter.2 ⟨deleteLoop_sub env _ _ p hp1, hb⟩) this
          · exact absurd ⟨x, List.mem_filter.2 ⟨hx, by simp [hxu, hue]⟩, hxu⟩ hin
        · rw [if_neg hok] at hin
          refine absurd ⟨_, List.mem_map_of_mem hx, ?_⟩ hin
          split <;> exact hxu

/-- **C38** (`_partial`: if listing a prefix yields no errors): a run forgets a dropped table only after
all objects below its prefix are gone. -/
theorem C38_forget_partial (env : Env) (base : Path) (hl : ∀ p, env.listErr p = false) (db : Option String) (s : State)
    (d : Dropped) (hd : d ∈ s.dropped) (hgone : ∀ x ∈ (gc env base db s).dropped, x.uuid ≠ d.uuid) :
    ∀ p ∈ (gc env base db s).objs, ¬ ∃ rest, rest ≠ [] ∧ p = base ++ d.uuid :: rest := by
  rcases foldl_dropped env base hl (selected env db s) s d ⟨d, hd, rfl⟩ with ⟨x, hx, hxu⟩ | hno
  · exact absurd hxu (hgone x hx)
  · rintro p hp ⟨rest, hr, rfl⟩
    have := hno _ hp
    have hb : below (tablePrefix base d.uuid) (base ++ d.uuid :: rest) = true := by
      simp only [below, tablePrefix, Bool.and_eq_true, List.isPrefixOf_iff_prefix, bne_iff_ne, ne_eq]
      refine ⟨⟨rest, by simp⟩, ?_⟩
      intro e
      have := congrArg List.length e
      simp at this
      exact hr this
    rw [hb] at this
    simp at this

/-- Rows whose UUID is not processed stay as they are. -/
theorem foldl_untouched (env : Env) (base : Path) (ds : List Dropped) (s : State) (d : Dropped) (hd : d ∈ s.dropped)
    (hno : ∀ e ∈ ds, e.uuid ≠ d.uuid) : d ∈ (ds.foldl (gcStep env base) s).dropped := by
  induction ds generalizing s with
  | nil => exact hd
  | cons e ds ih =>
    have he := hno e List.mem_cons_self
    refine ih _ ?_ (fun x hx => hno x (List.mem_cons_of_mem _ hx))
    simp only [gcStep]
    split
    · exact hd
    · split
      · exact List.mem_filter.2 ⟨hd, by simp; exact fun h => he h.symm⟩
      · refine List.mem_map.2 ⟨d, hd, ?_⟩
        rw [if_neg (fun h => he h.symm)]

/-- **C38**: a table that is marked failed is left alone: it stays in the catalog with its status (`huniq`:
UUIDs are unique) and by `C38_only_dropped` its storage stays too. -/
theorem C38_failed_kept (env : Env) (base : Path) (db : Option String) (s : State) (d : Dropped) (hd : d ∈ s.dropped)
    (hf : d.status = .failed) (huniq : ∀ x ∈ s.dropped, x.uuid = d.uuid → x = d) : d ∈ (gc env base db s).dropped := by
  refine foldl_untouched env base _ s d hd ?_
  intro e he heq
  simp only [selected] at he
  split at he
  · simp at he
  · obtain ⟨h1, h2⟩ := List.mem_filter.1 he
    have := huniq e (List.mem_filter.1 h1).1 heq
    subst this
    simp [hf] at h2

/-- A run in which every storage and catalog operation succeeds. -/
def Healthy (env : Env) : Prop :=
  env.fetchErr = false ∧ (∀ p, env.listErr p = false) ∧ (∀ p, env.delErr p = false) ∧ ∀ u, env.catErr u = false

theorem deleteLoop_ok (env : Env) (hd : ∀ p, env.delErr p = false) (ps objs : List Path) : (deleteLoop env ps objs).2 = true := by
  induction ps generalizing objs with
  | nil => rfl
  | cons q ps ih =>
    simp only [deleteLoop, hd, Bool.false_eq_true, if_false]
    split <;> exact ih _

/-- **C38**: a run without failures removes every dropped table of the database that is not marked failed,
with all its objects. -/
theorem C38_healthy (env : Env) (he : Healthy env) (base : Path) (db : Option String) (s : State) (d : Dropped)
    (hd : d ∈ s.dropped) (hst : d.status ≠ .failed) (hdb : ∀ n, db = some n → d.db = n) :
    (∀ x ∈ (gc env base db s).dropped, x.uuid ≠ d.uuid) ∧
    ∀ p ∈ (gc env base db s).objs, ¬ ∃ rest, rest ≠ [] ∧ p = base ++ d.uuid :: rest := by
  have hsel : d ∈ selected env db s := by
    simp only [selected, he.1, Bool.false_eq_true, if_false]
    refine List.mem_filter.2 ⟨List.mem_filter.2 ⟨hd, ?_⟩, by simpa using hst⟩
    cases db with
    | none => rfl
    | some n => simp [hdb n rfl]
  have hdrop : ∀ (ds : List Dropped) (s : State), (∀ e ∈ ds, ∀ x ∈ (ds.foldl (gcStep env base) s).dropped, x.uuid ≠ e.uuid) ∧
      ∀ x ∈ (ds.foldl (gcStep env base) s).dropped, x ∈ s.dropped := by
    intro ds
    induction ds with
    | nil => intro s; exact ⟨by simp, fun x hx => hx⟩
    | cons e ds ih =>
      intro s
      obtain ⟨h1, h2⟩ := ih (gcStep env base s e)
      have hstep : (gcStep env base s e).dropped = s.dropped.filter (·.uuid != e.uuid) := by
        simp only [gcStep, he.2.2.2, Bool.false_eq_true, if_false, deleteInPrefix, deleteLoop_ok env he.2.2.1, if_true]
      refine ⟨?_, ?_⟩
      · intro f hf x hx
        rcases List.mem_cons.1 hf with rfl | hf
        · have := h2 x hx
          rw [hstep] at this
          simpa using (List.mem_filter.1 this).2
        · exact h1 f hf x hx
      · intro x hx
        have := h2 x hx
        rw [hstep] at this
        exact (List.mem_filter.1 this).1
  have hrow := (hdrop (selected env db s) s).1 d hsel
  exact ⟨hrow, C38_forget_partial env base he.2.1 db s d hd hrow⟩

/-! ### where C38 fails -/

/-- Two dropped tables and a live one. -/
def exState : State :=
  { dropped := [⟨"default", "u1", .pending⟩, ⟨"default", "u2", .retry⟩, ⟨"other", "u3", .pending⟩]
    objs := [["data", "u1", "_delta_log", "0.json"], ["data", "u1", "a.parquet"], ["data", "u2", "b.parquet"], ["data", "u9", "c.parquet"]] }

/-- No failures. -/
def exHealthy : Env := { fetchErr := false, listErr := fun _ => false, delErr := fun _ => false, catErr := fun _ => false }

/-- Deletions below `u` fail. -/
def exDelErr (u : String) : Env := { exHealthy with delErr := fun p => p.contains u }

example : Healthy exHealthy ∧ gc exHealthy ["data"] none exState = { dropped := [], objs := [["data", "u9", "c.parquet"]] } := by
  refine ⟨⟨rfl, fun _ => rfl, fun _ => rfl, fun _ => rfl⟩, by decide +kernel⟩

/-- **C38 does not hold**: listing errors are ignored, so a dropped table is forgotten although its objects
are still stored. -/
theorem C38_violated_listing :
    gc { exHealthy with listErr := fun _ => true } ["data"] (some "default") exState =
      { dropped := [⟨"other", "u3", .pending⟩], objs := exState.objs } := by decide +kernel

/-- **C38 does not hold**: a table whose first deletion attempt fails is marked failed at once and never
retried. -/
theorem C38_violated_no_retry (env : Env) (db : Option String) :
    (gc (exDelErr "u1") ["data"] (some "default") exState).dropped = [⟨"default", "u1", .failed⟩, ⟨"other", "u3", .pending⟩] ∧
    (⟨"default", "u1", .failed⟩ : Dropped) ∈
      (gc env ["data"] db (gc (exDelErr "u1") ["data"] (some "default") exState)).dropped := by
  have h : (gc (exDelErr "u1") ["data"] (some "default") exState).dropped =
      [⟨"default", "u1", .failed⟩, ⟨"other", "u3", .pending⟩] := by decide +kernel
  refine ⟨h, C38_failed_kept env ["data"] db _ _ (by rw [h]; simp) rfl ?_⟩
  rw [h]
  intro x hx
  simp only [List.mem_cons, List.not_mem_nil, or_false] at hx
  rcases hx with rfl | rfl <;> simp

/-- **C38 does not hold**: a table in status retry is never given up, however often its deletion fails. -/
theorem C38_violated_forever (n : Nat) :
    gcRuns ["data"] (List.replicate n (exDelErr "u2", none)) { dropped := [⟨"default", "u2", .retry⟩], objs := [["data", "u2", "b.parquet"]] } =
      { dropped := [⟨"default", "u2", .retry⟩], objs := [["data", "u2", "b.parquet"]] } := by
  induction n with
  | zero => rfl
  | succ n ih =>
    have h : gc (exDelErr "u2") ["data"] none { dropped := [⟨"default", "u2", .retry⟩], objs := [["data", "u2", "b.parquet"]] } =
        { dropped := [⟨"default", "u2", .retry⟩], objs := [["data", "u2", "b.parquet"]] } := by decide +kernel
    simp only [List.replicate_succ, gcRuns, h]
    exact ih

end Seafowl.Gc
