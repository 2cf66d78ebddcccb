/-
C47: TRUNCATE removes the rows of its table and nothing else; VACUUM removes no live row.
-/
import Verif.Sql.VacTrunc
import Verif.Dml.DmlProps
import Verif.Catalog.GcProps

set_option linter.unusedSimpArgs false

namespace Seafowl.Sql

open Seafowl.Dml

variable {κ : Type}

/-! ### TRUNCATE -/

theorem live_append_log (a b : List (List Action)) :
    live (a ++ b) = b.flatten.foldl applyAction (live a) := by
  simp [live, List.foldl_append]

/-- **C47 (TRUNCATE).** A successful TRUNCATE empties the named table: of the rows visible
afterwards, only those remain that were added by statements that committed after it had read the
table.  The files are kept (older versions stay readable), and no other table changes. -/
theorem C47_truncate (l l' : Lake κ) (n : Name) (u loaded : Nat) (late : List (List Action))
    (fs : List FileName) (hn : l.named n = some u)
    (hlog : (l.tables u).log = (l.tables u).log.take loaded ++ late)
    (hlate : late.flatten = fs.map Action.add)
    (hfresh : ∀ f ∈ fs, f ∉ live ((l.tables u).log.take loaded))
    (h : truncateTable l n loaded true = (l', true)) :
    live (l'.tables u).log = fs ∧ (l'.tables u).objects = (l.tables u).objects ∧
    (∀ v, v ≠ u → l'.tables v = l.tables v) ∧ l'.named = l.named := by
  simp only [truncateTable, hn, if_true, Prod.mk.injEq, and_true] at h
  subst h
  refine ⟨?_, ?_, ?_, rfl⟩
  · simp only [Lake.set, if_true]
    generalize hA : (l.tables u).log.take loaded = A at *
    rw [hlog, live_append, foldl_removes, live_append_log, hlate, foldl_adds, List.filter_append]
    have h1 : (live A).filter (fun f => !(live A).contains f) = [] := by
      rw [List.filter_eq_nil_iff]
      intro f hf
      simp [hf]
    have h2 : fs.filter (fun f => !(live A).contains f) = fs := by
      rw [List.filter_eq_self]
      intro f hf
      simp [hfresh f hf]
    rw [h1, h2, List.nil_append]
  · simp [Lake.set]
  · intro v hv
    simp [Lake.set, hv]

/-- Without concurrent statements the table is empty afterwards. -/
theorem C47_truncate_empty (l l' : Lake κ) (n : Name) (u : Nat) (hn : l.named n = some u)
    (h : truncateTable l n (l.tables u).log.length true = (l', true)) :
    rowsOf (snapshot (l'.tables u)) = [] ∧ (∀ v, v ≠ u → l'.tables v = l.tables v) := by
  obtain ⟨h1, -, h3, -⟩ := C47_truncate l l' n u _ [] [] hn (by simp) rfl (by simp) h
  refine ⟨?_, h3⟩
  simp [snapshot, h1, rowsOf]

/-- **C47 (failed TRUNCATE).** A TRUNCATE that fails, in particular of an unknown table, changes
nothing. -/
theorem C47_truncate_failed (l l' : Lake κ) (n : Name) (loaded : Nat) (ok : Bool)
    (h : truncateTable l n loaded ok = (l', false)) : l' = l := by
  unfold truncateTable at h
  split at h
  · simp only [Prod.mk.injEq, and_true] at h; exact h.symm
  · cases ok with
    | true => simp at h
    | false => simp only [Bool.false_eq_true, if_false, Prod.mk.injEq, and_true] at h; exact h.symm

/-- The catalog does not record the version a TRUNCATE creates. -/
theorem C47_truncate_unrecorded (l : Lake κ) (n : Name) (loaded : Nat) (ok : Bool) (u : Nat) :
    ((truncateTable l n loaded ok).1.tables u).recorded = (l.tables u).recorded := by
  unfold truncateTable
  split
  · rfl
  · cases ok with
    | false => rfl
    | true =>
      simp only [if_true, Lake.set]
      split
      · rename_i h; subst h; rfl
      · rfl

/-! ### VACUUM TABLE -/

theorem live_after {late : List (List Action)} {A : List (List Action)} {f : FileName}
    (h : f ∈ live (A ++ late)) : f ∈ live A ∨ Action.add f ∈ late.flatten := by
  rw [live_append_log] at h
  have : ∀ (as : List Action) (l : List FileName), f ∈ as.foldl applyAction l →
      f ∈ l ∨ Action.add f ∈ as := by
    intro as
    induction as with
    | nil => intro l h; exact Or.inl h
    | cons a as ih =>
      intro l h
      rw [List.foldl_cons] at h
      rcases ih _ h with h | h
      · cases a with
        | add g =>
          simp only [applyAction, List.mem_append, List.mem_singleton] at h
          rcases h with h | rfl
          · exact Or.inl h
          · right; simp
        | remove g =>
          simp only [applyAction, List.mem_filter] at h
          exact Or.inl h.1
      · right; simp [h]
  exact this _ _ h

theorem live_append_empty (log : List (List Action)) (k : Nat) :
    live (log ++ List.replicate k []) = live log := by
  rw [live_append_log]
  have : (List.replicate k ([] : List Action)).flatten = [] := by simp
  rw [this]; rfl

/-- **C47 (VACUUM TABLE).** Whatever happens during a VACUUM TABLE — failing deletions, errors, and
statements that commit after it has loaded the table, as long as they do not bring back a deleted
file name — the rows of the table afterwards are exactly those visible at that time, and no other
table changes. -/
theorem C47_vacuum_table (l : Lake κ) (n : Name) (loaded : Nat) (kept : FileName → Bool)
    (extra : Nat) (libOk recOk : Bool) (late : Nat → List (List Action))
    (hlog : ∀ u, l.named n = some u → (l.tables u).log = (l.tables u).log.take loaded ++ late u)
    (hfresh : ∀ u, l.named n = some u → ∀ f, Action.add f ∈ (late u).flatten →
      f ∉ tombs ((l.tables u).log.take loaded)) :
    ∀ v, snapshot ((vacuumTable l n loaded kept extra libOk recOk).1.tables v) =
      snapshot (l.tables v) := by
  intro v
  unfold vacuumTable
  split
  · rfl
  · rename_i u hu
    have key : ∀ r : List Nat, snapshot ((l.set u
        { objects := fun f => if stale ((l.tables u).log.take loaded) f && !kept f then none
            else (l.tables u).objects f,
          log := (l.tables u).log ++ List.replicate extra [],
          recorded := r }).tables v) = snapshot (l.tables v) := by
      intro r
      by_cases hv : v = u
      · subst hv
        simp only [Lake.set, if_true, snapshot, live_append_empty]
        apply List.map_congr_left
        intro f hf
        have hns : stale ((l.tables v).log.take loaded) f = false := by
          rw [hlog v hu] at hf
          unfold stale
          rcases live_after hf with h | h
          · simp [h]
          · have := hfresh v hu f h
            simp [this]
        simp [hns]
      · simp [Lake.set, hv]
    simp only
    split
    · exact key _
    · split
      · exact key _
      · exact key _

/-- A file that was removed is a tombstone, unless it is live again. -/
theorem tomb_or_live (as : List Action) (f : FileName) : ∀ t l : List FileName,
    (Action.remove f ∈ as ∨ f ∈ t ∨ f ∈ l) → f ∈ as.foldl applyTomb t ∨ f ∈ as.foldl applyAction l := by
  induction as with
  | nil => intro t l h; simpa using h
  | cons a as ih =>
    intro t l h
    simp only [List.foldl_cons]
    apply ih
    cases a with
    | add g =>
      by_cases hg : f = g
      · subst hg; right; right; simp [applyAction]
      · rcases h with h | h | h
        · left; simpa using h
        · right; left; simp [applyTomb, h, hg]
        · right; right; simp [applyAction, h]
    | remove g =>
      by_cases hg : f = g
      · subst hg; right; left; simp [applyTomb]
      · rcases h with h | h | h
        · left; simpa [hg] using h
        · right; left; simp [applyTomb, h]
        · right; right; simp [applyAction, h, hg]

/-- **C47 (VACUUM TABLE reclaims).** A VACUUM TABLE whose deletions happen leaves no file of the table that was removed
by one of the commits it loaded and is not live there; a file that was never removed stays, and so do the files of
other tables. -/
theorem C47_vacuum_reclaims (l : Lake κ) (n : Name) (u : Nat) (hu : l.named n = some u) (loaded : Nat)
    (kept : FileName → Bool) (extra : Nat) (libOk recOk : Bool) :
    (∀ f c, c ∈ (l.tables u).log.take loaded → Action.remove f ∈ c → f ∉ live ((l.tables u).log.take loaded) →
      kept f = false → ((vacuumTable l n loaded kept extra libOk recOk).1.tables u).objects f = none) ∧
    (∀ v f, (v ≠ u ∨ ∀ c ∈ (l.tables u).log.take loaded, Action.remove f ∉ c) →
      ((vacuumTable l n loaded kept extra libOk recOk).1.tables v).objects f = (l.tables v).objects f) := by
  have hobj : ∀ v, ((vacuumTable l n loaded kept extra libOk recOk).1.tables v).objects =
      if v = u then fun f => if stale ((l.tables u).log.take loaded) f && !kept f then none
        else (l.tables u).objects f else (l.tables v).objects := by
    intro v
    unfold vacuumTable
    rw [hu]
    simp only
    by_cases hv : v = u
    · subst hv
      cases libOk <;> cases recOk <;> simp [Lake.set]
    · cases libOk <;> cases recOk <;> simp [Lake.set, hv]
  constructor
  · intro f c hc hf hl hk
    rw [hobj u, if_pos rfl]
    have ht : f ∈ tombs ((l.tables u).log.take loaded) := by
      rcases tomb_or_live ((l.tables u).log.take loaded).flatten f [] []
        (Or.inl (List.mem_flatten.2 ⟨c, hc, hf⟩)) with h | h
      · exact h
      · exact absurd h hl
    simp [stale, ht, hl, hk]
  · intro v f h
    rw [hobj v]
    by_cases hv : v = u
    · subst hv
      rw [if_pos rfl]
      have h : ∀ c ∈ (l.tables v).log.take loaded, Action.remove f ∉ c := h.resolve_left (fun h => h rfl)
      have key : ∀ (as : List Action) (t : List FileName), f ∉ t → Action.remove f ∉ as → f ∉ as.foldl applyTomb t := by
        intro as
        induction as with
        | nil => intro t ht _; exact ht
        | cons a as ih =>
          intro t ht ha
          simp only [List.mem_cons, not_or] at ha
          simp only [List.foldl_cons]
          apply ih _ _ ha.2
          cases a with
          | add g => simp [applyTomb, ht]
          | remove g =>
            have : f ≠ g := fun e => ha.1 (by rw [e])
            simp [applyTomb, ht, this]
      have ht : f ∉ tombs ((l.tables v).log.take loaded) := by
        apply key _ _ (by simp)
        intro hm
        obtain ⟨c, hc, hf⟩ := List.mem_flatten.1 hm
        exact h c hc hf
      simp [stale, ht]
    · rw [if_neg hv]

/-- A VACUUM TABLE records nothing and forgets at most old versions: the newest recorded version
stays, and the name still stands for the same table. -/
theorem C47_vacuum_recorded (l : Lake κ) (n : Name) (loaded : Nat) (kept : FileName → Bool)
    (extra : Nat) (libOk recOk : Bool) (v : Nat) :
    ((vacuumTable l n loaded kept extra libOk recOk).1.tables v).recorded.getLast? =
      (l.tables v).recorded.getLast? ∧
    (vacuumTable l n loaded kept extra libOk recOk).1.named = l.named := by
  have hdrop : ∀ xs : List Nat, (xs.drop (xs.length - 1)).getLast? = xs.getLast? := by
    intro xs
    rcases List.eq_nil_or_concat xs with rfl | ⟨ys, y, rfl⟩
    · rfl
    · simp
  unfold vacuumTable
  split
  · exact ⟨rfl, rfl⟩
  · rename_i u hu
    refine ⟨?_, by simp only; split; · rfl
                   · split <;> rfl⟩
    simp only
    split
    · simp only [Lake.set]; split
      · rename_i h; subst h; rfl
      · rfl
    · split
      · simp only [Lake.set]; split
        · rename_i h; subst h; rfl
        · rfl
      · simp only [Lake.set]; split
        · rename_i h; subst h; exact hdrop _
        · rfl

/-- **C47 (answer of VACUUM TABLE).** It reports success exactly if the table exists and both the library and the catalog
did their part; then the newest recorded version of the table is the only one left.  If it reports an error, all
recorded versions are kept; other tables keep theirs in any case. -/
theorem C47_vacuum_answer (l : Lake κ) (n : Name) (loaded : Nat) (kept : FileName → Bool)
    (extra : Nat) (libOk recOk : Bool) :
    ((vacuumTable l n loaded kept extra libOk recOk).2 = true ↔ (l.named n).isSome ∧ libOk = true ∧ recOk = true) ∧
    (∀ v, ((vacuumTable l n loaded kept extra libOk recOk).1.tables v).recorded =
      if l.named n = some v ∧ libOk = true ∧ recOk = true then (l.tables v).recorded.getLast?.toList
      else (l.tables v).recorded) := by
  have hdrop : ∀ xs : List Nat, xs.drop (xs.length - 1) = xs.getLast?.toList := by
    intro xs
    rcases List.eq_nil_or_concat xs with rfl | ⟨ys, y, rfl⟩
    · rfl
    · simp
  unfold vacuumTable
  cases hn : l.named n with
  | none => simp
  | some u =>
    cases libOk <;> cases recOk <;> simp [Lake.set] <;> intro v <;> (try split) <;> simp_all
    intro e; exact absurd e.symm (by assumption)

/-! ### VACUUM DATABASE -/

/-- **C47 (VACUUM DATABASE).** Files of a table that is not among the dropped ones are never
deleted. -/
theorem C47_vacuum_database (env : Gc.Env) (base : Gc.Path) (db : Option String) (s : Gc.State)
    (u : String) (hu : ∀ d ∈ s.dropped, d.uuid ≠ u) (p rest : Gc.Path)
    (hp : p = base ++ u :: rest) (hin : p ∈ s.objs) : p ∈ (Gc.gc env base db s).objs := by
  refine Classical.byContradiction fun hgone => ?_
  obtain ⟨d, hd, -, -, r, -, hpd⟩ := Gc.C38_only_dropped env base db s p hin hgone
  rw [hp] at hpd
  have := List.append_cancel_left hpd
  injection this with h1 h2
  exact hu d hd h1.symm

/-! ### Examples -/

/-- A table with files 1 and 2, then file 1 replaced by file 3. -/
def exLake : Lake (Option Int) where
  named := fun n => if n = ["t"] then some 7 else if n = ["o"] then some 8 else none
  tables := fun u =>
    { objects := fun f => some [[some (Int.ofNat f.1 + Int.ofNat u)]]
      log := [[.add (1, 0), .add (2, 0)], [.add (3, 0), .remove (1, 0)]]
      recorded := [0, 1] }

example : rowsOf (snapshot (exLake.tables 7)) = [[some 9], [some 10]] ∧
    -- TRUNCATE TABLE t
    rowsOf (snapshot ((truncateTable exLake ["t"] 2 true).1.tables 7)) = [] ∧
    rowsOf (snapshot ((truncateTable exLake ["t"] 2 true).1.tables 8)) = [[some 10], [some 11]] ∧
    -- VACUUM TABLE t deletes the file that was replaced, and only that one
    (((vacuumTable exLake ["t"] 2 (fun _ => false) 2 true true).1.tables 7).objects (1, 0) = none) ∧
    (((vacuumTable exLake ["t"] 2 (fun _ => false) 2 true true).1.tables 7).objects (2, 0)).isSome ∧
    (((vacuumTable exLake ["t"] 2 (fun _ => false) 2 true true).1.tables 8).objects (1, 0)).isSome ∧
    rowsOf (snapshot ((vacuumTable exLake ["t"] 2 (fun _ => false) 2 true true).1.tables 7)) =
      [[some 9], [some 10]] := by
  decide +kernel

/-- Hypotheses of `C47_vacuum_table` with a statement that commits in between. -/
example : let l : Lake (Option Int) :=
      exLake.set 7 { exLake.tables 7 with log := (exLake.tables 7).log ++ [[.add (4, 0)]] }
    (l.tables 7).log = (l.tables 7).log.take 2 ++ [[.add (4, 0)]] ∧
    (4, 0) ∉ tombs ((l.tables 7).log.take 2) ∧
    rowsOf (snapshot ((vacuumTable l ["t"] 2 (fun _ => false) 2 true true).1.tables 7)) =
      [[some 9], [some 10], [some 11]] := by
  decide +kernel

end Seafowl.Sql
