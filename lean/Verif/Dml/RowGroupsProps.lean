import Verif.Dml.RowGroups
import Verif.Dml.DmlProps

/-!
# UPDATE and DELETE on files with several row groups (C25, C26)
-/

namespace Seafowl.Dml

set_option linter.unusedSimpArgs false

variable {κ : Type}

/-! ### specification -/

/-- Statistics are sound: they never refute the predicate if a row satisfies it. -/
def SoundMay (p : Pred κ) (may : May κ) : Prop := ∀ rows, ∀ r ∈ rows, p r = some true → may rows = true

/-- The rows in the refuted row groups of the files that are rewritten. -/
def skippedRows (may : May κ) (group : Nat) (s : Snapshot κ) : List (Row κ) :=
  s.flatMap (fun f => if may f.2 then ((rowGroups group f.2).filter (fun g => !may g)).flatten else [])

/-! ### lemmas -/

theorem rowGroups_flatten {ρ : Type} (max : Nat) (hm : 0 < max) (rows : List ρ) : (rowGroups max rows).flatten = rows := by
  fun_induction rowGroups max rows with
  | case1 rows h =>
    rcases h with h | h
    · simp [h]
    · omega
  | case2 rows h ih =>
    rw [List.flatten_cons, ih, List.take_append_drop]

theorem rowGroups_one {ρ : Type} (max : Nat) (rows : List ρ) (hne : rows ≠ []) (hl : rows.length ≤ max) :
    rowGroups max rows = [rows] := by
  have hpos := List.length_pos_iff.2 hne
  have hm : max ≠ 0 := by omega
  rw [rowGroups, dif_neg (by simp [hne, hm]), List.take_of_length_le hl, List.drop_of_length_le hl, rowGroups,
    dif_pos (Or.inl rfl)]

theorem rowGroups_append {ρ : Type} (max : Nat) (hm : 0 < max) (a b : List ρ) (ha : a.length = max) :
    rowGroups max (a ++ b) = a :: rowGroups max b := by
  have hne : a ++ b ≠ [] := by
    intro e
    have : a = [] := (List.append_eq_nil_iff.1 e).1
    simp [this] at ha
    omega
  rw [rowGroups, dif_neg (by simp only [hne, false_or]; omega), ← ha, List.take_left', List.drop_left'] <;> rfl

theorem flatten_split {ρ : Type} (q : List ρ → Bool) (ls : List (List ρ)) :
    ls.flatten.Perm ((ls.filter q).flatten ++ (ls.filter (fun l => !q l)).flatten) := by
  induction ls with
  | nil => simp
  | cons l ls ih =>
    cases h : q l with
    | true =>
      simp only [List.filter_cons, h, if_true, Bool.not_true, Bool.false_eq_true, if_false, List.flatten_cons,
        List.append_assoc]
      exact List.Perm.append_left l ih
    | false =>
      simp only [List.filter_cons, h, if_true, Bool.not_false, Bool.false_eq_true, if_false, List.flatten_cons]
      refine (List.Perm.append_left l ih).trans ?_
      rw [← List.append_assoc, ← List.append_assoc]
      exact List.Perm.append_right _ List.perm_append_comm

/-- The snapshot without the skipped rows. -/
def trim (may : May κ) (group : Nat) (s : Snapshot κ) : Snapshot κ :=
  s.map (fun f => (f.1, if may f.2 then readFile may group f.2 else f.2))

theorem trim_names (may : May κ) (group : Nat) (s : Snapshot κ) :
    (trim may group s).map (·.1) = s.map (·.1) := by
  simp [trim, List.map_map, Function.comp_def]

theorem rows_split (may : May κ) (group : Nat) (hg : 0 < group) (s : Snapshot κ) :
    (rowsOf s).Perm (rowsOf (trim may group s) ++ skippedRows may group s) := by
  induction s with
  | nil => simp [rowsOf, trim, skippedRows]
  | cons f s ih =>
    simp only [rowsOf, trim, skippedRows, List.map_cons, List.flatMap_cons] at ih ⊢
    by_cases hm : may f.2 = true
    · simp only [hm, if_true]
      have h1 := flatten_split may (rowGroups group f.2)
      rw [rowGroups_flatten group hg] at h1
      refine (h1.append ih).trans ?_
      simp only [readFile, List.append_assoc]
      refine List.Perm.append_left _ ?_
      rw [← List.append_assoc, ← List.append_assoc]
      exact List.Perm.append_right _ List.perm_append_comm
    · simp only [hm, Bool.false_eq_true, if_false, List.nil_append, List.append_assoc]
      exact List.Perm.append_left _ ih

theorem kept_trim (may : May κ) (group : Nat) (s : Snapshot κ) :
    keptFiles (trim may group s) (pruneMap may s) =
      (keptFiles s (pruneMap may s)).map (fun f => (f.1, readFile may group f.2)) := by
  induction s with
  | nil => simp [trim, keptFiles]
  | cons f s ih =>
    simp only [trim, keptFiles, pruneMap, List.map_cons, List.zip_cons_cons, List.filterMap_cons] at ih ⊢
    by_cases hm : may f.2 = true
    · simp only [hm, if_true, List.map_cons, ih]
    · simp only [hm, Bool.false_eq_true, if_false, ih]

theorem other_trim (may : May κ) (group : Nat) (s : Snapshot κ) :
    ((trim may group s).zip (pruneMap may s)).filterMap (fun fk => if fk.2 then none else some fk.1) =
      (s.zip (pruneMap may s)).filterMap (fun fk => if fk.2 then none else some fk.1) := by
  induction s with
  | nil => simp [trim]
  | cons f s ih =>
    simp only [trim, pruneMap, List.map_cons, List.zip_cons_cons, List.filterMap_cons] at ih ⊢
    by_cases hm : may f.2 = true
    · simp only [hm, if_true, ih]
    · simp only [hm, Bool.false_eq_true, if_false, ih]

theorem sound_trim (p : Pred κ) (may : May κ) (hmay : SoundMay p may) (group : Nat) (s : Snapshot κ) :
    SoundPrune p (trim may group s) (pruneMap may s) := by
  refine ⟨by simp [trim, pruneMap], ?_⟩
  induction s with
  | nil => simp [trim]
  | cons f s ih =>
    intro fk hfk hk
    simp only [trim, pruneMap, List.map_cons, List.zip_cons_cons, List.mem_cons] at hfk
    rcases hfk with rfl | hfk
    · have hk : may f.2 = false := hk
      simp only [hk, Bool.false_eq_true, if_false]
      intro r hr hpr
      rw [hmay f.2 r hr hpr] at hk
      cases hk
    · exact ih fk hfk hk

theorem scan_trim (may : May κ) (group : Nat) (s : Snapshot κ) :
    (scanFiltered may group s).flatten = rowsOf (keptFiles (trim may group s) (pruneMap may s)) := by
  rw [kept_trim]
  simp [scanFiltered, rowsOf, List.flatMap_def, Function.comp_def]

theorem update_trim (may : May κ) (group max : Nat) (fields : List String) (assigns : List (String × SExpr κ)) (p : Pred κ)
    (s : Snapshot κ) : update max fields assigns (some p) (trim may group s) (pruneMap may s) (scanFiltered may group s) =
      updateWhere may group max fields assigns p s := by
  simp only [updateWhere, update, kept_trim, List.isEmpty_map, List.map_map, Function.comp_def]

theorem delete_trim (may : May κ) (group max : Nat) (p : Pred κ) (s : Snapshot κ) :
    delete max (some p) (trim may group s) (pruneMap may s) (scanFiltered may group s) =
      deleteWhere may group max p s := by
  simp only [deleteWhere, delete, kept_trim, List.isEmpty_map, List.map_map, Function.comp_def]

theorem update_removes (may : May κ) (group max : Nat) (fields : List String) (assigns : List (String × SExpr κ)) (p : Pred κ)
    (s : Snapshot κ) (c : Commit κ) (h : updateWhere may group max fields assigns p s = some c) :
    c.removes = (keptFiles s (pruneMap may s)).map (·.1) := by
  simp only [updateWhere, update] at h
  split at h
  · next he =>
    cases h
    have : keptFiles s (pruneMap may s) = [] := by simpa using he
    simp [this]
  · split at h
    · cases h
    · next batches _ =>
      cases ha : addFiles max batches with
      | none => rw [ha] at h; cases h
      | some a => rw [ha] at h; cases h; rfl

theorem delete_removes (may : May κ) (group max : Nat) (p : Pred κ) (s : Snapshot κ) (c : Commit κ)
    (h : deleteWhere may group max p s = some c) : c.removes = (keptFiles s (pruneMap may s)).map (·.1) := by
  simp only [deleteWhere, delete] at h
  split at h
  · next he =>
    cases h
    have : keptFiles s (pruneMap may s) = [] := by simpa using he
    simp [this]
  · cases ha : addFiles max ((scanFiltered may group s).map (filterRows (notP p))) with
    | none => rw [ha] at h; cases h
    | some a => rw [ha] at h; cases h; rfl

theorem rowsAfter_trim (may : May κ) (group : Nat) (s : Snapshot κ) (hs : (s.map (·.1)).Nodup) (c : Commit κ)
    (hc : c.removes = (keptFiles s (pruneMap may s)).map (·.1)) :
    rowsAfter (trim may group s) c = rowsAfter s c := by
  have h1 := (kept_split (pruneMap may s) s (by simp [pruneMap]) hs).1
  have h2 := (kept_split (pruneMap may s) (trim may group s) (by simp [pruneMap, trim])
    (by rw [trim_names]; exact hs)).1
  have hc' : c.removes = (keptFiles (trim may group s) (pruneMap may s)).map (·.1) := by
    rw [hc, kept_trim, List.map_map]
    rfl
  simp only [rowsAfter]
  congr 2
  · rw [← hc] at h1
    rw [← hc', other_trim] at h2
    rw [h1, h2]

/-! ### C25 -/

/-- **C25**: exactly what UPDATE … WHERE does when the scan leaves out refuted row groups, for every table, sound
statistics, row group size, predicate and assignments: the rows of the refuted row groups of the rewritten files
are lost; every other row is updated if the predicate is true on it and unchanged otherwise. -/
theorem C25_row_groups (p : Pred κ) (may : May κ) (hmay : SoundMay p may) (group max : Nat) (hg : 0 < group) (hm : 0 < max)
    (fields : List String) (assigns : List (String × SExpr κ)) (s : Snapshot κ) (c : Commit κ)
    (hn : fields.Nodup) (ha : (assigns.map (·.1)).Nodup) (hs : (s.map (·.1)).Nodup)
    (hw : ∀ r ∈ rowsOf s, r.length = fields.length)
    (h : updateWhere may group max fields assigns p s = some c) :
    ∃ (rest : List (Row κ)) (g : Row κ → Row κ), (rowsOf s).Perm (rest ++ skippedRows may group s) ∧
      (rowsAfter s c).Perm (rest.map g) ∧
      ∀ r ∈ rest, (p r = some true → SetTo fields assigns r (g r)) ∧ (p r ≠ some true → g r = r) := by
  have hsplit := rows_split may group hg s
  have hw' : ∀ r ∈ rowsOf (trim may group s), r.length = fields.length :=
    fun r hr => hw r (hsplit.mem_iff.2 (List.mem_append.2 (Or.inl hr)))
  obtain ⟨g, h1, h2⟩ := C25_update_partial max hm fields assigns (some p) (trim may group s) (pruneMap may s)
    (scanFiltered may group s) c hn ha (by rw [trim_names]; exact hs) hw'
    (fun p' hp' => by
      cases hp'
      exact ⟨sound_trim p may hmay group s, by rw [scan_trim]⟩)
    (fun h => by cases h) (by rw [update_trim]; exact h)
  rw [rowsAfter_trim may group s hs c (update_removes may group max fields assigns p s c h)] at h1
  refine ⟨_, g, hsplit, h1, fun r hr => ⟨fun hp => (h2 r hr).1 (fun p' hp' => by cases hp'; exact hp), fun hp => ?_⟩⟩
  exact (h2 r hr).2 (fun hsel => hp (hsel p rfl))

/-- **C25**: hence no row is lost exactly if no rewritten file has a refuted row group with rows in it. -/
theorem C25_no_loss_iff (p : Pred κ) (may : May κ) (hmay : SoundMay p may) (group max : Nat) (hg : 0 < group) (hm : 0 < max)
    (fields : List String) (assigns : List (String × SExpr κ)) (s : Snapshot κ) (c : Commit κ)
    (hn : fields.Nodup) (ha : (assigns.map (·.1)).Nodup) (hs : (s.map (·.1)).Nodup)
    (hw : ∀ r ∈ rowsOf s, r.length = fields.length)
    (h : updateWhere may group max fields assigns p s = some c) :
    (rowsAfter s c).length = (rowsOf s).length ↔ ∀ f ∈ s, may f.2 = true → ∀ g ∈ rowGroups group f.2, may g = true ∨ g = [] := by
  obtain ⟨rest, g, h1, h2, _⟩ := C25_row_groups p may hmay group max hg hm fields assigns s c hn ha hs hw h
  have e1 := h1.length_eq
  have e2 := h2.length_eq
  rw [List.length_append] at e1
  rw [List.length_map] at e2
  have : (rowsAfter s c).length = (rowsOf s).length ↔ skippedRows may group s = [] := by
    rw [← List.length_eq_zero_iff]
    omega
  rw [this]
  simp only [skippedRows, List.flatMap_eq_nil_iff]
  refine forall₂_congr (fun f _ => ?_)
  by_cases hmf : may f.2 = true
  · simp only [hmf, if_true, List.flatten_eq_nil_iff, List.mem_filter, Bool.not_eq_true', and_imp, forall_const]
    refine forall₂_congr (fun x _ => ?_)
    cases may x <;> simp
  · simp [hmf]

/-- No rows are skipped in files that consist of one row group. -/
theorem skipped_small (may : May κ) (group : Nat) (s : Snapshot κ) (hsmall : ∀ f ∈ s, f.2.length ≤ group) :
    skippedRows may group s = [] := by
  simp only [skippedRows, List.flatMap_eq_nil_iff]
  intro f hf
  by_cases hne : f.2 = []
  · simp [hne, rowGroups]
  · rw [rowGroups_one group f.2 hne (hsmall f hf)]
    cases hm : may f.2 <;> simp [hm]

/-- **C25**: UPDATE … WHERE is exact on tables whose files have at most `MAX_ROW_GROUP_SIZE` rows, without any
assumption that the scan returns whole files. -/
theorem C25_small_files (p : Pred κ) (may : May κ) (hmay : SoundMay p may) (max : Nat) (hm : 0 < max)
    (fields : List String) (assigns : List (String × SExpr κ)) (s : Snapshot κ) (c : Commit κ)
    (hn : fields.Nodup) (ha : (assigns.map (·.1)).Nodup) (hs : (s.map (·.1)).Nodup)
    (hw : ∀ r ∈ rowsOf s, r.length = fields.length) (hsmall : ∀ f ∈ s, f.2.length ≤ maxRowGroup)
    (h : updateWhere may maxRowGroup max fields assigns p s = some c) :
    ∃ g : Row κ → Row κ, (rowsAfter s c).Perm ((rowsOf s).map g) ∧
      ∀ r ∈ rowsOf s, (p r = some true → SetTo fields assigns r (g r)) ∧ (p r ≠ some true → g r = r) := by
  obtain ⟨rest, g, h1, h2, h3⟩ := C25_row_groups p may hmay maxRowGroup max (by decide) hm fields assigns s c hn ha hs hw h
  rw [skipped_small may maxRowGroup s hsmall, List.append_nil] at h1
  exact ⟨g, h2.trans (h1.symm.map g), fun r hr => h3 r (h1.mem_iff.1 hr)⟩

/-! ### C26 -/

/-- **C26**: exactly what DELETE … WHERE does when the scan leaves out refuted row groups: the rows before are the
rows after, the rows satisfying the predicate, the rows read from rewritten files for which the predicate is NULL,
and all rows of the refuted row groups of rewritten files. -/
theorem C26_row_groups (p : Pred κ) (may : May κ) (hmay : SoundMay p may) (group max : Nat) (hg : 0 < group) (hm : 0 < max)
    (s : Snapshot κ) (hs : (s.map (·.1)).Nodup) :
    ∃ c, deleteWhere may group max p s = some c ∧
      (rowsOf s).Perm (rowsAfter s c ++ (rowsOf s).filter (fun r => p r == some true) ++
        (scanFiltered may group s).flatten.filter (fun r => p r == none) ++ skippedRows may group s) := by
  have hsplit := rows_split may group hg s
  obtain ⟨c, h1, h2⟩ := C26_exact max hm p (trim may group s) (pruneMap may s) (scanFiltered may group s)
    (by rw [trim_names]; exact hs) (sound_trim p may hmay group s) (by rw [scan_trim])
  rw [delete_trim] at h1
  refine ⟨c, h1, ?_⟩
  rw [rowsAfter_trim may group s hs c (delete_removes may group max p s c h1), ← scan_trim] at h2
  have hsk : (skippedRows may group s).filter (fun r => p r == some true) = [] := by
    rw [List.filter_eq_nil_iff]
    intro r hr
    simp only [skippedRows, List.mem_flatMap] at hr
    obtain ⟨f, _, hr⟩ := hr
    split at hr
    · simp only [List.mem_flatten, List.mem_filter, Bool.not_eq_true'] at hr
      obtain ⟨x, ⟨_, hx⟩, hrx⟩ := hr
      simp only [beq_iff_eq]
      intro hp
      rw [hmay x r hrx hp] at hx
      cases hx
    · simp at hr
  have hsel : ((rowsOf s).filter (fun r => p r == some true)).Perm
      ((rowsOf (trim may group s)).filter (fun r => p r == some true)) := by
    have := hsplit.filter (fun r => p r == some true)
    rwa [List.filter_append, hsk, List.append_nil] at this
  refine hsplit.trans ((h2.append_right _).trans ?_)
  refine List.Perm.append_right _ (List.Perm.append_right _ (List.Perm.append_left _ hsel.symm))

/-! ### a table with two row groups -/

/-- `a = v` for the first column. -/
def exEq (v : Int) : Pred (Option Int) := fun r => (r.headD none).map (fun x => decide (x = v))

/-- The pruning predicate of `a = v`: minimum ≤ v and v ≤ maximum. -/
def minMax (v : Int) : May (Option Int) := fun rows =>
  rows.any (fun r => (r.headD none).any (fun x => decide (x ≤ v))) &&
  rows.any (fun r => (r.headD none).any (fun x => decide (v ≤ x)))

theorem minMax_sound (v : Int) : SoundMay (exEq v) (minMax v) := by
  intro rows r hr hp
  simp only [exEq, Option.map_eq_some_iff, decide_eq_true_eq] at hp
  obtain ⟨x, hx, rfl⟩ := hp
  simp only [minMax, Bool.and_eq_true, List.any_eq_true]
  exact ⟨⟨r, hr, by simp only [hx]; simp⟩, ⟨r, hr, by simp only [hx]; simp⟩⟩

/-- 65536 rows (1) and one row (2). -/
def exRows : List (Row (Option Int)) := List.replicate maxRowGroup [some 1] ++ [[some 2]]

/-- They are one file of two row groups if inserted at once with the default `max_partition_size`. -/
theorem exRows_insert : (insert (1024 * 1024) [exRows]).map (fun c => c.adds) = some [exRows] := by
  have hlen : exRows.length = 65537 := by simp only [exRows, List.length_append, List.length_replicate]; rfl
  have hf : fill (1024 * 1024) [] exRows = some ([], exRows) := by
    rw [fill, if_pos (by rw [hlen]; decide)]
    rfl
  simp [insert, addFiles, rechunk, fillAll, hf]

/-- The table. -/
def exLarge : Snapshot (Option Int) := [((1, 0), exRows)]

theorem exLarge_groups : rowGroups maxRowGroup exRows = [List.replicate maxRowGroup [some 1], [[some 2]]] := by
  rw [exRows, rowGroups_append _ (by decide) _ _ List.length_replicate, rowGroups_one _ _ (by simp) (by decide)]

theorem exLarge_may : minMax 2 exRows = true ∧ minMax 2 (List.replicate maxRowGroup [some 1]) = false ∧
    minMax 2 [[some 2]] = true := by
  refine ⟨?_, ?_, by decide⟩
  · simp [minMax, exRows]
  · simp [minMax]

theorem exLarge_scan : scanFiltered (minMax 2) maxRowGroup exLarge = [[[some 2]]] := by
  simp [scanFiltered, keptFiles, pruneMap, exLarge, readFile, exLarge_groups, exLarge_may]

/-- **C25** is violated if the scan leaves out refuted row groups: `UPDATE t SET a = 3 WHERE a = 2` on a table of
65537 rows written by one INSERT leaves one row. -/
theorem C25_large_file_loss : ∃ c, updateWhere (minMax 2) maxRowGroup (1024 * 1024) ["a"] [("a", fun _ => some (some 3))]
      (exEq 2) exLarge = some c ∧ (rowsOf exLarge).length = 65537 ∧ rowsAfter exLarge c = [[some 3]] := by
  have hlen : exRows.length = 65537 := by simp only [exRows, List.length_append, List.length_replicate]; rfl
  refine ⟨{ adds := [[[some 3]]], removes := [(1, 0)] }, ?_, by simp [rowsOf, exLarge, hlen], ?_⟩
  · rw [updateWhere, exLarge_scan]
    simp [update, keptFiles, pruneMap, exLarge, exLarge_may, evalBatches, evalRows, evalRow, projectExpressions, caseExpr,
      planExprs, assigned, exEq, addFiles, rechunk, fillAll, fill]
  · simp [rowsAfter, rowsOf, exLarge]

/-- **C26** likewise: `DELETE FROM t WHERE a = 2` leaves no row. -/
theorem C26_large_file_loss : ∃ c, deleteWhere (minMax 2) maxRowGroup (1024 * 1024) (exEq 2) exLarge = some c ∧
    (rowsOf exLarge).length = 65537 ∧ rowsAfter exLarge c = [] := by
  have hlen : exRows.length = 65537 := by simp only [exRows, List.length_append, List.length_replicate]; rfl
  refine ⟨{ adds := [[]], removes := [(1, 0)] }, ?_, by simp [rowsOf, exLarge, hlen], ?_⟩
  · rw [deleteWhere, exLarge_scan]
    simp [delete, keptFiles, pruneMap, exLarge, exLarge_may, filterRows, notP, exEq, addFiles, rechunk, fillAll, fill]
  · simp [rowsAfter, rowsOf, exLarge]

/-- The hypotheses of `C25_row_groups` hold for it. -/
example : SoundMay (exEq 2) (minMax 2) ∧ (exLarge.map (·.1)).Nodup ∧ (∀ r ∈ rowsOf exLarge, r.length = ["a"].length) := by
  refine ⟨minMax_sound 2, by simp [exLarge], ?_⟩
  intro r hr
  simp only [rowsOf, exLarge, exRows, List.flatMap_cons, List.flatMap_nil, List.append_nil, List.mem_append,
    List.mem_replicate, List.mem_singleton] at hr
  rcases hr with ⟨_, rfl⟩ | rfl <;> rfl

/-- A small table: the hypotheses of `C25_small_files`. -/
example : ∃ c, updateWhere (minMax 2) maxRowGroup 10 ["a"] [("a", fun _ => some (some 3))] (exEq 2)
      [((1, 0), [[some 1], [some 2]]), ((2, 0), [[some 5]])] = some c ∧
    rowsAfter [((1, 0), [[some 1], [some 2]]), ((2, 0), [[some 5]])] c = [[some 5], [some 1], [some 3]] := by
  refine ⟨{ adds := [[[some 1], [some 3]]], removes := [(1, 0)] }, ?_, by decide⟩
  have h1 : rowGroups maxRowGroup [[some (1 : Int)], [some 2]] = [[[some 1], [some 2]]] := rowGroups_one _ _ (by simp) (by decide)
  simp [updateWhere, scanFiltered, readFile, h1, minMax, update, keptFiles, pruneMap, evalBatches, evalRows, evalRow, projectExpressions,
    caseExpr, planExprs, assigned, colAt, exEq, addFiles, rechunk, fillAll, fill]

end Seafowl.Dml
