import Verif.Sync.MergeCols
import Verif.Sync.MergeNet
import Verif.Sync.Normalize

set_option linter.unusedSimpArgs false

/-!
# Merging two items: rows and changes (lemmas for C14)
-/

namespace Seafowl.Sync

variable {pks full : List String} {L U : Schema}

/-- The row of the join. -/
def joinRow (L U : Schema) (j : JRow) : Row := fun d => if d ∈ mergedCols L U then joinExpr L U d j else none
/-- The row of the union for a row of the lower item. -/
def unionRowL (L U : Schema) (r : Row) : Row := fun d => if d ∈ mergedCols L U then (unionExpr L U d).1 r else none
/-- The row of the union for a row of the upper item. -/
def unionRowU (L U : Schema) (r : Row) : Row := fun d => if d ∈ mergedCols L U then (unionExpr L U d).2 r else none

theorem joinSyncs_eq (hL : SchemaOk pks L) (hU : SchemaOk pks U) (lower upper : List Row) :
    joinSyncs L lower U upper = (mergedCols L U, (fullJoin U lower upper).map (joinRow L U)) := by
  simp only [joinSyncs, mergeJoin_eq hL hU]
  congr 1
  apply List.map_congr_left
  intro j _
  exact project_map _ _ _

theorem unionSyncs_eq (hL : SchemaOk pks L) (hU : SchemaOk pks U) (lower upper : List Row) :
    unionSyncs L lower U upper =
      (mergedCols L U, lower.map (unionRowL L U) ++ upper.map (unionRowU L U)) := by
  simp only [unionSyncs, mergeUnion_eq hL hU]
  congr 2
  · apply List.map_congr_left
    intro j _
    exact project_map _ (fun d => (unionExpr L U d).1) _
  · apply List.map_congr_left
    intro j _
    exact project_map _ (fun d => (unionExpr L U d).2) _

/-- Two rows of different schemas mean the same change if their keys and assignments agree. -/
theorem changeOf_ext {S S' : Schema} {r r' : Row} (ho : ∀ n ∈ pks, r ⟨.oldPk, n⟩ = r' ⟨.oldPk, n⟩)
    (hn : ∀ n ∈ pks, r ⟨.newPk, n⟩ = r' ⟨.newPk, n⟩)
    (hs : ∀ c, c ∉ pks → (changeOf pks S r).set c = (changeOf pks S' r').set c) :
    changeOf pks S r = changeOf pks S' r' := by
  have h1 : (changeOf pks S r).old = (changeOf pks S' r').old := by
    simp only [changeOf]; congr 1; exact List.map_congr_left ho
  have h2 : (changeOf pks S r).new = (changeOf pks S' r').new := by
    simp only [changeOf]; congr 1; exact List.map_congr_left hn
  have h3 : (changeOf pks S r).set = (changeOf pks S' r').set := by
    funext c
    by_cases hc : c ∈ pks
    · simp [changeOf, hc, hn c hc]
    · exact hs c hc
  cases h : changeOf pks S r
  cases h' : changeOf pks S' r'
  rw [h, h'] at h1 h2 h3
  simp only at h1 h2 h3
  rw [h1, h2, h3]

theorem pk_mem (hL : SchemaOk pks L) (hU : SchemaOk pks U) {n : String} (hn : n ∈ pks) :
    Desc.mk .oldPk n ∈ mergedCols L U ∧ Desc.mk .newPk n ∈ mergedCols L U := by
  have h := mergedCols_ok hL hU
  constructor
  · rw [← mem_names, h.oldPk]; exact hn
  · rw [← mem_names, h.newPk]; exact hn

/-- The columns about one name, decided. -/
theorem cols_about (hL : SchemaOk pks L) (hU : SchemaOk pks U) (c : String) :
    (Desc.mk .value c ∈ mergedCols L U ↔ Desc.mk .value c ∈ L ∨ Desc.mk .value c ∈ U) ∧
    (Desc.mk .changed c ∈ mergedCols L U ↔ Desc.mk .changed c ∈ L ∨ Desc.mk .changed c ∈ U ∨
      (Desc.mk .value c ∈ L ∧ Desc.mk .value c ∉ U) ∨ (Desc.mk .value c ∈ U ∧ Desc.mk .value c ∉ L)) := by
  constructor
  · rw [mem_mergedCols hL hU]; simp
  · rw [mem_mergedCols hL hU]; simp

/-- All cases for the presence of a Value and a Changed column in two schemas. -/
theorem set_union_lower (hL : SchemaOk pks L) (hU : SchemaOk pks U) (r : Row) {c : String} (hc : c ∉ pks) :
    (changeOf pks (mergedCols L U) (unionRowL L U r)).set c = (changeOf pks L r).set c := by
  obtain ⟨hv, hch⟩ := cols_about hL hU c
  have hLc := hL.changed c
  have hUc := hU.changed c
  by_cases h1 : Desc.mk .value c ∈ L <;> by_cases h2 : Desc.mk .value c ∈ U <;>
    by_cases h3 : Desc.mk .changed c ∈ L <;> by_cases h4 : Desc.mk .changed c ∈ U <;>
    simp [h1, h2, h3, h4] at hv hch hLc hUc <;>
    simp [changeOf, hc, unionRowL, unionExpr, unionChanged, unionValue, has, litBool, h1, h2, h3, h4, hv, hch]

theorem set_union_upper (hL : SchemaOk pks L) (hU : SchemaOk pks U) (r : Row) {c : String} (hc : c ∉ pks) :
    (changeOf pks (mergedCols L U) (unionRowU L U r)).set c = (changeOf pks U r).set c := by
  obtain ⟨hv, hch⟩ := cols_about hL hU c
  have hLc := hL.changed c
  have hUc := hU.changed c
  by_cases h1 : Desc.mk .value c ∈ L <;> by_cases h2 : Desc.mk .value c ∈ U <;>
    by_cases h3 : Desc.mk .changed c ∈ L <;> by_cases h4 : Desc.mk .changed c ∈ U <;>
    simp [h1, h2, h3, h4] at hv hch hLc hUc <;>
    simp [changeOf, hc, unionRowU, unionExpr, unionChanged, unionValue, has, litBool, h1, h2, h3, h4, hv, hch]

theorem set_join_lower (hL : SchemaOk pks L) (hU : SchemaOk pks U) (l : Row) {c : String} (hc : c ∉ pks) :
    (changeOf pks (mergedCols L U) (joinRow L U { upper := none, lower := some l })).set c =
      (changeOf pks L l).set c := by
  obtain ⟨hv, hch⟩ := cols_about hL hU c
  have hLc := hL.changed c
  have hUc := hU.changed c
  by_cases h1 : Desc.mk .value c ∈ L <;> by_cases h2 : Desc.mk .value c ∈ U <;>
    by_cases h3 : Desc.mk .changed c ∈ L <;> by_cases h4 : Desc.mk .changed c ∈ U <;>
    simp [h1, h2, h3, h4] at hv hch hLc hUc <;>
    simp [changeOf, hc, joinRow, joinExpr, joinChanged, joinValue, has, litBool, missing, colAt, colL, colU,
      Pos.other, h1, h2, h3, h4, hv, hch]

theorem set_join_upper (hL : SchemaOk pks L) (hU : SchemaOk pks U) (u : Row) {c : String} (hc : c ∉ pks) :
    (changeOf pks (mergedCols L U) (joinRow L U { upper := some u, lower := none })).set c =
      (changeOf pks U u).set c := by
  obtain ⟨hv, hch⟩ := cols_about hL hU c
  have hLc := hL.changed c
  have hUc := hU.changed c
  by_cases h1 : Desc.mk .value c ∈ L <;> by_cases h2 : Desc.mk .value c ∈ U <;>
    by_cases h3 : Desc.mk .changed c ∈ L <;> by_cases h4 : Desc.mk .changed c ∈ U <;>
    simp [h1, h2, h3, h4] at hv hch hLc hUc <;>
    simp [changeOf, hc, joinRow, joinExpr, joinChanged, joinValue, has, litBool, missing, colAt, colL, colU,
      Pos.other, h1, h2, h3, h4, hv, hch]

/-- The assignments of a matched pair. -/
theorem set_join_both (hL : SchemaOk pks L) (hU : SchemaOk pks U) (u l : Row) {c : String} (hc : c ∉ pks) :
    (changeOf pks (mergedCols L U) (joinRow L U { upper := some u, lower := some l })).set c =
      if Desc.mk .value c ∈ U then (changeOf pks U u).set c
      else if Desc.mk .changed c ∈ L then none
      else (changeOf pks L l).set c := by
  obtain ⟨hv, hch⟩ := cols_about hL hU c
  have hLc := hL.changed c
  have hUc := hU.changed c
  by_cases h1 : Desc.mk .value c ∈ L <;> by_cases h2 : Desc.mk .value c ∈ U <;>
    by_cases h3 : Desc.mk .changed c ∈ L <;> by_cases h4 : Desc.mk .changed c ∈ U <;>
    simp [h1, h2, h3, h4] at hv hch hLc hUc <;>
    simp [changeOf, hc, joinRow, joinExpr, joinChanged, joinValue, has, litBool, missing, colAt, colL, colU,
      Pos.other, h1, h2, h3, h4, hv, hch]

/-- A later change continues an earlier one without losing any of its assignments: each column set by
the earlier change is set again, or the later item does not have the column and the earlier item has
no Changed column for it. -/
def Lossless (pks : List String) (L U : Schema) (lower upper : List Row) : Prop :=
  ∀ u ∈ upper, ∀ l ∈ lower, (changeOf pks U u).old ≠ none → (changeOf pks U u).old = (changeOf pks L l).new →
    ∀ c, (changeOf pks L l).set c ≠ none → (changeOf pks U u).set c ≠ none ∨
      (Desc.mk .value c ∉ U ∧ Desc.mk .changed c ∉ L)

theorem change_union_lower (hL : SchemaOk pks L) (hU : SchemaOk pks U) (r : Row) :
    changeOf pks (mergedCols L U) (unionRowL L U r) = changeOf pks L r := by
  apply changeOf_ext
  · intro n hn; simp [unionRowL, (pk_mem hL hU hn).1, unionExpr]
  · intro n hn; simp [unionRowL, (pk_mem hL hU hn).2, unionExpr]
  · intro c hc; exact set_union_lower hL hU r hc

theorem change_union_upper (hL : SchemaOk pks L) (hU : SchemaOk pks U) (r : Row) :
    changeOf pks (mergedCols L U) (unionRowU L U r) = changeOf pks U r := by
  apply changeOf_ext
  · intro n hn; simp [unionRowU, (pk_mem hL hU hn).1, unionExpr]
  · intro n hn; simp [unionRowU, (pk_mem hL hU hn).2, unionExpr]
  · intro c hc; exact set_union_upper hL hU r hc

theorem change_join_lower (hL : SchemaOk pks L) (hU : SchemaOk pks U) (l : Row) :
    changeOf pks (mergedCols L U) (joinRow L U { upper := none, lower := some l }) = changeOf pks L l := by
  apply changeOf_ext
  · intro n hn; simp [joinRow, (pk_mem hL hU hn).1, joinExpr, joinOldPk, missing, colL]
  · intro n hn; simp [joinRow, (pk_mem hL hU hn).2, joinExpr, joinNewPk, missing, colL]
  · intro c hc; exact set_join_lower hL hU l hc

theorem change_join_upper (hL : SchemaOk pks L) (hU : SchemaOk pks U) (u : Row) :
    changeOf pks (mergedCols L U) (joinRow L U { upper := some u, lower := none }) = changeOf pks U u := by
  apply changeOf_ext
  · intro n hn; simp [joinRow, (pk_mem hL hU hn).1, joinExpr, joinOldPk, missing, colU]
  · intro n hn; simp [joinRow, (pk_mem hL hU hn).2, joinExpr, joinNewPk, missing, colU]
  · intro c hc; exact set_join_upper hL hU u hc

theorem change_join_both (hL : SchemaOk pks L) (hU : SchemaOk pks U) (u l : Row)
    (h : ∀ c, (changeOf pks L l).set c ≠ none → (changeOf pks U u).set c ≠ none ∨
      (Desc.mk .value c ∉ U ∧ Desc.mk .changed c ∉ L)) :
    changeOf pks (mergedCols L U) (joinRow L U { upper := some u, lower := some l }) =
      compose (changeOf pks U u) (changeOf pks L l) := by
  have h1 : (changeOf pks (mergedCols L U) (joinRow L U { upper := some u, lower := some l })).old =
      (changeOf pks L l).old := by
    simp only [changeOf]; congr 1; apply List.map_congr_left
    intro n hn; simp [joinRow, (pk_mem hL hU hn).1, joinExpr, joinOldPk, missing, colL]
  have h2 : (changeOf pks (mergedCols L U) (joinRow L U { upper := some u, lower := some l })).new =
      (changeOf pks U u).new := by
    simp only [changeOf]; congr 1; apply List.map_congr_left
    intro n hn; simp [joinRow, (pk_mem hL hU hn).2, joinExpr, joinNewPk, missing, colU]
  have h3 : (changeOf pks (mergedCols L U) (joinRow L U { upper := some u, lower := some l })).set =
      fun c => ((changeOf pks U u).set c).or ((changeOf pks L l).set c) := by
    funext c
    by_cases hc : c ∈ pks
    · simp [changeOf, hc, joinRow, (pk_mem hL hU hc).2, joinExpr, joinNewPk, missing, colU]
    · rw [set_join_both hL hU u l hc]
      by_cases hv : Desc.mk .value c ∈ U
      · rw [if_pos hv]
        cases hu : (changeOf pks U u).set c with
        | some v => rfl
        | none =>
          cases hl : (changeOf pks L l).set c with
          | none => rfl
          | some v =>
            rcases h c (by rw [hl]; simp) with h4 | h4
            · exact absurd hu h4
            · exact absurd hv h4.1
      · rw [if_neg hv]
        have hu : (changeOf pks U u).set c = none := by simp [changeOf, hc, hv]
        rw [hu, Option.none_or]
        by_cases hch : Desc.mk .changed c ∈ L
        · rw [if_pos hch]
          cases hl : (changeOf pks L l).set c with
          | none => rfl
          | some v =>
            rcases h c (by rw [hl]; simp) with h4 | h4
            · exact absurd hu h4
            · exact absurd hch h4.2
        · rw [if_neg hch]
  cases h' : changeOf pks (mergedCols L U) (joinRow L U { upper := some u, lower := some l })
  rw [h'] at h1 h2 h3
  simp only at h1 h2 h3
  simp only [compose]
  rw [h1, h2, h3]

/-! ### the rows of the full join -/

theorem joinMatch_iff (hU : SchemaOk pks U) (hL : SchemaOk pks L) {u l : Row}
    (hpk : pks ≠ [])
    (hw : (∀ n ∈ pks, u ⟨.oldPk, n⟩ = none) ∨ (∀ n ∈ pks, (u ⟨.oldPk, n⟩).isSome)) :
    joinMatch U u l = chMatch (changeOf pks U u) (changeOf pks L l) := by
  have _ := hL
  rw [Bool.eq_iff_iff, chMatch_iff]
  simp only [joinMatch, hU.oldPk, List.all_eq_true, Bool.and_eq_true, decide_eq_true_eq]
  obtain ⟨n0, hn0⟩ := List.exists_mem_of_ne_nil pks hpk
  constructor
  · intro h
    have hs : (changeOf pks U u).old = some (pks.map (fun n => u ⟨.oldPk, n⟩)) := by
      simp only [changeOf]
      rw [toKey_eq_some]
      refine ⟨rfl, u ⟨.oldPk, n0⟩, List.mem_map.2 ⟨n0, hn0, rfl⟩, ?_⟩
      have := (h n0 hn0).2
      intro he; rw [he] at this; simp at this
    refine ⟨by rw [hs]; simp, ?_⟩
    simp only [changeOf]
    congr 1
    exact List.map_congr_left (fun n hn => (h n hn).1)
  · rintro ⟨h1, h2⟩ n hn
    have hall : ∀ n ∈ pks, (u ⟨.oldPk, n⟩).isSome := by
      rcases hw with h3 | h3
      · exfalso
        apply h1
        simp only [changeOf]
        rw [toKey_eq_none]
        intro c hc
        obtain ⟨m, hm, rfl⟩ := List.mem_map.1 hc
        exact h3 m hm
      · exact h3
    refine ⟨?_, hall n hn⟩
    cases hk : (changeOf pks U u).old with
    | none => exact absurd hk h1
    | some k =>
      rw [hk] at h2
      simp only [changeOf] at hk h2
      have h3 := (toKey_eq_some.1 hk).1
      have h4 := (toKey_eq_some.1 h2.symm).1
      rw [← h4] at h3
      exact List.map_inj_left.1 h3 n hn

theorem any_map_comp {α β : Type} (l : List α) (f : α → β) (p : β → Bool) : (l.map f).any p = l.any (p ∘ f) := by
  simp [List.any_map]

/-- The changes of the joined rows. -/
theorem change_fullJoin (hL : SchemaOk pks L) (hU : SchemaOk pks U) (hpk : pks ≠ []) (lower upper : List Row)
    (hw : WholeKeys pks upper) (hl : Lossless pks L U lower upper) :
    ((fullJoin U lower upper).map (joinRow L U)).map (changeOf pks (mergedCols L U)) =
      composeAll (lower.map (changeOf pks L)) (upper.map (changeOf pks U)) := by
  have hm : ∀ u ∈ upper, ∀ l, joinMatch U u l = chMatch (changeOf pks U u) (changeOf pks L l) :=
    fun u hu l => joinMatch_iff hU hL hpk (hw u hu).1
  simp only [fullJoin, composeAll, List.map_append, List.map_flatMap, List.flatMap_map]
  congr 1
  · rw [List.flatMap_def, List.flatMap_def]
    congr 1
    apply List.map_congr_left
    intro u hu
    have ha : lower.any (joinMatch U u) = (lower.map (changeOf pks L)).any (chMatch (changeOf pks U u)) := by
      rw [List.any_map]
      congr 1
      funext l
      exact hm u hu l
    rw [ha]
    split
    · rw [List.filter_map]
      simp only [List.map_map]
      have hf : lower.filter (joinMatch U u) = lower.filter (chMatch (changeOf pks U u) ∘ changeOf pks L) := by
        congr 1
        funext l
        exact hm u hu l
      rw [hf]
      apply List.map_congr_left
      intro l hlm
      obtain ⟨hlm, hmt⟩ := List.mem_filter.1 hlm
      simp only [Function.comp_apply] at hmt ⊢
      rw [chMatch_iff] at hmt
      exact change_join_both hL hU u l (hl u hu l hlm hmt.1 hmt.2)
    · simp only [List.map_cons, List.map_nil]
      rw [change_join_upper hL hU]
  · rw [List.filter_map]
    simp only [List.map_map]
    have hf : lower.filter (fun l => !upper.any (fun u => joinMatch U u l)) =
        lower.filter ((fun l => !(upper.map (changeOf pks U)).any (fun u => chMatch u l)) ∘ changeOf pks L) := by
      congr 1
      funext l
      simp only [Function.comp_apply, List.any_map]
      congr 1
      rw [Bool.eq_iff_iff, List.any_eq_true, List.any_eq_true]
      constructor
      · rintro ⟨u, hu, h⟩; exact ⟨u, hu, by rw [hm u hu l] at h; exact h⟩
      · rintro ⟨u, hu, h⟩; exact ⟨u, hu, by rw [hm u hu l]; exact h⟩
    rw [hf]
    apply List.map_congr_left
    intro l _
    exact change_join_lower hL hU l

/-- Merging two items composes their changes (up to the order of the rows). -/
theorem mergeSyncs_compose (hL : SchemaOk pks L) (hU : SchemaOk pks U) (hpk : pks ≠ [])
    (lower upper : List Row) (hw : WholeKeys pks upper) (hl : Lossless pks L U lower upper)
    {S : Schema} {rows : List Row} (h : mergeSyncs L lower U upper = some (S, rows)) :
    SchemaOk pks S ∧
    (composeAll (lower.map (changeOf pks L)) (upper.map (changeOf pks U))).Perm (rows.map (changeOf pks S)) := by
  simp only [mergeSyncs] at h
  cases ha : appendOnly U upper with
  | none => rw [ha] at h; cases h
  | some b =>
    rw [ha] at h
    cases b with
    | false =>
      simp only [Option.some.injEq] at h
      rw [joinSyncs_eq hL hU] at h
      obtain ⟨rfl, rfl⟩ := Prod.mk.inj h
      exact ⟨mergedCols_ok hL hU, by rw [change_fullJoin hL hU hpk lower upper hw hl]⟩
    | true =>
      simp only [Option.some.injEq] at h
      rw [unionSyncs_eq hL hU] at h
      obtain ⟨rfl, rfl⟩ := Prod.mk.inj h
      refine ⟨mergedCols_ok hL hU, ?_⟩
      -- no upper row has an old key
      have hno : ∀ u ∈ upper, (changeOf pks U u).old = none := by
        intro u hu
        simp only [appendOnly, hU.oldPk] at ha
        cases hh : pks.head? with
        | none => rw [hh] at ha; cases ha
        | some n =>
          rw [hh] at ha
          simp only [Option.some.injEq, List.all_eq_true, Option.isNone_iff_eq_none] at ha
          exact (toKey_whole (f := fun n => u ⟨.oldPk, n⟩) hh (hw u hu).1).1.1 (ha u hu)
      have h1 : composeAll (lower.map (changeOf pks L)) (upper.map (changeOf pks U)) =
          upper.map (changeOf pks U) ++ lower.map (changeOf pks L) := by
        simp only [composeAll]
        congr 1
        · rw [List.flatMap_map, List.flatMap_def]
          have : upper.map (fun a => if (lower.map (changeOf pks L)).any (chMatch (changeOf pks U a)) = true then
              ((lower.map (changeOf pks L)).filter (chMatch (changeOf pks U a))).map (compose (changeOf pks U a))
              else [changeOf pks U a]) = upper.map (fun a => [changeOf pks U a]) := by
            apply List.map_congr_left
            intro u hu
            rw [if_neg]
            rw [List.any_eq_true]
            rintro ⟨l, _, hm⟩
            rw [chMatch_iff] at hm
            exact hm.1 (hno u hu)
          rw [this, ← List.flatMap_def]
          clear this hno hl hw ha
          induction upper with
          | nil => rfl
          | cons a as ih => simp [ih]
        · rw [List.filter_eq_self]
          intro l _
          simp only [Bool.not_eq_true', List.any_eq_false]
          intro u hu hm
          rw [chMatch_iff] at hm
          obtain ⟨u', hu', rfl⟩ := List.mem_map.1 hu
          exact hm.1 (hno u' hu')
      rw [h1, List.map_append, List.map_map, List.map_map]
      have h2 : lower.map (changeOf pks (mergedCols L U) ∘ unionRowL L U) = lower.map (changeOf pks L) :=
        List.map_congr_left (fun r _ => change_union_lower hL hU r)
      have h3 : upper.map (changeOf pks (mergedCols L U) ∘ unionRowU L U) = upper.map (changeOf pks U) :=
        List.map_congr_left (fun r _ => change_union_upper hL hU r)
      rw [h2, h3]
      exact List.perm_append_comm

/-- Merging two items preserves the effect. -/
theorem mergeSyncs_effect (hL : SchemaOk pks L) (hU : SchemaOk pks U) (hpk : pks ≠ [])
    {T : Table} {lower upper : List Row} (hw : WholeKeys pks upper) (hl : Lossless pks L U lower upper)
    (h1 : NetValid T (lower.map (changeOf pks L)))
    (h2 : NetValid (netApply full T (lower.map (changeOf pks L))) (upper.map (changeOf pks U)))
    {S : Schema} {rows : List Row} (h : mergeSyncs L lower U upper = some (S, rows)) :
    SchemaOk pks S ∧ NetValid T (rows.map (changeOf pks S)) ∧
    netApply full T (rows.map (changeOf pks S)) =
      netApply full (netApply full T (lower.map (changeOf pks L))) (upper.map (changeOf pks U)) := by
  obtain ⟨hS, hp⟩ := mergeSyncs_compose hL hU hpk lower upper hw hl h
  have hv := netValid_composeAll h1 h2
  exact ⟨hS, hv.perm hp, by rw [netApply_perm hp hv, netApply_composeAll h1 h2]⟩

end Seafowl.Sync
