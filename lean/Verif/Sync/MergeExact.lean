import Verif.Sync.MergeProps

/-!
# C14 exactly for two items: which updates a merge loses

`C14_merge_partial` asks that no assignment is lost when two items are merged.  Here the result of merging two items is determined
for all schemas, and the condition for it to be right is shown to be necessary.
-/

namespace Seafowl.Sync

variable {pks full : List String} {L U : Schema}

/-- The change that a merge makes of a later change `u` that continues an earlier change `l`. -/
def mergedPair (pks : List String) (L U : Schema) (u l : Change) : Change :=
  { old := l.old, new := u.new
    set := fun c => if c ∈ pks ∨ Desc.mk .value c ∈ U then u.set c else if Desc.mk .changed c ∈ L then none else l.set c }

theorem change_join_any (hL : SchemaOk pks L) (hU : SchemaOk pks U) (u l : Row) :
    changeOf pks (mergedCols L U) (joinRow L U { upper := some u, lower := some l }) =
      mergedPair pks L U (changeOf pks U u) (changeOf pks L l) := by
  have h1 : (changeOf pks (mergedCols L U) (joinRow L U { upper := some u, lower := some l })).old =
      (changeOf pks L l).old := by
    simp only [changeOf]; congr 1; apply List.map_congr_left
    intro n hn; simp [joinRow, (pk_mem hL hU hn).1, joinExpr, joinOldPk, missing, colL]
  have h2 : (changeOf pks (mergedCols L U) (joinRow L U { upper := some u, lower := some l })).new =
      (changeOf pks U u).new := by
    simp only [changeOf]; congr 1; apply List.map_congr_left
    intro n hn; simp [joinRow, (pk_mem hL hU hn).2, joinExpr, joinNewPk, missing, colU]
  have h3 : (changeOf pks (mergedCols L U) (joinRow L U { upper := some u, lower := some l })).set =
      (mergedPair pks L U (changeOf pks U u) (changeOf pks L l)).set := by
    funext c
    by_cases hc : c ∈ pks
    · simp [mergedPair, changeOf, hc, joinRow, (pk_mem hL hU hc).2, joinExpr, joinNewPk, missing, colU]
    · rw [set_join_both hL hU u l hc]
      simp [mergedPair, hc]
  cases h' : changeOf pks (mergedCols L U) (joinRow L U { upper := some u, lower := some l })
  rw [h'] at h1 h2 h3
  simp only at h1 h2 h3
  simp only [mergedPair] at h3 ⊢
  rw [h1, h2, h3]

/-- All changes of both sets, with those that continue each other put together by `f`. -/
def joinAll (f : Change → Change → Change) (N1 N2 : List Change) : List Change :=
  N2.flatMap (fun u =>
    if N1.any (chMatch u) then (N1.filter (chMatch u)).map (f u) else [u]) ++
  N1.filter (fun l => !N2.any (fun u => chMatch u l))

theorem change_fullJoin_any (hL : SchemaOk pks L) (hU : SchemaOk pks U) (hpk : pks ≠ []) (lower upper : List Row)
    (hw : WholeKeys pks upper) :
    ((fullJoin U lower upper).map (joinRow L U)).map (changeOf pks (mergedCols L U)) =
      joinAll (mergedPair pks L U) (lower.map (changeOf pks L)) (upper.map (changeOf pks U)) := by
  have hm : ∀ u ∈ upper, ∀ l, joinMatch U u l = chMatch (changeOf pks U u) (changeOf pks L l) :=
    fun u hu l => joinMatch_iff hU hL hpk (hw u hu).1
  simp only [fullJoin, joinAll, List.map_append, List.map_flatMap, List.flatMap_map]
  congr 1
  · rw [List.flatMap_def, List.flatMap_def]
    congr 1
    apply List.map_congr_left
    intro u hu
    have ha : lower.any (joinMatch U u) = (lower.map (changeOf pks L)).any (chMatch (changeOf pks U u)) := by
      rw [List.any_map]
      congr 1
      funext l
      exact hm u hu l
    rw [ha]
    split
    · rw [List.filter_map]
      simp only [List.map_map]
      have hf : lower.filter (joinMatch U u) = lower.filter (chMatch (changeOf pks U u) ∘ changeOf pks L) := by
        congr 1
        funext l
        exact hm u hu l
      rw [hf]
      apply List.map_congr_left
      intro l _
      exact change_join_any hL hU u l
    · simp only [List.map_cons, List.map_nil]
      rw [change_join_upper hL hU]
  · rw [List.filter_map]
    simp only [List.map_map]
    have hf : lower.filter (fun l => !upper.any (fun u => joinMatch U u l)) =
        lower.filter ((fun l => !(upper.map (changeOf pks U)).any (fun u => chMatch u l)) ∘ changeOf pks L) := by
      congr 1
      funext l
      simp only [Function.comp_apply, List.any_map]
      congr 1
      rw [Bool.eq_iff_iff, List.any_eq_true, List.any_eq_true]
      constructor
      · rintro ⟨u, hu, h⟩; exact ⟨u, hu, by rw [hm u hu l] at h; exact h⟩
      · rintro ⟨u, hu, h⟩; exact ⟨u, hu, by rw [hm u hu l]; exact h⟩
    rw [hf]
    apply List.map_congr_left
    intro l _
    exact change_join_lower hL hU l

/-- What a merge does to changes, in both ways of merging, up to the order of the rows. -/
theorem mergeSyncs_any (hL : SchemaOk pks L) (hU : SchemaOk pks U) (hpk : pks ≠ []) (lower upper : List Row)
    (hw : WholeKeys pks upper) {S : Schema} {rows : List Row} (h : mergeSyncs L lower U upper = some (S, rows)) :
    (joinAll (mergedPair pks L U) (lower.map (changeOf pks L)) (upper.map (changeOf pks U))).Perm
      (rows.map (changeOf pks S)) := by
  have h0 := h
  simp only [mergeSyncs] at h
  cases ha : appendOnly U upper with
  | none => rw [ha] at h; cases h
  | some b =>
    rw [ha] at h
    cases b with
    | false =>
      simp only [Option.some.injEq] at h
      rw [joinSyncs_eq hL hU] at h
      obtain ⟨rfl, rfl⟩ := Prod.mk.inj h
      rw [change_fullJoin_any hL hU hpk lower upper hw]
    | true =>
      have hnone : ∀ u ∈ upper, (changeOf pks U u).old = none := by
        intro u hu
        simp only [appendOnly, hU.oldPk] at ha
        cases hh : pks.head? with
        | none => rw [hh] at ha; cases ha
        | some n =>
          rw [hh] at ha
          simp only [Option.some.injEq, List.all_eq_true, Option.isNone_iff_eq_none] at ha
          have h1 := ha u hu
          exact (toKey_whole (f := fun n => u ⟨.oldPk, n⟩) hh (hw u hu).1).1.1 h1
      have hl : Lossless pks L U lower upper := fun u hu _ _ hne => absurd (hnone u hu) hne
      have h2 := (mergeSyncs_compose hL hU hpk lower upper hw hl h0).2
      have he : joinAll (mergedPair pks L U) (lower.map (changeOf pks L)) (upper.map (changeOf pks U)) =
          composeAll (lower.map (changeOf pks L)) (upper.map (changeOf pks U)) := by
        simp only [joinAll, composeAll, List.flatMap_map]
        congr 1
        rw [List.flatMap_def, List.flatMap_def]
        congr 1
        apply List.map_congr_left
        intro u hu
        have : (lower.map (changeOf pks L)).any (chMatch (changeOf pks U u)) = false := by
          rw [List.any_eq_false]
          intro l _
          simp [chMatch, hnone u hu]
        simp [this]
      rw [he]; exact h2

/-- Lists of changes with the same keys. -/
def SameKeys (N N' : List Change) : Prop := N.map (fun ch => (ch.old, ch.new)) = N'.map (fun ch => (ch.old, ch.new))

theorem NetValid.sameKeys {T : Table} {N N' : List Change} (h : SameKeys N N') (hv : NetValid T N) : NetValid T N' := by
  have ho : N.map (·.old) = N'.map (·.old) := by
    have := congrArg (List.map Prod.fst) h
    simpa [Function.comp_def] using this
  have hn : N.map (·.new) = N'.map (·.new) := by
    have := congrArg (List.map Prod.snd) h
    simpa [Function.comp_def] using this
  have hmem : ∀ {k : Option Key}, (∃ ch ∈ N', ch.old = k) ↔ (∃ ch ∈ N, ch.old = k) := by
    intro k
    have h1 : k ∈ N.map (·.old) ↔ k ∈ N'.map (·.old) := by rw [ho]
    simpa [List.mem_map] using h1.symm
  have hmemn : ∀ {k : Option Key}, (∃ ch ∈ N', ch.new = k) ↔ (∃ ch ∈ N, ch.new = k) := by
    intro k
    have h1 : k ∈ N.map (·.new) ↔ k ∈ N'.map (·.new) := by rw [hn]
    simpa [List.mem_map] using h1.symm
  constructor
  · have h1 : (N.map (·.old)).Pairwise (fun a b => a ≠ none → a ≠ b) := List.pairwise_map.2 hv.olds
    rw [ho] at h1
    exact List.pairwise_map.1 h1
  · have h1 : (N.map (·.new)).Pairwise (fun a b => a ≠ none → a ≠ b) := List.pairwise_map.2 hv.news
    rw [hn] at h1
    exact List.pairwise_map.1 h1
  · intro ch hch k hk
    obtain ⟨ch', h1, h2⟩ := hmem.1 ⟨ch, hch, hk⟩
    exact hv.exist ch' h1 k h2
  · intro ch hch k hk
    obtain ⟨ch', h1, h2⟩ := hmemn.1 ⟨ch, hch, hk⟩
    rcases hv.free ch' h1 k h2 with h3 | h3
    · exact Or.inl h3
    · exact Or.inr (hmem.2 h3)

theorem joinAll_sameKeys (f g : Change → Change → Change) (hf : ∀ u l, (f u l).old = (g u l).old ∧ (f u l).new = (g u l).new)
    (N1 N2 : List Change) : SameKeys (joinAll f N1 N2) (joinAll g N1 N2) := by
  simp only [SameKeys, joinAll, List.map_append, List.map_flatMap]
  congr 1
  rw [List.flatMap_def, List.flatMap_def]
  congr 1
  apply List.map_congr_left
  intro u _
  split
  · simp only [List.map_map]
    apply List.map_congr_left
    intro l _
    simp [hf u l]
  · rfl

/-- Two valid sets of changes with the same keys have the same effect exactly if the written rows agree. -/
theorem netApply_sameKeys {T : Table} {N1 N2 : List Change} (f g : Change → Change → Change)
    (hf : ∀ u l, (f u l).old = (g u l).old ∧ (f u l).new = (g u l).new)
    (hv : NetValid T (joinAll f N1 N2)) :
    netApply full T (joinAll f N1 N2) = netApply full T (joinAll g N1 N2) ↔
    ∀ u ∈ N2, ∀ l ∈ N1, u.old ≠ none → u.old = l.new → ∀ k, (f u l).new = some k →
      write full (baseOf T (f u l).old) (f u l).set = write full (baseOf T (f u l).old) (g u l).set := by
  have hv' : NetValid T (joinAll g N1 N2) := hv.sameKeys (joinAll_sameKeys f g hf N1 N2)
  have hmem : ∀ (h : Change → Change → Change) {ch : Change}, ch ∈ joinAll h N1 N2 ↔
      (∃ u ∈ N2, ∃ l ∈ N1, u.old ≠ none ∧ u.old = l.new ∧ ch = h u l) ∨
      (ch ∈ N2 ∧ N1.any (chMatch ch) = false) ∨ (ch ∈ N1 ∧ N2.any (fun u => chMatch u ch) = false) := by
    intro h ch
    simp only [joinAll, List.mem_append, List.mem_flatMap, List.mem_filter, Bool.not_eq_true']
    constructor
    · rintro (⟨u, hu, hx⟩ | hx)
      · split at hx
        · obtain ⟨l, hl, rfl⟩ := List.mem_map.1 hx
          obtain ⟨hl, hm⟩ := List.mem_filter.1 hl
          rw [chMatch_iff] at hm
          exact Or.inl ⟨u, hu, l, hl, hm.1, hm.2, rfl⟩
        · next hno =>
          simp only [List.mem_singleton] at hx
          subst hx
          exact Or.inr (Or.inl ⟨hu, by simpa using hno⟩)
      · exact Or.inr (Or.inr hx)
    · rintro (⟨u, hu, l, hl, h1, h2, rfl⟩ | ⟨hu, hno⟩ | hx)
      · refine Or.inl ⟨u, hu, ?_⟩
        have hm : chMatch u l = true := chMatch_iff.2 ⟨h1, h2⟩
        rw [if_pos (List.any_eq_true.2 ⟨l, hl, hm⟩)]
        exact List.mem_map.2 ⟨l, List.mem_filter.2 ⟨hl, hm⟩, rfl⟩
      · exact Or.inl ⟨ch, hu, by simp [hno]⟩
      · exact Or.inr hx
  constructor
  · intro he u hu l hl h1 h2 k hk
    have ha := netApply_new (full := full) hv ((hmem f).2 (Or.inl ⟨u, hu, l, hl, h1, h2, rfl⟩)) hk
    have hb := netApply_new (full := full) hv' ((hmem g).2 (Or.inl ⟨u, hu, l, hl, h1, h2, rfl⟩))
      (by rw [← (hf u l).2]; exact hk)
    rw [he, hb] at ha
    injection ha with ha
    rw [(hf u l).1, ha, (hf u l).1]
  · intro hall
    apply netApply_of
    · intro ch hch k hk
      rcases (hmem f).1 hch with ⟨u, hu, l, hl, h1, h2, rfl⟩ | h3
      · rw [netApply_new (full := full) hv' ((hmem g).2 (Or.inl ⟨u, hu, l, hl, h1, h2, rfl⟩))
          (by rw [← (hf u l).2]; exact hk), hall u hu l hl h1 h2 k hk, (hf u l).1]
      · exact netApply_new hv' ((hmem g).2 (Or.inr h3)) hk
    · rintro k hk ⟨ch, hch, hck⟩
      have hs := joinAll_sameKeys f g hf N1 N2
      have hkeys : ∀ ch' ∈ joinAll g N1 N2, ∃ ch ∈ joinAll f N1 N2, ch.old = ch'.old ∧ ch.new = ch'.new := by
        intro ch' hch'
        have : (ch'.old, ch'.new) ∈ (joinAll f N1 N2).map (fun ch => (ch.old, ch.new)) := by
          rw [hs]; exact List.mem_map.2 ⟨ch', hch', rfl⟩
        obtain ⟨x, hx, hxe⟩ := List.mem_map.1 this
        injection hxe with h1 h2
        exact ⟨x, hx, h1, h2⟩
      have hkeys' : ∃ ch' ∈ joinAll g N1 N2, ch'.old = some k := by
        have : (ch.old, ch.new) ∈ (joinAll g N1 N2).map (fun ch => (ch.old, ch.new)) := by
          rw [← hs]; exact List.mem_map.2 ⟨ch, hch, rfl⟩
        obtain ⟨x, hx, hxe⟩ := List.mem_map.1 this
        injection hxe with h1 h2
        exact ⟨x, hx, by rw [h1, hck]⟩
      obtain ⟨ch', hch', hck'⟩ := hkeys'
      refine netApply_gone ?_ ⟨ch', hch', hck'⟩
      intro x hx hxk
      obtain ⟨y, hy, -, hyn⟩ := hkeys x hx
      exact hk y hy (by rw [hyn, hxk])
    · intro k hk hko
      have hs := joinAll_sameKeys f g hf N1 N2
      have hkeys : ∀ ch' ∈ joinAll g N1 N2, ∃ ch ∈ joinAll f N1 N2, ch.old = ch'.old ∧ ch.new = ch'.new := by
        intro ch' hch'
        have : (ch'.old, ch'.new) ∈ (joinAll f N1 N2).map (fun ch => (ch.old, ch.new)) := by
          rw [hs]; exact List.mem_map.2 ⟨ch', hch', rfl⟩
        obtain ⟨x, hx, hxe⟩ := List.mem_map.1 this
        injection hxe with h1 h2
        exact ⟨x, hx, h1, h2⟩
      refine netApply_other ?_ ?_
      · intro x hx hxk
        obtain ⟨y, hy, -, hyn⟩ := hkeys x hx
        exact hk y hy (by rw [hyn, hxk])
      · intro x hx hxk
        obtain ⟨y, hy, hyo, -⟩ := hkeys x hx
        exact hko y hy (by rw [hyo, hxk])

/-- **C14 (exactly, for two items).** Two items that make sense one after the other are merged into one that has their effect if
*and only if* no update is lost: whenever a change of the second continues a change of the first, each column of the table that
the first sets and the second does not is set by the first to the value that was stored anyway — unless the second item does not
have the column at all and the first has no Changed column for it. -/
theorem C14_two_items_iff (hpk : pks ≠ []) (T : Table) (a b : SItem)
    (ha : SchemaOk pks a.1) (hb : SchemaOk pks b.1 ∧ WholeKeys pks b.2) (hv : ValidItems pks full T [a, b]) :
    ∃ S rows, squashSyncs [a, b] = some (S, rows) ∧
      (netApply full T (rows.map (changeOf pks S)) = applyItems pks full T [a, b] ↔
        ∀ u ∈ itemChanges pks b, ∀ l ∈ itemChanges pks a, u.old ≠ none → u.old = l.new → u.new ≠ none →
          ∀ c ∈ full, ∀ v, l.set c = some v → u.set c = none →
            (Desc.mk .value c ∉ b.1 ∧ Desc.mk .changed c ∉ a.1) ∨ v = baseOf T l.old c) := by
  obtain ⟨⟨S, rows⟩, hm⟩ := merge_defined (L := a.1) hb.1 hpk a.2 b.2
  refine ⟨S, rows, by simp [squashSyncs, mergeAll, hm], ?_⟩
  have hv1 : NetValid T (itemChanges pks a) := hv.1
  have hv2 : NetValid (netApply full T (itemChanges pks a)) (itemChanges pks b) := hv.2.1
  have hcv : NetValid T (composeAll (itemChanges pks a) (itemChanges pks b)) := netValid_composeAll hv1 hv2
  have hce := netApply_composeAll hv1 hv2
  have hp := mergeSyncs_any ha hb.1 hpk a.2 b.2 hb.2 hm
  have hcj : composeAll (itemChanges pks a) (itemChanges pks b) = joinAll compose (itemChanges pks a) (itemChanges pks b) := rfl
  have hkeys : ∀ u l : Change, (mergedPair pks a.1 b.1 u l).old = (compose u l).old ∧
      (mergedPair pks a.1 b.1 u l).new = (compose u l).new := fun u l => ⟨rfl, rfl⟩
  have hmv : NetValid T (joinAll (mergedPair pks a.1 b.1) (itemChanges pks a) (itemChanges pks b)) :=
    (hcj ▸ hcv).sameKeys (joinAll_sameKeys compose (mergedPair pks a.1 b.1) (fun u l => ⟨rfl, rfl⟩) _ _)
  have happ : applyItems pks full T [a, b] = netApply full T (joinAll compose (itemChanges pks a) (itemChanges pks b)) := by
    rw [← hcj, hce]; rfl
  have hpe : netApply full T (rows.map (changeOf pks S)) =
      netApply full T (joinAll (mergedPair pks a.1 b.1) (itemChanges pks a) (itemChanges pks b)) :=
    netApply_perm (full := full) hp hmv
  rw [happ, hpe]
  rw [netApply_sameKeys _ _ hkeys hmv]
  have hset : ∀ ch ∈ itemChanges pks b, ∀ c, c ∈ pks → ch.set c ≠ none := by
    intro ch hch c hc
    obtain ⟨r, _, rfl⟩ := List.mem_map.1 hch
    simp [changeOf, hc]
  have hval : ∀ ch ∈ itemChanges pks b, ∀ c, c ∉ pks → Desc.mk .value c ∉ b.1 → ch.set c = none := by
    intro ch hch c hc hv
    obtain ⟨r, _, rfl⟩ := List.mem_map.1 hch
    simp [changeOf, hc, hv]
  constructor
  · intro hall u hu l hl h1 h2 h3 c hc v hlv hun
    obtain ⟨k, hk⟩ := Option.ne_none_iff_exists'.1 h3
    have h4 := congrFun (hall u hu l hl h1 h2 k hk) c
    have hcp : c ∉ pks := fun h => hset u hu c h hun
    by_cases hvc : Desc.mk .value c ∈ b.1
    · right
      simp only [write, hc, if_true, mergedPair, compose, hvc, or_true, hun, hlv, Option.none_or, Option.getD_none,
        Option.getD_some] at h4
      exact h4.symm
    · by_cases hch : Desc.mk .changed c ∈ a.1
      · right
        simp only [write, hc, if_true, mergedPair, compose, hvc, hcp, or_self, if_false, hch, hun, hlv, Option.none_or,
          Option.getD_none, Option.getD_some] at h4
        exact h4.symm
      · exact Or.inl ⟨hvc, hch⟩
  · intro hall u hu l hl h1 h2 k hk
    funext c
    simp only [write]
    split
    · next hc =>
      simp only [mergedPair, compose]
      by_cases hcp : c ∈ pks
      · obtain ⟨w, hw⟩ := Option.ne_none_iff_exists'.1 (hset u hu c hcp)
        simp [hcp, hw]
      · have hpair := hall u hu l hl h1 h2 (by rw [show u.new = some k from hk]; simp) c hc
        by_cases hvc : Desc.mk .value c ∈ b.1
        · cases hus : u.set c with
          | some w => simp [hvc]
          | none =>
            cases hls : l.set c with
            | none => simp [hvc]
            | some v =>
              rcases hpair v hls hus with h5 | h5
              · exact absurd hvc h5.1
              · simp [hvc, h5]
        · have hus := hval u hu c hcp hvc
          by_cases hch : Desc.mk .changed c ∈ a.1
          · cases hls : l.set c with
            | none => simp [hcp, hvc, hch, hus]
            | some v =>
              rcases hpair v hls hus with h5 | h5
              · exact absurd hch h5.2
              · simp [hcp, hvc, hch, hus, h5]
          · simp [hcp, hvc, hch, hus]
    · rfl

/-- **C14 is violated by every two items** of which the second updates a row that the first has updated, and either has the
column with a Changed column saying that it is not changed, or lacks the column while the first item has a Changed column: if the
first item gave the column a new value, the value is lost. -/
theorem C14_violated_changed_column_always (hpk : pks ≠ []) (T : Table) (a b : SItem)
    (ha : SchemaOk pks a.1) (hb : SchemaOk pks b.1 ∧ WholeKeys pks b.2) (hv : ValidItems pks full T [a, b])
    (u l : Change) (hu : u ∈ itemChanges pks b) (hl : l ∈ itemChanges pks a) (ho : u.old ≠ none) (hm : u.old = l.new)
    (hn : u.new ≠ none) (c : String) (hc : c ∈ full) (v : Cell) (hlv : l.set c = some v) (hun : u.set c = none)
    (hcol : Desc.mk .value c ∈ b.1 ∨ Desc.mk .changed c ∈ a.1) (hnew : v ≠ baseOf T l.old c) :
    ∃ S rows, squashSyncs [a, b] = some (S, rows) ∧
      netApply full T (rows.map (changeOf pks S)) ≠ applyItems pks full T [a, b] := by
  obtain ⟨S, rows, h1, h2⟩ := C14_two_items_iff (full := full) hpk T a b ha hb hv
  refine ⟨S, rows, h1, fun he => ?_⟩
  rcases h2.1 he u hu l hl ho hm hn c hc v hlv hun with h3 | h3
  · rcases hcol with h4 | h4
    · exact h3.1 h4
    · exact h3.2 h4
  · exact hnew h3

/-- **C14 is violated by every three items** without Changed columns that update one row in turn, if the first has a column that
the other two lack and gives it a new value: the merge of the first two adds a Changed column, and the merge with the third then
loses the value. -/
theorem C14_violated_three_columns_always (hpk : pks ≠ []) (T : Table) (a b d : SItem)
    (ha : SchemaOk pks a.1 ∧ WholeKeys pks a.2) (hb : SchemaOk pks b.1 ∧ WholeKeys pks b.2)
    (hd : SchemaOk pks d.1 ∧ WholeKeys pks d.2)
    (hca : ∀ c, Desc.mk .changed c ∉ a.1) (hcb : ∀ c, Desc.mk .changed c ∉ b.1)
    (hv : ValidItems pks full T [a, b, d])
    (l m u : Change) (hl : l ∈ itemChanges pks a) (hm : m ∈ itemChanges pks b) (hu : u ∈ itemChanges pks d)
    (hmo : m.old ≠ none) (hml : m.old = l.new) (huo : u.old ≠ none) (hum : u.old = m.new) (hun : u.new ≠ none)
    (c : String) (hc : c ∈ full) (hcp : c ∉ pks) (hcv : Desc.mk .value c ∈ a.1) (hcb' : Desc.mk .value c ∉ b.1)
    (hcd : Desc.mk .value c ∉ d.1) (v : Cell) (hlv : l.set c = some v) (hnew : v ≠ baseOf T l.old c) :
    ∃ S rows, squashSyncs [a, b, d] = some (S, rows) ∧
      netApply full T (rows.map (changeOf pks S)) ≠ applyItems pks full T [a, b, d] := by
  have hv2 : ValidItems pks full T [a, b] := ⟨hv.1, hv.2.1, trivial⟩
  obtain ⟨S, rows, hsq, hS, hw, hval, heff⟩ := C14_two_items (full := full) hpk T a b ha hb hca hcb hv2
  have hmer : mergeSyncs a.1 a.2 b.1 b.2 = some (S, rows) := by
    simp only [squashSyncs, mergeAll] at hsq
    split at hsq
    · cases hsq
    · next acc hacc => rw [hacc]; simpa using hsq
  have hin : mergedPair pks a.1 b.1 m l ∈ itemChanges pks (S, rows) := by
    have hp := mergeSyncs_any ha.1 hb.1 hpk a.2 b.2 hb.2 hmer
    refine hp.mem_iff.1 ?_
    simp only [joinAll, List.mem_append, List.mem_flatMap]
    refine Or.inl ⟨m, hm, ?_⟩
    have hmt : chMatch m l = true := chMatch_iff.2 ⟨hmo, hml⟩
    have hl' : l ∈ a.2.map (changeOf pks a.1) := hl
    rw [if_pos (List.any_eq_true.2 ⟨l, hl', hmt⟩)]
    exact List.mem_map.2 ⟨l, List.mem_filter.2 ⟨hl, hmt⟩, rfl⟩
  have hch : Desc.mk .changed c ∈ S := by
    rw [merge_schema ha.1 hb.1 hmer, (cols_about ha.1 hb.1 c).2]
    exact Or.inr (Or.inr (Or.inl ⟨hcv, hcb'⟩))
  have hus : u.set c = none := by
    obtain ⟨r, _, rfl⟩ := List.mem_map.1 hu
    simp [changeOf, hcp, hcd]
  have hv3 : ValidItems pks full T [(S, rows), d] := by
    refine ⟨hval, ?_, trivial⟩
    have h1 : netApply full T (itemChanges pks (S, rows)) =
        netApply full (netApply full T (itemChanges pks a)) (itemChanges pks b) := heff
    rw [h1]
    exact hv.2.2.1
  obtain ⟨S', rows', h1, h2⟩ := C14_violated_changed_column_always (full := full) hpk T (S, rows) d hS hd hv3 u
    (mergedPair pks a.1 b.1 m l) hu hin huo hum hun c hc v
    (by simp [mergedPair, hcp, hcb', hca c, hlv]) hus (Or.inr hch) hnew
  refine ⟨S', rows', ?_, ?_⟩
  · simp only [squashSyncs, mergeAll, hmer] at h1 ⊢
    exact h1
  · have h3 : applyItems pks full T [(S, rows), d] = applyItems pks full T [a, b, d] := by
      have h4 : netApply full T (itemChanges pks (S, rows)) =
          netApply full (netApply full T (itemChanges pks a)) (itemChanges pks b) := heff
      simp only [applyItems, List.foldl_cons, List.foldl_nil]
      rw [h4]
    rw [← h3]
    exact h2

open SqDemo MgDemo in
/-- Three such items. -/
example : ValidItems ["id"] ["id", "c", "d", "e"] T5 threeItems ∧ (∀ it ∈ threeItems, ∀ c ∈ ["c", "d", "e"], Desc.mk .changed c ∉ it.1) ∧
    threeItems.map (fun it => it.1.map (·.name)) = [["id", "id", "c"], ["id", "id", "d"], ["id", "id", "e"]] := by
  refine ⟨?_, by decide, by decide⟩
  simp only [threeItems, ValidItems, and_true]
  refine ⟨?_, ?_, ?_⟩ <;> refine netValid_of ?_ ?_ ?_ ?_ <;> decide

open SqDemo MgDemo in
/-- The hypotheses of the first two can be met: an item with a Changed column for `v`, then one with another column, of the same row. -/
example : ValidItems ["id"] ["id", "v", "d"] T1 [(S1, [r1 (i 1) (i 1) (i 11) (t true)]), (S5 "d", [r5 "d" (i 1) (i 1) (i 20)])] ∧
    (Desc.mk .changed "v") ∈ S1 ∧
    ((changeOf ["id"] S1 (r1 (i 1) (i 1) (i 11) (t true))).set "v") = some (i 11) ∧
    baseOf T1 (changeOf ["id"] S1 (r1 (i 1) (i 1) (i 11) (t true))).old "v" ≠ i 11 := by
  refine ⟨?_, by decide, by decide, by decide⟩
  simp only [ValidItems, and_true]
  refine ⟨?_, ?_⟩ <;> refine netValid_of ?_ ?_ ?_ ?_ <;> decide

end Seafowl.Sync
