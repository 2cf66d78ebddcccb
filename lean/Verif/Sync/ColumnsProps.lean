import Verif.Sync.Columns
import Verif.Sync.MergeProps

/-!
# C134: no column of a replicated change gets lost
-/

namespace Seafowl.Sync

variable {pks full : List String}

/-! ### specification

The changes applied one by one to a table that can take any column. -/

/-- Effect of one change; every assigned column is kept. -/
def takeChange (T : Table) (ch : Change) : Table := fun k =>
  if ch.new = some k then some (fun c => (ch.set c).getD (baseOf T ch.old c))
  else if ch.old = some k then none
  else T k

/-- Effect of a stream of changes. -/
def takeAll (T : Table) (chs : List Change) : Table := chs.foldl takeChange T

/-- The table without any row. -/
def noRows : Table := fun _ => none

/-- A change assigns only the listed columns. -/
def Within (cols : List String) (ch : Change) : Prop := ∀ c, ch.set c ≠ none → c ∈ cols

/-- The table has values only in the listed columns. -/
def TableWithin (cols : List String) (T : Table) : Prop := ∀ k r, T k = some r → ∀ c, c ∉ cols → r c = none

/-! ### lemmas -/

theorem baseOf_within {T : Table} (h : TableWithin full T) (o : Option Key) {c : String} (hc : c ∉ full) :
    baseOf T o c = none := by
  cases o with
  | none => rfl
  | some k =>
    simp only [baseOf]
    cases hk : T k with
    | none => rfl
    | some r => exact h k r hk c hc

theorem apply1_take {T : Table} (h : TableWithin full T) {ch : Change} (hw : Within full ch) :
    apply1 full T ch = takeChange T ch := by
  funext k
  simp only [apply1, takeChange]
  have : write full (baseOf T ch.old) ch.set = fun c => (ch.set c).getD (baseOf T ch.old c) := by
    funext c
    simp only [write]
    split
    · rfl
    · next hc =>
      have h1 : ch.set c = none := Classical.byContradiction (fun h' => hc (hw c h'))
      rw [h1, baseOf_within h _ hc]; rfl
  rw [this]

theorem apply1_within {T : Table} (h : TableWithin full T) (ch : Change) : TableWithin full (apply1 full T ch) := by
  intro k r hr c hc
  simp only [apply1] at hr
  split at hr
  · injection hr with hr; subst hr; simp [write, hc]
  · split at hr
    · cases hr
    · exact h k r hr c hc

theorem replay_take : ∀ {chs : List Change} {T : Table}, TableWithin full T →
    (∀ ch ∈ chs, Within full ch) → replay full T chs = takeAll T chs := by
  intro chs
  induction chs with
  | nil => intro T _ _; rfl
  | cons ch rest ih =>
    intro T h hw
    simp only [replay, takeAll, List.foldl_cons]
    rw [← apply1_take h (hw ch (by simp))]
    exact ih (apply1_within h ch) (fun x hx => hw x (by simp [hx]))

theorem mem_createdCols {S : Schema} {c : String} :
    c ∈ createdCols S ↔ Desc.mk .newPk c ∈ S ∨ Desc.mk .value c ∈ S := by
  simp only [createdCols, List.mem_map, List.mem_filter, Bool.or_eq_true, decide_eq_true_eq]
  constructor
  · rintro ⟨⟨role, name⟩, ⟨hd, hr⟩, rfl⟩
    rcases hr with hr | hr <;> simp only at hr <;> subst hr
    · exact Or.inl hd
    · exact Or.inr hd
  · rintro (h | h)
    · exact ⟨_, ⟨h, Or.inl rfl⟩, rfl⟩
    · exact ⟨_, ⟨h, Or.inr rfl⟩, rfl⟩

theorem tableOf_within {rows : List TRow} (h : ∀ r ∈ rows, ∀ c, c ∉ full → r c = none) :
    TableWithin full (tableOf pks rows) := by
  intro k r hr c hc
  exact h r (List.mem_of_find?_eq_some hr) c hc

theorem changeOf_within {S : Schema} {cols : List String} (hk : ∀ n ∈ pks, n ∈ cols)
    (hv : ∀ c, Desc.mk .value c ∈ S → c ∈ cols) (r : Row) : Within cols (changeOf pks S r) := by
  intro c hc
  simp only [changeOf] at hc
  split at hc
  · next h => exact hk c h
  · split at hc
    · next h => exact hv c h
    · exact absurd rfl hc

/-! ### what holds -/

/-- **C134**, columns of a new table: it gets exactly the key columns and the value columns of the first
change set in the buffer, each once, in their order; an existing table keeps its columns. -/
theorem C134_columns {t : Stored} {items : List SItem} {cols : List String} {rows : List TRow}
    (hok : ∀ it ∈ items, SchemaOk pks it.1) (h : flushStored t items = some (cols, rows)) :
    (∀ x, t = some x → cols = x.1) ∧
    (t = none → ∃ it rest, items = it :: rest ∧ cols.Nodup ∧ (∀ n ∈ pks, n ∈ cols) ∧
      (∀ c, c ∈ cols ↔ c ∈ pks ∨ Desc.mk .value c ∈ it.1) ∧
      ∃ ds : List Desc, ds.Sublist it.1 ∧ ds.map (·.name) = cols) := by
  cases t with
  | some x =>
    refine ⟨fun y hy => ?_, fun h0 => (by cases h0)⟩
    injection hy with hy; subst hy
    simp only [flushStored, openOrCreate] at h
    cases hf : flushRows x.1 items x.2 with
    | none => rw [hf] at h; cases h
    | some out => rw [hf] at h; injection h with h; exact (Prod.mk.inj h).1.symm
  | none =>
    refine ⟨fun x hx => (by cases hx), fun _ => ?_⟩
    cases items with
    | nil => simp [flushStored, openOrCreate] at h
    | cons it rest =>
      simp only [flushStored, openOrCreate] at h
      cases hf : flushRows (createdCols it.1) (it :: rest) [] with
      | none => rw [hf] at h; cases h
      | some out =>
        rw [hf] at h; injection h with h
        obtain ⟨rfl, _⟩ := Prod.mk.inj h
        have hs := hok it (by simp)
        have hpk : ∀ c, Desc.mk .newPk c ∈ it.1 ↔ c ∈ pks := fun c => by rw [← mem_names, hs.newPk]
        refine ⟨it, rest, rfl, ?_, fun n hn => mem_createdCols.2 (Or.inl ((hpk n).2 hn)), ?_,
          _, List.filter_sublist, rfl⟩
        · rw [createdCols]
          have hnd := hs.nodup.sublist (List.filter_sublist
            (p := fun d => decide (d.role = .newPk) || decide (d.role = .value)))
          rw [List.Nodup, List.pairwise_map]
          refine List.Pairwise.imp_of_mem ?_ hnd
          rintro ⟨r1, n1⟩ ⟨r2, n2⟩ h1 h2 hne heq
          simp only at heq
          subst heq
          simp only [List.mem_filter, Bool.or_eq_true, decide_eq_true_eq] at h1 h2
          obtain ⟨h1, h1'⟩ := h1
          obtain ⟨h2, h2'⟩ := h2
          rcases h1' with h1' | h1' <;> rcases h2' with h2' | h2' <;> subst h1' <;> subst h2'
          · exact hne rfl
          · exact hs.noPk _ h2 ((hpk _).1 h1)
          · exact hs.noPk _ h1 ((hpk _).1 h2)
          · exact hne rfl
        · intro c
          rw [mem_createdCols, hpk]

/-- **C134**, as far as it holds, for an existing table: replaying the changes on the columns of the
table is the same as taking every column of every change, provided no change set has a column that the
table lacks. -/
theorem C134_known_columns_partial (hk : ∀ n ∈ pks, n ∈ full) (base : List TRow) (hb : Keyed pks full base)
    (items : List SItem) (hv : ∀ it ∈ items, ∀ c, Desc.mk .value c ∈ it.1 → c ∈ full) :
    replay full (tableOf pks base) (allChanges pks items) = takeAll (tableOf pks base) (allChanges pks items) := by
  refine replay_take (tableOf_within hb.cols) ?_
  intro ch hch
  simp only [allChanges, itemChanges, List.mem_flatMap, List.mem_map] at hch
  obtain ⟨it, hit, r, _, rfl⟩ := hch
  exact changeOf_within hk (hv it hit) r

/-- **C134**, as far as it holds, for an existing table with one key column and change sets that have all
its columns: after the flush the table holds every column of every change. -/
theorem C134_existing_partial (n : String) (hn : n ∈ full) (base : List TRow) (hb : Keyed [n] full base)
    (items outs : List SItem) (hne : items ≠ []) (hsq : SquashedItems items outs)
    (hok : ∀ it ∈ items, SchemaOk [n] it.1 ∧ ∀ c, Desc.mk .changed c ∉ it.1)
    (hall : ∀ it ∈ items, ∀ c, Desc.mk .value c ∈ it.1 ↔ c ∈ full ∧ c ≠ n)
    (hv : ValidSeq full (tableOf [n] base) (allChanges [n] items)) :
    ∃ rows, flushStored (some (full, base)) outs = some (full, rows) ∧ Keyed [n] full rows ∧
      tableOf [n] rows = takeAll (tableOf [n] base) (allChanges [n] items) := by
  obtain ⟨out, h1, h2, h3⟩ := C16_full_rows n hn base hb items outs hne hsq hok hall hv
  refine ⟨out, by simp only [flushStored, openOrCreate, h1]; rfl, h2, ?_⟩
  rw [h3]
  exact C134_known_columns_partial (by simpa using hn) base hb items (fun it hit c hc => ((hall it hit c).1 hc).1)

/-- **C134**, as far as it holds, for a new table with one key column: if all change sets in the buffer
have the same columns, the first flush makes a table that holds every column of every change. -/
theorem C134_new_table_partial (n : String) (first : SItem) (rest : List SItem) (outs : List SItem)
    (hsq : SquashedItems (first :: rest) outs)
    (hok : ∀ it ∈ first :: rest, SchemaOk [n] it.1 ∧ ∀ c, Desc.mk .changed c ∉ it.1)
    (hall : ∀ it ∈ rest, ∀ c, Desc.mk .value c ∈ it.1 ↔ Desc.mk .value c ∈ first.1)
    (hv : ValidSeq (createdCols first.1) noRows (allChanges [n] (first :: rest))) :
    ∃ cols rows, flushStored none outs = some (cols, rows) ∧ Keyed [n] cols rows ∧
      tableOf [n] rows = takeAll noRows (allChanges [n] (first :: rest)) := by
  have hf := (hok first (by simp)).1
  have hnp : ∀ c, Desc.mk .newPk c ∈ first.1 ↔ c = n := fun c => by
    rw [← mem_names, hf.newPk]; simp
  have hn : n ∈ createdCols first.1 := mem_createdCols.2 (Or.inl ((hnp n).2 rfl))
  have hcv : ∀ c, Desc.mk .value c ∈ first.1 ↔ c ∈ createdCols first.1 ∧ c ≠ n := by
    intro c
    rw [mem_createdCols, hnp]
    constructor
    · intro h
      have := hf.noPk c h
      exact ⟨Or.inr h, by simpa using this⟩
    · rintro ⟨h | h, hne⟩
      · exact absurd h hne
      · exact h
  have hkb : Keyed [n] (createdCols first.1) [] := ⟨by simp, by simp, by simp⟩
  have htab : tableOf [n] [] = noRows := rfl
  obtain ⟨out, h1, h2, h3⟩ := C16_full_rows n hn [] hkb (first :: rest) outs (by simp) hsq hok
    (by
      intro it hit c
      rcases List.mem_cons.1 hit with rfl | hit
      · exact hcv c
      · rw [hall it hit, hcv])
    (by rw [htab]; exact hv)
  have hens : openOrCreate none outs = some (createdCols first.1, []) := by
    cases hsq with
    | cons hs hr => rfl
  refine ⟨_, out, ?_, h2, ?_⟩
  · simp only [flushStored, hens, h1]; rfl
  · rw [h3]
    rw [C134_known_columns_partial (pks := [n]) (full := createdCols first.1) (by simpa using hn) [] hkb, htab]
    intro it hit c hc
    rcases List.mem_cons.1 hit with rfl | hit
    · exact ((hcv c).1 hc).1
    · exact ((hcv c).1 ((hall it hit c).1 hc)).1

/-! ### what does not hold -/

/-- **C134 is violated**: whatever is flushed, a column that the table does not have (for a new table:
that the first change set does not have) stays without values.  So if the changes leave a value in it,
the table differs from what was sent, although the flush succeeds. -/
theorem C134_violated_dropped {t : Stored} {items : List SItem} {cols : List String} {rows : List TRow}
    (h : flushStored t items = some (cols, rows)) {c : String} (hc : c ∉ cols) :
    (∀ r ∈ rows, r c = none) ∧
    ∀ (T : Table) (sent : List Change), (∃ k r, takeAll T sent k = some r ∧ r c ≠ none) →
      tableOf pks rows ≠ takeAll T sent := by
  have hr : ∀ r ∈ rows, r c = none := by
    simp only [flushStored] at h
    split at h
    · cases h
    · next cols' rows' he =>
      simp only [flushRows] at h
      split at h
      · cases h
      · split at h
        · cases h
        · simp only [Option.map_some, Option.some.injEq, Prod.mk.injEq] at h
          obtain ⟨rfl, rfl⟩ := h
          intro r hr
          simp only [applySyncs, List.mem_map] at hr
          obtain ⟨p, _, rfl⟩ := hr
          simp [hc]
  refine ⟨hr, ?_⟩
  rintro T sent ⟨k, r, hk, hne⟩ heq
  rw [← heq] at hk
  exact hne (hr r (List.mem_of_find?_eq_some hk))

/-- A row with nothing in the value column `c`. -/
def wipe (c : String) (r : Row) : Row := fun d => if d = ⟨.value, c⟩ then none else r d

/-- An item with nothing in the value column `c`. -/
def wipeItem (c : String) (it : SItem) : SItem := (it.1, it.2.map (wipe c))

/-- A joined row with nothing in the value column `c`. -/
def wipeJ (c : String) (j : JRow) : JRow := { upper := j.upper.map (wipe c), lower := j.lower.map (wipe c) }

theorem wipe_other {c : String} {r : Row} {d : Desc} (h : d ≠ ⟨.value, c⟩) : wipe c r d = r d := by
  simp [wipe, h]

theorem wipe_wipe (c : String) (r : Row) : wipe c (wipe c r) = wipe c r := by
  funext d; simp only [wipe]; split <;> rfl

theorem wipe_key {c n : String} {r : Row} : wipe c r ⟨.oldPk, n⟩ = r ⟨.oldPk, n⟩ ∧
    wipe c r ⟨.newPk, n⟩ = r ⟨.newPk, n⟩ ∧ wipe c r ⟨.changed, n⟩ = r ⟨.changed, n⟩ := by
  refine ⟨wipe_other ?_, wipe_other ?_, wipe_other ?_⟩ <;> simp

theorem wipeItem_idem (c : String) (it : SItem) : wipeItem c (wipeItem c it) = wipeItem c it := by
  simp only [wipeItem, List.map_map]
  congr 1
  apply List.map_congr_left
  intro r _
  exact wipe_wipe c r

theorem missing_wipe (c : String) (p : Pos) (j : JRow) : missing p (wipeJ c j) = missing p j := by
  cases p <;> simp [missing, wipeJ]

theorem colU_wipe {c : String} {d : Desc} (h : d ≠ ⟨.value, c⟩) (j : JRow) : colU d (wipeJ c j) = colU d j := by
  rcases j with ⟨u, l⟩
  cases u <;> simp [colU, wipeJ, wipe_other h]

theorem colL_wipe {c : String} {d : Desc} (h : d ≠ ⟨.value, c⟩) (j : JRow) : colL d (wipeJ c j) = colL d j := by
  rcases j with ⟨u, l⟩
  cases l <;> simp [colL, wipeJ, wipe_other h]

theorem colAt_wipe {c : String} {d : Desc} (h : d ≠ ⟨.value, c⟩) (p : Pos) (j : JRow) :
    colAt p d (wipeJ c j) = colAt p d j := by
  cases p
  · exact colL_wipe h j
  · exact colU_wipe h j

theorem joinExpr_wipe (L U : Schema) {c : String} {d : Desc} (h : d ≠ ⟨.value, c⟩) (j : JRow) :
    joinExpr L U d (wipeJ c j) = joinExpr L U d j := by
  rcases d with ⟨role, n⟩
  cases role with
  | oldPk => simp only [joinExpr, joinOldPk, missing_wipe, colU_wipe h, colL_wipe h]
  | newPk => simp only [joinExpr, joinNewPk, missing_wipe, colU_wipe h, colL_wipe h]
  | value =>
    simp only [joinExpr]
    split <;> simp only [joinValue, missing_wipe, colU_wipe h, colL_wipe h, colAt_wipe h]
  | changed =>
    simp only [joinExpr]
    split
    · simp only [joinChanged, missing_wipe, colU_wipe h, colAt_wipe h]
    · split
      · simp only [missing_wipe]
      · split
        · simp only [joinChanged, missing_wipe, colU_wipe h, colAt_wipe h]
        · simp only [missing_wipe]

theorem joinRow_wipe (L U : Schema) (c : String) (j : JRow) :
    wipe c (joinRow L U (wipeJ c j)) = wipe c (joinRow L U j) := by
  funext d
  simp only [wipe]
  split
  · rfl
  · next h => simp only [joinRow, joinExpr_wipe L U h]

theorem unionExpr_wipe (L U : Schema) {c : String} {d : Desc} (h : d ≠ ⟨.value, c⟩) (r : Row) :
    (unionExpr L U d).1 (wipe c r) = (unionExpr L U d).1 r ∧
    (unionExpr L U d).2 (wipe c r) = (unionExpr L U d).2 r := by
  have hw := wipe_other (r := r) h
  have hch : ∀ (other : Schema) (p : Pos), (unionChanged d other p).1 (wipe c r) = (unionChanged d other p).1 r ∧
      (unionChanged d other p).2 (wipe c r) = (unionChanged d other p).2 r := by
    intro other p
    simp only [unionChanged]
    split
    · exact ⟨hw, hw⟩
    · split
      · cases p <;> simp [hw]
      · cases p <;> simp [hw]
  have hva : ∀ (other : Schema) (p : Pos), (unionValue d other p).1 (wipe c r) = (unionValue d other p).1 r ∧
      (unionValue d other p).2 (wipe c r) = (unionValue d other p).2 r := by
    intro other p
    simp only [unionValue]
    split
    · exact ⟨hw, hw⟩
    · cases p <;> simp [hw]
  simp only [unionExpr]
  split
  · exact ⟨hw, hw⟩
  · exact ⟨hw, hw⟩
  · split
    · exact hch U .lower
    · split
      · exact ⟨rfl, rfl⟩
      · split
        · exact hch L .upper
        · exact ⟨rfl, rfl⟩
  · split
    · exact hva U .lower
    · exact hva L .upper

theorem unionRow_wipe (L U : Schema) (c : String) (r : Row) :
    wipe c (unionRowL L U (wipe c r)) = wipe c (unionRowL L U r) ∧
    wipe c (unionRowU L U (wipe c r)) = wipe c (unionRowU L U r) := by
  constructor <;> funext d <;> simp only [wipe] <;> split
  · rfl
  · next h =>
    have := (unionExpr_wipe L U h r).1
    simp only [unionRowL] at this ⊢
    rw [this]
  · rfl
  · next h =>
    have := (unionExpr_wipe L U h r).2
    simp only [unionRowU] at this ⊢
    rw [this]

theorem joinMatch_wipe (U : Schema) (c : String) (u l : Row) :
    joinMatch U (wipe c u) (wipe c l) = joinMatch U u l := by
  simp only [joinMatch, wipe_key.1, wipe_key.2.1]

theorem fullJoin_wipe (U : Schema) (c : String) (lower upper : List Row) :
    fullJoin U (lower.map (wipe c)) (upper.map (wipe c)) = (fullJoin U lower upper).map (wipeJ c) := by
  simp only [fullJoin, List.map_append, List.flatMap_map, List.map_flatMap]
  congr 1
  · congr 1
    funext u
    have h1 : (lower.map (wipe c)).any (joinMatch U (wipe c u)) = lower.any (joinMatch U u) := by
      rw [List.any_map]; congr 1
    have h2 : (lower.map (wipe c)).filter (joinMatch U (wipe c u)) = (lower.filter (joinMatch U u)).map (wipe c) := by
      rw [List.filter_map]; congr 2
    rw [h1, h2]
    split
    · simp only [List.map_map]; rfl
    · rfl
  · rw [List.filter_map, List.map_map, List.map_map]
    have h3 : ((fun l => !(upper.map (wipe c)).any (fun u => joinMatch U u l)) ∘ wipe c) =
        fun l => !upper.any (fun u => joinMatch U u l) := by
      funext l
      simp only [Function.comp, List.any_map]
      congr 2
    rw [h3]; rfl

theorem merge_wipe {L U : Schema} (hL : SchemaOk pks L) (hU : SchemaOk pks U) (c : String) (lower upper : List Row) :
    (mergeSyncs L (lower.map (wipe c)) U (upper.map (wipe c))).map (wipeItem c) =
      (mergeSyncs L lower U upper).map (wipeItem c) := by
  have ha : appendOnly U (upper.map (wipe c)) = appendOnly U upper := by
    simp only [appendOnly]
    split
    · rfl
    · rw [List.all_map]; congr 2
  simp only [mergeSyncs, ha]
  split
  · rfl
  · simp only [Option.map_some, unionSyncs_eq hL hU, wipeItem, List.map_append, List.map_map]
    congr 3
    · apply List.map_congr_left
      intro r _; exact (unionRow_wipe L U c r).1
    · apply List.map_congr_left
      intro r _; exact (unionRow_wipe L U c r).2
  · simp only [Option.map_some, joinSyncs_eq hL hU, wipeItem, fullJoin_wipe, List.map_map]
    congr 2
    apply List.map_congr_left
    intro j _; exact joinRow_wipe L U c j

theorem merge_same {L U : Schema} (hL : SchemaOk pks L) (hU : SchemaOk pks U) (c : String)
    {lower upper lower' upper' : List Row} (hl : lower.map (wipe c) = lower'.map (wipe c))
    (hu : upper.map (wipe c) = upper'.map (wipe c)) :
    (mergeSyncs L lower U upper).map (wipeItem c) = (mergeSyncs L lower' U upper').map (wipeItem c) := by
  rw [← merge_wipe hL hU c lower upper, ← merge_wipe hL hU c lower' upper', hl, hu]

theorem mergeAll_wipe (c : String) : ∀ (rest rest' : List SItem) (acc acc' : SItem), SchemaOk pks acc.1 →
    (∀ it ∈ rest, SchemaOk pks it.1) → rest.map (wipeItem c) = rest'.map (wipeItem c) →
    wipeItem c acc = wipeItem c acc' →
    (mergeAll acc rest).map (wipeItem c) = (mergeAll acc' rest').map (wipeItem c) := by
  intro rest
  induction rest with
  | nil =>
    intro rest' acc acc' _ _ hr ha
    cases rest' with
    | nil => simp [mergeAll, ha]
    | cons _ _ => simp at hr
  | cons it rest ih =>
    intro rest' acc acc' hA hok hr ha
    cases rest' with
    | nil => simp at hr
    | cons it' rest' =>
      simp only [List.map_cons, List.cons.injEq] at hr
      obtain ⟨hit, hr⟩ := hr
      have hI := hok it (by simp)
      obtain ⟨a1, a2⟩ := acc
      obtain ⟨b1, b2⟩ := acc'
      obtain ⟨i1, i2⟩ := it
      obtain ⟨k1, k2⟩ := it'
      simp only [wipeItem, Prod.mk.injEq] at ha hit
      obtain ⟨rfl, ha⟩ := ha
      obtain ⟨rfl, hit⟩ := hit
      have hm := merge_same hA hI c ha hit
      simp only [mergeAll]
      cases h1 : mergeSyncs a1 a2 i1 i2 with
      | none =>
        cases h2 : mergeSyncs a1 b2 i1 k2 with
        | none => rfl
        | some y => rw [h1, h2] at hm; cases hm
      | some x =>
        cases h2 : mergeSyncs a1 b2 i1 k2 with
        | none => rw [h1, h2] at hm; cases hm
        | some y =>
          rw [h1, h2] at hm
          simp only [Option.map_some, Option.some.injEq] at hm
          have hx : SchemaOk pks x.1 := by
            rw [merge_schema (S := x.1) (rows := x.2) hA hI h1]; exact mergedCols_ok hA hI
          exact ih rest' x y hx (fun z hz => hok z (by simp [hz])) hr hm

/-- A normalised row with nothing in the value column `c`. -/
def wipeN (c : String) (s : NRow) : NRow := { s with val := wipe c s.val }

theorem normRow_wipe (c n : String) (r : Row) : normRow n (wipe c r) = (normRow n r).map (wipeN c) := by
  simp only [normRow, wipe_key.1, wipe_key.2.1]
  split
  · rfl
  · split
    · rfl
    · split <;> rfl

theorem normalize_wipe (S : Schema) (c : String) (rows : List Row) :
    normalize S (rows.map (wipe c)) = (normalize S rows).map (List.map (wipeN c)) := by
  simp only [normalize]
  split
  · rfl
  · next n _ =>
    simp only [Option.map_some, Option.some.injEq, List.filter_map, List.flatMap_map, List.map_flatMap]
    have : ((fun r : Row => !((r ⟨.oldPk, n⟩).isNone && (r ⟨.newPk, n⟩).isNone)) ∘ wipe c) =
        fun r : Row => !((r ⟨.oldPk, n⟩).isNone && (r ⟨.newPk, n⟩).isNone) := by
      funext r
      simp only [Function.comp, wipe_key.1, wipe_key.2.1]
    rw [this]
    congr 1
    funext r
    exact normRow_wipe c n r

theorem baseJoin_wipe (pks : List String) (c : String) (base : List TRow) (ns : List NRow) :
    baseJoin pks base (ns.map (wipeN c)) = (baseJoin pks base ns).map (fun p => (p.1, p.2.map (wipeN c))) := by
  have hb : ∀ b, (baseMatch pks b) ∘ (wipeN c) = baseMatch pks b := fun b => rfl
  simp only [baseJoin, List.map_append, List.map_flatMap]
  congr 1
  · congr 1
    funext b
    rw [List.any_map, List.filter_map, hb]
    split
    · simp only [List.map_map]; rfl
    · rfl
  · rw [List.filter_map, List.map_map, List.map_map]
    rfl

theorem applyCol_wipe (S : Schema) {c c' : String} (h : c' ≠ c) (p : Option TRow × Option NRow) :
    applyCol S c' (p.1, p.2.map (wipeN c)) = applyCol S c' p := by
  obtain ⟨b, s⟩ := p
  cases s with
  | none => rfl
  | some s =>
    have h1 : wipe c s.val ⟨.value, c'⟩ = s.val ⟨.value, c'⟩ := wipe_other (by simp [h])
    simp only [applyCol, Option.map_some, wipeN, wipe_key.2.2, h1]

theorem applySyncs_wipe (S : Schema) {c : String} (hc : c ∉ full) (base : List TRow) (ns : List NRow) :
    applySyncs S full base (ns.map (wipeN c)) = applySyncs S full base ns := by
  simp only [applySyncs, baseJoin_wipe, List.filter_map, List.map_map]
  have hk : keepJoined ∘ (fun p : Option TRow × Option NRow => (p.1, p.2.map (wipeN c))) = keepJoined := by
    funext p
    obtain ⟨b, s⟩ := p
    cases s <;> rfl
  rw [hk]
  apply List.map_congr_left
  intro p _
  funext c'
  simp only [Function.comp]
  split
  · next h => exact applyCol_wipe S (fun e => hc (by rw [← e]; exact h)) p
  · rfl

/-- **C134 is violated**: the values of a column that the table does not have are never looked at.  Two
streams that differ only in them are flushed to the same table. -/
theorem C134_violated_ignored {t : Stored} {items items' : List SItem} (hok : ∀ it ∈ items, SchemaOk pks it.1)
    {c : String} (hsame : items.map (wipeItem c) = items'.map (wipeItem c))
    (hc : ∀ x, openOrCreate t items = some x → c ∉ x.1) :
    flushStored t items = flushStored t items' := by
  cases items with
  | nil =>
    cases items' with
    | nil => rfl
    | cons _ _ => simp at hsame
  | cons it rest =>
    cases items' with
    | nil => simp at hsame
    | cons it' rest' =>
      simp only [List.map_cons, List.cons.injEq] at hsame
      obtain ⟨h1, h2⟩ := hsame
      have hfst : it'.1 = it.1 := (congrArg Prod.fst h1).symm
      have he : openOrCreate t (it' :: rest') = openOrCreate t (it :: rest) := by
        cases t with
        | some x => rfl
        | none => simp only [openOrCreate, hfst]
      have hm := mergeAll_wipe c rest rest' it it' (hok it (by simp)) (fun z hz => hok z (by simp [hz])) h2 h1
      simp only [flushStored, he]
      cases hx : openOrCreate t (it :: rest) with
      | none => rfl
      | some x =>
        obtain ⟨cols, rows⟩ := x
        have hcc : c ∉ cols := hc _ hx
        suffices flushRows cols (it :: rest) rows = flushRows cols (it' :: rest') rows by simp only [this]
        simp only [flushRows, squashSyncs]
        cases ha : mergeAll it rest with
        | none =>
          cases hb : mergeAll it' rest' with
          | none => rfl
          | some y => rw [ha, hb] at hm; cases hm
        | some x =>
          cases hb : mergeAll it' rest' with
          | none => rw [ha, hb] at hm; cases hm
          | some y =>
            rw [ha, hb] at hm
            obtain ⟨S, R⟩ := x
            obtain ⟨S', R'⟩ := y
            simp only [Option.map_some, Option.some.injEq, wipeItem, Prod.mk.injEq] at hm
            obtain ⟨rfl, hR⟩ := hm
            have hn : (normalize S R).map (List.map (wipeN c)) = (normalize S R').map (List.map (wipeN c)) := by
              rw [← normalize_wipe, ← normalize_wipe, hR]
            simp only
            cases h3 : normalize S R with
            | none =>
              cases h4 : normalize S R' with
              | none => rfl
              | some z => rw [h3, h4] at hn; cases hn
            | some w =>
              cases h4 : normalize S R' with
              | none => rw [h3, h4] at hn; cases hn
              | some z =>
                rw [h3, h4] at hn
                simp only [Option.map_some, Option.some.injEq] at hn
                simp only
                rw [← applySyncs_wipe S hcc rows w, hn, applySyncs_wipe S hcc rows z]

/-! ### concrete cases -/

namespace ColDemo

open SqDemo

/-- Key `id`, value columns `v` and `w`. -/
def Svw : Schema := [⟨.oldPk, "id"⟩, ⟨.newPk, "id"⟩, ⟨.value, "v"⟩, ⟨.value, "w"⟩]
/-- Key `id`, value column `v`. -/
def Sv : Schema := [⟨.oldPk, "id"⟩, ⟨.newPk, "id"⟩, ⟨.value, "v"⟩]
/-- A row for `Svw`. -/
def rvw (o n v w : Cell) : Row :=
  row [(⟨.oldPk, "id"⟩, o), (⟨.newPk, "id"⟩, n), (⟨.value, "v"⟩, v), (⟨.value, "w"⟩, w)]
/-- A row for `Sv`. -/
def rv (o n v : Cell) : Row := row [(⟨.oldPk, "id"⟩, o), (⟨.newPk, "id"⟩, n), (⟨.value, "v"⟩, v)]

/-- Two change sets with the same columns. -/
def same : List SItem :=
  [(Svw, [rvw none (i 1) (i 10) (i 100), rvw none (i 2) (i 20) (i 200)]),
   (Svw, [rvw (i 1) (i 1) (i 11) (i 101), rvw (i 2) none none none])]

/-- The second change set has a column more. -/
def wider : List SItem :=
  [(Sv, [rv none (i 1) (i 10)]), (Svw, [rvw none (i 2) (i 20) (i 200)])]

theorem ok_Svw : SchemaOk ["id"] Svw ∧ ∀ c, Desc.mk .changed c ∉ Svw := by
  refine ⟨⟨by decide, by decide, by decide, ?_, ?_⟩, ?_⟩ <;> intro c h <;> simp [Svw] at h ⊢
  rcases h with rfl | rfl <;> decide

theorem ok_Sv : SchemaOk ["id"] Sv ∧ ∀ c, Desc.mk .changed c ∉ Sv := by
  refine ⟨⟨by decide, by decide, by decide, ?_, ?_⟩, ?_⟩ <;> intro c h <;> simp [Sv] at h ⊢
  subst h; decide

end ColDemo

open SqDemo ColDemo in
example : (flushStored none same).map (fun x => (x.1, x.2.map (fun r => x.1.map r))) =
    some (["id", "v", "w"], [[i 1, i 11, i 101]]) := by decide +kernel

open SqDemo ColDemo in
example : ValidSeq (createdCols Svw) noRows (allChanges ["id"] same) := by
  simp only [same, allChanges, itemChanges, List.flatMap_cons, List.flatMap_nil, List.map_cons, List.map_nil,
    List.cons_append, List.nil_append, ValidSeq]
  refine ⟨valid1_of ?_ ?_, valid1_of ?_ ?_, valid1_of ?_ ?_, valid1_of ?_ ?_, trivial⟩ <;> decide

open SqDemo ColDemo in
example : ∃ outs, SquashedItems same outs ∧ (flushStored none outs).isSome := by
  refine ⟨_, .cons rfl (.cons rfl .nil), ?_⟩
  decide +kernel

open SqDemo ColDemo in
example : (flushStored (some (["id", "v", "w"], [trow [("id", i 5), ("v", i 50), ("w", i 500)]])) same).map
    (fun x => (x.1, x.2.map (fun r => x.1.map r))) =
    some (["id", "v", "w"], [[i 5, i 50, i 500], [i 1, i 11, i 101]]) := by decide +kernel

open SqDemo ColDemo in
/-- The value 200 that was sent for column `w` is gone, both for a new table and for a table with the
columns `id` and `v`; the flush succeeds. -/
theorem C134_violated_example :
    (flushStored none wider).map (fun x => (x.1, x.2.map (fun r => [r "id", r "v", r "w"]))) =
      some (["id", "v"], [[i 1, i 10, none], [i 2, i 20, none]]) ∧
    (flushStored (some (["id", "v"], [])) wider).map (fun x => (x.1, x.2.map (fun r => [r "id", r "v", r "w"]))) =
      some (["id", "v"], [[i 1, i 10, none], [i 2, i 20, none]]) ∧
    (takeAll noRows (allChanges ["id"] wider) [i 2]).map (fun r => [r "id", r "v", r "w"]) =
      some [i 2, i 20, i 200] := by
  refine ⟨?_, ?_, ?_⟩ <;> decide +kernel

end Seafowl.Sync
