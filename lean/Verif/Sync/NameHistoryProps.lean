import Verif.Sync.NameHistory
import Verif.Sync.NamePruneProps
import Verif.Sync.FileHistoryProps

/-!
# C142: flush after flush

If all names are plain, the table after any number of flushes is the result of all changes, one by one.
-/

namespace Seafowl.Names

open Seafowl.Sync

/-! ### Specification -/

/-- The statistics of the files are bounds of the stored values. -/
def Honest (t : List TCol) (ps : PSnapshot) : Prop :=
  ∀ f ∈ ps.files, ∀ b ∈ f.rows, ∀ c v, storedRow t b c = some v →
    (∀ m, f.min c = some m → m.le v = true) ∧ (∀ m, f.max c = some m → v.le m = true)

/-- All rows have a cell for each column. -/
def Shaped (t : List TCol) (ps : PSnapshot) : Prop := ∀ f ∈ ps.files, ∀ b ∈ f.rows, b.length = t.length

/-- The rows of the table by the names of the columns. -/
def stored (t : List TCol) (ps : PSnapshot) : List TRow := (ps.files.flatMap (·.rows)).map (storedRow t)

/-- A flush that the names do not stand in the way of: plain names, and a value in some key. -/
structure BatchOk (parse : String → List String) (pks : List String) (items : Batch) : Prop where
  each : ∀ it ∈ items, ItemOk parse pks it.1 ∧ ∀ r ∈ it.2, r.length = it.1.length
  canon : 2 ≤ items.length → ∀ it ∈ items, CanonPlain parse it.1
  value : ∃ it ∈ items, ∃ n ∈ pks, ∃ r ∈ it.2,
    (sentRow it.1 r ⟨.oldPk, n⟩).isSome = true ∨ (sentRow it.1 r ⟨.newPk, n⟩).isSome = true

/-- The changes that were sent, flush by flush, and what is flushed of them: each flush gets the items that were sent,
squashed one by one, and they are gentle (`Gentle`) where the flushes before have led to. -/
inductive Gently (parse : String → List String) (pks full : List String) : Table → List (List SItem) → List Batch → Prop
  | nil (T : Table) : Gently parse pks full T [] []
  | cons {T : Table} {sent : List SItem} {sents : List (List SItem)} {items : Batch} {rest : List Batch} :
      BatchOk parse pks items → sent ≠ [] → SquashedItems sent (items.map sentItem) → Gentle pks full T sent →
      Gently parse pks full (replay full T (allChanges pks sent)) sents rest →
      Gently parse pks full T (sent :: sents) (items :: rest)

variable {parse : String → List String} {pks : List String} {t : List TCol}

theorem BatchOk.ne {items : Batch} (h : BatchOk parse pks items) : items ≠ [] := by
  obtain ⟨it, hit, _⟩ := h.value
  exact List.ne_nil_of_mem hit

/-- The rows that a flush leaves have a cell for each column. -/
theorem flush_shaped {items : Batch} {ps : PSnapshot} (hpk : pks ≠ []) (ht : TableOk pks t) (hi : BatchOk parse pks items)
    (hk : ∀ n ∈ pks, Plain parse n ∧ Plain parse (canon .newPk n)) (hb : Shaped t ps) {rows : List PRow}
    (h : flushFilesNamed parse t items ps = some rows) : ∀ r ∈ rows, r.length = t.length := by
  rw [C142_files_partial hi.ne hpk ht hi.each hk hi.canon hi.value hb, Option.map_eq_some_iff] at h
  obtain ⟨out, _, rfl⟩ := h
  intro r hr
  obtain ⟨x, _, rfl⟩ := List.mem_map.1 hr
  simp

/-- **C142** through a history of flushes (partial: plain names, and changes as in `C142_replicates_files_partial`).
However the rows are divided into files in between, the table after all flushes is the result of all changes that were
sent, one by one, each row once. -/
theorem C142_history_partial (hpk : pks ≠ []) (ht : TableOk pks t)
    (hk : ∀ n ∈ pks, Plain parse n ∧ Plain parse (canon .newPk n)) {batches : List Batch} {ps ps' : PSnapshot}
    (h : NamedAfter parse t (Honest t) batches ps ps') : ∀ {sents : List (List SItem)},
    Gently parse pks (t.map (·.name)) (tableOf pks (stored t ps)) sents batches →
    Shaped t ps → Honest t ps → Keyed pks (t.map (·.name)) (stored t ps) →
    Keyed pks (t.map (·.name)) (stored t ps') ∧
      tableOf pks (stored t ps') =
        replay (t.map (·.name)) (tableOf pks (stored t ps)) (sents.flatMap (allChanges pks)) := by
  induction h with
  | nil ps =>
    intro sents hg _ _ hkey
    cases hg
    exact ⟨hkey, rfl⟩
  | @flush items rest ps mid ps' rows hf hp hm _ ih =>
    intro sents hg hb hs hkey
    cases hg with
    | @cons _ sent sents _ _ hi hne hsq hge hrest =>
      obtain ⟨out, h1, h2, h3⟩ := C142_replicates_files_partial hi.ne hpk ht hi.each hk hi.canon hi.value hb hs hkey
        sent hne hsq hge
      rw [hf] at h1
      injection h1 with h1
      subst h1
      have hperm : (stored t mid).Perm (rows.map (storedRow t)) := hp.map _
      have hkm := keyed_perm hperm h2
      have htab : tableOf pks (stored t mid) = _ := (tableOf_perm hperm hkm.nodup).trans h3
      have hbm : Shaped t mid := fun f hf' b hb' =>
        flush_shaped hpk ht hi hk hb hf b (hp.mem_iff.1 (List.mem_flatMap.2 ⟨f, hf', hb'⟩))
      obtain ⟨g1, g2⟩ := ih (sents := sents) (by rw [htab]; exact hrest) hbm hm hkm
      refine ⟨g1, ?_⟩
      rw [g2, htab, List.flatMap_cons, replay_append]
      rfl

/-- C142.  None of the flushes fails, whatever the files look like: there is a next version of the table after each of
them, and `C142_history_partial` says what is in it. -/
theorem C142_history_exists (hpk : pks ≠ []) (ht : TableOk pks t)
    (hk : ∀ n ∈ pks, Plain parse n ∧ Plain parse (canon .newPk n)) : ∀ (batches : List Batch) (ps : PSnapshot)
    {sents : List (List SItem)}, Gently parse pks (t.map (·.name)) (tableOf pks (stored t ps)) sents batches →
    Shaped t ps → Honest t ps → Keyed pks (t.map (·.name)) (stored t ps) →
    ∃ ps', NamedAfter parse t (Honest t) batches ps ps'
  | [], ps, _, _, _, _, _ => ⟨ps, .nil ps⟩
  | items :: rest, ps, _, hg, hb, hs, hkey => by
    cases hg with
    | @cons _ sent sents _ _ hi hne hsq hge hrest =>
      obtain ⟨out, h1, h2, h3⟩ := C142_replicates_files_partial hi.ne hpk ht hi.each hk hi.canon hi.value hb hs hkey
        sent hne hsq hge
      let mid : PSnapshot := { ps with files := [⟨out, fun _ => none, fun _ => none, none⟩] }
      have hrows : mid.files.flatMap (·.rows) = out := by simp [mid]
      have hstored : stored t mid = out.map (storedRow t) := by simp only [stored, hrows]
      have hbm : Shaped t mid := fun f hf' b hb' =>
        flush_shaped hpk ht hi hk hb h1 b (hrows ▸ List.mem_flatMap.2 ⟨f, hf', hb'⟩)
      have hm : Honest t mid := by
        intro f hf b _ c v _
        simp only [mid, List.mem_singleton] at hf
        subst hf
        exact ⟨fun m hm => (by cases hm), fun m hm => (by cases hm)⟩
      obtain ⟨ps', h'⟩ := C142_history_exists hpk ht hk rest mid (sents := sents)
        (by rw [hstored, h3]; exact hrest) hbm hm (by rw [hstored]; exact h2)
      exact ⟨ps', .flush h1 (by rw [hrows]) hm h'⟩

/-- C142.  Two tables with the same rows, in files of any shape, get the same changes, grouped into items and flushes in
any way and sent with fields of any plain names: they end with the same rows. -/
theorem C142_history_converge_partial {parse' : String → List String} (hpk : pks ≠ []) (ht : TableOk pks t)
    (hk : ∀ n ∈ pks, Plain parse n ∧ Plain parse (canon .newPk n))
    (hk' : ∀ n ∈ pks, Plain parse' n ∧ Plain parse' (canon .newPk n)) {batches batches' : List Batch}
    {ps ps' qs qs' : PSnapshot} (h : NamedAfter parse t (Honest t) batches ps ps')
    (h' : NamedAfter parse' t (Honest t) batches' qs qs') {sents sents' : List (List SItem)}
    (hg : Gently parse pks (t.map (·.name)) (tableOf pks (stored t ps)) sents batches)
    (hg' : Gently parse' pks (t.map (·.name)) (tableOf pks (stored t qs)) sents' batches')
    (hb : Shaped t ps) (hb' : Shaped t qs) (hs : Honest t ps) (hs' : Honest t qs)
    (hkey : Keyed pks (t.map (·.name)) (stored t ps)) (hrows : (stored t qs).Perm (stored t ps))
    (hsame : sents.flatMap (allChanges pks) = sents'.flatMap (allChanges pks)) :
    (stored t ps').Perm (stored t qs') := by
  have hkey' := keyed_perm hrows hkey
  obtain ⟨h1, h2⟩ := C142_history_partial hpk ht hk h hg hb hs hkey
  obtain ⟨h3, h4⟩ := C142_history_partial hpk ht hk' h' hg' hb' hs' hkey'
  refine perm_of_tableOf h1.nodup h3.nodup ?_
  rw [h2, h4, hsame, tableOf_perm hrows hkey'.nodup]

/-! ### a concrete case -/

namespace HistDemo

open NamesDemo FlushDemo PruneDemo

/-- After the changes of `FlushDemo` the row (1, 1) is deleted. -/
def later : Batch := [(cols, [[none, i 1, i 1, none, none]])]

theorem items_batch : BatchOk demoParse pk FlushDemo.items :=
  ⟨items_ok, fun _ it h => by rw [items_cols h]; exact canon_plain, some_key⟩

theorem later_cols {it : List SyncCol × List PRow} (h : it ∈ later) : it.1 = cols := by
  simp only [later, List.mem_singleton] at h
  rw [h]

theorem later_batch : BatchOk demoParse pk later := by
  refine ⟨fun it h => ⟨by rw [later_cols h]; exact cols_ok, ?_⟩, fun _ it h => by rw [later_cols h]; exact canon_plain,
    _, List.mem_cons_self, "a", by decide, _, List.mem_cons_self, by decide +kernel⟩
  revert it
  decide +kernel

theorem later_squashed : SquashedItems (later.map sentItem) (later.map sentItem) :=
  .cons (Eq.trans (b := some (List.map (fun r => sqOut (descs cols) (Chain.single (descs cols) (sentRow cols r)))
      [[none, i 1, i 1, none, none]])) rfl (by simp only [single_out])) .nil

theorem later_gentle {T : Table} (hT : (T [i 1, i 1]).isSome) :
    Gentle pk (FlushDemo.t.map (·.name)) T (later.map sentItem) := by
  have hch : allChanges pk (later.map sentItem) = [changeOf pk (descs cols) (sentRow cols [none, i 1, i 1, none, none])] := rfl
  have hold : (changeOf pk (descs cols) (sentRow cols [none, i 1, i 1, none, none])).old = some [i 1, i 1] := by decide +kernel
  have hnew : (changeOf pk (descs cols) (sentRow cols [none, i 1, i 1, none, none])).new = none := by decide +kernel
  constructor
  · intro it hit
    simp only [later, List.map_cons, List.map_nil, List.mem_singleton] at hit
    subst hit
    refine ⟨cols_ok.schema, ?_, ?_⟩
    · intro _ _ _ _ c _ hc
      simp [sentItem, cols, descs, col] at hc
    · intro x hx
      simp only [sentItem, List.map_cons, List.map_nil, List.mem_singleton] at hx
      subst hx
      decide +kernel
  · rw [hch]
    intro ch h
    rw [List.mem_singleton.1 h]
    exact Or.inr (Or.inl hnew)
  · exact Or.inl rfl
  · right
    rw [hch]
    intro ch h ho
    rw [List.mem_singleton.1 h, hold] at ho
    cases ho
  · rw [hch]
    refine ⟨?_, trivial⟩
    simp only [Valid1, hold, hnew]
    refine ⟨fun k hk => ?_, fun k hk => (by cases hk)⟩
    injection hk with hk
    rw [← hk]
    exact hT

theorem gently : Gently demoParse pk (FlushDemo.t.map (·.name)) (tableOf pk (stored FlushDemo.t ps1))
    [FlushDemo.items.map sentItem, later.map sentItem] [FlushDemo.items, later] := by
  refine .cons items_batch (by decide) squashed gentle (.cons later_batch (by decide) later_squashed (later_gentle ?_) (.nil _))
  decide +kernel

/-- The hypotheses hold: both flushes succeed, and rows 2 are left. -/
example : ∃ ps', NamedAfter demoParse FlushDemo.t (Honest FlushDemo.t) [FlushDemo.items, later] ps1 ps' ∧
    [[i 1, i 1], [i 1, i 2], [i 2, i 1], [i 2, i 2]].map (fun k => (tableOf pk (stored FlushDemo.t ps') k).map (· "v")) =
      [none, none, some (i 31), some (i 40)] := by
  have hb : Shaped FlushDemo.t ps1 := by unfold Shaped; decide
  obtain ⟨ps', h⟩ := C142_history_exists (by decide) table_ok keys_plain _ ps1 gently hb stats_sound keyed
  refine ⟨ps', h, ?_⟩
  rw [(C142_history_partial (by decide) table_ok keys_plain h gently hb stats_sound keyed).2]
  decide +kernel

/-- The first flush alone. -/
theorem gently_once : Gently demoParse pk (FlushDemo.t.map (·.name)) (tableOf pk (stored FlushDemo.t ps1))
    [FlushDemo.items.map sentItem] [FlushDemo.items] :=
  .cons items_batch (by decide) squashed gentle (.nil _)

/-- The hypotheses of `C142_history_converge_partial` hold for a table in one file with statistics and in two without. -/
example : ∃ ps' qs' qs, qs.files.length = 2 ∧ NamedAfter demoParse FlushDemo.t (Honest FlushDemo.t) [FlushDemo.items] ps1 ps' ∧
    NamedAfter demoParse FlushDemo.t (Honest FlushDemo.t) [FlushDemo.items] qs qs' ∧
    (stored FlushDemo.t ps').Perm (stored FlushDemo.t qs') := by
  let qs : PSnapshot :=
    ⟨[⟨base.drop 1, fun _ => none, fun _ => none, none⟩, ⟨base.take 1, fun _ => none, fun _ => none, none⟩],
      fun _ => true, fun _ => true⟩
  have hrows : (stored FlushDemo.t qs).Perm (stored FlushDemo.t ps1) := List.Perm.swap _ _ _
  have hb : Shaped FlushDemo.t ps1 := by unfold Shaped; decide
  have hb' : Shaped FlushDemo.t qs := by unfold Shaped; decide
  have hs' : Honest FlushDemo.t qs := by
    intro f hf b _ c v _
    simp only [qs, List.mem_cons, List.not_mem_nil, or_false] at hf
    rcases hf with rfl | rfl <;> exact ⟨fun m hm => (by cases hm), fun m hm => (by cases hm)⟩
  have hkey' := keyed_perm hrows keyed
  have hg' : Gently demoParse pk (FlushDemo.t.map (·.name)) (tableOf pk (stored FlushDemo.t qs))
      [FlushDemo.items.map sentItem] [FlushDemo.items] := by
    rw [tableOf_perm hrows hkey'.nodup]; exact gently_once
  obtain ⟨ps', h⟩ := C142_history_exists (by decide) table_ok keys_plain _ ps1 gently_once hb stats_sound keyed
  obtain ⟨qs', h'⟩ := C142_history_exists (by decide) table_ok keys_plain _ qs hg' hb' hs' hkey'
  exact ⟨ps', qs', qs, rfl, h, h', C142_history_converge_partial (by decide) table_ok keys_plain keys_plain h h' gently_once hg'
    hb hb' stats_sound hs' keyed hrows rfl⟩

end HistDemo

end Seafowl.Names
