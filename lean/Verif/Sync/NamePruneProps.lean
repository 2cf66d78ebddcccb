import Verif.Sync.NamePrune
import Verif.Sync.NameFlushProps
import Verif.Sync.PruneProps
import Verif.Sync.FlushKeys
import Verif.Sync.SchemaProps

/-!
# C142: the files that a flush rewrites

The choice of files by names is compared with the choice by the statistics of the key columns.
-/

namespace Seafowl.Names

open Seafowl.Sync

/-! ### Specification -/

/-- The snapshot with the rows and statistics under the names of their columns. -/
def snapshotOf (t : List TCol) (ps : PSnapshot) : Snapshot where
  files := ps.files.map (fun f => { rows := f.rows.map (storedRow t), min := f.min, max := f.max, records := f.records })
  hasMin := ps.hasMin
  hasMax := ps.hasMax

/-! ### Only the statistics of the key columns matter -/

theorem foldl_and3_congr {α : Type} {f g : α → Option Bool} : ∀ (l : List α) (acc : Option Bool),
    (∀ a ∈ l, f a = g a) → l.foldl (fun acc a => and3 acc (f a)) acc = l.foldl (fun acc a => and3 acc (g a)) acc
  | [], _, _ => rfl
  | a :: l, acc, h => by
    simp only [List.foldl_cons]
    rw [h a (by simp)]
    exact foldl_and3_congr l _ (fun b hb => h b (by simp [hb]))

theorem qualifier_names {pks : List String} {items : List SItem} {role : Role}
    (hr : role = .oldPk ∨ role = .newPk) (hI : ∀ it ∈ items, SchemaOk pks it.1)
    {qs : List (String × Val × Val)} (h : constructQualifier items role = some qs) : ∀ q ∈ qs, q.1 ∈ pks := by
  cases items with
  | nil => simp [constructQualifier] at h
  | cons it0 rest =>
    have hn : names it0.1 role = pks := by
      rcases hr with rfl | rfl
      · exact (hI it0 (by simp)).oldPk
      · exact (hI it0 (by simp)).newPk
    simp only [constructQualifier, hn] at h
    split at h
    · injection h with h
      subst h
      intro q hq
      obtain ⟨c, hc, he⟩ := List.mem_filterMap.1 hq
      split at he
      · injection he with he; subst he; exact hc
      · cases he
    · cases h

/-- Two snapshots of the same files, with the same statistics for the key columns. -/
structure SameStats (pks : List String) (ps : PSnapshot) (sn sn' : Snapshot) (g g' : PFile → DFile) : Prop where
  files : sn.files = ps.files.map g
  files' : sn'.files = ps.files.map g'
  min : ∀ f ∈ ps.files, ∀ n ∈ pks, (g f).min n = (g' f).min n
  max : ∀ f ∈ ps.files, ∀ n ∈ pks, (g f).max n = (g' f).max n
  records : ∀ f ∈ ps.files, (g f).records = (g' f).records
  hasMin : ∀ n ∈ pks, sn.hasMin n = sn'.hasMin n
  hasMax : ∀ n ∈ pks, sn.hasMax n = sn'.hasMax n

theorem SameStats.pruneAll {pks : List String} {ps : PSnapshot} {sn sn' : Snapshot} {g g' : PFile → DFile}
    (h : SameStats pks ps sn sn' g g') {qs : List (String × Val × Val)} (hq : ∀ q ∈ qs, q.1 ∈ pks) {f : PFile}
    (hf : f ∈ ps.files) : pruneAll sn (g f) qs = pruneAll sn' (g' f) qs := by
  refine foldl_and3_congr qs _ fun q hm => ?_
  have hp := hq q hm
  simp only [pruneBetween, statMin, statMax, h.min f hf _ hp, h.max f hf _ hp, h.hasMin _ hp, h.hasMax _ hp]

theorem SameStats.coarse {pks : List String} {ps : PSnapshot} {sn sn' : Snapshot} {g g' : PFile → DFile}
    (h : SameStats pks ps sn sn' g g') {qo qn : List (String × Val × Val)} (ho : ∀ q ∈ qo, q.1 ∈ pks)
    (hn : ∀ q ∈ qn, q.1 ∈ pks) : coarseMap sn qo qn = coarseMap sn' qo qn := by
  unfold coarseMap
  cases qo with
  | nil =>
    cases qn with
    | nil => rfl
    | cons q qs =>
      simp only [h.files, h.files', List.map_map, Option.some.injEq]
      refine List.map_congr_left fun f hf => ?_
      simp only [Function.comp_def, h.pruneAll hn hf]
  | cons p ps' =>
    cases qn with
    | nil =>
      simp only [h.files, h.files', List.map_map, Option.some.injEq]
      refine List.map_congr_left fun f hf => ?_
      simp only [Function.comp_def, h.pruneAll ho hf]
    | cons q qs =>
      simp only [h.files, h.files', List.map_map, Option.some.injEq]
      refine List.map_congr_left fun f hf => ?_
      simp only [Function.comp_def, h.pruneAll ho hf, h.pruneAll hn hf]

theorem any_congr' {α : Type} {f g : α → Bool} {l : List α} (h : ∀ a ∈ l, f a = g a) : l.any f = l.any g := by
  induction l with
  | nil => rfl
  | cons a l ih =>
    simp only [List.any_cons]
    rw [h a (by simp), ih (fun b hb => h b (by simp [hb]))]

theorem SameStats.fineItem {pks : List String} {ps : PSnapshot} {sn sn' : Snapshot} {g g' : PFile → DFile}
    (h : SameStats pks ps sn sn' g g') {it : SItem} {role : Role} (hn : names it.1 role = pks) {f : PFile}
    (hf : f ∈ ps.files) : fineItem sn (g f) role it = fineItem sn' (g' f) role it := by
  unfold Sync.fineItem
  rw [hn]
  cases hp : pks with
  | nil => rfl
  | cons c cs =>
    refine any_congr' fun r _ => ?_
    have : fineRow sn (g f) role (c :: cs) r = fineRow sn' (g' f) role (c :: cs) r := by
      refine foldl_and3_congr (c :: cs) _ fun n hm => ?_
      rw [← hp] at hm
      simp only [fineCell, h.min f hf n hm, h.max f hf n hm, h.hasMin n hm, h.hasMax n hm]
    simp only [this]

theorem SameStats.pruneMap {pks : List String} {ps : PSnapshot} {sn sn' : Snapshot} {g g' : PFile → DFile}
    (h : SameStats pks ps sn sn' g g') {items : List SItem} (hI : ∀ it ∈ items, SchemaOk pks it.1) :
    pruneMap sn items = pruneMap sn' items := by
  cases items with
  | nil => rfl
  | cons it0 rest =>
    have h0 := (hI it0 (by simp)).oldPk
    have e1 : pks.any (fun c => !sn.hasMin c && !sn.hasMax c) = pks.any (fun c => !sn'.hasMin c && !sn'.hasMax c) :=
      any_congr' fun n hn => by rw [h.hasMin n hn, h.hasMax n hn]
    simp only [Sync.pruneMap, h0, e1, h.files, h.files', List.map_map]
    split
    · rfl
    · split
      · simp only [Option.some.injEq]
        refine List.map_congr_left fun f hf => ?_
        simp only [Function.comp_def]
        rw [any_congr' (g := Sync.fineItem sn' (g' f) .oldPk) fun it hit => h.fineItem (hI it hit).oldPk hf,
          any_congr' (g := Sync.fineItem sn' (g' f) .newPk) fun it hit => h.fineItem (hI it hit).newPk hf]
      · rfl

theorem totalRows_map {ps : PSnapshot} {g g' : PFile → DFile} (h : ∀ f ∈ ps.files, (g f).records = (g' f).records)
    (keep : List Bool) : totalRows (ps.files.map g) keep = totalRows (ps.files.map g') keep := by
  unfold totalRows
  congr 1
  rw [List.zip_map_left, List.zip_map_left, List.map_map, List.map_map]
  refine List.map_congr_left fun p hp => ?_
  have := h p.1 (List.of_mem_zip hp).1
  simp only [Function.comp_def, Prod.map_fst, Prod.map_snd, id_eq, this]

theorem SameStats.prune {pks : List String} {ps : PSnapshot} {sn sn' : Snapshot} {g g' : PFile → DFile}
    (h : SameStats pks ps sn sn' g g') {items : List SItem} (hI : ∀ it ∈ items, SchemaOk pks it.1) :
    prunePartitions sn items = prunePartitions sn' items := by
  unfold prunePartitions
  cases ho : constructQualifier items .oldPk with
  | none => rfl
  | some qo =>
    cases hn : constructQualifier items .newPk with
    | none => rfl
    | some qn =>
      simp only [h.coarse (qualifier_names (Or.inl rfl) hI ho) (qualifier_names (Or.inr rfl) hI hn)]
      cases coarseMap sn' qo qn with
      | none => rfl
      | some keep =>
        simp only [h.files, h.files', totalRows_map h.records keep, h.pruneMap hI]

theorem picked_map {A B : Type} (g : A → B) (l : List A) (keep : List Bool) :
    picked (l.map g) keep = (picked l keep).map g := by
  simp only [picked, List.zip_map_left, List.filter_map, List.map_map]
  rfl

theorem kept_map {A B : Type} (g : A → B) (l : List A) (keep : List Bool) :
    kept (l.map g) keep = (kept l keep).map g := by
  simp only [kept, List.zip_map_left, List.filter_map, List.map_map]
  rfl

theorem mem_picked {A : Type} {l : List A} {keep : List Bool} {a : A} (h : a ∈ picked l keep) : a ∈ l := by
  obtain ⟨p, hp, rfl⟩ := List.mem_map.1 h
  exact (List.of_mem_zip (List.mem_filter.1 hp).1).1

theorem mem_kept {A : Type} {l : List A} {keep : List Bool} {a : A} (h : a ∈ kept l keep) : a ∈ l := by
  obtain ⟨p, hp, rfl⟩ := List.mem_map.1 h
  exact (List.of_mem_zip (List.mem_filter.1 hp).1).1

theorem cells_stored {t : List TCol} (hn : (t.map (·.name)).Nodup) {row : PRow} (hl : row.length = t.length) :
    t.map (fun c => storedRow t row c.name) = row := by
  apply List.ext_getElem?
  intro i
  rw [List.getElem?_map]
  cases hi : t[i]? with
  | none =>
    have := List.getElem?_eq_none_iff.1 hi
    rw [Option.map_none, eq_comm, List.getElem?_eq_none_iff]
    omega
  | some c =>
    have hc : (t.map (·.name))[i]? = some c.name := by simp [hi]
    have hlt := (List.getElem?_eq_some_iff.1 hi).1
    simp only [Option.map_some, storedRow, nf_findIdx hn hc]
    rw [List.getElem?_eq_getElem (by omega)]
    rfl

/-- **C142** with files: if the names are plain, the files that are rewritten are chosen by the statistics
of the key columns, and the rows after the flush are those of the flush on the values. -/
theorem C142_files_partial {parse : String → List String} {pks : List String} {t : List TCol}
    {items : List (List SyncCol × List PRow)} {ps : PSnapshot} (hne : items ≠ []) (hpk : pks ≠ [])
    (ht : TableOk pks t) (hI : ∀ it ∈ items, ItemOk parse pks it.1 ∧ ∀ r ∈ it.2, r.length = it.1.length)
    (hk : ∀ n ∈ pks, Plain parse n ∧ Plain parse (canon .newPk n))
    (hc : 2 ≤ items.length → ∀ it ∈ items, CanonPlain parse it.1)
    (hv : ∃ it ∈ items, ∃ n ∈ pks, ∃ r ∈ it.2,
      (sentRow it.1 r ⟨.oldPk, n⟩).isSome = true ∨ (sentRow it.1 r ⟨.newPk, n⟩).isSome = true)
    (hb : ∀ f ∈ ps.files, ∀ b ∈ f.rows, b.length = t.length) :
    flushFilesNamed parse t items ps =
      (flushFiles (t.map (·.name)) (items.map sentItem) (snapshotOf t ps)).map
        (List.map (fun r => t.map (fun c => r c.name))) := by
  have hitems : items.map keyItem = items.map sentItem := by
    refine List.map_congr_left fun it hit => ?_
    have e : byRel lowerRel it.1 = sentRow it.1 :=
      funext fun r => byRel_sent (hI it hit).1.schema.nodup (hI it hit).1.fields r
    simp only [keyItem, sentItem, e]
  have hfound : ∀ n ∈ pks, foundAs parse n = n := fun n hn => by
    have : colOf parse n = ⟨[], n⟩ := (hk n hn).1
    simp only [foundAs, this]
  have hsame : SameStats pks ps (statsByName parse ps) (snapshotOf t ps)
      (fun f => { rows := [], min := fun n => f.min (foundAs parse n), max := fun n => f.max (foundAs parse n), records := f.records })
      (fun f => { rows := f.rows.map (storedRow t), min := f.min, max := f.max, records := f.records }) :=
    ⟨rfl, rfl, fun f _ n hn => by simp only [hfound n hn], fun f _ n hn => by simp only [hfound n hn],
      fun _ _ => rfl, fun n hn => by simp only [statsByName, snapshotOf, hfound n hn],
      fun n hn => by simp only [statsByName, snapshotOf, hfound n hn]⟩
  have hprune : prunePartitions (statsByName parse ps) (items.map keyItem) =
      prunePartitions (snapshotOf t ps) (items.map sentItem) := by
    rw [hitems]
    refine hsame.prune ?_
    intro it hit
    obtain ⟨x, hx, rfl⟩ := List.mem_map.1 hit
    exact (hI x hx).1.schema
  unfold flushFilesNamed flushFiles
  rw [hprune]
  cases prunePartitions (snapshotOf t ps) (items.map sentItem) with
  | none => rfl
  | some keep =>
    have e1 : fileRows (touched (snapshotOf t ps).files keep) =
        ((picked ps.files keep).flatMap (·.rows)).map (storedRow t) := by
      show (picked (ps.files.map _) keep).flatMap _ = _
      rw [picked_map, List.flatMap_map, List.map_flatMap]
    have e2 : fileRows (untouched (snapshotOf t ps).files keep) =
        ((kept ps.files keep).flatMap (·.rows)).map (storedRow t) := by
      show (kept (ps.files.map _) keep).flatMap _ = _
      rw [kept_map, List.flatMap_map, List.map_flatMap]
    simp only [e1, e2]
    rw [C142_flush_partial hne hpk ht hI hk hc hv (fun b hm => by
      obtain ⟨f, hf, hbf⟩ := List.mem_flatMap.1 hm
      exact hb f (mem_picked hf) b hbf)]
    cases flushRows (t.map (·.name)) (items.map sentItem)
        (((picked ps.files keep).flatMap (·.rows)).map (storedRow t)) with
    | none => rfl
    | some out =>
      simp only [Option.map_some, List.map_append, List.map_map, Option.some.injEq]
      congr 1
      refine Eq.symm (Eq.trans (List.map_congr_left fun r hr => ?_) (List.map_id _))
      obtain ⟨f, hf, hrf⟩ := List.mem_flatMap.1 hr
      exact cells_stored ht.nodup (hb f (mem_kept hf) r hrf)

/-- **C142**, C17 and C16 together: a flush of changes with plain names that keep their keys, in a table whose
log has sound statistics, succeeds and ends in the table that is the result of applying the changes one by one: the rows of
the files that were left alone and of those that were rewritten, each row once. -/
theorem C142_replicates_files_partial {parse : String → List String} {pks : List String} {t : List TCol}
    {items : List (List SyncCol × List PRow)} {ps : PSnapshot} (hne : items ≠ []) (hpk : pks ≠ [])
    (ht : TableOk pks t) (hI : ∀ it ∈ items, ItemOk parse pks it.1 ∧ ∀ r ∈ it.2, r.length = it.1.length)
    (hk : ∀ n ∈ pks, Plain parse n ∧ Plain parse (canon .newPk n))
    (hc : 2 ≤ items.length → ∀ it ∈ items, CanonPlain parse it.1)
    (hv : ∃ it ∈ items, ∃ n ∈ pks, ∃ r ∈ it.2,
      (sentRow it.1 r ⟨.oldPk, n⟩).isSome = true ∨ (sentRow it.1 r ⟨.newPk, n⟩).isSome = true)
    (hb : ∀ f ∈ ps.files, ∀ b ∈ f.rows, b.length = t.length)
    (hstats : ∀ f ∈ ps.files, ∀ b ∈ f.rows, ∀ c v, storedRow t b c = some v →
      (∀ m, f.min c = some m → m.le v = true) ∧ (∀ m, f.max c = some m → v.le m = true))
    (hkey : Keyed pks (t.map (·.name)) ((ps.files.flatMap (·.rows)).map (storedRow t)))
    (sent : List SItem) (hsent : sent ≠ []) (hsq : SquashedItems sent (items.map sentItem))
    (hg : Gentle pks (t.map (·.name)) (tableOf pks ((ps.files.flatMap (·.rows)).map (storedRow t))) sent) :
    ∃ out, flushFilesNamed parse t items ps = some out ∧ Keyed pks (t.map (·.name)) (out.map (storedRow t)) ∧
      tableOf pks (out.map (storedRow t)) =
        replay (t.map (·.name)) (tableOf pks ((ps.files.flatMap (·.rows)).map (storedRow t))) (allChanges pks sent) := by
  have hsome : flushFiles (t.map (·.name)) (items.map sentItem) (snapshotOf t ps) ≠ none := by
    intro h0
    have hnk := (C21_flush_fails_iff_partial hpk (items.map sentItem) (by simpa using hne) (fun it hit => by
      obtain ⟨x, hx, rfl⟩ := List.mem_map.1 hit
      exact (hI x hx).1.schema) (snapshotOf t ps)).1 h0
    obtain ⟨it, hit, n, hn, r, hr, hval⟩ := hv
    obtain ⟨e1, e2⟩ := hnk (sentItem it) (List.mem_map.2 ⟨it, hit, rfl⟩) (sentRow it.1 r)
      (List.mem_map.2 ⟨r, hr, rfl⟩) n hn
    rw [e1, e2] at hval
    simp at hval
  obtain ⟨out', h1⟩ := Option.ne_none_iff_exists'.1 hsome
  have hrows : fileRows (snapshotOf t ps).files = (ps.files.flatMap (·.rows)).map (storedRow t) := by
    simp only [fileRows, snapshotOf, List.flatMap_map, List.map_flatMap]
  have hsound : SoundStats (snapshotOf t ps) := by
    intro f hf r hr c v hcv
    obtain ⟨f0, hf0, rfl⟩ := List.mem_map.1 hf
    obtain ⟨b, hbf, rfl⟩ := List.mem_map.1 hr
    exact hstats f0 hf0 b hbf c v hcv
  obtain ⟨h2, h3⟩ := C16_stable_keys_files hpk ht.keys (snapshotOf t ps) hsound (by rw [hrows]; exact hkey) sent _
    hsent hsq (by rw [hrows]; exact hg) out' h1
  have e : (out'.map (fun r => t.map (fun c => r c.name))).map (storedRow t) = out' := by
    rw [List.map_map]
    refine Eq.trans (List.map_congr_left fun r hr => ?_) (List.map_id out')
    exact stored_of_keyed ht.nodup (h2.cols r hr)
  refine ⟨_, by rw [C142_files_partial hne hpk ht hI hk hc hv hb, h1]; rfl, ?_⟩
  rw [e, ← hrows]
  exact ⟨h2, h3⟩

/-! ### Keys that differ in case only -/

/-- **C142** is violated by the choice of files: if a key column is not in lower case, its values are looked
up in the statistics of the column in lower case.  If they are all below the least value of that column in a
file, or above the greatest one, the file is not rewritten, and its rows stay as they are, even if they are
the ones to be updated or deleted. -/
theorem C142_violated_pruning_always {parse : String → List String} (hp : FoldsWords parse) {pks : List String}
    {t : List TCol} {items : List (List SyncCol × List PRow)} {ps : PSnapshot}
    (hI : ∀ it ∈ items, SchemaOk pks (descs it.1) ∧ (it.1.map (·.field.name)).Nodup)
    (hword : ∀ n ∈ pks, isWord n = true) (hw : KeysWhole pks (items.map sentItem))
    (hst : ∀ n ∈ pks, ps.hasMin (lower n) = true ∨ ps.hasMax (lower n) = true) {f : PFile} (hf : f ∈ ps.files)
    {n : String} (hn : n ∈ pks)
    (ha : (ps.hasMax (lower n) = true ∧ ∃ M, f.max (lower n) = some M ∧ ∀ it ∈ items, ∀ row ∈ it.2, ∀ role,
        (role = .oldPk ∨ role = .newPk) → ∀ v, sentRow it.1 row ⟨role, n⟩ = some v → v.le M = false) ∨
      (ps.hasMin (lower n) = true ∧ ∃ m, f.min (lower n) = some m ∧ ∀ it ∈ items, ∀ row ∈ it.2, ∀ role,
        (role = .oldPk ∨ role = .newPk) → ∀ v, sentRow it.1 row ⟨role, n⟩ = some v → m.le v = false))
    {out : List PRow} (h : flushFilesNamed parse t items ps = some out) : ∀ b ∈ f.rows, b ∈ out := by
  have hitems : items.map keyItem = items.map sentItem := by
    refine List.map_congr_left fun it hit => ?_
    have e : byRel lowerRel it.1 = sentRow it.1 := funext fun r => byRel_sent (hI it hit).1.nodup (hI it hit).2 r
    simp only [keyItem, sentItem, e]
  have hfound : ∀ n ∈ pks, foundAs parse n = lower n := fun n hn => by
    simp only [foundAs, colOf_word hp (hword n hn)]
  have hmem : ∀ {x : SItem}, x ∈ items.map sentItem → ∀ r ∈ x.2,
      ∃ it ∈ items, ∃ row ∈ it.2, r = sentRow it.1 row := by
    intro x hx r hr
    obtain ⟨it, hit, rfl⟩ := List.mem_map.1 hx
    obtain ⟨row, hrow, rfl⟩ := List.mem_map.1 hr
    exact ⟨it, hit, row, hrow, rfl⟩
  unfold flushFilesNamed at h
  rw [hitems] at h
  cases hk : prunePartitions (statsByName parse ps) (items.map sentItem) with
  | none => rw [hk] at h; cases h
  | some keep =>
    rw [hk] at h
    obtain ⟨i, hi⟩ := List.getElem?_of_mem hf
    have hdrop : keep[i]? = some false := by
      refine C17_prunes (pks := pks) (statsByName parse ps) (items.map sentItem) ?_ hw ?_ keep hk i _
        (by simp only [statsByName, List.getElem?_map, hi, Option.map_some]; rfl) n hn ?_
      · intro x hx
        obtain ⟨it, hit, rfl⟩ := List.mem_map.1 hx
        exact (hI it hit).1
      · intro c hc
        simp only [statsByName, hfound c hc]
        exact hst c hc
      · simp only [Apart, statsByName, hfound n hn]
        rcases ha with ⟨h1, M, h2, h3⟩ | ⟨h1, m, h2, h3⟩
        · refine Or.inl ⟨h1, M, h2, fun x hx r hr role hrole v hv => ?_⟩
          obtain ⟨it, hit, row, hrow, rfl⟩ := hmem hx r hr
          exact h3 it hit row hrow role hrole v hv
        · refine Or.inr ⟨h1, m, h2, fun x hx r hr role hrole v hv => ?_⟩
          obtain ⟨it, hit, row, hrow, rfl⟩ := hmem hx r hr
          exact h3 it hit row hrow role hrole v hv
    have hkept : f ∈ kept ps.files keep := by
      refine List.mem_map.2 ⟨(f, false), List.mem_filter.2 ⟨?_, rfl⟩, rfl⟩
      refine List.mem_of_getElem? (i := i) ?_
      rw [List.getElem?_zip_eq_some]
      exact ⟨hi, hdrop⟩
    simp only at h
    intro b hb
    cases hfl : flushNamed parse t items ((picked ps.files keep).flatMap (·.rows)) with
    | none => rw [hfl] at h; cases h
    | some o =>
      rw [hfl] at h
      injection h with h
      subst h
      exact List.mem_append_left _ (List.mem_flatMap.2 ⟨f, hkept, hb⟩)

namespace PruneDemo

open NamesDemo FlushDemo

/-- Statistics of whole numbers, by column. -/
def stats (l : List (String × Int)) : String → Cell := fun n => (l.find? (fun p => p.1 == n)).map (fun p => .int p.2)

/-- Two files of the table of `FlushDemo`; only the first one holds keys that are changed. -/
def ps : PSnapshot where
  files := [⟨base, stats [("a", 1), ("b", 1)], stats [("a", 1), ("b", 2)], some 2⟩,
    ⟨[[i 7, i 9, i 70, i 8]], stats [("a", 7), ("b", 9)], stats [("a", 7), ("b", 9)], some 1⟩]
  hasMin _ := true
  hasMax _ := true

/-- The row of the second file stays; the others come from the rewritten file. -/
example : flushFilesNamed demoParse FlushDemo.t FlushDemo.items ps =
    some [[i 7, i 9, i 70, i 8], [i 1, i 1, i 11, i 5], [i 2, i 1, i 31, none], [i 2, i 2, i 40, none]] := by
  decide +kernel

/-- The hypotheses of `C142_files_partial` hold. -/
example : flushFilesNamed demoParse FlushDemo.t FlushDemo.items ps =
    (flushFiles (FlushDemo.t.map (·.name)) (FlushDemo.items.map sentItem) (snapshotOf FlushDemo.t ps)).map
      (List.map (fun r => FlushDemo.t.map (fun c => r c.name))) :=
  C142_files_partial (pks := pk) (by decide) (by decide) table_ok items_ok keys_plain
    (fun _ it h => by rw [items_cols h]; exact canon_plain) some_key (by decide)

/-- The first file alone. -/
def ps1 : PSnapshot := { ps with files := ps.files.take 1 }

theorem stats_sound : ∀ f ∈ ps1.files, ∀ b ∈ f.rows, ∀ c v, storedRow FlushDemo.t b c = some v →
    (∀ m, f.min c = some m → m.le v = true) ∧ (∀ m, f.max c = some m → v.le m = true) := by
  intro f hf b hb c v hv
  have hf : f = ⟨base, stats [("a", 1), ("b", 1)], stats [("a", 1), ("b", 2)], some 2⟩ := by
    simpa [ps1, ps] using hf
  subst hf
  have hcase : c = "a" ∨ c = "b" ∨ (c ≠ "a" ∧ c ≠ "b") := by
    by_cases h1 : c = "a"
    · exact Or.inl h1
    · by_cases h2 : c = "b"
      · exact Or.inr (Or.inl h2)
      · exact Or.inr (Or.inr ⟨h1, h2⟩)
  rcases hcase with rfl | rfl | ⟨h1, h2⟩
  · have ea : ∀ b ∈ base, storedRow FlushDemo.t b "a" = i 1 := by decide +kernel
    rw [ea b hb] at hv
    injection hv with hv
    subst hv
    constructor <;> intro m hm <;> (injection hm with hm; subst hm; decide)
  · have eb : ∀ b ∈ base, storedRow FlushDemo.t b "b" = i 1 ∨ storedRow FlushDemo.t b "b" = i 2 := by decide +kernel
    rcases eb b hb with e | e <;> rw [e] at hv <;> injection hv with hv <;> subst hv <;>
      constructor <;> intro m hm <;> (injection hm with hm; subst hm; decide)
  · have e1 : ("a" == c) = false := by simpa using fun h => h1 h.symm
    have e2 : ("b" == c) = false := by simpa using fun h => h2 h.symm
    constructor <;> intro m hm <;> simp [stats, e1, e2] at hm

/-- The hypotheses of `C142_replicates_files_partial` hold, and the flush succeeds. -/
example : ∃ out, flushFilesNamed demoParse FlushDemo.t FlushDemo.items ps1 = some out ∧
    tableOf pk (out.map (storedRow FlushDemo.t)) =
      replay (FlushDemo.t.map (·.name)) (tableOf pk (base.map (storedRow FlushDemo.t)))
        (allChanges pk (FlushDemo.items.map sentItem)) := by
  obtain ⟨out, h1, _, h3⟩ := C142_replicates_files_partial (parse := demoParse) (ps := ps1) (by decide) (by decide)
    table_ok items_ok keys_plain (fun _ it h => by rw [items_cols h]; exact canon_plain) some_key (by decide) stats_sound keyed _
    (by decide) squashed gentle
  exact ⟨out, h1, h3⟩

/-- The file with the rows `keyRows`: the values of `id` are 1 to 5. -/
def keyFile : PFile := ⟨keyRows, stats [("Id", 1), ("id", 1)], stats [("Id", 9), ("id", 5)], some 3⟩

/-- It is chosen, so that the update of the row (1, 5) does hit the row (2, 5). -/
example : flushFilesNamed demoParse keyTable [(keyCols, [[i 1, i 5, i 1, i 5, i 11]])] ⟨[keyFile], fun _ => true, fun _ => true⟩ =
    some [[i 5, i 5, i 11], [i 5, i 5, i 11], [i 9, i 1, i 30]] := by decide +kernel

/-- A file with the row (1, 5) alone. -/
def oneFile : PFile := ⟨[[i 1, i 5, i 10]], stats [("Id", 1), ("id", 5)], stats [("Id", 1), ("id", 5)], some 1⟩

/-- **C142** is violated by the choice of files: the update of the row (1, 5) does not find the file with that
row, since no value of `id` in it is 1.  The row stays, and another one is added. -/
theorem C142_violated_pruning :
    flushFilesNamed demoParse keyTable [(keyCols, [[i 1, i 5, i 1, i 5, i 11]])] ⟨[oneFile], fun _ => true, fun _ => true⟩ =
      some [[i 1, i 5, i 10], [i 5, i 5, i 11]] ∧
    (flushFiles (keyTable.map (·.name)) [sentItem (keyCols, [[i 1, i 5, i 1, i 5, i 11]])]
        (snapshotOf keyTable ⟨[oneFile], fun _ => true, fun _ => true⟩)).map
      (List.map (fun r => keyTable.map (fun c => r c.name))) = some [[i 1, i 5, i 11]] := by
  constructor <;> decide +kernel

/-- A deletion of the row (1, 5), which the theorem says has no effect on it. -/
example (out : List PRow)
    (h : flushFilesNamed demoParse keyTable [(keyCols, [[i 1, i 5, none, none, none]])] ⟨[oneFile], fun _ => true, fun _ => true⟩ =
      some out) : [i 1, i 5, i 10] ∈ out := by
  refine C142_violated_pruning_always demoParse_folds (pks := ["Id", "id"]) (f := oneFile) (n := "Id") ?_
    (by decide +kernel) ?_ (fun _ _ => Or.inl rfl) (by simp) (by simp) (Or.inr ⟨rfl, .int 5, by decide +kernel, ?_⟩) h
    _ (by simp [oneFile])
  · intro it hit
    simp only [List.mem_singleton] at hit
    subst hit
    exact ⟨C142_violated_keys.1, C142_violated_keys.2.1⟩
  · intro it hit r hr role hrole n hn n' hn'
    simp only [List.map_cons, List.map_nil, List.mem_singleton] at hit
    subst hit
    simp only [sentItem, List.map_cons, List.map_nil, List.mem_singleton] at hr
    subst hr
    simp only [List.mem_cons, List.not_mem_nil, or_false] at hn hn'
    rcases hrole with rfl | rfl <;> rcases hn with rfl | rfl <;> rcases hn' with rfl | rfl <;> decide +kernel
  · intro it hit row hrow role hrole v hv
    simp only [List.mem_singleton] at hit
    subst hit
    simp only [List.mem_singleton] at hrow
    subst hrow
    have e1 : sentRow keyCols [i 1, i 5, none, none, none] ⟨.oldPk, "Id"⟩ = i 1 := by decide +kernel
    have e2 : sentRow keyCols [i 1, i 5, none, none, none] ⟨.newPk, "Id"⟩ = none := by decide +kernel
    rcases hrole with rfl | rfl
    · rw [e1] at hv
      injection hv with hv
      subst hv
      decide
    · rw [e2] at hv
      cases hv

end PruneDemo

end Seafowl.Names
