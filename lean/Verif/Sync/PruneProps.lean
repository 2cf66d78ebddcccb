import Verif.Sync.Prune

/-!
# Pruning is sound (C17), and the flush with files (C16)
-/

namespace Seafowl.Sync

variable {pks full : List String} {S : Schema}

/-! ### the order -/

theorem Val.le_refl (a : Val) : a.le a = true := by cases a <;> simp [Val.le]

theorem Val.le_trans {a b c : Val} (h1 : a.le b = true) (h2 : b.le c = true) : a.le c = true := by
  cases a <;> cases b <;> cases c <;> simp_all [Val.le]
  · omega
  · exact String.le_trans h1 h2
  · rcases h1 with h1 | h1 <;> rcases h2 with h2 | h2 <;> simp_all

theorem Val.le_total (a b : Val) : a.le b = true ∨ b.le a = true := by
  cases a <;> cases b <;> simp [Val.le]
  · omega
  · exact String.le_total _ _
  · rename_i a b; cases a <;> cases b <;> simp

theorem and3_not_false {a b : Option Bool} (ha : a ≠ some false) (hb : b ≠ some false) : and3 a b ≠ some false := by
  rcases a with _ | a <;> rcases b with _ | b
  · simp [and3]
  · cases b <;> simp_all [and3]
  · cases a <;> simp_all [and3]
  · cases a <;> cases b <;> simp_all [and3]

theorem or3_not_false {a b : Option Bool} (h : a ≠ some false ∨ b ≠ some false) : or3 a b ≠ some false := by
  rcases a with _ | a <;> rcases b with _ | b
  · simp [or3]
  · cases b <;> simp_all [or3]
  · cases a <;> simp_all [or3]
  · cases a <;> cases b <;> simp_all [or3]

theorem le3_not_false {a b : Cell} (h : ∀ x y, a = some x → b = some y → x.le y = true) :
    le3 a b ≠ some false := by
  cases a <;> cases b <;> simp only [le3] <;> first | (rw [h _ _ rfl rfl]; simp) | simp

theorem foldl_and3 {α : Type} (f : α → Option Bool) (l : List α) (acc : Option Bool) (ha : acc ≠ some false)
    (h : ∀ x ∈ l, f x ≠ some false) : l.foldl (fun acc x => and3 acc (f x)) acc ≠ some false := by
  induction l generalizing acc with
  | nil => exact ha
  | cons x l ih =>
    exact ih _ (and3_not_false ha (h x (by simp))) (fun y hy => h y (by simp [hy]))

/-- The minimum is a lower bound, and it exists if there is a value. -/
theorem minCell_le (l : List Cell) {v : Val} (hv : some v ∈ l) :
    ∃ m, minCell l = some m ∧ m.le v = true := by
  have gen : ∀ (l : List Cell) (acc : Cell), (some v ∈ l ∨ ∃ a, acc = some a ∧ a.le v = true) →
      ∃ m, l.foldl (fun acc c => match acc, c with
        | none, c => c
        | acc, none => acc
        | some a, some b => if a.le b then some a else some b) acc = some m ∧ m.le v = true := by
    intro l
    induction l with
    | nil => rintro acc (h | h); cases h; exact h
    | cons c l ih =>
      intro acc h
      apply ih
      rcases h with h | ⟨a, rfl, ha⟩
      · rcases List.mem_cons.1 h with h | h
        · subst h
          right
          cases acc with
          | none => exact ⟨v, rfl, Val.le_refl v⟩
          | some a =>
            simp only
            split
            · next h => exact ⟨a, rfl, h⟩
            · exact ⟨v, rfl, Val.le_refl v⟩
        · exact Or.inl h
      · right
        cases c with
        | none => exact ⟨a, rfl, ha⟩
        | some b =>
          simp only
          split
          · exact ⟨a, rfl, ha⟩
          · next h =>
            refine ⟨b, rfl, Val.le_trans ?_ ha⟩
            rcases Val.le_total a b with h' | h'
            · exact absurd h' h
            · exact h'
  exact gen l none (Or.inl hv)

theorem maxCell_ge (l : List Cell) {v : Val} (hv : some v ∈ l) :
    ∃ m, maxCell l = some m ∧ v.le m = true := by
  have gen : ∀ (l : List Cell) (acc : Cell), (some v ∈ l ∨ ∃ a, acc = some a ∧ v.le a = true) →
      ∃ m, l.foldl (fun acc c => match acc, c with
        | none, c => c
        | acc, none => acc
        | some a, some b => if a.le b then some b else some a) acc = some m ∧ v.le m = true := by
    intro l
    induction l with
    | nil => rintro acc (h | h); cases h; exact h
    | cons c l ih =>
      intro acc h
      apply ih
      rcases h with h | ⟨a, rfl, ha⟩
      · rcases List.mem_cons.1 h with h | h
        · subst h
          right
          cases acc with
          | none => exact ⟨v, rfl, Val.le_refl v⟩
          | some a =>
            simp only
            split
            · exact ⟨v, rfl, Val.le_refl v⟩
            · next h =>
              refine ⟨a, rfl, ?_⟩
              rcases Val.le_total a v with h' | h'
              · exact absurd h' h
              · exact h'
        · exact Or.inl h
      · right
        cases c with
        | none => exact ⟨a, rfl, ha⟩
        | some b =>
          simp only
          split
          · next h => exact ⟨b, rfl, Val.le_trans ha h⟩
          · exact ⟨a, rfl, ha⟩
  exact gen l none (Or.inl hv)

/-! ### C17 -/

/-- The statistics of the files are sound: a minimum (maximum) in the log is a lower (upper) bound of
the values in the file.  Statistics may be missing. -/
def SoundStats (sn : Snapshot) : Prop :=
  ∀ f ∈ sn.files, ∀ r ∈ f.rows, ∀ c v, r c = some v →
    (∀ m, f.min c = some m → m.le v = true) ∧ (∀ m, f.max c = some m → v.le m = true)

theorem mem_keyCells {items : List SItem} {it : SItem} (hit : it ∈ items) {r : Row} (hr : r ∈ it.2)
    (role : Role) (c : String) : r ⟨role, c⟩ ∈ keyCells items role c :=
  List.mem_flatMap.2 ⟨it, hit, List.mem_map.2 ⟨r, hr, rfl⟩⟩

/-- A file with a row whose key occurs in the items is not excluded by the qualifier of that role, and
the qualifier is not empty. -/
theorem coarse_keeps {sn : Snapshot} (hs : SoundStats sn) {f : DFile} (hf : f ∈ sn.files) {b : TRow}
    (hb : b ∈ f.rows) (hnn : ∀ n ∈ pks, (b n).isSome) (hpk : pks ≠ []) {items : List SItem} {it : SItem}
    (hit : it ∈ items) {r : Row} (hr : r ∈ it.2) {role : Role}
    (hrole : ∀ it ∈ items, names it.1 role = pks) (hk : ∀ n ∈ pks, r ⟨role, n⟩ = b n)
    {qs : List (String × Val × Val)} (hq : constructQualifier items role = some qs) :
    qs ≠ [] ∧ pruneAll sn f qs ≠ some false := by
  cases items with
  | nil => cases hit
  | cons it0 rest =>
    simp only [constructQualifier] at hq
    split at hq
    · rw [hrole it0 (by simp)] at hq
      injection hq with hq
      constructor
      · obtain ⟨n, hn⟩ := List.exists_mem_of_ne_nil pks hpk
        obtain ⟨v, hv⟩ := Option.isSome_iff_exists.1 (hnn n hn)
        have hm := mem_keyCells hit hr role n
        rw [hk n hn, hv] at hm
        obtain ⟨lo, h1, _⟩ := minCell_le _ hm
        obtain ⟨hi, h2, _⟩ := maxCell_ge _ hm
        intro he
        have : (n, lo, hi) ∈ qs := by
          rw [← hq, List.mem_filterMap]
          exact ⟨n, hn, by simp [h1, h2]⟩
        rw [he] at this
        cases this
      · apply foldl_and3
        · simp
        · intro q hqm
          rw [← hq, List.mem_filterMap] at hqm
          obtain ⟨n, hn, hqn⟩ := hqm
          obtain ⟨v, hv⟩ := Option.isSome_iff_exists.1 (hnn n hn)
          have hm := mem_keyCells hit hr role n
          rw [hk n hn, hv] at hm
          obtain ⟨lo, h1, h3⟩ := minCell_le _ hm
          obtain ⟨hi, h2, h4⟩ := maxCell_ge _ hm
          rw [h1, h2] at hqn
          simp only [Option.some.injEq] at hqn
          subst hqn
          have hst := hs f hf b hb n v hv
          apply and3_not_false
          · apply le3_not_false
            intro x y hx hy
            injection hx with hx
            subst hx
            simp only [statMax] at hy
            split at hy
            · exact Val.le_trans h3 (hst.2 y hy)
            · cases hy
          · apply le3_not_false
            intro x y hx hy
            injection hy with hy
            subst hy
            simp only [statMin] at hx
            split at hx
            · exact Val.le_trans (hst.1 x hx) h4
            · cases hx
    · cases hq

/-- The same for the fine-grained check. -/
theorem fine_keeps {sn : Snapshot} (hs : SoundStats sn) {f : DFile} (hf : f ∈ sn.files) {b : TRow}
    (hb : b ∈ f.rows) (hnn : ∀ n ∈ pks, (b n).isSome) (hpk : pks ≠ []) {it : SItem}
    {r : Row} (hr : r ∈ it.2) {role : Role}
    (hrole : names it.1 role = pks) (hk : ∀ n ∈ pks, r ⟨role, n⟩ = b n) : fineItem sn f role it = true := by
  simp only [fineItem, hrole]
  cases pks with
  | nil => exact absurd rfl hpk
  | cons c cs =>
    simp only
    rw [List.any_eq_true]
    refine ⟨r, List.mem_filter.2 ⟨hr, by rw [hk c (by simp)]; exact hnn c (by simp)⟩, ?_⟩
    rw [decide_eq_true_eq]
    apply foldl_and3
    · simp
    · intro n hn
      obtain ⟨v, hv⟩ := Option.isSome_iff_exists.1 (hnn n hn)
      have hst := hs f hf b hb n v hv
      rw [hk n hn, hv]
      have hlo : le3 (f.min n) (some v) ≠ some false := by
        apply le3_not_false
        intro x y hx hy
        injection hy with hy
        subst hy
        exact hst.1 x hx
      have hhi : le3 (some v) (f.max n) ≠ some false := by
        apply le3_not_false
        intro x y hx hy
        injection hx with hx
        subst hx
        exact hst.2 y hy
      simp only [fineCell]
      split
      · exact and3_not_false hlo hhi
      · exact hlo
      · exact hhi
      · simp

theorem prune_keeps {sn : Snapshot} (hs : SoundStats sn) (hpk : pks ≠ []) {items : List SItem}
    (hok : ∀ it ∈ items, SchemaOk pks it.1) {keep : List Bool} (h : prunePartitions sn items = some keep) :
    ∃ k : DFile → Bool, keep = sn.files.map k ∧
      ∀ f ∈ sn.files, ∀ b ∈ f.rows, (∀ n ∈ pks, (b n).isSome) → ∀ it ∈ items, ∀ r ∈ it.2, ∀ role,
        (role = .oldPk ∨ role = .newPk) → (∀ n ∈ pks, r ⟨role, n⟩ = b n) → k f = true := by
  simp only [prunePartitions] at h
  split at h
  · next qo qn hqo hqn =>
    have hro : ∀ it ∈ items, names it.1 .oldPk = pks := fun it hit => (hok it hit).oldPk
    have hrn : ∀ it ∈ items, names it.1 .newPk = pks := fun it hit => (hok it hit).newPk
    split at h
    · cases h
    · next keep' hk' =>
      split at h
      · -- fine-grained
        cases items with
        | nil => cases h
        | cons it0 rest =>
          simp only [pruneMap] at h
          split at h
          · injection h with h
            exact ⟨fun _ => true, h.symm, fun _ _ _ _ _ _ _ _ _ _ _ _ => rfl⟩
          · split at h
            · injection h with h
              refine ⟨_, h.symm, ?_⟩
              intro f hf b hb hnn it hit r hr role hrl hk
              rw [Bool.or_eq_true, List.any_eq_true, List.any_eq_true]
              rcases hrl with rfl | rfl
              · exact Or.inl ⟨it, hit, fine_keeps hs hf hb hnn hpk hr (hro it hit) hk⟩
              · exact Or.inr ⟨it, hit, fine_keeps hs hf hb hnn hpk hr (hrn it hit) hk⟩
            · cases h
      · injection h with h
        subst h
        have hco : ∀ f ∈ sn.files, ∀ b ∈ f.rows, (∀ n ∈ pks, (b n).isSome) → ∀ it ∈ items, ∀ r ∈ it.2, ∀ role,
            (role = .oldPk ∨ role = .newPk) → (∀ n ∈ pks, r ⟨role, n⟩ = b n) →
            (qo ≠ [] ∧ pruneAll sn f qo ≠ some false) ∨ (qn ≠ [] ∧ pruneAll sn f qn ≠ some false) := by
          intro f hf b hb hnn it hit r hr role hrl hk
          rcases hrl with rfl | rfl
          · exact Or.inl (coarse_keeps hs hf hb hnn hpk hit hr hro hk hqo)
          · exact Or.inr (coarse_keeps hs hf hb hnn hpk hit hr hrn hk hqn)
        simp only [coarseMap] at hk'
        split at hk'
        · cases hk'
        · injection hk' with hk'
          refine ⟨_, hk'.symm, ?_⟩
          intro f hf b hb hnn it hit r hr role hrl hk
          rw [decide_eq_true_eq]
          rcases hco f hf b hb hnn it hit r hr role hrl hk with h1 | h1
          · exact absurd rfl h1.1
          · exact h1.2
        · injection hk' with hk'
          refine ⟨_, hk'.symm, ?_⟩
          intro f hf b hb hnn it hit r hr role hrl hk
          rw [decide_eq_true_eq]
          rcases hco f hf b hb hnn it hit r hr role hrl hk with h1 | h1
          · exact h1.2
          · exact absurd rfl h1.1
        · injection hk' with hk'
          refine ⟨_, hk'.symm, ?_⟩
          intro f hf b hb hnn it hit r hr role hrl hk
          rw [decide_eq_true_eq]
          apply or3_not_false
          rcases hco f hf b hb hnn it hit r hr role hrl hk with h1 | h1
          · exact Or.inl h1.2
          · exact Or.inr h1.2
  · cases h

/-- **C17**: a data file that the flush leaves in place contains no row whose key is the old or the
new key of a flushed change, in the coarse and in the fine-grained mode. -/
theorem C17_untouched (hpk : pks ≠ []) (sn : Snapshot) (hs : SoundStats sn)
    (hnn : ∀ f ∈ sn.files, ∀ b ∈ f.rows, ∀ n ∈ pks, (b n).isSome) (items : List SItem)
    (hok : ∀ it ∈ items, SchemaOk pks it.1) (keep : List Bool) (h : prunePartitions sn items = some keep) :
    keep.length = sn.files.length ∧
    ∀ (i : Nat) (f : DFile), sn.files[i]? = some f → keep[i]? = some false →
      ∀ b ∈ f.rows, ∀ it ∈ items, ∀ ch ∈ itemChanges pks it,
        ch.old ≠ some (tkey pks b) ∧ ch.new ≠ some (tkey pks b) := by
  obtain ⟨k, rfl, hk⟩ := prune_keeps hs hpk hok h
  refine ⟨by simp, ?_⟩
  intro i f hf hkeep b hb it hit ch hch
  have hfm := List.mem_of_getElem? hf
  rw [List.getElem?_map, hf] at hkeep
  simp only [Option.map_some, Option.some.injEq] at hkeep
  obtain ⟨r, hr, rfl⟩ := List.mem_map.1 hch
  have key : ∀ role, (role = .oldPk ∨ role = .newPk) →
      toKey (pks.map (fun n => r ⟨role, n⟩)) ≠ some (tkey pks b) := by
    intro role hrole he
    have h1 := (toKey_eq_some.1 he).1
    have := hk f hfm b hb (hnn f hfm b hb) it hit r hr role hrole (by
      simp only [tkey] at h1
      first
        | exact List.map_inj_left.1 h1
        | exact fun n hn => (List.map_inj_left.1 h1 n hn).symm)
    rw [hkeep] at this
    cases this
  exact ⟨key .oldPk (Or.inl rfl), key .newPk (Or.inr rfl)⟩

/-! ### the flush with files -/

theorem mergeSyncs_keys {it acc acc' : SItem} (hA : SchemaOk pks acc.1) (hU : SchemaOk pks it.1)
    (h : mergeSyncs acc.1 acc.2 it.1 it.2 = some acc') (P : Role → Row → Prop)
    (hP : ∀ role r r', (∀ n ∈ pks, r ⟨role, n⟩ = r' ⟨role, n⟩) → P role r' → P role r)
    (h1 : ∀ r ∈ acc.2, P .oldPk r ∧ P .newPk r) (h2 : ∀ r ∈ it.2, P .oldPk r ∧ P .newPk r) :
    ∀ r ∈ acc'.2, P .oldPk r ∧ P .newPk r := by
  intro r hr
  obtain ⟨⟨a, ha, hao⟩, ⟨b, hb, hbn⟩⟩ := merge_keys hA hU (S := acc'.1) (rows := acc'.2) h r hr
  exact ⟨hP _ _ _ hao (ha.elim (fun h => (h1 a h).1) (fun h => (h2 a h).1)),
    hP _ _ _ hbn (hb.elim (fun h => (h1 b h).2) (fun h => (h2 b h).2))⟩

/-- The keys of the merged rows are keys of the items. -/
theorem mergeAll_keys (P : Role → Row → Prop)
    (hP : ∀ role r r', (∀ n ∈ pks, r ⟨role, n⟩ = r' ⟨role, n⟩) → P role r' → P role r) :
    ∀ (rest : List SItem) (acc out : SItem), SchemaOk pks acc.1 → (∀ it ∈ rest, SchemaOk pks it.1) →
    (∀ it ∈ acc :: rest, ∀ r ∈ it.2, P .oldPk r ∧ P .newPk r) → mergeAll acc rest = some out →
    SchemaOk pks out.1 ∧ ∀ r ∈ out.2, P .oldPk r ∧ P .newPk r := by
  intro rest
  induction rest with
  | nil => intro acc out hA _ h he; injection he with he; subst he; exact ⟨hA, h acc (by simp)⟩
  | cons it rest ih =>
    intro acc out hA hok h he
    simp only [mergeAll] at he
    split at he
    · cases he
    · next acc' hacc' =>
      have hit := hok it (by simp)
      have hs := merge_schema (S := acc'.1) (rows := acc'.2) hA hit hacc'
      refine ih acc' out (by rw [hs]; exact mergedCols_ok hA hit) (fun it' h' => hok it' (by simp [h'])) ?_ he
      intro it' hit'
      rcases List.mem_cons.1 hit' with rfl | hit'
      · exact mergeSyncs_keys hA hit hacc' P hP (h acc (by simp)) (h it (by simp))
      · exact h it' (by simp [hit'])

theorem files_split (files : List DFile) (k : DFile → Bool) :
    touched files (files.map k) = files.filter k ∧ untouched files (files.map k) = files.filter (fun f => !k f) := by
  induction files with
  | nil => exact ⟨rfl, rfl⟩
  | cons f fs ih =>
    simp only [touched, untouched] at ih
    simp only [touched, untouched, List.map_cons, List.zip_cons_cons, List.filter_cons]
    cases k f <;> simp [ih]

theorem fileRows_split (files : List DFile) (k : DFile → Bool) :
    (fileRows (files.filter (fun f => !k f)) ++ fileRows (files.filter k)).Perm (fileRows files) := by
  induction files with
  | nil => exact List.Perm.refl _
  | cons f fs ih =>
    simp only [fileRows, List.filter_cons, List.flatMap_cons] at ih ⊢
    cases k f with
    | false =>
      simp only [Bool.not_false, if_true, List.flatMap_cons, Bool.false_eq_true, if_false, List.append_assoc]
      exact ih.append_left _
    | true =>
      simp only [Bool.not_true, if_true, List.flatMap_cons, Bool.false_eq_true, if_false]
      refine (List.perm_append_comm_assoc _ _ _).trans ?_
      exact ih.append_left _

theorem tableOf_perm {a b : List TRow} (hp : a.Perm b) (hn : (a.map (tkey pks)).Nodup) :
    tableOf pks a = tableOf pks b := by
  funext k
  have hn' : (b.map (tkey pks)).Nodup := (hp.map _).nodup_iff.1 hn
  cases h : tableOf pks a k with
  | none =>
    rw [tableOf_none] at h
    exact (tableOf_none.2 (fun r hr => h r (hp.mem_iff.2 hr))).symm
  | some r =>
    obtain ⟨h1, h2⟩ := (find?_key hn).1 h
    exact ((find?_key hn').2 ⟨hp.mem_iff.1 h1, h2⟩).symm

theorem tableOf_append {a b : List TRow} (k : Key) :
    tableOf pks (a ++ b) k = (tableOf pks a k).or (tableOf pks b k) := by
  simp [tableOf, List.find?_append]

/-- Rewriting only the files that pruning selects has the same effect as rewriting the whole table. -/
theorem flushFiles_eq (hpk : pks ≠ []) (hpf : ∀ n ∈ pks, n ∈ full) (sn : Snapshot) (hs : SoundStats sn)
    (hb : Keyed pks full (fileRows sn.files)) (items : List SItem) (hok : ∀ it ∈ items, SchemaOk pks it.1)
    (hu : ∀ S rows ns, squashSyncs items = some (S, rows) → normalize S rows = some ns → UpsertsOk pks ns)
    {out : List TRow} (h : flushFiles full items sn = some out) :
    ∃ out', flushRows full items (fileRows sn.files) = some out' ∧ out.Perm out' ∧ Keyed pks full out := by
  simp only [flushFiles] at h
  split at h
  · cases h
  · next keep hkeep =>
    obtain ⟨k, rfl, hk⟩ := prune_keeps hs hpk hok hkeep
    rw [(files_split sn.files k).1, (files_split sn.files k).2] at h
    split at h
    · cases h
    · next out1 hout1 =>
      injection h with h
      simp only [flushRows] at hout1
      split at hout1
      · cases hout1
      · next S rows hsq =>
        split at hout1
        · cases hout1
        · next ns hns =>
          injection hout1 with hout1
          have hflush : flushRows full items (fileRows sn.files) =
              some (applySyncs S full (fileRows sn.files) ns) := by
            simp only [flushRows, hsq, hns]
          have huns := hu S rows ns hsq hns
          have hperm := fileRows_split sn.files k
          have hb2 : Keyed pks full (fileRows (sn.files.filter (fun f => !k f)) ++ fileRows (sn.files.filter k)) := by
            refine ⟨((hperm.map _).nodup_iff).2 hb.nodup, ?_, ?_⟩
            · intro r hr; exact hb.nonnull r (hperm.mem_iff.1 hr)
            · intro r hr; exact hb.cols r (hperm.mem_iff.1 hr)
          have hbt : Keyed pks full (fileRows (sn.files.filter k)) := by
            refine ⟨?_, ?_, ?_⟩
            · have := hb2.nodup
              rw [List.map_append, List.nodup_append] at this
              exact this.2.1
            · intro r hr; exact hb2.nonnull r (by simp [hr])
            · intro r hr; exact hb2.cols r (by simp [hr])
          -- the schema and the keys of the merged rows
          have hmerge : SchemaOk pks S ∧ ∀ r ∈ rows,
              (∃ it ∈ items, ∃ r' ∈ it.2, ∀ n ∈ pks, r ⟨.oldPk, n⟩ = r' ⟨.oldPk, n⟩) ∧
              (∃ it ∈ items, ∃ r' ∈ it.2, ∀ n ∈ pks, r ⟨.newPk, n⟩ = r' ⟨.newPk, n⟩) := by
            cases items with
            | nil => cases hsq
            | cons it0 rest =>
              exact mergeAll_keys (fun role r => ∃ it ∈ it0 :: rest, ∃ r' ∈ it.2, ∀ n ∈ pks, r ⟨role, n⟩ = r' ⟨role, n⟩)
                (fun role r r' he ⟨it, hit, r2, hr2, h2⟩ => ⟨it, hit, r2, hr2, fun n hn => (he n hn).trans (h2 n hn)⟩)
                rest it0 (S, rows) (hok it0 (by simp)) (fun it hit => hok it (by simp [hit]))
                (fun it hit r hr => ⟨⟨it, hit, r, hr, fun _ _ => rfl⟩, ⟨it, hit, r, hr, fun _ _ => rfl⟩⟩) hsq
          obtain ⟨hS, hkeys⟩ := hmerge
          -- normalised changes have keys of the rows
          have hnkeys : ∀ s ∈ ns, ∃ r ∈ rows, (∀ n, s.pk n = r ⟨.oldPk, n⟩) ∨ (∀ n, s.pk n = r ⟨.newPk, n⟩) := by
            intro s hs'
            simp only [normalize] at hns
            split at hns
            · cases hns
            · next n0 _ =>
              injection hns with hns
              subst hns
              obtain ⟨r, hr, hsr⟩ := List.mem_flatMap.1 hs'
              refine ⟨r, (List.mem_filter.1 hr).1, ?_⟩
              simp only [normRow] at hsr
              split at hsr
              · simp only [List.mem_singleton] at hsr; subst hsr; exact Or.inr (fun _ => rfl)
              · split at hsr
                · simp only [List.mem_singleton] at hsr; subst hsr; exact Or.inr (fun _ => rfl)
                · split at hsr
                  · simp only [List.mem_cons, List.not_mem_nil, or_false] at hsr
                    rcases hsr with rfl | rfl
                    · exact Or.inl (fun _ => rfl)
                    · exact Or.inr (fun _ => rfl)
                  · simp only [List.mem_singleton] at hsr; subst hsr; exact Or.inl (fun _ => rfl)
          have hno : ∀ b ∈ fileRows (sn.files.filter (fun f => !k f)), ∀ s ∈ ns, tkey pks b ≠ nkey pks s := by
            intro b hbm s hsm he
            obtain ⟨f, hf, hbf⟩ := List.mem_flatMap.1 hbm
            obtain ⟨hf, hkf⟩ := List.mem_filter.1 hf
            have hnn : ∀ n ∈ pks, (b n).isSome := hb.nonnull b (List.mem_flatMap.2 ⟨f, hf, hbf⟩)
            have heq : ∀ n ∈ pks, b n = s.pk n := List.map_inj_left.1 he
            obtain ⟨r, hr, hpk'⟩ := hnkeys s hsm
            have hkt : k f = true := by
              rcases hpk' with hp | hp
              · obtain ⟨it, hit, r', hr', h2⟩ := (hkeys r hr).1
                exact hk f hf b hbf hnn it hit r' hr' .oldPk (Or.inl rfl)
                  (fun n hn => by rw [← h2 n hn, ← hp n, heq n hn])
              · obtain ⟨it, hit, r', hr', h2⟩ := (hkeys r hr).2
                exact hk f hf b hbf hnn it hit r' hr' .newPk (Or.inr rfl)
                  (fun n hn => by rw [← h2 n hn, ← hp n, heq n hn])
            rw [hkt] at hkf
            cases hkf
          have hk1 := applySyncs_keyed hS hpf hbt huns
          have hk0 := applySyncs_keyed hS hpf hb huns
          subst hout1 h
          -- the result has distinct keys
          have hdisj : ∀ b ∈ fileRows (sn.files.filter (fun f => !k f)),
              ∀ r ∈ applySyncs S full (fileRows (sn.files.filter k)) ns, tkey pks b ≠ tkey pks r := by
            intro b hbm r hr he
            rcases (mem_applySyncs hS hbt).1 hr with ⟨b', hb', s, hsm, _, hks, rfl⟩ | ⟨h1, _⟩ | ⟨s, hsm, _, _, rfl⟩
            · rw [tkey_write hpf] at he; exact hno b hbm s hsm he
            · have := hb2.nodup
              rw [List.map_append, List.nodup_append] at this
              exact this.2.2 _ (List.mem_map.2 ⟨b, hbm, rfl⟩) _ (List.mem_map.2 ⟨r, h1, rfl⟩) he
            · rw [tkey_write hpf] at he; exact hno b hbm s hsm he
          have hkout : Keyed pks full (fileRows (sn.files.filter (fun f => !k f)) ++
              applySyncs S full (fileRows (sn.files.filter k)) ns) := by
            refine ⟨?_, ?_, ?_⟩
            · rw [List.map_append, List.nodup_append]
              refine ⟨?_, hk1.nodup, ?_⟩
              · have := hb2.nodup
                rw [List.map_append, List.nodup_append] at this
                exact this.1
              · intro a ha b hb' he
                obtain ⟨x, hx, rfl⟩ := List.mem_map.1 ha
                obtain ⟨y, hy, rfl⟩ := List.mem_map.1 hb'
                exact hdisj x hx y hy he
            · intro r hr
              rcases List.mem_append.1 hr with hr | hr
              · exact hb2.nonnull r (by simp [hr])
              · exact hk1.nonnull r hr
            · intro r hr
              rcases List.mem_append.1 hr with hr | hr
              · exact hb2.cols r (by simp [hr])
              · exact hk1.cols r hr
          refine ⟨_, hflush, ?_, hkout⟩
          apply perm_of_tableOf hkout.nodup hk0.nodup
          funext key
          rw [tableOf_append, tableOf_applySyncs hS hpf hbt huns, tableOf_applySyncs hS hpf hb huns,
            ← tableOf_perm hperm hb2.nodup]
          cases hu0 : tableOf pks (fileRows (sn.files.filter (fun f => !k f))) key with
          | none =>
            rw [Option.none_or]
            simp only [applySpec, tableOf_append, hu0, Option.none_or]
          | some b =>
            have hbm := List.mem_of_find?_eq_some hu0
            have hbk := List.find?_some hu0
            simp only [decide_eq_true_eq] at hbk
            have hf1 : ns.find? (fun s => s.upsert && decide (nkey pks s = key)) = none := by
              rw [List.find?_eq_none]
              intro s hsm hp
              simp only [Bool.and_eq_true, decide_eq_true_eq] at hp
              exact hno b hbm s hsm (hbk.trans hp.2.symm)
            have hf2 : ns.any (fun s => !s.upsert && decide (nkey pks s = key)) = false := by
              rw [List.any_eq_false]
              intro s hsm hp
              simp only [Bool.and_eq_true, decide_eq_true_eq] at hp
              exact hno b hbm s hsm (hbk.trans hp.2.symm)
            simp only [applySpec, hf1, hf2, tableOf_append, hu0, Option.some_or]
            rfl

/-- **C16** with files, for a table with one key column and changes that carry all columns: the rows of
the table after the flush — those in files that were left alone and those that were rewritten — are
exactly the table obtained by replaying all received changes one by one in order. -/
theorem C16_full_rows_files (n : String) (hn : n ∈ full) (sn : Snapshot) (hs : SoundStats sn)
    (hb : Keyed [n] full (fileRows sn.files))
    (items outs : List SItem) (hne : items ≠ []) (hsq : SquashedItems items outs)
    (hok : ∀ it ∈ items, SchemaOk [n] it.1 ∧ ∀ c, Desc.mk .changed c ∉ it.1)
    (hall : ∀ it ∈ items, ∀ c, Desc.mk .value c ∈ it.1 ↔ c ∈ full ∧ c ≠ n)
    (hv : ValidSeq full (tableOf [n] (fileRows sn.files)) (allChanges [n] items))
    (out : List TRow) (h : flushFiles full outs sn = some out) :
    Keyed [n] full out ∧
      tableOf [n] out = replay full (tableOf [n] (fileRows sn.files)) (allChanges [n] items) := by
  obtain ⟨out', h1, h2, h3⟩ := C16_full_rows n hn (fileRows sn.files) hb items outs hne hsq hok hall hv
  have hso := hsq.schemas (SchemaOk [n]) (fun it hit => (hok it hit).1)
  have hu : ∀ S rows ns, squashSyncs outs = some (S, rows) → normalize S rows = some ns → UpsertsOk [n] ns := by
    intro S rows ns hsS hns
    have hok1 : ∀ it ∈ items, SchemaOk [n] it.1 ∧ FlagsAgree [n] it.1 it.2 := fun it hit =>
      ⟨(hok it hit).1, fun r _ _ _ c _ hc _ => absurd hc ((hok it hit).2 c)⟩
    obtain ⟨hvi, _⟩ := hsq.effect hok1 hv
    have hne' : outs ≠ [] := by
      cases hsq with
      | nil => exact absurd rfl hne
      | cons _ _ => simp
    have hvals := hsq.schemas (fun S => ∀ c, (Desc.mk .value c ∈ S ↔ c ∈ full.filter (· ≠ n)) ∧ Desc.mk .changed c ∉ S)
      (fun it hit c => ⟨by rw [hall it hit c]; simp, (hok it hit).2 c⟩)
    obtain ⟨S', rows', hs1, hS', hw, hnv, _⟩ := C14_same_columns (pks := [n]) (by simp)
      (tableOf [n] (fileRows sn.files)) outs hne' (fun it hit => ⟨hso it hit, wholeKeys_single n it.2⟩)
      (full.filter (· ≠ n)) hvals hvi
    rw [hsS] at hs1
    simp only [Option.some.injEq, Prod.mk.injEq] at hs1
    obtain ⟨rfl, rfl⟩ := hs1
    exact normalize_upsertsOk hS' hw (firstDecides_single n S rows) hnv.news hns
  obtain ⟨out2, h4, h5, h6⟩ := flushFiles_eq (by simp) (by simp [hn]) sn hs hb outs hso hu h
  rw [h1] at h4
  injection h4 with h4
  subst h4
  exact ⟨h6, by rw [tableOf_perm h5 h6.nodup, h3]⟩

/-- **C16** with files, general form: under the conditions of `C16_flush_partial`. -/
theorem C16_files_partial (hpk : pks ≠ []) (hpf : ∀ n ∈ pks, n ∈ full) (sn : Snapshot) (hs : SoundStats sn)
    (hb : Keyed pks full (fileRows sn.files)) (items outs : List SItem) (hne : items ≠ [])
    (hsq : SquashedItems items outs)
    (hok : ∀ it ∈ items, SchemaOk pks it.1 ∧ FlagsAgree pks it.1 it.2)
    (hv : ValidSeq full (tableOf pks (fileRows sn.files)) (allChanges pks items))
    (hw : ∀ it ∈ outs, WholeKeys pks it.2) (hov : Overwrites pks [] outs)
    (hfd : ∀ S rows, squashSyncs outs = some (S, rows) → FirstDecides pks S rows)
    (hdir : ∀ S rows, squashSyncs outs = some (S, rows) →
      ∀ r ∈ rows, Direct full (tableOf pks (fileRows sn.files)) (changeOf pks S r))
    (out : List TRow) (h : flushFiles full outs sn = some out) :
    Keyed pks full out ∧
      tableOf pks out = replay full (tableOf pks (fileRows sn.files)) (allChanges pks items) := by
  have hso := hsq.schemas (SchemaOk pks) (fun it hit => (hok it hit).1)
  have hu : ∀ S rows ns, squashSyncs outs = some (S, rows) → normalize S rows = some ns → UpsertsOk pks ns := by
    intro S rows ns hsS hns
    obtain ⟨hvi, _⟩ := hsq.effect hok hv
    have hne' : outs ≠ [] := by
      cases hsq with
      | nil => exact absurd rfl hne
      | cons _ _ => simp
    obtain ⟨S', rows', hs1, hS', hw', hnv, _⟩ := C14_merge_partial hpk
      (tableOf pks (fileRows sn.files)) outs hne' (fun it hit => ⟨hso it hit, hw it hit⟩) hvi hov
    rw [hsS] at hs1
    simp only [Option.some.injEq, Prod.mk.injEq] at hs1
    obtain ⟨rfl, rfl⟩ := hs1
    exact normalize_upsertsOk hS' hw' (hfd S rows hsS) hnv.news hns
  obtain ⟨out2, h4, h5, h6⟩ := flushFiles_eq hpk hpf sn hs hb outs hso hu h
  obtain ⟨_, h8⟩ := C16_flush_partial hpk hpf (fileRows sn.files) out2 hb items outs hne hsq hok hv hw hov hfd hdir h4
  exact ⟨h6, by rw [tableOf_perm h5 h6.nodup, h8]⟩

/-! ### pruning is effective -/

theorem and3_false_left (a : Option Bool) : and3 (some false) a = some false := by cases a <;> rfl

theorem and3_false_right (a : Option Bool) : and3 a (some false) = some false := by
  rcases a with _ | a
  · rfl
  · cases a <;> rfl

theorem foldl_and3_false {α : Type} (f : α → Option Bool) (l : List α) (acc : Option Bool)
    (h : acc = some false ∨ ∃ x ∈ l, f x = some false) :
    l.foldl (fun acc x => and3 acc (f x)) acc = some false := by
  induction l generalizing acc with
  | nil =>
    rcases h with h | ⟨x, hx, _⟩
    · exact h
    · cases hx
  | cons y l ih =>
    apply ih
    rcases h with h | ⟨x, hx, hf⟩
    · left; show and3 acc (f y) = some false; rw [h, and3_false_left]
    · rcases List.mem_cons.1 hx with rfl | hx
      · left; show and3 acc (f x) = some false; rw [hf, and3_false_right]
      · right; exact ⟨x, hx, hf⟩

theorem minCell_mem (l : List Cell) {m : Val} (h : minCell l = some m) : some m ∈ l := by
  have gen : ∀ (l : List Cell) (acc : Cell), l.foldl (fun acc c => match acc, c with
        | none, c => c
        | acc, none => acc
        | some a, some b => if a.le b then some a else some b) acc = some m → some m ∈ l ∨ acc = some m := by
    intro l
    induction l with
    | nil => intro acc h; exact Or.inr h
    | cons c l ih =>
      intro acc h
      rcases ih _ h with h | h
      · exact Or.inl (List.mem_cons_of_mem _ h)
      · cases acc with
        | none => left; simp only at h; rw [h]; exact List.mem_cons_self
        | some a =>
          cases c with
          | none => exact Or.inr h
          | some b =>
            simp only at h
            split at h
            · exact Or.inr h
            · left; rw [h]; exact List.mem_cons_self
  rcases gen l none h with h | h
  · exact h
  · cases h

theorem maxCell_mem (l : List Cell) {m : Val} (h : maxCell l = some m) : some m ∈ l := by
  have gen : ∀ (l : List Cell) (acc : Cell), l.foldl (fun acc c => match acc, c with
        | none, c => c
        | acc, none => acc
        | some a, some b => if a.le b then some b else some a) acc = some m → some m ∈ l ∨ acc = some m := by
    intro l
    induction l with
    | nil => intro acc h; exact Or.inr h
    | cons c l ih =>
      intro acc h
      rcases ih _ h with h | h
      · exact Or.inl (List.mem_cons_of_mem _ h)
      · cases acc with
        | none => left; simp only at h; rw [h]; exact List.mem_cons_self
        | some a =>
          cases c with
          | none => exact Or.inr h
          | some b =>
            simp only at h
            split at h
            · left; rw [h]; exact List.mem_cons_self
            · exact Or.inr h
  rcases gen l none h with h | h
  · exact h
  · cases h

/-- The keys in the changes are entirely NULL or entirely present. -/
def KeysWhole (pks : List String) (items : List SItem) : Prop :=
  ∀ it ∈ items, ∀ r ∈ it.2, ∀ role, (role = .oldPk ∨ role = .newPk) → ∀ n ∈ pks, ∀ n' ∈ pks,
    (r ⟨role, n⟩).isSome → (r ⟨role, n'⟩).isSome

/-- All values of the key column `n` in the changes, old or new, lie on one side of the range that the log
records for the file. -/
def Apart (sn : Snapshot) (items : List SItem) (n : String) (f : DFile) : Prop :=
  (sn.hasMax n = true ∧ ∃ M, f.max n = some M ∧ ∀ it ∈ items, ∀ r ∈ it.2, ∀ role,
    (role = .oldPk ∨ role = .newPk) → ∀ v, r ⟨role, n⟩ = some v → v.le M = false) ∨
  (sn.hasMin n = true ∧ ∃ m, f.min n = some m ∧ ∀ it ∈ items, ∀ r ∈ it.2, ∀ role,
    (role = .oldPk ∨ role = .newPk) → ∀ v, r ⟨role, n⟩ = some v → m.le v = false)

theorem coarse_drops {sn : Snapshot} {items : List SItem} {n : String} {f : DFile} (ha : Apart sn items n f)
    (hn : n ∈ pks) (hw : KeysWhole pks items) {role : Role} (hr : role = .oldPk ∨ role = .newPk)
    (hrole : ∀ it ∈ items, names it.1 role = pks) {qs : List (String × Val × Val)}
    (hq : constructQualifier items role = some qs) : qs = [] ∨ pruneAll sn f qs = some false := by
  cases items with
  | nil => cases hq
  | cons it0 rest =>
    simp only [constructQualifier] at hq
    split at hq
    · rw [hrole it0 (by simp)] at hq
      injection hq with hq
      cases hlo : minCell (keyCells (it0 :: rest) role n) with
      | none =>
        left
        rw [← hq, List.filterMap_eq_nil_iff]
        intro c hc
        split
        · next lo hi h1 h2 =>
          exfalso
          have hm := minCell_mem _ h1
          obtain ⟨it, hit, hm⟩ := List.mem_flatMap.1 hm
          obtain ⟨r, hrr, hm⟩ := List.mem_map.1 hm
          have := hw it hit r hrr role hr c hc n hn (by rw [hm]; rfl)
          obtain ⟨v, hv⟩ := Option.isSome_iff_exists.1 this
          have hk := mem_keyCells hit hrr role n
          rw [hv] at hk
          obtain ⟨m, h3, _⟩ := minCell_le _ hk
          rw [hlo] at h3
          cases h3
        · rfl
      | some lo =>
        right
        have hlm := minCell_mem _ hlo
        obtain ⟨hi, hhi, _⟩ := maxCell_ge _ hlm
        have hhm := maxCell_mem _ hhi
        have hmem : (n, lo, hi) ∈ qs := by
          rw [← hq, List.mem_filterMap]
          exact ⟨n, hn, by simp [hlo, hhi]⟩
        apply foldl_and3_false
        right
        refine ⟨_, hmem, ?_⟩
        obtain ⟨it1, hit1, hm1⟩ := List.mem_flatMap.1 hlm
        obtain ⟨r1, hr1, hm1⟩ := List.mem_map.1 hm1
        obtain ⟨it2, hit2, hm2⟩ := List.mem_flatMap.1 hhm
        obtain ⟨r2, hr2, hm2⟩ := List.mem_map.1 hm2
        rcases ha with ⟨h1, M, h2, h3⟩ | ⟨h1, m, h2, h3⟩
        · have := h3 it1 hit1 r1 hr1 role hr lo hm1
          simp only [pruneBetween, statMax, h1, h2, if_true, le3, this, and3_false_left]
        · have := h3 it2 hit2 r2 hr2 role hr hi hm2
          simp only [pruneBetween, statMin, h1, h2, if_true, le3, this, and3_false_right]
    · cases hq

theorem fine_drops {sn : Snapshot} {items : List SItem} {n : String} {f : DFile} (ha : Apart sn items n f)
    (hn : n ∈ pks) (hw : KeysWhole pks items) {role : Role} (hr : role = .oldPk ∨ role = .newPk)
    {it : SItem} (hit : it ∈ items) (hrole : names it.1 role = pks) : fineItem sn f role it = false := by
  simp only [fineItem, hrole]
  cases pks with
  | nil => cases hn
  | cons c cs =>
    simp only
    rw [List.any_eq_false]
    intro r hrr
    obtain ⟨hrm, hc⟩ := List.mem_filter.1 hrr
    rw [decide_eq_true_eq]
    intro hne
    apply hne
    apply foldl_and3_false
    right
    refine ⟨n, hn, ?_⟩
    obtain ⟨v, hv⟩ := Option.isSome_iff_exists.1 (hw it hit r hrm role hr c (by simp) n hn hc)
    rw [hv]
    rcases ha with ⟨h1, M, h2, h3⟩ | ⟨h1, m, h2, h3⟩
    · have := h3 it hit r hrm role hr v hv
      cases h4 : sn.hasMin n <;> simp [fineCell, h1, h2, h4, le3, this, and3_false_right]
    · have := h3 it hit r hrm role hr v hv
      cases h4 : sn.hasMax n <;> simp [fineCell, h1, h2, h4, le3, this, and3_false_left]

/-- **C17**: and pruning does its job: if the statistics in the log put a file's whole range of some key
column below, or above, every value of that column in the flushed changes, then the file is not rewritten,
in the coarse and in the fine-grained mode. -/
theorem C17_prunes (sn : Snapshot) (items : List SItem) (hok : ∀ it ∈ items, SchemaOk pks it.1)
    (hw : KeysWhole pks items) (hst : ∀ c ∈ pks, sn.hasMin c = true ∨ sn.hasMax c = true)
    (keep : List Bool) (h : prunePartitions sn items = some keep)
    (i : Nat) (f : DFile) (hf : sn.files[i]? = some f) (n : String) (hn : n ∈ pks)
    (ha : Apart sn items n f) : keep[i]? = some false := by
  have key : ∃ k : DFile → Bool, keep = sn.files.map k ∧ k f = false := by
    simp only [prunePartitions] at h
    split at h
    · next qo qn hqo hqn =>
      have hro : ∀ it ∈ items, names it.1 .oldPk = pks := fun it hit => (hok it hit).oldPk
      have hrn : ∀ it ∈ items, names it.1 .newPk = pks := fun it hit => (hok it hit).newPk
      have hdo := coarse_drops ha hn hw (Or.inl rfl) hro hqo
      have hdn := coarse_drops ha hn hw (Or.inr rfl) hrn hqn
      split at h
      · cases h
      · next keep' hk' =>
        split at h
        · cases items with
          | nil => cases h
          | cons it0 rest =>
            simp only [pruneMap] at h
            split at h
            · next hany =>
              exfalso
              rw [List.any_eq_true] at hany
              obtain ⟨c, hc, hcc⟩ := hany
              rw [hro it0 (by simp)] at hc
              rcases hst c hc with h1 | h1 <;> rw [h1] at hcc <;> simp at hcc
            · split at h
              · injection h with h
                refine ⟨_, h.symm, ?_⟩
                rw [Bool.or_eq_false_iff, List.any_eq_false, List.any_eq_false]
                constructor
                · intro it hit
                  rw [fine_drops ha hn hw (Or.inl rfl) hit (hro it hit)]; simp
                · intro it hit
                  rw [fine_drops ha hn hw (Or.inr rfl) hit (hrn it hit)]; simp
              · cases h
        · injection h with h
          subst h
          simp only [coarseMap] at hk'
          split at hk'
          · cases hk'
          · next hqne =>
            injection hk' with hk'
            refine ⟨_, hk'.symm, ?_⟩
            rcases hdn with h1 | h1
            · exact absurd h1 (by simpa using hqne)
            · simp [h1]
          · next hqne =>
            injection hk' with hk'
            refine ⟨_, hk'.symm, ?_⟩
            rcases hdo with h1 | h1
            · exact absurd h1 (by simpa using hqne)
            · simp [h1]
          · next hq1 hq2 =>
            injection hk' with hk'
            refine ⟨_, hk'.symm, ?_⟩
            rcases hdo with h1 | h1
            · simp_all
            · rcases hdn with h2 | h2
              · simp_all
              · simp [h1, h2, or3]
    · cases h
  obtain ⟨k, rfl, hk⟩ := key
  rw [List.getElem?_map, hf, Option.map_some, hk]

/-! ### a concrete case -/

namespace PrDemo
open SqDemo

/-- Three files; the third has no statistics. -/
def sn : Snapshot :=
  { files :=
      [{ rows := [trow [("id", i 1), ("v", i 10)], trow [("id", i 2), ("v", i 20)]]
         min := trow [("id", i 1)], max := trow [("id", i 2)], records := some 2 },
       { rows := [trow [("id", i 50), ("v", i 10)]]
         min := trow [("id", i 40)], max := trow [("id", i 60)], records := some 1 },
       { rows := [trow [("id", i 70), ("v", i 10)]], min := fun _ => none, max := fun _ => none, records := none }]
    hasMin := fun _ => true
    hasMax := fun _ => true }

/-- The same with a row count that triggers the fine-grained mode. -/
def snBig : Snapshot := { sn with files := sn.files.map (fun f => { f with records := some 2000000 }) }

/-- Changes of the keys 2 and 80. -/
def items : List SItem := [(S3, [r3 (i 2) (i 2) (i 21)]), (S3, [r3 none (i 80) (i 1)])]

end PrDemo

open SqDemo PrDemo in
example : prunePartitions PrDemo.sn [(S3, [r3 (i 2) (i 2) (i 21)])] = some [true, false, true] := by decide

open SqDemo PrDemo in
example : prunePartitions PrDemo.sn PrDemo.items = some [true, true, true] := by decide

open SqDemo PrDemo in
example : prunePartitions PrDemo.snBig PrDemo.items = some [true, false, true] := by decide

/-- The fine-grained mode begins with more than three million rows. -/
example : [1000000, 1000001].map (fun n => prunePartitions
      { PrDemo.sn with files := PrDemo.sn.files.map (fun f => { f with records := some n }) } PrDemo.items) =
    [some [true, true, true], some [true, false, true]] := by decide +kernel

/-- With only the maxima at hand the first file is passed over for a change of key 80. -/
example : prunePartitions { PrDemo.sn with hasMin := fun _ => false } [(SqDemo.S3, [SqDemo.r3 none (SqDemo.i 80) (SqDemo.i 1)])] =
    some [false, false, true] := by decide

/-- Without the maxima it is not. -/
example : prunePartitions { PrDemo.sn with hasMax := fun _ => false } [(SqDemo.S3, [SqDemo.r3 none (SqDemo.i 80) (SqDemo.i 1)])] =
    some [true, true, true] := by decide

open SqDemo PrDemo in
/-- The hypotheses of `C17_prunes` for the second file and a change of key 2. -/
example : KeysWhole ["id"] [(S3, [r3 (i 2) (i 2) (i 21)])] ∧
    ∃ f, PrDemo.sn.files[1]? = some f ∧ Apart PrDemo.sn [(S3, [r3 (i 2) (i 2) (i 21)])] "id" f := by
  refine ⟨?_, _, rfl, Or.inr ⟨rfl, .int 40, rfl, ?_⟩⟩
  · intro it _ r _ role _ n hn n' hn' h
    simp only [List.mem_cons, List.not_mem_nil, or_false] at hn hn'
    subst hn; subst hn'; exact h
  · intro it hit r hr role hrole v hv
    simp only [List.mem_cons, List.not_mem_nil, or_false] at hit
    subst hit
    simp only [List.mem_cons, List.not_mem_nil, or_false] at hr
    subst hr
    have : v = .int 2 := by
      rcases hrole with rfl | rfl
      · have h1 : r3 (i 2) (i 2) (i 21) ⟨.oldPk, "id"⟩ = some (.int 2) := by decide
        rw [h1] at hv; injection hv with hv; exact hv.symm
      · have h1 : r3 (i 2) (i 2) (i 21) ⟨.newPk, "id"⟩ = some (.int 2) := by decide
        rw [h1] at hv; injection hv with hv; exact hv.symm
    subst this
    decide

open SqDemo PrDemo in
example : SoundStats PrDemo.sn := by
  intro f hf r hr c v hv
  simp only [PrDemo.sn, List.mem_cons, List.not_mem_nil, or_false] at hf
  rcases hf with rfl | rfl | rfl <;> simp only [List.mem_cons, List.not_mem_nil, or_false] at hr
  · by_cases hc : c = "id"
    · subst hc
      rcases hr with rfl | rfl <;>
        (simp [trow, i] at hv; subst hv; constructor <;> intro m hm <;> simp [trow, i] at hm <;> subst hm <;> decide)
    · have h1 : ∀ x, trow [("id", x)] c = none := by intro x; simp [trow, List.lookup, beq_eq_false_iff_ne.2 hc]
      exact ⟨fun m hm => (by cases (h1 _).symm.trans hm), fun m hm => (by cases (h1 _).symm.trans hm)⟩
  · by_cases hc : c = "id"
    · subst hc
      subst hr
      simp [trow, i] at hv; subst hv; constructor <;> intro m hm <;> simp [trow, i] at hm <;> subst hm <;> decide
    · have h1 : ∀ x, trow [("id", x)] c = none := by intro x; simp [trow, List.lookup, beq_eq_false_iff_ne.2 hc]
      exact ⟨fun m hm => (by cases (h1 _).symm.trans hm), fun m hm => (by cases (h1 _).symm.trans hm)⟩
  · exact ⟨fun m hm => (by cases hm), fun m hm => (by cases hm)⟩

end Seafowl.Sync
