import Verif.Sync.PruneProps
import Verif.Sync.Resquash

/-!
# C16 for any number of key columns

`C16_full_rows` is about tables with one key column.  Here the key may have several columns and the changes need not
carry all columns; the conditions are on the received changes only: none of them moves a row to another key.
-/

namespace Seafowl.Sync

variable {pks full : List String} {S : Schema}

/-! ### where the rows of a squash come from -/

/-- The chains begin and end with received rows, and a chain that inserts a row begins with its insertion. -/
structure OInv (pks : List String) (S : Schema) (rows : List Row) (st : SqState) : Prop where
  first : ∀ (id : Nat) (ch : Chain), st.chains[id]? = some ch → ch.first ∈ rows
  last : ∀ (id : Nat) (ch : Chain), st.chains[id]? = some ch → ch.last ∈ rows
  insert : ∀ (id : Nat) (ch : Chain), st.chains[id]? = some ch → (chainChange pks S ch).old = none →
    (chainChange pks S ch).new ≠ none → (changeOf pks S ch.first).new = (chainChange pks S ch).new

theorem OInv.start (rows : List Row) : OInv pks S rows { chains := [], temp := [], pk := [] } := by
  constructor <;> simp

theorem OInv.step (hS : SchemaOk pks S) {T0 T : Table} {st : SqState} (h : SqInv pks full S T0 T st)
    {rows : List Row} (hk : OInv pks S rows st) (r : Row) (hm : r ∈ rows) (hr : Stable (changeOf pks S r)) :
    OInv pks S rows (sqStep S st r) := by
  rcases Option.eq_none_or_eq_some (alGet (oldKey S r) st.pk) with hg | ⟨id0, hg⟩
  · have hnew : ∀ (i : Nat) (a : Chain), (sqStep S st r).chains[i]? = some a →
        st.chains[i]? = some a ∨ a = Chain.single S r := by
      intro i a ha
      simp only [sqStep, hg, List.getElem?_append] at ha
      split at ha
      · exact Or.inl ha
      · rw [List.getElem?_singleton] at ha
        split at ha
        · injection ha with ha
          exact Or.inr ha.symm
        · cases ha
    constructor
    · intro id ch hc
      rcases hnew id ch hc with h1 | rfl
      · exact hk.first id ch h1
      · exact hm
    · intro id ch hc
      rcases hnew id ch hc with h1 | rfl
      · exact hk.last id ch h1
      · exact hm
    · intro id ch hc ho hn
      rcases hnew id ch hc with h1 | rfl
      · exact hk.insert id ch h1 ho hn
      · rw [chainChange_single]; rfl
  · obtain ⟨c0, hc0, hn0⟩ := h.sound _ _ hg
    have hold : (changeOf pks S r).old = some (oldKey S r) := by
      apply hS.old_some
      rw [Ne, ← hS.old_none]
      intro he
      rw [he] at hn0
      have h1 : (chainChange pks S c0).new = some (newKey S c0.last) := by
        rw [chainChange_new] at hn0 ⊢
        exact hS.new_some (by rw [hn0]; simp)
      rw [hn0] at h1
      injection h1 with h1
      have h2 := (hS.new_none c0.last).1 h1.symm
      rw [chainChange_new, h2] at hn0; cases hn0
    have hnew : ∀ (i : Nat) (a : Chain), (sqStep S st r).chains[i]? = some a →
        st.chains[i]? = some a ∨ a = c0.extend S r := by
      intro i a ha
      simp only [sqStep, hg, hc0, List.getElem?_set] at ha
      split at ha
      · split at ha
        · injection ha with ha
          exact Or.inr ha.symm
        · cases ha
      · exact Or.inl ha
    have hext_old : (chainChange pks S (c0.extend S r)).old = (chainChange pks S c0).old := rfl
    have hext_new : (chainChange pks S (c0.extend S r)).new = (changeOf pks S r).new := rfl
    constructor
    · intro id ch hc
      rcases hnew id ch hc with h1 | rfl
      · exact hk.first id ch h1
      · exact hk.first id0 c0 hc0
    · intro id ch hc
      rcases hnew id ch hc with h1 | rfl
      · exact hk.last id ch h1
      · exact hm
    · intro id ch hc ho hn
      rcases hnew id ch hc with h1 | rfl
      · exact hk.insert id ch h1 ho hn
      · rw [hext_old] at ho
        rw [hext_new] at hn
        have h1 := hk.insert id0 c0 hc0 ho (by rw [hn0]; simp)
        have hrn : (changeOf pks S r).new = (chainChange pks S c0).new := by
          rcases hr with h2 | h2 | h2
          · rw [h2] at hold; cases hold
          · exact absurd h2 hn
          · rw [← h2, hold, hn0]
        rw [hext_new, hrn]
        exact h1

theorem OInv.fold (hS : SchemaOk pks S) {T0 : Table} {all : List Row} (rows : List Row) :
    ∀ (T : Table) (st : SqState), SqInv pks full S T0 T st → OInv pks S all st → (∀ r ∈ rows, r ∈ all) →
    ValidSeq full T (rows.map (changeOf pks S)) → FlagsAgree pks S rows →
    (∀ r ∈ rows, Stable (changeOf pks S r)) →
    OInv pks S all (rows.foldl (sqStep S) st) := by
  induction rows with
  | nil => intro T st _ h _ _ _ _; exact h
  | cons r rest ih =>
    intro T st h hk hm hv hf hs
    simp only [List.map_cons, ValidSeq] at hv
    simp only [List.foldl_cons]
    exact ih _ _ (h.step hS r hv.1 (hf r (by simp))) (hk.step hS h r (hm r (by simp)) (hs r (by simp)))
      (fun r' hr' => hm r' (by simp [hr'])) hv.2
      (fun r' hr' => hf r' (by simp [hr'])) (fun r' hr' => hs r' (by simp [hr']))

/-- What a squash of changes that do not move rows keeps. -/
theorem squash_origin (hS : SchemaOk pks S) {T : Table} {rows out : List Row}
    (hv : ValidSeq full T (rows.map (changeOf pks S))) (hf : FlagsAgree pks S rows)
    (hs : ∀ r ∈ rows, Stable (changeOf pks S r)) (hw : WholeKeys pks rows) (h : squash S rows = some out) :
    WholeKeys pks out ∧ (∀ r ∈ out, Stable (changeOf pks S r)) ∧
    ∀ r ∈ out, (changeOf pks S r).old = none → (changeOf pks S r).new ≠ none →
      ∃ a ∈ rows, (changeOf pks S a).old = none ∧ (changeOf pks S a).new = (changeOf pks S r).new := by
  obtain ⟨_, _, _, hst⟩ := squash_stable hS hv hf hs h
  have hi := OInv.fold (full := full) (T0 := T) hS rows T _ (SqInv.start T) (OInv.start rows) (fun _ h => h) hv hf hs
  simp only [squash] at h
  split at h
  · cases h
  · injection h with h
    subst h
    refine ⟨?_, hst, ?_⟩
    · intro r hr
      obtain ⟨ch, hch, rfl⟩ := List.mem_map.1 hr
      obtain ⟨id, hid, _⟩ := mem_liveChains.1 hch
      exact ⟨(hw _ (hi.first id ch hid)).1, (hw _ (hi.last id ch hid)).2⟩
    · intro r hr ho hn
      obtain ⟨ch, hch, rfl⟩ := List.mem_map.1 hr
      obtain ⟨id, hid, _⟩ := mem_liveChains.1 hch
      exact ⟨ch.first, hi.first id ch hid, ho, hi.insert id ch hid ho hn⟩

/-! ### items -/

/-- An item whose changes do not move rows, with whole keys, whose insertions are of keys in `K`. -/
structure Calm (pks : List String) (K : Key → Prop) (it : SItem) : Prop where
  whole : WholeKeys pks it.2
  stable : ∀ ch ∈ itemChanges pks it, Stable ch
  inserts : ∀ ch ∈ itemChanges pks it, ch.old = none → ∀ k, ch.new = some k → K k

theorem SquashedItems.calm {K : Key → Prop} {T : Table} {items outs : List SItem} (h : SquashedItems items outs)
    (hok : ∀ it ∈ items, SchemaOk pks it.1 ∧ FlagsAgree pks it.1 it.2)
    (hv : ValidSeq full T (allChanges pks items)) (hc : ∀ it ∈ items, Calm pks K it) :
    ∀ it ∈ outs, Calm pks K it := by
  induction h generalizing T with
  | nil => simp
  | @cons S rows out items outs hs hrest ih =>
    simp only [allChanges, List.flatMap_cons] at hv
    rw [validSeq_append] at hv
    obtain ⟨h1, h2⟩ := hok (S, rows) (by simp)
    have hcs := hc (S, rows) (by simp)
    have hst : ∀ r ∈ rows, Stable (changeOf pks S r) := fun r hr =>
      hcs.stable _ (List.mem_map.2 ⟨r, hr, rfl⟩)
    obtain ⟨g1, g2, g3⟩ := squash_origin h1 hv.1 h2 hst hcs.whole hs
    intro it hit
    rcases List.mem_cons.1 hit with rfl | hit
    · refine ⟨g1, ?_, ?_⟩
      · intro ch hch
        obtain ⟨r, hr, rfl⟩ := List.mem_map.1 hch
        exact g2 r hr
      · intro ch hch ho k hk
        obtain ⟨r, hr, rfl⟩ := List.mem_map.1 hch
        obtain ⟨a, ha, hao, han⟩ := g3 r hr ho (by rw [hk]; simp)
        exact hcs.inserts _ (List.mem_map.2 ⟨a, ha, rfl⟩) hao k (by rw [han, hk])
    · exact ih (fun it h' => hok it (by simp [h'])) hv.2 (fun it h' => hc it (by simp [h'])) it hit

theorem compose_stable {u l : Change} (hu : Stable u) (hl : Stable l) (h : u.old = l.new) (hne : u.old ≠ none) :
    Stable (compose u l) := by
  rcases hl with h1 | h1 | h1
  · exact Or.inl h1
  · exact absurd (h.trans h1) hne
  · rcases hu with h2 | h2 | h2
    · exact absurd h2 hne
    · exact Or.inr (Or.inl h2)
    · right; right
      show l.old = u.new
      rw [h1, ← h, h2]

theorem Calm.merge (hpk : pks ≠ []) {K : Key → Prop} {L U acc : SItem} (hL : SchemaOk pks L.1) (hU : SchemaOk pks U.1)
    (hl : Lossless pks L.1 U.1 L.2 U.2) (h : mergeSyncs L.1 L.2 U.1 U.2 = some acc) (h1 : Calm pks K L) (h2 : Calm pks K U) :
    Calm pks K acc := by
  obtain ⟨S, rows⟩ := acc
  obtain ⟨_, hp⟩ := mergeSyncs_compose hL hU hpk L.2 U.2 h2.whole hl h
  refine ⟨merge_whole hL hU h h1.whole h2.whole, ?_, ?_⟩
  · intro ch hch
    rcases mem_composeAll.1 (hp.mem_iff.2 hch) with ⟨u, hu, _, rfl⟩ | ⟨u, hu, l, hl', hne, he, rfl⟩ | ⟨hl', _⟩
    · exact h2.stable _ hu
    · exact compose_stable (h2.stable _ hu) (h1.stable _ hl') he hne
    · exact h1.stable _ hl'
  · intro ch hch ho k hk
    rcases mem_composeAll.1 (hp.mem_iff.2 hch) with ⟨u, hu, _, rfl⟩ | ⟨u, hu, l, hl', hne, he, rfl⟩ | ⟨hl', _⟩
    · exact h2.inserts _ hu ho k hk
    · refine h1.inserts _ hl' ho k ?_
      rcases h2.stable _ hu with h3 | h3 | h3
      · exact absurd h3 hne
      · rw [show (compose u l).new = u.new from rfl, h3] at hk; cases hk
      · rw [← he, h3]; exact hk
    · exact h1.inserts _ hl' ho k hk

theorem mergeAll_calm (hpk : pks ≠ []) {T : Table} {K : Key → Prop} : ∀ (rest before : List SItem) (acc out : SItem),
    MergeInv pks full T before acc → (∀ it ∈ rest, SchemaOk pks it.1 ∧ WholeKeys pks it.2) →
    ValidItems pks full (applyItems pks full T before) rest → Overwrites pks before rest →
    Calm pks K acc → (∀ it ∈ rest, Calm pks K it) → mergeAll acc rest = some out → Calm pks K out := by
  intro rest
  induction rest with
  | nil => intro before acc out _ _ _ _ hc _ h; injection h with h; subst h; exact hc
  | cons it rest ih =>
    intro before acc out hi hok hv hov hc hcr h
    obtain ⟨hU, hw⟩ := hok it (by simp)
    have hl : Lossless pks acc.1 it.1 acc.2 it.2 := by
      intro u hu l hl hne he c hc
      left
      rcases hov.1 _ (List.mem_map.2 ⟨u, hu, rfl⟩) hne with h1 | h1
      · obtain ⟨b, hb, l', hl', he'⟩ := hi.news _ (List.mem_map.2 ⟨l, hl, rfl⟩) (by rw [← he]; exact hne)
        exact absurd (he'.trans he.symm) (h1 b hb l' hl')
      · rcases set_value hc with h2 | h2
        · simp [changeOf, h2]
        · obtain ⟨b, hb, h3⟩ := hi.values c h2
          exact h1 b hb c h3
    simp only [mergeAll] at h
    split at h
    · cases h
    · next acc' ha =>
      have hi' := hi.step hpk hU hw hv.1 hl ha
      have hv' : ValidItems pks full (applyItems pks full T (before ++ [it])) rest := by
        rw [applyItems_append]; exact hv.2
      exact ih (before ++ [it]) acc' out hi' (fun it' h' => hok it' (by simp [h'])) hv' hov.2
        (hc.merge hpk hi.ok hU hl ha (hcr it (by simp))) (fun it' h' => hcr it' (by simp [h'])) h

/-- Merging keeps the property that there are all columns and no Changed columns. -/
theorem mergeAll_complete' : ∀ (rest : List SItem) (acc out : SItem),
    SchemaOk pks acc.1 → (∀ it ∈ rest, SchemaOk pks it.1) →
    (∀ it ∈ acc :: rest, ∀ c ∈ full, c ∈ pks ∨ (Desc.mk .value c ∈ it.1 ∧ Desc.mk .changed c ∉ it.1)) →
    mergeAll acc rest = some out →
    ∀ c ∈ full, c ∈ pks ∨ (Desc.mk .value c ∈ out.1 ∧ Desc.mk .changed c ∉ out.1) := by
  intro rest
  induction rest with
  | nil => intro acc out _ _ h he; injection he with he; subst he; exact h acc (by simp)
  | cons it rest ih =>
    intro acc out hA hok h he
    simp only [mergeAll] at he
    split at he
    · cases he
    · next acc' hacc' =>
      have hit := hok it (by simp)
      have hs := merge_schema (S := acc'.1) (rows := acc'.2) hA hit hacc'
      refine ih acc' out (by rw [hs]; exact mergedCols_ok hA hit) (fun it' h' => hok it' (by simp [h'])) ?_ he
      intro it' hit' c hc
      rcases List.mem_cons.1 hit' with rfl | hit'
      · rcases h acc (by simp) c hc with h1 | ⟨h1, h2⟩
        · exact Or.inl h1
        · rcases h it (by simp) c hc with h3 | ⟨h3, h4⟩
          · exact Or.inl h3
          · right
            obtain ⟨hv, hch⟩ := cols_about hA hit c
            rw [hs, hv, hch]
            simp [h1, h2, h3, h4]
      · exact h it' (by simp [hit']) c hc

/-- Updates that do not move rows: equality of the first key column decides. -/
theorem firstDecides_of_stable {rows : List Row} (hw : WholeKeys pks rows)
    (hs : ∀ r ∈ rows, Stable (changeOf pks S r)) : FirstDecides pks S rows := by
  intro r hr n hn he
  have ho := toKey_whole (f := fun n => r ⟨.oldPk, n⟩) hn (hw r hr).1
  have hw' := toKey_whole (f := fun n => r ⟨.newPk, n⟩) hn (hw r hr).2
  have hco : (changeOf pks S r).old = toKey (pks.map (fun n => r ⟨.oldPk, n⟩)) := rfl
  have hcn : (changeOf pks S r).new = toKey (pks.map (fun n => r ⟨.newPk, n⟩)) := rfl
  have hboth : (changeOf pks S r).old = none ↔ (changeOf pks S r).new = none := by
    rw [hco, hcn, ← ho.1, ← hw'.1]
    simp only [he]
  rcases hs r hr with h | h | h
  · rw [h, hboth.1 h]
  · rw [h, hboth.2 h]
  · exact h

/-- Conditions on the received items of a table: valid changes, none of which moves a row to another key, no key with
some NULLs; either one item, or items with the same columns and no Changed columns; and either the changes carry all
columns or no inserted key is already in the table at the time of the last flush. -/
structure Gentle (pks full : List String) (base : Table) (items : List SItem) : Prop where
  ok : ∀ it ∈ items, SchemaOk pks it.1 ∧ FlagsAgree pks it.1 it.2 ∧ WholeKeys pks it.2
  stay : ∀ ch ∈ allChanges pks items, ch.old = none ∨ ch.new = none ∨ ch.old = ch.new
  cols : items.length = 1 ∨ ∃ vals : List String, ∀ it ∈ items, ∀ c,
    (Desc.mk .value c ∈ it.1 ↔ c ∈ vals) ∧ Desc.mk .changed c ∉ it.1
  ins : (∀ it ∈ items, ∀ c ∈ full, c ∈ pks ∨ (Desc.mk .value c ∈ it.1 ∧ Desc.mk .changed c ∉ it.1)) ∨
    ∀ ch ∈ allChanges pks items, ch.old = none → ∀ k, ch.new = some k → base k = none
  valid : ValidSeq full base (allChanges pks items)

/-- What follows for the squashed and merged items. -/
theorem Gentle.merged (hpk : pks ≠ []) {T : Table} {items outs : List SItem} (hg : Gentle pks full T items)
    (hne : items ≠ []) (hsq : SquashedItems items outs) :
    (∀ it ∈ outs, WholeKeys pks it.2) ∧ Overwrites pks [] outs ∧ ∃ S rows, squashSyncs outs = some (S, rows) ∧
      SchemaOk pks S ∧ FirstDecides pks S rows ∧ ∀ r ∈ rows, Direct full T (changeOf pks S r) := by
  have hok1 : ∀ it ∈ items, SchemaOk pks it.1 ∧ FlagsAgree pks it.1 it.2 := fun it hit =>
    ⟨(hg.ok it hit).1, (hg.ok it hit).2.1⟩
  have hK : ∃ K : Key → Prop, (∀ it ∈ items, Calm pks K it) ∧
      ((∀ it ∈ items, ∀ c ∈ full, c ∈ pks ∨ (Desc.mk .value c ∈ it.1 ∧ Desc.mk .changed c ∉ it.1)) ∨
        ∀ k, K k → T k = none) := by
    have hall : ∀ it ∈ items, ∀ ch ∈ itemChanges pks it, ch ∈ allChanges pks items := fun it hit ch hch =>
      List.mem_flatMap.2 ⟨it, hit, hch⟩
    rcases hg.ins with h | h
    · exact ⟨fun _ => True, fun it hit => ⟨(hg.ok it hit).2.2, fun ch hch => hg.stay ch (hall it hit ch hch),
        fun _ _ _ _ _ => trivial⟩, Or.inl h⟩
    · exact ⟨fun k => T k = none, fun it hit => ⟨(hg.ok it hit).2.2, fun ch hch => hg.stay ch (hall it hit ch hch),
        fun ch hch ho k hk => h ch (hall it hit ch hch) ho k hk⟩, Or.inr (fun _ h => h)⟩
  obtain ⟨K, hcalm, hKT⟩ := hK
  have hco := hsq.calm hok1 hg.valid hcalm
  have hso := hsq.schemas (SchemaOk pks) (fun it hit => (hok1 it hit).1)
  have hov : Overwrites pks [] outs := by
    rcases hg.cols with h | ⟨vals, h⟩
    · cases hsq with
      | nil => simp at h
      | @cons S rows out items outs h1 h2 =>
        simp only [List.length_cons, Nat.add_eq_right, List.length_eq_zero_iff] at h
        subst h
        cases h2
        exact ⟨fun u _ _ => Or.inl (by simp), trivial⟩
    · have hvals := hsq.schemas (fun S => ∀ c, (Desc.mk .value c ∈ S ↔ c ∈ vals) ∧ Desc.mk .changed c ∉ S) h
      refine overwrites_of (fun it => ∀ c, (Desc.mk .value c ∈ it.1 ↔ c ∈ vals) ∧ Desc.mk .changed c ∉ it.1) ?_
        (by simp) hvals
      intro it hit u hu _ b hb c hc
      obtain ⟨r, _, rfl⟩ := List.mem_map.1 hu
      have h1 := (hit c).1.2 ((hb c).1.1 hc)
      have h2 := (hit c).2
      by_cases hcp : c ∈ pks
      · simp [changeOf, hcp]
      · simp [changeOf, hcp, h1, h2]
  obtain ⟨hvi, _⟩ := hsq.effect hok1 hg.valid
  refine ⟨fun it hit => (hco it hit).whole, hov, ?_⟩
  cases outs with
  | nil => cases hsq; exact absurd rfl hne
  | cons o outs =>
    have hi : MergeInv pks full T [o] o :=
      ⟨hso o (by simp), (hco o (by simp)).whole, hvi.1, rfl, fun l hl _ => ⟨o, by simp, l, hl, rfl⟩,
        fun c hc => ⟨o, by simp, hc⟩⟩
    have hokr : ∀ it ∈ outs, SchemaOk pks it.1 ∧ WholeKeys pks it.2 := fun it h' =>
      ⟨hso it (by simp [h']), (hco it (by simp [h'])).whole⟩
    obtain ⟨⟨S, rows⟩, h1, h2⟩ := mergeAll_inv hpk outs [o] o hi hokr hvi.2 hov.2
    have hc := mergeAll_calm (K := K) hpk outs [o] o (S, rows) hi hokr hvi.2 hov.2 (hco o (by simp))
      (fun it h' => hco it (by simp [h'])) h1
    have hst : ∀ r ∈ rows, Stable (changeOf pks S r) := fun r hr => hc.stable _ (List.mem_map.2 ⟨r, hr, rfl⟩)
    refine ⟨S, rows, h1, h2.ok, firstDecides_of_stable hc.whole hst, ?_⟩
    intro r hr k hk
    rcases hKT with h3 | h3
    · right; left
      have hcs := hsq.schemas (fun S => ∀ c ∈ full, c ∈ pks ∨ (Desc.mk .value c ∈ S ∧ Desc.mk .changed c ∉ S)) h3
      have hcomp := mergeAll_complete' (full := full) outs o (S, rows) (hso o (by simp))
        (fun it h' => hso it (by simp [h'])) hcs h1
      intro c hc
      rcases hcomp c hc with h4 | ⟨h4, h5⟩
      · simp [changeOf, h4]
      · by_cases hcp : c ∈ pks
        · simp [changeOf, hcp]
        · simp only at h4 h5
          simp [changeOf, hcp, h4, h5]
    · rcases hst r hr with h4 | h4 | h4
      · exact Or.inr (Or.inr ⟨h4, h3 k (hc.inserts _ (List.mem_map.2 ⟨r, hr, rfl⟩) h4 k hk)⟩)
      · rw [h4] at hk; cases hk
      · left; rw [h4, hk]

/-- **C16** for any number of key columns and any columns, when no change moves a row to another key: flushing the
squashed items always succeeds and gives exactly the table obtained by replaying all received changes one by one in
order. -/
theorem C16_stable_keys (hpk : pks ≠ []) (hpf : ∀ n ∈ pks, n ∈ full) (base : List TRow) (hb : Keyed pks full base)
    (items outs : List SItem) (hne : items ≠ []) (hsq : SquashedItems items outs)
    (hg : Gentle pks full (tableOf pks base) items) :
    ∃ out, flushRows full outs base = some out ∧ Keyed pks full out ∧
      tableOf pks out = replay full (tableOf pks base) (allChanges pks items) := by
  obtain ⟨hw, hov, S, rows, hs, hS, hfd, hdir⟩ := hg.merged hpk hne hsq
  have hdef : ∃ out, flushRows full outs base = some out := by
    cases hh : pks.head? with
    | none => simp [List.head?_eq_none_iff] at hh; exact absurd hh hpk
    | some n =>
      simp only [flushRows, hs, normalize, hS.oldPk, hh]
      exact ⟨_, rfl⟩
  obtain ⟨out, hout⟩ := hdef
  refine ⟨out, hout, ?_⟩
  refine C16_flush_partial hpk hpf base out hb items outs hne hsq
    (fun it hit => ⟨(hg.ok it hit).1, (hg.ok it hit).2.1⟩) hg.valid hw hov ?_ ?_ hout
  · intro S' rows' hs'
    rw [hs] at hs'
    simp only [Option.some.injEq, Prod.mk.injEq] at hs'
    obtain ⟨rfl, rfl⟩ := hs'
    exact hfd
  · intro S' rows' hs'
    rw [hs] at hs'
    simp only [Option.some.injEq, Prod.mk.injEq] at hs'
    obtain ⟨rfl, rfl⟩ := hs'
    exact hdir

/-- **C16** with files, in the situation of `C16_stable_keys`. -/
theorem C16_stable_keys_files (hpk : pks ≠ []) (hpf : ∀ n ∈ pks, n ∈ full) (sn : Snapshot) (hst : SoundStats sn)
    (hb : Keyed pks full (fileRows sn.files)) (items outs : List SItem) (hne : items ≠ [])
    (hsq : SquashedItems items outs) (hg : Gentle pks full (tableOf pks (fileRows sn.files)) items)
    (out : List TRow) (h : flushFiles full outs sn = some out) :
    Keyed pks full out ∧
      tableOf pks out = replay full (tableOf pks (fileRows sn.files)) (allChanges pks items) := by
  obtain ⟨hw, hov, S, rows, hs, hS, hfd, hdir⟩ := hg.merged hpk hne hsq
  refine C16_files_partial hpk hpf sn hst hb items outs hne hsq
    (fun it hit => ⟨(hg.ok it hit).1, (hg.ok it hit).2.1⟩) hg.valid hw hov ?_ ?_ out h
  · intro S' rows' hs'
    rw [hs] at hs'
    simp only [Option.some.injEq, Prod.mk.injEq] at hs'
    obtain ⟨rfl, rfl⟩ := hs'
    exact hfd
  · intro S' rows' hs'
    rw [hs] at hs'
    simp only [Option.some.injEq, Prod.mk.injEq] at hs'
    obtain ⟨rfl, rfl⟩ := hs'
    exact hdir

/-! ### a concrete case: a key of two columns, changes of one of two other columns -/

namespace FkDemo
open SqDemo

def S2 : Schema := [⟨.oldPk, "a"⟩, ⟨.oldPk, "b"⟩, ⟨.newPk, "a"⟩, ⟨.newPk, "b"⟩, ⟨.value, "v"⟩]

/-- A row of `S2`: the old key, the new key, the value. -/
def r (o o' n n' v : Cell) : Row :=
  row [(⟨.oldPk, "a"⟩, o), (⟨.oldPk, "b"⟩, o'), (⟨.newPk, "a"⟩, n), (⟨.newPk, "b"⟩, n'), (⟨.value, "v"⟩, v)]

def base : List TRow :=
  [trow [("a", i 1), ("b", i 1), ("v", i 10), ("w", i 5)], trow [("a", i 1), ("b", i 2), ("v", i 20), ("w", i 6)]]

/-- An update and an insertion; then an update of the inserted row, a deletion and another insertion. -/
def items : List SItem :=
  [(S2, [r (i 1) (i 1) (i 1) (i 1) (i 11), r none none (i 2) (i 1) (i 30)]),
   (S2, [r (i 2) (i 1) (i 2) (i 1) (i 31), r (i 1) (i 2) none none none, r none none (i 2) (i 2) (i 40)])]

def pk2 : List String := ["a", "b"]

def full2 : List String := ["a", "b", "v", "w"]

theorem gentle : Gentle pk2 full2 (tableOf pk2 base) items := by
  constructor
  · intro it hit
    have hS : it.1 = S2 := by
      simp only [items, List.mem_cons, List.not_mem_nil, or_false] at hit
      rcases hit with rfl | rfl <;> rfl
    refine ⟨?_, ?_, ?_⟩
    · rw [hS]
      constructor
      · simp [S2]
      · simp [S2, names, pk2]
      · simp [S2, names, pk2]
      · intro c hc; simp [S2] at hc
      · intro c hc; simp [S2] at hc; simp [hc, pk2]
    · intro _ _ _ _ c _ hc
      rw [hS] at hc; simp [S2] at hc
    · intro x hx
      simp only [items, List.mem_cons, List.not_mem_nil, or_false] at hit
      rcases hit with rfl | rfl
      · simp only [List.mem_cons, List.not_mem_nil, or_false] at hx
        rcases hx with rfl | rfl <;> decide
      · simp only [List.mem_cons, List.not_mem_nil, or_false] at hx
        rcases hx with rfl | rfl | rfl <;> decide
  · intro ch hch
    simp only [allChanges, itemChanges, items, List.flatMap_cons, List.flatMap_nil, List.map_cons, List.map_nil,
      List.cons_append, List.nil_append, List.mem_cons, List.not_mem_nil, or_false] at hch
    rcases hch with rfl | rfl | rfl | rfl | rfl <;> decide
  · right
    refine ⟨["v"], ?_⟩
    intro it hit c
    have hS : it.1 = S2 := by
      simp only [items, List.mem_cons, List.not_mem_nil, or_false] at hit
      rcases hit with rfl | rfl <;> rfl
    rw [hS]
    simp [S2]
  · right
    intro ch hch ho k hk
    simp only [allChanges, itemChanges, items, List.flatMap_cons, List.flatMap_nil, List.map_cons, List.map_nil,
      List.cons_append, List.nil_append, List.mem_cons, List.not_mem_nil, or_false] at hch
    rcases hch with rfl | rfl | rfl | rfl | rfl <;> first | exact absurd ho (by decide) | skip
    · have : k = [i 2, i 1] := by
        have h2 : some [i 2, i 1] = some k := hk
        injection h2 with h2; exact h2.symm
      subst this; decide
    · have : k = [i 2, i 2] := by
        have h2 : some [i 2, i 2] = some k := hk
        injection h2 with h2; exact h2.symm
      subst this; decide
  · simp only [items, allChanges, itemChanges, List.flatMap_cons, List.flatMap_nil, List.map_cons, List.map_nil,
      List.cons_append, List.nil_append, ValidSeq]
    refine ⟨valid1_of ?_ ?_, valid1_of ?_ ?_, valid1_of ?_ ?_, valid1_of ?_ ?_, valid1_of ?_ ?_, trivial⟩ <;> decide

example : ∃ outs, SquashedItems items outs ∧
    ((flushRows full2 outs base).map (fun out => out.map (fun r => full2.map r))) =
      some [[i 1, i 1, i 11, i 5], [i 2, i 1, i 31, none], [i 2, i 2, i 40, none]] := by
  refine ⟨_, .cons rfl (.cons rfl .nil), ?_⟩
  decide +kernel

example : Keyed pk2 full2 base := by
  refine ⟨by decide, ?_, ?_⟩
  · intro x hx n hn
    simp only [base, List.mem_cons, List.not_mem_nil, or_false] at hx
    simp only [pk2, List.mem_cons, List.not_mem_nil, or_false] at hn
    rcases hx with rfl | rfl <;> rcases hn with rfl | rfl <;> decide
  · intro x hx c hc
    simp only [full2, List.mem_cons, List.not_mem_nil, or_false, not_or] at hc
    simp only [base, List.mem_cons, List.not_mem_nil, or_false] at hx
    have h1 : ∀ x : String, ¬ c = x → (c == x) = false := fun x h => by simpa using h
    rcases hx with rfl | rfl <;>
      simp [trow, List.lookup, h1 _ hc.1, h1 _ hc.2.1, h1 _ hc.2.2.1, h1 _ hc.2.2.2]

end FkDemo

end Seafowl.Sync
