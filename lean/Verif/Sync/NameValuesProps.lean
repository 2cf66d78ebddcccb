import Verif.Sync.NameValues
import Verif.Sync.NamesProps

/-!
# C142: every column of the table gets the values sent for it

A flush that is planned (C137) may still read the wrong column.
-/

namespace Seafowl.Names

open Seafowl.Sync

/-! ### Specification -/

/-- The row has the value `v` in a column of this role and name. -/
def Sent {V : Type} (cols : List SyncCol) (row : List (Option V)) (r : Role) (n : String) (v : Option V) : Prop :=
  ∃ (i : Nat) (c : SyncCol), cols[i]? = some c ∧ c.role = r ∧ c.name = n ∧ row[i]? = some v

/-- There is a column of this role and name. -/
def Has (cols : List SyncCol) (r : Role) (n : String) : Prop := ∃ c ∈ cols, c.role = r ∧ c.name = n

/-- What must be in the column `n` of the table for a row: what was sent for the column, unless nothing
was, or it is marked as not changed. -/
structure RightCell {V : Type} (isTrue : V → Bool) (cols : List SyncCol) (old : String → Option V)
    (row : List (Option V)) (n : String) (out : Option V) : Prop where
  sent : ∀ r v, r = .value ∨ r = .newPk → Sent cols row r n v → ¬ Has cols .changed n → out = v
  flag : ∀ b v, Sent cols row .changed n b → Sent cols row .value n v →
    out = if b.any isTrue then v else old n
  absent : ¬ Has cols .value n → ¬ Has cols .newPk n → out = old n

/-! ### Lookups -/

theorem nodup_idx {α β : Type} {f : α → β} {l : List α} {i j : Nat} {a b : α} (hn : (l.map f).Nodup)
    (ha : l[i]? = some a) (hb : l[j]? = some b) (h : f a = f b) : i = j := by
  have hi := (List.getElem?_eq_some_iff.1 ha).1
  exact (List.getElem?_inj (l := l.map f) (by simpa using hi) hn).1 (by simp [ha, hb, h])

theorem findIdx_name {sc : Scope} {i : Nat} {d : ColRef} (hn : (sc.map (·.name)).Nodup) (hd : sc[i]? = some d) :
    sc.findIdx? (fun x => decide (x.name = d.name)) = some i := by
  obtain ⟨hi, he⟩ := List.getElem?_eq_some_iff.1 hd
  rw [List.findIdx?_eq_some_iff_getElem]
  refine ⟨hi, by simp [he], fun j hj => ?_⟩
  simp only [decide_eq_true_eq]
  intro hc
  have h1 := nodup_idx hn (List.getElem?_eq_getElem (i := j) (l := sc) (by omega)) hd hc
  omega

theorem resolve_name {sc : Scope} {i : Nat} {d : ColRef} (hn : (sc.map (·.name)).Nodup) (hd : sc[i]? = some d) :
    resolve sc ⟨[], d.name⟩ = some i := by
  have hf : finds sc ⟨[], d.name⟩ = true :=
    finds_one hn (List.mem_map.2 ⟨d, List.mem_of_getElem? hd, rfl⟩)
  simp only [resolve, hf, if_true]
  exact findIdx_name hn hd

theorem scan_get {rel : String} {cols : List SyncCol} {i : Nat} {c : SyncCol} (h : cols[i]? = some c) :
    (scan rel cols)[i]? = some ⟨[rel], c.field.name⟩ := by
  simp [scan, h]

theorem readCol_at {V : Type} {parse : String → List String} {rel : String} {cols : List SyncCol}
    (row : List (Option V)) {f : String} {i : Nat} {c : SyncCol} (hn : (cols.map (·.field.name)).Nodup)
    (h : cols[i]? = some c) (hf : colOf parse f = ⟨[], c.field.name⟩) :
    readCol parse (scan rel cols) row f = row[i]? := by
  have := resolve_name (by rw [scan_names]; exact hn) (scan_get (rel := rel) h)
  simp only at this
  rw [readCol, hf, this]
  rfl

theorem findCol_at {cols : List SyncCol} {i : Nat} {c : SyncCol} (hn : (descs cols).Nodup)
    (h : cols[i]? = some c) : findCol cols c.role c.name = some c := by
  obtain ⟨c', hc'⟩ := findCol_of_mem (mem_descs (List.mem_of_getElem? h))
  obtain ⟨h1, h2, h3⟩ := findCol_some hc'
  obtain ⟨j, hj, e⟩ := List.mem_iff_getElem.1 h1
  have he : cols[j]? = some c' := by rw [List.getElem?_eq_getElem hj, e]
  have hinj : j = i := nodup_idx hn he h (by simp [h2, h3])
  subst hinj
  rw [hc', ← he, h]

theorem at_of_has {cols : List SyncCol} {r : Role} {n : String} (h : Has cols r n) :
    ∃ (i : Nat) (c : SyncCol), cols[i]? = some c ∧ c.role = r ∧ c.name = n := by
  obtain ⟨c, hc, hr, hm⟩ := h
  obtain ⟨i, hi, e⟩ := List.mem_iff_getElem.1 hc
  exact ⟨i, c, by rw [List.getElem?_eq_getElem hi, e], hr, hm⟩

theorem has_of_find {cols : List SyncCol} {r : Role} {n : String} {c : SyncCol} (h : findCol cols r n = some c) :
    Has cols r n := ⟨c, findCol_some h⟩

theorem find_of_has {cols : List SyncCol} {r : Role} {n : String} (h : Has cols r n) :
    ∃ c, findCol cols r n = some c := by
  obtain ⟨c, hc, hr, hm⟩ := h
  exact findCol_of_mem (List.mem_map.2 ⟨c, hc, by rw [hr, hm]⟩)

theorem norm_has {cols : List SyncCol} {r : Role} {n : String} :
    Has (normCols cols) r n ↔
      (r = .newPk ∧ Has cols .oldPk n) ∨ ((r = .value ∨ r = .changed) ∧ Has cols r n) := by
  constructor
  · rintro ⟨c, hc, hr, hn⟩
    simp only [normCols, List.mem_filterMap] at hc
    obtain ⟨c0, h0, e⟩ := hc
    cases h : c0.role <;> simp only [h, Option.some.injEq, reduceCtorEq] at e <;> subst e <;>
      simp only at hr hn
    · exact Or.inl ⟨hr.symm, c0, h0, h, hn⟩
    · exact Or.inr ⟨Or.inl hr.symm, c0, h0, by rw [h, hr], hn⟩
    · exact Or.inr ⟨Or.inr hr.symm, c0, h0, by rw [h, hr], hn⟩
  · rintro (⟨rfl, c0, h0, hr, hn⟩ | ⟨h, c0, h0, hr, hn⟩)
    · exact ⟨⟨.newPk, c0.name, { c0.field with name := canon .newPk c0.name }⟩,
      List.mem_filterMap.2 ⟨c0, h0, by simp only [hr]⟩, rfl, hn⟩
    · rcases h with rfl | rfl
      · exact ⟨⟨.value, c0.name, { c0.field with name := canon .value c0.name }⟩,
      List.mem_filterMap.2 ⟨c0, h0, by simp only [hr]⟩, rfl, hn⟩
      · exact ⟨⟨.changed, c0.name, { c0.field with name := canon .changed c0.name }⟩,
      List.mem_filterMap.2 ⟨c0, h0, by simp only [hr]⟩, rfl, hn⟩

theorem find_none {cols : List SyncCol} {r : Role} {n : String} (h : ¬ Has cols r n) : findCol cols r n = none := by
  cases hf : findCol cols r n with
  | none => rfl
  | some c => exact absurd (has_of_find hf) h

theorem has_descs {cols : List SyncCol} {r : Role} {n : String} : Has cols r n ↔ Desc.mk r n ∈ descs cols := by
  simp only [Has, descs, List.mem_map, Desc.mk.injEq]

theorem normCell_at {V : Type} {parse : String → List String} {L : Low} (row : List (Option V)) {i k : Nat}
    {c d s : SyncCol} (hs : (descs L.cols).Nodup) (hn : (L.cols.map (·.field.name)).Nodup)
    (hsc : L.scope = scan lowerRel L.cols) (hc : L.cols[i]? = some c) (hd : L.cols[k]? = some d)
    (hf : colOf parse c.field.name = ⟨[], d.field.name⟩) (hr : s.role = c.role) (hm : s.name = c.name) :
    normCell parse L row s = row[k]? := by
  rw [normCell, hr, hm, findCol_at hs hc, hsc]
  exact readCol_at row hn hd hf

/-- What is read for a column that has no flag. -/
theorem upsertCell_at {V : Type} {parse : String → List String} (isTrue : V → Bool) {pks : List String} {L : Low}
    (old : String → Option V) (row : List (Option V)) {i k : Nat} {c d : SyncCol}
    (hs : SchemaOk pks (descs L.cols)) (hn : (L.cols.map (·.field.name)).Nodup)
    (hsc : L.scope = scan lowerRel L.cols) (hc : L.cols[i]? = some c) (hd : L.cols[k]? = some d)
    (hf : colOf parse c.field.name = ⟨[], d.field.name⟩) (hr : c.role = .value ∨ c.role = .newPk)
    (hch : ¬ Has L.cols .changed c.name) :
    upsertCell parse isTrue L old row c.name = row[k]? := by
  have hmem := List.mem_of_getElem? hc
  have hch' : findCol (normCols L.cols) .changed c.name = none := by
    apply find_none
    rw [norm_has]
    rintro (⟨h, -⟩ | ⟨-, h⟩)
    · cases h
    · exact hch h
  obtain ⟨s, h1, h2, h3⟩ : ∃ s, (findCol (normCols L.cols) .value c.name).or
      (findCol (normCols L.cols) .newPk c.name) = some s ∧ s.role = c.role ∧ s.name = c.name := by
    rcases hr with hr | hr
    · obtain ⟨s, hs1⟩ := find_of_has (norm_has.2 (Or.inr ⟨Or.inl rfl, c, hmem, hr, rfl⟩))
      exact ⟨s, by rw [hs1]; rfl, by rw [(findCol_some hs1).2.1, hr], (findCol_some hs1).2.2⟩
    · have hk : c.name ∈ pks := (pk_mem hs).2.1 (by rw [← hr]; exact mem_descs hmem)
      have hv : findCol (normCols L.cols) .value c.name = none := by
        apply find_none
        rw [norm_has]
        rintro (⟨h, -⟩ | ⟨-, h⟩)
        · cases h
        · exact hs.noPk _ (has_descs.1 h) hk
      obtain ⟨s, hs1⟩ := find_of_has (cols := normCols L.cols) (r := .newPk) (n := c.name)
        (norm_has.2 (Or.inl ⟨rfl, has_descs.2 ((pk_mem hs).1.2 hk)⟩))
      exact ⟨s, by rw [hv, hs1]; rfl, by rw [(findCol_some hs1).2.1, hr], (findCol_some hs1).2.2⟩
  simp only [upsertCell, h1, hch']
  exact normCell_at row hs.nodup hn hsc hc hd hf h2 h3

/-! ### The property -/

theorem sent_unique {V : Type} {cols : List SyncCol} {row : List (Option V)} {r : Role} {n : String}
    {v w : Option V} (hs : (descs cols).Nodup) (h1 : Sent cols row r n v) (h2 : Sent cols row r n w) : v = w := by
  obtain ⟨i, c, hc, hr, hm, hv⟩ := h1
  obtain ⟨j, d, hd, hr', hm', hw⟩ := h2
  have hinj : i = j := nodup_idx hs hc hd (by simp [hr, hm, hr', hm'])
  subst hinj
  rw [hv] at hw
  exact Option.some.inj hw

/-- **C142.**  The full statement, for changes with plain names. -/
theorem C142_own_values_partial {V : Type} {parse : String → List String} (isTrue : V → Bool) {pks : List String}
    {cols : List SyncCol} (old : String → Option V) (row : List (Option V)) (hI : ItemOk parse pks cols)
    (hlen : row.length = cols.length) (n : String) :
    ∃ out, upsertCell parse isTrue ⟨cols, scan lowerRel cols⟩ old row n = some out ∧
      RightCell isTrue cols old row n out := by
  have hcell : ∀ (i : Nat) (c : SyncCol), cols[i]? = some c → ∃ v, row[i]? = some v := fun i c h => by
    have := (List.getElem?_eq_some_iff.1 h).1
    exact ⟨row[i], List.getElem?_eq_getElem (by omega)⟩
  have hnd := hI.schema.nodup
  by_cases hch : Has cols .changed n
  · have hv : Has cols .value n := has_descs.2 (hI.schema.changed n (has_descs.1 hch))
    obtain ⟨i, c, hc, hr, hm⟩ := at_of_has hv
    obtain ⟨k, d, hd, hr', hm'⟩ := at_of_has hch
    obtain ⟨v, hv'⟩ := hcell i c hc
    obtain ⟨b, hb'⟩ := hcell k d hd
    obtain ⟨s, hs1⟩ := find_of_has (norm_has.2 (Or.inr ⟨Or.inl rfl, hv⟩))
    obtain ⟨u, hu1⟩ := find_of_has (norm_has.2 (Or.inr ⟨Or.inr rfl, hch⟩))
    have e1 : normCell parse ⟨cols, scan lowerRel cols⟩ row s = some v := by
      rw [← hv']
      exact normCell_at (L := ⟨cols, _⟩) row hnd hI.fields rfl hc hc (hI.plain c (List.mem_of_getElem? hc))
        (by rw [(findCol_some hs1).2.1, hr]) (by rw [(findCol_some hs1).2.2, hm])
    have e2 : normCell parse ⟨cols, scan lowerRel cols⟩ row u = some b := by
      rw [← hb']
      exact normCell_at (L := ⟨cols, _⟩) row hnd hI.fields rfl hd hd (hI.plain d (List.mem_of_getElem? hd))
        (by rw [(findCol_some hu1).2.1, hr']) (by rw [(findCol_some hu1).2.2, hm'])
    refine ⟨if b.any isTrue then v else old n, ?_, ?_, ?_, ?_⟩
    · simp only [upsertCell, hs1, hu1, Option.some_or, e1, e2]
    · intro _ _ _ _ h; exact absurd hch h
    · intro b' v' hb'' hv''
      rw [sent_unique hnd hb'' ⟨k, d, hd, hr', hm', hb'⟩, sent_unique hnd hv'' ⟨i, c, hc, hr, hm, hv'⟩]
    · intro h; exact absurd hv h
  · by_cases hv : Has cols .value n ∨ Has cols .newPk n
    · obtain ⟨i, c, hc, hr, hm⟩ : ∃ (i : Nat) (c : SyncCol), cols[i]? = some c ∧ (c.role = .value ∨ c.role = .newPk) ∧ c.name = n := by
        rcases hv with h | h
        · obtain ⟨i, c, hc, hr, hm⟩ := at_of_has h; exact ⟨i, c, hc, Or.inl hr, hm⟩
        · obtain ⟨i, c, hc, hr, hm⟩ := at_of_has h; exact ⟨i, c, hc, Or.inr hr, hm⟩
      obtain ⟨v, hv'⟩ := hcell i c hc
      refine ⟨v, ?_, ?_, ?_, ?_⟩
      · rw [← hm, ← hv']
        exact upsertCell_at (L := ⟨cols, _⟩) isTrue old row hI.schema hI.fields rfl hc hc
          (hI.plain c (List.mem_of_getElem? hc)) hr (by rw [hm]; exact hch)
      · intro r w hrr hw _
        have hcr : c.role = r := by
          obtain ⟨j, d, hd, hdr, hdm, -⟩ := hw
          have hdd : Desc.mk r n ∈ descs cols := has_descs.1 ⟨d, List.mem_of_getElem? hd, hdr, hdm⟩
          have hcc : Desc.mk c.role n ∈ descs cols := has_descs.1 ⟨c, List.mem_of_getElem? hc, rfl, hm⟩
          rcases hr with hr | hr <;> rcases hrr with hrr | hrr <;> rw [hr] at hcc ⊢ <;> rw [hrr] at hdd ⊢
          · exact absurd ((pk_mem hI.schema).2.1 hdd) (hI.schema.noPk n hcc)
          · exact absurd ((pk_mem hI.schema).2.1 hcc) (hI.schema.noPk n hdd)
        exact sent_unique hnd ⟨i, c, hc, hcr, hm, hv'⟩ hw
      · intro b w hb; obtain ⟨j, d, hd, hdr, hdm, -⟩ := hb
        exact absurd ⟨d, List.mem_of_getElem? hd, hdr, hdm⟩ hch
      · intro h1 h2; exact absurd hv (fun h => h.elim h1 h2)
    · have h1 : ¬ Has cols .value n := fun h => hv (Or.inl h)
      have h2 : ¬ Has cols .newPk n := fun h => hv (Or.inr h)
      have f1 : findCol (normCols cols) .value n = none := find_none (by
        rw [norm_has]; rintro (⟨h, -⟩ | ⟨-, h⟩)
        · cases h
        · exact h1 h)
      have f2 : findCol (normCols cols) .newPk n = none := find_none (by
        rw [norm_has]; rintro (⟨-, h⟩ | ⟨h, -⟩)
        · exact h2 (has_descs.2 ((pk_mem hI.schema).2.2 ((pk_mem hI.schema).1.1 (has_descs.1 h))))
        · rcases h with h | h <;> cases h)
      refine ⟨old n, ?_, ?_, ?_, fun _ _ => rfl⟩
      · simp only [upsertCell, f1, f2, Option.none_or]
      · rintro r w (rfl | rfl) ⟨j, d, hd, hdr, hdm, -⟩ _
        · exact absurd ⟨d, List.mem_of_getElem? hd, hdr, hdm⟩ h1
        · exact absurd ⟨d, List.mem_of_getElem? hd, hdr, hdm⟩ h2
      · rintro b w ⟨j, d, hd, hdr, hdm, -⟩ _
        exact absurd ⟨d, List.mem_of_getElem? hd, hdr, hdm⟩ hch

/-! ### Violations -/

/-- For every change set in which a field is called like another one in lower case: the column of the
first always gets the values sent for the second. -/
theorem C142_violated {V : Type} {parse : String → List String} (hp : FoldsWords parse) (isTrue : V → Bool)
    {pks : List String} {cols : List SyncCol} (old : String → Option V) (row : List (Option V)) {i k : Nat}
    {c d : SyncCol} (hs : SchemaOk pks (descs cols)) (hn : (cols.map (·.field.name)).Nodup)
    (hc : cols[i]? = some c) (hd : cols[k]? = some d) (hr : c.role = .value ∨ c.role = .newPk)
    (hch : ¬ Has cols .changed c.name) (hw : isWord c.field.name = true)
    (hl : lower c.field.name = d.field.name) :
    upsertCell parse isTrue ⟨cols, scan lowerRel cols⟩ old row c.name = row[k]? :=
  upsertCell_at (L := ⟨cols, _⟩) isTrue old row hs hn rfl hc hd (by rw [colOf_word hp hw, hl]) hr hch

/-- Once two change sets are merged the fields have the names of the columns: then every column gets the
values of the column called like it in lower case, whatever the fields were called. -/
theorem C142_violated_merged {V : Type} {parse : String → List String} (hp : FoldsWords parse) (isTrue : V → Bool)
    {pks : List String} {L : Low} {lo up : List SyncCol} {ds : List Desc} (old : String → Option V)
    (row : List (Option V)) {i k : Nat} {r : Role} {n : String} (hs : SchemaOk pks ds)
    (hL : merged (mergedCols lo up ds) = some L) (hi : ds[i]? = some ⟨r, n⟩) (hk : ds[k]? = some ⟨r, lower n⟩)
    (hr : r = .value ∨ r = .newPk) (hch : Desc.mk .changed n ∉ ds) (hw : isWord n = true) :
    upsertCell parse isTrue L old row n = row[k]? := by
  have hL' : L = ⟨mergedCols lo up ds, scan lowerRel (mergedCols lo up ds)⟩ := by
    unfold merged at hL
    split at hL
    · exact (Option.some.inj hL).symm
    · cases hL
  subst hL'
  have hget : ∀ (j : Nat) (d : Desc), ds[j]? = some d →
      (mergedCols lo up ds)[j]? = some ⟨d.role, d.name, mergedField lo up d⟩ := by
    intro j d h
    simp [mergedCols, h]
  have hnd : ((mergedCols lo up ds).map (·.field.name)).Nodup := by
    have : (mergedCols lo up ds).map (·.field.name) = ds.map (fun d => canon d.role d.name) := by
      simp [mergedCols, mergedField_name]
    rw [this]
    unfold List.Nodup
    rw [List.pairwise_map]
    refine List.Pairwise.imp ?_ hs.nodup
    intro a b hab he
    obtain ⟨h1, h2⟩ := canon_inj he
    apply hab
    cases a; cases b; simp_all
  have hd : descs (mergedCols lo up ds) = ds := descs_merged lo up ds
  exact upsertCell_at (L := ⟨mergedCols lo up ds, _⟩) (c := ⟨r, n, mergedField lo up ⟨r, n⟩⟩) isTrue old row
    (by rw [hd]; exact hs) hnd rfl (hget i _ hi) (hget k _ hk)
    (by rw [mergedField_name, mergedField_name, colOf_word hp (isWord_canon r hw), lower_canon]) hr
    (by rw [has_descs, hd]; exact hch)

/-! ### Examples -/

namespace NamesDemo

/-- A table of orders with the columns `Total` (with tax) and `total` (without). -/
def orders : List TCol := [⟨"id", []⟩, ⟨"Total", []⟩, ⟨"total", []⟩, ⟨"note", []⟩]

/-- An insert with fields named like the columns. -/
def orderCols : List SyncCol :=
  [col .oldPk "id" "old_pk_id", col .newPk "id" "new_pk_id", col .value "Total" "value_Total",
    col .value "total" "value_total"]

def orderItem : Item := ⟨orderCols, fun r _ => r == .newPk⟩

/-- The flush is planned without an error, and the total without tax is written to both columns. -/
example : planNames demoParse orders [orderItem] = some ["id", "Total", "total", "note"] ∧
    upsertRow demoParse (fun _ => true) orders ⟨orderCols, scan lowerRel orderCols⟩ (fun _ => none)
      [none, some 7, some 119, some 100] = [some (some 7), some (some 100), some (some 100), some none] := by
  decide +kernel

/-- It is the theorem that says so, for every row. -/
example (row : List (Option Nat)) :
    upsertCell demoParse (fun _ => true) ⟨orderCols, scan lowerRel orderCols⟩ (fun _ => none) row "Total" = row[3]? :=
  C142_violated (pks := ["id"]) (i := 2) (k := 3) (c := col .value "Total" "value_Total")
    (d := col .value "total" "value_total") demoParse_folds _ _ row
    ⟨by decide +kernel, by decide +kernel, by decide +kernel,
      by intro c hc; simp [orderCols, descs, col] at hc,
      by intro c hc; simp [orderCols, descs, col] at hc; rcases hc with rfl | rfl <;> decide +kernel⟩
    (by decide +kernel) rfl rfl (Or.inl rfl) (by rintro ⟨c, hc, h, -⟩; revert c; decide +kernel)
    (by decide +kernel) (by decide +kernel)

/-- A composite key of `Id` and `id`: the flush is planned, and the rows lose the first part of their key. -/
example : planNames demoParse [⟨"Id", []⟩, ⟨"id", []⟩]
      [⟨[col .oldPk "Id" "old_pk_Id", col .oldPk "id" "old_pk_id", col .newPk "Id" "new_pk_Id",
        col .newPk "id" "new_pk_id"], fun r _ => r == .newPk⟩] = some ["Id", "id"] ∧
    upsertRow demoParse (fun _ => true) [⟨"Id", []⟩, ⟨"id", []⟩]
      ⟨[col .oldPk "Id" "old_pk_Id", col .oldPk "id" "old_pk_id", col .newPk "Id" "new_pk_Id",
        col .newPk "id" "new_pk_id"], scan lowerRel [col .oldPk "Id" "old_pk_Id", col .oldPk "id" "old_pk_id",
        col .newPk "Id" "new_pk_Id", col .newPk "id" "new_pk_id"]⟩ (fun _ => none)
      [none, none, some 1, some 2] = [some (some 2), some (some 2)] := by
  decide +kernel

/-- With fields of other names the same columns are written as sent, also with a flag that says that a
column has not changed; the hypotheses of the theorem hold. -/
def flagCols : List SyncCol :=
  [col .oldPk "id" "a", col .newPk "id" "b", col .value "Total" "c", col .value "total" "d", col .changed "total" "e"]

example : upsertRow demoParse (fun v => v == 1) orders ⟨flagCols, scan lowerRel flagCols⟩ (fun _ => some 5)
      [some 7, some 7, some 119, some 100, some 0] =
    [some (some 7), some (some 119), some (some 5), some (some 5)] := by
  decide +kernel

example : ItemOk demoParse ["id"] flagCols := by
  refine ⟨⟨by decide +kernel, by decide +kernel, by decide +kernel, ?_, ?_⟩, by decide +kernel, ?_, ?_, ?_⟩
  · intro c hc; simp [flagCols, descs, col] at hc ⊢; exact Or.inr hc
  · intro c hc; simp [flagCols, descs, col] at hc; rcases hc with rfl | rfl <;> decide +kernel
  all_goals
    intro c hc
    simp only [flagCols, List.mem_cons, List.not_mem_nil, or_false] at hc
    rcases hc with rfl | rfl | rfl | rfl | rfl
  all_goals first
    | rfl
    | (unfold Plain; decide +kernel)
    | decide +kernel

/-- Merging the insert with another one like it: the second column is read for the first. -/
example (row : List (Option Nat)) :
    ∃ L, merged (mergedCols flagCols flagCols (descs orderCols)) = some L ∧
      upsertCell demoParse (fun _ => true) L (fun _ => none) row "Total" = row[3]? :=
  ⟨_, rfl, C142_violated_merged (pks := ["id"]) (i := 2) (k := 3) (r := .value) (n := "Total")
    (ds := descs orderCols) (lo := flagCols) (up := flagCols) demoParse_folds _ _ row
    ⟨by decide +kernel, by decide +kernel, by decide +kernel,
      by intro c hc; simp [orderCols, descs, col] at hc,
      by intro c hc; simp [orderCols, descs, col] at hc; rcases hc with rfl | rfl <;> decide +kernel⟩
    rfl rfl (by decide +kernel) (Or.inl rfl) (by decide +kernel) (by decide +kernel)⟩

end NamesDemo

end Seafowl.Names
