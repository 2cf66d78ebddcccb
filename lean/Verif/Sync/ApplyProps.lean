import Verif.Sync.Normalize
import Verif.Sync.SquashProps

/-!
# Applying a change set to a table: C15 and C18
-/

namespace Seafowl.Sync

variable {pks full : List String} {S : Schema}

theorem flushRows_one {rows : List Row} {base out : List TRow}
    (h : flushRows full [(S, rows)] base = some out) :
    ∃ ns, normalize S rows = some ns ∧ out = applySyncs S full base ns := by
  simp only [flushRows, squashSyncs, mergeAll] at h
  split at h
  · cases h
  · next ns hns => injection h with h; exact ⟨ns, hns, h.symm⟩

/-- **C15**, as far as it holds.  Flushing a change set to a table with a primary key gives a table
with a primary key whose content is that of the change set applied all at once, provided that
* keys are given in full or not at all, and no two changes write the same key;
* an update that changes the key changes the first key column;
* a change that moves a row to another key, or inserts under a key that is in the table, sets all
  columns. -/
theorem C15_apply_partial (hS : SchemaOk pks S) (hpf : ∀ n ∈ pks, n ∈ full) (base out : List TRow)
    (hb : Keyed pks full base) (rows : List Row) (hw : WholeKeys pks rows) (hd : FirstDecides pks S rows)
    (hnews : (rows.map (changeOf pks S)).Pairwise (fun a b => a.new ≠ none → a.new ≠ b.new))
    (hdir : ∀ r ∈ rows, Direct full (tableOf pks base) (changeOf pks S r))
    (h : flushRows full [(S, rows)] base = some out) :
    Keyed pks full out ∧
    tableOf pks out = netApply full (tableOf pks base) (rows.map (changeOf pks S)) := by
  obtain ⟨ns, hns, rfl⟩ := flushRows_one h
  have hu := normalize_upsertsOk hS hw hd hnews hns
  exact ⟨applySyncs_keyed hS hpf hb hu, by
    rw [tableOf_applySyncs hS hpf hb hu, applySpec_normalize hS hw hd hnews hdir hns]⟩

/-- **C15** spelled out: in the situation of `C15_apply_partial`
* a written key has exactly one row, with the values set by the change and the stored values of the
  row with the old key otherwise;
* a key that a change deletes or moves away from, and that no change writes, has no row;
* the rows with other keys are the stored ones. -/
theorem C15_rows_partial (hS : SchemaOk pks S) (hpf : ∀ n ∈ pks, n ∈ full) (base out : List TRow)
    (hb : Keyed pks full base) (rows : List Row) (hw : WholeKeys pks rows) (hd : FirstDecides pks S rows)
    (hnews : (rows.map (changeOf pks S)).Pairwise (fun a b => a.new ≠ none → a.new ≠ b.new))
    (hdir : ∀ r ∈ rows, Direct full (tableOf pks base) (changeOf pks S r))
    (h : flushRows full [(S, rows)] base = some out) :
    (∀ r ∈ rows, ∀ k, (changeOf pks S r).new = some k → ∃ o, out.filter (fun o => tkey pks o = k) = [o] ∧
      ∀ c ∈ full, o c = match (changeOf pks S r).set c with
        | some v => v
        | none => match (changeOf pks S r).old with
          | none => none
          | some k' => match base.find? (fun b => tkey pks b = k') with
            | some b => b c
            | none => none) ∧
    (∀ r ∈ rows, ∀ k, (changeOf pks S r).old = some k → (∀ r' ∈ rows, (changeOf pks S r').new ≠ some k) →
      ∀ o ∈ out, tkey pks o ≠ k) ∧
    (∀ k, (∀ r ∈ rows, (changeOf pks S r).old ≠ some k ∧ (changeOf pks S r).new ≠ some k) →
      ∀ o, tkey pks o = k → (o ∈ out ↔ o ∈ base)) := by
  obtain ⟨hk, ht⟩ := C15_apply_partial hS hpf base out hb rows hw hd hnews hdir h
  refine ⟨?_, ?_, ?_⟩
  · intro r hr k hnk
    have h1 : tableOf pks out k = some (write full (baseOf (tableOf pks base) (changeOf pks S r).old) (changeOf pks S r).set) := by
      rw [ht]
      simp only [netApply]
      cases hf : (rows.map (changeOf pks S)).find? (fun ch => decide (ch.new = some k)) with
      | none =>
        rw [List.find?_eq_none] at hf
        exact absurd hnk (by simpa using hf _ (List.mem_map.2 ⟨r, hr, rfl⟩))
      | some ch' =>
        have hm := List.mem_of_find?_eq_some hf
        have hn := List.find?_some hf
        simp only [decide_eq_true_eq] at hn
        obtain ⟨r', hr', rfl⟩ := List.mem_map.1 hm
        have : r' = r ∨ changeOf pks S r' = changeOf pks S r := by
          have h3 := List.pairwise_iff_getElem.1 (List.pairwise_map.1 hnews)
          obtain ⟨i, hi, rfl⟩ := List.getElem_of_mem hr'
          obtain ⟨j, hj, rfl⟩ := List.getElem_of_mem hr
          rcases Nat.lt_trichotomy i j with hij | hij | hij
          · exact absurd (by rw [hn, hnk]) (h3 i j hi hj hij (by rw [hn]; simp))
          · subst hij; exact Or.inl rfl
          · exact absurd (by rw [hn, hnk]) (h3 j i hj hi hij (by rw [hnk]; simp))
        rcases this with rfl | he
        · rfl
        · simp only [he]
    obtain ⟨hom, hok⟩ := (find?_key hk.nodup).1 h1
    refine ⟨write full (baseOf (tableOf pks base) (changeOf pks S r).old) (changeOf pks S r).set, ?_, ?_⟩
    · have hlen : (out.filter (fun o => decide (tkey pks o = k))).length ≤ 1 := by
        apply filter_length_le_one (tkey pks) k
        · have := hk.nodup
          rw [List.nodup_iff_pairwise_ne] at this
          exact (List.pairwise_map.1 this).imp (fun hne _ _ => hne)
        · intro a _ ha; simpa using ha
      have hin := (List.mem_filter (p := fun o => decide (tkey pks o = k))).2 ⟨hom, by simpa using hok⟩
      match hl : out.filter (fun o => decide (tkey pks o = k)), hlen, hin with
      | [], _, hin => cases hin
      | [a], _, hin => simp only [List.mem_singleton] at hin; rw [hin]
      | a :: b :: l, hlen, _ => simp at hlen
    · intro c hc
      simp only [write, hc, if_true]
      cases (changeOf pks S r).set c with
      | some v => rfl
      | none =>
        simp only [Option.getD_none]
        cases (changeOf pks S r).old with
        | none => rfl
        | some k' =>
          simp only [baseOf, tableOf]
          cases base.find? (fun b => decide (tkey pks b = k')) <;> rfl
  · intro r hr k hok hno
    rw [← tableOf_none, ht]
    simp only [netApply]
    have hf : (rows.map (changeOf pks S)).find? (fun ch => decide (ch.new = some k)) = none := by
      rw [List.find?_eq_none]
      intro ch hch
      obtain ⟨r', hr', rfl⟩ := List.mem_map.1 hch
      simpa using hno r' hr'
    rw [hf]
    simp only
    rw [if_pos]
    rw [List.any_eq_true]
    exact ⟨_, List.mem_map.2 ⟨r, hr, rfl⟩, by simpa using hok⟩
  · intro k hno o hok
    have hT : tableOf pks out k = tableOf pks base k := by
      rw [ht]
      simp only [netApply]
      have hf : (rows.map (changeOf pks S)).find? (fun ch => decide (ch.new = some k)) = none := by
        rw [List.find?_eq_none]
        intro ch hch
        obtain ⟨r', hr', rfl⟩ := List.mem_map.1 hch
        simpa using (hno r' hr').2
      rw [hf]
      simp only
      rw [if_neg]
      rw [List.any_eq_true]
      rintro ⟨ch, hch, hp⟩
      obtain ⟨r', hr', rfl⟩ := List.mem_map.1 hch
      exact (hno r' hr').1 (by simpa using hp)
    have h1 := find?_key hk.nodup (k := k) (r := o)
    have h2 := find?_key hb.nodup (k := k) (r := o)
    rw [hT, h2] at h1
    simp only [hok, and_true] at h1
    exact h1.symm

/-- With one key column the conditions on the keys hold by themselves. -/
theorem wholeKeys_single (n : String) (rows : List Row) : WholeKeys [n] rows := by
  intro r _
  constructor
  · cases h : r ⟨.oldPk, n⟩ <;> simp [h]
  · cases h : r ⟨.newPk, n⟩ <;> simp [h]

theorem firstDecides_single (n : String) (S : Schema) (rows : List Row) : FirstDecides [n] S rows := by
  intro r _ m hm h
  simp only [List.head?_cons, Option.some.injEq] at hm
  subst hm
  simp [changeOf, h]

/-- **C15** for one key column and changes that carry all columns: no condition on the table. -/
theorem C15_single_key_full_rows (n : String) (hS : SchemaOk [n] S) (hn : n ∈ full) (base out : List TRow)
    (hb : Keyed [n] full base) (rows : List Row)
    (hall : ∀ c ∈ full, c = n ∨ (Desc.mk .value c ∈ S ∧ Desc.mk .changed c ∉ S))
    (hnews : (rows.map (changeOf [n] S)).Pairwise (fun a b => a.new ≠ none → a.new ≠ b.new))
    (h : flushRows full [(S, rows)] base = some out) :
    Keyed [n] full out ∧
    tableOf [n] out = netApply full (tableOf [n] base) (rows.map (changeOf [n] S)) := by
  refine C15_apply_partial hS (by simp [hn]) base out hb rows (wholeKeys_single n rows)
    (firstDecides_single n S rows) hnews ?_ h
  intro r _ k _
  right; left
  intro c hc
  rcases hall c hc with rfl | ⟨h1, h2⟩
  · simp [changeOf]
  · by_cases hcn : c = n
    · simp [changeOf, hcn]
    · simp [changeOf, hcn, h1, h2]

/-! ### concrete cases -/

namespace ApDemo
open SqDemo

/-- The base rows of `SqDemo.T3`. -/
def base : List TRow := [trow [("id", i 1), ("v", i 10)], trow [("id", i 2), ("v", i 20)]]

theorem base_keyed : Keyed ["id"] ["id", "v"] base := by
  constructor
  · decide
  · intro r hr n hn
    simp only [base, List.mem_cons, List.not_mem_nil, or_false] at hr hn
    subst hn
    rcases hr with rfl | rfl <;> decide
  · intro r hr c hc
    simp only [base, List.mem_cons, List.not_mem_nil, or_false] at hr hc
    have h1 : ¬ c = "id" := fun h => hc (Or.inl h)
    have h2 : ¬ c = "v" := fun h => hc (Or.inr h)
    rcases hr with rfl | rfl <;> simp [trow, List.lookup, beq_eq_false_iff_ne.2 h1, beq_eq_false_iff_ne.2 h2]

/-- Two rows swap their keys, and a row is added. -/
def swap : List Row := [r3 (i 1) (i 2) (i 10), r3 (i 2) (i 1) (i 20), r3 none (i 3) (i 30)]

example : ((flushRows ["id", "v"] [(S3, swap)] base).map (fun out => out.map (fun r => [r "id", r "v"]))) =
    some [[i 1, i 20], [i 2, i 10], [i 3, i 30]] := by decide

example : (swap.map (changeOf ["id"] S3)).Pairwise (fun a b => a.new ≠ none → a.new ≠ b.new) := by
  simp only [swap, List.map_cons, List.map_nil, List.pairwise_cons, List.mem_cons, List.not_mem_nil,
    or_false, forall_eq_or_imp, forall_eq]
  refine ⟨⟨?_, ?_⟩, ?_, ?_, ?_⟩ <;> first | decide | simp

example : ∀ c ∈ ["id", "v"], c = "id" ∨ (Desc.mk .value c ∈ S3 ∧ Desc.mk .changed c ∉ S3) := by decide

/-- Two key columns. -/
def S4 : Schema := [⟨.oldPk, "a"⟩, ⟨.oldPk, "b"⟩, ⟨.newPk, "a"⟩, ⟨.newPk, "b"⟩, ⟨.value, "v"⟩]

theorem S4_ok : SchemaOk ["a", "b"] S4 := by
  constructor
  · decide
  · decide
  · decide
  · intro c h; simp [S4] at h
  · intro c h; simp [S4] at h; simp [h]

/-- One row with key (1, 1). -/
def base4 : List TRow := [trow [("a", i 1), ("b", i 1), ("v", i 10)]]
/-- The row moves to key (1, 2). -/
def move4 : List Row := [row [(⟨.oldPk, "a"⟩, i 1), (⟨.oldPk, "b"⟩, i 1), (⟨.newPk, "a"⟩, i 1),
  (⟨.newPk, "b"⟩, i 2), (⟨.value, "v"⟩, i 11)]]

end ApDemo

open SqDemo ApDemo in
/-- **C15 is violated** for several key columns: an update of the second key column leaves the row
with the old key in the table. -/
theorem C15_violated_second_key_column : ∃ (pks full : List String) (S : Schema) (base out : List TRow)
    (rows : List Row), SchemaOk pks S ∧ Keyed pks full base ∧
    ValidSeq full (tableOf pks base) (rows.map (changeOf pks S)) ∧ WholeKeys pks rows ∧
    flushRows full [(S, rows)] base = some out ∧
    (∃ k, (∃ r ∈ rows, (changeOf pks S r).old = some k) ∧ (∀ r ∈ rows, (changeOf pks S r).new ≠ some k) ∧
      ∃ o ∈ out, tkey pks o = k) := by
  refine ⟨["a", "b"], ["a", "b", "v"], S4, base4, _, move4, S4_ok, ?_, ?_, ?_, rfl,
    [i 1, i 1], ⟨_, by simp [move4]; rfl, by decide⟩, ?_, ?_⟩
  · constructor
    · decide
    · intro r hr n hn
      simp only [base4, List.mem_cons, List.not_mem_nil, or_false] at hr hn
      subst hr
      rcases hn with rfl | rfl <;> decide
    · intro r hr c hc
      simp only [base4, List.mem_cons, List.not_mem_nil, or_false, not_or] at hr hc
      subst hr
      simp [trow, List.lookup, beq_eq_false_iff_ne.2 hc.1, beq_eq_false_iff_ne.2 hc.2.1,
        beq_eq_false_iff_ne.2 hc.2.2]
  · simp only [move4, List.map_cons, List.map_nil, ValidSeq]
    refine ⟨valid1_of ?_ ?_, trivial⟩ <;> decide
  · intro r hr
    simp only [move4, List.mem_cons, List.not_mem_nil, or_false] at hr
    subst hr
    constructor <;> right <;> decide
  · intro r hr
    simp only [move4, List.mem_cons, List.not_mem_nil, or_false] at hr
    subst hr
    decide
  · refine ⟨outRow S4 ["a", "b", "v"] (some (trow [("a", i 1), ("b", i 1), ("v", i 10)]), none), ?_, ?_⟩
    · exact List.mem_cons_self
    · decide

open SqDemo ApDemo in
/-- **C15 is violated** for an update that moves a row and does not set all columns: the column `v`
that the change leaves alone becomes NULL. -/
theorem C15_violated_partial_move : ∃ (pks full : List String) (S : Schema) (base out : List TRow)
    (rows : List Row), SchemaOk pks S ∧ Keyed pks full base ∧
    ValidSeq full (tableOf pks base) (rows.map (changeOf pks S)) ∧
    flushRows full [(S, rows)] base = some out ∧
    tableOf pks out ≠ netApply full (tableOf pks base) (rows.map (changeOf pks S)) := by
  refine ⟨["id"], ["id", "v"], S1, base, _, [r1 (i 1) (i 5) none (t false)], S1_ok, base_keyed, ?_, rfl, ?_⟩
  · simp only [List.map_cons, List.map_nil, ValidSeq]
    refine ⟨valid1_of ?_ ?_, trivial⟩ <;> decide
  · intro h
    have h1 := congrArg (fun T : Table => ((T [i 5]).map (fun r => r "v"))) h
    revert h1
    decide

/-! ### C18 -/

theorem normalize_upserts_weak (hS : SchemaOk pks S) {rows : List Row} {ns : List NRow}
    (hnull : ∀ r ∈ rows, (∃ n ∈ pks, (r ⟨.newPk, n⟩).isSome) → ∀ n ∈ pks, (r ⟨.newPk, n⟩).isSome)
    (hnews : rows.Pairwise (fun a b => pks.map (fun n => a ⟨.newPk, n⟩) ≠ pks.map (fun n => b ⟨.newPk, n⟩) ∨
      ∀ n ∈ pks, a ⟨.newPk, n⟩ = none))
    (h : normalize S rows = some ns) : UpsertsOk pks ns := by
  simp only [normalize, hS.oldPk] at h
  split at h
  · cases h
  · next n hn =>
    injection h with h
    subst h
    have hnp : n ∈ pks := by
      cases pks with
      | nil => simp at hn
      | cons a as => simp at hn; simp [hn]
    have hup : ∀ r, ∀ s ∈ normRow n r, s.upsert = true → (r ⟨.newPk, n⟩).isSome ∧ s = upsertOf r := by
      intro r s hs hu
      simp only [normRow] at hs
      split at hs
      · next hc =>
        simp only [Bool.and_eq_true] at hc
        simp only [List.mem_singleton] at hs
        exact ⟨hc.2, hs⟩
      · split at hs
        · next hc =>
          simp only [Bool.and_eq_true] at hc
          simp only [List.mem_singleton] at hs
          exact ⟨hc.1.2, hs⟩
        · split at hs
          · next hc =>
            simp only [Bool.and_eq_true] at hc
            simp only [List.mem_cons, List.not_mem_nil, or_false] at hs
            rcases hs with rfl | rfl
            · cases hu
            · exact ⟨hc.1.2, rfl⟩
          · simp only [List.mem_singleton] at hs
            subst hs; cases hu
    constructor
    · intro s hs hu m hm
      obtain ⟨r, hr, hsr⟩ := List.mem_flatMap.1 hs
      obtain ⟨h1, rfl⟩ := hup r s hsr hu
      exact hnull r (List.mem_filter.1 hr).1 ⟨n, hnp, h1⟩ m hm
    · rw [List.pairwise_flatMap]
      constructor
      · intro r _
        simp only [normRow]
        split
        · simp
        · split
          · simp
          · split <;> simp
      · refine (hnews.sublist List.filter_sublist).imp ?_
        intro a b hab x hx y hy hux huy he
        obtain ⟨h1, rfl⟩ := hup a x hx hux
        obtain ⟨h2, rfl⟩ := hup b y hy huy
        rcases hab with h3 | h3
        · exact h3 he
        · rw [h3 n hnp] at h1; simp at h1

/-- **C18**: flushing the same change set a second time leaves the table as it is (same rows up to
order), for every table and every change set whose new keys are complete and pairwise different; no
other condition on the changes (they need not make sense on the table). -/
theorem C18_idempotent (hS : SchemaOk pks S) (hpf : ∀ n ∈ pks, n ∈ full) (base once twice : List TRow)
    (hb : Keyed pks full base) (rows : List Row)
    (hnull : ∀ r ∈ rows, (∃ n ∈ pks, (r ⟨.newPk, n⟩).isSome) → ∀ n ∈ pks, (r ⟨.newPk, n⟩).isSome)
    (hnews : rows.Pairwise (fun a b => pks.map (fun n => a ⟨.newPk, n⟩) ≠ pks.map (fun n => b ⟨.newPk, n⟩) ∨
      ∀ n ∈ pks, a ⟨.newPk, n⟩ = none))
    (h1 : flushRows full [(S, rows)] base = some once)
    (h2 : flushRows full [(S, rows)] once = some twice) : twice.Perm once := by
  obtain ⟨ns, hns, rfl⟩ := flushRows_one h1
  obtain ⟨ns', hns', rfl⟩ := flushRows_one h2
  rw [hns] at hns'
  injection hns' with hns'
  subst hns'
  have hu := normalize_upserts_weak hS hnull hnews hns
  have hk := applySyncs_keyed hS hpf hb hu
  have hk2 := applySyncs_keyed hS hpf hk hu
  apply perm_of_tableOf hk2.nodup hk.nodup
  rw [tableOf_applySyncs hS hpf hk hu, tableOf_applySyncs hS hpf hb hu, applySpec_idem]

/-- **C18** for any number of items: whatever they merge to, flushing them again changes nothing. -/
theorem C18_idempotent_items (items : List (Schema × List Row)) (rows : List Row)
    (hm : squashSyncs items = some (S, rows)) (hS : SchemaOk pks S) (hpf : ∀ n ∈ pks, n ∈ full)
    (base once twice : List TRow) (hb : Keyed pks full base)
    (hnull : ∀ r ∈ rows, (∃ n ∈ pks, (r ⟨.newPk, n⟩).isSome) → ∀ n ∈ pks, (r ⟨.newPk, n⟩).isSome)
    (hnews : rows.Pairwise (fun a b => pks.map (fun n => a ⟨.newPk, n⟩) ≠ pks.map (fun n => b ⟨.newPk, n⟩) ∨
      ∀ n ∈ pks, a ⟨.newPk, n⟩ = none))
    (h1 : flushRows full items base = some once)
    (h2 : flushRows full items once = some twice) : twice.Perm once := by
  have he : ∀ b, flushRows full items b = flushRows full [(S, rows)] b := by
    intro b
    have : squashSyncs [(S, rows)] = some (S, rows) := rfl
    simp only [flushRows, hm, this]
  rw [he] at h1 h2
  exact C18_idempotent hS hpf base once twice hb rows hnull hnews h1 h2

open SqDemo ApDemo in
/-- The swap of two keys is applied once and then again. -/
example : (((flushRows ["id", "v"] [(S3, swap)] base).bind (flushRows ["id", "v"] [(S3, swap)])).map
    (fun out => out.map (fun r => [r "id", r "v"]))) =
    some [[i 1, i 20], [i 2, i 10], [i 3, i 30]] := by decide

open SqDemo ApDemo in
example : swap.Pairwise (fun a b => ["id"].map (fun n => a ⟨.newPk, n⟩) ≠ ["id"].map (fun n => b ⟨.newPk, n⟩) ∨
      ∀ n ∈ ["id"], a ⟨.newPk, n⟩ = none) := by
  simp only [swap, List.pairwise_cons, List.mem_cons, List.not_mem_nil,
    or_false, forall_eq_or_imp, forall_eq]
  refine ⟨⟨?_, ?_⟩, ?_, ?_, ?_⟩ <;> first | (left; decide) | simp

end Seafowl.Sync
