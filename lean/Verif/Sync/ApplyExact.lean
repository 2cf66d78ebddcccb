import Verif.Sync.ApplyProps

/-!
# C15 exactly: what a flush does with any change set, and when that is what was asked for

`C15_apply_partial` has a condition on changes that move a row or insert over one.  Here the result is determined without that
condition, and the condition under which it is right is shown to be necessary.
-/

namespace Seafowl.Sync

variable {pks full : List String} {S : Schema}

/-- The effect of normalised changes, change by change, without a condition on them. -/
theorem applySpec_cases (hS : SchemaOk pks S) {T : Table} {rows : List Row} {ns : List NRow}
    (hw : WholeKeys pks rows) (hd : FirstDecides pks S rows)
    (hnews : (rows.map (changeOf pks S)).Pairwise (fun a b => a.new ≠ none → a.new ≠ b.new))
    (h : normalize S rows = some ns) :
    (∀ r ∈ rows, ∀ k, (changeOf pks S r).new = some k →
      applySpec pks full S T ns k = some (write full ((T k).getD nullRow) (changeOf pks S r).set)) ∧
    (∀ k, (∀ r ∈ rows, (changeOf pks S r).new ≠ some k) → (∃ r ∈ rows, (changeOf pks S r).old = some k) →
      applySpec pks full S T ns k = none) ∧
    (∀ k, (∀ r ∈ rows, (changeOf pks S r).new ≠ some k) → (∀ r ∈ rows, (changeOf pks S r).old ≠ some k) →
      applySpec pks full S T ns k = T k) := by
  have hu := normalize_upsertsOk hS hw hd hnews h
  have hmem : ∀ s, s ∈ ns ↔ ∃ r ∈ rows, ((changeOf pks S r).old ≠ none ∧
      (changeOf pks S r).old ≠ (changeOf pks S r).new ∧ s = deleteOf r) ∨
      ((changeOf pks S r).new ≠ none ∧ s = upsertOf r) := by
    intro s; rw [normalize_eq hS hw hd h]; exact mem_normalized
  refine ⟨?_, ?_, ?_⟩
  · intro r hr k hk
    have hne : (changeOf pks S r).new ≠ none := by rw [hk]; simp
    have hkey : nkey pks (upsertOf r) = k := by
      have := nkey_upsert hne; rw [hk] at this; injection this with this; exact this.symm
    have hin : upsertOf r ∈ ns := (hmem _).2 ⟨r, hr, Or.inr ⟨hne, rfl⟩⟩
    simp only [applySpec]
    cases hf : ns.find? (fun s => s.upsert && decide (nkey pks s = k)) with
    | none =>
      rw [List.find?_eq_none] at hf
      have := hf _ hin
      have hu1 : (upsertOf r).upsert = true := rfl
      simp [hkey, hu1] at this
    | some s =>
      have hs := List.mem_of_find?_eq_some hf
      have hp := List.find?_some hf
      simp only [Bool.and_eq_true, decide_eq_true_eq] at hp
      have : s = upsertOf r := hu.unique hs hin hp.1 rfl (by rw [hp.2, hkey])
      subst this
      simp only [nset_upsert]
  · rintro k hk ⟨r, hr, hck⟩
    have hno : (changeOf pks S r).old ≠ none := by rw [hck]; simp
    have hne : (changeOf pks S r).old ≠ (changeOf pks S r).new := by
      rw [hck]; exact fun he => hk r hr he.symm
    have hkey : nkey pks (deleteOf r) = k := by
      have := nkey_delete hno; rw [hck] at this; injection this with this; exact this.symm
    have hin : deleteOf r ∈ ns := (hmem _).2 ⟨r, hr, Or.inl ⟨hno, hne, rfl⟩⟩
    simp only [applySpec]
    have hf : ns.find? (fun s => s.upsert && decide (nkey pks s = k)) = none := by
      rw [List.find?_eq_none]
      intro s hs
      simp only [Bool.and_eq_true, decide_eq_true_eq, not_and]
      intro hus he
      obtain ⟨r', hr', ⟨_, _, rfl⟩ | ⟨h1, rfl⟩⟩ := (hmem s).1 hs
      · cases hus
      · exact hk r' hr' (by rw [nkey_upsert h1, he])
    rw [hf]
    simp only
    rw [if_pos]
    rw [List.any_eq_true]
    have hd1 : (deleteOf r).upsert = false := rfl
    exact ⟨_, hin, by simp [hkey, hd1]⟩
  · intro k hk hko
    simp only [applySpec]
    have hf : ns.find? (fun s => s.upsert && decide (nkey pks s = k)) = none := by
      rw [List.find?_eq_none]
      intro s hs
      simp only [Bool.and_eq_true, decide_eq_true_eq, not_and]
      intro hus he
      obtain ⟨r', hr', ⟨_, _, rfl⟩ | ⟨h1, rfl⟩⟩ := (hmem s).1 hs
      · cases hus
      · exact hk r' hr' (by rw [nkey_upsert h1, he])
    rw [hf]
    simp only
    rw [if_neg]
    rw [List.any_eq_true]
    rintro ⟨s, hs, hp⟩
    simp only [Bool.and_eq_true, decide_eq_true_eq] at hp
    obtain ⟨r', hr', ⟨h1, _, rfl⟩ | ⟨_, rfl⟩⟩ := (hmem s).1 hs
    · exact hko r' hr' (by rw [nkey_delete h1, hp.2])
    · simp [upsertOf] at hp

/-- **C15 (exactly).** What flushing a change set does to a table with a primary key, if keys are given in full or not at all, no
two changes write the same key, and an update that changes the key changes the first key column:
* the row of a written key has the values set by the change, and for the other columns the values *stored under the new key*
  (NULL if there is no such row) — not those of the row with the old key;
* a key that a change deletes or moves away from, and that no change writes, has no row;
* the other rows are the stored ones. -/
theorem C15_exact (hS : SchemaOk pks S) (hpf : ∀ n ∈ pks, n ∈ full) (base out : List TRow)
    (hb : Keyed pks full base) (rows : List Row) (hw : WholeKeys pks rows) (hd : FirstDecides pks S rows)
    (hnews : (rows.map (changeOf pks S)).Pairwise (fun a b => a.new ≠ none → a.new ≠ b.new))
    (h : flushRows full [(S, rows)] base = some out) :
    Keyed pks full out ∧
    (∀ r ∈ rows, ∀ k, (changeOf pks S r).new = some k →
      ∃ o, tableOf pks out k = some o ∧ ∀ c ∈ full, o c = match (changeOf pks S r).set c with
        | some v => v
        | none => match base.find? (fun b => tkey pks b = k) with
          | some b => b c
          | none => none) ∧
    (∀ k, (∀ r ∈ rows, (changeOf pks S r).new ≠ some k) → (∃ r ∈ rows, (changeOf pks S r).old = some k) →
      tableOf pks out k = none) ∧
    (∀ k, (∀ r ∈ rows, (changeOf pks S r).new ≠ some k) → (∀ r ∈ rows, (changeOf pks S r).old ≠ some k) →
      tableOf pks out k = tableOf pks base k) := by
  obtain ⟨ns, hns, rfl⟩ := flushRows_one h
  have hu := normalize_upsertsOk hS hw hd hnews hns
  obtain ⟨h1, h2, h3⟩ := applySpec_cases (full := full) (T := tableOf pks base) hS hw hd hnews hns
  rw [tableOf_applySyncs hS hpf hb hu]
  refine ⟨applySyncs_keyed hS hpf hb hu, fun r hr k hk => ⟨_, h1 r hr k hk, fun c hc => ?_⟩, h2, h3⟩
  simp only [write, hc, if_true]
  cases (changeOf pks S r).set c with
  | some v => rfl
  | none =>
    simp only [Option.getD_none, tableOf]
    cases base.find? (fun b => decide (tkey pks b = k)) <;> rfl

/-- **C15 (when it holds).** Under the same conditions the result is the change set applied all at once if *and only if* every
column that a change leaves alone has the same stored value under its new key as under its old one (a missing row counting as
NULLs): the conditions of `C15_apply_partial` cannot be weakened further. -/
theorem C15_iff (hS : SchemaOk pks S) (hpf : ∀ n ∈ pks, n ∈ full) (base out : List TRow)
    (hb : Keyed pks full base) (rows : List Row) (hw : WholeKeys pks rows) (hd : FirstDecides pks S rows)
    (hnews : (rows.map (changeOf pks S)).Pairwise (fun a b => a.new ≠ none → a.new ≠ b.new))
    (h : flushRows full [(S, rows)] base = some out) :
    tableOf pks out = netApply full (tableOf pks base) (rows.map (changeOf pks S)) ↔
    ∀ r ∈ rows, ∀ k, (changeOf pks S r).new = some k → ∀ c ∈ full, (changeOf pks S r).set c = none →
      baseOf (tableOf pks base) (some k) c = baseOf (tableOf pks base) (changeOf pks S r).old c := by
  obtain ⟨ns, hns, rfl⟩ := flushRows_one h
  have hu := normalize_upsertsOk hS hw hd hnews hns
  obtain ⟨h1, h2, h3⟩ := applySpec_cases (full := full) (T := tableOf pks base) hS hw hd hnews hns
  rw [tableOf_applySyncs hS hpf hb hu]
  constructor
  · intro he r hr k hk c hc hset
    have h4 := congrFun he k
    rw [h1 r hr k hk] at h4
    simp only [netApply] at h4
    cases hf : (rows.map (changeOf pks S)).find? (fun ch => decide (ch.new = some k)) with
    | none =>
      rw [List.find?_eq_none] at hf
      exact absurd hk (by simpa using hf _ (List.mem_map.2 ⟨r, hr, rfl⟩))
    | some ch =>
      rw [hf] at h4
      have hm := List.mem_of_find?_eq_some hf
      have hn := List.find?_some hf
      simp only [decide_eq_true_eq] at hn
      obtain ⟨r', hr', rfl⟩ := List.mem_map.1 hm
      have hsame : changeOf pks S r' = changeOf pks S r := by
        have h5 := List.pairwise_iff_getElem.1 (List.pairwise_map.1 hnews)
        obtain ⟨i, hi, rfl⟩ := List.getElem_of_mem hr'
        obtain ⟨j, hj, rfl⟩ := List.getElem_of_mem hr
        rcases Nat.lt_trichotomy i j with hij | hij | hij
        · exact absurd (by rw [hn, hk]) (h5 i j hi hj hij (by rw [hn]; simp))
        · subst hij; rfl
        · exact absurd (by rw [hn, hk]) (h5 j i hj hi hij (by rw [hk]; simp))
      simp only [hsame, Option.some.injEq] at h4
      have h6 := congrFun h4 c
      simpa [write, hc, hset, baseOf] using h6
  · intro hall
    symm
    apply netApply_of
    · intro ch hch k hk
      obtain ⟨r, hr, rfl⟩ := List.mem_map.1 hch
      rw [h1 r hr k hk]
      congr 1
      funext c
      simp only [write]
      split
      · next hc =>
        cases hset : (changeOf pks S r).set c with
        | some v => rfl
        | none => simpa [baseOf] using hall r hr k hk c hc hset
      · rfl
    · rintro k hk ⟨ch, hch, hck⟩
      obtain ⟨r, hr, rfl⟩ := List.mem_map.1 hch
      exact h2 k (fun r' hr' => hk _ (List.mem_map.2 ⟨r', hr', rfl⟩)) ⟨r, hr, hck⟩
    · intro k hk hko
      exact h3 k (fun r' hr' => hk _ (List.mem_map.2 ⟨r', hr', rfl⟩)) (fun r' hr' => hko _ (List.mem_map.2 ⟨r', hr', rfl⟩))

/-- **C15 is violated by every update** that moves a row to a key that is not in the table and leaves a column alone in which the
row has a value: in the new row the column is NULL. -/
theorem C15_violated_partial_move_always (hS : SchemaOk pks S) (hpf : ∀ n ∈ pks, n ∈ full) (base out : List TRow)
    (hb : Keyed pks full base) (rows : List Row) (hw : WholeKeys pks rows) (hd : FirstDecides pks S rows)
    (hnews : (rows.map (changeOf pks S)).Pairwise (fun a b => a.new ≠ none → a.new ≠ b.new))
    (h : flushRows full [(S, rows)] base = some out)
    (r : Row) (hr : r ∈ rows) (k k' : Key) (hold : (changeOf pks S r).old = some k) (hnew : (changeOf pks S r).new = some k')
    (b : TRow) (hbk : tableOf pks base k = some b) (hfree : tableOf pks base k' = none)
    (c : String) (hc : c ∈ full) (hset : (changeOf pks S r).set c = none) (hv : b c ≠ none) :
    (∃ o, tableOf pks out k' = some o ∧ o c = none) ∧
    (∃ o, netApply full (tableOf pks base) (rows.map (changeOf pks S)) k' = some o ∧ o c = b c) ∧
    tableOf pks out ≠ netApply full (tableOf pks base) (rows.map (changeOf pks S)) := by
  suffices hboth : (∃ o, tableOf pks out k' = some o ∧ o c = none) ∧
      (∃ o, netApply full (tableOf pks base) (rows.map (changeOf pks S)) k' = some o ∧ o c = b c) by
    refine ⟨hboth.1, hboth.2, fun he => ?_⟩
    obtain ⟨⟨o, ho, hon⟩, o', ho', hob⟩ := hboth
    rw [he, ho'] at ho
    injection ho with ho
    subst ho
    rw [hon] at hob
    exact hv hob.symm
  obtain ⟨-, h1, -, -⟩ := C15_exact hS hpf base out hb rows hw hd hnews h
  obtain ⟨o, ho, hcols⟩ := h1 r hr k' hnew
  refine ⟨⟨o, ho, ?_⟩, ?_⟩
  · have := hcols c hc
    rw [hset] at this
    simp only [tableOf] at hfree
    simpa [hfree] using this
  · simp only [netApply]
    cases hf : (rows.map (changeOf pks S)).find? (fun ch => decide (ch.new = some k')) with
    | none =>
      rw [List.find?_eq_none] at hf
      exact absurd hnew (by simpa using hf _ (List.mem_map.2 ⟨r, hr, rfl⟩))
    | some ch =>
      have hm := List.mem_of_find?_eq_some hf
      have hn := List.find?_some hf
      simp only [decide_eq_true_eq] at hn
      obtain ⟨r', hr', rfl⟩ := List.mem_map.1 hm
      have hsame : changeOf pks S r' = changeOf pks S r := by
        have h5 := List.pairwise_iff_getElem.1 (List.pairwise_map.1 hnews)
        obtain ⟨i, hi, rfl⟩ := List.getElem_of_mem hr'
        obtain ⟨j, hj, rfl⟩ := List.getElem_of_mem hr
        rcases Nat.lt_trichotomy i j with hij | hij | hij
        · exact absurd (by rw [hn, hnew]) (h5 i j hi hj hij (by rw [hn]; simp))
        · subst hij; rfl
        · exact absurd (by rw [hn, hnew]) (h5 j i hj hi hij (by rw [hnew]; simp))
      refine ⟨_, rfl, ?_⟩
      simp [hsame, write, hc, hset, hold, baseOf, hbk]

/-- **C15 is violated by every update** of a key that leaves the first key column alone: if no change of the set writes the old
key, and none deletes it or moves it by its first column, the row stays in the table as it was, next to the new one. -/
theorem C15_violated_second_key_column_always (n : String) (hn : pks.head? = some n) (hS : SchemaOk pks S)
    (base out : List TRow) (hb : Keyed pks full base) (rows : List Row)
    (h : flushRows full [(S, rows)] base = some out)
    (b : TRow) (hbm : b ∈ base)
    (hnowrite : ∀ r ∈ rows, pks.map (fun c => r ⟨.newPk, c⟩) ≠ tkey pks b)
    (hfirst : ∀ r ∈ rows, pks.map (fun c => r ⟨.oldPk, c⟩) = tkey pks b → r ⟨.oldPk, n⟩ = r ⟨.newPk, n⟩) :
    b ∈ out := by
  obtain ⟨ns, hns, rfl⟩ := flushRows_one h
  rw [mem_applySyncs hS hb]
  refine Or.inr (Or.inl ⟨hbm, ?_⟩)
  simp only [normalize, hS.oldPk, hn, Option.some.injEq] at hns
  subst hns
  intro s hs
  simp only [List.mem_flatMap, List.mem_filter] at hs
  obtain ⟨r, ⟨hr, -⟩, hs⟩ := hs
  have hnm : n ∈ pks := by
    cases pks with
    | nil => simp at hn
    | cons a as => simp at hn; simp [hn]
  have hdel : ∀ s' : NRow, s'.pk = (fun c => r ⟨.oldPk, c⟩) → r ⟨.oldPk, n⟩ ≠ r ⟨.newPk, n⟩ → tkey pks b ≠ nkey pks s' := by
    intro s' hpk hne he
    exact hne (hfirst r hr (by rw [he, nkey, hpk]))
  have hup : ∀ s' : NRow, s'.pk = (fun c => r ⟨.newPk, c⟩) → tkey pks b ≠ nkey pks s' := by
    intro s' hpk he
    exact hnowrite r hr (by rw [he, nkey, hpk])
  simp only [normRow] at hs
  split at hs
  · simp only [List.mem_singleton] at hs; subst hs; exact hup _ rfl
  · split at hs
    · simp only [List.mem_singleton] at hs; subst hs; exact hup _ rfl
    · split at hs
      · next hc =>
        simp only [Bool.and_eq_true, decide_eq_true_eq] at hc
        simp only [List.mem_cons, List.not_mem_nil, or_false] at hs
        rcases hs with rfl | rfl
        · exact hdel _ rfl hc.2
        · exact hup _ rfl
      · next h1 h2 h3 =>
        simp only [List.mem_singleton] at hs; subst hs
        intro he
        have hkey : pks.map (fun c => r ⟨.oldPk, c⟩) = tkey pks b := he.symm
        have hsome : (r ⟨.oldPk, n⟩).isSome := by
          have := hb.nonnull b hbm n hnm
          have h5 := List.map_inj_left.1 hkey n hnm
          rw [h5]; exact this
        have hw := hfirst r hr hkey
        rw [← hw] at h2
        simp [hsome] at h2

open SqDemo ApDemo in
/-- The violations occur: a row with key (1, 1) moved to (1, 2), … -/
example : ∃ out, flushRows ["a", "b", "v"] [(S4, move4)] base4 = some out ∧
    (out.map (fun r => [r "a", r "b", r "v"])) = [[i 1, i 1, i 10], [i 1, i 2, i 11]] := by
  exact ⟨_, rfl, by decide⟩

open SqDemo ApDemo in
/-- … and a row moved from 1 to 5 without setting `v`. -/
example : ((flushRows ["id", "v"] [(S1, [r1 (i 1) (i 5) none (t false)])] base).map
      (fun out => out.map (fun r => [r "id", r "v"]))) = some [[i 2, i 20], [i 5, none]] := by decide

end Seafowl.Sync
