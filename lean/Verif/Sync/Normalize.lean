import Verif.Sync.Apply

/-!
# Normalised changes and the meaning of a change set (lemmas for C15)
-/

namespace Seafowl.Sync

variable {pks full : List String} {S : Schema}

/-- Every old and every new key is either given in full or absent in full. -/
def WholeKeys (pks : List String) (rows : List Row) : Prop :=
  ∀ r ∈ rows, ((∀ n ∈ pks, r ⟨.oldPk, n⟩ = none) ∨ (∀ n ∈ pks, (r ⟨.oldPk, n⟩).isSome)) ∧
    ((∀ n ∈ pks, r ⟨.newPk, n⟩ = none) ∨ (∀ n ∈ pks, (r ⟨.newPk, n⟩).isSome))

/-- An update that changes the key changes the first key column.  (Trivial for one key column.) -/
def FirstDecides (pks : List String) (S : Schema) (rows : List Row) : Prop :=
  ∀ r ∈ rows, ∀ n, pks.head? = some n → r ⟨.oldPk, n⟩ = r ⟨.newPk, n⟩ →
    (changeOf pks S r).old = (changeOf pks S r).new

/-- The upsert made from a row. -/
def upsertOf (r : Row) : NRow := { pk := fun c => r ⟨.newPk, c⟩, val := r, upsert := true }
/-- The delete marker made from a row. -/
def deleteOf (r : Row) : NRow := { pk := fun c => r ⟨.oldPk, c⟩, val := r, upsert := false }

theorem toKey_whole {f : String → Cell} {n : String} (hn : pks.head? = some n)
    (h : (∀ n ∈ pks, f n = none) ∨ (∀ n ∈ pks, (f n).isSome)) :
    (f n = none ↔ toKey (pks.map f) = none) ∧ (f n ≠ none ↔ toKey (pks.map f) = some (pks.map f)) := by
  have hm : n ∈ pks := by
    cases pks with
    | nil => simp at hn
    | cons a as => simp at hn; simp [hn]
  rcases h with h | h
  · have h1 : toKey (pks.map f) = none := by
      rw [toKey_eq_none]; intro c hc; obtain ⟨m, hm', rfl⟩ := List.mem_map.1 hc; exact h m hm'
    simp [h1, h n hm]
  · have h1 : f n ≠ none := by
      intro h2; have := h n hm; rw [h2] at this; simp at this
    have h2 : toKey (pks.map f) = some (pks.map f) := by
      rw [toKey_eq_some]; exact ⟨rfl, f n, List.mem_map.2 ⟨n, hm, rfl⟩, h1⟩
    simp [h1, h2]

theorem normRow_eq {n : String} (hn : pks.head? = some n) {r : Row}
    (hw : ((∀ n ∈ pks, r ⟨.oldPk, n⟩ = none) ∨ (∀ n ∈ pks, (r ⟨.oldPk, n⟩).isSome)) ∧
      ((∀ n ∈ pks, r ⟨.newPk, n⟩ = none) ∨ (∀ n ∈ pks, (r ⟨.newPk, n⟩).isSome)))
    (hd : r ⟨.oldPk, n⟩ = r ⟨.newPk, n⟩ → (changeOf pks S r).old = (changeOf pks S r).new) :
    (if (!((r ⟨.oldPk, n⟩).isNone && (r ⟨.newPk, n⟩).isNone)) = true then normRow n r else []) =
      (if (changeOf pks S r).old ≠ none ∧ (changeOf pks S r).old ≠ (changeOf pks S r).new then [deleteOf r] else []) ++
      (if (changeOf pks S r).new ≠ none then [upsertOf r] else []) := by
  have ho := toKey_whole (f := fun n => r ⟨.oldPk, n⟩) hn hw.1
  have hw' := toKey_whole (f := fun n => r ⟨.newPk, n⟩) hn hw.2
  have hco : (changeOf pks S r).old = toKey (pks.map (fun n => r ⟨.oldPk, n⟩)) := rfl
  have hcn : (changeOf pks S r).new = toKey (pks.map (fun n => r ⟨.newPk, n⟩)) := rfl
  have hm : n ∈ pks := by
    cases pks with
    | nil => simp at hn
    | cons a as => simp at hn; simp [hn]
  have hne : r ⟨.oldPk, n⟩ ≠ r ⟨.newPk, n⟩ → (changeOf pks S r).old ≠ none →
      (changeOf pks S r).old ≠ (changeOf pks S r).new := by
    intro h1 h2 h3
    rw [hco] at h2 h3
    rw [hcn] at h3
    cases hk : toKey (pks.map (fun n => r ⟨.oldPk, n⟩)) with
    | none => exact h2 hk
    | some k =>
      have h4 := (toKey_eq_some.1 hk).1
      rw [hk] at h3
      have h5 := (toKey_eq_some.1 h3.symm).1
      rw [← h5] at h4
      exact h1 (List.map_inj_left.1 h4 n hm)
  by_cases h1 : r ⟨.oldPk, n⟩ = none
  · have h1' : (changeOf pks S r).old = none := ho.1.1 h1
    by_cases h2 : r ⟨.newPk, n⟩ = none
    · have h2' : (changeOf pks S r).new = none := hw'.1.1 h2
      simp [h1, h2, h1', h2']
    · have h2' : (changeOf pks S r).new ≠ none := by
        rw [hcn, hw'.2.1 h2]; simp
      have h2'' : (r ⟨.newPk, n⟩).isSome = true := by
        cases h : r ⟨.newPk, n⟩ <;> simp_all
      have h2n : (r ⟨.newPk, n⟩).isNone = false := by
        cases h : r ⟨.newPk, n⟩ <;> simp_all
      simp [h1, h1', h2', h2'', h2n, normRow, upsertOf]
  · have h1' : (changeOf pks S r).old ≠ none := by
      rw [hco, ho.2.1 h1]; simp
    have h1'' : (r ⟨.oldPk, n⟩).isSome = true := by
      cases h : r ⟨.oldPk, n⟩ <;> simp_all
    have h1n : (r ⟨.oldPk, n⟩).isNone = false := by
      cases h : r ⟨.oldPk, n⟩ <;> simp_all
    by_cases h2 : r ⟨.newPk, n⟩ = none
    · have h2' : (changeOf pks S r).new = none := hw'.1.1 h2
      have h3 : (r ⟨.newPk, n⟩).isSome = false := by simp [h2]
      simp [h1'', h1n, h3, h2', h1', normRow, deleteOf]
    · have h2' : (changeOf pks S r).new ≠ none := by
        rw [hcn, hw'.2.1 h2]; simp
      have h2'' : (r ⟨.newPk, n⟩).isSome = true := by
        cases h : r ⟨.newPk, n⟩ <;> simp_all
      by_cases h3 : r ⟨.oldPk, n⟩ = r ⟨.newPk, n⟩
      · have h4 := hd h3
        have h5 : (r ⟨.newPk, n⟩).isNone = false := by rw [← h3]; exact h1n
        simp [h3, h2'', h5, h4, h2', normRow, upsertOf]
      · have h4 := hne h3 h1'
        simp [h1'', h1n, h2'', h3, h4, h1', h2', normRow, upsertOf, deleteOf]

/-- The normalised changes, row by row. -/
theorem normalize_eq (hS : SchemaOk pks S) {rows : List Row} {ns : List NRow} (hw : WholeKeys pks rows)
    (hd : FirstDecides pks S rows) (h : normalize S rows = some ns) :
    ns = rows.flatMap (fun r =>
      (if (changeOf pks S r).old ≠ none ∧ (changeOf pks S r).old ≠ (changeOf pks S r).new then [deleteOf r] else []) ++
      (if (changeOf pks S r).new ≠ none then [upsertOf r] else [])) := by
  simp only [normalize, hS.oldPk] at h
  split at h
  · cases h
  · next n hn =>
    injection h with h
    subst h
    induction rows with
    | nil => rfl
    | cons r rest ih =>
      have h1 := normRow_eq (S := S) hn (hw r (by simp)) (hd r (by simp) n hn)
      rw [List.flatMap_cons, ← h1, ← ih (fun r' h' => hw r' (by simp [h'])) (fun r' h' => hd r' (by simp [h']))]
      rw [List.filter_cons]
      split
      · rw [List.flatMap_cons]
      · rfl

theorem mem_normalized {rows : List Row} {s : NRow} :
    (s ∈ rows.flatMap (fun r =>
      (if (changeOf pks S r).old ≠ none ∧ (changeOf pks S r).old ≠ (changeOf pks S r).new then [deleteOf r] else []) ++
      (if (changeOf pks S r).new ≠ none then [upsertOf r] else []))) ↔
    ∃ r ∈ rows, ((changeOf pks S r).old ≠ none ∧ (changeOf pks S r).old ≠ (changeOf pks S r).new ∧ s = deleteOf r) ∨
      ((changeOf pks S r).new ≠ none ∧ s = upsertOf r) := by
  simp only [List.mem_flatMap, List.mem_append]
  constructor
  · rintro ⟨r, hr, h | h⟩
    · split at h
      · next hc => exact ⟨r, hr, Or.inl ⟨hc.1, hc.2, by simpa using h⟩⟩
      · cases h
    · split at h
      · next hc => exact ⟨r, hr, Or.inr ⟨hc, by simpa using h⟩⟩
      · cases h
  · rintro ⟨r, hr, ⟨h1, h2, rfl⟩ | ⟨h1, rfl⟩⟩
    · exact ⟨r, hr, Or.inl (by rw [if_pos ⟨h1, h2⟩]; simp)⟩
    · exact ⟨r, hr, Or.inr (by rw [if_pos h1]; simp)⟩

theorem nkey_upsert {r : Row} (h : (changeOf pks S r).new ≠ none) :
    (changeOf pks S r).new = some (nkey pks (upsertOf r)) := by
  cases hk : (changeOf pks S r).new with
  | none => exact absurd hk h
  | some k => simp only [changeOf] at hk; rw [← (toKey_eq_some.1 hk).1]; rfl

theorem nkey_delete {r : Row} (h : (changeOf pks S r).old ≠ none) :
    (changeOf pks S r).old = some (nkey pks (deleteOf r)) := by
  cases hk : (changeOf pks S r).old with
  | none => exact absurd hk h
  | some k => simp only [changeOf] at hk; rw [← (toKey_eq_some.1 hk).1]; rfl

theorem nset_upsert (r : Row) : nset pks S (upsertOf r) = (changeOf pks S r).set := rfl

theorem normalize_upsertsOk (hS : SchemaOk pks S) {rows : List Row} {ns : List NRow}
    (hw : WholeKeys pks rows) (hd : FirstDecides pks S rows)
    (hnews : (rows.map (changeOf pks S)).Pairwise (fun a b => a.new ≠ none → a.new ≠ b.new))
    (h : normalize S rows = some ns) : UpsertsOk pks ns := by
  rw [normalize_eq hS hw hd h]
  constructor
  · intro s hs hu n hn
    obtain ⟨r, hr, ⟨_, _, rfl⟩ | ⟨h1, rfl⟩⟩ := mem_normalized.1 hs
    · cases hu
    · rcases (hw r hr).2 with h2 | h2
      · exfalso
        apply h1
        simp only [changeOf]
        rw [toKey_eq_none]
        intro c hc
        obtain ⟨m, hm, rfl⟩ := List.mem_map.1 hc
        exact h2 m hm
      · exact h2 n hn
  · rw [List.pairwise_flatMap]
    constructor
    · intro r _
      split <;> split <;> simp [deleteOf]
    · rw [List.pairwise_map] at hnews
      refine hnews.imp ?_
      intro a b hab x hx y hy hux huy he
      have hx' : (changeOf pks S a).new ≠ none ∧ x = upsertOf a := by
        rcases List.mem_append.1 hx with h1 | h1
        · split at h1
          · simp only [List.mem_singleton] at h1; subst h1; cases hux
          · cases h1
        · split at h1
          · next hc => exact ⟨hc, by simpa using h1⟩
          · cases h1
      have hy' : (changeOf pks S b).new ≠ none ∧ y = upsertOf b := by
        rcases List.mem_append.1 hy with h1 | h1
        · split at h1
          · simp only [List.mem_singleton] at h1; subst h1; cases huy
          · cases h1
        · split at h1
          · next hc => exact ⟨hc, by simpa using h1⟩
          · cases h1
      apply hab hx'.1
      rw [nkey_upsert hx'.1, nkey_upsert hy'.1, ← hx'.2, ← hy'.2, he]

/-- A change whose result does not depend on which stored row it starts from: it keeps the key, or it
sets all columns, or it inserts under a key that is not in the table. -/
def Direct (full : List String) (T : Table) (ch : Change) : Prop :=
  ∀ k, ch.new = some k → ch.old = some k ∨ (∀ c ∈ full, ch.set c ≠ none) ∨ (ch.old = none ∧ T k = none)

/-- The normalised changes have the effect of the change set. -/
theorem applySpec_normalize (hS : SchemaOk pks S) {T : Table} {rows : List Row} {ns : List NRow}
    (hw : WholeKeys pks rows) (hd : FirstDecides pks S rows)
    (hnews : (rows.map (changeOf pks S)).Pairwise (fun a b => a.new ≠ none → a.new ≠ b.new))
    (hdir : ∀ r ∈ rows, Direct full T (changeOf pks S r))
    (h : normalize S rows = some ns) :
    applySpec pks full S T ns = netApply full T (rows.map (changeOf pks S)) := by
  have hu := normalize_upsertsOk hS hw hd hnews h
  have hmem : ∀ s, s ∈ ns ↔ ∃ r ∈ rows, ((changeOf pks S r).old ≠ none ∧
      (changeOf pks S r).old ≠ (changeOf pks S r).new ∧ s = deleteOf r) ∨
      ((changeOf pks S r).new ≠ none ∧ s = upsertOf r) := by
    intro s; rw [normalize_eq hS hw hd h]; exact mem_normalized
  symm
  apply netApply_of
  · intro ch hch k hk
    obtain ⟨r, hr, rfl⟩ := List.mem_map.1 hch
    have hne : (changeOf pks S r).new ≠ none := by rw [hk]; simp
    have hkey : nkey pks (upsertOf r) = k := by
      have := nkey_upsert hne; rw [hk] at this; injection this with this; exact this.symm
    have hin : upsertOf r ∈ ns := (hmem _).2 ⟨r, hr, Or.inr ⟨hne, rfl⟩⟩
    simp only [applySpec]
    cases hf : ns.find? (fun s => s.upsert && decide (nkey pks s = k)) with
    | none =>
      rw [List.find?_eq_none] at hf
      have := hf _ hin
      have hu1 : (upsertOf r).upsert = true := rfl
      simp [hkey, hu1] at this
    | some s =>
      have hs := List.mem_of_find?_eq_some hf
      have hp := List.find?_some hf
      simp only [Bool.and_eq_true, decide_eq_true_eq] at hp
      have : s = upsertOf r := hu.unique hs hin hp.1 rfl (by rw [hp.2, hkey])
      subst this
      simp only [nset_upsert]
      congr 1
      funext c
      simp only [write]
      split
      · next hc =>
        rcases hdir r hr k hk with h1 | h1 | ⟨h1, h2⟩
        · rw [h1]; rfl
        · cases hset : (changeOf pks S r).set c with
          | none => exact absurd hset (h1 c hc)
          | some v => rfl
        · rw [h1, h2]; rfl
      · rfl
  · rintro k hk ⟨ch, hch, hck⟩
    obtain ⟨r, hr, rfl⟩ := List.mem_map.1 hch
    have hno : (changeOf pks S r).old ≠ none := by rw [hck]; simp
    have hne : (changeOf pks S r).old ≠ (changeOf pks S r).new := by
      rw [hck]; exact fun he => hk _ hch he.symm
    have hkey : nkey pks (deleteOf r) = k := by
      have := nkey_delete hno; rw [hck] at this; injection this with this; exact this.symm
    have hin : deleteOf r ∈ ns := (hmem _).2 ⟨r, hr, Or.inl ⟨hno, hne, rfl⟩⟩
    simp only [applySpec]
    have hf : ns.find? (fun s => s.upsert && decide (nkey pks s = k)) = none := by
      rw [List.find?_eq_none]
      intro s hs
      simp only [Bool.and_eq_true, decide_eq_true_eq, not_and]
      intro hus he
      obtain ⟨r', hr', ⟨_, _, rfl⟩ | ⟨h1, rfl⟩⟩ := (hmem s).1 hs
      · cases hus
      · exact hk _ (List.mem_map.2 ⟨r', hr', rfl⟩) (by rw [nkey_upsert h1, he])
    rw [hf]
    simp only
    rw [if_pos]
    rw [List.any_eq_true]
    have hd1 : (deleteOf r).upsert = false := rfl
    exact ⟨_, hin, by simp [hkey, hd1]⟩
  · intro k hk hko
    simp only [applySpec]
    have hf : ns.find? (fun s => s.upsert && decide (nkey pks s = k)) = none := by
      rw [List.find?_eq_none]
      intro s hs
      simp only [Bool.and_eq_true, decide_eq_true_eq, not_and]
      intro hus he
      obtain ⟨r', hr', ⟨_, _, rfl⟩ | ⟨h1, rfl⟩⟩ := (hmem s).1 hs
      · cases hus
      · exact hk _ (List.mem_map.2 ⟨r', hr', rfl⟩) (by rw [nkey_upsert h1, he])
    rw [hf]
    simp only
    rw [if_neg]
    rw [List.any_eq_true]
    rintro ⟨s, hs, hp⟩
    simp only [Bool.and_eq_true, decide_eq_true_eq] at hp
    obtain ⟨r', hr', ⟨h1, _, rfl⟩ | ⟨_, rfl⟩⟩ := (hmem s).1 hs
    · exact hko _ (List.mem_map.2 ⟨r', hr', rfl⟩) (by rw [nkey_delete h1, hp.2])
    · simp [upsertOf] at hp

end Seafowl.Sync
