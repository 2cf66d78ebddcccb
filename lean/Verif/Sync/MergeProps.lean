import Verif.Sync.MergeProof
import Verif.Sync.ApplyProps

/-!
# Merging items (C14) and the whole flush (C16)
-/

namespace Seafowl.Sync

variable {pks full : List String} {L U : Schema}

/-- A batch of changes with its schema. -/
abbrev SItem := Schema × List Row

/-- The changes of an item. -/
def itemChanges (pks : List String) (it : SItem) : List Change := it.2.map (changeOf pks it.1)

/-- The items applied one after the other, each of them all at once. -/
def applyItems (pks full : List String) (T : Table) (items : List SItem) : Table :=
  items.foldl (fun T it => netApply full T (itemChanges pks it)) T

/-- Each item makes sense when its turn comes. -/
def ValidItems (pks full : List String) : Table → List SItem → Prop
  | _, [] => True
  | T, it :: rest => NetValid T (itemChanges pks it) ∧
      ValidItems pks full (netApply full T (itemChanges pks it)) rest

/-- A change of an item that continues a change of an earlier item sets every column that some
earlier item has.  (Vacuous for insertions, and for items that touch different rows.) -/
def Overwrites (pks : List String) : List SItem → List SItem → Prop
  | _, [] => True
  | before, it :: rest =>
    (∀ u ∈ itemChanges pks it, u.old ≠ none →
      (∀ b ∈ before, ∀ l ∈ itemChanges pks b, l.new ≠ u.old) ∨
      (∀ b ∈ before, ∀ c, Desc.mk .value c ∈ b.1 → u.set c ≠ none)) ∧
    Overwrites pks (before ++ [it]) rest

/-! ### what a merge keeps -/

/-- Key columns of merged rows come from the rows that are merged. -/
theorem merge_keys (hL : SchemaOk pks L) (hU : SchemaOk pks U) {lower upper : List Row}
    {S : Schema} {rows : List Row} (h : mergeSyncs L lower U upper = some (S, rows)) :
    ∀ r ∈ rows, (∃ a, (a ∈ lower ∨ a ∈ upper) ∧ ∀ n ∈ pks, r ⟨.oldPk, n⟩ = a ⟨.oldPk, n⟩) ∧
      (∃ a, (a ∈ lower ∨ a ∈ upper) ∧ ∀ n ∈ pks, r ⟨.newPk, n⟩ = a ⟨.newPk, n⟩) := by
  intro r hr
  simp only [mergeSyncs] at h
  cases ha : appendOnly U upper with
  | none => rw [ha] at h; cases h
  | some b =>
    rw [ha] at h
    cases b with
    | true =>
      simp only [Option.some.injEq] at h
      rw [unionSyncs_eq hL hU] at h
      obtain ⟨rfl, rfl⟩ := Prod.mk.inj h
      rcases List.mem_append.1 hr with hr | hr
      · obtain ⟨l, hl, rfl⟩ := List.mem_map.1 hr
        refine ⟨⟨l, Or.inl hl, ?_⟩, ⟨l, Or.inl hl, ?_⟩⟩ <;> intro n hn
        · simp [unionRowL, (pk_mem hL hU hn).1, unionExpr]
        · simp [unionRowL, (pk_mem hL hU hn).2, unionExpr]
      · obtain ⟨u, hu, rfl⟩ := List.mem_map.1 hr
        refine ⟨⟨u, Or.inr hu, ?_⟩, ⟨u, Or.inr hu, ?_⟩⟩ <;> intro n hn
        · simp [unionRowU, (pk_mem hL hU hn).1, unionExpr]
        · simp [unionRowU, (pk_mem hL hU hn).2, unionExpr]
    | false =>
      simp only [Option.some.injEq] at h
      rw [joinSyncs_eq hL hU] at h
      obtain ⟨rfl, rfl⟩ := Prod.mk.inj h
      obtain ⟨j, hj, rfl⟩ := List.mem_map.1 hr
      simp only [fullJoin, List.mem_append, List.mem_flatMap] at hj
      rcases hj with ⟨u, hu, hj⟩ | hj
      · split at hj
        · obtain ⟨l, hl, rfl⟩ := List.mem_map.1 hj
          have hl := (List.mem_filter.1 hl).1
          refine ⟨⟨l, Or.inl hl, ?_⟩, ⟨u, Or.inr hu, ?_⟩⟩ <;> intro n hn
          · simp [joinRow, (pk_mem hL hU hn).1, joinExpr, joinOldPk, missing, colL]
          · simp [joinRow, (pk_mem hL hU hn).2, joinExpr, joinNewPk, missing, colU]
        · simp only [List.mem_singleton] at hj
          subst hj
          refine ⟨⟨u, Or.inr hu, ?_⟩, ⟨u, Or.inr hu, ?_⟩⟩ <;> intro n hn
          · simp [joinRow, (pk_mem hL hU hn).1, joinExpr, joinOldPk, missing, colU]
          · simp [joinRow, (pk_mem hL hU hn).2, joinExpr, joinNewPk, missing, colU]
      · obtain ⟨l, hl, rfl⟩ := List.mem_map.1 hj
        have hl := (List.mem_filter.1 hl).1
        refine ⟨⟨l, Or.inl hl, ?_⟩, ⟨l, Or.inl hl, ?_⟩⟩ <;> intro n hn
        · simp [joinRow, (pk_mem hL hU hn).1, joinExpr, joinOldPk, missing, colL]
        · simp [joinRow, (pk_mem hL hU hn).2, joinExpr, joinNewPk, missing, colL]

theorem merge_whole (hL : SchemaOk pks L) (hU : SchemaOk pks U) {lower upper : List Row}
    {S : Schema} {rows : List Row} (h : mergeSyncs L lower U upper = some (S, rows))
    (h1 : WholeKeys pks lower) (h2 : WholeKeys pks upper) : WholeKeys pks rows := by
  intro r hr
  obtain ⟨⟨a, ha, hao⟩, ⟨b, hb, hbn⟩⟩ := merge_keys hL hU h r hr
  have ha' := ha.elim (h1 a) (h2 a)
  have hb' := hb.elim (h1 b) (h2 b)
  constructor
  · rcases ha'.1 with h3 | h3
    · left; intro n hn; rw [hao n hn]; exact h3 n hn
    · right; intro n hn; rw [hao n hn]; exact h3 n hn
  · rcases hb'.2 with h3 | h3
    · left; intro n hn; rw [hbn n hn]; exact h3 n hn
    · right; intro n hn; rw [hbn n hn]; exact h3 n hn

theorem merge_schema (hL : SchemaOk pks L) (hU : SchemaOk pks U) {lower upper : List Row}
    {S : Schema} {rows : List Row} (h : mergeSyncs L lower U upper = some (S, rows)) : S = mergedCols L U := by
  simp only [mergeSyncs] at h
  cases ha : appendOnly U upper with
  | none => rw [ha] at h; cases h
  | some b =>
    rw [ha] at h
    cases b with
    | true =>
      simp only [Option.some.injEq] at h
      rw [unionSyncs_eq hL hU] at h
      exact (Prod.mk.inj h).1.symm
    | false =>
      simp only [Option.some.injEq] at h
      rw [joinSyncs_eq hL hU] at h
      exact (Prod.mk.inj h).1.symm

theorem merge_defined (hU : SchemaOk pks U) (hpk : pks ≠ []) (lower upper : List Row) :
    ∃ out, mergeSyncs L lower U upper = some out := by
  simp only [mergeSyncs, appendOnly, hU.oldPk]
  cases hh : pks.head? with
  | none => simp [List.head?_eq_none_iff] at hh; exact absurd hh hpk
  | some n =>
    simp only
    cases upper.all (fun r => (r ⟨.oldPk, n⟩).isNone) <;> exact ⟨_, rfl⟩

/-- Rows set values only in Value columns and key columns. -/
theorem set_value {S : Schema} {r : Row} {c : String} (h : (changeOf pks S r).set c ≠ none) :
    c ∈ pks ∨ Desc.mk .value c ∈ S := by
  by_cases hc : c ∈ pks
  · exact Or.inl hc
  · right
    refine Decidable.byContradiction (fun hv => ?_)
    exact h (by simp [changeOf, hc, hv])

/-- What is known about the merged item after some items. -/
structure MergeInv (pks full : List String) (T : Table) (before : List SItem) (acc : SItem) : Prop where
  ok : SchemaOk pks acc.1
  whole : WholeKeys pks acc.2
  valid : NetValid T (itemChanges pks acc)
  effect : netApply full T (itemChanges pks acc) = applyItems pks full T before
  news : ∀ l ∈ itemChanges pks acc, l.new ≠ none → ∃ b ∈ before, ∃ l' ∈ itemChanges pks b, l'.new = l.new
  values : ∀ c, Desc.mk .value c ∈ acc.1 → ∃ b ∈ before, Desc.mk .value c ∈ b.1

theorem MergeInv.step (hpk : pks ≠ []) {T : Table} {before : List SItem} {acc it acc' : SItem}
    (hi : MergeInv pks full T before acc) (hU : SchemaOk pks it.1) (hw : WholeKeys pks it.2)
    (hv : NetValid (applyItems pks full T before) (itemChanges pks it))
    (hl : Lossless pks acc.1 it.1 acc.2 it.2)
    (h : mergeSyncs acc.1 acc.2 it.1 it.2 = some acc') : MergeInv pks full T (before ++ [it]) acc' := by
  obtain ⟨S, rows⟩ := acc'
  have h2 : NetValid (netApply full T (acc.2.map (changeOf pks acc.1))) (it.2.map (changeOf pks it.1)) := by
    have := hi.effect; simp only [itemChanges] at this; rw [this]; exact hv
  obtain ⟨hS, hnv, heff⟩ := mergeSyncs_effect (full := full) hi.ok hU hpk hw hl hi.valid h2 h
  obtain ⟨_, hp⟩ := mergeSyncs_compose hi.ok hU hpk acc.2 it.2 hw hl h
  refine ⟨hS, merge_whole hi.ok hU h hi.whole hw, hnv, ?_, ?_, ?_⟩
  · have := hi.effect
    simp only [itemChanges] at this ⊢
    rw [heff, this]
    simp [applyItems, itemChanges]
  · intro l hlm hne
    simp only [itemChanges] at hlm
    rcases mem_composeAll.1 (hp.mem_iff.2 hlm) with ⟨u, hu, _, rfl⟩ | ⟨u, hu, l', hl', _, _, rfl⟩ | ⟨hl', _⟩
    · exact ⟨it, by simp, l, hu, rfl⟩
    · exact ⟨it, by simp, u, hu, rfl⟩
    · obtain ⟨b, hb, l2, hl2, he⟩ := hi.news l hl' hne
      exact ⟨b, by simp [hb], l2, hl2, he⟩
  · intro c hc
    have hs := merge_schema hi.ok hU h
    simp only at hc hs
    rw [hs, (cols_about hi.ok hU c).1] at hc
    rcases hc with hc | hc
    · obtain ⟨b, hb, h3⟩ := hi.values c hc
      exact ⟨b, by simp [hb], h3⟩
    · exact ⟨it, by simp, hc⟩

theorem applyItems_append (T : Table) (a b : List SItem) :
    applyItems pks full T (a ++ b) = applyItems pks full (applyItems pks full T a) b := by
  simp [applyItems, List.foldl_append]

theorem mergeAll_inv (hpk : pks ≠ []) {T : Table} : ∀ (rest before : List SItem) (acc : SItem),
    MergeInv pks full T before acc → (∀ it ∈ rest, SchemaOk pks it.1 ∧ WholeKeys pks it.2) →
    ValidItems pks full (applyItems pks full T before) rest → Overwrites pks before rest →
    ∃ out, mergeAll acc rest = some out ∧ MergeInv pks full T (before ++ rest) out := by
  intro rest
  induction rest with
  | nil => intro before acc hi _ _ _; exact ⟨acc, rfl, by simpa using hi⟩
  | cons it rest ih =>
    intro before acc hi hok hv hov
    obtain ⟨hU, hw⟩ := hok it (by simp)
    obtain ⟨acc', ha⟩ := merge_defined (L := acc.1) hU hpk acc.2 it.2
    have hl : Lossless pks acc.1 it.1 acc.2 it.2 := by
      intro u hu l hl hne he c hc
      left
      rcases hov.1 _ (List.mem_map.2 ⟨u, hu, rfl⟩) hne with h1 | h1
      · obtain ⟨b, hb, l', hl', he'⟩ := hi.news _ (List.mem_map.2 ⟨l, hl, rfl⟩) (by rw [← he]; exact hne)
        exact absurd (he'.trans he.symm) (h1 b hb l' hl')
      · rcases set_value hc with h2 | h2
        · simp [changeOf, h2]
        · obtain ⟨b, hb, h3⟩ := hi.values c h2
          exact h1 b hb c h3
    have hi' := hi.step hpk hU hw hv.1 hl ha
    have hv' : ValidItems pks full (applyItems pks full T (before ++ [it])) rest := by
      rw [applyItems_append]; exact hv.2
    obtain ⟨out, h1, h2⟩ := ih (before ++ [it]) acc' hi' (fun it' h' => hok it' (by simp [h'])) hv' hov.2
    refine ⟨out, ?_, by simpa using h2⟩
    simp only [mergeAll, ha, h1]

/-- **C14**, as far as it holds.  Merging any number of items with any columns always succeeds and
gives one item that makes sense on the table, with the effect of the items applied in order, provided
that a change that continues a change of an earlier item sets all columns that the earlier items have. -/
theorem C14_merge_partial (hpk : pks ≠ []) (T : Table) (items : List SItem) (hne : items ≠ [])
    (hok : ∀ it ∈ items, SchemaOk pks it.1 ∧ WholeKeys pks it.2)
    (hv : ValidItems pks full T items) (hov : Overwrites pks [] items) :
    ∃ S rows, squashSyncs items = some (S, rows) ∧ SchemaOk pks S ∧ WholeKeys pks rows ∧
      NetValid T (rows.map (changeOf pks S)) ∧
      netApply full T (rows.map (changeOf pks S)) = applyItems pks full T items := by
  cases items with
  | nil => exact absurd rfl hne
  | cons it rest =>
    have hi : MergeInv pks full T [it] it :=
      ⟨(hok it (by simp)).1, (hok it (by simp)).2, hv.1, rfl, fun l hl _ => ⟨it, by simp, l, hl, rfl⟩,
        fun c hc => ⟨it, by simp, hc⟩⟩
    obtain ⟨out, h1, h2⟩ := mergeAll_inv hpk rest [it] it hi (fun it' h' => hok it' (by simp [h'])) hv.2 hov.2
    exact ⟨out.1, out.2, h1, h2.ok, h2.whole, h2.valid, h2.effect⟩

theorem overwrites_of {items before : List SItem} (P : SItem → Prop) (hP : ∀ it, P it → ∀ u ∈ itemChanges pks it,
      u.old ≠ none → ∀ b, P b → ∀ c, Desc.mk .value c ∈ b.1 → u.set c ≠ none)
    (hb : ∀ b ∈ before, P b) (h : ∀ it ∈ items, P it) : Overwrites pks before items := by
  induction items generalizing before with
  | nil => trivial
  | cons it rest ih =>
    refine ⟨fun u hu ho => Or.inr (fun b hb' => hP it (h it (by simp)) u hu ho b (hb b hb')), ih ?_ ?_⟩
    · intro b hb'
      rcases List.mem_append.1 hb' with h1 | h1
      · exact hb b h1
      · simp only [List.mem_singleton] at h1; subst h1; exact h b (by simp)
    · intro it' h'; exact h it' (by simp [h'])

/-- **C14** for items with the same Value columns and no Changed columns: no condition on the changes. -/
theorem C14_same_columns (hpk : pks ≠ []) (T : Table) (items : List SItem) (hne : items ≠ [])
    (hok : ∀ it ∈ items, SchemaOk pks it.1 ∧ WholeKeys pks it.2) (vals : List String)
    (hvals : ∀ it ∈ items, ∀ c, (Desc.mk .value c ∈ it.1 ↔ c ∈ vals) ∧ Desc.mk .changed c ∉ it.1)
    (hv : ValidItems pks full T items) :
    ∃ S rows, squashSyncs items = some (S, rows) ∧ SchemaOk pks S ∧ WholeKeys pks rows ∧
      NetValid T (rows.map (changeOf pks S)) ∧
      netApply full T (rows.map (changeOf pks S)) = applyItems pks full T items := by
  refine C14_merge_partial hpk T items hne hok hv ?_
  refine overwrites_of (fun it => ∀ c, (Desc.mk .value c ∈ it.1 ↔ c ∈ vals) ∧ Desc.mk .changed c ∉ it.1) ?_
    (by simp) hvals
  intro it hit u hu _ b hb c hc
  obtain ⟨r, _, rfl⟩ := List.mem_map.1 hu
  have h1 := (hit c).1.2 ((hb c).1.1 hc)
  have h2 := (hit c).2
  by_cases hcp : c ∈ pks
  · simp [changeOf, hcp]
  · simp [changeOf, hcp, h1, h2]

/-- **C14** when all items but the first consist of insertions (the `union` case): no condition on the
columns. -/
theorem C14_insertions (hpk : pks ≠ []) (T : Table) (first : SItem) (rest : List SItem)
    (hok : ∀ it ∈ first :: rest, SchemaOk pks it.1 ∧ WholeKeys pks it.2)
    (hins : ∀ it ∈ rest, ∀ u ∈ itemChanges pks it, u.old = none)
    (hv : ValidItems pks full T (first :: rest)) :
    ∃ S rows, squashSyncs (first :: rest) = some (S, rows) ∧ SchemaOk pks S ∧ WholeKeys pks rows ∧
      NetValid T (rows.map (changeOf pks S)) ∧
      netApply full T (rows.map (changeOf pks S)) = applyItems pks full T (first :: rest) := by
  refine C14_merge_partial hpk T _ (by simp) hok hv ⟨fun u _ _ => Or.inl (by simp), ?_⟩
  have : ∀ (rest before : List SItem), (∀ it ∈ rest, ∀ u ∈ itemChanges pks it, u.old = none) →
      Overwrites pks before rest := by
    intro rest
    induction rest with
    | nil => intro _ _; trivial
    | cons it rest ih =>
      intro before h
      exact ⟨fun u hu ho => absurd (h it (by simp) u hu) ho, ih _ (fun it' h' => h it' (by simp [h']))⟩
  exact this rest _ hins

/-- **C14** for two items without Changed columns, whatever their columns are. -/
theorem C14_two_items (hpk : pks ≠ []) (T : Table) (a b : SItem)
    (ha : SchemaOk pks a.1 ∧ WholeKeys pks a.2) (hb : SchemaOk pks b.1 ∧ WholeKeys pks b.2)
    (hca : ∀ c, Desc.mk .changed c ∉ a.1) (hcb : ∀ c, Desc.mk .changed c ∉ b.1)
    (hv : ValidItems pks full T [a, b]) :
    ∃ S rows, squashSyncs [a, b] = some (S, rows) ∧ SchemaOk pks S ∧ WholeKeys pks rows ∧
      NetValid T (rows.map (changeOf pks S)) ∧
      netApply full T (rows.map (changeOf pks S)) = applyItems pks full T [a, b] := by
  obtain ⟨⟨S, rows⟩, hm⟩ := merge_defined (L := a.1) hb.1 hpk a.2 b.2
  have hi : MergeInv pks full T [a] a :=
    ⟨ha.1, ha.2, hv.1, rfl, fun l hl _ => ⟨a, by simp, l, hl, rfl⟩, fun c hc => ⟨a, by simp, hc⟩⟩
  have hl : Lossless pks a.1 b.1 a.2 b.2 := by
    intro u hu l hl hne he c hc
    by_cases hcp : c ∈ pks
    · left; simp [changeOf, hcp]
    · by_cases hvc : Desc.mk .value c ∈ b.1
      · left; simp [changeOf, hcp, hvc, hcb c]
      · exact Or.inr ⟨hvc, hca c⟩
  have h2 := hi.step hpk hb.1 hb.2 hv.2.1 hl hm
  refine ⟨S, rows, ?_, h2.ok, h2.whole, h2.valid, h2.effect⟩
  simp only [squashSyncs, mergeAll, hm]

/-! ### concrete cases -/

namespace MgDemo
open SqDemo

/-- Key `id` and one plain value column. -/
def S5 (c : String) : Schema := [⟨.oldPk, "id"⟩, ⟨.newPk, "id"⟩, ⟨.value, c⟩]
/-- A row for `S5 c`. -/
def r5 (c : String) (o n v : Cell) : Row := row [(⟨.oldPk, "id"⟩, o), (⟨.newPk, "id"⟩, n), (⟨.value, c⟩, v)]

theorem S5_ok (c : String) (h : c ≠ "id") : SchemaOk ["id"] (S5 c) := by
  constructor
  · simp [S5]
  · simp [S5, names]
  · simp [S5, names]
  · intro c' h'; simp [S5] at h'
  · intro c' h'; simp [S5] at h'; simp [h', h]

/-- Three columns, one row. -/
def T5 : Table := fun k =>
  if k = [i 1] then some (trow [("id", i 1), ("c", i 1), ("d", i 2), ("e", i 3)]) else none

/-- An update of `c` and an insertion, then an update of `d` of both rows and a deletion of neither. -/
def twoItems : List SItem :=
  [(S5 "c", [r5 "c" (i 1) (i 1) (i 10), r5 "c" none (i 2) (i 11)]),
   (S5 "d", [r5 "d" (i 1) (i 4) (i 20), r5 "d" (i 2) none none, r5 "d" none (i 1) (i 7)])]

/-- Updates of three different columns of one row. -/
def threeItems : List SItem :=
  [(S5 "c", [r5 "c" (i 1) (i 1) (i 10)]), (S5 "d", [r5 "d" (i 1) (i 1) (i 20)]),
   (S5 "e", [r5 "e" (i 1) (i 1) (i 30)])]

end MgDemo

/-- The keys that are present are pairwise different. -/
def distinctB : List (Option Key) → Bool
  | [] => true
  | none :: l => distinctB l
  | some k :: l => !l.contains (some k) && distinctB l

theorem distinctB_pairwise {f : Change → Option Key} {N : List Change} (h : distinctB (N.map f) = true) :
    N.Pairwise (fun a b => f a ≠ none → f a ≠ f b) := by
  induction N with
  | nil => exact List.Pairwise.nil
  | cons a N ih =>
    simp only [List.map_cons] at h
    cases ha : f a with
    | none =>
      rw [ha] at h
      exact List.Pairwise.cons (fun b _ hn => absurd ha hn) (ih h)
    | some k =>
      rw [ha] at h
      simp only [distinctB, Bool.and_eq_true, Bool.not_eq_true', List.contains_eq_mem, decide_eq_false_iff_not] at h
      refine List.Pairwise.cons (fun b hb _ he => h.1 ?_) (ih h.2)
      rw [← ha, he]
      exact List.mem_map.2 ⟨b, hb, rfl⟩

/-- Validity of a change set as a computation. -/
theorem netValid_of {T : Table} {N : List Change}
    (h1 : distinctB (N.map (·.old)) = true) (h2 : distinctB (N.map (·.new)) = true)
    (h3 : N.all (fun ch => match ch.old with | none => true | some k => (T k).isSome) = true)
    (h4 : N.all (fun ch => match ch.new with
      | none => true | some k => (T k).isNone || N.any (fun ch' => decide (ch'.old = some k))) = true) :
    NetValid T N := by
  refine ⟨distinctB_pairwise h1, distinctB_pairwise h2, ?_, ?_⟩
  · intro ch hch k hk
    have := List.all_eq_true.1 h3 ch hch
    rw [hk] at this; exact this
  · intro ch hch k hk
    have := List.all_eq_true.1 h4 ch hch
    rw [hk] at this
    simp only [Bool.or_eq_true, Option.isNone_iff_eq_none, List.any_eq_true, decide_eq_true_eq] at this
    exact this

open SqDemo MgDemo in
/-- The hypotheses of `C14_two_items` and `C14_merge_partial` can be met. -/
example : ValidItems ["id"] ["id", "c", "d", "e"] T5 twoItems := by
  simp only [twoItems, ValidItems, and_true]
  constructor
  · refine netValid_of ?_ ?_ ?_ ?_ <;> decide
  · refine netValid_of ?_ ?_ ?_ ?_ <;> decide

open SqDemo MgDemo in
example : ((squashSyncs twoItems).map (fun out => out.2.map (fun r => out.1.map r))) =
    some [[i 1, i 4, t true, i 10, t true, i 20], [none, none, t true, i 11, t true, none],
      [none, i 1, t false, none, t true, i 7]] := by decide

open SqDemo MgDemo in
/-- **C14 is violated** by three items that update three different columns of one row: the update of
the first column is lost. -/
theorem C14_violated_three_columns : ∃ (pks full : List String) (T : Table) (items : List SItem) (S : Schema)
    (rows : List Row), (∀ it ∈ items, SchemaOk pks it.1 ∧ WholeKeys pks it.2) ∧ ValidItems pks full T items ∧
    squashSyncs items = some (S, rows) ∧
    netApply full T (rows.map (changeOf pks S)) ≠ applyItems pks full T items := by
  refine ⟨["id"], ["id", "c", "d", "e"], T5, threeItems, _, _, ?_, ?_, rfl, ?_⟩
  · intro it hit
    refine ⟨?_, wholeKeys_single _ _⟩
    simp only [threeItems, List.mem_cons, List.not_mem_nil, or_false] at hit
    rcases hit with rfl | rfl | rfl <;> exact S5_ok _ (by decide)
  · simp only [threeItems, ValidItems, and_true]
    refine ⟨?_, ?_, ?_⟩ <;> refine netValid_of ?_ ?_ ?_ ?_ <;> decide
  · intro h
    have h1 := congrArg (fun T : Table => ((T [i 1]).map (fun r => r "c"))) h
    revert h1
    decide

open SqDemo MgDemo in
/-- **C14 is violated** by two items when the first has a Changed column: its update of `v` is lost
when the second item updates another column of the row. -/
theorem C14_violated_changed_column : ∃ (pks full : List String) (T : Table) (items : List SItem) (S : Schema)
    (rows : List Row), items.length = 2 ∧ (∀ it ∈ items, SchemaOk pks it.1 ∧ WholeKeys pks it.2) ∧
    ValidItems pks full T items ∧ squashSyncs items = some (S, rows) ∧
    netApply full T (rows.map (changeOf pks S)) ≠ applyItems pks full T items := by
  refine ⟨["id"], ["id", "v", "d"], T1, [(S1, [r1 (i 1) (i 1) (i 11) (t true)]), (S5 "d", [r5 "d" (i 1) (i 1) (i 20)])],
    _, _, rfl, ?_, ?_, rfl, ?_⟩
  · intro it hit
    refine ⟨?_, wholeKeys_single _ _⟩
    simp only [List.mem_cons, List.not_mem_nil, or_false] at hit
    rcases hit with rfl | rfl
    · exact S1_ok
    · exact S5_ok _ (by decide)
  · simp only [ValidItems, and_true]
    refine ⟨?_, ?_⟩ <;> refine netValid_of ?_ ?_ ?_ ?_ <;> decide
  · intro h
    have h1 := congrArg (fun T : Table => ((T [i 1]).map (fun r => r "v"))) h
    revert h1
    decide

/-! ### C16 -/

/-- The changes of all items, one by one in order. -/
def allChanges (pks : List String) (items : List SItem) : List Change := items.flatMap (itemChanges pks)

/-- `outs` are the items squashed one by one. -/
inductive SquashedItems : List SItem → List SItem → Prop
  | nil : SquashedItems [] []
  | cons {S : Schema} {rows out : List Row} {items outs : List SItem} : squash S rows = some out →
      SquashedItems items outs → SquashedItems ((S, rows) :: items) ((S, out) :: outs)

theorem SquashedItems.effect {T : Table} {items outs : List SItem} (h : SquashedItems items outs)
    (hok : ∀ it ∈ items, SchemaOk pks it.1 ∧ FlagsAgree pks it.1 it.2)
    (hv : ValidSeq full T (allChanges pks items)) :
    ValidItems pks full T outs ∧ applyItems pks full T outs = replay full T (allChanges pks items) := by
  induction h generalizing T with
  | nil => exact ⟨trivial, rfl⟩
  | @cons S rows out items outs hs hrest ih =>
    simp only [allChanges, List.flatMap_cons] at hv
    rw [validSeq_append] at hv
    obtain ⟨h1, h2⟩ := hok (S, rows) (by simp)
    obtain ⟨h3, h4⟩ := squash_net h1 hv.1 h2 hs
    have h5 := ih (T := netApply full T (out.map (changeOf pks S))) (fun it h' => hok it (by simp [h']))
      (by rw [h4]; exact hv.2)
    refine ⟨⟨h3, h5.1⟩, ?_⟩
    simp only [applyItems, List.foldl_cons, itemChanges]
    have h6 := h5.2
    simp only [applyItems, itemChanges] at h6
    rw [h6, h4]
    simp only [allChanges, List.flatMap_cons, itemChanges]
    rw [replay_append]

theorem SquashedItems.schemas {items outs : List SItem} (h : SquashedItems items outs) (P : Schema → Prop)
    (hP : ∀ it ∈ items, P it.1) : ∀ it ∈ outs, P it.1 := by
  induction h with
  | nil => simp
  | @cons S rows out items outs _ _ ih =>
    intro it hit
    rcases List.mem_cons.1 hit with rfl | hit
    · exact hP (S, rows) (List.mem_cons_self)
    · exact ih (fun it h' => hP it (by simp [h'])) it hit

/-- **C16**, as far as it holds: flushing the squashed items of a table gives the table obtained by
replaying all received changes one by one, under the conditions of C12 (flags), C14 (`Overwrites`) and
C15 (keys and columns of the merged change set). -/
theorem C16_flush_partial (hpk : pks ≠ []) (hpf : ∀ n ∈ pks, n ∈ full) (base out : List TRow)
    (hb : Keyed pks full base) (items outs : List SItem) (hne : items ≠ [])
    (hsq : SquashedItems items outs)
    (hok : ∀ it ∈ items, SchemaOk pks it.1 ∧ FlagsAgree pks it.1 it.2)
    (hv : ValidSeq full (tableOf pks base) (allChanges pks items))
    (hw : ∀ it ∈ outs, WholeKeys pks it.2) (hov : Overwrites pks [] outs)
    (hfd : ∀ S rows, squashSyncs outs = some (S, rows) → FirstDecides pks S rows)
    (hdir : ∀ S rows, squashSyncs outs = some (S, rows) →
      ∀ r ∈ rows, Direct full (tableOf pks base) (changeOf pks S r))
    (h : flushRows full outs base = some out) :
    Keyed pks full out ∧ tableOf pks out = replay full (tableOf pks base) (allChanges pks items) := by
  obtain ⟨h1, h2⟩ := hsq.effect hok hv
  have hok' : ∀ it ∈ outs, SchemaOk pks it.1 ∧ WholeKeys pks it.2 := fun it hit =>
    ⟨hsq.schemas (SchemaOk pks) (fun it h => (hok it h).1) it hit, hw it hit⟩
  have hne' : outs ≠ [] := by
    cases hsq with
    | nil => exact absurd rfl hne
    | cons _ _ => simp
  obtain ⟨S, rows, hs, hS, hwr, hnv, heff⟩ := C14_merge_partial hpk (tableOf pks base) outs hne' hok' h1 hov
  have h3 : flushRows full [(S, rows)] base = some out := by
    have h4 : squashSyncs [(S, rows)] = some (S, rows) := rfl
    simp only [flushRows, hs] at h
    simp only [flushRows, h4]
    exact h
  obtain ⟨h5, h6⟩ := C15_apply_partial hS hpf base out hb rows hwr (hfd S rows hs) hnv.news (hdir S rows hs) h3
  exact ⟨h5, by rw [h6, heff, h2]⟩

/-- Merging keeps the property that there are all columns and no Changed columns. -/
theorem mergeAll_complete {n : String} : ∀ (rest : List SItem) (acc out : SItem),
    SchemaOk [n] acc.1 → (∀ it ∈ rest, SchemaOk [n] it.1) →
    (∀ it ∈ acc :: rest, ∀ c ∈ full, c = n ∨ (Desc.mk .value c ∈ it.1 ∧ Desc.mk .changed c ∉ it.1)) →
    mergeAll acc rest = some out →
    ∀ c ∈ full, c = n ∨ (Desc.mk .value c ∈ out.1 ∧ Desc.mk .changed c ∉ out.1) := by
  intro rest
  induction rest with
  | nil => intro acc out _ _ h he; injection he with he; subst he; exact h acc (by simp)
  | cons it rest ih =>
    intro acc out hA hok h he
    simp only [mergeAll] at he
    split at he
    · cases he
    · next acc' hacc' =>
      have hit := hok it (by simp)
      have hs := merge_schema (S := acc'.1) (rows := acc'.2) hA hit hacc'
      refine ih acc' out (by rw [hs]; exact mergedCols_ok hA hit) (fun it' h' => hok it' (by simp [h'])) ?_ he
      intro it' hit' c hc
      rcases List.mem_cons.1 hit' with rfl | hit'
      · rcases h acc (by simp) c hc with h1 | ⟨h1, h2⟩
        · exact Or.inl h1
        · rcases h it (by simp) c hc with h3 | ⟨h3, h4⟩
          · exact Or.inl h3
          · right
            obtain ⟨hv, hch⟩ := cols_about hA hit c
            rw [hs, hv, hch]
            simp [h1, h2, h3, h4]
      · exact h it' (by simp [hit']) c hc

/-- **C16** for a table with one key column and changes that carry all columns: flushing any number of
squashed items always succeeds and gives exactly the table obtained by replaying all received changes
one by one in order. -/
theorem C16_full_rows (n : String) (hn : n ∈ full) (base : List TRow) (hb : Keyed [n] full base)
    (items outs : List SItem) (hne : items ≠ []) (hsq : SquashedItems items outs)
    (hok : ∀ it ∈ items, SchemaOk [n] it.1 ∧ ∀ c, Desc.mk .changed c ∉ it.1)
    (hall : ∀ it ∈ items, ∀ c, Desc.mk .value c ∈ it.1 ↔ c ∈ full ∧ c ≠ n)
    (hv : ValidSeq full (tableOf [n] base) (allChanges [n] items)) :
    ∃ out, flushRows full outs base = some out ∧ Keyed [n] full out ∧
      tableOf [n] out = replay full (tableOf [n] base) (allChanges [n] items) := by
  have hok1 : ∀ it ∈ items, SchemaOk [n] it.1 ∧ FlagsAgree [n] it.1 it.2 := fun it hit =>
    ⟨(hok it hit).1, fun r _ _ _ c _ hc _ => absurd hc ((hok it hit).2 c)⟩
  have hso := hsq.schemas (fun S => SchemaOk [n] S ∧ (∀ c, Desc.mk .changed c ∉ S) ∧
    ∀ c, Desc.mk .value c ∈ S ↔ c ∈ full ∧ c ≠ n) (fun it hit => ⟨(hok it hit).1, (hok it hit).2, hall it hit⟩)
  have hov : Overwrites [n] [] outs := by
    refine overwrites_of (fun it => SchemaOk [n] it.1 ∧ (∀ c, Desc.mk .changed c ∉ it.1) ∧
      ∀ c, Desc.mk .value c ∈ it.1 ↔ c ∈ full ∧ c ≠ n) ?_ (by simp) hso
    intro it hit u hu _ b hb' c hc
    obtain ⟨r, _, rfl⟩ := List.mem_map.1 hu
    have h1 := (hit.2.2 c).2 ((hb'.2.2 c).1 hc)
    have h2 := hit.2.1 c
    by_cases hcp : c ∈ [n]
    · simp only [changeOf, if_pos hcp]; simp
    · simp only [changeOf, if_neg hcp, if_pos h1, if_neg h2]; simp
  have hdir : ∀ S rows, squashSyncs outs = some (S, rows) →
      ∀ r ∈ rows, Direct full (tableOf [n] base) (changeOf [n] S r) := by
    intro S rows hs r _ k _
    right; left
    cases outs with
    | nil => cases hs
    | cons o outs =>
      have hcomp := mergeAll_complete (full := full) outs o (S, rows) (hso o (by simp)).1
        (fun it h' => (hso it (by simp [h'])).1) (fun it hit c hc => by
          by_cases hcn : c = n
          · exact Or.inl hcn
          · exact Or.inr ⟨((hso it hit).2.2 c).2 ⟨hc, hcn⟩, (hso it hit).2.1 c⟩) hs
      intro c hc
      rcases hcomp c hc with h1 | ⟨h1, h2⟩
      · subst h1; simp [changeOf]
      · by_cases hcp : c ∈ [n]
        · simp only [changeOf, if_pos hcp]; simp
        · simp only at h1 h2
          simp only [changeOf, if_neg hcp, if_pos h1, if_neg h2]; simp
  obtain ⟨h1, _⟩ := hsq.effect hok1 hv
  have hne' : outs ≠ [] := by
    cases hsq with
    | nil => exact absurd rfl hne
    | cons _ _ => simp
  obtain ⟨S, rows, hs, hS, _⟩ := C14_merge_partial (pks := [n]) (by simp) (tableOf [n] base) outs hne'
    (fun it hit => ⟨(hso it hit).1, wholeKeys_single n it.2⟩) h1 hov
  have hdef : ∃ out, flushRows full outs base = some out := by
    simp only [flushRows, hs, normalize, hS.oldPk, List.head?_cons]
    exact ⟨_, rfl⟩
  obtain ⟨out, hout⟩ := hdef
  refine ⟨out, hout, ?_⟩
  exact C16_flush_partial (by simp) (by simp [hn]) base out hb items outs hne hsq hok1 hv
    (fun it _ => wholeKeys_single n it.2) hov (fun S rows _ => firstDecides_single n S rows) hdir hout

open SqDemo ApDemo in
/-- Two items: an insertion that is updated, a deletion; then a key move and a reinsertion. -/
def c16Items : List SItem :=
  [(S3, [r3 none (i 3) (i 30), r3 (i 3) (i 3) (i 31), r3 (i 1) none none]),
   (S3, [r3 (i 3) (i 1) (i 32), r3 none (i 3) (i 33)])]

open SqDemo ApDemo in
example : ValidSeq ["id", "v"] (tableOf ["id"] base) (allChanges ["id"] c16Items) := by
  simp only [c16Items, allChanges, itemChanges, List.flatMap_cons, List.flatMap_nil, List.map_cons, List.map_nil,
    List.cons_append, List.nil_append, ValidSeq]
  refine ⟨valid1_of ?_ ?_, valid1_of ?_ ?_, valid1_of ?_ ?_, valid1_of ?_ ?_, valid1_of ?_ ?_, trivial⟩ <;> decide

open SqDemo ApDemo in
example : ∃ outs, SquashedItems c16Items outs ∧
    ((flushRows ["id", "v"] outs base).map (fun out => out.map (fun r => [r "id", r "v"]))) =
      some [[i 1, i 32], [i 2, i 20], [i 3, i 33]] := by
  refine ⟨_, .cons rfl (.cons rfl .nil), ?_⟩
  decide

end Seafowl.Sync
