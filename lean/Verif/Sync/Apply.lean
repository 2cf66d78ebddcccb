import Verif.Sync.SquashProof

/-!
# Applying normalised changes to the base rows (lemmas for C15, C18)
-/

namespace Seafowl.Sync

variable {pks full : List String} {S : Schema}

/-! ### tables as keyed lists of rows -/

theorem find?_key {rows : List TRow} (hn : (rows.map (tkey pks)).Nodup) {k : Key} {r : TRow} :
    tableOf pks rows k = some r ↔ r ∈ rows ∧ tkey pks r = k := by
  simp only [tableOf]
  constructor
  · intro h
    have h1 := List.mem_of_find?_eq_some h
    have h2 := List.find?_some h
    exact ⟨h1, by simpa using h2⟩
  · rintro ⟨hm, hk⟩
    induction rows with
    | nil => cases hm
    | cons a as ih =>
      simp only [List.map_cons, List.nodup_cons] at hn
      rw [List.find?_cons]
      rcases List.mem_cons.1 hm with rfl | hm'
      · simp [hk]
      · have hne : tkey pks a ≠ k := by
          intro h; apply hn.1; rw [h, ← hk]; exact List.mem_map.2 ⟨r, hm', rfl⟩
        simp only [hne, decide_false]
        exact ih hn.2 hm'

theorem tableOf_none {rows : List TRow} {k : Key} :
    tableOf pks rows k = none ↔ ∀ r ∈ rows, tkey pks r ≠ k := by
  simp [tableOf, List.find?_eq_none]

/-- Two keyed lists with the same table have the same rows, up to order. -/
theorem perm_of_tableOf {a b : List TRow} (ha : (a.map (tkey pks)).Nodup) (hb : (b.map (tkey pks)).Nodup)
    (h : tableOf pks a = tableOf pks b) : a.Perm b := by
  have hna : a.Nodup := by
    rw [List.nodup_iff_pairwise_ne] at ha ⊢
    exact (List.pairwise_map.1 ha).imp (fun hne he => hne (by rw [he]))
  have hnb : b.Nodup := by
    rw [List.nodup_iff_pairwise_ne] at hb ⊢
    exact (List.pairwise_map.1 hb).imp (fun hne he => hne (by rw [he]))
  rw [List.perm_ext_iff_of_nodup hna hnb]
  intro r
  have h1 := find?_key ha (k := tkey pks r) (r := r)
  have h2 := find?_key hb (k := tkey pks r) (r := r)
  rw [h] at h1
  rw [h1] at h2
  simpa using h2

/-! ### the effect of normalised changes -/

/-- The key of a normalised change. -/
def nkey (pks : List String) (s : NRow) : Key := pks.map s.pk

/-- The assignments of a normalised change. -/
def nset (pks : List String) (S : Schema) (s : NRow) : String → Option Cell := fun c =>
  if c ∈ pks then some (s.pk c)
  else if Desc.mk .value c ∈ S then
    if Desc.mk .changed c ∈ S then
      if s.val ⟨.changed, c⟩ = some (.bool true) then some (s.val ⟨.value, c⟩) else none
    else some (s.val ⟨.value, c⟩)
  else none

/-- The effect of normalised changes by key. -/
def applySpec (pks full : List String) (S : Schema) (T : Table) (ns : List NRow) : Table := fun k =>
  match ns.find? (fun s => s.upsert && decide (nkey pks s = k)) with
  | some s => some (write full ((T k).getD nullRow) (nset pks S s))
  | none => if ns.any (fun s => !s.upsert && decide (nkey pks s = k)) then none else T k

/-- The upserted keys have no NULLs and are pairwise different. -/
structure UpsertsOk (pks : List String) (ns : List NRow) : Prop where
  nonnull : ∀ s ∈ ns, s.upsert = true → ∀ n ∈ pks, (s.pk n).isSome
  distinct : ns.Pairwise (fun a b => a.upsert = true → b.upsert = true → nkey pks a ≠ nkey pks b)

theorem applyCol_some (hS : SchemaOk pks S) (b : Option TRow) (s : NRow) (c : String) :
    applyCol S c (b, some s) = (nset pks S s c).getD (baseCol b c) := by
  have hp : ∀ c, has S .oldPk c = decide (c ∈ pks) := by
    intro c
    simp only [has]
    rw [← hS.oldPk]
    congr 1
    exact propext mem_names.symm
  simp only [applyCol, nset]
  by_cases hc : c ∈ pks
  · have hv : has S .value c = false := by
      simp only [has, decide_eq_false_iff_not]
      exact fun h => hS.noPk c h hc
    have hch : has S .changed c = false := by
      simp only [has, decide_eq_false_iff_not]
      exact fun h => hS.noPk c (hS.changed c h) hc
    simp [hv, hp, hc, hch]
  · by_cases hv : Desc.mk .value c ∈ S
    · by_cases hch : Desc.mk .changed c ∈ S
      · simp only [has, hv, decide_true, if_true, hc, hch, if_false, isTrue, decide_eq_true_eq]
        split <;> simp
      · simp [has, hv, hc, hch]
    · have hv' : has S .value c = false := by simp [has, hv]
      have hp' : has S .oldPk c = false := by rw [hp]; simp [hc]
      simp only [hv', hp', hc, hv, Bool.false_eq_true, if_false, Option.getD_none]
      cases b <;> rfl

theorem applyCol_none (b : TRow) (c : String) :
    applyCol S c (some b, none) = b c := by
  simp only [applyCol, baseCol]
  split
  · rfl
  · split <;> rfl

/-- The output row for a joined pair. -/
def outRow (S : Schema) (full : List String) (p : Option TRow × Option NRow) : TRow :=
  fun c => if c ∈ full then applyCol S c p else none

theorem outRow_some (hS : SchemaOk pks S) (b : Option TRow) (s : NRow) :
    outRow S full (b, some s) = write full (b.getD nullRow) (nset pks S s) := by
  funext c
  simp only [outRow, write]
  split
  · rw [applyCol_some hS]
    cases b <;> rfl
  · rfl

theorem outRow_none (b : TRow) (hb : ∀ c, c ∉ full → b c = none) :
    outRow S full (some b, none) = b := by
  funext c
  simp only [outRow]
  split
  · exact applyCol_none b c
  · next h => exact (hb c h).symm

theorem tkey_write (hpf : ∀ n ∈ pks, n ∈ full) (b : TRow) (s : NRow) :
    tkey pks (write full b (nset pks S s)) = nkey pks s := by
  simp only [tkey, nkey]
  apply List.map_congr_left
  intro n hn
  simp [write, hpf n hn, nset, hn]

theorem baseMatch_iff {b : TRow} (hb : ∀ n ∈ pks, (b n).isSome) (s : NRow) :
    baseMatch pks b s = true ↔ tkey pks b = nkey pks s := by
  simp only [baseMatch, List.all_eq_true, Bool.and_eq_true, decide_eq_true_eq, tkey, nkey]
  constructor
  · intro h; apply List.map_congr_left; exact fun n hn => (h n hn).1
  · intro h n hn
    refine ⟨?_, hb n hn⟩
    exact (List.map_inj_left.1 h) n hn

/-- Membership in the result. -/
theorem mem_applySyncs (hS : SchemaOk pks S) {base : List TRow} (hb : Keyed pks full base)
    {ns : List NRow} {r : TRow} :
    r ∈ applySyncs S full base ns ↔
      (∃ b ∈ base, ∃ s ∈ ns, s.upsert = true ∧ tkey pks b = nkey pks s ∧
        r = write full b (nset pks S s)) ∨
      (r ∈ base ∧ ∀ s ∈ ns, tkey pks r ≠ nkey pks s) ∨
      (∃ s ∈ ns, s.upsert = true ∧ (∀ b ∈ base, tkey pks b ≠ nkey pks s) ∧
        r = write full nullRow (nset pks S s)) := by
  have hm : ∀ b ∈ base, ∀ s, baseMatch pks b s = true ↔ tkey pks b = nkey pks s :=
    fun b hbm s => baseMatch_iff (hb.nonnull b hbm) s
  have ho : ∀ p, (fun c => if c ∈ full then applyCol S c p else none) = outRow S full p := fun _ => rfl
  simp only [applySyncs, hS.oldPk, List.mem_map, List.mem_filter, baseJoin, List.mem_append,
    List.mem_flatMap]
  constructor
  · rintro ⟨p, ⟨hp, hk⟩, rfl⟩
    rw [ho]
    rcases hp with ⟨b, hbm, hp⟩ | ⟨s, ⟨hs, hno⟩, rfl⟩
    · split at hp
      · simp only [List.mem_map, List.mem_filter] at hp
        obtain ⟨s, ⟨hs, hmt⟩, rfl⟩ := hp
        left
        exact ⟨b, hbm, s, hs, hk, (hm b hbm s).1 hmt, outRow_some hS (some b) s⟩
      · next hany =>
        simp only [List.mem_singleton] at hp
        subst hp
        right; left
        rw [outRow_none b (hb.cols b hbm)]
        refine ⟨hbm, ?_⟩
        intro s hs he
        apply hany
        rw [List.any_eq_true]
        exact ⟨s, hs, (hm b hbm s).2 he⟩
    · right; right
      refine ⟨s, hs, hk, ?_, outRow_some hS none s⟩
      intro b hbm he
      simp only [Bool.not_eq_true', List.any_eq_false] at hno
      exact hno b hbm ((hm b hbm s).2 he)
  · rintro (⟨b, hbm, s, hs, hu, hk, rfl⟩ | ⟨hbm, hno⟩ | ⟨s, hs, hu, hno, rfl⟩)
    · refine ⟨(some b, some s), ⟨Or.inl ⟨b, hbm, ?_⟩, hu⟩, ?_⟩
      · have hmt := (hm b hbm s).2 hk
        rw [if_pos (by rw [List.any_eq_true]; exact ⟨s, hs, hmt⟩)]
        exact List.mem_map.2 ⟨s, List.mem_filter.2 ⟨hs, hmt⟩, rfl⟩
      · rw [ho]; exact outRow_some hS (some b) s
    · refine ⟨(some r, none), ⟨Or.inl ⟨r, hbm, ?_⟩, rfl⟩, ?_⟩
      · rw [if_neg]
        · simp
        · rw [List.any_eq_true]
          rintro ⟨s, hs, hmt⟩
          exact hno s hs ((hm r hbm s).1 hmt)
      · rw [ho]; exact outRow_none r (hb.cols r hbm)
    · refine ⟨(none, some s), ⟨Or.inr ⟨s, ⟨hs, ?_⟩, rfl⟩, hu⟩, ?_⟩
      · simp only [Bool.not_eq_true', List.any_eq_false]
        intro b hbm hmt
        exact hno b hbm ((hm b hbm s).1 hmt)
      · rw [ho]; exact outRow_some hS none s

/-! ### no two result rows with the same key -/

theorem nodup_flatMap_keys {α β κ : Type} (f : α → κ) (g : β → κ) (L : α → List β) (l : List α)
    (hl : (l.map f).Nodup) (hg : ∀ a ∈ l, ∀ x ∈ L a, g x = f a) (h1 : ∀ a ∈ l, (L a).length ≤ 1) :
    ((l.flatMap L).map g).Nodup := by
  induction l with
  | nil => simp
  | cons a as ih =>
    simp only [List.map_cons, List.nodup_cons] at hl
    rw [List.flatMap_cons, List.map_append, List.nodup_append]
    refine ⟨?_, ih hl.2 (fun a' h' => hg a' (by simp [h'])) (fun a' h' => h1 a' (by simp [h'])), ?_⟩
    · have := h1 a (by simp)
      cases hL : L a with
      | nil => simp
      | cons x xs =>
        rw [hL] at this
        cases xs with
        | nil => simp
        | cons y ys => simp at this
    · intro x hx y hy he
      obtain ⟨x', hx', rfl⟩ := List.mem_map.1 hx
      obtain ⟨y', hy', rfl⟩ := List.mem_map.1 hy
      obtain ⟨a', ha', hy''⟩ := List.mem_flatMap.1 hy'
      apply hl.1
      rw [← hg a (by simp) x' hx', he, hg a' (by simp [ha']) y' hy'']
      exact List.mem_map.2 ⟨a', ha', rfl⟩

theorem filter_length_le_one {α κ : Type} (f : α → κ) (k : κ) (l : List α) (p : α → Bool)
    (hd : l.Pairwise (fun a b => p a = true → p b = true → f a ≠ f b))
    (hk : ∀ a ∈ l, p a = true → f a = k) : (l.filter p).length ≤ 1 := by
  have hp : (l.filter p).Pairwise (fun _ _ => False) := by
    have h1 : (l.filter p).Pairwise (fun a b => p a = true → p b = true → f a ≠ f b) :=
      hd.sublist List.filter_sublist
    rw [List.pairwise_iff_getElem] at h1 ⊢
    intro i j hi hj hij
    have ha := List.mem_filter.1 (List.getElem_mem hi)
    have hb := List.mem_filter.1 (List.getElem_mem hj)
    exact h1 i j hi hj hij ha.2 hb.2 (by rw [hk _ ha.1 ha.2, hk _ hb.1 hb.2])
  cases hl : l.filter p with
  | nil => simp
  | cons a as =>
    cases as with
    | nil => simp
    | cons b bs => rw [hl] at hp; exact ((List.pairwise_cons.1 hp).1 b (by simp)).elim

theorem applySyncs_nodup (hS : SchemaOk pks S) (hpf : ∀ n ∈ pks, n ∈ full) {base : List TRow}
    (hb : Keyed pks full base) {ns : List NRow} (hn : UpsertsOk pks ns) :
    ((applySyncs S full base ns).map (tkey pks)).Nodup := by
  have hm : ∀ b ∈ base, ∀ s, baseMatch pks b s = true ↔ tkey pks b = nkey pks s :=
    fun b hbm s => baseMatch_iff (hb.nonnull b hbm) s
  have hks : ∀ (b : Option TRow) (s : NRow), tkey pks (outRow S full (b, some s)) = nkey pks s := by
    intro b s; rw [outRow_some hS]; exact tkey_write hpf _ _
  have ho : applySyncs S full base ns =
      ((baseJoin pks base ns).filter keepJoined).map (outRow S full) := by
    simp only [applySyncs, hS.oldPk]; rfl
  rw [ho, List.map_map, baseJoin, List.filter_append, List.map_append, List.nodup_append]
  rw [List.filter_flatMap]
  refine ⟨?_, ?_, ?_⟩
  · apply nodup_flatMap_keys (tkey pks)
    · exact hb.nodup
    · intro b hbm p hp
      simp only [List.mem_filter] at hp
      obtain ⟨hp, hk⟩ := hp
      split at hp
      · obtain ⟨s, hs, rfl⟩ := List.mem_map.1 hp
        obtain ⟨hs, hmt⟩ := List.mem_filter.1 hs
        simp only [Function.comp_apply, hks]
        exact ((hm b hbm s).1 hmt).symm
      · simp only [List.mem_singleton] at hp
        subst hp
        simp only [Function.comp_apply, outRow_none b (hb.cols b hbm)]
    · intro b hbm
      split
      · rw [List.filter_map, List.length_map, List.filter_filter]
        apply filter_length_le_one (nkey pks) (tkey pks b)
        · exact hn.distinct.imp (fun h ha hb' => by
            simp only [Function.comp_apply, keepJoined, Bool.and_eq_true] at ha hb'
            exact h ha.1 hb'.1)
        · intro s _ hs
          simp only [Function.comp_apply, keepJoined, Bool.and_eq_true] at hs
          exact ((hm b hbm s).1 hs.2).symm
      · exact Nat.le_trans (List.length_filter_le _ _) (by simp)
  · rw [List.filter_map, List.map_map]
    have : (((tkey pks ∘ outRow S full) ∘ fun s => ((none : Option TRow), some s)) : NRow → Key) = nkey pks := by
      funext s; simp [hks]
    rw [this]
    rw [List.nodup_iff_pairwise_ne, List.pairwise_map]
    have h1 := hn.distinct.sublist (List.filter_sublist (p := keepJoined ∘ fun s => ((none : Option TRow), some s))
      |>.trans (List.filter_sublist (p := fun s => !base.any fun b => baseMatch pks b s)) |>.trans (List.Sublist.refl ns))
    rw [List.pairwise_iff_getElem] at h1 ⊢
    intro i j hi hj hij
    have ha := (List.mem_filter.1 (List.getElem_mem hi)).2
    have hb' := (List.mem_filter.1 (List.getElem_mem hj)).2
    exact h1 i j hi hj hij ha hb'
  · intro x hx y hy he
    obtain ⟨p, hp, rfl⟩ := List.mem_map.1 hx
    obtain ⟨q, hq, rfl⟩ := List.mem_map.1 hy
    obtain ⟨b, hbm, hp⟩ := List.mem_flatMap.1 hp
    have hkb : tkey pks (outRow S full p) = tkey pks b := by
      obtain ⟨hp, _⟩ := List.mem_filter.1 hp
      split at hp
      · obtain ⟨s, hs, rfl⟩ := List.mem_map.1 hp
        obtain ⟨hs, hmt⟩ := List.mem_filter.1 hs
        rw [hks]
        exact ((hm b hbm s).1 hmt).symm
      · simp only [List.mem_singleton] at hp
        subst hp
        rw [outRow_none b (hb.cols b hbm)]
    obtain ⟨hq, _⟩ := List.mem_filter.1 hq
    obtain ⟨s, hs, rfl⟩ := List.mem_map.1 hq
    obtain ⟨_, hno⟩ := List.mem_filter.1 hs
    simp only [Bool.not_eq_true', List.any_eq_false] at hno
    simp only [Function.comp_apply, hks, hkb] at he
    exact hno b hbm ((hm b hbm s).2 he)

/-- The result has a primary key again. -/
theorem applySyncs_keyed (hS : SchemaOk pks S) (hpf : ∀ n ∈ pks, n ∈ full) {base : List TRow}
    (hb : Keyed pks full base) {ns : List NRow} (hn : UpsertsOk pks ns) :
    Keyed pks full (applySyncs S full base ns) := by
  refine ⟨applySyncs_nodup hS hpf hb hn, ?_, ?_⟩
  · intro r hr n hnp
    have hw : ∀ (b : TRow), ∀ s ∈ ns, s.upsert = true → (write full b (nset pks S s) n).isSome := by
      intro b s hs hu
      simp only [write, hpf n hnp, if_true, nset, hnp, Option.getD_some]
      exact hn.nonnull s hs hu n hnp
    rcases (mem_applySyncs hS hb).1 hr with ⟨b, _, s, hs, hu, _, rfl⟩ | ⟨h1, _⟩ | ⟨s, hs, hu, _, rfl⟩
    · exact hw b s hs hu
    · exact hb.nonnull r h1 n hnp
    · exact hw _ s hs hu
  · intro r hr c hc
    rcases (mem_applySyncs hS hb).1 hr with ⟨b, _, s, _, _, _, rfl⟩ | ⟨h1, _⟩ | ⟨s, _, _, _, rfl⟩
    · simp [write, hc]
    · exact hb.cols r h1 c hc
    · simp [write, hc]

theorem UpsertsOk.unique {ns : List NRow} (hn : UpsertsOk pks ns) {s s' : NRow} (hs : s ∈ ns) (hs' : s' ∈ ns)
    (hu : s.upsert = true) (hu' : s'.upsert = true) (hk : nkey pks s = nkey pks s') : s = s' := by
  have h3 := hn.distinct
  rw [List.pairwise_iff_getElem] at h3
  obtain ⟨i, hi, rfl⟩ := List.getElem_of_mem hs
  obtain ⟨j, hj, rfl⟩ := List.getElem_of_mem hs'
  rcases Nat.lt_trichotomy i j with hij | hij | hij
  · exact absurd hk (h3 i j hi hj hij hu hu')
  · subst hij; rfl
  · exact absurd hk.symm (h3 j i hj hi hij hu' hu)

/-- The result as a table. -/
theorem tableOf_applySyncs (hS : SchemaOk pks S) (hpf : ∀ n ∈ pks, n ∈ full) {base : List TRow}
    (hb : Keyed pks full base) {ns : List NRow} (hn : UpsertsOk pks ns) :
    tableOf pks (applySyncs S full base ns) = applySpec pks full S (tableOf pks base) ns := by
  have hnd := applySyncs_nodup hS hpf hb hn
  funext k
  simp only [applySpec]
  cases hf : ns.find? (fun s => s.upsert && decide (nkey pks s = k)) with
  | some s =>
    have hs := List.mem_of_find?_eq_some hf
    have hp := List.find?_some hf
    simp only [Bool.and_eq_true, decide_eq_true_eq] at hp
    simp only
    rw [find?_key hnd]
    refine ⟨?_, by rw [tkey_write hpf]; exact hp.2⟩
    rw [mem_applySyncs hS hb]
    cases hT : tableOf pks base k with
    | some b =>
      obtain ⟨hbm, hbk⟩ := (find?_key hb.nodup).1 hT
      left
      exact ⟨b, hbm, s, hs, hp.1, by rw [hbk, hp.2], rfl⟩
    | none =>
      rw [tableOf_none] at hT
      right; right
      exact ⟨s, hs, hp.1, fun b hbm => by rw [hp.2]; exact hT b hbm, rfl⟩
  | none =>
    rw [List.find?_eq_none] at hf
    simp only [Bool.and_eq_true, decide_eq_true_eq, not_and] at hf
    simp only
    split
    · next ha =>
      rw [List.any_eq_true] at ha
      obtain ⟨d, hd, hdk⟩ := ha
      simp only [Bool.and_eq_true, decide_eq_true_eq] at hdk
      rw [tableOf_none]
      intro r hr hrk
      rcases (mem_applySyncs hS hb).1 hr with ⟨b, _, s, hs, hu, _, rfl⟩ | ⟨_, h2⟩ | ⟨s, hs, hu, _, rfl⟩
      · rw [tkey_write hpf] at hrk; exact hf s hs hu hrk
      · exact h2 d hd (by rw [hrk, hdk.2])
      · rw [tkey_write hpf] at hrk; exact hf s hs hu hrk
    · next ha =>
      have hno : ∀ s ∈ ns, nkey pks s ≠ k := by
        intro s hs he
        cases hu : s.upsert with
        | true => exact hf s hs hu he
        | false =>
          apply ha
          rw [List.any_eq_true]
          exact ⟨s, hs, by simp [hu, he]⟩
      cases hT : tableOf pks base k with
      | some b =>
        obtain ⟨hbm, hbk⟩ := (find?_key hb.nodup).1 hT
        rw [find?_key hnd, mem_applySyncs hS hb]
        exact ⟨Or.inr (Or.inl ⟨hbm, fun s hs => by rw [hbk]; exact fun h => hno s hs h.symm⟩), hbk⟩
      | none =>
        rw [tableOf_none] at hT ⊢
        intro r hr hrk
        rcases (mem_applySyncs hS hb).1 hr with ⟨b, _, s, hs, hu, _, rfl⟩ | ⟨h1, _⟩ | ⟨s, hs, hu, _, rfl⟩
        · rw [tkey_write hpf] at hrk; exact hno s hs hrk
        · exact hT r h1 hrk
        · rw [tkey_write hpf] at hrk; exact hno s hs hrk

/-- Applying normalised changes twice is the same as applying them once. -/
theorem applySpec_idem (T : Table) (ns : List NRow) :
    applySpec pks full S (applySpec pks full S T ns) ns = applySpec pks full S T ns := by
  funext k
  simp only [applySpec]
  cases hf : ns.find? (fun s => s.upsert && decide (nkey pks s = k)) with
  | some s =>
    simp only [Option.getD_some]
    congr 1
    funext c
    simp only [write]
    split
    · cases nset pks S s c <;> simp
    · rfl
  | none =>
    simp only
    split <;> rfl

end Seafowl.Sync
