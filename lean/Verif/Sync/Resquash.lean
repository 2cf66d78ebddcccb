import Verif.Sync.SquashProof

/-!
# Squashing data that has already been squashed

When changes do not move rows to other keys, the output of a squash is a change stream again: applied
one by one it is valid and has the same effect as all at once.
-/

namespace Seafowl.Sync

variable {pks full : List String} {S : Schema}

/-- A change that does not move a row to another key. -/
def Stable (ch : Change) : Prop := ch.old = none ∨ ch.new = none ∨ ch.old = ch.new

/-- Chains of changes that do not move rows. -/
structure KInv (pks : List String) (S : Schema) (st : SqState) : Prop where
  stable : ∀ (id : Nat) (ch : Chain), st.chains[id]? = some ch → Stable (chainChange pks S ch)
  order : ∀ (i j : Nat) (a b : Chain) (k : Key), st.chains[i]? = some a → st.chains[j]? = some b →
    (chainChange pks S a).new = some k → (chainChange pks S b).old = some k → j ≤ i
  flags : ∀ (id : Nat) (ch : Chain), st.chains[id]? = some ch → (chainChange pks S ch).old ≠ none →
    (chainChange pks S ch).new ≠ none → ∀ rw ∈ ch.last :: ch.chg,
      ∀ c c', Desc.mk .changed c ∈ S → Desc.mk .changed c' ∈ S →
        isTrue (rw ⟨.changed, c⟩) = isTrue (rw ⟨.changed, c'⟩)

theorem KInv.start : KInv pks S { chains := [], temp := [], pk := [] } := by
  constructor <;> simp

theorem mem_extend_chg {ch : Chain} {r rw : Row} (h : rw ∈ (ch.extend S r).chg) : rw = r ∨ rw ∈ ch.chg := by
  simp only [Chain.extend] at h
  rw [List.mem_iff_getElem?] at h
  obtain ⟨i, hi⟩ := h
  rw [List.getElem?_zipWith] at hi
  split at hi
  · next a b ha hb =>
    injection hi with hi
    split at hi
    · exact Or.inl hi.symm
    · right; rw [← hi]; exact List.mem_of_getElem? ha
  · cases hi

theorem KInv.step (hS : SchemaOk pks S) {T0 T : Table} {st : SqState} (h : SqInv pks full S T0 T st)
    (hk : KInv pks S st) (r : Row) (hr : Stable (changeOf pks S r))
    (hf : (changeOf pks S r).old ≠ none → (changeOf pks S r).new ≠ none →
      ∀ c c', Desc.mk .changed c ∈ S → Desc.mk .changed c' ∈ S →
        isTrue (r ⟨.changed, c⟩) = isTrue (r ⟨.changed, c'⟩)) :
    KInv pks S (sqStep S st r) := by
  rcases Option.eq_none_or_eq_some (alGet (oldKey S r) st.pk) with hg | ⟨id0, hg⟩
  · -- a new chain
    have hnew : ∀ (i : Nat) (a : Chain), (sqStep S st r).chains[i]? = some a →
        st.chains[i]? = some a ∨ (i = st.chains.length ∧ a = Chain.single S r) := by
      intro i a ha
      simp only [sqStep, hg, List.getElem?_append] at ha
      split at ha
      · exact Or.inl ha
      · rw [List.getElem?_singleton] at ha
        split at ha
        · injection ha with ha
          right; exact ⟨by omega, ha.symm⟩
        · cases ha
    have hlt : ∀ (i : Nat) (a : Chain), st.chains[i]? = some a → i < st.chains.length :=
      fun i a ha => by
        rw [List.getElem?_eq_some_iff] at ha; exact ha.1
    constructor
    · intro id ch hc
      rcases hnew id ch hc with h1 | ⟨_, rfl⟩
      · exact hk.stable id ch h1
      · rw [chainChange_single]; exact hr
    · intro i j a b k ha hb hak hbk
      rcases hnew i a ha with h1 | ⟨h1, rfl⟩
      · rcases hnew j b hb with h2 | ⟨h2, rfl⟩
        · exact hk.order i j a b k h1 h2 hak hbk
        · rw [chainChange_single] at hbk
          have h3 := h.complete i a k h1 hak
          have h4 := hS.old_some (r := r) (by rw [hbk]; simp)
          rw [hbk] at h4
          injection h4 with h4
          rw [← h4, h3] at hg; cases hg
      · rcases hnew j b hb with h2 | ⟨h2, rfl⟩
        · have := hlt j b h2; omega
        · omega
    · intro id ch hc ho hn rw hrw
      rcases hnew id ch hc with h1 | ⟨_, rfl⟩
      · exact hk.flags id ch h1 ho hn rw hrw
      · rw [chainChange_single] at ho hn
        have : rw = r := by
          simp only [Chain.single, List.mem_cons, List.mem_map] at hrw
          rcases hrw with rfl | ⟨_, _, rfl⟩ <;> rfl
        subst this
        exact hf ho hn
  · -- an extended chain
    obtain ⟨c0, hc0, hn0⟩ := h.sound _ _ hg
    have hold : (changeOf pks S r).old = some (oldKey S r) := by
      apply hS.old_some
      rw [Ne, ← hS.old_none]
      intro he
      rw [he] at hn0
      have h1 : (chainChange pks S c0).new = some (newKey S c0.last) := by
        rw [chainChange_new] at hn0 ⊢
        exact hS.new_some (by rw [hn0]; simp)
      rw [hn0] at h1
      injection h1 with h1
      have h2 := (hS.new_none c0.last).1 h1.symm
      rw [chainChange_new, h2] at hn0; cases hn0
    have hnew : ∀ (i : Nat) (a : Chain), (sqStep S st r).chains[i]? = some a →
        (i ≠ id0 ∧ st.chains[i]? = some a) ∨ (i = id0 ∧ a = c0.extend S r) := by
      intro i a ha
      simp only [sqStep, hg, hc0, List.getElem?_set] at ha
      split at ha
      · next he =>
        split at ha
        · injection ha with ha
          right; exact ⟨he.symm, ha.symm⟩
        · cases ha
      · next he => left; exact ⟨fun h' => he h'.symm, ha⟩
    have hext_old : (chainChange pks S (c0.extend S r)).old = (chainChange pks S c0).old := rfl
    have hext_new : (chainChange pks S (c0.extend S r)).new = (changeOf pks S r).new := rfl
    have hrn : (changeOf pks S r).new = none ∨ (changeOf pks S r).new = (chainChange pks S c0).new := by
      rcases hr with h1 | h1 | h1
      · rw [h1] at hold; cases hold
      · exact Or.inl h1
      · right; rw [← h1, hold, hn0]
    constructor
    · intro id ch hc
      rcases hnew id ch hc with ⟨_, h1⟩ | ⟨_, rfl⟩
      · exact hk.stable id ch h1
      · rw [Stable, hext_old, hext_new]
        rcases hrn with h1 | h1
        · exact Or.inr (Or.inl h1)
        · rw [h1]; exact hk.stable id0 c0 hc0
    · intro i j a b k ha hb hak hbk
      rcases hnew i a ha with ⟨_, h1⟩ | ⟨rfl, rfl⟩
      · rcases hnew j b hb with ⟨_, h2⟩ | ⟨rfl, rfl⟩
        · exact hk.order i j a b k h1 h2 hak hbk
        · rw [hext_old] at hbk
          exact hk.order i j a c0 k h1 hc0 hak hbk
      · rw [hext_new] at hak
        have hak' : (chainChange pks S c0).new = some k := by
          rcases hrn with h1 | h1
          · rw [h1] at hak; cases hak
          · rw [← h1]; exact hak
        rcases hnew j b hb with ⟨_, h2⟩ | ⟨rfl, rfl⟩
        · exact hk.order i j c0 b k hc0 h2 hak' hbk
        · omega
    · intro id ch hc ho hn rw hrw
      rcases hnew id ch hc with ⟨_, h1⟩ | ⟨_, rfl⟩
      · exact hk.flags id ch h1 ho hn rw hrw
      · rw [hext_old] at ho
        rw [hext_new] at hn
        have hcase : rw = r ∨ rw ∈ c0.last :: c0.chg := by
          simp only [List.mem_cons] at hrw
          rcases hrw with h1 | h1
          · left; exact h1
          · rcases mem_extend_chg h1 with h2 | h2
            · exact Or.inl h2
            · right; simp [h2]
        rcases hcase with h1 | h1
        · rw [h1]; exact hf (by rw [hold]; simp) hn
        · exact hk.flags id0 c0 hc0 ho (by rw [hn0]; simp) rw h1

theorem KInv.fold (hS : SchemaOk pks S) {T0 : Table} (rows : List Row) :
    ∀ (T : Table) (st : SqState), SqInv pks full S T0 T st → KInv pks S st →
    ValidSeq full T (rows.map (changeOf pks S)) → FlagsAgree pks S rows →
    (∀ r ∈ rows, Stable (changeOf pks S r)) →
    KInv pks S (rows.foldl (sqStep S) st) := by
  induction rows with
  | nil => intro T st _ h _ _ _; exact h
  | cons r rest ih =>
    intro T st h hk hv hf hs
    simp only [List.map_cons, ValidSeq] at hv
    simp only [List.foldl_cons]
    exact ih _ _ (h.step hS r hv.1 (hf r (by simp))) (hk.step hS h r (hs r (by simp)) (hf r (by simp))) hv.2
      (fun r' hr' => hf r' (by simp [hr'])) (fun r' hr' => hs r' (by simp [hr']))

/-- A set of changes that do not move rows, with deletions before reinsertions, can be applied one
by one. -/
theorem sequential {N : List Change} : ∀ {T : Table}, NetValid T N → (∀ ch ∈ N, Stable ch) →
    N.Pairwise (fun a b => ∀ k, a.new = some k → b.old ≠ some k) →
    ValidSeq full T N ∧ replay full T N = netApply full T N := by
  induction N with
  | nil => intro T _ _ _; exact ⟨trivial, by funext k; simp [replay, netApply]⟩
  | cons ch rest ih =>
    intro T h hs ho
    have ho1 := (List.pairwise_cons.1 ho).1
    have holds := List.pairwise_cons.1 h.olds
    have hnews := List.pairwise_cons.1 h.news
    have hT' : ∀ k, (∃ c ∈ rest, c.old = some k) → apply1 full T ch k = T k := by
      rintro k ⟨c, hc, hk⟩
      simp only [apply1]
      rw [if_neg, if_neg]
      · intro h1; exact holds.1 c hc (by rw [h1]; simp) (by rw [h1, hk])
      · intro h1; exact ho1 c hc k h1 hk
    have hnv : NetValid (apply1 full T ch) rest := by
      constructor
      · exact holds.2
      · exact hnews.2
      · intro c hc k hk
        rw [hT' k ⟨c, hc, hk⟩]
        exact h.exist c (by simp [hc]) k hk
      · intro c hc k hk
        have hne : ch.new ≠ some k := by
          intro h1; exact hnews.1 c hc (by rw [h1]; simp) (by rw [h1, hk])
        by_cases hco : ch.old = some k
        · left; simp only [apply1]; rw [if_neg hne, if_pos hco]
        · rcases h.free c (by simp [hc]) k hk with h1 | ⟨c', hc', h1⟩
          · left; simp only [apply1]; rw [if_neg hne, if_neg hco, h1]
          · rcases List.mem_cons.1 hc' with rfl | h2
            · exact absurd h1 hco
            · exact Or.inr ⟨c', h2, h1⟩
    have hi := ih hnv (fun c hc => hs c (by simp [hc])) (List.pairwise_cons.1 ho).2
    refine ⟨⟨⟨?_, ?_⟩, hi.1⟩, ?_⟩
    · exact fun k hk => h.exist ch (by simp) k hk
    · intro k hk
      rcases h.free ch (by simp) k hk with h1 | ⟨c', hc', h1⟩
      · exact Or.inl h1
      · rcases List.mem_cons.1 hc' with rfl | h2
        · exact Or.inr h1
        · exact absurd h1 (ho1 c' h2 k hk)
    · have : replay full T (ch :: rest) = replay full (apply1 full T ch) rest := rfl
      rw [this, hi.2]
      symm
      apply netApply_of
      · intro c hc k hk
        rcases List.mem_cons.1 hc with rfl | h2
        · -- the first change
          simp only [netApply]
          have hf : rest.find? (fun c' => decide (c'.new = some k)) = none := by
            rw [List.find?_eq_none]
            intro c' hc'
            simp only [decide_eq_true_eq]
            intro h1; exact hnews.1 c' hc' (by rw [hk]; simp) (by rw [hk, h1])
          rw [hf]
          have ha : rest.any (fun c' => decide (c'.old = some k)) = false := by
            rw [List.any_eq_false]
            intro c' hc'
            simp only [decide_eq_true_eq]
            exact ho1 c' hc' k hk
          simp only [ha, Bool.false_eq_true, if_false, apply1, if_pos hk]
        · simp only [netApply]
          cases hf : rest.find? (fun c' => decide (c'.new = some k)) with
          | none =>
            rw [List.find?_eq_none] at hf
            exact absurd hk (by simpa using hf c h2)
          | some c' =>
            have hm := List.mem_of_find?_eq_some hf
            have hn := List.find?_some hf
            simp only [decide_eq_true_eq] at hn
            have hcc : c' = c := by
              have h3 := hnews.2
              rw [List.pairwise_iff_getElem] at h3
              obtain ⟨i, hi, rfl⟩ := List.getElem_of_mem hm
              obtain ⟨j, hj, rfl⟩ := List.getElem_of_mem h2
              rcases Nat.lt_trichotomy i j with hij | hij | hij
              · exact absurd (by rw [hn, hk]) (h3 i j hi hj hij (by rw [hn]; simp))
              · subst hij; rfl
              · exact absurd (by rw [hn, hk]) (h3 j i hj hi hij (by rw [hk]; simp))
            subst hcc
            have hb : baseOf (apply1 full T ch) c'.old = baseOf T c'.old := by
              cases ho' : c'.old with
              | none => rfl
              | some k' => simp only [baseOf]; rw [hT' k' ⟨c', h2, ho'⟩]
            simp only [hb]
      · rintro k hk ⟨c, hc, hck⟩
        simp only [netApply]
        have hf : rest.find? (fun c' => decide (c'.new = some k)) = none := by
          rw [List.find?_eq_none]
          intro c' hc'
          simpa using hk c' (by simp [hc'])
        rw [hf]
        simp only
        split
        · rfl
        · next ha =>
          simp only [List.any_eq_true, decide_eq_true_eq, not_exists, not_and] at ha
          rcases List.mem_cons.1 hc with rfl | h2
          · simp only [apply1]; rw [if_neg (hk c (by simp)), if_pos hck]
          · exact absurd hck (ha c h2)
      · intro k hk hko
        simp only [netApply]
        have hf : rest.find? (fun c' => decide (c'.new = some k)) = none := by
          rw [List.find?_eq_none]
          intro c' hc'
          simpa using hk c' (by simp [hc'])
        rw [hf]
        simp only
        rw [if_neg]
        · simp only [apply1]; rw [if_neg (hk ch (by simp)), if_neg (hko ch (by simp))]
        · simp only [List.any_eq_true, decide_eq_true_eq, not_exists, not_and]
          exact fun c hc => hko c (by simp [hc])

theorem headD_mem {α : Type} (l : List α) (d : α) : l.headD d ∈ d :: l := by
  cases l <;> simp

/-- The output of a squash of changes that do not move rows is a change stream like its input. -/
theorem squash_stable (hS : SchemaOk pks S) {T : Table} {rows out : List Row}
    (hv : ValidSeq full T (rows.map (changeOf pks S))) (hf : FlagsAgree pks S rows)
    (hs : ∀ r ∈ rows, Stable (changeOf pks S r)) (h : squash S rows = some out) :
    ValidSeq full T (out.map (changeOf pks S)) ∧
    replay full T (out.map (changeOf pks S)) = replay full T (rows.map (changeOf pks S)) ∧
    FlagsAgree pks S out ∧ ∀ r ∈ out, Stable (changeOf pks S r) := by
  have hnet := squash_net hS hv hf h
  have hi := SqInv.fold (full := full) (T0 := T) hS rows T _ (SqInv.start T) hv hf
  have hk := KInv.fold (full := full) (T0 := T) hS rows T _ (SqInv.start T) KInv.start hv hf hs
  simp only [squash] at h
  split at h
  · cases h
  · injection h with h
    subst h
    have hst : ∀ r ∈ (liveChains (rows.foldl (sqStep S) { chains := [], temp := [], pk := [] })).map (sqOut S),
        Stable (changeOf pks S r) := by
      intro r hr
      obtain ⟨ch, hch, rfl⟩ := List.mem_map.1 hr
      obtain ⟨id, hid, _⟩ := mem_liveChains.1 hch
      exact hk.stable id ch hid
    have hseq := sequential (full := full) hnet.1
      (by intro c hc; obtain ⟨r, hr, rfl⟩ := List.mem_map.1 hc; exact hst r hr)
      (by
        rw [List.pairwise_map, List.pairwise_map]
        apply List.Pairwise.sublist (liveChains_sublist _)
        apply pairwise_of_getElem?
        intro i j a b hij ha hb k hak hbk
        have := hk.order i j a b k ha hb hak hbk
        omega)
    refine ⟨hseq.1, by rw [hseq.2, hnet.2], ?_, hst⟩
    intro r hr ho hn c c' hc hc'
    obtain ⟨ch, hch, rfl⟩ := List.mem_map.1 hr
    obtain ⟨id, hid, _⟩ := mem_liveChains.1 hch
    simp only [sqOut]
    exact hk.flags id ch hid ho hn _ (headD_mem _ _) c c' hc hc'

end Seafowl.Sync
