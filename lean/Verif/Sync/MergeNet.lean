import Verif.Sync.SquashProof

/-!
# Composition of two sets of changes (lemmas for C14)
-/

namespace Seafowl.Sync

variable {full : List String}

/-- The later change `u` continues the earlier change `l`. -/
def chMatch (u l : Change) : Bool := decide (u.old ≠ none) && decide (u.old = l.new)

/-- The earlier change followed by the later one. -/
def compose (u l : Change) : Change :=
  { old := l.old, new := u.new, set := fun c => (u.set c).or (l.set c) }

/-- All changes of both sets, with those that continue each other composed. -/
def composeAll (N1 N2 : List Change) : List Change :=
  N2.flatMap (fun u =>
    if N1.any (chMatch u) then (N1.filter (chMatch u)).map (compose u) else [u]) ++
  N1.filter (fun l => !N2.any (fun u => chMatch u l))

theorem chMatch_iff {u l : Change} : chMatch u l = true ↔ u.old ≠ none ∧ u.old = l.new := by
  simp [chMatch]

theorem mem_composeAll {N1 N2 : List Change} {ch : Change} : ch ∈ composeAll N1 N2 ↔
    (∃ u ∈ N2, (∀ l ∈ N1, ¬ (u.old ≠ none ∧ u.old = l.new)) ∧ ch = u) ∨
    (∃ u ∈ N2, ∃ l ∈ N1, u.old ≠ none ∧ u.old = l.new ∧ ch = compose u l) ∨
    (ch ∈ N1 ∧ ∀ u ∈ N2, ¬ (u.old ≠ none ∧ u.old = ch.new)) := by
  simp only [composeAll, List.mem_append, List.mem_flatMap, List.mem_filter, Bool.not_eq_true',
    List.any_eq_false, chMatch_iff]
  constructor
  · rintro (⟨u, hu, h⟩ | ⟨h1, h2⟩)
    · split at h
      · obtain ⟨l, hl, rfl⟩ := List.mem_map.1 h
        obtain ⟨hl, hm⟩ := List.mem_filter.1 hl
        rw [chMatch_iff] at hm
        exact Or.inr (Or.inl ⟨u, hu, l, hl, hm.1, hm.2, rfl⟩)
      · next ha =>
        left
        refine ⟨u, hu, ?_, by simpa using h⟩
        intro l hl hm
        apply ha
        rw [List.any_eq_true]
        exact ⟨l, hl, chMatch_iff.2 hm⟩
    · exact Or.inr (Or.inr ⟨h1, h2⟩)
  · rintro (⟨u, hu, h, rfl⟩ | ⟨u, hu, l, hl, h1, h2, rfl⟩ | ⟨h1, h2⟩)
    · left
      refine ⟨ch, hu, ?_⟩
      rw [if_neg]
      · simp
      · rw [List.any_eq_true]
        rintro ⟨l, hl, hm⟩
        exact h l hl (chMatch_iff.1 hm)
    · left
      refine ⟨u, hu, ?_⟩
      have hm := chMatch_iff.2 ⟨h1, h2⟩
      rw [if_pos (by rw [List.any_eq_true]; exact ⟨l, hl, hm⟩)]
      exact List.mem_map.2 ⟨l, List.mem_filter.2 ⟨hl, hm⟩, rfl⟩
    · exact Or.inr ⟨h1, h2⟩

theorem uniq_of_pairwise {α κ : Type} {f : α → Option κ} {l : List α}
    (h : l.Pairwise (fun a b => f a ≠ none → f a ≠ f b)) {a b : α} (ha : a ∈ l) (hb : b ∈ l)
    (he : f a = f b) (hn : f a ≠ none) : a = b := by
  rw [List.pairwise_iff_getElem] at h
  obtain ⟨i, hi, rfl⟩ := List.getElem_of_mem ha
  obtain ⟨j, hj, rfl⟩ := List.getElem_of_mem hb
  rcases Nat.lt_trichotomy i j with hij | hij | hij
  · exact absurd he (h i j hi hj hij hn)
  · subst hij; rfl
  · exact absurd he.symm (h j i hj hi hij (by rw [← he]; exact hn))

theorem netApply_new {T : Table} {N : List Change} (h : NetValid T N) {ch : Change} (hc : ch ∈ N) {k : Key}
    (hk : ch.new = some k) : netApply full T N k = some (write full (baseOf T ch.old) ch.set) := by
  simp only [netApply]
  cases hf : N.find? (fun c => decide (c.new = some k)) with
  | none =>
    rw [List.find?_eq_none] at hf
    exact absurd hk (by simpa using hf ch hc)
  | some c' =>
    have hm := List.mem_of_find?_eq_some hf
    have hn := List.find?_some hf
    simp only [decide_eq_true_eq] at hn
    rw [uniq_of_pairwise h.news hm hc (by rw [hn, hk]) (by rw [hn]; simp)]

theorem netApply_gone {T : Table} {N : List Change} {k : Key} (hn : ∀ ch ∈ N, ch.new ≠ some k)
    (ho : ∃ ch ∈ N, ch.old = some k) : netApply full T N k = none := by
  simp only [netApply]
  have hf : N.find? (fun c => decide (c.new = some k)) = none := by
    rw [List.find?_eq_none]; intro c hc; simpa using hn c hc
  rw [hf]
  simp only
  rw [if_pos]
  obtain ⟨ch, hc, hk⟩ := ho
  rw [List.any_eq_true]; exact ⟨ch, hc, by simpa using hk⟩

theorem netApply_other {T : Table} {N : List Change} {k : Key} (hn : ∀ ch ∈ N, ch.new ≠ some k)
    (ho : ∀ ch ∈ N, ch.old ≠ some k) : netApply full T N k = T k := by
  simp only [netApply]
  have hf : N.find? (fun c => decide (c.new = some k)) = none := by
    rw [List.find?_eq_none]; intro c hc; simpa using hn c hc
  rw [hf]
  simp only
  rw [if_neg]
  rw [List.any_eq_true]
  rintro ⟨c, hc, hk⟩
  exact ho c hc (by simpa using hk)

/-- What the sets know about each other. -/
theorem unmatched_upper {T : Table} {N1 N2 : List Change} (_h1 : NetValid T N1)
    (h2 : NetValid (netApply full T N1) N2) {u : Change} (hu : u ∈ N2) {k : Key} (hk : u.old = some k)
    (hun : ∀ l ∈ N1, l.new ≠ some k) :
    netApply full T N1 k = T k ∧ ∀ l ∈ N1, l.old ≠ some k := by
  have he := h2.exist u hu k hk
  have hno : ∀ l ∈ N1, l.old ≠ some k := by
    intro l hl ho
    rw [netApply_gone hun ⟨l, hl, ho⟩] at he
    simp at he
  exact ⟨netApply_other hun hno, hno⟩

theorem unmatched_lower {T : Table} {N1 N2 : List Change} (h1 : NetValid T N1)
    (h2 : NetValid (netApply full T N1) N2) {l : Change} (hl : l ∈ N1) {k : Key} (hk : l.new = some k)
    (hun : ∀ u ∈ N2, u.old ≠ some k) : ∀ u ∈ N2, u.new ≠ some k := by
  intro u hu hn
  rcases h2.free u hu k hn with h | ⟨u', hu', h⟩
  · rw [netApply_new h1 hl hk] at h; cases h
  · exact hun u' hu' h

theorem netValid_composeAll {T : Table} {N1 N2 : List Change} (h1 : NetValid T N1)
    (h2 : NetValid (netApply full T N1) N2) : NetValid T (composeAll N1 N2) := by
  have hfil : ∀ u ∈ N2, ∀ a ∈ N1.filter (chMatch u), ∀ b ∈ N1.filter (chMatch u), a = b := by
    intro u _ a ha b hb
    obtain ⟨ha, ha'⟩ := List.mem_filter.1 ha
    obtain ⟨hb, hb'⟩ := List.mem_filter.1 hb
    rw [chMatch_iff] at ha' hb'
    exact uniq_of_pairwise h1.news ha hb (by rw [← ha'.2, ← hb'.2]) (by rw [← ha'.2]; exact ha'.1)
  have hnd1 : ∀ (R : Change → Change → Prop), ∀ u ∈ N2,
      (if N1.any (chMatch u) then (N1.filter (chMatch u)).map (compose u) else [u]).Pairwise R := by
    intro R u hu
    split
    · have hlen : (N1.filter (chMatch u)).length ≤ 1 := by
        have hp : (N1.filter (chMatch u)).Pairwise (fun _ _ => False) := by
          have := h1.news.sublist (List.filter_sublist (p := chMatch u))
          rw [List.pairwise_iff_getElem] at this ⊢
          intro i j hi hj hij
          have he := hfil u hu _ (List.getElem_mem hi) _ (List.getElem_mem hj)
          have hm := (List.mem_filter.1 (List.getElem_mem hi)).2
          rw [chMatch_iff] at hm
          exact this i j hi hj hij (by rw [← hm.2]; exact hm.1) (by rw [he])
        cases hl : N1.filter (chMatch u) with
        | nil => simp
        | cons a as =>
          cases as with
          | nil => simp
          | cons b bs => rw [hl] at hp; exact ((List.pairwise_cons.1 hp).1 b (by simp)).elim
      cases hl : N1.filter (chMatch u) with
      | nil => simp
      | cons a as =>
        cases as with
        | nil => simp
        | cons b bs => rw [hl] at hlen; simp at hlen
    · simp
  have hsrc : ∀ u, ∀ x ∈ (if N1.any (chMatch u) then (N1.filter (chMatch u)).map (compose u) else [u]),
      x.new = u.new ∧ ((∃ l ∈ N1, u.old ≠ none ∧ u.old = l.new ∧ x.old = l.old) ∨
        (x.old = u.old ∧ ∀ l ∈ N1, ¬ (u.old ≠ none ∧ u.old = l.new))) := by
    intro u x hx
    split at hx
    · obtain ⟨l, hl, rfl⟩ := List.mem_map.1 hx
      obtain ⟨hl, hm⟩ := List.mem_filter.1 hl
      rw [chMatch_iff] at hm
      exact ⟨rfl, Or.inl ⟨l, hl, hm.1, hm.2, rfl⟩⟩
    · next ha =>
      simp only [List.mem_singleton] at hx
      subst hx
      refine ⟨rfl, Or.inr ⟨rfl, ?_⟩⟩
      intro l hl hm
      apply ha
      rw [List.any_eq_true]
      exact ⟨l, hl, chMatch_iff.2 hm⟩
  have holdl : ∀ l ∈ N1, ∀ k, l.old = some k → ∃ ch ∈ composeAll N1 N2, ch.old = some k := by
    intro l hl k hk
    by_cases hm : ∃ u ∈ N2, u.old ≠ none ∧ u.old = l.new
    · obtain ⟨u, hu, h3, h4⟩ := hm
      exact ⟨_, mem_composeAll.2 (Or.inr (Or.inl ⟨u, hu, l, hl, h3, h4, rfl⟩)), hk⟩
    · refine ⟨l, mem_composeAll.2 (Or.inr (Or.inr ⟨hl, ?_⟩)), hk⟩
      intro u hu h; exact hm ⟨u, hu, h⟩
  constructor
  · -- old keys
    rw [composeAll, List.pairwise_append, List.pairwise_flatMap]
    refine ⟨⟨fun u hu => hnd1 _ u hu, ?_⟩, h1.olds.sublist List.filter_sublist, ?_⟩
    · rw [List.pairwise_iff_getElem]
      intro i j hi hj hij x hx y hy hn he
      have hu := List.getElem_mem hi
      have hu' := List.getElem_mem hj
      have hne := (List.pairwise_iff_getElem.1 h2.olds) i j hi hj hij
      obtain ⟨_, hx⟩ := hsrc _ x hx
      obtain ⟨_, hy⟩ := hsrc _ y hy
      rcases hx with ⟨l, hl, h3, h4, h5⟩ | ⟨h5, h6⟩
      · rcases hy with ⟨l', hl', h3', h4', h5'⟩ | ⟨h5', h6'⟩
        · have hll := uniq_of_pairwise h1.olds hl hl' (by rw [← h5, ← h5', he]) (by rw [← h5]; exact hn)
          subst hll
          exact hne h3 (by rw [h4, h4'])
        · cases hk : N2[j].old with
          | none => rw [he, h5', hk] at hn; exact hn rfl
          | some k =>
            have := (unmatched_upper h1 h2 hu' hk (fun l' hl' h => h6' l' hl' ⟨by rw [hk]; simp, by rw [hk, h]⟩)).2 l hl
            exact this (by rw [← h5, he, h5', hk])
      · rcases hy with ⟨l', hl', h3', h4', h5'⟩ | ⟨h5', h6'⟩
        · cases hk : N2[i].old with
          | none => rw [h5, hk] at hn; exact hn rfl
          | some k =>
            have := (unmatched_upper h1 h2 hu hk (fun l' hl' h => h6 l' hl' ⟨by rw [hk]; simp, by rw [hk, h]⟩)).2 l' hl'
            exact this (by rw [← h5', ← he, h5, hk])
        · exact hne (by rw [← h5]; exact hn) (by rw [← h5, ← h5', he])
    · intro x hx y hy hn he
      obtain ⟨u, hu, hx⟩ := List.mem_flatMap.1 hx
      obtain ⟨hy, hun⟩ := List.mem_filter.1 hy
      simp only [Bool.not_eq_true', List.any_eq_false, chMatch_iff] at hun
      obtain ⟨_, hx⟩ := hsrc u x hx
      rcases hx with ⟨l, hl, h3, h4, h5⟩ | ⟨h5, h6⟩
      · have hll := uniq_of_pairwise h1.olds hl hy (by rw [← h5, he]) (by rw [← h5]; exact hn)
        subst hll
        exact hun u hu ⟨h3, h4⟩
      · cases hk : u.old with
        | none => rw [h5, hk] at hn; exact hn rfl
        | some k =>
          have := (unmatched_upper h1 h2 hu hk (fun l' hl' h => h6 l' hl' ⟨by rw [hk]; simp, by rw [hk, h]⟩)).2 y hy
          exact this (by rw [← he, h5, hk])
  · -- new keys
    rw [composeAll, List.pairwise_append, List.pairwise_flatMap]
    refine ⟨⟨fun u hu => hnd1 _ u hu, ?_⟩, h1.news.sublist List.filter_sublist, ?_⟩
    · refine h2.news.imp ?_
      intro a b hab x hx y hy hn he
      have hx := (hsrc _ x hx).1
      have hy := (hsrc _ y hy).1
      exact hab (by rw [← hx]; exact hn) (by rw [← hx, ← hy, he])
    · intro x hx y hy hn he
      obtain ⟨u, hu, hx⟩ := List.mem_flatMap.1 hx
      obtain ⟨hy, hun⟩ := List.mem_filter.1 hy
      simp only [Bool.not_eq_true', List.any_eq_false, chMatch_iff] at hun
      have hx := (hsrc _ x hx).1
      cases hk : y.new with
      | none => rw [he, hk] at hn; exact hn rfl
      | some k =>
        have := unmatched_lower h1 h2 hy hk (fun u' hu' h => hun u' hu' ⟨by rw [h]; simp, by rw [h, hk]⟩) u hu
        exact this (by rw [← hx, he, hk])
  · -- old rows exist
    intro ch hch k hk
    rcases mem_composeAll.1 hch with ⟨u, hu, hun, rfl⟩ | ⟨u, hu, l, hl, h3, h4, rfl⟩ | ⟨hl, hun⟩
    · have h5 := unmatched_upper h1 h2 hu hk (fun l' hl' h => hun l' hl' ⟨by rw [hk]; simp, by rw [hk, h]⟩)
      rw [← h5.1]
      exact h2.exist ch hu k hk
    · exact h1.exist l hl k hk
    · exact h1.exist ch hl k hk
  · -- new keys are free
    intro ch hch k hk
    have hu_free : ∀ u ∈ N2, u.new = some k → T k = none ∨ ∃ ch' ∈ composeAll N1 N2, ch'.old = some k := by
      intro u hu hn
      rcases h2.free u hu k hn with h3 | ⟨u', hu', h3⟩
      · by_cases ho : ∃ l ∈ N1, l.old = some k
        · obtain ⟨l, hl, ho⟩ := ho
          exact Or.inr (holdl l hl k ho)
        · left
          rw [← h3]
          symm
          apply netApply_other
          · intro l hl hn'
            rw [netApply_new h1 hl hn'] at h3; cases h3
          · intro l hl ho'; exact ho ⟨l, hl, ho'⟩
      · by_cases hm : ∃ l ∈ N1, l.new = some k
        · obtain ⟨l, hl, hm⟩ := hm
          rcases h1.free l hl k hm with h4 | ⟨l', hl', h4⟩
          · exact Or.inl h4
          · exact Or.inr (holdl l' hl' k h4)
        · right
          refine ⟨u', mem_composeAll.2 (Or.inl ⟨u', hu', ?_, rfl⟩), h3⟩
          rintro l hl ⟨_, h5⟩
          exact hm ⟨l, hl, by rw [← h5, h3]⟩
    rcases mem_composeAll.1 hch with ⟨u, hu, hun, rfl⟩ | ⟨u, hu, l, hl, h3, h4, rfl⟩ | ⟨hl, hun⟩
    · exact hu_free ch hu hk
    · exact hu_free u hu hk
    · rcases h1.free ch hl k hk with h4 | ⟨l', hl', h4⟩
      · exact Or.inl h4
      · exact Or.inr (holdl l' hl' k h4)

/-- The composed set has the effect of the two sets one after the other. -/
theorem netApply_composeAll {T : Table} {N1 N2 : List Change} (h1 : NetValid T N1)
    (h2 : NetValid (netApply full T N1) N2) :
    netApply full T (composeAll N1 N2) = netApply full (netApply full T N1) N2 := by
  apply netApply_of
  · intro ch hch k hk
    rcases mem_composeAll.1 hch with ⟨u, hu, hun, rfl⟩ | ⟨u, hu, l, hl, h3, h4, rfl⟩ | ⟨hl, hun⟩
    · rw [netApply_new h2 hu hk]
      congr 2
      cases ho : ch.old with
      | none => rfl
      | some k' =>
        have h5 := unmatched_upper h1 h2 hu ho (fun l' hl' h => hun l' hl' ⟨by rw [ho]; simp, by rw [ho, h]⟩)
        simp only [baseOf, h5.1]
    · have hk' : u.new = some k := hk
      rw [netApply_new h2 hu hk']
      congr 1
      simp only [compose]
      rw [write_or]
      congr 1
      cases ho : u.old with
      | none => exact absurd ho h3
      | some k' =>
        simp only [baseOf]
        rw [netApply_new h1 hl (by rw [← h4, ho])]
        rfl
    · have hnu := unmatched_lower h1 h2 hl hk (fun u' hu' h => hun u' hu' ⟨by rw [h]; simp, by rw [h, hk]⟩)
      rw [netApply_other hnu (fun u hu h => hun u hu ⟨by rw [h]; simp, by rw [h, hk]⟩)]
      exact netApply_new h1 hl hk
  · rintro k hn ⟨ch, hch, hk⟩
    have hnu : ∀ u ∈ N2, u.new ≠ some k := by
      intro u hu h
      by_cases hm : ∃ l ∈ N1, u.old ≠ none ∧ u.old = l.new
      · obtain ⟨l, hl, h3, h4⟩ := hm
        exact hn _ (mem_composeAll.2 (Or.inr (Or.inl ⟨u, hu, l, hl, h3, h4, rfl⟩))) h
      · exact hn u (mem_composeAll.2 (Or.inl ⟨u, hu, fun l hl h' => hm ⟨l, hl, h'⟩, rfl⟩)) h
    by_cases ho : ∃ u ∈ N2, u.old = some k
    · exact netApply_gone hnu ho
    · have ho' : ∀ u ∈ N2, u.old ≠ some k := fun u hu h => ho ⟨u, hu, h⟩
      rw [netApply_other hnu ho']
      have hnl : ∀ l ∈ N1, l.new ≠ some k := by
        intro l hl h
        exact hn l (mem_composeAll.2 (Or.inr (Or.inr ⟨hl, fun u hu h' => ho' u hu (by rw [h'.2, h])⟩))) h
      apply netApply_gone hnl
      rcases mem_composeAll.1 hch with ⟨u, hu, hun, rfl⟩ | ⟨u, hu, l, hl, h3, h4, rfl⟩ | ⟨hl, hun⟩
      · exact absurd hk (ho' ch hu)
      · exact ⟨l, hl, hk⟩
      · exact ⟨ch, hl, hk⟩
  · intro k hn hno
    have hnu : ∀ u ∈ N2, u.new ≠ some k := by
      intro u hu h
      by_cases hm : ∃ l ∈ N1, u.old ≠ none ∧ u.old = l.new
      · obtain ⟨l, hl, h3, h4⟩ := hm
        exact hn _ (mem_composeAll.2 (Or.inr (Or.inl ⟨u, hu, l, hl, h3, h4, rfl⟩))) h
      · exact hn u (mem_composeAll.2 (Or.inl ⟨u, hu, fun l hl h' => hm ⟨l, hl, h'⟩, rfl⟩)) h
    have hol : ∀ l ∈ N1, l.old ≠ some k := by
      intro l hl h
      by_cases hm : ∃ u ∈ N2, u.old ≠ none ∧ u.old = l.new
      · obtain ⟨u, hu, h3, h4⟩ := hm
        exact hno _ (mem_composeAll.2 (Or.inr (Or.inl ⟨u, hu, l, hl, h3, h4, rfl⟩))) h
      · exact hno l (mem_composeAll.2 (Or.inr (Or.inr ⟨hl, fun u hu h' => hm ⟨u, hu, h'⟩⟩))) h
    by_cases ho : ∃ u ∈ N2, u.old = some k
    · rw [netApply_gone hnu ho]
      obtain ⟨u, hu, huk⟩ := ho
      by_cases hm : ∃ l ∈ N1, l.new = some k
      · obtain ⟨l, hl, hlk⟩ := hm
        rcases h1.free l hl k hlk with h3 | ⟨l', hl', h3⟩
        · exact h3.symm
        · exact absurd h3 (hol l' hl')
      · exfalso
        apply hno u (mem_composeAll.2 (Or.inl ⟨u, hu, ?_, rfl⟩)) huk
        rintro l hl ⟨_, h5⟩
        exact hm ⟨l, hl, by rw [← h5, huk]⟩
    · have ho' : ∀ u ∈ N2, u.old ≠ some k := fun u hu h => ho ⟨u, hu, h⟩
      rw [netApply_other hnu ho']
      apply netApply_other _ hol
      intro l hl h
      exact hn l (mem_composeAll.2 (Or.inr (Or.inr ⟨hl, fun u hu h' => ho' u hu (by rw [h'.2, h])⟩))) h

/-! ### the order of a change set does not matter -/

theorem NetValid.perm {T : Table} {N N' : List Change} (hp : N.Perm N') (h : NetValid T N) : NetValid T N' := by
  constructor
  · refine (hp.pairwise_iff ?_).1 h.olds
    intro a b hab hn he; exact hab (by rw [← he]; exact hn) he.symm
  · refine (hp.pairwise_iff ?_).1 h.news
    intro a b hab hn he; exact hab (by rw [← he]; exact hn) he.symm
  · intro ch hch; exact h.exist ch (hp.mem_iff.2 hch)
  · intro ch hch k hk
    rcases h.free ch (hp.mem_iff.2 hch) k hk with h1 | ⟨c, hc, h1⟩
    · exact Or.inl h1
    · exact Or.inr ⟨c, hp.mem_iff.1 hc, h1⟩

theorem netApply_perm {T : Table} {N N' : List Change} (hp : N.Perm N') (h : NetValid T N) :
    netApply full T N' = netApply full T N := by
  apply netApply_of
  · intro ch hch k hk; exact netApply_new h (hp.mem_iff.2 hch) hk
  · rintro k hn ⟨ch, hch, hk⟩
    exact netApply_gone (fun c hc => hn c (hp.mem_iff.1 hc)) ⟨ch, hp.mem_iff.2 hch, hk⟩
  · intro k hn ho
    exact netApply_other (fun c hc => hn c (hp.mem_iff.1 hc)) (fun c hc => ho c (hp.mem_iff.1 hc))

end Seafowl.Sync
