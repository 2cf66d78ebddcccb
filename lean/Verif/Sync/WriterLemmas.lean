import Verif.Sync.WriterSpec

/-! # Helper lemmas for the sync writer -/

namespace Seafowl.Sync

variable {σ β : Type}

section AList
variable {κ α : Type} [DecidableEq κ]

theorem alGet_mem {k : κ} {a : α} {l : List (κ × α)} (h : alGet k l = some a) : (k, a) ∈ l := by
  induction l with
  | nil => simp [alGet] at h
  | cons p rest ih =>
    obtain ⟨k', a'⟩ := p
    simp only [alGet] at h
    split at h
    · simp_all
    · simp [ih h]

theorem alGet_none_iff {k : κ} {l : List (κ × α)} : alGet k l = none ↔ k ∉ l.map (·.1) := by
  induction l with
  | nil => simp [alGet]
  | cons p rest ih =>
    obtain ⟨k', a'⟩ := p
    simp only [alGet]
    split
    · simp_all
    · rw [ih]; simp; intro _; exact fun h => absurd h.symm (by assumption)

theorem alGet_of_mem {k : κ} {a : α} {l : List (κ × α)} (hn : (l.map (·.1)).Nodup)
    (h : (k, a) ∈ l) : alGet k l = some a := by
  induction l with
  | nil => simp at h
  | cons p rest ih =>
    obtain ⟨k', a'⟩ := p
    simp only [List.map_cons, List.nodup_cons] at hn
    simp only [alGet]
    rcases List.mem_cons.1 h with h | h
    · injection h with h1 h2; subst h1 h2; simp
    · have : k' ≠ k := by
        rintro rfl
        exact hn.1 (List.mem_map.2 ⟨_, h, rfl⟩)
      simp [this, ih hn.2 h]

theorem alModify_keys (k : κ) (f : α → α) (l : List (κ × α)) :
    (alModify k f l).map (·.1) = l.map (·.1) := by
  induction l with
  | nil => rfl
  | cons p rest ih =>
    obtain ⟨k', a'⟩ := p
    simp only [alModify]
    split <;> simp_all

theorem alGet_alModify (k k' : κ) (f : α → α) (l : List (κ × α)) :
    alGet k' (alModify k f l) = if k' = k then (alGet k l).map f else alGet k' l := by
  induction l with
  | nil => simp [alModify, alGet]
  | cons p rest ih =>
    obtain ⟨k₀, a₀⟩ := p
    simp only [alModify]
    split
    · next h =>
      subst h
      simp only [alGet]
      by_cases h' : k₀ = k'
      · subst h'; simp
      · have : ¬ k' = k₀ := fun h => h' h.symm
        simp [h', this]
    · next h =>
      simp only [alGet]
      by_cases h' : k₀ = k'
      · subst h'
        simp [h]
      · simp only [h', if_false, ih]
        by_cases hk : k' = k
        · subst hk; simp [h]
        · simp [hk]

theorem alErase_keys_sublist (k : κ) (l : List (κ × α)) :
    ((alErase k l).map (·.1)).Sublist (l.map (·.1)) := by
  induction l with
  | nil => simp [alErase]
  | cons p rest ih =>
    obtain ⟨k', a'⟩ := p
    simp only [alErase]
    split
    · simp
    · simp only [List.map_cons]; exact ih.cons_cons _

theorem alErase_sublist (k : κ) (l : List (κ × α)) : (alErase k l).Sublist l := by
  induction l with
  | nil => simp [alErase]
  | cons p rest ih =>
    obtain ⟨k', a'⟩ := p
    simp only [alErase]
    split
    · simp
    · exact ih.cons_cons _

theorem alGet_alErase (k k' : κ) (l : List (κ × α)) (hn : (l.map (·.1)).Nodup) :
    alGet k' (alErase k l) = if k' = k then none else alGet k' l := by
  induction l with
  | nil => simp [alErase, alGet]
  | cons p rest ih =>
    obtain ⟨k₀, a₀⟩ := p
    simp only [List.map_cons, List.nodup_cons] at hn
    simp only [alErase]
    split
    · next h =>
      subst h
      by_cases h' : k' = k₀
      · subst h'; simp [alGet_none_iff.2 hn.1]
      · have : ¬ k₀ = k' := fun h => h' h.symm
        simp [alGet, h', this]
    · next h =>
      simp only [alGet, ih hn.2]
      by_cases h' : k₀ = k'
      · subst h'; simp [h]
      · simp [h']

theorem alErase_length (k : κ) (l : List (κ × α)) (a : α) (h : alGet k l = some a) :
    (alErase k l).length + 1 = l.length := by
  induction l with
  | nil => simp [alGet] at h
  | cons p rest ih =>
    obtain ⟨k', a'⟩ := p
    simp only [alGet] at h
    simp only [alErase]
    split at h
    · next h' => simp [h']
    · next h' => simp [h', ih h]

theorem alGet_append_singleton (k k' : κ) (a : α) (l : List (κ × α)) :
    alGet k' (l ++ [(k, a)]) = match alGet k' l with
      | some x => some x
      | none => if k' = k then some a else none := by
  induction l with
  | nil => simp [alGet, eq_comm]
  | cons p rest ih =>
    obtain ⟨k₀, a₀⟩ := p
    simp only [List.cons_append, alGet]
    by_cases h : k₀ = k'
    · simp [h]
    · simp [h, ih]

/-- Sum of a quantity over the values of a map. -/
def alSum (f : α → Nat) (l : List (κ × α)) : Nat := (l.map (fun p => f p.2)).sum

theorem alSum_alModify (k : κ) (f : α → Nat) (g : α → α) (l : List (κ × α)) (a : α)
    (h : alGet k l = some a) : alSum f (alModify k g l) + f a = alSum f l + f (g a) := by
  induction l with
  | nil => simp [alGet] at h
  | cons p rest ih =>
    obtain ⟨k', a'⟩ := p
    simp only [alGet] at h
    simp only [alModify]
    split at h
    · next h' =>
      injection h with h; subst h
      simp [h', alSum]; omega
    · next h' =>
      have := ih h
      simp only [h', if_false, alSum, List.map_cons, List.sum_cons] at *
      omega

theorem alSum_alErase (k : κ) (f : α → Nat) (l : List (κ × α)) (a : α)
    (h : alGet k l = some a) : alSum f (alErase k l) + f a = alSum f l := by
  induction l with
  | nil => simp [alGet] at h
  | cons p rest ih =>
    obtain ⟨k', a'⟩ := p
    simp only [alGet] at h
    simp only [alErase]
    split at h
    · next h' =>
      injection h with h; subst h
      simp [h', alSum]; omega
    · next h' =>
      have := ih h
      simp only [h', if_false, alSum, List.map_cons, List.sum_cons] at *
      omega

theorem le_alSum (k : κ) (f : α → Nat) (l : List (κ × α)) (a : α)
    (h : alGet k l = some a) : f a ≤ alSum f l := by
  have := alSum_alErase k f l a h
  omega

end AList

/-- Induction from the end of a list. -/
theorem snocInd {α : Type} {P : List α → Prop} (h0 : P []) (h1 : ∀ l a, P l → P (l ++ [a]))
    (l : List α) : P l := by
  have : ∀ l : List α, P l.reverse := by
    intro l
    induction l with
    | nil => exact h0
    | cons a l ih => rw [List.reverse_cons]; exact h1 _ _ ih
  simpa using this l.reverse

/-! ### list facts about the specification functions -/

theorem positions_append (env : Env σ β) (acc : List (Msg σ β)) (m : Msg σ β) (u : Url) :
    positions env (acc ++ [m]) u =
      positions env acc u ++ (if m.url = u ∧ m.nonempty env then [acc.length] else []) := by
  simp only [positions, List.zipIdx_append, List.filterMap_append]
  congr 1
  simp only [List.zipIdx_cons, List.zipIdx_nil, List.filterMap_cons, List.filterMap_nil, Nat.zero_add]
  split <;> rename_i h <;> split at h <;> simp_all

theorem mem_positions {env : Env σ β} {acc : List (Msg σ β)} {u : Url} {j : Nat} :
    j ∈ positions env acc u ↔ ∃ h : j < acc.length, acc[j].url = u ∧ acc[j].nonempty env = true := by
  simp only [positions, List.mem_filterMap]
  constructor
  · rintro ⟨⟨m, i⟩, hm, h⟩
    split at h
    · next hc =>
      injection h with h; subst h
      rw [List.mem_zipIdx_iff_getElem?] at hm
      simp only at hm hc
      obtain ⟨hlt, heq⟩ := List.getElem?_eq_some_iff.1 hm
      refine ⟨hlt, ?_⟩
      rw [heq]; exact hc
    · simp at h
  · rintro ⟨hlt, h1, h2⟩
    refine ⟨(acc[j], j), ?_, ?_⟩
    · rw [List.mem_zipIdx_iff_getElem?]; simp
    · simp [h1, h2]

theorem txNo_append {acc : List (Msg σ β)} {m : Msg σ β} {j : Nat} (h : j ≤ acc.length) :
    txNo (acc ++ [m]) j = txNo acc j := by
  simp only [txNo, List.take_append_of_le_length h]

theorem txNo_length (acc : List (Msg σ β)) : txNo acc acc.length = acc.countP Msg.closes := by
  simp [txNo]

theorem txNo_mono {acc : List (Msg σ β)} {i j : Nat} (h : i ≤ j) : txNo acc i ≤ txNo acc j := by
  simp only [txNo]
  apply List.Sublist.countP_le
  exact (List.take_prefix_take_left h).sublist

theorem closings_length (acc : List (Msg σ β)) : (closings acc).length = acc.countP Msg.closes := by
  induction acc with
  | nil => rfl
  | cons m rest ih =>
    simp only [closings, List.filterMap_cons, List.countP_cons, Msg.closes] at *
    rcases Option.eq_none_or_eq_some m.sequence with h | ⟨s, h⟩ <;> simp [ih, h]

theorem closings_append (acc : List (Msg σ β)) (m : Msg σ β) :
    closings (acc ++ [m]) = closings acc ++
      (match m.sequence with | some s => [(m.origin, s)] | none => []) := by
  simp only [closings, List.filterMap_append]
  congr 1
  simp only [List.filterMap_cons, List.filterMap_nil]
  cases m.sequence <;> rfl

/-- The `k`-th completed transaction has a closing message whose transaction number is `k`. -/
theorem exists_closing {acc : List (Msg σ β)} {k : Nat} {o : Origin} {s : Seq}
    (h : (closings acc)[k]? = some (o, s)) :
    ∃ i, ∃ hi : i < acc.length, acc[i].origin = o ∧ acc[i].sequence = some s ∧ txNo acc i = k := by
  induction acc generalizing k with
  | nil => simp [closings] at h
  | cons m rest ih =>
    simp only [closings, List.filterMap_cons] at h
    cases hm : m.sequence with
    | none =>
      rw [hm] at h
      simp only [Option.map_none] at h
      obtain ⟨i, hi, h1, h2, h3⟩ := ih (k := k) h
      refine ⟨i + 1, by simp; omega, by simpa using h1, by simpa using h2, ?_⟩
      simp only [txNo, List.take_succ_cons, List.countP_cons, Msg.closes, hm] at *
      simpa using h3
    | some s' =>
      rw [hm] at h
      simp only [Option.map_some] at h
      cases k with
      | zero =>
        simp only [List.getElem?_cons_zero, Option.some.injEq, Prod.mk.injEq] at h
        exact ⟨0, by simp, by simpa using h.1, by simp [hm, h.2], by simp [txNo]⟩
      | succ k =>
        simp only [List.getElem?_cons_succ] at h
        obtain ⟨i, hi, h1, h2, h3⟩ := ih (k := k) h
        refine ⟨i + 1, by simp; omega, by simpa using h1, by simpa using h2, ?_⟩
        simp only [txNo, List.take_succ_cons, List.countP_cons, Msg.closes, hm] at *
        simp [h3]

/-- Conversely every closing message appears among the completed transactions. -/
theorem closing_mem {acc : List (Msg σ β)} {i : Nat} (hi : i < acc.length) {s : Seq}
    (hs : acc[i].sequence = some s) : (closings acc)[txNo acc i]? = some (acc[i].origin, s) := by
  induction acc generalizing i with
  | nil => simp at hi
  | cons m rest ih =>
    cases i with
    | zero =>
      simp only [List.getElem_cons_zero] at hs
      simp [closings, txNo, hs]
    | succ i =>
      simp only [List.getElem_cons_succ] at hs
      have := ih (i := i) (by simpa using hi) hs
      simp only [closings, txNo, List.filterMap_cons, List.take_succ_cons, List.countP_cons,
        Msg.closes, List.getElem_cons_succ] at *
      rcases Option.eq_none_or_eq_some m.sequence with h | ⟨s, h⟩ <;> simp [this, h]

theorem lastOf_append_singleton (o : Origin) (cs : List (Origin × Seq)) (p : Origin × Seq) :
    lastOf o (cs ++ [p]) = if o = p.1 then some p.2 else lastOf o cs := by
  simp only [lastOf, List.filter_append]
  by_cases h : o = p.1
  · subst h; simp
  · have : ¬ p.1 = o := fun h' => h h'.symm
    simp [h, this]

theorem lastOf_some_mem {o : Origin} {cs : List (Origin × Seq)} {s : Seq}
    (h : lastOf o cs = some s) : ∃ k : Nat, cs[k]? = some (o, s) ∧
      ∀ k' s', cs[k']? = some (o, s') → k' ≤ k := by
  induction cs using snocInd with
  | h0 => simp [lastOf] at h
  | h1 cs p ih =>
    rw [lastOf_append_singleton] at h
    split at h
    · next ho =>
      injection h with h
      subst ho h
      refine ⟨cs.length, by simp, ?_⟩
      intro k' s' hk
      have := (List.getElem?_eq_some_iff.1 hk).1
      simp at this; omega
    · next ho =>
      obtain ⟨k, hk, hmax⟩ := ih h
      refine ⟨k, ?_, ?_⟩
      · have := (List.getElem?_eq_some_iff.1 hk).1
        rw [List.getElem?_append_left this]; exact hk
      · intro k' s' hk'
        have hlt := (List.getElem?_eq_some_iff.1 hk').1
        by_cases hkl : k' < cs.length
        · rw [List.getElem?_append_left hkl] at hk'
          exact hmax k' s' hk'
        · have : k' = cs.length := by simp at hlt; omega
          subst this
          simp at hk'
          exact absurd (by rw [hk']) ho

end Seafowl.Sync
