import Verif.Sync.WriterLemmas

/-! # The bookkeeping invariant of the sync writer -/

namespace Seafowl.Sync

variable {σ β : Type}

/-- The part of a location's items that matters for bookkeeping. -/
def skelAt (w : Writer σ β) (u : Url) : Option (List (List TxId × List Nat)) :=
  (alGet u w.syncs).map (fun c => c.syncs.map (fun it => (it.txIds, it.msgs)))

theorem pending_eq_skel (w : Writer σ β) (u : Url) :
    pending w u = match skelAt w u with
      | some l => l.flatMap (·.2)
      | none => [] := by
  simp only [pending, skelAt]
  cases alGet u w.syncs <;> simp [List.flatMap_map]

/-- Bookkeeping invariant.  `log0` are the logs at process start. -/
structure Inv (env : Env σ β) (log0 : Log σ β) (w : Writer σ β) (log : Log σ β)
    (acc : List (Msg σ β)) : Prop where
  keys : (w.syncs.map (·.1)).Nodup
  ids : w.txs.map (·.1) = List.range' (w.nextTx - w.txs.length) w.txs.length
  lenle : w.txs.length ≤ w.nextTx
  count : w.nextTx = txCount acc
  seqs : ∀ id tx, (id, tx) ∈ w.txs → tx.sequence = ((closings acc)[id]?).map (·.2)
  origins : ∀ id tx, (id, tx) ∈ w.txs →
    ∀ j, (hj : j < acc.length) → txNo acc j = id → acc[j].origin = tx.origin
  sameOrigin : ∀ i j, (hi : i < acc.length) → (hj : j < acc.length) →
    txNo acc i = txNo acc j → acc[i].origin = acc[j].origin
  items : ∀ u l, skelAt w u = some l → l ≠ [] ∧
    ∀ p ∈ l, p.2 ≠ [] ∧ p.1 = p.2.map (txNo acc)
  locs : ∀ u j, j ∈ pending w u → ∃ tx, (txNo acc j, tx) ∈ w.txs ∧ u ∈ tx.locations
  locs' : ∀ id tx u, (id, tx) ∈ w.txs → u ∈ tx.locations →
    ∃ j, j ∈ pending w u ∧ txNo acc j = id
  mem : ∀ o, w.originMemory o = lastOf o (closings acc)
  dur : ∀ o, w.originDurable o = lastOf o ((closings acc).take (w.nextTx - w.txs.length))
  durle : w.nextTx - w.txs.length ≤ (closings acc).length
  split : ∀ u, ∃ done, positions env acc u = done ++ pending w u ∧
    ∀ j ∈ done, j ∈ committed log0 log u
  pre : ∀ u, log0 u <+: log u

namespace Inv

variable {env : Env σ β} {log0 log : Log σ β} {w : Writer σ β} {acc : List (Msg σ β)}

theorem pending_sub (h : Inv env log0 w log acc) {u : Url} {j : Nat} (hj : j ∈ pending w u) :
    j ∈ positions env acc u := by
  obtain ⟨done, h1, _⟩ := h.split u
  rw [h1]; exact List.mem_append_right _ hj

theorem pending_lt (h : Inv env log0 w log acc) {u : Url} {j : Nat} (hj : j ∈ pending w u) :
    j < acc.length := (mem_positions.1 (h.pending_sub hj)).1

/-- The invariant only depends on the bookkeeping part of the writer. -/
theorem congr (h : Inv env log0 w log acc) {w' : Writer σ β}
    (hk : w'.syncs.map (·.1) = w.syncs.map (·.1)) (hs : ∀ u, skelAt w' u = skelAt w u)
    (ht : w'.txs = w.txs) (hn : w'.nextTx = w.nextTx) (hm : w'.originMemory = w.originMemory)
    (hd : w'.originDurable = w.originDurable) : Inv env log0 w' log acc := by
  have hp : ∀ u, pending w' u = pending w u := by
    intro u; rw [pending_eq_skel, pending_eq_skel, hs]
  constructor
  · rw [hk]; exact h.keys
  · rw [ht, hn]; exact h.ids
  · rw [ht, hn]; exact h.lenle
  · rw [hn]; exact h.count
  · rw [ht]; exact h.seqs
  · rw [ht]; exact h.origins
  · exact h.sameOrigin
  · intro u l hl; rw [hs] at hl; exact h.items u l hl
  · intro u j hj; rw [hp] at hj; rw [ht]; exact h.locs u j hj
  · intro id tx u hm' hl; rw [ht] at hm'; rw [hp]; exact h.locs' id tx u hm' hl
  · rw [hm]; exact h.mem
  · rw [hd, hn, ht]; exact h.dur
  · rw [hn, ht]; exact h.durle
  · intro u; rw [hp]; exact h.split u
  · exact h.pre

theorem countP_eq (_h : Inv env log0 w log acc) :
    (closings acc).length = acc.countP Msg.closes := closings_length acc

theorem last_open (h : Inv env log0 w log acc) {init : List (TxId × Tx)} {id : TxId} {tx : Tx}
    (ht : w.txs = init ++ [(id, tx)]) (hs : tx.sequence = none) :
    id = (closings acc).length ∧ w.nextTx = (closings acc).length + 1 := by
  have hids := h.ids
  have hlen : w.txs.length = init.length + 1 := by simp [ht]
  have hid : id + 1 = w.nextTx := by
    have h1 : (w.txs.map (·.1))[init.length]? = some id := by simp [ht]
    rw [hids, List.getElem?_range' ] at h1
    · injection h1 with h1
      have := h.lenle
      omega
    · omega
  have h2 := h.seqs id tx (by simp [ht])
  rw [hs] at h2
  have h3 : (closings acc).length ≤ id := by
    cases hc : (closings acc)[id]? with
    | none => exact List.getElem?_eq_none_iff.1 hc
    | some p => rw [hc] at h2; simp at h2
  have h4 := h.count
  rw [txCount, ← closings_length] at h4
  split at h4 <;> omega

theorem not_open (h : Inv env log0 w log acc)
    (hl : ∀ id tx, w.txs.getLast? = some (id, tx) → tx.sequence ≠ none) :
    w.nextTx = (closings acc).length ∧ isOpen acc = false := by
  have h4 := h.count
  rw [txCount, ← closings_length] at h4
  cases ho : isOpen acc with
  | false => rw [ho] at h4; simpa using h4
  | true =>
    rw [ho] at h4
    simp only [if_true] at h4
    have h5 := h.durle
    have hne : w.txs ≠ [] := by
      intro hnil
      rw [hnil] at h5; simp at h5; omega
    exfalso
    obtain ⟨init, p, hp⟩ : ∃ init p, w.txs = init ++ [p] := by
      rcases List.eq_nil_or_concat w.txs with h | ⟨a, b, h⟩
      · exact absurd h hne
      · exact ⟨a, b, by simpa using h⟩
    obtain ⟨id, tx⟩ := p
    have hlast : w.txs.getLast? = some (id, tx) := by simp [hp]
    have hids := h.ids
    have h1 : (w.txs.map (·.1))[init.length]? = some id := by simp [hp]
    have hlen : w.txs.length = init.length + 1 := by simp [hp]
    rw [hids, List.getElem?_range'] at h1
    · injection h1 with h1
      have := h.lenle
      have h2 := h.seqs id tx (by simp [hp])
      have h3 : (closings acc)[id]? = none := List.getElem?_eq_none_iff.2 (by omega)
      rw [h3] at h2
      exact hl id tx hlast (by simpa using h2)
    · omega

end Inv

theorem txNo_lt_of_not_open {acc : List (Msg σ β)} (ho : isOpen acc = false) {j : Nat}
    (hj : j < acc.length) : txNo acc j < acc.countP Msg.closes := by
  rcases List.eq_nil_or_concat acc with h | ⟨init, m, h⟩
  · subst h; simp at hj
  · have h : acc = init ++ [m] := by simpa using h
    subst h
    have hm : m.closes = true := by
      simp only [isOpen, List.getLast?_concat] at ho
      simp only [Msg.closes]
      cases hs : m.sequence with
      | none => rw [hs] at ho; simp at ho
      | some s => rfl
    have h1 : txNo (init ++ [m]) j ≤ txNo (init ++ [m]) init.length := by
      apply txNo_mono; simp at hj; omega
    rw [txNo_append (Nat.le_refl _), txNo_length] at h1
    simp [List.countP_append, hm]
    omega

/-! ### enqueue -/

theorem pushItem_skel (env : Env σ β) (syncs : List (Item σ β)) (t : TxId) (s : σ) (bs : List β)
    (mid : Nat) :
    ((pushItem env syncs t s bs mid).map (fun it => (it.txIds, it.msgs))) =
        syncs.map (fun it => (it.txIds, it.msgs)) ++ [([t], [mid])] ∨
    ∃ init ti ms, syncs.map (fun it => (it.txIds, it.msgs)) = init ++ [(ti, ms)] ∧
      ((pushItem env syncs t s bs mid).map (fun it => (it.txIds, it.msgs))) =
        init ++ [(ti ++ [t], ms ++ [mid])] := by
  rcases List.eq_nil_or_concat syncs with h | ⟨init, prev, h⟩
  · subst h; left; simp [pushItem, newItem]
  · have h : syncs = init ++ [prev] := by simpa using h
    subst h
    simp only [pushItem, List.getLast?_concat, List.dropLast_concat]
    split
    · right
      exact ⟨init.map (fun it => (it.txIds, it.msgs)), prev.txIds, prev.msgs, by simp, by simp⟩
    · left; simp [newItem]

theorem buffer_keys (env : Env σ β) (w : Writer σ β) (now : Nat) (u : Url) (t : TxId) (s : σ)
    (bs : List β) (mid : Nat) (h : (w.syncs.map (·.1)).Nodup) :
    ((buffer env w now u t s bs mid).syncs.map (·.1)).Nodup := by
  simp only [buffer]
  split
  · rw [alModify_keys]; exact h
  · next hg =>
    rw [List.map_append, List.nodup_append]
    refine ⟨h, by simp, ?_⟩
    intro a ha b hb
    simp at hb
    subst hb
    rintro rfl
    exact (alGet_none_iff.1 hg) ha

theorem buffer_skel_other (env : Env σ β) (w : Writer σ β) (now : Nat) (u u' : Url) (t : TxId)
    (s : σ) (bs : List β) (mid : Nat) (hne : u' ≠ u) :
    skelAt (buffer env w now u t s bs mid) u' = skelAt w u' := by
  simp only [buffer, skelAt]
  split
  · rw [alGet_alModify]; simp [hne]
  · rw [alGet_append_singleton]
    cases alGet u' w.syncs <;> simp [hne]

theorem buffer_skel_same (env : Env σ β) (w : Writer σ β) (now : Nat) (u : Url) (t : TxId)
    (s : σ) (bs : List β) (mid : Nat) :
    (∃ l, skelAt (buffer env w now u t s bs mid) u = some (l ++ [([t], [mid])]) ∧
      (skelAt w u = some l ∨ (l = [] ∧ skelAt w u = none))) ∨
    (∃ init ti ms, skelAt w u = some (init ++ [(ti, ms)]) ∧
      skelAt (buffer env w now u t s bs mid) u = some (init ++ [(ti ++ [t], ms ++ [mid])])) := by
  simp only [buffer, skelAt]
  split
  · next c hc =>
    rw [alGet_alModify]
    simp only [if_true, hc, Option.map_some]
    rcases pushItem_skel env c.syncs t s bs mid with h | ⟨init, ti, ms, h1, h2⟩
    · left; exact ⟨_, by rw [h], Or.inl rfl⟩
    · right; exact ⟨init, ti, ms, by rw [h1], by rw [h2]⟩
  · next hc =>
    left
    refine ⟨[], ?_, Or.inr ⟨rfl, by simp [hc]⟩⟩
    rw [alGet_append_singleton]
    simp [hc, newItem]

theorem buffer_pending (env : Env σ β) (w : Writer σ β) (now : Nat) (u u' : Url) (t : TxId)
    (s : σ) (bs : List β) (mid : Nat) :
    pending (buffer env w now u t s bs mid) u' =
      pending w u' ++ (if u = u' then [mid] else []) := by
  by_cases hne : u = u'
  · subst hne
    rw [pending_eq_skel, pending_eq_skel]
    rcases buffer_skel_same env w now u t s bs mid with ⟨l, h1, h2 | ⟨h2, h3⟩⟩ | ⟨init, ti, ms, h1, h2⟩
    · simp [h1, h2]
    · simp [h1, h2, h3]
    · simp [h1, h2]
  · rw [pending_eq_skel, pending_eq_skel, buffer_skel_other _ _ _ _ _ _ _ _ _ (fun h => hne h.symm)]
    simp [hne]

/-- What `assignTx` does to the queue of transactions when it succeeds. -/
theorem assignTx_ok {w w1 : Writer σ β} {u : Url} {o : Origin} {q : Option Seq} {n : Nat} {t : TxId}
    (h : assignTx w u o q n = .ok (w1, t)) :
    (w1.syncs = w.syncs ∧ w1.size = w.size ∧ w1.originMemory = w.originMemory ∧
      w1.originDurable = w.originDurable) ∧
    ((∃ init tx, w.txs = init ++ [(t, tx)] ∧ tx.sequence = none ∧ o = tx.origin ∧
        w1.nextTx = w.nextTx ∧
        w1.txs = init ++ [(t, { origin := tx.origin, sequence := q,
                                locations := if 0 < n then u :: tx.locations else tx.locations })]) ∨
     ((∀ id tx, w.txs.getLast? = some (id, tx) → tx.sequence ≠ none) ∧ ¬ (n = 0 ∧ q.isSome) ∧
        t = w.nextTx ∧ w1.nextTx = w.nextTx + 1 ∧
        w1.txs = w.txs ++ [(t, { origin := o, sequence := q, locations := [u] })])) := by
  have hstart : ∀ (_ : ∀ id tx, w.txs.getLast? = some (id, tx) → tx.sequence ≠ none),
      startTx w u o q n = .ok (w1, t) →
      (w1.syncs = w.syncs ∧ w1.size = w.size ∧ w1.originMemory = w.originMemory ∧
      w1.originDurable = w.originDurable) ∧
      ((∃ init tx, w.txs = init ++ [(t, tx)] ∧ tx.sequence = none ∧ o = tx.origin ∧
        w1.nextTx = w.nextTx ∧
        w1.txs = init ++ [(t, { origin := tx.origin, sequence := q,
                                locations := if 0 < n then u :: tx.locations else tx.locations })]) ∨
     ((∀ id tx, w.txs.getLast? = some (id, tx) → tx.sequence ≠ none) ∧ ¬ (n = 0 ∧ q.isSome) ∧
        t = w.nextTx ∧ w1.nextTx = w.nextTx + 1 ∧
        w1.txs = w.txs ++ [(t, { origin := o, sequence := q, locations := [u] })])) := by
    intro hl hs
    unfold startTx at hs
    split at hs
    · cases hs
    · next hc =>
      injection hs with hs
      injection hs with hs1 hs2
      subst hs1 hs2
      exact ⟨⟨rfl, rfl, rfl, rfl⟩, Or.inr ⟨hl, hc, rfl, rfl, rfl⟩⟩
  unfold assignTx at h
  split at h
  · next id tx hlast =>
    split at h
    · next hnone =>
      split at h
      · cases h
      · next ho =>
        injection h with h
        injection h with h1 h2
        subst h1 h2
        have ho : o = tx.origin := by simpa using ho
        refine ⟨⟨rfl, rfl, rfl, rfl⟩, Or.inl ⟨w.txs.dropLast, tx, ?_, hnone, ho, rfl, ?_⟩⟩
        · rcases List.eq_nil_or_concat w.txs with h | ⟨a, b, h⟩
          · rw [h] at hlast; simp at hlast
          · have h : w.txs = a ++ [b] := by simpa using h
            rw [h] at hlast ⊢
            simp at hlast
            simp [hlast]
        · simp only [hnone]
          cases q <;> simp
    · next hsome =>
      refine hstart ?_ h
      intro id' tx' h'
      rw [hlast] at h'
      injection h' with h'
      injection h' with _ h'
      subst h'; exact hsome
  · next hlast =>
    exact hstart (fun id tx h' => by rw [hlast] at h'; cases h') h

end Seafowl.Sync
