import Verif.Sync.WriterInv

/-! # Preservation of the bookkeeping invariant -/

namespace Seafowl.Sync

variable {σ β : Type}

/-- Decomposition of a successful `enqueue`. -/
theorem enqueue_ok {env : Env σ β} {w w' : Writer σ β} {now : Nat} {m : Msg σ β} {mid : Nat}
    (h : enqueue env w now m mid = .ok w') :
    ∃ w1 t, assignTx w m.url m.origin m.sequence (rowsOfBatches env m.batches) = .ok (w1, t) ∧
      w'.txs = w1.txs ∧ w'.nextTx = w1.nextTx ∧ w'.originDurable = w1.originDurable ∧
      w'.originMemory = (match m.sequence with
        | some s => fnSet w1.originMemory m.origin s
        | none => w1.originMemory) ∧
      w'.syncs = (if m.nonempty env then
          (buffer env w1 now m.url t m.schema m.batches mid).syncs else w1.syncs) ∧
      w'.size = (if m.nonempty env then
          (buffer env w1 now m.url t m.schema m.batches mid).size else w1.size) := by
  simp only [enqueue] at h
  split at h
  · cases h
  · next w1 t ha =>
    refine ⟨w1, t, ha, ?_⟩
    injection h with h
    subst h
    simp only [Msg.nonempty, decide_eq_true_eq]
    by_cases hr : 0 < rowsOfBatches env m.batches <;>
      cases m.sequence <;> simp [hr, buffer]

theorem enqueue_pending {env : Env σ β} {w w' : Writer σ β} {now : Nat} {m : Msg σ β} {mid : Nat}
    (h : enqueue env w now m mid = .ok w') (u : Url) :
    pending w' u = pending w u ++ (if m.url = u ∧ m.nonempty env then [mid] else []) := by
  obtain ⟨w1, t, ha, _, _, _, _, hsy, _⟩ := enqueue_ok h
  obtain ⟨⟨hs1, _, _, _⟩, _⟩ := assignTx_ok ha
  have : pending w' u = if m.nonempty env then
      pending (buffer env w1 now m.url t m.schema m.batches mid) u else pending w1 u := by
    by_cases hne : m.nonempty env = true <;> simp [pending, hsy, hne]
  rw [this]
  have h1 : pending w1 u = pending w u := by simp [pending, hs1]
  by_cases hne : m.nonempty env = true
  · rw [if_pos hne, buffer_pending, h1]
    simp [hne]
  · simp [hne, h1]

theorem range'_concat (a n : Nat) : List.range' a n ++ [a + n] = List.range' a (n + 1) := by
  have := List.range'_concat (s := a) (n := n) (step := 1)
  simpa using this.symm

theorem Inv.enqueue {env : Env σ β} {log0 log : Log σ β} {w w' : Writer σ β}
    {acc : List (Msg σ β)} {now : Nat} {m : Msg σ β}
    (h : Inv env log0 w log acc)
    (hp : ¬ (rowsOfBatches env m.batches = 0 ∧ m.sequence = none))
    (he : Sync.enqueue env w now m acc.length = .ok w') :
    Inv env log0 w' log (acc ++ [m]) := by
  obtain ⟨w1, t, ha, htx, hnx, hdur, hmem, hsy, _⟩ := enqueue_ok he
  obtain ⟨⟨hs1, _, hm1, hd1⟩, hcase⟩ := assignTx_ok ha
  have hcl := closings_length acc
  -- the transaction number of the new message
  have hnewNo : txNo (acc ++ [m]) acc.length = (closings acc).length := by
    rw [txNo_append (Nat.le_refl _), txNo_length, hcl]
  have holdNo : ∀ j, j < acc.length → txNo (acc ++ [m]) j = txNo acc j :=
    fun j hj => txNo_append (Nat.le_of_lt hj)
  have hcount' : txCount (acc ++ [m]) = (closings acc).length + 1 := by
    simp only [txCount, isOpen, List.getLast?_concat, List.countP_append, List.countP_cons,
      List.countP_nil, Msg.closes, hcl]
    rcases Option.eq_none_or_eq_some m.sequence with h | ⟨s, h⟩ <;> simp [h]
  -- shape of the new queue
  obtain ⟨init, txn, hq, hqt, hqlen, hinit, hlen, hnt, hnsame⟩ :
      ∃ (init : List (TxId × Tx)) (txn : Tx), w'.txs = init ++ [(t, txn)] ∧
        t = (closings acc).length ∧
        (txn.origin = m.origin ∧ txn.sequence = m.sequence) ∧
        (∀ p ∈ init, p ∈ w.txs ∧ p.1 < (closings acc).length) ∧
        (w'.nextTx - w'.txs.length = w.nextTx - w.txs.length ∧ w'.txs.length ≤ w'.nextTx) ∧
        (w'.nextTx = (closings acc).length + 1 ∧
          w'.txs.map (·.1) = List.range' (w.nextTx - w.txs.length) w'.txs.length) ∧
        ((∃ tx, w.txs = init ++ [(t, tx)] ∧ tx.origin = m.origin ∧
            txn.locations = if 0 < rowsOfBatches env m.batches then m.url :: tx.locations else tx.locations) ∨
         (w.txs = init ∧ 0 < rowsOfBatches env m.batches ∧ txn.locations = [m.url] ∧
            isOpen acc = false)) := by
    rcases hcase with ⟨init, tx, hi, hn, ho, hnn, ht⟩ | ⟨hno, hne, ht, hnn, htt⟩
    · obtain ⟨hid, hnx'⟩ := h.last_open hi hn
      have hlen : w'.txs.length = w.txs.length := by rw [htx, ht, hi]; simp
      refine ⟨init, ⟨tx.origin, m.sequence, if 0 < rowsOfBatches env m.batches
        then m.url :: tx.locations else tx.locations⟩, (by rw [htx]; exact ht), hid, ⟨ho.symm, rfl⟩, ?_, ?_, ?_, Or.inl ⟨tx, hi, ho.symm, rfl⟩⟩
      · intro p hp
        refine ⟨by rw [hi]; simp [hp], ?_⟩
        have h1 : p.1 ∈ init.map (·.1) := List.mem_map_of_mem hp
        have h2 := h.ids
        have hl := h.lenle
        rw [hi] at h2 hl
        simp only [List.map_append, List.map_cons, List.map_nil, List.length_append,
          List.length_cons, List.length_nil] at h2 hl
        rw [← range'_concat] at h2
        have h3 := List.append_inj_left' h2 rfl
        rw [h3] at h1
        simp [List.mem_range'] at h1
        omega
      · rw [hlen, hnx, hnn]; exact ⟨rfl, h.lenle⟩
      · rw [hnx, hnn]
        refine ⟨hnx', ?_⟩
        rw [hlen, htx, ht, ← h.ids, hi]; simp
    · obtain ⟨hnx', ho⟩ := h.not_open hno
      refine ⟨w.txs, ⟨m.origin, m.sequence, [m.url]⟩, (by rw [htx]; exact htt), by omega, ⟨rfl, rfl⟩, ?_, ?_, ?_,
        Or.inr ⟨rfl, ?_, rfl, ho⟩⟩
      · intro p hp
        refine ⟨hp, ?_⟩
        have h1 : p.1 ∈ w.txs.map (·.1) := List.mem_map_of_mem hp
        have hl := h.lenle
        rw [h.ids] at h1
        simp [List.mem_range'] at h1
        omega
      · have hl := h.lenle
        rw [hnx, hnn, htx, htt]; simp; omega
      · have hl := h.lenle
        refine ⟨by omega, ?_⟩
        rw [htx, htt]
        simp only [List.map_append, List.map_cons, List.map_nil, List.length_append,
          List.length_cons, List.length_nil]
        rw [h.ids, ← range'_concat]
        congr 1
        simp; omega
      · rcases Nat.eq_zero_or_pos (rowsOfBatches env m.batches) with hz | hz
        · exfalso
          cases hsq : m.sequence with
          | none => exact hp ⟨hz, hsq⟩
          | some s => exact hne ⟨hz, by simp [hsq]⟩
        · exact hz
  have hpend : ∀ u, pending w' u = pending w u ++
      (if m.url = u ∧ m.nonempty env then [acc.length] else []) := enqueue_pending he
  have hskel : ∀ u, skelAt w' u = if m.nonempty env then
      skelAt (buffer env w1 now m.url t m.schema m.batches acc.length) u else skelAt w u := by
    intro u
    simp only [skelAt, hsy]
    split
    · rfl
    · rw [hs1]
  have hw1skel : ∀ u, skelAt w1 u = skelAt w u := by intro u; simp [skelAt, hs1]
  have hposlt : ∀ u j, j ∈ pending w u → j < acc.length := fun u j hj => h.pending_lt hj
  constructor
  · -- keys
    rw [hsy]
    split
    · apply buffer_keys; rw [hs1]; exact h.keys
    · rw [hs1]; exact h.keys
  · rw [hlen.1]; exact hnt.2
  · exact hlen.2
  · rw [hnt.1, hcount']
  · -- seqs
    intro id tx hmem'
    rw [hq] at hmem'
    rw [closings_append]
    rcases List.mem_append.1 hmem' with h1 | h1
    · obtain ⟨h2, h3⟩ := hinit _ h1
      rw [List.getElem?_append_left h3]
      exact h.seqs id tx h2
    · simp only [List.mem_singleton, Prod.mk.injEq] at h1
      obtain ⟨rfl, rfl⟩ := h1
      rw [hqlen.2, hqt]
      cases m.sequence <;> simp
  · -- origins
    intro id tx hmem' j hj hno
    rw [hq] at hmem'
    rcases List.mem_append.1 hmem' with h1 | h1
    · obtain ⟨h2, h3⟩ := hinit _ h1
      by_cases hjl : j < acc.length
      · rw [List.getElem_append_left hjl]
        rw [holdNo j hjl] at hno
        exact h.origins id tx h2 j hjl hno
      · have : j = acc.length := by simp at hj; omega
        subst this
        rw [hnewNo] at hno
        simp only at h3
        omega
    · simp only [List.mem_singleton, Prod.mk.injEq] at h1
      obtain ⟨rfl, rfl⟩ := h1
      by_cases hjl : j < acc.length
      · rw [List.getElem_append_left hjl, hqlen.1]
        rw [holdNo j hjl] at hno
        rcases hnsame with ⟨tx', hw, ho, _⟩ | ⟨_, _, _, ho⟩
        · rw [← ho]
          exact h.origins id tx' (by rw [hw]; simp) j hjl hno
        · have := txNo_lt_of_not_open ho hjl
          omega
      · have : j = acc.length := by simp at hj; omega
        subst this
        simp [hqlen.1]
  · -- sameOrigin
    have key : ∀ i, (hi : i < acc.length) → txNo acc i = (closings acc).length →
        acc[i].origin = m.origin := by
      intro i hi hno
      rcases hnsame with ⟨tx', hw, ho, _⟩ | ⟨_, _, _, ho⟩
      · rw [← ho]
        exact h.origins t tx' (by rw [hw]; simp) i hi (by omega)
      · have := txNo_lt_of_not_open ho hi
        omega
    intro i j hi hj hno
    by_cases hil : i < acc.length
    · by_cases hjl : j < acc.length
      · rw [List.getElem_append_left hil, List.getElem_append_left hjl]
        rw [holdNo i hil, holdNo j hjl] at hno
        exact h.sameOrigin i j hil hjl hno
      · have : j = acc.length := by simp at hj; omega
        subst this
        rw [hnewNo, holdNo i hil] at hno
        rw [List.getElem_append_left hil]
        simpa using key i hil hno
    · have : i = acc.length := by simp at hi; omega
      subst this
      by_cases hjl : j < acc.length
      · rw [hnewNo, holdNo j hjl] at hno
        rw [List.getElem_append_left hjl]
        simpa using (key j hjl hno.symm).symm
      · have : j = acc.length := by simp at hj; omega
        subst this; rfl
  · -- items
    intro u l hl
    have hmap : ∀ (l0 : List (List TxId × List Nat)) , skelAt w u = some l0 → ∀ p ∈ l0,
        p.2.map (txNo (acc ++ [m])) = p.2.map (txNo acc) := by
      intro l0 hl0 p hp'
      apply List.map_congr_left
      intro j hj
      apply holdNo
      apply hposlt u
      rw [pending_eq_skel, hl0]
      exact List.mem_flatMap.2 ⟨p, hp', hj⟩
    have hold : ∀ (l0 : List (List TxId × List Nat)), skelAt w u = some l0 → ∀ p ∈ l0,
        p.2 ≠ [] ∧ p.1 = p.2.map (txNo (acc ++ [m])) := by
      intro l0 hl0 p hp'
      rw [hmap l0 hl0 p hp']
      exact (h.items u l0 hl0).2 p hp'
    rw [hskel] at hl
    split at hl
    · by_cases hu : u = m.url
      · subst hu
        rcases buffer_skel_same env w1 now m.url t m.schema m.batches acc.length with
          ⟨l0, h1, h2⟩ | ⟨ini, ti, ms, h1, h2⟩
        · rw [hl] at h1
          injection h1 with h1
          subst h1
          refine ⟨by simp, ?_⟩
          intro p hp'
          rcases List.mem_append.1 hp' with hp' | hp'
          · rw [hw1skel] at h2
            rcases h2 with h2 | ⟨h2, _⟩
            · exact hold l0 h2 p hp'
            · subst h2; simp at hp'
          · simp at hp'
            subst hp'
            simp [hnewNo, hqt]
        · rw [hl] at h2
          injection h2 with h2
          subst h2
          rw [hw1skel] at h1
          refine ⟨by simp, ?_⟩
          intro p hp'
          rcases List.mem_append.1 hp' with hp' | hp'
          · exact hold _ h1 p (by simp [hp'])
          · simp at hp'
            subst hp'
            have := hold _ h1 (ti, ms) (by simp)
            simp only at this
            simp [hnewNo, hqt, this.2]
      · rw [buffer_skel_other _ _ _ _ _ _ _ _ _ hu, hw1skel] at hl
        exact ⟨(h.items u l hl).1, hold l hl⟩
    · exact ⟨(h.items u l hl).1, hold l hl⟩
  · -- locs
    intro u j hj
    rw [hpend] at hj
    rcases List.mem_append.1 hj with hj | hj
    · obtain ⟨tx, h1, h2⟩ := h.locs u j hj
      rw [holdNo j (hposlt u j hj)]
      rw [hq]
      rcases hnsame with ⟨tx', hw, ho, hloc⟩ | ⟨hw, _, _, _⟩
      · rw [hw] at h1
        rcases List.mem_append.1 h1 with h1 | h1
        · exact ⟨tx, by simp [h1], h2⟩
        · simp only [List.mem_singleton, Prod.mk.injEq] at h1
          obtain ⟨h3, rfl⟩ := h1
          refine ⟨txn, by simp [h3], ?_⟩
          rw [hloc]; split <;> simp [h2]
      · exact ⟨tx, by rw [← hw]; simp [h1], h2⟩
    · split at hj
      · next hc =>
        simp at hj
        subst hj
        rw [hnewNo]
        refine ⟨txn, by rw [hq, ← hqt]; simp, ?_⟩
        have hr : 0 < rowsOfBatches env m.batches := by
          simpa [Msg.nonempty] using hc.2
        rcases hnsame with ⟨tx', hw, ho, hloc⟩ | ⟨hw, _, hloc, _⟩
        · rw [hloc, if_pos hr]; simp [hc.1]
        · rw [hloc]; simp [hc.1]
      · simp at hj
  · -- locs'
    intro id tx u hmem' hu
    rw [hq] at hmem'
    have hold : ∀ tx0, (id, tx0) ∈ w.txs → u ∈ tx0.locations →
        ∃ j, j ∈ pending w' u ∧ txNo (acc ++ [m]) j = id := by
      intro tx0 h1 h2
      obtain ⟨j, h3, h4⟩ := h.locs' id tx0 u h1 h2
      exact ⟨j, by rw [hpend]; simp [h3], by rw [holdNo j (hposlt u j h3)]; exact h4⟩
    rcases List.mem_append.1 hmem' with h1 | h1
    · exact hold tx (hinit _ h1).1 hu
    · simp only [List.mem_singleton, Prod.mk.injEq] at h1
      obtain ⟨rfl, rfl⟩ := h1
      have hnew : 0 < rowsOfBatches env m.batches → u = m.url →
          ∃ j, j ∈ pending w' u ∧ txNo (acc ++ [m]) j = id := by
        intro hr hu'
        refine ⟨acc.length, ?_, by rw [hnewNo, hqt]⟩
        rw [hpend]; simp [hu', Msg.nonempty, hr]
      rcases hnsame with ⟨tx', hw, ho, hloc⟩ | ⟨hw, hr, hloc, _⟩
      · rw [hloc] at hu
        split at hu
        · next hr =>
          rcases List.mem_cons.1 hu with hu | hu
          · exact hnew hr hu
          · exact hold tx' (by rw [hw]; simp) hu
        · exact hold tx' (by rw [hw]; simp) hu
      · rw [hloc] at hu
        simp at hu
        exact hnew hr hu
  · -- mem
    intro o
    rw [hmem, closings_append, hm1]
    cases m.sequence with
    | none => simp [h.mem o]
    | some s =>
      simp only [lastOf_append_singleton, fnSet]
      split
      · simp
      · exact h.mem o
  · -- dur
    intro o
    rw [hdur, hd1, hlen.1, closings_append, List.take_append_of_le_length h.durle]
    exact h.dur o
  · rw [hlen.1, closings_append, List.length_append]
    have := h.durle
    omega
  · -- split
    intro u
    obtain ⟨done, h1, h2⟩ := h.split u
    refine ⟨done, ?_, h2⟩
    rw [positions_append, hpend, h1, List.append_assoc]
  · exact h.pre

/-! ### squashing -/

theorem squashLoop_skel (env : Env σ β) (its : List (Item σ β)) (t s r : Nat) :
    (squashLoop env its t s r).1.map (fun it => (it.txIds, it.msgs)) =
      its.map (fun it => (it.txIds, it.msgs)) := by
  induction its generalizing t s r with
  | nil => rfl
  | cons it rest ih =>
    simp only [squashLoop]
    split
    · simp [ih]
    · split
      · rfl
      · simp [ih]

theorem squashUrl_fields (env : Env σ β) (w : Writer σ β) (url : Url) :
    (squashUrl env w url).1.txs = w.txs ∧ (squashUrl env w url).1.nextTx = w.nextTx ∧
    (squashUrl env w url).1.originMemory = w.originMemory ∧
    (squashUrl env w url).1.originDurable = w.originDurable ∧
    (squashUrl env w url).1.syncs.map (·.1) = w.syncs.map (·.1) ∧
    ∀ u, skelAt (squashUrl env w url).1 u = skelAt w u := by
  simp only [squashUrl]
  split
  · simp
  · next c hc =>
    refine ⟨rfl, rfl, rfl, rfl, alModify_keys _ _ _, ?_⟩
    intro u
    simp only [skelAt, alGet_alModify]
    split
    · next hu => subst hu; simp [hc, squashLoop_skel]
    · rfl

theorem squashUrl_pending (env : Env σ β) (w : Writer σ β) (url u : Url) :
    pending (squashUrl env w url).1 u = pending w u := by
  rw [pending_eq_skel, pending_eq_skel, (squashUrl_fields env w url).2.2.2.2.2]

theorem Inv.squash {env : Env σ β} {log0 log : Log σ β} {w : Writer σ β} {acc : List (Msg σ β)}
    (h : Inv env log0 w log acc) (url : Url) : Inv env log0 (squashUrl env w url).1 log acc := by
  obtain ⟨h1, h2, h3, h4, h5, h6⟩ := squashUrl_fields env w url
  exact h.congr h5 h6 h1 h2 h3 h4

/-! ### growth of the logs -/

/-- `log'` extends `log` by the commits `extra`. -/
def Extends (log log' : Log σ β) (extra : Url → List (Commit σ β)) : Prop :=
  ∀ u, log' u = log u ++ extra u

theorem committed_extends {log0 log log' : Log σ β} {extra : Url → List (Commit σ β)} {u : Url}
    (hp : log0 u <+: log u) (he : Extends log log' extra) :
    committed log0 log' u = committed log0 log u ++ commitMsgs (extra u) := by
  obtain ⟨t, ht⟩ := hp
  simp only [committed, newCommits, commitMsgs]
  rw [he u, ← ht]
  simp [List.append_assoc]

theorem Inv.log {env : Env σ β} {log0 log log' : Log σ β} {w : Writer σ β} {acc : List (Msg σ β)}
    {extra : Url → List (Commit σ β)}
    (h : Inv env log0 w log acc) (he : Extends log log' extra) : Inv env log0 w log' acc := by
  refine { h with split := ?_, pre := ?_ }
  · intro u
    obtain ⟨done, h1, h2⟩ := h.split u
    refine ⟨done, h1, ?_⟩
    intro j hj
    rw [committed_extends (h.pre u) he]
    exact List.mem_append_left _ (h2 j hj)
  · intro u
    rw [he u]
    exact (h.pre u).trans (List.prefix_append _ _)

theorem ensureTable_extends (log : Log σ β) (url : Url) :
    Extends log (ensureTable log url)
      (fun u => if u = url ∧ log u = [] then [{ items := [], info := none }] else []) := by
  intro u
  simp only [ensureTable]
  split
  · next h => simp [h.2]
  · simp

theorem appendCommit_extends (log : Log σ β) (url : Url) (c : Commit σ β) :
    Extends log (appendCommit log url c) (fun u => if u = url then [c] else []) := by
  intro u
  simp only [appendCommit]
  split <;> simp

theorem Extends.trans {log log' log'' : Log σ β} {e e' : Url → List (Commit σ β)}
    (h : Extends log log' e) (h' : Extends log' log'' e') :
    Extends log log'' (fun u => e u ++ e' u) := by
  intro u; rw [h' u, h u, List.append_assoc]

/-! ### a successful flush -/

theorem removeTxLocations_mem {txs : List (TxId × Tx)} {url : Url} {ids : List TxId} {id : TxId}
    {tx : Tx} : (id, tx) ∈ removeTxLocations txs url ids ↔
      ∃ tx0, (id, tx0) ∈ txs ∧ tx.origin = tx0.origin ∧ tx.sequence = tx0.sequence ∧
        tx.locations = (if id ∈ ids then tx0.locations.filter (· ≠ url) else tx0.locations) := by
  simp only [removeTxLocations, List.mem_map]
  constructor
  · rintro ⟨⟨id0, tx0⟩, h1, h2⟩
    simp only [List.contains_eq_mem, decide_eq_true_eq] at h2
    split at h2
    · next hc =>
      injection h2 with h2 h3
      subst h2 h3
      exact ⟨tx0, h1, rfl, rfl, by simp [hc]⟩
    · next hc =>
      injection h2 with h2 h3
      subst h2 h3
      exact ⟨tx0, h1, rfl, rfl, by simp [hc]⟩
  · rintro ⟨tx0, h1, h2, h3, h4⟩
    refine ⟨(id, tx0), h1, ?_⟩
    obtain ⟨o, s, l⟩ := tx
    simp only at h2 h3 h4
    subst h2 h3 h4
    simp only [List.contains_eq_mem, decide_eq_true_eq]
    split <;> rfl

theorem removeTxLocations_ids (txs : List (TxId × Tx)) (url : Url) (ids : List TxId) :
    (removeTxLocations txs url ids).map (·.1) = txs.map (·.1) := by
  simp only [removeTxLocations, List.map_map]
  apply List.map_congr_left
  intro p _
  simp only [Function.comp]
  split <;> rfl

theorem removeTxLocations_length (txs : List (TxId × Tx)) (url : Url) (ids : List TxId) :
    (removeTxLocations txs url ids).length = txs.length := by
  simp [removeTxLocations]

theorem removeSync_pending (w : Writer σ β) (url u : Url) (hn : (w.syncs.map (·.1)).Nodup) :
    pending (removeSync w url) u = if u = url then [] else pending w u := by
  simp only [removeSync]
  split
  · next hg =>
    split
    · next hu => subst hu; simp [pending, hg]
    · rfl
  · simp only [pending, alGet_alErase _ _ _ hn]
    split <;> simp_all

theorem removeSync_skel (w : Writer σ β) (url u : Url) (hn : (w.syncs.map (·.1)).Nodup) :
    skelAt (removeSync w url) u = if u = url then none else skelAt w u := by
  simp only [removeSync]
  split
  · next hg =>
    split
    · next hu => subst hu; simp [skelAt, hg]
    · rfl
  · simp only [skelAt, alGet_alErase _ _ _ hn]
    split <;> simp_all

theorem removeSync_keys (w : Writer σ β) (url : Url) (hn : (w.syncs.map (·.1)).Nodup) :
    ((removeSync w url).syncs.map (·.1)).Nodup := by
  simp only [removeSync]
  split
  · exact hn
  · exact hn.sublist (alErase_keys_sublist _ _)

theorem removeSync_fields (w : Writer σ β) (url : Url) :
    (removeSync w url).txs = w.txs ∧ (removeSync w url).nextTx = w.nextTx ∧
    (removeSync w url).originMemory = w.originMemory ∧
    (removeSync w url).originDurable = w.originDurable := by
  simp only [removeSync]
  split <;> simp

/-- One transaction becomes durable. -/
theorem Inv.advanceOne {env : Env σ β} {log0 log : Log σ β} {w : Writer σ β}
    {acc : List (Msg σ β)} (h : Inv env log0 w log acc) {id : TxId} {tx : Tx}
    {rest : List (TxId × Tx)} {s : Seq} (ht : w.txs = (id, tx) :: rest)
    (hs : tx.sequence = some s) (hl : tx.locations = []) :
    Inv env log0 { w with txs := rest, originDurable := fnSet w.originDurable tx.origin s } log acc := by
  have hids := h.ids
  have hlen := h.lenle
  rw [ht] at hids hlen
  simp only [List.map_cons, List.length_cons] at hids hlen
  rw [List.range'_succ] at hids
  simp only [List.cons.injEq] at hids
  obtain ⟨hid, hrest⟩ := hids
  have hseq := h.seqs id tx (by simp [ht])
  rw [hs] at hseq
  obtain ⟨o, ho⟩ : ∃ o, (closings acc)[id]? = some (o, s) := by
    cases hc : (closings acc)[id]? with
    | none => rw [hc] at hseq; simp at hseq
    | some p =>
      rw [hc] at hseq
      simp at hseq
      exact ⟨p.1, by rw [hseq]⟩
  have hoo : o = tx.origin := by
    obtain ⟨i, hi, h1, _, h3⟩ := exists_closing ho
    rw [← h1]
    exact h.origins id tx (by simp [ht]) i hi h3
  have hlt := (List.getElem?_eq_some_iff.1 ho).1
  have hd : w.nextTx - w.txs.length = id := by rw [ht]; simp; omega
  have hd' : w.nextTx - rest.length = id + 1 := by omega
  have hsub : ∀ p, p ∈ rest → p ∈ w.txs := by intro p hp; simp [ht, hp]
  refine { h with
    ids := ?_, lenle := ?_, seqs := ?_, origins := ?_, locs := ?_, locs' := ?_,
    dur := ?_, durle := ?_ }
  · simp only [hd', hrest, hid]
  · simp only; omega
  · intro id' tx' hm; exact h.seqs id' tx' (hsub _ hm)
  · intro id' tx' hm; exact h.origins id' tx' (hsub _ hm)
  · intro u j hj
    obtain ⟨tx', h1, h2⟩ := h.locs u j hj
    refine ⟨tx', ?_, h2⟩
    rw [ht] at h1
    rcases List.mem_cons.1 h1 with h1 | h1
    · injection h1 with _ h1
      subst h1
      rw [hl] at h2
      simp at h2
    · exact h1
  · intro id' tx' u hm hu; exact h.locs' id' tx' u (hsub _ hm) hu
  · intro o'
    simp only [hd', fnSet]
    have htake : (closings acc).take (id + 1) = (closings acc).take id ++ [(o, s)] := by
      rw [List.take_add_one, ho]; rfl
    rw [htake, lastOf_append_singleton, hoo]
    simp only
    split
    · rfl
    · rw [h.dur o', hd]
  · simp only [hd']; omega

theorem Inv.advance {env : Env σ β} {log0 log : Log σ β} {acc : List (Msg σ β)} :
    ∀ (txs : List (TxId × Tx)) (w : Writer σ β), w.txs = txs → Inv env log0 w log acc →
    Inv env log0 { w with txs := (advanceDurable txs w.originDurable).1,
                          originDurable := (advanceDurable txs w.originDurable).2 } log acc := by
  intro txs
  induction txs with
  | nil =>
    intro w ht h
    simp only [advanceDurable]
    rw [← ht]; exact h
  | cons p rest ih =>
    intro w ht h
    obtain ⟨id, tx⟩ := p
    simp only [advanceDurable]
    split
    · next s hs =>
      split
      · next hl =>
        have := h.advanceOne ht hs (by simpa using hl)
        exact ih _ rfl this
      · rw [← ht]; exact h
    · rw [← ht]; exact h

/-- Everything buffered for `url` has been committed; the bookkeeping after it. -/
theorem Inv.finish {env : Env σ β} {log0 log log' : Log σ β} {w : Writer σ β}
    {acc : List (Msg σ β)} {extra : Url → List (Commit σ β)} {url : Url} {c : Coll σ β}
    (h : Inv env log0 w log acc) (he : Extends log log' extra)
    (hc : alGet url w.syncs = some c)
    (hex : ∀ j ∈ pending w url, j ∈ commitMsgs (extra url)) :
    Inv env log0 (finishFlush w url c.syncs) log' acc := by
  have h' := h.log he
  simp only [finishFlush]
  apply Inv.advance _ _ rfl
  obtain ⟨ids, hidsd⟩ : ∃ ids, ids = (c.syncs.flatMap (·.txIds)).eraseDups := ⟨_, rfl⟩
  rw [← hidsd]
  have hf := removeSync_fields { w with txs := removeTxLocations w.txs url ids } url
  obtain ⟨hf1, hf2, hf3, hf4⟩ := hf
  have hkeys : (({ w with txs := removeTxLocations w.txs url ids } : Writer σ β).syncs.map (·.1)).Nodup := h.keys
  have hpend : ∀ u, pending (removeSync { w with txs := removeTxLocations w.txs url ids } url) u = if u = url then [] else pending w u := by
    intro u; rw [removeSync_pending _ _ _ hkeys]; rfl
  have hids : ∀ j ∈ pending w url, txNo acc j ∈ ids := by
    intro j hj
    have hsk : skelAt w url = some (c.syncs.map (fun it => (it.txIds, it.msgs))) := by
      simp [skelAt, hc]
    have hit := (h.items url _ hsk).2
    simp only [pending, hc] at hj
    obtain ⟨it, h1, h2⟩ := List.mem_flatMap.1 hj
    have h3 := (hit (it.txIds, it.msgs) (List.mem_map.2 ⟨it, h1, rfl⟩)).2
    rw [hidsd, List.mem_eraseDups]
    refine List.mem_flatMap.2 ⟨it, h1, ?_⟩
    simp only at h3
    rw [h3]
    exact List.mem_map_of_mem h2
  constructor
  · exact removeSync_keys _ _ hkeys
  · rw [hf1, hf2]; simp only [removeTxLocations_ids, removeTxLocations_length]; exact h.ids
  · rw [hf1, hf2]; simp only [removeTxLocations_length]; exact h.lenle
  · rw [hf2]; exact h.count
  · intro id tx hm
    rw [hf1] at hm
    obtain ⟨tx0, h1, h2, h3, h4⟩ := removeTxLocations_mem.1 hm
    rw [h3]; exact h.seqs id tx0 h1
  · intro id tx hm j hj hno
    rw [hf1] at hm
    obtain ⟨tx0, h1, h2, h3, h4⟩ := removeTxLocations_mem.1 hm
    rw [h2]; exact h.origins id tx0 h1 j hj hno
  · exact h.sameOrigin
  · intro u l hl
    rw [removeSync_skel _ _ _ hkeys] at hl
    split at hl
    · cases hl
    · exact h.items u l hl
  · intro u j hj
    rw [hpend] at hj
    split at hj
    · simp at hj
    · next hu =>
      obtain ⟨tx, h1, h2⟩ := h.locs u j hj
      rw [hf1]
      refine ⟨⟨tx.origin, tx.sequence, if txNo acc j ∈ ids then
        tx.locations.filter (· ≠ url) else tx.locations⟩, removeTxLocations_mem.2
        ⟨tx, h1, rfl, rfl, rfl⟩, ?_⟩
      simp only
      split
      · simp [h2, hu]
      · exact h2
  · intro id tx u hm hu
    rw [hf1] at hm
    obtain ⟨tx0, h1, h2, h3, h4⟩ := removeTxLocations_mem.1 hm
    rw [h4] at hu
    have hu0 : u ∈ tx0.locations := by
      split at hu
      · exact (List.mem_filter.1 hu).1
      · exact hu
    obtain ⟨j, h5, h6⟩ := h.locs' id tx0 u h1 hu0
    have hne : u ≠ url := by
      rintro rfl
      have := hids j h5
      rw [h6] at this
      rw [if_pos this] at hu
      simp at hu
    exact ⟨j, by rw [hpend, if_neg hne]; exact h5, h6⟩
  · rw [hf3]; exact h.mem
  · rw [hf4, hf1, hf2]; simp only [removeTxLocations_length]; exact h.dur
  · rw [hf1, hf2]; simp only [removeTxLocations_length]; exact h.durle
  · intro u
    obtain ⟨done, h1, h2⟩ := h.split u
    rw [hpend]
    split
    · next hu =>
      subst hu
      refine ⟨done ++ pending w u, by simp [h1], ?_⟩
      intro j hj
      rw [committed_extends (h.pre u) he]
      rcases List.mem_append.1 hj with hj | hj
      · exact List.mem_append_left _ (h2 j hj)
      · exact List.mem_append_right _ (hex j hj)
    · refine ⟨done, h1, ?_⟩
      intro j hj
      rw [committed_extends (h.pre u) he]
      exact List.mem_append_left _ (h2 j hj)
  · exact h'.pre

end Seafowl.Sync
