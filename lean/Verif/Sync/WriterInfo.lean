import Verif.Sync.WriterInv3

/-! # Commit info, conservation of messages, and the combined invariant -/

namespace Seafowl.Sync

variable {σ β : Type}

theorem positions_lt {env : Env σ β} {acc : List (Msg σ β)} {u : Url} {j : Nat}
    (h : j ∈ positions env acc u) : j < acc.length := (mem_positions.1 h).1

theorem positions_sorted (env : Env σ β) (acc : List (Msg σ β)) (u : Url) :
    (positions env acc u).Pairwise (· < ·) := by
  induction acc using snocInd with
  | h0 => simp [positions]
  | h1 acc m ih =>
    rw [positions_append, List.pairwise_append]
    refine ⟨ih, by split <;> simp, ?_⟩
    intro a ha b hb
    have := positions_lt ha
    split at hb <;> simp at hb
    omega

theorem mem_positions_append {env : Env σ β} {acc : List (Msg σ β)} {m : Msg σ β} {u : Url} {j : Nat}
    (hj : j < acc.length) : j ∈ positions env (acc ++ [m]) u ↔ j ∈ positions env acc u := by
  rw [positions_append, List.mem_append]
  constructor
  · rintro (h | h)
    · exact h
    · split at h
      · simp at h; omega
      · simp at h
  · exact Or.inl

/-- A message belongs to the transaction that is still open iff no message from it on closes. -/
theorem txNo_open_iff {acc : List (Msg σ β)} {j : Nat} :
    txNo acc j = (closings acc).length ↔
      ∀ i m, j ≤ i → i < acc.length → acc[i]? = some m → m.sequence = none := by
  rw [closings_length, txNo]
  have h1 : acc.countP Msg.closes =
      (acc.take j).countP Msg.closes + (acc.drop j).countP Msg.closes := by
    rw [← List.countP_append, List.take_append_drop]
  have h2 : (acc.take j).countP Msg.closes = acc.countP Msg.closes ↔
      (acc.drop j).countP Msg.closes = 0 := by omega
  rw [h2, List.countP_eq_zero]
  constructor
  · intro h i m hji hi hm
    have : m ∈ acc.drop j := by
      rw [List.mem_drop_iff_getElem]
      obtain ⟨hlt, he⟩ := List.getElem?_eq_some_iff.1 hm
      exact ⟨i - j, by omega, by simp [show j + (i - j) = i by omega, he]⟩
    have := h m this
    simp only [Msg.closes] at this
    cases hs : m.sequence with
    | none => rfl
    | some s => rw [hs] at this; simp at this
  · intro h m hm
    rw [List.mem_drop_iff_getElem] at hm
    obtain ⟨i, hi, he⟩ := hm
    have := h (i + j) m (by omega) (by omega) (by
      rw [List.getElem?_eq_some_iff]
      exact ⟨by omega, by rw [← he]; congr 1; omega⟩)
    simp [Msg.closes, this]

theorem txNo_le (acc : List (Msg σ β)) (j : Nat) : txNo acc j ≤ (closings acc).length := by
  rw [closings_length, txNo]
  exact List.Sublist.countP_le (List.take_sublist _ _)

/-! ### commit_info -/

theorem Inv.alGet_tx {env : Env σ β} {log0 log : Log σ β} {w : Writer σ β} {acc : List (Msg σ β)}
    (h : Inv env log0 w log acc) {t : TxId} {tx : Tx} (hm : (t, tx) ∈ w.txs) :
    alGet t w.txs = some tx := by
  apply alGet_of_mem _ hm
  rw [h.ids]
  exact List.nodup_range'

/-- The transaction of a buffered item's last message is known to the writer. -/
theorem Inv.itemTx {env : Env σ β} {log0 log : Log σ β} {w : Writer σ β} {acc : List (Msg σ β)}
    (h : Inv env log0 w log acc) {u : Url} {c : Coll σ β} (hc : alGet u w.syncs = some c)
    {it : Item σ β} (hit : it ∈ c.syncs) :
    ∃ ms j tx, it.msgs = ms ++ [j] ∧ it.txIds.getLast? = some (txNo acc j) ∧
      alGet (txNo acc j) w.txs = some tx ∧ (txNo acc j, tx) ∈ w.txs ∧ j ∈ pending w u := by
  have hsk : skelAt w u = some (c.syncs.map (fun it => (it.txIds, it.msgs))) := by
    simp [skelAt, hc]
  have h1 := (h.items u _ hsk).2 (it.txIds, it.msgs) (List.mem_map.2 ⟨it, hit, rfl⟩)
  obtain ⟨h1, h2⟩ := h1
  simp only at h1 h2
  obtain ⟨ms, j, hms⟩ : ∃ ms j, it.msgs = ms ++ [j] := by
    rcases List.eq_nil_or_concat it.msgs with h | ⟨a, b, h⟩
    · exact absurd h h1
    · exact ⟨a, b, by simpa using h⟩
  have hj : j ∈ pending w u := by
    simp only [pending, hc]
    exact List.mem_flatMap.2 ⟨it, hit, by simp [hms]⟩
  obtain ⟨tx, hx, _⟩ := h.locs u j hj
  exact ⟨ms, j, tx, hms, by rw [h2, hms]; simp, h.alGet_tx hx, hx, hj⟩

theorem Inv.tx_open_iff {env : Env σ β} {log0 log : Log σ β} {w : Writer σ β} {acc : List (Msg σ β)}
    (h : Inv env log0 w log acc) {j : Nat} {tx : Tx} (hm : (txNo acc j, tx) ∈ w.txs) :
    tx.sequence = none ↔ txNo acc j = (closings acc).length := by
  rw [h.seqs _ tx hm]
  have := txNo_le acc j
  cases hc : (closings acc)[txNo acc j]? with
  | none =>
    have := List.getElem?_eq_none_iff.1 hc
    simp; omega
  | some p =>
    have := (List.getElem?_eq_some_iff.1 hc).1
    simp; omega

/-- What `commit_info` computes, in terms of the accepted messages. -/
theorem Inv.commitInfo_spec {env : Env σ β} {log0 log : Log σ β} {w : Writer σ β}
    {acc : List (Msg σ β)} (h : Inv env log0 w log acc) {u : Url} {c : Coll σ β}
    (hc : alGet u w.syncs = some c) (last : Option CommitInfo) :
    ∃ info ms j, commitInfo w.txs last c.syncs = some info ∧ pending w u = ms ++ [j] ∧
      ∀ ci, info = some ci →
        (ci.newTx = true ↔ txNo acc j = (closings acc).length) ∧
        ((∃ i m, i < acc.length ∧ acc[i]? = some m ∧ m.origin = ci.origin ∧
            m.sequence = some ci.sequence) ∨
         (∃ ci0, last = some ci0 ∧ ci0.origin = ci.origin ∧ ci0.sequence = ci.sequence)) ∧
        (∀ it ∈ c.syncs, ∀ j, it.msgs.getLast? = some j → txNo acc j ≠ (closings acc).length →
          ∃ i m, i < acc.length ∧ acc[i]? = some m ∧ m.origin = ci.origin ∧
            m.sequence = some ci.sequence ∧ j ≤ i) := by
  have hsk : skelAt w u = some (c.syncs.map (fun it => (it.txIds, it.msgs))) := by
    simp [skelAt, hc]
  have hne := (h.items u _ hsk).1
  obtain ⟨is, it, his⟩ : ∃ is it, c.syncs = is ++ [it] := by
    rcases List.eq_nil_or_concat c.syncs with h | ⟨a, b, h⟩
    · rw [h] at hne; exact absurd rfl hne
    · exact ⟨a, b, by simpa using h⟩
  obtain ⟨ms, j, tx, h1, h2, h3, h4, h5⟩ := h.itemTx hc (it := it) (by simp [his])
  have hpend : pending w u = (is.flatMap (·.msgs) ++ ms) ++ [j] := by
    simp [pending, hc, his, h1]
  simp only [commitInfo, his, List.getLast?_concat, h2, h3, Option.map_some]
  refine ⟨_, _, j, rfl, hpend, ?_⟩
  intro ci hci
  have hopen : tx.sequence.isNone = true ↔ txNo acc j = (closings acc).length := by
    rw [Option.isNone_iff_eq_none]; exact h.tx_open_iff h4
  have hsome : ∀ it1 ∈ c.syncs, ∀ j1, it1.msgs.getLast? = some j1 → txNo acc j1 ≠ (closings acc).length →
      (match it1.txIds.getLast? with
        | none => none
        | some t => match alGet t w.txs with
          | some tx0 => tx0.sequence.map (fun s =>
              { origin := tx0.origin, sequence := s, newTx := tx.sequence.isNone : CommitInfo })
          | none => none) ≠ none := by
    intro it1 hit1 j1 hj1 hcl
    obtain ⟨ms', j', tx', g1, g2, g3, g4, g5⟩ := h.itemTx hc hit1
    have : j' = j1 := by rw [g1] at hj1; simpa using hj1
    subst this
    simp only [g2, g3]
    intro hn
    simp only [Option.map_eq_none_iff] at hn
    exact hcl ((h.tx_open_iff g4).1 hn)
  split at hci
  · next ci' hf =>
    injection hci with hci
    subst hci
    obtain ⟨l1, it', l2, hrev, hf', hl1⟩ := List.findSome?_eq_some_iff.1 hf
    have hsyn : c.syncs = l2.reverse ++ it' :: l1.reverse := by
      have := congrArg List.reverse hrev
      rw [List.reverse_reverse] at this
      rw [his, this]; simp
    have hit'' : it' ∈ c.syncs := by rw [hsyn]; simp
    obtain ⟨ms', j', tx', g1, g2, g3, g4, g5⟩ := h.itemTx hc hit''
    simp only [g2, g3] at hf'
    cases hs : tx'.sequence with
    | none => rw [hs] at hf'; simp at hf'
    | some s =>
      rw [hs] at hf'
      simp only [Option.map_some, Option.some.injEq] at hf'
      subst hf'
      have hq := h.seqs _ tx' g4
      rw [hs] at hq
      obtain ⟨o, ho⟩ : ∃ o, (closings acc)[txNo acc j']? = some (o, s) := by
        cases hx : (closings acc)[txNo acc j']? with
        | none => rw [hx] at hq; simp at hq
        | some p =>
          rw [hx] at hq
          simp at hq
          exact ⟨p.1, by rw [hq]⟩
      obtain ⟨i, hi, e1, e2, e3⟩ := exists_closing ho
      have horig := h.origins _ tx' g4 i hi e3
      have hji : j' ≤ i := by
        apply Decidable.byContradiction
        intro hlt
        have h6 : txNo acc (i + 1) ≤ txNo acc j' := txNo_mono (by omega)
        have h7 : txNo acc (i + 1) = txNo acc i + 1 := by
          simp only [txNo]
          rw [List.take_succ_eq_append_getElem hi, List.countP_append]
          simp [Msg.closes, e2]
        omega
      refine ⟨hopen, Or.inl ⟨i, acc[i], hi, by simp, by rw [horig], e2⟩, ?_⟩
      intro it1 hit1 j1 hj1 hcl
      rw [← his] at hit1
      refine ⟨i, acc[i], hi, by simp, by rw [horig], e2, ?_⟩
      have hnot : it1 ∉ l1 := by
        intro hm
        exact hsome it1 hit1 j1 hj1 hcl (hl1 it1 hm)
      refine Nat.le_trans ?_ hji
      have hp : pending w u = c.syncs.flatMap (·.msgs) := by simp [pending, hc]
      obtain ⟨done, hd1, _⟩ := h.split u
      have hsorted := positions_sorted env acc u
      rw [hd1] at hsorted
      have hps := (List.pairwise_append.1 hsorted).2.1
      rw [hp, hsyn, List.flatMap_append, List.flatMap_cons, ← List.append_assoc] at hps
      rw [hsyn] at hit1
      rcases List.mem_append.1 hit1 with hm | hm
      · have h8 := (List.pairwise_append.1 (List.pairwise_append.1 hps).1).2.2 j1
          (List.mem_flatMap.2 ⟨it1, hm, List.mem_of_getLast? hj1⟩) j' (by rw [g1]; simp)
        omega
      · rcases List.mem_cons.1 hm with hm | hm
        · subst hm
          rw [g1] at hj1
          simp at hj1
          omega
        · exact absurd (List.mem_reverse.1 hm) hnot
  · next hf =>
    have hnone : ∀ it1 ∈ c.syncs, ∀ j1, it1.msgs.getLast? = some j1 → txNo acc j1 ≠ (closings acc).length →
        False := by
      intro it1 hit1 j1 hj1 hcl
      refine hsome it1 hit1 j1 hj1 hcl ?_
      rw [List.findSome?_eq_none_iff] at hf
      exact hf it1 (by rw [← his]; simpa using hit1)
    cases last with
    | none => simp at hci
    | some l =>
      simp only [Option.map_some, Option.some.injEq] at hci
      subst hci
      exact ⟨hopen, Or.inr ⟨l, rfl, rfl, rfl⟩, fun it1 a j1 b d => (hnone it1 (his ▸ a) j1 b d).elim⟩

/-- Invariant on the commits made since process start. -/
structure InfoInv (env : Env σ β) (log0 log : Log σ β) (acc : List (Msg σ β)) : Prop where
  sub : ∀ u, ∀ j ∈ committed log0 log u, j ∈ positions env acc u
  info : ∀ u pre c post ci, newCommits log0 log u = pre ++ c :: post → c.info = some ci →
    ∃ n, InfoSound env acc (log0 u) u (commitMsgs (pre ++ [c])) c.items ci n

theorem InfoSound.append {env : Env σ β} {acc : List (Msg σ β)} {start : List (Commit σ β)} {u : Url}
    {before : List Nat} {items : List (Item σ β)} {ci : CommitInfo} {n : Nat}
    (h : InfoSound env acc start u before items ci n)
    (m : Msg σ β) : InfoSound env (acc ++ [m]) start u before items ci n := by
  have hle := h.le
  have hget : ∀ i, i < n → (acc ++ [m])[i]? = acc[i]? := by
    intro i hi
    exact List.getElem?_append_left (by omega)
  constructor
  · simp; omega
  · intro j hj hp
    exact h.complete j hj ((mem_positions_append (by omega)).1 hp)
  · intro j hj
    obtain ⟨h1, h2⟩ := h.only j hj
    exact ⟨h1, (mem_positions_append (by omega)).2 h2⟩
  · rcases h.named with ⟨i, m', h1, h2, h3⟩ | h1
    · exact Or.inl ⟨i, m', h1, by rw [hget i h1]; exact h2, h3⟩
    · exact Or.inr h1
  · rw [h.newTx]
    constructor
    · rintro ⟨j, h1, h2⟩
      exact ⟨j, h1, fun i m' a b c => h2 i m' a b (by rw [← hget i b]; exact c)⟩
    · rintro ⟨j, h1, h2⟩
      exact ⟨j, h1, fun i m' a b c => h2 i m' a b (by rw [hget i b]; exact c)⟩
  · rintro it hit j hj ⟨k, mk, h1, h2, h3, h4⟩
    rw [hget k h2] at h3
    obtain ⟨i, m', h5, h6, h7⟩ := h.newest it hit j hj ⟨k, mk, h1, h2, h3, h4⟩
    exact ⟨i, m', h5, by rw [hget i h5]; exact h6, h7⟩

theorem InfoInv.append {env : Env σ β} {log0 log : Log σ β} {acc : List (Msg σ β)}
    (h : InfoInv env log0 log acc) (m : Msg σ β) : InfoInv env log0 log (acc ++ [m]) := by
  constructor
  · intro u j hj
    have := h.sub u j hj
    exact (mem_positions_append (positions_lt this)).2 this
  · intro u pre c post ci h1 h2
    obtain ⟨n, hn⟩ := h.info u pre c post ci h1 h2
    exact ⟨n, hn.append m⟩

/-- Adding one commit (or none) to a log. -/
theorem InfoInv.log {env : Env σ β} {log0 log log' : Log σ β} {acc : List (Msg σ β)}
    {extra : Url → List (Commit σ β)} (h : InfoInv env log0 log acc)
    (hpre : ∀ u, log0 u <+: log u) (he : Extends log log' extra)
    (hx : ∀ u, extra u = [] ∨ ∃ c, extra u = [c] ∧
      (∀ j ∈ commitMsgs [c], j ∈ positions env acc u) ∧
      ∀ ci, c.info = some ci →
        ∃ n, InfoSound env acc (log0 u) u (committed log0 log u ++ commitMsgs [c]) c.items ci n) :
    InfoInv env log0 log' acc := by
  constructor
  · intro u j hj
    rw [committed_extends (hpre u) he] at hj
    rcases List.mem_append.1 hj with h1 | h1
    · exact h.sub u j h1
    · rcases hx u with h2 | ⟨c, h2, h3, _⟩
      · rw [h2] at h1; simp [commitMsgs] at h1
      · rw [h2] at h1; exact h3 j h1
  · intro u pre c post ci h1 h2
    rw [newCommits_extends (hpre u) he] at h1
    rcases hx u with h3 | ⟨c', h3, h4, h5⟩
    · rw [h3, List.append_nil] at h1
      exact h.info u pre c post ci h1 h2
    · rw [h3] at h1
      rcases List.eq_nil_or_concat post with hp | ⟨p, x, hp⟩
      · subst hp
        obtain ⟨e1, e2⟩ := List.append_inj' h1 (by simp)
        simp only [List.cons.injEq, and_true] at e2
        subst e2
        have := h5 ci h2
        rw [← e1]
        simpa [committed, commitMsgs] using this
      · have hp : post = p ++ [x] := by simpa using hp
        subst hp
        have h1' : newCommits log0 log u ++ [c'] = (pre ++ c :: p) ++ [x] := by
          rw [h1]; simp
        obtain ⟨e1, e2⟩ := List.append_inj' h1' (by simp)
        exact h.info u pre c p ci e1 h2

theorem InfoInv.commit {env : Env σ β} {log0 log : Log σ β} {w : Writer σ β} {acc : List (Msg σ β)}
    (h : InfoInv env log0 log acc) (hi : Inv env log0 w log acc) {u : Url} {entry : Coll σ β}
    {info : Option CommitInfo} (hg : alGet u w.syncs = some entry)
    (hci : commitInfo w.txs (tableSequence (log u)) entry.syncs = some info) :
    InfoInv env log0 (appendCommit log u { items := entry.syncs, info := info }) acc := by
  apply h.log hi.pre (appendCommit_extends log u _)
  intro u'
  by_cases hu : u' = u
  · subst hu
    right
    refine ⟨{ items := entry.syncs, info := info }, by simp, ?_⟩
    have hpend : commitMsgs [({ items := entry.syncs, info := info } : Commit σ β)] = pending w u' := by
      simp [commitMsgs, pending, hg]
    rw [hpend]
    refine ⟨fun j hj => hi.pending_sub hj, ?_⟩
    intro ci hcie
    simp only at hcie
    obtain ⟨info', ms, j, e1, e2, e3⟩ := hi.commitInfo_spec hg (tableSequence (log u'))
    rw [hci] at e1
    injection e1 with e1
    subst e1
    obtain ⟨hnew, hnamed, hnewest⟩ := e3 ci hcie
    obtain ⟨done, hd1, hd2⟩ := hi.split u'
    have hsub : ∀ k ∈ committed log0 log u' ++ pending w u', k ∈ positions env acc u' := by
      intro k hk
      rcases List.mem_append.1 hk with hk | hk
      · exact h.sub u' k hk
      · exact hi.pending_sub hk
    refine ⟨acc.length, Nat.le_refl _, ?_, ?_, ?_, ?_, ?_⟩
    · intro k _ hk
      rw [hd1] at hk
      rcases List.mem_append.1 hk with hk | hk
      · exact List.mem_append_left _ (hd2 k hk)
      · exact List.mem_append_right _ hk
    · intro k hk
      exact ⟨positions_lt (hsub k hk), hsub k hk⟩
    · rcases hnamed with hn | ⟨ci0, hl, ho, hs⟩
      · exact Or.inl hn
      · simp only [tableSequence] at hl
        cases hlast : (log u').getLast? with
        | none => rw [hlast] at hl; simp at hl
        | some c0 =>
          rw [hlast] at hl
          simp only at hl
          obtain ⟨t, ht⟩ := hi.pre u'
          rcases List.eq_nil_or_concat t with h0 | ⟨t', x, h0⟩
          · subst h0
            rw [List.append_nil] at ht
            rw [← ht] at hlast
            exact Or.inr ⟨c0, ci0, hlast, hl, ho, hs⟩
          · have h0 : t = t' ++ [x] := by simpa using h0
            subst h0
            have hx : x = c0 := by
              rw [← ht, ← List.append_assoc, List.getLast?_concat] at hlast
              injection hlast
            subst hx
            have hnc : newCommits log0 log u' = t' ++ x :: [] := by
              simp [newCommits, ← ht]
            obtain ⟨n, hn⟩ := h.info u' t' x [] ci0 hnc hl
            rcases hn.named with ⟨i, m, a, b, c, d⟩ | ⟨c1, ci1, a, b, c, d⟩
            · exact Or.inl ⟨i, m, Nat.lt_of_lt_of_le a hn.le, b, by rw [c, ho], by rw [d, hs]⟩
            · exact Or.inr ⟨c1, ci1, a, b, by rw [c, ho], by rw [d, hs]⟩
    · rw [hnew]
      constructor
      · intro hj
        exact ⟨j, List.mem_append_right _ (by rw [e2]; simp), txNo_open_iff.1 hj⟩
      · rintro ⟨k, hk1, hk2⟩
        have hk3 := txNo_open_iff.2 hk2
        have hkj : k ≤ j := by
          have hk4 := hsub k hk1
          have hsorted := positions_sorted env acc u'
          rw [hd1, e2, ← List.append_assoc] at hk4 hsorted
          rcases List.mem_append.1 hk4 with hk5 | hk5
          · exact Nat.le_of_lt ((List.pairwise_append.1 hsorted).2.2 k hk5 j (by simp))
          · simp at hk5; omega
        have := txNo_mono (acc := acc) hkj
        have := txNo_le acc j
        omega
    · rintro it hit j1 hj1 ⟨k, mk, h1, h2, h3, h4⟩
      refine hnewest it hit j1 hj1 ?_
      intro he
      exact h4 (txNo_open_iff.1 he k mk h1 h2 h3)
  · left; simp [hu]

/-! ### conservation -/

/-- Committed messages followed by buffered ones are the accepted ones. -/
def Exact (env : Env σ β) (log0 : Log σ β) (w : Writer σ β) (log : Log σ β)
    (acc : List (Msg σ β)) : Prop :=
  ∀ u, committed log0 log u ++ pending w u = positions env acc u

/-! ### everything together -/

/-- The combined invariant. -/
structure Full (env : Env σ β) (log0 : Log σ β) (w : Writer σ β) (log : Log σ β)
    (acc : List (Msg σ β)) : Prop where
  inv : Inv env log0 w log acc
  content : Content env log0 w log acc
  acct : Acct env w
  info : InfoInv env log0 log acc

theorem finishFlush_pending (w : Writer σ β) (u u' : Url) (l : List (Item σ β))
    (hn : (w.syncs.map (·.1)).Nodup) :
    pending (finishFlush w u l) u' = if u' = u then [] else pending w u' := by
  have : pending (finishFlush w u l) u' = pending (removeSync w u) u' := by
    simp only [pending, (finishFlush_syncs w u l).1]
  rw [this, removeSync_pending _ _ _ hn]

theorem full_closed (env : Env σ β) (log0 : Log σ β) :
    Closed env (fun _ => True) (Full env log0) where
  okQ := trivial
  enq := by
    intro w log acc now m w' h hp _ he
    exact ⟨h.inv.enqueue hp he, h.content.enqueue he, h.acct.enqueue he, h.info.append m⟩
  sq := by
    intro w log acc u h
    exact ⟨h.inv.squash u, h.content.squashUrl u, h.acct.squashUrl u, h.info⟩
  create := by
    intro w log acc u h
    have he := ensureTable_extends log u
    refine ⟨h.inv.log he, h.content.log h.inv.pre he ?_, h.acct, h.info.log h.inv.pre he ?_⟩
    · intro u' cm hcm
      split at hcm
      · simp at hcm; subst hcm; simp
      · simp at hcm
    · intro u'
      split
      · right
        exact ⟨_, rfl, by simp [commitMsgs], by simp⟩
      · exact Or.inl rfl
  lost := by
    intro w log acc u entry info _ h _ hg hne _ hci
    have he := appendCommit_extends log u { items := entry.syncs, info := info }
    refine ⟨h.inv.log he, h.content.log h.inv.pre he ?_, h.acct, h.info.commit h.inv hg hci⟩
    intro u' cm hcm
    split at hcm
    · simp at hcm; subst hcm
      exact h.content.buf u entry hg
    · simp at hcm
  fin := by
    intro w log acc u entry info h _ hg hne _ hci
    have he := appendCommit_extends log u { items := entry.syncs, info := info }
    have hc : Content env log0 w (appendCommit log u { items := entry.syncs, info := info }) acc := by
      apply h.content.log h.inv.pre he
      intro u' cm hcm
      split at hcm
      · simp at hcm; subst hcm
        exact h.content.buf u entry hg
      · simp at hcm
    refine ⟨h.inv.finish he hg ?_, ?_, ?_, h.info.commit h.inv hg hci⟩
    · intro j hj
      simp only [pending, hg] at hj
      simpa [commitMsgs] using hj
    · have := hc.removeSync h.inv.keys u
      exact ⟨by rw [(finishFlush_syncs w u entry.syncs).1]; exact this.buf, this.com⟩
    · exact (h.acct.removeSync h.inv.keys u).congr (finishFlush_syncs w u entry.syncs).1
        (finishFlush_syncs w u entry.syncs).2
  empty := by
    intro w log acc u entry h hg hemp
    have hsk : skelAt w u = some (entry.syncs.map (fun it => (it.txIds, it.msgs))) := by
      simp [skelAt, hg]
    have := (h.inv.items u _ hsk).1
    rw [hemp] at this
    exact absurd rfl this
  ext := by
    intro w log acc u h
    have he := appendCommit_extends log u { items := [], info := none }
    refine ⟨h.inv.log he, h.content.log h.inv.pre he ?_, h.acct, h.info.log h.inv.pre he ?_⟩
    · intro u' cm hcm
      split at hcm
      · simp at hcm; subst hcm; simp
      · simp at hcm
    · intro u'
      split
      · right
        exact ⟨_, rfl, by simp [commitMsgs], by simp⟩
      · exact Or.inl rfl

theorem exact_closed (env : Env σ β) (log0 : Log σ β) :
    Closed env (fun o => o ≠ .ackLost) (fun w log acc => Full env log0 w log acc ∧
      Exact env log0 w log acc) where
  okQ := by simp
  enq := by
    intro w log acc now m w' ⟨h, hx⟩ hp hice he
    refine ⟨(full_closed env log0).enq _ _ _ now m w' h hp hice he, ?_⟩
    intro u
    rw [enqueue_pending he, positions_append, ← List.append_assoc, hx u]
  sq := by
    intro w log acc u ⟨h, hx⟩
    refine ⟨(full_closed env log0).sq _ _ _ u h, ?_⟩
    intro u'
    rw [squashUrl_pending, hx u']
  create := by
    intro w log acc u ⟨h, hx⟩
    refine ⟨(full_closed env log0).create _ _ _ u h, ?_⟩
    intro u'
    rw [committed_extends (h.inv.pre u') (ensureTable_extends log u), ← hx u']
    split <;> simp [commitMsgs]
  lost := by
    intro w log acc u entry info hq
    exact absurd rfl hq
  fin := by
    intro w log acc u entry info ⟨h, hx⟩ h1 hg hne hsq hci
    refine ⟨(full_closed env log0).fin _ _ _ u entry info h h1 hg hne hsq hci, ?_⟩
    intro u'
    rw [committed_extends (h.inv.pre u') (appendCommit_extends log u _),
      finishFlush_pending _ _ _ _ h.inv.keys, ← hx u']
    split
    · next hu => subst hu; simp [commitMsgs, pending, hg]
    · simp [commitMsgs]
  empty := by
    intro w log acc u entry ⟨h, hx⟩ hg hemp
    have hsk : skelAt w u = some (entry.syncs.map (fun it => (it.txIds, it.msgs))) := by
      simp [skelAt, hg]
    have := (h.inv.items u _ hsk).1
    rw [hemp] at this
    exact absurd rfl this
  ext := by
    intro w log acc u ⟨h, hx⟩
    refine ⟨(full_closed env log0).ext _ _ _ u h, ?_⟩
    intro u'
    rw [committed_extends (h.inv.pre u') (appendCommit_extends log u _), ← hx u']
    split <;> simp [commitMsgs]

theorem full_start (env : Env σ β) (log0 : Log σ β) :
    Full env log0 (Writer.new) log0 [] := by
  refine ⟨?_, ?_, ?_, ?_⟩
  · constructor <;> simp [Writer.new, txCount, isOpen, closings, skelAt, alGet, pending, lastOf,
      positions]
  · constructor
    · simp [Writer.new, alGet]
    · simp [newCommits]
  · constructor <;> simp [Writer.new, alGet, alSum]
  · constructor
    · simp [committed, newCommits, commitMsgs]
    · intro u pre c post ci h
      simp [newCommits] at h

theorem full_run (env : Env σ β) (log0 : Log σ β) (ops : List (Op σ β)) :
    Full env log0 (run env (World.start log0) ops).w (run env (World.start log0) ops).log
      (run env (World.start log0) ops).acc :=
  (full_closed env log0).run ops (World.start log0) (full_start env log0) (fun _ _ _ _ => trivial)

theorem exact_run (env : Env σ β) (log0 : Log σ β) (ops : List (Op σ β))
    (hq : ∀ op ∈ ops, Outcome.ackLost ∉ op.outs) :
    Exact env log0 (run env (World.start log0) ops).w (run env (World.start log0) ops).log
      (run env (World.start log0) ops).acc := by
  refine ((exact_closed env log0).run ops (World.start log0) ⟨full_start env log0, ?_⟩ ?_).2
  · intro u
    simp [World.start, committed, newCommits, commitMsgs, pending, Writer.new, alGet, positions]
  · intro op hop o ho
    rintro rfl
    exact hq op hop ho

end Seafowl.Sync
