import Verif.Sync.WriterFlush

/-!
# Properties C01-C11: the sync writer

Every theorem ranges over all histories `ops` of requests, background flushes, storage failures and
foreign commits, and over all logs `log0` found at process start.  A crash is the end of a history:
the logs survive, the writer is gone, and a new process starts with these logs as its `log0`.
-/

namespace Seafowl.Sync

variable {σ β : Type}

/-! ### a concrete configuration for the examples -/

namespace Demo

/-- Batches are row counts, squashing adds them up. -/
def env : Env Unit Nat :=
  { bytes := id, rows := id, compat := fun _ _ => true, squash := fun _ l => some ((), l.sum),
    maxLag := 10, maxBytes := 100, maxSyncs := 3 }

/-- A message. -/
def msg (u o : String) (s : Option Nat) (b : List Nat) : Msg Unit Nat :=
  { url := u, iceberg := false, origin := o, sequence := s, schema := (), batches := b }

/-- Two tables, two origins, a failing flush, a successful one, a transaction left open. -/
def ops : List (Op Unit Nat) :=
  [ .sync (msg "a" "o" none [3]) 0 true [],
    .sync (msg "b" "o" (some 1) [4]) 1 true [],
    .sync (msg "a" "p" (some 9) [1, 1]) 2 true [],
    .tick 11 true [.fail true],
    .tick 12 true [],
    .external "a",
    .sync (msg "a" "o" none [7]) 13 true [],
    .tick 30 true [.ok, .fail false] ]

/-- The state after these events, starting from an empty object store. -/
def W : World Unit Nat := run env (World.start fun _ => []) ops

end Demo

/-! ### C01 -/

/-- The change at position `j` is in its table: some commit made since process start contains it,
and the data of that commit derives from the messages it claims to contain. -/
def InTable (env : Env σ β) (log0 log : Log σ β) (acc : List (Msg σ β)) (j : Nat) (u : Url) : Prop :=
  ∃ cm ∈ newCommits log0 log u, ∃ it ∈ cm.items, j ∈ it.msgs ∧ Derived env acc it.msgs it.schema it.data

theorem inTable_of_committed {env : Env σ β} {log0 log : Log σ β} {w : Writer σ β}
    {acc : List (Msg σ β)} (h : Content env log0 w log acc) {u : Url} {j : Nat}
    (hj : j ∈ committed log0 log u) : InTable env log0 log acc j u := by
  simp only [committed, commitMsgs] at hj
  obtain ⟨cm, h1, h2⟩ := List.mem_flatMap.1 hj
  obtain ⟨it, h3, h4⟩ := List.mem_flatMap.1 h2
  exact ⟨cm, h1, it, h3, h4, h.com u cm h1 it h3⟩

/-- Messages of transactions before the first one kept by the writer are committed. -/
theorem Full.committed_of_lt {env : Env σ β} {log0 log : Log σ β} {w : Writer σ β}
    {acc : List (Msg σ β)} (h : Full env log0 w log acc) {j : Nat} {m : Msg σ β}
    (hj : acc[j]? = some m) (hne : m.nonempty env = true)
    (hlt : txNo acc j < w.nextTx - w.txs.length) : j ∈ committed log0 log m.url := by
  obtain ⟨hjl, hjm⟩ := List.getElem?_eq_some_iff.1 hj
  have hp : j ∈ positions env acc m.url := mem_positions.2 ⟨hjl, by rw [hjm], by rw [hjm]; exact hne⟩
  obtain ⟨done, hd1, hd2⟩ := h.inv.split m.url
  rw [hd1] at hp
  rcases List.mem_append.1 hp with hp | hp
  · exact hd2 j hp
  · exfalso
    obtain ⟨tx, ht, _⟩ := h.inv.locs m.url j hp
    have : txNo acc j ∈ w.txs.map (·.1) := List.mem_map.2 ⟨_, ht, rfl⟩
    rw [h.inv.ids, List.mem_range'_1] at this
    omega

/-- C01.  If `s` is reported durable for origin `o`, then some accepted message closed transaction
`s` of `o`, and every row-change message accepted up to it is in the table it targets. -/
theorem C01_durable_is_committed (env : Env σ β) (log0 : Log σ β) (ops : List (Op σ β)) (o : Origin)
    (s : Seq) (W : World σ β) (hW : W = run env (World.start log0) ops)
    (h : W.w.originDurable o = some s) :
    ∃ i m, W.acc[i]? = some m ∧ m.origin = o ∧ m.sequence = some s ∧
      ∀ j m', j ≤ i → W.acc[j]? = some m' → m'.nonempty env = true →
        InTable env log0 W.log W.acc j m'.url := by
  subst hW
  have hf := full_run env log0 ops
  generalize run env (World.start log0) ops = W at *
  rw [hf.inv.dur o] at h
  obtain ⟨k, hk, _⟩ := lastOf_some_mem h
  rw [List.getElem?_take] at hk
  split at hk
  · next hlt =>
    obtain ⟨i, hi, h1, h2, h3⟩ := exists_closing hk
    refine ⟨i, W.acc[i], by simp, h1, h2, ?_⟩
    intro j m' hji hj hne
    apply inTable_of_committed hf.content
    apply hf.committed_of_lt hj hne
    have := txNo_mono (acc := W.acc) hji
    omega
  · cases hk

example : Demo.W.w.originDurable "o" = some 1 := by decide
example : Demo.W.w.originDurable "p" = some 9 := by decide

/-- C01 for clients that use increasing sequence numbers: all changes up to *every* transaction of
`o` with a number at most `s` are in their tables. -/
theorem C01_durable_is_committed_increasing (env : Env σ β) (log0 : Log σ β) (ops : List (Op σ β))
    (o : Origin) (s : Seq) (W : World σ β) (hW : W = run env (World.start log0) ops)
    (hinc : ∀ (i j : Nat) (a b : Msg σ β) (x y : Seq), i < j → W.acc[i]? = some a → W.acc[j]? = some b →
      a.origin = b.origin → a.sequence = some x → b.sequence = some y → x < y)
    (h : W.w.originDurable o = some s) :
    ∀ (i : Nat) (m : Msg σ β) (s' : Seq), W.acc[i]? = some m → m.origin = o → m.sequence = some s' → s' ≤ s →
      ∀ j m', j ≤ i → W.acc[j]? = some m' → m'.nonempty env = true →
        InTable env log0 W.log W.acc j m'.url := by
  obtain ⟨i0, m0, h1, h2, h3, h4⟩ := C01_durable_is_committed env log0 ops o s W hW h
  intro i m s' hm ho hs hle j m' hji
  apply h4
  apply Nat.le_trans hji
  apply Nat.le_of_not_lt
  intro hlt
  have := hinc i0 i m0 m s s' hlt h1 hm (by rw [h2, ho]) h3 hs
  omega

example : ∀ (i j : Nat) (a b : Msg Unit Nat) (x y : Seq), i < j → Demo.W.acc[i]? = some a →
    Demo.W.acc[j]? = some b → a.origin = b.origin → a.sequence = some x → b.sequence = some y →
    x < y := by
  intro i j a b x y hij ha hb
  have e : Demo.W.acc = [Demo.msg "a" "o" none [3], Demo.msg "b" "o" (some 1) [4],
    Demo.msg "a" "p" (some 9) [1, 1], Demo.msg "a" "o" none [7]] := rfl
  rw [e] at ha hb
  match i, j with
  | 0, 1 => simp [Demo.msg] at ha hb; subst ha hb; simp
  | 0, 2 => simp [Demo.msg] at ha hb; subst ha hb; simp
  | 0, 3 => simp [Demo.msg] at ha hb; subst ha hb; simp
  | 1, 2 => simp [Demo.msg] at ha hb; subst ha hb; simp
  | 1, 3 => simp [Demo.msg] at ha hb; subst ha hb; simp
  | 2, 3 => simp [Demo.msg] at ha hb; subst ha hb; simp
  | i, j + 4 => simp at hb
  | i + 3, 0 => omega
  | i + 3, 1 => omega
  | i + 3, 2 => omega
  | i + 3, 3 => omega
  | 1, 0 => omega
  | 1, 1 => omega
  | 2, 0 => omega
  | 2, 1 => omega
  | 2, 2 => omega
  | 0, 0 => omega

/-- C01 as the client sees it: the number in a response. -/
theorem C01_response (env : Env σ β) (log0 : Log σ β) (ops : List (Op σ β)) (m : Msg σ β) (now : Nat)
    (lock : Bool) (outs : List Outcome) (mem : Option Seq) (s : Seq) (W : World σ β)
    (hW : W = (step env (run env (World.start log0) ops) (.sync m now lock outs)).1)
    (h : (step env (run env (World.start log0) ops) (.sync m now lock outs)).2 =
      .accepted mem (some s)) :
    ∃ i m0, W.acc[i]? = some m0 ∧ m0.origin = m.origin ∧ m0.sequence = some s ∧
      ∀ j m', j ≤ i → W.acc[j]? = some m' → m'.nonempty env = true →
        InTable env log0 W.log W.acc j m'.url := by
  have hrun : W = run env (World.start log0) (ops ++ [.sync m now lock outs]) := by
    rw [hW]
    have : ∀ (l : List (Op σ β)) (V : World σ β) (op : Op σ β),
        (step env (run env V l) op).1 = run env V (l ++ [op]) := by
      intro l
      induction l with
      | nil => intro V op; rfl
      | cons x xs ih => intro V op; exact ih _ op
    exact this ops _ _
  apply C01_durable_is_committed env log0 _ m.origin s W hrun
  rw [hW]
  simp only [step, processSync] at h ⊢
  split
  · next hp => rw [if_pos hp] at h; simp only at h; injection h
  · next hp =>
    rw [if_neg hp] at h
    split
    · next hi => rw [if_pos hi] at h; cases h
    · next hi =>
      rw [if_neg hi] at h
      split
      · next hl => rw [if_pos hl] at h; cases h
      · next hl =>
        rw [if_neg hl] at h
        split
        · next he => rw [he] at h; cases h
        · next w1 he =>
          rw [he] at h
          simp only at h ⊢
          split at h
          · injection h
          · cases h

example : (step Demo.env Demo.W (.sync (Demo.msg "b" "o" (some 5) [2]) 31 true [])).2 =
    .accepted (some 5) (some 1) := by decide

/-! ### C02 -/

theorem run_append (env : Env σ β) (a b : List (Op σ β)) (W : World σ β) :
    run env W (a ++ b) = run env (run env W a) b := by
  induction a generalizing W with
  | nil => rfl
  | cons x xs ih => exact ih _

theorem durCount_closed (env : Env σ β) (log0 : Log σ β) (d : Nat) (acc0 : List (Msg σ β)) :
    Closed env (fun _ => True) (fun w log acc => Full env log0 w log acc ∧
      d ≤ w.nextTx - w.txs.length ∧ acc0 <+: acc) where
  okQ := trivial
  enq := by
    intro w log acc now m w' ⟨h, hd, ha⟩ hp hice he
    refine ⟨(full_closed env log0).enq _ _ _ now m w' h hp hice he, ?_,
      ha.trans (List.prefix_append _ _)⟩
    obtain ⟨w1, t, ha, htx, hnx, _⟩ := enqueue_ok he
    obtain ⟨_, h1 | h1⟩ := assignTx_ok ha
    · obtain ⟨init, tx, e1, _, _, e2, e3⟩ := h1
      rw [htx, hnx, e2, e3]
      rw [e1] at hd
      simpa using hd
    · obtain ⟨_, _, _, e2, e3⟩ := h1
      rw [htx, hnx, e2, e3]
      simp only [List.length_append, List.length_cons, List.length_nil]
      omega
  sq := by
    intro w log acc u ⟨h, hd, ha⟩
    obtain ⟨e1, e2, _⟩ := squashUrl_fields env w u
    exact ⟨(full_closed env log0).sq _ _ _ u h, by rw [e1, e2]; exact hd, ha⟩
  create := fun w log acc u ⟨h, hd, ha⟩ => ⟨(full_closed env log0).create _ _ _ u h, hd, ha⟩
  lost := fun w log acc u entry info _ ⟨h, hd, ha⟩ h1 h2 h3 h4 h5 =>
    ⟨(full_closed env log0).lost _ _ _ u entry info trivial h h1 h2 h3 h4 h5, hd, ha⟩
  fin := by
    intro w log acc u entry info ⟨h, hd, ha⟩ h1 h2 h3 h4 h5
    refine ⟨(full_closed env log0).fin _ _ _ u entry info h h1 h2 h3 h4 h5, ?_, ha⟩
    simp only [finishFlush]
    have hle : ∀ (txs : List (TxId × Tx)) (dur : Origin → Option Seq),
        (advanceDurable txs dur).1.length ≤ txs.length := by
      intro txs
      induction txs with
      | nil => intro dur; simp [advanceDurable]
      | cons p rest ih =>
        intro dur
        simp only [advanceDurable]
        split
        · split
          · exact Nat.le_trans (ih _) (by simp)
          · exact Nat.le_refl _
        · exact Nat.le_refl _
    obtain ⟨ids, hids⟩ : ∃ ids, ids = (entry.syncs.flatMap (fun x => x.txIds)).eraseDups := ⟨_, rfl⟩
    rw [← hids]
    have h6 := removeSync_fields { w with txs := removeTxLocations w.txs u ids } u
    obtain ⟨w2, hw2⟩ : ∃ w2, w2 = removeSync { w with txs := removeTxLocations w.txs u ids } u := ⟨_, rfl⟩
    rw [← hw2] at h6 ⊢
    obtain ⟨e1, e2, _⟩ := h6
    have h7 := hle w2.txs w2.originDurable
    have h8 : w2.txs.length = w.txs.length := by
      rw [e1]; exact removeTxLocations_length _ _ _
    simp only at e2 ⊢
    omega
  empty := by
    intro w log acc u entry ⟨h, hd, ha⟩ hg hemp
    have hsk : skelAt w u = some (entry.syncs.map (fun it => (it.txIds, it.msgs))) := by
      simp [skelAt, hg]
    have := (h.inv.items u _ hsk).1
    rw [hemp] at this
    exact absurd rfl this
  ext := fun w log acc u ⟨h, hd, ha⟩ => ⟨(full_closed env log0).ext _ _ _ u h, hd, ha⟩

/-- C02.  There is a count `d n` of durable transactions after the first `n` events: it never
decreases, the durable transactions are the first `d n` completed ones in order of acceptance (over
all origins), the durable number of each origin is that of its last transaction among them, and the
changes of all of them are in their tables. -/
theorem C02_durable_prefix (env : Env σ β) (log0 : Log σ β) (ops : List (Op σ β)) :
    ∃ d : Nat → Nat, (∀ n n', n ≤ n' → d n ≤ d n') ∧
      ∀ n, ∀ W : World σ β, W = run env (World.start log0) (ops.take n) →
        d n ≤ (closings W.acc).length ∧
        (∀ o, W.w.originDurable o = lastOf o ((closings W.acc).take (d n))) ∧
        (∀ j m, txNo W.acc j < d n → W.acc[j]? = some m → m.nonempty env = true →
          InTable env log0 W.log W.acc j m.url) := by
  refine ⟨fun n => (run env (World.start log0) (ops.take n)).w.nextTx -
    (run env (World.start log0) (ops.take n)).w.txs.length, ?_, ?_⟩
  · intro n n' hn
    have hsplit : ops.take n' = ops.take n ++ (ops.take n').drop n := by
      have : (ops.take n').take n = ops.take n := by rw [List.take_take]; congr 1; omega
      rw [← this, List.take_append_drop]
    have := (durCount_closed env log0 ((run env (World.start log0) (ops.take n)).w.nextTx -
      (run env (World.start log0) (ops.take n)).w.txs.length) []).run ((ops.take n').drop n)
      (run env (World.start log0) (ops.take n))
      ⟨full_run env log0 _, Nat.le_refl _, List.nil_prefix⟩ (fun _ _ _ _ => trivial)
    simp only
    rw [hsplit, run_append]
    exact this.2.1
  · rintro n W rfl
    have hf := full_run env log0 (ops.take n)
    refine ⟨hf.inv.durle, hf.inv.dur, ?_⟩
    intro j m hlt hj hne
    exact inTable_of_committed hf.content (hf.committed_of_lt hj hne hlt)

example : closings Demo.W.acc = [("o", 1), ("p", 9)] := by decide

/-! ### C03 -/

theorem lastOf_prefix {cs cs' : List (Origin × Seq)} {o : Origin} {s : Seq}
    (hp : cs <+: cs')
    (hinc : ∀ (i j : Nat) (o : Origin) (x y : Seq), i < j → cs'[i]? = some (o, x) → cs'[j]? = some (o, y) → x < y)
    (h : lastOf o cs = some s) : ∃ s', lastOf o cs' = some s' ∧ s ≤ s' := by
  obtain ⟨k, hk, _⟩ := lastOf_some_mem h
  have hk' : cs'[k]? = some (o, s) := by
    obtain ⟨t, rfl⟩ := hp
    rw [List.getElem?_append_left (List.getElem?_eq_some_iff.1 hk).1]; exact hk
  cases hl : lastOf o cs' with
  | none =>
    exfalso
    simp only [lastOf, Option.map_eq_none_iff, List.getLast?_eq_none_iff,
      List.filter_eq_nil_iff] at hl
    have := hl (o, s) (List.mem_of_getElem? hk')
    simp at this
  | some s' =>
    refine ⟨s', rfl, ?_⟩
    obtain ⟨k', h1, h2⟩ := lastOf_some_mem hl
    have := h2 k s hk'
    rcases Nat.lt_or_ge k k' with h3 | h3
    · exact Nat.le_of_lt (hinc k k' o s s' h3 hk' h1)
    · have : k = k' := by omega
      subst this
      rw [hk'] at h1
      injection h1 with h1
      injection h1 with _ h1
      omega

/-- Increasing numbers in the messages are increasing numbers in the completed transactions. -/
theorem closings_increasing {acc : List (Msg σ β)}
    (hinc : ∀ (i j : Nat) (a b : Msg σ β) (x y : Seq), i < j → acc[i]? = some a → acc[j]? = some b →
      a.origin = b.origin → a.sequence = some x → b.sequence = some y → x < y) :
    ∀ (i j : Nat) (o : Origin) (x y : Seq), i < j → (closings acc)[i]? = some (o, x) → (closings acc)[j]? = some (o, y) →
      x < y := by
  intro i j o x y hij hi hj
  obtain ⟨a, ha, a1, a2, a3⟩ := exists_closing hi
  obtain ⟨b, hb, b1, b2, b3⟩ := exists_closing hj
  have hab : a < b := by
    apply Nat.lt_of_not_le
    intro hle
    have := txNo_mono (acc := acc) hle
    omega
  exact hinc a b acc[a] acc[b] x y hab (by simp) (by simp) (by rw [a1, b1]) a2 b2

theorem closings_prefix {a b : List (Msg σ β)} (h : a <+: b) : closings a <+: closings b := by
  obtain ⟨t, rfl⟩ := h
  simp only [closings, List.filterMap_append]
  exact List.prefix_append _ _

/-- C03.  For clients that use increasing sequence numbers: going from any point of a history to any
later point, neither the memory nor the durable number of an origin decreases or disappears, and a
durable number is never ahead of the memory number. -/
theorem C03_monotone (env : Env σ β) (log0 : Log σ β) (ops ops' : List (Op σ β)) (W W' : World σ β)
    (hW : W = run env (World.start log0) ops) (hW' : W' = run env W ops')
    (hinc : ∀ (i j : Nat) (a b : Msg σ β) (x y : Seq), i < j → W'.acc[i]? = some a → W'.acc[j]? = some b →
      a.origin = b.origin → a.sequence = some x → b.sequence = some y → x < y) (o : Origin) (s : Seq) :
    (W.w.originMemory o = some s → ∃ s', W'.w.originMemory o = some s' ∧ s ≤ s') ∧
    (W.w.originDurable o = some s → ∃ s', W'.w.originDurable o = some s' ∧ s ≤ s') ∧
    (W'.w.originDurable o = some s → ∃ s', W'.w.originMemory o = some s' ∧ s ≤ s') := by
  have hf : Full env log0 W.w W.log W.acc := by subst hW; exact full_run env log0 ops
  obtain ⟨hf', hd, hpre⟩ := (durCount_closed env log0 (W.w.nextTx - W.w.txs.length) W.acc).run ops' W
    ⟨hf, Nat.le_refl _, List.prefix_refl _⟩ (fun _ _ _ _ => trivial)
  rw [← hW'] at hf' hd hpre
  have hinc' := closings_increasing hinc
  have hcp := closings_prefix hpre
  refine ⟨?_, ?_, ?_⟩
  · rw [hf.inv.mem o, hf'.inv.mem o]
    exact lastOf_prefix hcp hinc'
  · rw [hf.inv.dur o, hf'.inv.dur o]
    apply lastOf_prefix
    · obtain ⟨t, ht⟩ := hcp
      rw [← ht]
      have hle := hf.inv.durle
      rw [show (closings W.acc).take (W.w.nextTx - W.w.txs.length) =
        ((closings W.acc ++ t).take (W'.w.nextTx - W'.w.txs.length)).take
          (W.w.nextTx - W.w.txs.length) by
        rw [List.take_take, Nat.min_eq_left hd, List.take_append_of_le_length hle]]
      exact List.take_prefix _ _
    · intro i j o x y hij hi hj
      rw [List.getElem?_take] at hi hj
      split at hi
      · split at hj
        · exact hinc' i j o x y hij hi hj
        · cases hj
      · cases hi
  · rw [hf'.inv.dur o, hf'.inv.mem o]
    exact lastOf_prefix (List.take_prefix _ _) hinc'

example : (run Demo.env (World.start fun _ => []) (Demo.ops.take 3)).w.originMemory "o" = some 1 := by
  decide

/-! ### C04 -/

/-- C04.  For every table, the messages in the commits made since process start followed by the
buffered ones are exactly the accepted non-empty messages for this table in order of acceptance,
each once; and the data of every commit and every buffered item derives from its messages.  (For
histories in which no commit is written without the writer learning about it.) -/
theorem C04_exactly_once (env : Env σ β) (log0 : Log σ β) (ops : List (Op σ β)) (W : World σ β)
    (hW : W = run env (World.start log0) ops) (hack : ∀ op ∈ ops, Outcome.ackLost ∉ op.outs)
    (u : Url) :
    committed log0 W.log u ++ pending W.w u = positions env W.acc u ∧
    (positions env W.acc u).Nodup ∧
    (∀ cm ∈ newCommits log0 W.log u, ∀ it ∈ cm.items, Derived env W.acc it.msgs it.schema it.data) ∧
    (∀ c, alGet u W.w.syncs = some c → ∀ it ∈ c.syncs, Derived env W.acc it.msgs it.schema it.data) := by
  subst hW
  have hf := full_run env log0 ops
  refine ⟨exact_run env log0 ops hack u, ?_, hf.content.com u, hf.content.buf u⟩
  exact (positions_sorted env _ u).imp (fun h => Nat.ne_of_lt h)

example : ∀ op ∈ Demo.ops, Outcome.ackLost ∉ op.outs := by decide
example : committed (fun _ => []) Demo.W.log "a" = [0, 2, 3] ∧ pending Demo.W.w "a" = [] ∧
    positions Demo.env Demo.W.acc "a" = [0, 2, 3] := by decide

/-- C04 without the restriction: if a commit can be written without the writer learning about it, the
buffered messages are still a final segment of the accepted ones, everything before it is in the
table, and nothing else is. -/
theorem C04_at_least_once (env : Env σ β) (log0 : Log σ β) (ops : List (Op σ β)) (W : World σ β)
    (hW : W = run env (World.start log0) ops) (u : Url) :
    ∃ done, positions env W.acc u = done ++ pending W.w u ∧
      (∀ j ∈ done, InTable env log0 W.log W.acc j u) ∧
      (∀ j ∈ committed log0 W.log u, j ∈ positions env W.acc u) := by
  subst hW
  have hf := full_run env log0 ops
  obtain ⟨done, h1, h2⟩ := hf.inv.split u
  exact ⟨done, h1, fun j hj => inTable_of_committed hf.content (h2 j hj), hf.info.sub u⟩

/-- With a lost acknowledgement a message is committed twice: C04 cannot be had unconditionally. -/
theorem C04_lost_ack_duplicates :
    committed (fun _ => []) (run Demo.env (World.start fun _ => [])
      [.sync (Demo.msg "a" "o" (some 1) [3]) 0 true [], .tick 20 true [.ackLost],
       .tick 21 true []]).log "a" = [0, 0] := by decide

/-! ### C05 -/

/-- C05.  A refused message or a probe leaves the whole state as it was; the answer to a probe
consists of the current numbers. -/
theorem C05_refused_no_effect (env : Env σ β) (W : World σ β) (m : Msg σ β) (now : Nat) (lock : Bool)
    (outs : List Outcome) :
    (((step env W (.sync m now lock outs)).2 = .notAccepted ∨
      (step env W (.sync m now lock outs)).2 = .notImplemented ∨
      (∃ e, (step env W (.sync m now lock outs)).2 = .invalid e)) →
      (step env W (.sync m now lock outs)).1 = W) ∧
    (m.nonempty env = false → m.sequence = none →
      step env W (.sync m now lock outs) =
        (W, .accepted (W.w.originMemory m.origin) (W.w.originDurable m.origin))) := by
  constructor
  · intro h
    simp only [step, processSync] at h ⊢
    split
    · rfl
    · next hp =>
      rw [if_neg hp] at h
      split
      · rfl
      · next hi =>
        rw [if_neg hi] at h
        split
        · rfl
        · next hl =>
          rw [if_neg hl] at h
          split
          · rfl
          · next w1 he =>
            rw [he] at h
            simp only at h
            split at h <;> simp at h
  · intro h1 h2
    have : rowsOfBatches env m.batches = 0 := by
      simp only [Msg.nonempty, decide_eq_false_iff_not] at h1; omega
    simp [step, processSync, this, h2]

example : (step Demo.env Demo.W (.sync (Demo.msg "b" "p" (some 5) [2]) 31 true [])).2 =
    .invalid .otherOriginOpen := by decide

/-- Which messages are refused as invalid: those of another origin than the open transaction's, and
empty messages that would open and close a transaction at once. -/
theorem C05_refusal_exact (env : Env σ β) (log0 : Log σ β) (ops : List (Op σ β)) (W : World σ β)
    (hW : W = run env (World.start log0) ops) (m : Msg σ β) (now : Nat) (outs : List Outcome)
    (hice : m.iceberg = false) (hp : ¬ (m.nonempty env = false ∧ m.sequence = none)) (e : EnqErr) :
    (step env W (.sync m now true outs)).2 = .invalid e ↔
      (e = .otherOriginOpen ∧ ∃ l, W.acc.getLast? = some l ∧ l.sequence = none ∧ l.origin ≠ m.origin) ∨
      (e = .emptyTransaction ∧ (∀ l, W.acc.getLast? = some l → l.sequence ≠ none) ∧
        m.nonempty env = false) := by
  subst hW
  have hf := full_run env log0 ops
  generalize run env (World.start log0) ops = W at *
  have hp' : ¬ (rowsOfBatches env m.batches = 0 ∧ m.sequence = none) := by
    rintro ⟨h1, h2⟩
    exact hp ⟨by simp [Msg.nonempty, h1], h2⟩
  have hstep : (step env W (.sync m now true outs)).2 = .invalid e ↔
      assignTx W.w m.url m.origin m.sequence (rowsOfBatches env m.batches) = .error e := by
    simp only [step, processSync, if_neg hp', hice, enqueue]
    cases ha : assignTx W.w m.url m.origin m.sequence (rowsOfBatches env m.batches) with
    | error e' => simp
    | ok p =>
      obtain ⟨w1, t⟩ := p
      simp only [Bool.false_eq_true, if_false, Bool.true_eq_false]
      constructor
      · intro h; split at h <;> cases h
      · intro h; cases h
  rw [hstep]
  -- the last transaction is open iff the last accepted message did not close
  have hopen : ∀ id tx, W.w.txs.getLast? = some (id, tx) → tx.sequence = none →
      ∃ l, W.acc.getLast? = some l ∧ l.sequence = none ∧ l.origin = tx.origin := by
    intro id tx ht hs
    rw [List.getLast?_eq_some_iff] at ht
    obtain ⟨init, ht⟩ := ht
    obtain ⟨h1, h2⟩ := hf.inv.last_open ht hs
    have h3 := hf.inv.count
    rw [txCount, ← closings_length] at h3
    have h4 : isOpen W.acc = true := by
      cases ho : isOpen W.acc with
      | true => rfl
      | false => rw [ho] at h3; simp at h3; omega
    simp only [isOpen] at h4
    cases hl : W.acc.getLast? with
    | none => rw [hl] at h4; simp at h4
    | some l =>
      rw [hl] at h4
      simp only [Option.isNone_iff_eq_none] at h4
      refine ⟨l, rfl, h4, ?_⟩
      rw [List.getLast?_eq_some_iff] at hl
      obtain ⟨ini, hl⟩ := hl
      have h5 := hf.inv.origins id tx (by simp [ht]) ini.length (by simp [hl])
      simp only [hl] at h5
      rw [txNo_append (Nat.le_refl _), txNo_length, ← closings_length] at h5
      have h6 : (closings (ini ++ [l])).length = (closings ini).length := by
        rw [closings_append, h4]; simp
      rw [hl, h6] at h1
      simpa using h5 h1.symm
  have hclosed : (∀ id tx, W.w.txs.getLast? = some (id, tx) → tx.sequence ≠ none) →
      ∀ l, W.acc.getLast? = some l → l.sequence ≠ none := by
    intro h l hl hs
    have := (hf.inv.not_open h).2
    simp [isOpen, hl, hs] at this
  have hstart : (∀ id tx, W.w.txs.getLast? = some (id, tx) → tx.sequence ≠ none) →
      (startTx W.w m.url m.origin m.sequence (rowsOfBatches env m.batches) = .error e ↔
        (e = .otherOriginOpen ∧ ∃ l, W.acc.getLast? = some l ∧ l.sequence = none ∧ l.origin ≠ m.origin) ∨
        (e = .emptyTransaction ∧ (∀ l, W.acc.getLast? = some l → l.sequence ≠ none) ∧
          m.nonempty env = false)) := by
    intro h
    have hc := hclosed h
    have hrow : m.nonempty env = false ↔ rowsOfBatches env m.batches = 0 := by
      simp only [Msg.nonempty, decide_eq_false_iff_not]; omega
    simp only [startTx]
    split
    · next h0 =>
      constructor
      · intro h1; injection h1 with h1
        exact Or.inr ⟨h1.symm, hc, hrow.2 h0.1⟩
      · rintro (⟨_, l, h1, h2, _⟩ | ⟨h1, _⟩)
        · exact absurd h2 (hc l h1)
        · rw [h1]
    · next h0 =>
      constructor
      · intro h1; cases h1
      · rintro (⟨_, l, h1, h2, _⟩ | ⟨_, _, h1⟩)
        · exact absurd h2 (hc l h1)
        · exfalso
          rw [hrow] at h1
          apply h0
          refine ⟨h1, ?_⟩
          cases hs : m.sequence with
          | none => exact absurd ⟨h1, hs⟩ hp'
          | some _ => rfl
  simp only [assignTx]
  split
  · next id tx hl =>
    split
    · next hs =>
      obtain ⟨l, h1, h2, h3⟩ := hopen id tx hl hs
      split
      · next ho =>
        constructor
        · intro h; injection h with h
          exact Or.inl ⟨h.symm, l, h1, h2, fun h4 => ho (by rw [← h3, h4])⟩
        · rintro (⟨h, _⟩ | ⟨_, h, _⟩)
          · rw [h]
          · exact absurd h2 (h l h1)
      · next ho =>
        constructor
        · intro h; cases h
        · rintro (⟨_, l', h, _, h'⟩ | ⟨_, h, _⟩)
          · rw [h1] at h; injection h with h; subst h
            exact absurd h3 (fun h4 => ho (fun h5 => h' (by rw [h4, h5])))
          · exact absurd h2 (h l h1)
    · next hs =>
      apply hstart
      intro id' tx' h'
      rw [hl] at h'
      injection h' with h'
      injection h' with _ h'
      subst h'; exact hs
  · next hl =>
    apply hstart
    intro id' tx' h'
    rw [hl] at h'; cases h'

/-- A flush error is reported to the client although the message itself has been accepted: a client
that resends it gets it applied twice.  (Recorded as a finding; the response is an error but the
state is not as before.) -/
theorem C05_flush_error_keeps_message :
    let r := step Demo.env (World.start fun _ => [])
      (.sync (Demo.msg "a" "o" (some 1) [500]) 0 true [.fail false])
    r.2 = .flushFailed ∧ pending r.1.w "a" = [0] := by decide

/-! ### C06 -/

/-- C06.  Transactions are consecutive runs of messages, each ended by a message with a sequence
number: (1) messages of one transaction come from one origin; (2) every buffered item is tagged with
exactly the transactions of its messages; (3) of the transactions the writer tracks only the last one
can be without sequence number, and it is the one of the most recently accepted message, from the
same origin. -/
theorem C06_one_open_transaction (env : Env σ β) (log0 : Log σ β) (ops : List (Op σ β))
    (W : World σ β) (hW : W = run env (World.start log0) ops) :
    (∀ i j a b, W.acc[i]? = some a → W.acc[j]? = some b → txNo W.acc i = txNo W.acc j →
      a.origin = b.origin) ∧
    (∀ u c, alGet u W.w.syncs = some c → ∀ it ∈ c.syncs, it.txIds = it.msgs.map (txNo W.acc)) ∧
    (∀ id tx, (id, tx) ∈ W.w.txs → tx.sequence = none →
      W.w.txs.getLast? = some (id, tx) ∧
      ∃ l, W.acc.getLast? = some l ∧ l.sequence = none ∧ l.origin = tx.origin ∧
        id = txNo W.acc (W.acc.length - 1)) := by
  subst hW
  have hf := full_run env log0 ops
  generalize run env (World.start log0) ops = W at *
  refine ⟨?_, ?_, ?_⟩
  · intro i j a b ha hb h
    obtain ⟨hi, ha⟩ := List.getElem?_eq_some_iff.1 ha
    obtain ⟨hj, hb⟩ := List.getElem?_eq_some_iff.1 hb
    rw [← ha, ← hb]
    exact hf.inv.sameOrigin i j hi hj h
  · intro u c hc it hit
    have hsk : skelAt W.w u = some (c.syncs.map (fun it => (it.txIds, it.msgs))) := by
      simp [skelAt, hc]
    exact ((hf.inv.items u _ hsk).2 (it.txIds, it.msgs) (List.mem_map.2 ⟨it, hit, rfl⟩)).2
  · intro id tx hm hs
    have h2 := hf.inv.seqs id tx hm
    rw [hs] at h2
    have h3 : (closings W.acc).length ≤ id := by
      cases hc : (closings W.acc)[id]? with
      | none => exact List.getElem?_eq_none_iff.1 hc
      | some p => rw [hc] at h2; simp at h2
    have h4 := hf.inv.count
    rw [txCount, ← closings_length] at h4
    have h5 : id ∈ W.w.txs.map (·.1) := List.mem_map.2 ⟨_, hm, rfl⟩
    rw [hf.inv.ids, List.mem_range'_1] at h5
    have hle := hf.inv.lenle
    have ho : isOpen W.acc = true := by
      cases ho : isOpen W.acc with
      | true => rfl
      | false => rw [ho] at h4; simp at h4; omega
    rw [ho] at h4
    simp only [if_true] at h4
    have hid : id = (closings W.acc).length := by omega
    obtain ⟨init, p, hp⟩ : ∃ init p, W.w.txs = init ++ [p] := by
      rcases List.eq_nil_or_concat W.w.txs with h | ⟨a, b, h⟩
      · rw [h] at hm; simp at hm
      · exact ⟨a, b, by simpa using h⟩
    obtain ⟨id', tx'⟩ := p
    have hlast : id' = id := by
      have h1 : (W.w.txs.map (·.1))[init.length]? = some id' := by simp [hp]
      have hlen : W.w.txs.length = init.length + 1 := by simp [hp]
      rw [hf.inv.ids, List.getElem?_range' (by omega)] at h1
      injection h1 with h1
      omega
    subst hlast
    have htx : tx' = tx := by
      have a := hf.inv.alGet_tx hm
      have b := hf.inv.alGet_tx (t := id') (tx := tx') (by simp [hp])
      rw [a] at b; injection b with b; exact b.symm
    subst htx
    refine ⟨by simp [hp], ?_⟩
    simp only [isOpen] at ho
    cases hl : W.acc.getLast? with
    | none => rw [hl] at ho; simp at ho
    | some l =>
      rw [hl] at ho
      simp only [Option.isNone_iff_eq_none] at ho
      rw [List.getLast?_eq_some_iff] at hl
      obtain ⟨ini, hl⟩ := hl
      have h6 : txNo W.acc ini.length = id' := by
        rw [hid, hl, txNo_append (Nat.le_refl _), txNo_length, ← closings_length, closings_append, ho]
        simp
      refine ⟨l, rfl, ho, ?_, ?_⟩
      · have := hf.inv.origins id' tx' hm ini.length (by simp [hl]) h6
        simpa [hl] using this
      · rw [show W.acc.length - 1 = ini.length by simp [hl]]
        exact h6.symm

example : Demo.W.w.txs = [(2, { origin := "o", sequence := none, locations := [] })] := by decide

/-! ### C07 -/

/-- C07.  The total size equals the number of bytes in all buffered batches, and the size and the
number of rows kept for a table are those of its buffered batches. -/
theorem C07_accounting (env : Env σ β) (log0 : Log σ β) (ops : List (Op σ β)) (W : World σ β)
    (hW : W = run env (World.start log0) ops) :
    W.w.size = (W.w.syncs.map (fun p => (p.2.syncs.map (fun it => (it.data.map env.bytes).sum)).sum)).sum ∧
    ∀ u c, (u, c) ∈ W.w.syncs →
      c.size = (c.syncs.map (fun it => (it.data.map env.bytes).sum)).sum ∧
      c.rows = (c.syncs.map (fun it => (it.data.map env.rows).sum)).sum := by
  subst hW
  have hf := full_run env log0 ops
  have hget : ∀ u c, (u, c) ∈ (run env (World.start log0) ops).w.syncs →
      alGet u (run env (World.start log0) ops).w.syncs = some c :=
    fun u c h => alGet_of_mem hf.inv.keys h
  refine ⟨?_, fun u c h => ⟨hf.acct.size u c (hget u c h), hf.acct.rows u c (hget u c h)⟩⟩
  rw [hf.acct.total, alSum]
  congr 1
  apply List.map_congr_left
  rintro ⟨u, c⟩ h
  exact hf.acct.size u c (hget u c h)

example : (run Demo.env (World.start fun _ => []) (Demo.ops.take 3)).w.size = 9 := by decide

/-- `squashLoop` with every subtraction checked: `none` on underflow. -/
def squashLoopChecked (env : Env σ β) : List (Item σ β) → Nat → Nat → Nat → Option Unit
  | [], _, _, _ => some ()
  | it :: rest, total, size, rows =>
    if it.isSquashed then squashLoopChecked env rest total size rows
    else
      let oldSize := sizeOfBatches env it.data
      let oldRows := rowsOfBatches env it.data
      match env.squash it.schema it.data with
      | none => some ()
      | some (_, b) =>
        if oldSize ≤ total ∧ oldSize ≤ size ∧ oldRows ≤ rows then
          squashLoopChecked env rest (total - oldSize + env.bytes b)
            (size - oldSize + env.bytes b) (rows - oldRows + env.rows b)
        else none

/-- C07, second part: from a reachable state no subtraction of the accounting underflows, neither in
squashing a table nor in removing it. -/
theorem C07_no_underflow (env : Env σ β) (log0 : Log σ β) (ops : List (Op σ β)) (W : World σ β)
    (hW : W = run env (World.start log0) ops) (u : Url) (c : Coll σ β)
    (hc : alGet u W.w.syncs = some c) :
    squashLoopChecked env c.syncs W.w.size c.size c.rows = some () ∧ c.size ≤ W.w.size := by
  subst hW
  have hf := full_run env log0 ops
  generalize run env (World.start log0) ops = W at *
  have hle : c.size ≤ W.w.size := by
    rw [hf.acct.total]; exact le_alSum u (·.size) _ c hc
  refine ⟨?_, hle⟩
  have hgen : ∀ (l : List (Item σ β)) (t s r : Nat), itemsSize env l ≤ s → s ≤ t →
      itemsRows env l ≤ r → squashLoopChecked env l t s r = some () := by
    intro l
    induction l with
    | nil => intros; rfl
    | cons x rest ih =>
      intro t s r h1 h2 h3
      have e1 : itemsSize env (x :: rest) = sizeOfBatches env x.data + itemsSize env rest := by
        simp [itemsSize]
      have e2 : itemsRows env (x :: rest) = rowsOfBatches env x.data + itemsRows env rest := by
        simp [itemsRows]
      simp only [squashLoopChecked]
      split
      · exact ih _ _ _ (by omega) h2 (by omega)
      · split
        · rfl
        · rw [if_pos ⟨by omega, by omega, by omega⟩]
          exact ih _ _ _ (by omega) (by omega) (by omega)
  exact hgen c.syncs _ _ _ (Nat.le_of_eq (hf.acct.size u c hc).symm) hle
    (Nat.le_of_eq (hf.acct.rows u c hc).symm)

/-! ### C08 -/

/-- C08, termination: the flush loop always ends with success or an error (the fuel of the model
never runs out), whatever the buffer, configuration, clock and storage outcomes. -/
theorem C08_terminates (env : Env σ β) (w : Writer σ β) (log : Log σ β) (now : Nat)
    (outs : List Outcome) :
    (flush env w log now outs).2.2 = .ok ∨ (flush env w log now outs).2.2 = .err := by
  have := flushLoop_fuel env now (w.syncs.length + 1) outs w log (Nat.lt_succ_self _)
  simp only [flush]
  cases h : (flushLoop env now (w.syncs.length + 1) outs w log).2.2 with
  | ok => simp
  | err => simp
  | outOfFuel => exact absurd h this

/-- C08, at most one data commit per table and flush. -/
theorem C08_one_commit_per_table (env : Env σ β) (log0 : Log σ β) (ops : List (Op σ β))
    (W : World σ β) (hW : W = run env (World.start log0) ops) (now : Nat) (outs : List Outcome)
    (u : Url) :
    ∃ extra, (flush env W.w W.log now outs).2.1 u = W.log u ++ extra ∧
      (extra.filter (fun c => !c.items.isEmpty)).length ≤ 1 := by
  subst hW
  exact (flushLoop_once env now _ outs _ _ (full_run env log0 ops).inv.keys u).2

/-- C08, post-condition of a successful flush, without any assumption on the clock: the oldest entry
is not overdue, the size is below the limit or nothing is buffered, and no table has too many items. -/
theorem C08_post (env : Env σ β) (w : Writer σ β) (log : Log σ β) (now : Nat) (outs : List Outcome)
    (w' : Writer σ β) (hw' : w' = (flush env w log now outs).1)
    (h : (flush env w log now outs).2.2 = .ok) :
    (∀ u c, w'.syncs.head? = some (u, c) → lag now c.insertionTime < env.maxLag) ∧
    (w'.size < env.maxBytes ∨ w'.syncs = []) ∧
    (∀ u c, (u, c) ∈ w'.syncs → c.syncs.length < env.maxSyncs) := by
  subst hw'
  obtain ⟨w0, h1, h2⟩ := flushLoop_post env now _ outs w log h
  obtain ⟨h3, _, h4⟩ := flushReady_spec env w0 now
  obtain ⟨h5, ⟨x, h6⟩, h7, h8⟩ := h4 h1
  simp only [flush]
  rw [h2]
  refine ⟨?_, ?_, ?_⟩
  · intro u c hc
    have htimes : (flushReady env w0 now).1.syncs.map (fun p => (p.1, p.2.insertionTime)) =
        w0.syncs.map (fun p => (p.1, p.2.insertionTime)) := by
      rcases h6 with h6 | h6
      · rw [h6]
      · rw [h6]; exact squashUrl_times env w0 x
    have hh := congrArg List.head? htimes
    rw [List.head?_map, List.head?_map, hc] at hh
    simp only [Option.map_some] at hh
    cases hw : w0.syncs.head? with
    | none => rw [hw] at hh; simp at hh
    | some p =>
      obtain ⟨u0, c0⟩ := p
      rw [hw] at hh
      simp only [Option.map_some, Option.some.injEq, Prod.mk.injEq] at hh
      simp only [readyByLag, hw] at h5
      split at h5
      · cases h5
      · next hl => rw [hh.2]; omega
  · rcases h8 with h8 | h8
    · exact Or.inl h8
    · right
      rw [h8] at h3
      simpa using h3
  · intro u c hc
    simp only [readyByCount, Option.map_eq_none_iff, List.find?_eq_none] at h7
    have := h7 (u, c) hc
    simpa using this

/-- C08, what `lag` computes: the difference of two times as a 64-bit number. -/
theorem lag_wraps (now t : Nat) (hn : now < 2 ^ 64) (ht : t < 2 ^ 64) :
    (lag now t : Int) = ((now : Int) - t) % 2 ^ 64 := by
  unfold lag
  split <;> omega

/-- C08, if the clock goes back: the oldest entry is not overdue in 64-bit arithmetic.  An entry from the future is
flushed at once, unless the clock went back by almost 2^64 seconds. -/
theorem C08_clock (env : Env σ β) (w : Writer σ β) (log : Log σ β) (now : Nat) (outs : List Outcome)
    (w' : Writer σ β) (hw' : w' = (flush env w log now outs).1)
    (h : (flush env w log now outs).2.2 = .ok) (u : Url) (c : Coll σ β) (hc : w'.syncs.head? = some (u, c))
    (hn : now < 2 ^ 64) (ht : c.insertionTime < 2 ^ 64) :
    ((now : Int) - c.insertionTime) % 2 ^ 64 < env.maxLag ∧
    (env.maxLag ≤ 2 ^ 63 → c.insertionTime < now + 2 ^ 63 → c.insertionTime ≤ now) := by
  have h1 := (C08_post env w log now outs w' hw' h).1 u c hc
  have h2 := lag_wraps now c.insertionTime hn ht
  refine ⟨by rw [← h2]; exact_mod_cast h1, fun h3 h4 => ?_⟩
  unfold lag at h1
  split at h1 <;> omega

/-- C08, lag of every table: while the clock of the process does not go back, a successful background
flush leaves no table that has been waiting for `max_replication_lag_s` or longer. -/
theorem C08_nothing_overdue (env : Env σ β) (log0 : Log σ β) (ops : List (Op σ β)) (W : World σ β)
    (hW : W = run env (World.start log0) ops) (hclock : ClockOk 0 ops) (now : Nat)
    (hnow : clockEnd 0 ops ≤ now) (outs : List Outcome) (w' : Writer σ β)
    (hw' : w' = (flush env W.w W.log now outs).1)
    (h : (flush env W.w W.log now outs).2.2 = .ok) :
    ∀ u c, (u, c) ∈ w'.syncs → now - c.insertionTime < env.maxLag ∧ c.insertionTime ≤ now := by
  intro u c hc
  have ht : Timed (clockEnd 0 ops) W.w := by
    subst hW
    apply timed_run ops (World.start log0) 0 _ hclock
    simp [Timed, World.start, Writer.new]
  have ht' : Timed now w' := by
    subst hw'
    exact (timed_closed env now).flush (acc := W.acc) (ht.mono hnow) now outs (fun _ _ => trivial)
  obtain ⟨h1, _, _⟩ := C08_post env W.w W.log now outs w' hw' h
  cases hs : w'.syncs with
  | nil => rw [hs] at hc; simp at hc
  | cons p rest =>
    obtain ⟨u0, c0⟩ := p
    have h2 := h1 u0 c0 (by rw [hs]; rfl)
    have h3 : c0.insertionTime ≤ now := by
      have := ht'.2 (u0, c0.insertionTime) (by rw [hs]; simp)
      exact this
    have h4 : c0.insertionTime ≤ c.insertionTime := by
      rw [hs] at hc
      rcases List.mem_cons.1 hc with hc | hc
      · injection hc with _ hc; subst hc; exact Nat.le_refl _
      · have hpw := ht'.1
        rw [hs] at hpw
        simp only [List.map_cons, List.pairwise_cons] at hpw
        exact hpw.1 (u, c.insertionTime) (List.mem_map.2 ⟨(u, c), hc, rfl⟩)
    have h5 : c.insertionTime ≤ now := by
      have := ht'.2 (u, c.insertionTime) (List.mem_map.2 ⟨(u, c), hc, rfl⟩)
      exact this
    simp only [lag, h3, if_true] at h2
    omega

example : ClockOk 0 Demo.ops ∧ clockEnd 0 Demo.ops = 30 ∧
    (flush Demo.env Demo.W.w Demo.W.log 40 []).2.2 = .ok := by
  refine ⟨?_, rfl, rfl⟩
  simp [Demo.ops, ClockOk, Op.now]

/-! ### C09 -/

/-- C09, one table: a `flush_syncs` that fails before the commit keeps every buffered message, every
committed message, all sequence numbers and the whole transaction bookkeeping. -/
theorem C09_failed_flush_step (env : Env σ β) (w : Writer σ β) (log : Log σ β) (u : Url)
    (created : Bool) (hu : u ∈ w.syncs.map (·.1)) (r : Writer σ β × Log σ β × FlushOk)
    (hr : r = flushSyncs env w log u (.fail created)) :
    r.2.2 = false ∧ (∀ u', pending r.1 u' = pending w u') ∧
    (∀ u', commitMsgs (r.2.1 u') = commitMsgs (log u')) ∧
    r.1.txs = w.txs ∧ r.1.originMemory = w.originMemory ∧ r.1.originDurable = w.originDurable := by
  subst hr
  obtain ⟨e1, _, e3, e4, e5, e6⟩ := squashUrl_fields env w u
  have hp : ∀ u', pending (squashUrl env w u).1 u' = pending w u' :=
    fun u' => squashUrl_pending env w u u'
  obtain ⟨entry, hentry⟩ := alGet_isSome_of_key (e5 ▸ hu)
  simp only [flushSyncs]
  split
  · exact ⟨rfl, hp, fun _ => rfl, e1, e3, e4⟩
  · rw [hentry]
    cases created with
    | false => exact ⟨rfl, hp, fun _ => rfl, e1, e3, e4⟩
    | true =>
      refine ⟨rfl, hp, ?_, e1, e3, e4⟩
      intro u'
      simp only [ensureTable]
      split
      · next h => rw [h.2]; rfl
      · rfl

example : "a" ∈ (run Demo.env (World.start fun _ => []) (Demo.ops.take 3)).w.syncs.map (·.1) := by
  decide

/-- C09, whole flush: whatever fails in a flush (at whatever table, squashing included), the
committed messages followed by the buffered ones stay the same list for every table; so once a later
flush empties the buffer of a table, each accepted message is in it exactly once. -/
theorem C09_flush_conserves (env : Env σ β) (log0 : Log σ β) (ops : List (Op σ β)) (W : World σ β)
    (hW : W = run env (World.start log0) ops) (hack : ∀ op ∈ ops, Outcome.ackLost ∉ op.outs)
    (now : Nat) (outs : List Outcome) (houts : Outcome.ackLost ∉ outs) (u : Url)
    (r : Writer σ β × Log σ β × FlushRes) (hr : r = flush env W.w W.log now outs) :
    committed log0 r.2.1 u ++ pending r.1 u = committed log0 W.log u ++ pending W.w u ∧
    (pending r.1 u = [] → committed log0 r.2.1 u = positions env W.acc u ∧
      (committed log0 r.2.1 u).Nodup) := by
  subst hW hr
  have h1 := exact_run env log0 ops hack u
  have h2 := exact_run env log0 (ops ++ [.tick now true outs]) (by
    intro op hop
    rcases List.mem_append.1 hop with h | h
    · exact hack op h
    · simp only [List.mem_singleton] at h
      subst h; exact houts) u
  rw [run_append] at h2
  simp only [run, step, flushTick, if_true] at h2
  refine ⟨by rw [h1, h2], ?_⟩
  intro hp
  rw [hp, List.append_nil] at h2
  rw [h2]
  exact ⟨rfl, (positions_sorted env _ u).imp (fun h => Nat.ne_of_lt h)⟩

/-! ### C10 -/

/-- C10.  Take any commit made since process start that carries sync info.  With `n` the number of
messages accepted when it was made: all changes to the table accepted by then are in the table (so in
particular all up to the named transaction), the named transaction is one completed by then (or the
one named by the newest commit at process start), and `newTx` tells whether the table contains
changes of a transaction that was still open. -/
theorem C10_commit_info_sound (env : Env σ β) (log0 : Log σ β) (ops : List (Op σ β)) (W : World σ β)
    (hW : W = run env (World.start log0) ops) (u : Url) (before after : List (Commit σ β))
    (c : Commit σ β) (ci : CommitInfo) (hc : newCommits log0 W.log u = before ++ c :: after)
    (hci : c.info = some ci) :
    ∃ n, InfoSound env W.acc (log0 u) u (commitMsgs (before ++ [c])) c.items ci n := by
  subst hW
  exact (full_run env log0 ops).info.info u before c after ci hc hci

example : (Demo.W.log "a").map (·.info) = [none, some ⟨"p", 9, false⟩, none, none] := by decide

/-- C10, corollary in the words of the property: the newest commit's info. -/
theorem C10_newest_commit (env : Env σ β) (log0 : Log σ β) (ops : List (Op σ β)) (W : World σ β)
    (hW : W = run env (World.start log0) ops) (u : Url) (cs : List (Commit σ β)) (c : Commit σ β)
    (ci : CommitInfo) (hc : newCommits log0 W.log u = cs ++ [c]) (hci : c.info = some ci)
    (i : Nat) (m : Msg σ β) (hm : W.acc[i]? = some m) (_hmo : m.origin = ci.origin)
    (_hms : m.sequence = some ci.sequence)
    (hnamed : ∀ i' m', W.acc[i']? = some m' → m'.origin = ci.origin → m'.sequence = some ci.sequence →
      i ≤ i') (hstart : ∀ c0 ∈ log0 u, c0.info = none) :
    ∀ j m', j ≤ i → W.acc[j]? = some m' → m'.url = u → m'.nonempty env = true →
      InTable env log0 W.log W.acc j u := by
  intro j m' hji hj hu hne
  obtain ⟨n, hn⟩ := C10_commit_info_sound env log0 ops W hW u cs [] c ci hc hci
  obtain ⟨hjl, hjm⟩ := List.getElem?_eq_some_iff.1 hj
  have hin : i < n := by
    rcases hn.named with ⟨i', m2, a, b, c', d⟩ | ⟨c0, ci0, a, b, _⟩
    · exact Nat.lt_of_le_of_lt (hnamed i' m2 b c' d) a
    · have := hstart c0 (List.mem_of_getLast? a)
      rw [b] at this; cases this
  have hjc := hn.complete j (by omega) (mem_positions.2 ⟨hjl, by rw [hjm]; exact hu, by rw [hjm]; exact hne⟩)
  subst hW
  apply inTable_of_committed (full_run env log0 ops).content
  rw [committed, hc]; exact hjc

/-- `commit_info` never panics on a missing transaction: a flush of a buffered table with cooperating
storage succeeds unless squashing fails. -/
theorem C10_commit_info_total (env : Env σ β) (log0 : Log σ β) (ops : List (Op σ β)) (W : World σ β)
    (hW : W = run env (World.start log0) ops) (u : Url) (c : Coll σ β)
    (hc : alGet u W.w.syncs = some c) (last : Option CommitInfo) :
    commitInfo W.w.txs last c.syncs ≠ none := by
  subst hW
  obtain ⟨info, _, _, h, _⟩ := (full_run env log0 ops).inv.commitInfo_spec hc last
  rw [h]; simp

/-- The other unwraps of the service hold as well (writer.rs 233, 419, 614, 625): a buffered table has
at least one item, and every item belongs to at least one transaction. -/
theorem C10_no_empty_items (env : Env σ β) (log0 : Log σ β) (ops : List (Op σ β)) (W : World σ β)
    (hW : W = run env (World.start log0) ops) (u : Url) (c : Coll σ β)
    (hc : alGet u W.w.syncs = some c) :
    c.syncs ≠ [] ∧ ∀ it ∈ c.syncs, it.txIds ≠ [] ∧ it.msgs ≠ [] := by
  subst hW
  have h := (full_run env log0 ops).inv.items u (c.syncs.map (fun it => (it.txIds, it.msgs)))
    (by simp [skelAt, hc])
  refine ⟨fun h0 => h.1 (by simp [h0]), fun it hit => ?_⟩
  have h2 := h.2 _ (List.mem_map.2 ⟨it, hit, rfl⟩)
  exact ⟨fun h0 => h2.1 (List.map_eq_nil_iff.1 (h2.2.symm.trans h0)), h2.1⟩

/-! ### C11 -/

/-- The configuration that flushes at once. -/
def Demo.eager : Env Unit Nat := { Demo.env with maxLag := 0 }

/-- C11 does not hold: a transaction whose data is flushed before an empty closing message arrives is
never reported durable, however often the background task runs afterwards. -/
theorem C11_violated (ticks : List Nat) :
    let W := run Demo.eager (World.start fun _ => [])
      ([.sync (Demo.msg "a" "o" none [3]) 0 true [], .sync (Demo.msg "a" "o" (some 1) []) 1 true []] ++
        ticks.map (fun t => .tick t true []))
    isOpen W.acc = false ∧ W.w.syncs = [] ∧ W.w.originMemory "o" = some 1 ∧
      W.w.originDurable "o" = none := by
  intro W
  have h0 : ∀ (ticks : List Nat) (V : World Unit Nat), V.w.syncs = [] → V.w.size = 0 →
      run Demo.eager V (ticks.map (fun t => .tick t true [])) = V := by
    intro ticks
    induction ticks with
    | nil => intro V _ _; rfl
    | cons t ts ih =>
      intro V h1 h2
      have : (step Demo.eager V (.tick t true [])).1 = V := by
        obtain ⟨w, log, acc⟩ := V
        simp only at h1 h2
        simp [step, flushTick, flush, h1, h2, flushLoop, flushReady, readyByLag, readyByCount,
          Demo.eager, Demo.env]
      simp only [List.map_cons, run]
      rw [this]
      exact ih V h1 h2
  have hW : W = run Demo.eager (World.start fun _ => [])
      [.sync (Demo.msg "a" "o" none [3]) 0 true [], .sync (Demo.msg "a" "o" (some 1) []) 1 true []] := by
    show run Demo.eager (World.start fun _ => []) (_ ++ _) = _
    rw [run_append]
    apply h0
    · decide
    · decide
  rw [hW]
  refine ⟨by decide, by decide, by decide, by decide⟩

/-- C11, what does hold: if a flush starts with something buffered and ends with an empty buffer while
all accepted transactions are closed, then every memory number is durable.  (Missing to the full
claim: the case in which the last transaction is closed by a message after the last table commit.) -/
theorem C11_drained_partial (env : Env σ β) (log0 : Log σ β) (ops : List (Op σ β)) (W : World σ β)
    (hW : W = run env (World.start log0) ops) (hclosed : isOpen W.acc = false)
    (hbuf : W.w.syncs ≠ []) (now : Nat) (outs : List Outcome) (w' : Writer σ β)
    (hw' : w' = (flush env W.w W.log now outs).1) (hempty : w'.syncs = []) (o : Origin) :
    w'.originDurable o = w'.originMemory o := by
  subst hW hw'
  have := (drained_closed env log0 _ hclosed).flush (w := (run env (World.start log0) ops).w)
    (log := (run env (World.start log0) ops).log)
    ⟨rfl, full_run env log0 ops, fun h => absurd h hbuf⟩ now outs (fun _ _ => trivial)
  exact this.2.2 hempty o

/-- C11 as the client sees it: if a closing message with rows is accepted and nothing is buffered
after the flush that follows, the reported durable number is the reported memory number, namely the
sequence number just sent. -/
theorem C11_response_partial (env : Env σ β) (log0 : Log σ β) (ops : List (Op σ β)) (m : Msg σ β)
    (now : Nat) (lock : Bool) (outs : List Outcome) (mem dur : Option Seq)
    (hm : m.nonempty env = true) (s : Seq) (hs : m.sequence = some s)
    (W : World σ β) (hW : W = run env (World.start log0) ops) (W' : World σ β)
    (hstep : step env W (.sync m now lock outs) = (W', .accepted mem dur))
    (hempty : W'.w.syncs = []) : mem = some s ∧ dur = some s := by
  have hf : Full env log0 W.w W.log W.acc := by subst hW; exact full_run env log0 ops
  have hp : ¬ (rowsOfBatches env m.batches = 0 ∧ m.sequence = none) := by
    rintro ⟨_, h⟩; rw [hs] at h; cases h
  simp only [step, processSync, if_neg hp] at hstep
  split at hstep
  · cases hstep
  · next hi =>
    split at hstep
    · cases hstep
    · split at hstep
      · cases hstep
      · next w1 he =>
        have hf1 := (full_closed env log0).enq _ _ _ now m w1 hf hp (by simpa using hi) he
        have hclosed : isOpen (W.acc ++ [m]) = false := by
          simp [isOpen, hs]
        have hne : w1.syncs ≠ [] := by
          intro h
          have := enqueue_pending he m.url
          simp [pending, h, alGet, hm] at this
        have hd := (drained_closed env log0 _ hclosed).flush (w := w1) (log := W.log)
          ⟨rfl, hf1, fun h => absurd h hne⟩ now outs (fun _ _ => trivial)
        injection hstep with h1 h2
        subst h1
        simp only at hempty h2
        have hd2 := hd.2.2 hempty m.origin
        split at h2
        · injection h2 with h3 h4
          have hmem := hd.2.1.inv.mem m.origin
          rw [closings_append, hs] at hmem
          simp only at hmem
          rw [lastOf_append_singleton] at hmem
          simp only [if_true] at hmem
          rw [← h3, ← h4, hd2, hmem]
          exact ⟨rfl, rfl⟩
        · cases h2

example : (step Demo.eager (World.start fun _ => []) (.sync (Demo.msg "a" "o" (some 4) [3]) 0 true [])).2
    = .accepted (some 4) (some 4) := by decide

end Seafowl.Sync
