import Verif.Sync.MetricsInv
import Verif.Sync.WriterProps

/-!
# C113: what the metrics of the sync writer show

The specification: sums over the batches the writer holds, over the messages it accepted and over
the commits it made, in terms of `env.bytes` and `env.rows` only.
-/

namespace Seafowl.Sync

variable {σ β : Type}

/-- Bytes of the batches waiting in memory. -/
def pendingBytes (env : Env σ β) (w : Writer σ β) : Nat :=
  (w.syncs.map fun p => (p.2.syncs.map fun it => (it.data.map env.bytes).sum).sum).sum
/-- Rows of the batches waiting in memory. -/
def pendingRows (env : Env σ β) (w : Writer σ β) : Nat :=
  (w.syncs.map fun p => (p.2.syncs.map fun it => (it.data.map env.rows).sum).sum).sum
/-- Rows of the messages. -/
def sentRows (env : Env σ β) (acc : List (Msg σ β)) : Nat :=
  (acc.map fun m => (m.batches.map env.rows).sum).sum
/-- Bytes of the messages that have rows. -/
def sentBytes (env : Env σ β) (acc : List (Msg σ β)) : Nat :=
  (acc.map fun m => if (m.batches.map env.rows).sum = 0 then 0 else (m.batches.map env.bytes).sum).sum
/-- Rows in the sync commits made to a table since the process started. -/
def committedRows (env : Env σ β) (log0 log : Log σ β) (u : Url) : Nat :=
  ((newCommits log0 log u).map fun cm => (cm.items.map fun it => (it.data.map env.rows).sum).sum).sum

theorem sum_congr_mem {α : Type} (l : List α) (f g : α → Nat) (h : ∀ a ∈ l, f a = g a) :
    (l.map f).sum = (l.map g).sum := by
  rw [List.map_congr_left h]

theorem Full.held {env : Env σ β} {log0 log : Log σ β} {w : Writer σ β} {acc : List (Msg σ β)}
    (h : Full env log0 w log acc) : w.size = pendingBytes env w ∧ rowsHeld w = pendingRows env w := by
  constructor
  · rw [h.acct.total]
    exact sum_congr_mem _ _ _ (fun p hp => h.acct.size p.1 p.2 (alGet_of_mem h.inv.keys hp))
  · exact sum_congr_mem _ _ _ (fun p hp => h.acct.rows p.1 p.2 (alGet_of_mem h.inv.keys hp))

/-- What the metrics and the state have to do with each other. -/
structure MetInv (env : Env σ β) (w : Writer σ β) (acc : List (Msg σ β)) (mt : Metrics) : Prop where
  bytes : mt.memBytes = (w.size : Int)
  rows : mt.memRows + (rowsHeld w : Int) = 2 * ((mt.reqRows : Int) - (mt.flRows : Int))
  seqMem : mt.seqMem = w.originMemory
  seqDur : mt.seqDur = w.originDurable
  consRows : NoMoreRows env → mt.reqRows = rowsHeld w + mt.flRows + mt.sqRows
  consBytes : NoMoreBytes env → mt.reqBytes = w.size + mt.flBytes + mt.sqBytes
  reqRows : mt.reqRows = sentRows env acc
  reqBytes : mt.reqBytes = sentBytes env acc

theorem MetInv.sq {env : Env σ β} {w : Writer σ β} {acc : List (Msg σ β)} {mt : Metrics}
    (ha : Acct env w) (h : MetInv env w acc mt) (u : Url) :
    MetInv env (squashUrl env w u).1 acc (squashUrlMet env w u mt) := by
  obtain ⟨s1, s2, s3, s4, s5, s6, _, _⟩ := squashUrlMet_same env w u mt
  obtain ⟨a1, a2, a3, a4⟩ := squashUrlMet_acct ha u mt
  obtain ⟨_, _, f3, f4, _, _⟩ := squashUrl_fields env w u
  have hb := h.bytes
  have hr := h.rows
  constructor
  · omega
  · rw [s2, s4]; omega
  · rw [s5, f3]; exact h.seqMem
  · rw [s6, f4]; exact h.seqDur
  · intro hn
    have := a3 hn
    have := h.consRows hn
    omega
  · intro hn
    have := a4 hn
    have := h.consBytes hn
    omega
  · rw [s2]; exact h.reqRows
  · rw [s1]; exact h.reqBytes

theorem metInv_closed (env : Env σ β) (log0 : Log σ β) :
    MetClosed env (fun _ => True) (fun _ => True) (fun _ => True)
      (fun w log acc mt => Full env log0 w log acc ∧ MetInv env w acc mt) where
  okQ := trivial
  sq := fun w log acc mt u h => ⟨(full_closed env log0).sq w log acc u h.1, h.2.sq h.1.acct u⟩
  create := fun w log acc mt u h => ⟨(full_closed env log0).create w log acc u h.1, h.2⟩
  lost := fun w log acc mt u entry info hq h h1 h2 h3 h4 h5 =>
    ⟨(full_closed env log0).lost w log acc u entry info hq h.1 h1 h2 h3 h4 h5, h.2⟩
  fin := by
    intro w log acc mt u entry info now _ h h1 h2 h3 h4 h5
    refine ⟨(full_closed env log0).fin w log acc u entry info h.1 h1 h2 h3 h4 h5, ?_⟩
    have hf := finishFlush_syncs w u entry.syncs
    have hh : rowsHeld (finishFlush w u entry.syncs) + entry.rows = rowsHeld w := by
      have := removeSync_held w u h2
      simp only [rowsHeld, hf.1] at this ⊢
      exact this
    have hz : (finishFlush w u entry.syncs).size = w.size - entry.size := by
      rw [hf.2]; exact removeSync_size w u h2
    have hle : entry.size ≤ w.size := by
      rw [h.1.acct.total]; exact le_alSum u (·.size) w.syncs entry h2
    obtain ⟨i1, i2, i3, i4, i5, i6, i7, i8⟩ := h.2
    constructor <;> simp only [finishMet, removeMet, h2]
    · omega
    · omega
    · rw [finishFlush_memory]; exact i3
    · funext o
      cases ho : (finishFlush w u entry.syncs).originDurable o with
      | some s => rfl
      | none =>
        simp only [durGauge]
        rw [i4]
        exact finishFlush_durable w u entry.syncs o ho
    · intro hn; have := i5 hn; omega
    · intro hn; have := i6 hn; omega
    · exact i7
    · exact i8
  empty := by
    intro w log acc mt u entry h h2 h3
    refine ⟨(full_closed env log0).empty w log acc u entry h.1 h2 h3, ?_⟩
    have hh := removeSync_held w u h2
    have hz := removeSync_size w u h2
    have e1 : entry.rows = 0 := by rw [h.1.acct.rows u entry h2, h3]; rfl
    have e2 : entry.size = 0 := by rw [h.1.acct.size u entry h2, h3]; rfl
    obtain ⟨_, _, f3, f4⟩ := removeSync_fields w u
    obtain ⟨i1, i2, i3, i4, i5, i6, i7, i8⟩ := h.2
    constructor <;> simp only [removeMet, h2]
    · omega
    · omega
    · rw [f3]; exact i3
    · rw [f4]; exact i4
    · intro hn; have := i5 hn; omega
    · intro hn; have := i6 hn; omega
    · exact i7
    · exact i8
  oldest := fun w log acc mt h => ⟨h.1, ⟨h.2.bytes, h.2.rows, h.2.seqMem, h.2.seqDur,
    h.2.consRows, h.2.consBytes, h.2.reqRows, h.2.reqBytes⟩⟩
  enq := by
    intro w log acc mt now m w' h _ hp hi he
    refine ⟨(full_closed env log0).enq w log acc now m w' h.1 hp hi he, ?_⟩
    obtain ⟨e1, e2, e3, e4⟩ := enqueue_held he
    obtain ⟨i1, i2, i3, i4, i5, i6, i7, i8⟩ := h.2
    have hsr : sentRows env (acc ++ [m]) = sentRows env acc + rowsOfBatches env m.batches := by
      simp [sentRows, rowsOfBatches]
    have hsb : sentBytes env (acc ++ [m]) = sentBytes env acc +
        (if 0 < rowsOfBatches env m.batches then sizeOfBatches env m.batches else 0) := by
      by_cases h0 : 0 < rowsOfBatches env m.batches
      · have h1 : ¬ (m.batches.map env.rows).sum = 0 := by simp only [rowsOfBatches] at h0; omega
        rw [if_pos h0]
        simp [sentBytes, h1, sizeOfBatches]
      · have h1 : (m.batches.map env.rows).sum = 0 := by simp only [rowsOfBatches] at h0; omega
        rw [if_neg h0]
        simp [sentBytes, h1]
    have key : MetInv env { w' with originMemory := w.originMemory } (acc ++ [m])
        (if 0 < rowsOfBatches env m.batches then bufferMet env w' m mt else mt) := by
      by_cases h0 : 0 < rowsOfBatches env m.batches
      · rw [if_pos h0] at e1 hsb ⊢
        constructor <;> simp only [bufferMet]
        · omega
        · simp only [rowsHeld] at e2 i2 ⊢; omega
        · exact i3
        · rw [e4]; exact i4
        · intro hn; have := i5 hn; simp only [rowsHeld] at e2 this ⊢; omega
        · intro hn; have := i6 hn; omega
        · omega
        · omega
      · rw [if_neg h0] at e1 hsb ⊢
        have hz : rowsOfBatches env m.batches = 0 := by omega
        constructor
        · simp only; omega
        · simp only [rowsHeld] at e2 i2 ⊢; omega
        · exact i3
        · simp only [e4]; exact i4
        · intro hn; have := i5 hn; simp only [rowsHeld] at e2 this ⊢; omega
        · intro hn; have := i6 hn; simp only; omega
        · omega
        · omega
    obtain ⟨k1, k2, k3, k4, k5, k6, k7, k8⟩ := key
    simp only [enqueueMet]
    cases hs : m.sequence with
    | none =>
      rw [hs] at e3
      exact ⟨k1, k2, by rw [k3]; exact e3.symm, k4, k5, k6, k7, k8⟩
    | some s =>
      rw [hs] at e3
      exact ⟨k1, k2, by simp only [k3]; exact e3.symm, k4, k5, k6, k7, k8⟩
  ext := fun w log acc mt u h => ⟨(full_closed env log0).ext w log acc u h.1, h.2⟩

theorem metInv_run (env : Env σ β) (log0 : Log σ β) (ops : List (Op σ β)) :
    MetInv env (run env (World.start log0) ops).w (run env (World.start log0) ops).acc
      (runMet env (World.start log0) Metrics.new ops) := by
  refine ((metInv_closed env log0).run ops (World.start log0) Metrics.new ⟨full_start env log0, ?_⟩
    (fun _ _ _ _ => trivial) (fun _ _ _ _ _ => trivial) (fun _ _ _ _ => trivial)).2
  constructor <;> simp [Metrics.new, World.start, Writer.new, rowsHeld, alSum, sentRows, sentBytes]

/-! ### the theorems -/

/-- `in_memory_bytes` is the size of the batches in memory, at every moment. -/
theorem C113_bytes_gauge (env : Env σ β) (log0 : Log σ β) (ops : List (Op σ β)) :
    (runMet env (World.start log0) Metrics.new ops).memBytes =
      (pendingBytes env (run env (World.start log0) ops).w : Int) := by
  rw [(metInv_run env log0 ops).bytes, (full_run env log0 ops).held.1]

/-- The gauges per origin are the two sequence numbers the writer reports to its clients. -/
theorem C113_sequence_gauges (env : Env σ β) (log0 : Log σ β) (ops : List (Op σ β)) (o : Origin) :
    (runMet env (World.start log0) Metrics.new ops).seqMem o =
      (run env (World.start log0) ops).w.originMemory o ∧
    (runMet env (World.start log0) Metrics.new ops).seqDur o =
      (run env (World.start log0) ops).w.originDurable o :=
  ⟨by rw [(metInv_run env log0 ops).seqMem], by rw [(metInv_run env log0 ops).seqDur]⟩

/-- `request_rows` and `request_bytes` are what the accepted messages carried. -/
theorem C113_request_totals (env : Env σ β) (log0 : Log σ β) (ops : List (Op σ β)) :
    (runMet env (World.start log0) Metrics.new ops).reqRows =
      sentRows env (run env (World.start log0) ops).acc ∧
    (runMet env (World.start log0) Metrics.new ops).reqBytes =
      sentBytes env (run env (World.start log0) ops).acc :=
  ⟨(metInv_run env log0 ops).reqRows, (metInv_run env log0 ops).reqBytes⟩

/-- Every row that came in is in memory, was flushed or was squashed away. -/
theorem C113_rows_conserved (env : Env σ β) (hn : NoMoreRows env) (log0 : Log σ β)
    (ops : List (Op σ β)) :
    (runMet env (World.start log0) Metrics.new ops).reqRows =
      pendingRows env (run env (World.start log0) ops).w +
      (runMet env (World.start log0) Metrics.new ops).flRows +
      (runMet env (World.start log0) Metrics.new ops).sqRows := by
  rw [← (full_run env log0 ops).held.2]
  exact (metInv_run env log0 ops).consRows hn

/-- Every byte that came in is in memory, was flushed or was saved by squashing, if squashing never
makes batches larger. -/
theorem C113_bytes_conserved (env : Env σ β) (hn : NoMoreBytes env) (log0 : Log σ β)
    (ops : List (Op σ β)) :
    (runMet env (World.start log0) Metrics.new ops).reqBytes =
      pendingBytes env (run env (World.start log0) ops).w +
      (runMet env (World.start log0) Metrics.new ops).flBytes +
      (runMet env (World.start log0) Metrics.new ops).sqBytes := by
  rw [← (full_run env log0 ops).held.1]
  exact (metInv_run env log0 ops).consBytes hn

/-- `in_memory_rows` is off by twice the rows that squashing removed since the process started:
squashing adds to it what it should take away. -/
theorem C113_rows_gauge_drift (env : Env σ β) (hn : NoMoreRows env) (log0 : Log σ β)
    (ops : List (Op σ β)) :
    (runMet env (World.start log0) Metrics.new ops).memRows =
      (pendingRows env (run env (World.start log0) ops).w : Int) +
      2 * ((runMet env (World.start log0) Metrics.new ops).sqRows : Int) := by
  have h1 := (metInv_run env log0 ops).rows
  have h2 := (metInv_run env log0 ops).consRows hn
  rw [(full_run env log0 ops).held.2] at h1 h2
  omega

/-- Without any assumption on squashing: the gauge of rows is right exactly while no rows were
lost (or gained) to squashing.  Full statement: it is right at every moment; that is false, see
`C113_rows_gauge_violated`. -/
theorem C113_rows_gauge_partial (env : Env σ β) (log0 : Log σ β) (ops : List (Op σ β)) :
    (runMet env (World.start log0) Metrics.new ops).memRows =
      (pendingRows env (run env (World.start log0) ops).w : Int) ↔
    sentRows env (run env (World.start log0) ops).acc =
      pendingRows env (run env (World.start log0) ops).w +
      (runMet env (World.start log0) Metrics.new ops).flRows := by
  have h1 := (metInv_run env log0 ops).rows
  have h2 := (metInv_run env log0 ops).reqRows
  rw [(full_run env log0 ops).held.2] at h1
  omega

/-! ### flushed rows are committed rows -/

theorem committedRows_append (env : Env σ β) {log0 log : Log σ β} (hp : ∀ u, log0 u <+: log u)
    (u : Url) (cm : Commit σ β) (u' : Url) :
    committedRows env log0 (appendCommit log u cm) u' =
      committedRows env log0 log u' + (if u' = u then itemsRows env cm.items else 0) := by
  have he : ((appendCommit log u cm) u').drop (log0 u').length =
      (log u').drop (log0 u').length ++ (if u' = u then [cm] else []) := by
    have hlen := (hp u').length_le
    simp only [appendCommit]
    split
    · rw [List.drop_append_of_le_length hlen]
    · simp
  simp only [committedRows, newCommits, he]
  split
  · simp [itemsRows, rowsOfBatches]
  · simp

theorem committedRows_ensure (env : Env σ β) {log0 log : Log σ β} (hp : ∀ u, log0 u <+: log u)
    (u u' : Url) : committedRows env log0 (ensureTable log u) u' = committedRows env log0 log u' := by
  simp only [committedRows, newCommits, ensureTable]
  split
  · next h =>
    have h0 : log0 u' = [] := by
      have := hp u'; rw [h.2] at this; exact List.prefix_nil.1 this
    rw [h0, h.2]; simp
  · rfl

theorem sum_update {f g : Url → Nat} {u : Url} {n : Nat} (U : List Url) (hU : U.Nodup)
    (hg : ∀ u', g u' = f u' + (if u' = u then n else 0)) :
    (U.map g).sum = (U.map f).sum + (if u ∈ U then n else 0) := by
  induction U with
  | nil => simp
  | cons a rest ih =>
    obtain ⟨h1, h2⟩ := List.nodup_cons.1 hU
    have := ih h2
    simp only [List.map_cons, List.sum_cons, this, hg a]
    by_cases ha : a = u
    · subst ha; simp [h1]; omega
    · have : ¬ u = a := fun h => ha h.symm
      simp [ha, this]; omega

/-- The rows flushed according to the counter are rows of commits. -/
structure FlushInv (env : Env σ β) (log0 : Log σ β) (U : List Url) (lost : Prop) (w : Writer σ β)
    (log : Log σ β) (mt : Metrics) : Prop where
  keys : ∀ u ∈ w.syncs.map (·.1), u ∈ U
  le : mt.flRows ≤ (U.map (committedRows env log0 log)).sum
  eq : ¬ lost → mt.flRows = (U.map (committedRows env log0 log)).sum

theorem flushInv_closed (env : Env σ β) (log0 : Log σ β) (U : List Url) (hU : U.Nodup)
    (lost : Prop) :
    MetClosed env (fun o => o = .ackLost → lost) (fun m => m.url ∈ U) (fun _ => True)
      (fun w log acc mt => Full env log0 w log acc ∧ FlushInv env log0 U lost w log mt) where
  okQ := by intro h; cases h
  sq := by
    intro w log acc mt u h
    refine ⟨(full_closed env log0).sq w log acc u h.1, ?_⟩
    obtain ⟨_, _, _, s4, _⟩ := squashUrlMet_same env w u mt
    exact ⟨by rw [squashUrl_keys]; exact h.2.keys, by rw [s4]; exact h.2.le, by rw [s4]; exact h.2.eq⟩
  create := by
    intro w log acc mt u h
    refine ⟨(full_closed env log0).create w log acc u h.1, h.2.keys, ?_, ?_⟩
    · rw [List.map_congr_left (fun u' _ => committedRows_ensure env h.1.inv.pre u u')]; exact h.2.le
    · rw [List.map_congr_left (fun u' _ => committedRows_ensure env h.1.inv.pre u u')]; exact h.2.eq
  lost := by
    intro w log acc mt u entry info hq h h1 h2 h3 h4 h5
    refine ⟨(full_closed env log0).lost w log acc u entry info trivial h.1 h1 h2 h3 h4 h5,
      h.2.keys, ?_, fun hl => absurd (hq rfl) hl⟩
    rw [sum_update U hU (committedRows_append env h.1.inv.pre u _)]
    have := h.2.le
    omega
  fin := by
    intro w log acc mt u entry info now _ h h1 h2 h3 h4 h5
    have hu : u ∈ U := h.2.keys u (List.mem_map_of_mem (f := (·.1)) (alGet_mem h2))
    have hr := h.1.acct.rows u entry h2
    refine ⟨(full_closed env log0).fin w log acc u entry info h.1 h1 h2 h3 h4 h5, ?_, ?_, ?_⟩
    · intro v hv
      rw [(finishFlush_syncs w u entry.syncs).1, removeSync_syncs w u h2] at hv
      exact h.2.keys v (((alErase_sublist u w.syncs).map _).subset hv)
    · rw [sum_update U hU (committedRows_append env h.1.inv.pre u _), if_pos hu]
      have := h.2.le
      simp only [finishMet, removeMet, h2]
      omega
    · intro hl
      rw [sum_update U hU (committedRows_append env h.1.inv.pre u _), if_pos hu]
      have := h.2.eq hl
      simp only [finishMet, removeMet, h2]
      omega
  empty := by
    intro w log acc mt u entry h h2 h3
    refine ⟨(full_closed env log0).empty w log acc u entry h.1 h2 h3, ?_, ?_, ?_⟩
    · intro v hv
      rw [removeSync_syncs w u h2] at hv
      exact h.2.keys v (((alErase_sublist u w.syncs).map _).subset hv)
    · simp only [removeMet, h2]; exact h.2.le
    · simp only [removeMet, h2]; exact h.2.eq
  oldest := fun w log acc mt h => ⟨h.1, ⟨h.2.keys, h.2.le, h.2.eq⟩⟩
  enq := by
    intro w log acc mt now m w' h hm hp hi he
    have e : (enqueueMet env w' m mt).flRows = mt.flRows := by
      simp only [enqueueMet]
      cases m.sequence <;> simp only <;> split <;> rfl
    refine ⟨(full_closed env log0).enq w log acc now m w' h.1 hp hi he, ?_, ?_, ?_⟩
    · obtain ⟨w1, t, ha, _, _, _, _, hsy, _⟩ := enqueue_ok he
      obtain ⟨⟨f1, _⟩, _⟩ := assignTx_ok ha
      intro v hv
      obtain ⟨p, hp', rfl⟩ := List.mem_map.1 hv
      rw [hsy] at hp'
      split at hp'
      · simp only [buffer, f1] at hp'
        split at hp'
        · have : p.1 ∈ (alModify m.url (fun c : Coll σ β => { c with
              syncs := pushItem env c.syncs t m.schema m.batches acc.length
              size := c.size + sizeOfBatches env m.batches
              rows := c.rows + rowsOfBatches env m.batches }) w.syncs).map (·.1) :=
            List.mem_map_of_mem (f := (·.1)) hp'
          have hk : ∀ (l : List (Url × Coll σ β)) (f : Coll σ β → Coll σ β),
              (alModify m.url f l).map (·.1) = l.map (·.1) := by
            intro l f
            induction l with
            | nil => rfl
            | cons q rest ih => simp only [alModify]; split <;> simp_all
          rw [hk] at this
          exact h.2.keys _ this
        · rcases List.mem_append.1 hp' with hp' | hp'
          · exact h.2.keys _ (List.mem_map_of_mem (f := (·.1)) hp')
          · simp only [List.mem_singleton] at hp'; subst hp'; exact hm
      · rw [f1] at hp'
        exact h.2.keys _ (List.mem_map_of_mem (f := (·.1)) hp')
    · rw [e]; exact h.2.le
    · rw [e]; exact h.2.eq
  ext := by
    intro w log acc mt u h
    have hz : ∀ u', committedRows env log0 (appendCommit log u { items := [], info := none }) u' =
        committedRows env log0 log u' := by
      intro u'
      rw [committedRows_append env h.1.inv.pre]
      split <;> simp [itemsRows]
    refine ⟨(full_closed env log0).ext w log acc u h.1, h.2.keys, ?_, ?_⟩
    · rw [List.map_congr_left (fun u' _ => hz u')]; exact h.2.le
    · rw [List.map_congr_left (fun u' _ => hz u')]; exact h.2.eq

/-- `flush_rows` counts the rows of the sync commits, over any list of tables that contains the
targets of the messages, unless a commit's acknowledgement was lost.  Such commits are not
counted, so in general the counter is at most the number of committed rows. -/
theorem C113_flushed_rows (env : Env σ β) (log0 : Log σ β) (ops : List (Op σ β)) (U : List Url)
    (hU : U.Nodup) (hm : ∀ m now lock outs, Op.sync m now lock outs ∈ ops → m.url ∈ U) :
    (runMet env (World.start log0) Metrics.new ops).flRows ≤
      (U.map (committedRows env log0 (run env (World.start log0) ops).log)).sum ∧
    ((∀ op ∈ ops, Outcome.ackLost ∉ op.outs) →
      (runMet env (World.start log0) Metrics.new ops).flRows =
        (U.map (committedRows env log0 (run env (World.start log0) ops).log)).sum) := by
  have hz : ∀ u, committedRows env log0 log0 u = 0 := by
    intro u; simp [committedRows, newCommits]
  have h0 : (U.map (committedRows env log0 log0)).sum = 0 := by
    have : ∀ V : List Url, (V.map (committedRows env log0 log0)).sum = 0 := by
      intro V
      induction V with
      | nil => rfl
      | cons a r ih => simp [hz a, ih]
    exact this U
  have start : ∀ lost : Prop, FlushInv env log0 U lost (World.start log0).w (World.start log0).log
      Metrics.new := by
    intro lost
    refine ⟨by simp [World.start, Writer.new], ?_, fun _ => ?_⟩
    · exact Nat.zero_le _
    · simp only [World.start, h0]; rfl
  refine ⟨?_, fun hq => ?_⟩
  · exact ((flushInv_closed env log0 U hU True).run ops (World.start log0) Metrics.new
      ⟨full_start env log0, start _⟩ (fun _ _ _ _ _ => trivial) hm (fun _ _ _ _ => trivial)).2.le
  · exact ((flushInv_closed env log0 U hU False).run ops (World.start log0) Metrics.new
      ⟨full_start env log0, start _⟩ (fun op ho o h1 h2 => hq op ho (h2 ▸ h1)) hm (fun _ _ _ _ => trivial)).2.eq id

/-! ### one event: the last flush and the oldest change -/

/-- The changes in the sync commits of a table. -/
def syncItems (log : Log σ β) (u : Url) : List (Item σ β) := (log u).flatMap (·.items)

theorem syncItems_append (log : Log σ β) (u u' : Url) (cm : Commit σ β) :
    syncItems (appendCommit log u cm) u' = syncItems log u' ++ (if u' = u then cm.items else []) := by
  simp only [syncItems, appendCommit]
  split <;> simp_all

theorem syncItems_ensure (log : Log σ β) (u u' : Url) :
    syncItems (ensureTable log u) u' = syncItems log u' := by
  simp only [syncItems, ensureTable]
  split
  · next h => rw [h.2]; rfl
  · rfl

/-- What holds inside an event at time `n` that started with the log `L` and last flush `l`. -/
structure StepInv (L : Log σ β) (l n : Nat) (lost good : Prop) (w : Writer σ β) (log : Log σ β)
    (mt : Metrics) : Prop where
  ge : ∀ u, (syncItems L u).length ≤ (syncItems log u).length
  last : (mt.flLast = l ∧ (¬ lost → ∀ u, syncItems log u = syncItems L u)) ∨
    (mt.flLast = n ∧ ∃ u, (syncItems L u).length < (syncItems log u).length)
  old : good → (∀ u, syncItems log u = syncItems L u) → mt.oldest = firstInsertion w

theorem stepInv_log {L : Log σ β} {l n : Nat} {lost good : Prop} {w w' : Writer σ β}
    {log log' : Log σ β} {mt mt' : Metrics} (h : StepInv L l n lost good w log mt)
    (e : ∀ u, syncItems log' u = syncItems log u) (h1 : mt'.flLast = mt.flLast)
    (h2 : mt.oldest = firstInsertion w → mt'.oldest = firstInsertion w') :
    StepInv L l n lost good w' log' mt' := by
  refine ⟨fun u => by rw [e]; exact h.ge u, ?_, fun hg ha => h2 (h.old hg fun u => by rw [← e]; exact ha u)⟩
  rw [h1]
  rcases h.last with ⟨a, b⟩ | ⟨a, u, b⟩
  · exact .inl ⟨a, fun hl u => by rw [e]; exact b hl u⟩
  · exact .inr ⟨a, u, by rw [e]; exact b⟩

theorem firstInsertion_times (w w' : Writer σ β)
    (h : w.syncs.map (fun p => (p.1, p.2.insertionTime)) =
      w'.syncs.map (fun p => (p.1, p.2.insertionTime))) : firstInsertion w = firstInsertion w' := by
  simp only [firstInsertion]
  cases h1 : w.syncs <;> cases h2 : w'.syncs <;> simp_all

theorem stepInv_closed (env : Env σ β) (log0 L : Log σ β) (l n : Nat) (lost good : Prop) :
    MetClosed env (fun o => o = .ackLost → lost) (fun _ => True) (fun t => t = n)
      (fun w log acc mt => Full env log0 w log acc ∧ StepInv L l n lost good w log mt) where
  okQ := by intro h; cases h
  sq := by
    intro w log acc mt u h
    obtain ⟨_, _, _, _, _, _, s7, s8⟩ := squashUrlMet_same env w u mt
    refine ⟨(full_closed env log0).sq w log acc u h.1, stepInv_log h.2 (fun _ => rfl) s8 fun ho => ?_⟩
    rw [s7, ho]
    exact (firstInsertion_times _ _ (squashUrl_times env w u)).symm
  create := fun w log acc mt u h => ⟨(full_closed env log0).create w log acc u h.1,
    stepInv_log h.2 (fun u' => syncItems_ensure log u u') rfl id⟩
  lost := by
    intro w log acc mt u entry info hq h h1 h2 h3 h4 h5
    have hlt : (syncItems L u).length < (syncItems (appendCommit log u { items := entry.syncs, info := info }) u).length := by
      have := h.2.ge u
      have := List.length_pos_iff.2 h3
      rw [syncItems_append, if_pos rfl]
      simp only [List.length_append]
      omega
    refine ⟨(full_closed env log0).lost w log acc u entry info trivial h.1 h1 h2 h3 h4 h5, ?_, ?_, ?_⟩
    · intro u'
      have := h.2.ge u'
      rw [syncItems_append]
      simp only [List.length_append]
      omega
    · rcases h.2.last with ⟨a, b⟩ | ⟨a, b⟩
      · exact .inl ⟨a, fun hl => absurd (hq rfl) hl⟩
      · exact .inr ⟨a, u, hlt⟩
    · intro _ ha; rw [ha u] at hlt; omega
  fin := by
    intro w log acc mt u entry info now hn h h1 h2 h3 h4 h5
    have hlt : (syncItems L u).length < (syncItems (appendCommit log u { items := entry.syncs, info := info }) u).length := by
      have := h.2.ge u
      have := List.length_pos_iff.2 h3
      rw [syncItems_append, if_pos rfl]
      simp only [List.length_append]
      omega
    refine ⟨(full_closed env log0).fin w log acc u entry info h.1 h1 h2 h3 h4 h5, ?_, ?_, ?_⟩
    · intro u'
      have := h.2.ge u'
      rw [syncItems_append]
      simp only [List.length_append]
      omega
    · exact .inr ⟨hn, u, hlt⟩
    · intro _ ha; rw [ha u] at hlt; omega
  empty := by
    intro w log acc mt u entry h h2 h3
    have := (h.1.inv.items u [] (by simp [skelAt, h2, h3])).1
    exact absurd rfl this
  oldest := fun w log acc mt h => ⟨h.1, stepInv_log h.2 (fun _ => rfl) rfl fun _ => rfl⟩
  enq := by
    intro w log acc mt now m w' h hm hp hi he
    refine ⟨(full_closed env log0).enq w log acc now m w' h.1 hp hi he,
      stepInv_log h.2 (fun _ => rfl) ?_ fun ho => ?_⟩
    · simp only [enqueueMet]
      cases m.sequence <;> simp only <;> split <;> rfl
    · by_cases h0 : 0 < rowsOfBatches env m.batches
      · simp only [enqueueMet]
        cases m.sequence <;> simp only [if_pos h0] <;> rfl
      · have e : (enqueueMet env w' m mt).oldest = mt.oldest := by
          simp only [enqueueMet]
          cases m.sequence <;> simp only [if_neg h0]
        rw [e, ho]
        obtain ⟨w1, t, ha, _, _, _, _, hsy, _⟩ := enqueue_ok he
        obtain ⟨⟨f1, _⟩, _⟩ := assignTx_ok ha
        simp only [Msg.nonempty, decide_eq_true_eq, if_neg h0] at hsy
        simp only [firstInsertion, hsy, f1]
  ext := fun w log acc mt u h => ⟨(full_closed env log0).ext w log acc u h.1,
    stepInv_log h.2 (fun u' => by rw [syncItems_append]; split <;> simp) rfl id⟩

theorem stepInv_step (env : Env σ β) (log0 : Log σ β) (ops : List (Op σ β)) (op : Op σ β)
    (lost good : Prop) (n : Nat) (hn : ∀ t, op.now = some t → t = n)
    (hq : ∀ o ∈ op.outs, o = .ackLost → lost)
    (ho : good → (runMet env (World.start log0) Metrics.new ops).oldest =
      firstInsertion (run env (World.start log0) ops).w) :
    StepInv (run env (World.start log0) ops).log
      (runMet env (World.start log0) Metrics.new ops).flLast n lost good
      (step env (run env (World.start log0) ops) op).1.w
      (step env (run env (World.start log0) ops) op).1.log
      (stepMet env (run env (World.start log0) ops) (runMet env (World.start log0) Metrics.new ops) op) :=
  ((stepInv_closed env log0 _ _ n lost good).step
    ⟨full_run env log0 ops, fun _ => Nat.le_refl _, .inl ⟨rfl, fun _ _ => rfl⟩, fun hg _ => ho hg⟩ op hq
    (fun _ _ _ _ _ => trivial) hn).2

/-! ### the oldest pending change -/

theorem flushLoop_oldest (env : Env σ β) (now : Nat) : ∀ (fuel : Nat) (outs : List Outcome)
    (w : Writer σ β) (log : Log σ β) (mt : Metrics), (flushLoop env now fuel outs w log).2.2 = .ok →
    (flushLoopMet env now fuel outs w log mt).oldest =
      firstInsertion (flushLoop env now fuel outs w log).1 := by
  intro fuel
  induction fuel with
  | zero => intro outs w log mt h; cases h
  | succ n ih =>
    intro outs w log mt h
    simp only [flushLoop, flushLoopMet] at h ⊢
    cases hr : (flushReady env w now).2 with
    | error => rw [hr] at h; cases h
    | nothing => rfl
    | url u =>
      rw [hr] at h
      simp only at h ⊢
      by_cases hf : (flushSyncs env (flushReady env w now).1 log u (outs.headD .ok)).2.2 = true
      · rw [if_pos hf] at h
        rw [if_pos hf, if_pos hf]
        exact ih _ _ _ _ h
      · rw [if_neg hf] at h; cases h

theorem firstInsertion_least {t : Nat} {w : Writer σ β} (h : Timed t w) :
    (w.syncs = [] → firstInsertion w = 0) ∧
    (w.syncs ≠ [] → (∃ p ∈ w.syncs, firstInsertion w = p.2.insertionTime) ∧
      ∀ p ∈ w.syncs, firstInsertion w ≤ p.2.insertionTime) := by
  cases hw : w.syncs with
  | nil => exact ⟨fun _ => by simp [firstInsertion, hw], fun hne => absurd rfl hne⟩
  | cons p rest =>
    have hf : firstInsertion w = p.2.insertionTime := by simp [firstInsertion, hw]
    refine ⟨(fun hne => by cases hne), fun _ => ⟨⟨p, by simp, hf⟩, ?_⟩⟩
    intro q hq
    rw [hf]
    rcases List.mem_cons.1 hq with rfl | hq
    · exact Nat.le_refl _
    · have := h.1
      rw [hw] at this
      simp only [List.map_cons, List.pairwise_cons] at this
      exact this.1 (q.1, q.2.insertionTime) (List.mem_map.2 ⟨q, hq, rfl⟩)

theorem step_oldest (env : Env σ β) (W : World σ β) (mt : Metrics) (op : Op σ β)
    (hop : (∃ m now outs a b, op = .sync m now true outs ∧
        ¬ (rowsOfBatches env m.batches = 0 ∧ m.sequence = none) ∧
        (step env W op).2 = .accepted a b) ∨
      (∃ now outs, op = .tick now true outs ∧ (flush env W.w W.log now outs).2.2 = .ok)) :
    (stepMet env W mt op).oldest = firstInsertion (step env W op).1.w := by
  rcases hop with ⟨m, now, outs, a, b, rfl, hp, hr⟩ | ⟨now, outs, rfl, hr⟩
  · simp only [step, processSync, stepMet] at hr ⊢
    rw [if_neg hp] at hr
    rw [if_neg hp, if_neg hp]
    by_cases hi : m.iceberg = true
    · rw [if_pos hi] at hr; cases hr
    rw [if_neg hi, if_neg (by simp)] at hr
    rw [if_neg hi, if_neg (by simp), if_neg hi, if_neg (by simp)]
    cases he : enqueue env W.w now m W.acc.length with
    | error e => rw [he] at hr; cases hr
    | ok w1 =>
      rw [he] at hr
      simp only at hr ⊢
      cases hf : (flush env w1 W.log now outs).2.2 with
      | ok => exact flushLoop_oldest env now _ outs w1 _ _ hf
      | err => rw [hf] at hr; cases hr
      | outOfFuel => rw [hf] at hr; cases hr
  · simp only [step, flushTick, stepMet, if_true]
    exact flushLoop_oldest env now _ outs _ _ _ hr

/-- After a request that was answered positively (and changed anything) or an iteration of the
flush task that did not fail, `in_memory_oldest` is the insertion time of the oldest pending
change set, or 0 if nothing is pending; provided that the clock does not go back.  Full statement:
at every moment; that is false after a failed flush, see `C113_oldest_violated`. -/
theorem C113_oldest_partial (env : Env σ β) (log0 : Log σ β) (ops : List (Op σ β)) (op : Op σ β)
    (t0 : Nat) (hc : ClockOk t0 (ops ++ [op]))
    (hop : (∃ m now outs a b, op = .sync m now true outs ∧
        ¬ (rowsOfBatches env m.batches = 0 ∧ m.sequence = none) ∧
        (step env (run env (World.start log0) ops) op).2 = .accepted a b) ∨
      (∃ now outs, op = .tick now true outs ∧
        (flush env (run env (World.start log0) ops).w (run env (World.start log0) ops).log now
          outs).2.2 = .ok)) :
    let w := (run env (World.start log0) (ops ++ [op])).w
    let mt := runMet env (World.start log0) Metrics.new (ops ++ [op])
    (w.syncs = [] → mt.oldest = 0) ∧
    (w.syncs ≠ [] → (∃ p ∈ w.syncs, mt.oldest = p.2.insertionTime) ∧
      ∀ p ∈ w.syncs, mt.oldest ≤ p.2.insertionTime) := by
  intro w mt
  have hrun : ∀ (ops : List (Op σ β)) (W : World σ β) (mt : Metrics),
      run env W (ops ++ [op]) = (step env (run env W ops) op).1 ∧
      runMet env W mt (ops ++ [op]) = stepMet env (run env W ops) (runMet env W mt ops) op := by
    intro ops
    induction ops with
    | nil => intro W mt; exact ⟨rfl, rfl⟩
    | cons o rest ih => intro W mt; exact ih _ _
  have ht : Timed (clockEnd t0 (ops ++ [op])) w := by
    refine timed_run (ops ++ [op]) (World.start log0) t0 ?_ hc
    simp [Timed, World.start, Writer.new]
  have hw : w = (step env (run env (World.start log0) ops) op).1.w := by
    rw [← (hrun ops (World.start log0) Metrics.new).1]
  have hmt : mt = stepMet env (run env (World.start log0) ops)
      (runMet env (World.start log0) Metrics.new ops) op :=
    (hrun ops (World.start log0) Metrics.new).2
  have h : mt.oldest = firstInsertion w := by rw [hw, hmt]; exact step_oldest env _ _ op hop
  rw [h]; exact firstInsertion_least ht

/-- `flush_last` is the time of the last event that flushed: an event that changes it sets it to its
own time and has added changes to some table; an event that adds changes to a table sets it,
unless the acknowledgement of a commit was lost. -/
theorem C113_last_flush (env : Env σ β) (log0 : Log σ β) (ops : List (Op σ β)) (op : Op σ β) :
    let W := run env (World.start log0) ops
    let mt := runMet env (World.start log0) Metrics.new ops
    let W' := (step env W op).1
    let mt' := stepMet env W mt op
    (mt'.flLast ≠ mt.flLast → op.now = some mt'.flLast ∧ ∃ u, syncItems W'.log u ≠ syncItems W.log u) ∧
    (Outcome.ackLost ∉ op.outs → (∃ u, syncItems W'.log u ≠ syncItems W.log u) →
      op.now = some mt'.flLast) := by
  intro W mt W' mt'
  cases hn : op.now with
  | none =>
    cases op with
    | sync m now lock outs => cases hn
    | tick now lock outs => cases hn
    | external u =>
      refine ⟨fun h => absurd rfl h, ?_⟩
      rintro _ ⟨u', hu'⟩
      refine absurd ?_ hu'
      have := syncItems_append W.log u u' { items := [], info := none }
      simp only [W', step]
      rw [this]; split <;> simp
  | some n =>
    have key : ∀ lost : Prop, (∀ o ∈ op.outs, o = .ackLost → lost) →
        StepInv W.log mt.flLast n lost False W'.w W'.log mt' := fun lost hl =>
      stepInv_step env log0 ops op lost False n (fun t ht => by rw [hn] at ht; cases ht; rfl) hl
        (fun h => h.elim)
    constructor
    · intro hne
      rcases (key True fun _ _ _ => trivial).last with ⟨a, _⟩ | ⟨a, u, b⟩
      · exact absurd a hne
      · exact ⟨by rw [a], u, fun he => by rw [he] at b; omega⟩
    · rintro hq ⟨u, hu⟩
      rcases (key False fun o ho he => hq (he ▸ ho)).last with ⟨_, b⟩ | ⟨a, _⟩
      · exact absurd (b id u) hu
      · rw [a]

/-- An event is answered positively, or is an iteration of the flush task without an error. -/
def Succeeds (env : Env σ β) (W : World σ β) : Op σ β → Prop
  | .sync m now lock outs => ∃ a b, (step env W (.sync m now lock outs)).2 = .accepted a b
  | .tick now _ outs => (flush env W.w W.log now outs).2.2 = .ok
  | .external _ => True

/-- `in_memory_oldest` is right at every moment of a history in which no event flushes some changes
and then fails; provided that the clock does not go back. -/
theorem C113_oldest_history_partial (env : Env σ β) (log0 : Log σ β) (ops : List (Op σ β)) (t0 : Nat)
    (hc : ClockOk t0 ops)
    (hf : ∀ ops1 op ops2, ops = ops1 ++ op :: ops2 →
      (∃ u, syncItems (step env (run env (World.start log0) ops1) op).1.log u ≠
        syncItems (run env (World.start log0) ops1).log u) →
      Succeeds env (run env (World.start log0) ops1) op) :
    let w := (run env (World.start log0) ops).w
    let mt := runMet env (World.start log0) Metrics.new ops
    (w.syncs = [] → mt.oldest = 0) ∧
    (w.syncs ≠ [] → (∃ p ∈ w.syncs, mt.oldest = p.2.insertionTime) ∧
      ∀ p ∈ w.syncs, mt.oldest ≤ p.2.insertionTime) := by
  intro w mt
  have hrun : ∀ (op : Op σ β) (ops : List (Op σ β)) (W : World σ β) (mt : Metrics),
      run env W (ops ++ [op]) = (step env (run env W ops) op).1 ∧
      runMet env W mt (ops ++ [op]) = stepMet env (run env W ops) (runMet env W mt ops) op := by
    intro op ops
    induction ops with
    | nil => intro W mt; exact ⟨rfl, rfl⟩
    | cons o rest ih => intro W mt; exact ih _ _
  have hT : Timed (clockEnd t0 ops) w :=
    timed_run ops (World.start log0) t0 (by simp [Timed, World.start, Writer.new]) hc
  suffices h : ∀ n, (runMet env (World.start log0) Metrics.new (ops.take n)).oldest =
        firstInsertion (run env (World.start log0) (ops.take n)).w by
    have e := h ops.length
    rw [List.take_length] at e
    have e' : mt.oldest = firstInsertion w := e
    rw [e']; exact firstInsertion_least hT
  intro n
  induction n with
  | zero => rfl
  | succ n ih =>
    cases hg : ops[n]? with
    | none =>
      rw [List.take_add_one, hg]
      simpa using ih
    | some op =>
      have hs : ops = ops.take n ++ op :: ops.drop (n + 1) := by
        obtain ⟨hl, ho⟩ := List.getElem?_eq_some_iff.1 hg
        rw [← ho, List.getElem_cons_drop, List.take_append_drop]
      rw [List.take_add_one, hg, Option.toList_some]
      rw [(hrun op _ _ Metrics.new).1, (hrun op _ _ Metrics.new).2]
      have hfs := hf _ _ _ hs
      generalize ops.take n = ops1 at ih hfs
      by_cases hx : ∃ u, syncItems (step env (run env (World.start log0) ops1) op).1.log u ≠
          syncItems (run env (World.start log0) ops1).log u
      · have hok := hfs hx
        apply step_oldest
        obtain ⟨u, hu⟩ := hx
        cases op with
        | sync m now lock outs =>
          obtain ⟨a, b, hr⟩ := hok
          cases lock with
          | false =>
            refine absurd ?_ hu
            simp only [step, processSync]
            split
            · rfl
            · split
              · rfl
              · rfl
          | true =>
            refine .inl ⟨m, now, outs, a, b, rfl, fun hp => hu ?_, hr⟩
            simp only [step, processSync]
            rw [if_pos hp]
        | tick now lock outs =>
          cases lock with
          | false => exact absurd rfl hu
          | true => exact .inr ⟨now, outs, rfl, hok⟩
        | external v =>
          refine absurd ?_ hu
          have := syncItems_append (run env (World.start log0) ops1).log v u { items := [], info := none }
          simp only [step]
          rw [this]; split <;> simp
      · have hno : ∀ u, syncItems (step env (run env (World.start log0) ops1) op).1.log u =
            syncItems (run env (World.start log0) ops1).log u :=
          fun u => Classical.byContradiction fun h => hx ⟨u, h⟩
        refine (stepInv_step env log0 ops1 op True True (op.now.getD 0) ?_ (fun _ _ _ => trivial)
          (fun _ => ih)).old trivial hno
        intro t ht; rw [ht]; rfl

/-! ### concrete cases and violations -/

namespace MetDemo

/-- Batches are row counts; squashing leaves at most 5 rows; every row has 8 bytes. -/
def env : Env Unit Nat :=
  { bytes := fun n => 8 * n, rows := id, compat := fun _ _ => true,
    squash := fun _ l => some ((), min l.sum 5),
    maxLag := 10, maxBytes := 1000, maxSyncs := 3 }

/-- Two tables; the change set of `a` is flushed at time 11, the one of `b` grows. -/
def ops : List (Op Unit Nat) :=
  [ .sync (Demo.msg "a" "o" none [3, 4]) 1 true [],
    .sync (Demo.msg "b" "o" (some 1) [2]) 5 true [],
    .tick 11 true [],
    .sync (Demo.msg "b" "o" (some 2) [6]) 12 true [] ]

/-- Metrics after a history. -/
def mts (ops : List (Op Unit Nat)) : Metrics := runMet env (World.start fun _ => []) Metrics.new ops

/-- State after a history. -/
def st (ops : List (Op Unit Nat)) : World Unit Nat := run env (World.start fun _ => []) ops

end MetDemo

theorem MetDemo.noMoreRows : NoMoreRows MetDemo.env := by
  intro s l s' b h
  simp only [MetDemo.env, Option.some.injEq, Prod.mk.injEq, true_and] at h ⊢
  subst h
  have : (l.map id) = l := by simp
  rw [this]
  exact Nat.min_le_left _ _

example : NoMoreRows MetDemo.env ∧ (MetDemo.mts MetDemo.ops).sqRows = 2 ∧
    (MetDemo.mts MetDemo.ops).flRows = 5 ∧ (MetDemo.mts MetDemo.ops).reqRows = 15 ∧
    pendingRows MetDemo.env (MetDemo.st MetDemo.ops).w = 8 ∧
    (MetDemo.mts MetDemo.ops).memBytes = 64 ∧ (MetDemo.mts MetDemo.ops).oldest = 5 ∧
    (MetDemo.mts MetDemo.ops).seqMem "o" = some 2 ∧ (MetDemo.mts MetDemo.ops).seqDur "o" = none :=
  ⟨MetDemo.noMoreRows, by decide +kernel⟩

/-- The gauge of rows is wrong: three messages with 15 rows, of which 8 are still in memory, and it
shows 12. -/
theorem C113_rows_gauge_violated :
    (MetDemo.mts MetDemo.ops).memRows = 12 ∧
    pendingRows MetDemo.env (MetDemo.st MetDemo.ops).w = 8 := by
  decide +kernel

/-- It never recovers: with everything flushed and nothing in memory the gauge shows rows. -/
theorem C113_rows_gauge_violated_empty :
    let ops := MetDemo.ops ++ [.tick 50 true []]
    (MetDemo.st ops).w.syncs.isEmpty = true ∧ (MetDemo.mts ops).memRows = 10 ∧
    (MetDemo.mts ops).memBytes = 0 := by
  intro ops; decide +kernel

/-- A flush that fails for the second table leaves the time of the first, which is no longer
pending. -/
theorem C113_oldest_violated :
    let ops : List (Op Unit Nat) :=
      [ .sync (Demo.msg "a" "o" none [3]) 1 true [], .sync (Demo.msg "b" "o" (some 1) [2]) 2 true [],
        .tick 20 true [.ok, .fail false] ]
    (MetDemo.mts ops).oldest = 1 ∧
    (MetDemo.st ops).w.syncs.map (fun p => (p.1, p.2.insertionTime)) = [("b", 2)] := by
  intro ops; decide +kernel

/-- The hypotheses of `C113_oldest_partial` for a request and for the flush task. -/
example : ClockOk 0 (MetDemo.ops ++ [.tick 13 true []]) ∧
    (step MetDemo.env (MetDemo.st (MetDemo.ops.take 3)) (.sync (Demo.msg "b" "o" (some 2) [6]) 12 true [])).2 =
      .accepted (some 2) none ∧
    (flush MetDemo.env (MetDemo.st MetDemo.ops).w (MetDemo.st MetDemo.ops).log 13 []).2.2 = .ok ∧
    (MetDemo.mts (MetDemo.ops ++ [.tick 13 true []])).oldest = 5 := by
  refine ⟨?_, by decide +kernel⟩
  simp [MetDemo.ops, ClockOk, Op.now]

/-- The hypotheses of `C113_flushed_rows`: the rows of table `a` as committed. -/
example : ["a", "b"].Nodup ∧ (∀ op ∈ MetDemo.ops, Outcome.ackLost ∉ op.outs) ∧
    committedRows MetDemo.env (fun _ => []) (MetDemo.st MetDemo.ops).log "a" = 5 ∧
    committedRows MetDemo.env (fun _ => []) (MetDemo.st MetDemo.ops).log "b" = 0 := by
  decide +kernel

/-- Squashing that makes batches smaller, as `C113_bytes_conserved` wants it. -/
example : NoMoreBytes Demo.env := by
  intro s l s' b h
  simp only [Demo.env, Option.some.injEq, Prod.mk.injEq, true_and] at h ⊢
  subst h
  simp

/-- `C113_last_flush` and `C113_oldest_history_partial`: the third event fails before it has flushed
anything, the fourth flushes. -/
example :
    let ops : List (Op Unit Nat) :=
      [ .sync (Demo.msg "a" "o" none [3]) 1 true [], .sync (Demo.msg "b" "o" (some 1) [2]) 2 true [],
        .tick 20 true [.fail false], .tick 21 true [] ]
    ClockOk 0 ops ∧ (MetDemo.mts (ops.take 3)).oldest = 1 ∧ (MetDemo.mts (ops.take 3)).flLast = 0 ∧
    (MetDemo.mts ops).flLast = 21 ∧
    (syncItems (MetDemo.st (ops.take 3)).log "b").length = 0 ∧ (syncItems (MetDemo.st ops).log "b").length = 1 := by
  intro ops
  refine ⟨?_, by decide +kernel⟩
  simp [ops, ClockOk, Op.now]

end Seafowl.Sync
