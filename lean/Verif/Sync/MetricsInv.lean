import Verif.Sync.Metrics
import Verif.Sync.WriterFlush

/-! # Induction over histories for the metrics of the sync writer -/

namespace Seafowl.Sync

variable {σ β : Type}

/-- `P` relates the writer, the logs, the accepted messages and the metrics and is preserved by
every elementary change of the service. -/
structure MetClosed (env : Env σ β) (Q : Outcome → Prop) (M : Msg σ β → Prop)
    (T : Nat → Prop) (P : Writer σ β → Log σ β → List (Msg σ β) → Metrics → Prop) : Prop where
  okQ : Q .ok
  sq : ∀ w log acc mt u, P w log acc mt → P (squashUrl env w u).1 log acc (squashUrlMet env w u mt)
  create : ∀ w log acc mt u, P w log acc mt → P w (ensureTable log u) acc mt
  lost : ∀ w log acc mt u entry info, Q .ackLost → P w log acc mt → log u ≠ [] →
    alGet u w.syncs = some entry → entry.syncs ≠ [] → (∀ it ∈ entry.syncs, it.isSquashed = true) →
    commitInfo w.txs (tableSequence (log u)) entry.syncs = some info →
    P w (appendCommit log u { items := entry.syncs, info := info }) acc mt
  fin : ∀ w log acc mt u entry info now, T now → P w log acc mt → log u ≠ [] →
    alGet u w.syncs = some entry → entry.syncs ≠ [] → (∀ it ∈ entry.syncs, it.isSquashed = true) →
    commitInfo w.txs (tableSequence (log u)) entry.syncs = some info →
    P (finishFlush w u entry.syncs) (appendCommit log u { items := entry.syncs, info := info }) acc
      (finishMet w (finishFlush w u entry.syncs) u entry now mt)
  empty : ∀ w log acc mt u entry, P w log acc mt → alGet u w.syncs = some entry →
    entry.syncs = [] → P (removeSync w u) log acc (removeMet w u mt)
  oldest : ∀ w log acc mt, P w log acc mt → P w log acc { mt with oldest := firstInsertion w }
  enq : ∀ w log acc mt now m w', P w log acc mt → M m →
    ¬ (rowsOfBatches env m.batches = 0 ∧ m.sequence = none) → m.iceberg = false →
    enqueue env w now m acc.length = .ok w' → P w' log (acc ++ [m]) (enqueueMet env w' m mt)
  ext : ∀ w log acc mt u, P w log acc mt →
    P w (appendCommit log u { items := [], info := none }) acc mt

namespace MetClosed

variable {env : Env σ β} {Q : Outcome → Prop} {M : Msg σ β → Prop}
  {T : Nat → Prop} {P : Writer σ β → Log σ β → List (Msg σ β) → Metrics → Prop}

theorem flushSyncs (c : MetClosed env Q M T P) {w : Writer σ β} {log : Log σ β}
    {acc : List (Msg σ β)} {mt : Metrics} (h : P w log acc mt) (u : Url) (out : Outcome) (now : Nat)
    (hq : Q out) (ht : T now) :
    P (flushSyncs env w log u out).1 (flushSyncs env w log u out).2.1 acc
      (flushSyncsMet env w log u out now mt) := by
  have h1 := c.sq w log acc mt u h
  have h2 := c.create _ log acc _ u h1
  simp only [Seafowl.Sync.flushSyncs, flushSyncsMet]
  by_cases hsq : (squashUrl env w u).2 = false
  · rw [if_pos hsq, if_pos hsq]; exact h1
  rw [if_neg hsq, if_neg hsq]
  cases he : alGet u (squashUrl env w u).1.syncs with
  | none => exact h1
  | some entry =>
    have hall := squashUrl_all (by simpa using hsq) he
    cases out with
    | fail b => cases b
                · exact h1
                · exact h2
    | ok =>
      simp only
      cases hi : commitInfo (squashUrl env w u).1.txs (tableSequence (ensureTable log u u)) entry.syncs with
      | none => exact h2
      | some info =>
        simp only
        by_cases hemp : entry.syncs.isEmpty = true
        · rw [if_pos hemp, if_pos hemp]
          exact c.empty _ _ acc _ u entry h2 he (List.isEmpty_iff.1 hemp)
        · rw [if_neg hemp, if_neg hemp]
          exact c.fin _ _ acc _ u entry info now ht h2 (ensureTable_ne _ _) he
            (fun hx => hemp (List.isEmpty_iff.2 hx)) hall hi
    | ackLost =>
      simp only
      cases hi : commitInfo (squashUrl env w u).1.txs (tableSequence (ensureTable log u u)) entry.syncs with
      | none => exact h2
      | some info =>
        simp only
        by_cases hemp : entry.syncs.isEmpty = true
        · rw [if_pos hemp, if_pos hemp]
          exact c.empty _ _ acc _ u entry h2 he (List.isEmpty_iff.1 hemp)
        · rw [if_neg hemp, if_neg hemp]
          exact c.lost _ _ acc _ u entry info hq h2 (ensureTable_ne _ _) he
            (fun hx => hemp (List.isEmpty_iff.2 hx)) hall hi

theorem flushReady (c : MetClosed env Q M T P) {w : Writer σ β} {log : Log σ β}
    {acc : List (Msg σ β)} {mt : Metrics} (h : P w log acc mt) (now : Nat) :
    P (flushReady env w now).1 log acc (flushReadyMet env w now mt) := by
  simp only [Seafowl.Sync.flushReady, flushReadyMet]
  cases hl : readyByLag env w now with
  | some u => exact h
  | none =>
    simp only
    by_cases hb : env.maxBytes ≤ w.size
    · rw [if_pos hb, if_pos hb]
      cases hg : largest w.syncs with
      | none => simp only; split <;> exact h
      | some p =>
        obtain ⟨u, co⟩ := p
        have h1 := c.sq w log acc mt u h
        simp only
        split
        · exact h1
        · split
          · exact h1
          · split <;> exact h1
    · rw [if_neg hb, if_neg hb]
      split <;> exact h

theorem flushLoop (c : MetClosed env Q M T P) (now : Nat) (ht : T now) : ∀ (fuel : Nat) (outs : List Outcome)
    (w : Writer σ β) (log : Log σ β) (acc : List (Msg σ β)) (mt : Metrics), P w log acc mt →
    (∀ o ∈ outs, Q o) →
    P (flushLoop env now fuel outs w log).1 (flushLoop env now fuel outs w log).2.1 acc
      (flushLoopMet env now fuel outs w log mt) := by
  intro fuel
  induction fuel with
  | zero => intro outs w log acc mt h _; exact h
  | succ n ih =>
    intro outs w log acc mt h hq
    have h1 := c.flushReady h now
    simp only [Seafowl.Sync.flushLoop, flushLoopMet]
    cases hr : (Seafowl.Sync.flushReady env w now).2 with
    | error => exact h1
    | nothing => exact c.oldest _ _ _ _ h1
    | url u =>
      simp only
      have hq' : Q (outs.headD .ok) := by
        cases outs with
        | nil => exact c.okQ
        | cons o os => exact hq o (by simp)
      have h2 := c.flushSyncs h1 u (outs.headD .ok) now hq' ht
      by_cases hf : (Seafowl.Sync.flushSyncs env (Seafowl.Sync.flushReady env w now).1 log u
          (outs.headD .ok)).2.2 = true
      · rw [if_pos hf, if_pos hf]
        exact ih _ _ _ _ _ h2 (fun o ho => hq o (List.mem_of_mem_tail ho))
      · rw [if_neg hf, if_neg hf]
        exact h2

theorem step (c : MetClosed env Q M T P) {W : World σ β} {mt : Metrics}
    (h : P W.w W.log W.acc mt) (op : Op σ β) (hq : ∀ o ∈ op.outs, Q o)
    (hm : ∀ m now lock outs, op = .sync m now lock outs → M m)
    (ht : ∀ n, op.now = some n → T n) :
    P (step env W op).1.w (step env W op).1.log (step env W op).1.acc (stepMet env W mt op) := by
  cases op with
  | sync m now lock outs =>
    simp only [Seafowl.Sync.step, processSync, stepMet]
    by_cases hp : rowsOfBatches env m.batches = 0 ∧ m.sequence = none
    · rw [if_pos hp, if_pos hp]; exact h
    rw [if_neg hp, if_neg hp]
    by_cases hi : m.iceberg = true
    · rw [if_pos hi, if_pos hi]; exact h
    rw [if_neg hi, if_neg hi]
    by_cases hl : lock = false
    · rw [if_pos hl, if_pos hl]; exact h
    rw [if_neg hl, if_neg hl]
    cases he : enqueue env W.w now m W.acc.length with
    | error e => exact h
    | ok w1 =>
      exact c.flushLoop now (ht now rfl) _ outs w1 W.log (W.acc ++ [m]) _
        (c.enq _ _ _ _ now m w1 h (hm m now lock outs rfl) hp (by simpa using hi) he) hq
  | tick now lock outs =>
    simp only [Seafowl.Sync.step, flushTick, stepMet]
    cases lock
    · exact h
    · exact c.flushLoop now (ht now rfl) _ outs W.w W.log W.acc _ h hq
  | external u => exact c.ext _ _ _ _ u h

theorem run (c : MetClosed env Q M T P) : ∀ (ops : List (Op σ β)) (W : World σ β) (mt : Metrics),
    P W.w W.log W.acc mt → (∀ op ∈ ops, ∀ o ∈ op.outs, Q o) →
    (∀ m now lock outs, .sync m now lock outs ∈ ops → M m) →
    (∀ op ∈ ops, ∀ n, op.now = some n → T n) →
    P (run env W ops).w (run env W ops).log (run env W ops).acc (runMet env W mt ops) := by
  intro ops
  induction ops with
  | nil => intro W mt h _ _ _; exact h
  | cons op ops ih =>
    intro W mt h hq hm ht
    refine ih _ _ (c.step h op (hq op (by simp)) ?_ (ht op (by simp))) (fun op' h' => hq op' (by simp [h'])) ?_
      (fun op' h' => ht op' (by simp [h']))
    · intro m now lock outs he; exact hm m now lock outs (by simp [he])
    · intro m now lock outs he; exact hm m now lock outs (by simp [he])

end MetClosed

/-! ### the elementary changes -/

/-- Rows held in memory according to the entries. -/
def rowsHeld (w : Writer σ β) : Nat := alSum (·.rows) w.syncs

theorem squashMet_acct (env : Env σ β) (l : List (Item σ β)) :
    ∀ (t s r : Nat) (mt : Metrics), itemsSize env l ≤ s → s ≤ t → itemsRows env l ≤ r →
    (squashMet env l mt).memBytes - ((squashLoop env l t s r).2.1 : Int) = mt.memBytes - (t : Int) ∧
    (squashMet env l mt).memRows + ((squashLoop env l t s r).2.2.2.1 : Int) = mt.memRows + (r : Int) ∧
    ((∀ it s' b, it ∈ l → env.squash it.schema it.data = some (s', b) →
        env.rows b ≤ rowsOfBatches env it.data) →
      (squashMet env l mt).sqRows + (squashLoop env l t s r).2.2.2.1 = mt.sqRows + r) ∧
    ((∀ it s' b, it ∈ l → env.squash it.schema it.data = some (s', b) →
        env.bytes b ≤ sizeOfBatches env it.data) →
      (squashMet env l mt).sqBytes + (squashLoop env l t s r).2.1 = mt.sqBytes + t) := by
  induction l with
  | nil => intro t s r mt _ _ _; simp [squashLoop, squashMet]
  | cons x rest ih =>
    intro t s r mt h1 h2 h3
    have e1 : itemsSize env (x :: rest) = sizeOfBatches env x.data + itemsSize env rest := by
      simp [itemsSize]
    have e2 : itemsRows env (x :: rest) = rowsOfBatches env x.data + itemsRows env rest := by
      simp [itemsRows]
    rw [e1] at h1
    rw [e2] at h3
    simp only [squashLoop, squashMet]
    by_cases hx : x.isSquashed = true
    · rw [if_pos hx, if_pos hx]
      obtain ⟨a, b, c, d⟩ := ih t s r mt (by omega) h2 (by omega)
      exact ⟨a, b, fun hh => c (fun it s' b' hm => hh it s' b' (by simp [hm])),
        fun hh => d (fun it s' b' hm => hh it s' b' (by simp [hm]))⟩
    · rw [if_neg hx, if_neg hx]
      cases hs : env.squash x.schema x.data with
      | none => simp
      | some p =>
        obtain ⟨s', b'⟩ := p
        obtain ⟨a, b, c, d⟩ := ih (t - sizeOfBatches env x.data + env.bytes b')
          (s - sizeOfBatches env x.data + env.bytes b')
          (r - rowsOfBatches env x.data + env.rows b') (squashItemMet env x.data b' mt)
          (by omega) (by omega) (by omega)
        refine ⟨?_, ?_, ?_, ?_⟩
        · simp only [squashItemMet] at a ⊢; omega
        · simp only [squashItemMet] at b ⊢; omega
        · intro hh
          have hx' := hh x s' b' (by simp) hs
          have := c (fun it s'' b'' hm => hh it s'' b'' (by simp [hm]))
          simp only [squashItemMet] at this ⊢; omega
        · intro hh
          have hx' := hh x s' b' (by simp) hs
          have := d (fun it s'' b'' hm => hh it s'' b'' (by simp [hm]))
          simp only [squashItemMet] at this ⊢; omega

theorem squashMet_same (env : Env σ β) (l : List (Item σ β)) : ∀ mt : Metrics,
    (squashMet env l mt).reqBytes = mt.reqBytes ∧ (squashMet env l mt).reqRows = mt.reqRows ∧
    (squashMet env l mt).flBytes = mt.flBytes ∧ (squashMet env l mt).flRows = mt.flRows ∧
    (squashMet env l mt).seqMem = mt.seqMem ∧ (squashMet env l mt).seqDur = mt.seqDur ∧
    (squashMet env l mt).oldest = mt.oldest ∧ (squashMet env l mt).flLast = mt.flLast := by
  induction l with
  | nil => intro mt; simp [squashMet]
  | cons x rest ih =>
    intro mt
    simp only [squashMet]
    split
    · exact ih mt
    · split
      · simp
      · exact ih _

theorem squashUrlMet_same (env : Env σ β) (w : Writer σ β) (u : Url) (mt : Metrics) :
    (squashUrlMet env w u mt).reqBytes = mt.reqBytes ∧
    (squashUrlMet env w u mt).reqRows = mt.reqRows ∧
    (squashUrlMet env w u mt).flBytes = mt.flBytes ∧ (squashUrlMet env w u mt).flRows = mt.flRows ∧
    (squashUrlMet env w u mt).seqMem = mt.seqMem ∧ (squashUrlMet env w u mt).seqDur = mt.seqDur ∧
    (squashUrlMet env w u mt).oldest = mt.oldest ∧ (squashUrlMet env w u mt).flLast = mt.flLast := by
  simp only [squashUrlMet]
  split
  · simp
  · exact squashMet_same env _ mt

/-- Squashing never makes a list of batches longer. -/
def NoMoreRows (env : Env σ β) : Prop :=
  ∀ s l s' b, env.squash s l = some (s', b) → env.rows b ≤ (l.map env.rows).sum
/-- Squashing never makes a list of batches larger. -/
def NoMoreBytes (env : Env σ β) : Prop :=
  ∀ s l s' b, env.squash s l = some (s', b) → env.bytes b ≤ (l.map env.bytes).sum

theorem squashUrlMet_acct {env : Env σ β} {w : Writer σ β} (h : Acct env w) (u : Url)
    (mt : Metrics) :
    (squashUrlMet env w u mt).memBytes - ((squashUrl env w u).1.size : Int) =
      mt.memBytes - (w.size : Int) ∧
    (squashUrlMet env w u mt).memRows + (rowsHeld (squashUrl env w u).1 : Int) =
      mt.memRows + (rowsHeld w : Int) ∧
    (NoMoreRows env → (squashUrlMet env w u mt).sqRows + rowsHeld (squashUrl env w u).1 =
      mt.sqRows + rowsHeld w) ∧
    (NoMoreBytes env → (squashUrlMet env w u mt).sqBytes + (squashUrl env w u).1.size =
      mt.sqBytes + w.size) := by
  simp only [squashUrl, squashUrlMet]
  cases hc : alGet u w.syncs with
  | none => simp
  | some c =>
    have hs := h.size u c hc
    have hr := h.rows u c hc
    have hle := le_alSum u (·.size) w.syncs c hc
    have ht := h.total
    obtain ⟨a, b, d, e⟩ := squashMet_acct env c.syncs w.size c.size c.rows mt
      (by omega) (by omega) (by omega)
    have hm := alSum_alModify u (·.rows) (fun c' : Coll σ β => { c' with
          syncs := (squashLoop env c.syncs w.size c.size c.rows).1,
          size := (squashLoop env c.syncs w.size c.size c.rows).2.2.1,
          rows := (squashLoop env c.syncs w.size c.size c.rows).2.2.2.1 }) w.syncs c hc
    simp only at hm
    refine ⟨a, ?_, ?_, ?_⟩
    · simp only [rowsHeld]; omega
    · intro hn
      have := d (fun it s' b' _ hq => hn _ _ _ _ hq)
      simp only [rowsHeld]; omega
    · intro hn
      exact e (fun it s' b' _ hq => hn _ _ _ _ hq)

theorem advanceDurable_some : ∀ (txs : List (TxId × Tx)) (dur : Origin → Option Nat) (o : Origin),
    (advanceDurable txs dur).2 o = none → dur o = none := by
  intro txs
  induction txs with
  | nil => intro dur o h; exact h
  | cons p rest ih =>
    obtain ⟨id, tx⟩ := p
    intro dur o h
    simp only [advanceDurable] at h
    split at h
    · split at h
      · have := ih _ o h
        simp only [fnSet] at this
        split at this
        · cases this
        · exact this
      · exact h
    · exact h

theorem finishFlush_durable (w : Writer σ β) (u : Url) (l : List (Item σ β)) (o : Origin)
    (h : (finishFlush w u l).originDurable o = none) : w.originDurable o = none := by
  simp only [finishFlush] at h
  have := advanceDurable_some _ _ _ h
  rwa [(removeSync_fields _ _).2.2.2] at this

theorem finishFlush_memory (w : Writer σ β) (u : Url) (l : List (Item σ β)) :
    (finishFlush w u l).originMemory = w.originMemory := by
  simp only [finishFlush]
  exact (removeSync_fields _ _).2.2.1

theorem removeSync_held (w : Writer σ β) (u : Url) {c : Coll σ β} (h : alGet u w.syncs = some c) :
    rowsHeld (removeSync w u) + c.rows = rowsHeld w := by
  simp only [removeSync, h, rowsHeld]
  exact alSum_alErase u (·.rows) w.syncs c h

theorem removeSync_size (w : Writer σ β) (u : Url) {c : Coll σ β} (h : alGet u w.syncs = some c) :
    (removeSync w u).size = w.size - c.size := by
  simp only [removeSync, h]

theorem enqueue_held {env : Env σ β} {w w' : Writer σ β} {now mid : Nat} {m : Msg σ β}
    (h : enqueue env w now m mid = .ok w') :
    w'.size = (if 0 < rowsOfBatches env m.batches then w.size + sizeOfBatches env m.batches else w.size) ∧
    rowsHeld w' = rowsHeld w + rowsOfBatches env m.batches ∧
    w'.originMemory = (match m.sequence with
      | some s => fnSet w.originMemory m.origin s
      | none => w.originMemory) ∧
    w'.originDurable = w.originDurable := by
  obtain ⟨w1, t, ha, _, _, hd, hm, hsy, hsz⟩ := enqueue_ok h
  obtain ⟨⟨f1, f2, f3, f4⟩, _⟩ := assignTx_ok ha
  refine ⟨?_, ?_, ?_, ?_⟩
  · rw [hsz]
    simp only [Msg.nonempty, decide_eq_true_eq, buffer, f2]
  · simp only [rowsHeld]
    rw [hsy]
    simp only [Msg.nonempty, decide_eq_true_eq]
    split
    · simp only [buffer, f1]
      split
      · next c hc =>
        have := alSum_alModify m.url (·.rows) (fun c : Coll σ β => { c with
          syncs := pushItem env c.syncs t m.schema m.batches mid
          size := c.size + sizeOfBatches env m.batches
          rows := c.rows + rowsOfBatches env m.batches }) w.syncs c hc
        simp only at this
        omega
      · simp [alSum]
    · next hz => rw [f1]; omega
  · rw [hm, f3]; cases m.sequence <;> rfl
  · rw [hd, f4]

end Seafowl.Sync
