import Verif.Sync.WriterInv2

/-!
# Induction over histories

`Closed` lists the elementary state changes of the service; a property closed under them holds
along every history.
-/

namespace Seafowl.Sync

variable {σ β : Type}

/-- `P` is preserved by every elementary change a flush makes; `Q` restricts the storage
outcomes. -/
structure FlushClosed (env : Env σ β) (Q : Outcome → Prop)
    (P : Writer σ β → Log σ β → List (Msg σ β) → Prop) : Prop where
  okQ : Q .ok
  sq : ∀ w log acc u, P w log acc → P (squashUrl env w u).1 log acc
  create : ∀ w log acc u, P w log acc → P w (ensureTable log u) acc
  lost : ∀ w log acc u entry info, Q .ackLost → P w log acc → log u ≠ [] →
    alGet u w.syncs = some entry → entry.syncs ≠ [] → (∀ it ∈ entry.syncs, it.isSquashed = true) →
    commitInfo w.txs (tableSequence (log u)) entry.syncs = some info →
    P w (appendCommit log u { items := entry.syncs, info := info }) acc
  fin : ∀ w log acc u entry info, P w log acc → log u ≠ [] →
    alGet u w.syncs = some entry → entry.syncs ≠ [] → (∀ it ∈ entry.syncs, it.isSquashed = true) →
    commitInfo w.txs (tableSequence (log u)) entry.syncs = some info →
    P (finishFlush w u entry.syncs) (appendCommit log u { items := entry.syncs, info := info }) acc
  empty : ∀ w log acc u entry, P w log acc → alGet u w.syncs = some entry → entry.syncs = [] →
    P (removeSync w u) log acc

/-- `P` is preserved by every elementary change of the service. -/
structure Closed (env : Env σ β) (Q : Outcome → Prop)
    (P : Writer σ β → Log σ β → List (Msg σ β) → Prop) : Prop extends FlushClosed env Q P where
  enq : ∀ w log acc now m w', P w log acc →
    ¬ (rowsOfBatches env m.batches = 0 ∧ m.sequence = none) → m.iceberg = false →
    enqueue env w now m acc.length = .ok w' → P w' log (acc ++ [m])
  ext : ∀ w log acc u, P w log acc → P w (appendCommit log u { items := [], info := none }) acc

theorem ensureTable_ne (log : Log σ β) (u : Url) : ensureTable log u u ≠ [] := by
  simp only [ensureTable, true_and]
  split <;> simp_all

theorem squashLoop_all (env : Env σ β) (l : List (Item σ β)) : ∀ (a b c : Nat),
    (squashLoop env l a b c).2.2.2.2 = true → ∀ it ∈ (squashLoop env l a b c).1, it.isSquashed = true := by
  induction l with
  | nil => intro a b c _ it hit; simp [squashLoop] at hit
  | cons x rest ih =>
    intro a b c h it hit
    simp only [squashLoop] at h hit
    split at h
    · next hx =>
      simp only [hx, if_true] at hit
      rcases List.mem_cons.1 hit with h' | h'
      · subst h'; exact hx
      · exact ih _ _ _ h it h'
    · next hx =>
      simp only [hx, if_false, Bool.false_eq_true] at hit
      split at h
      · cases h
      · next s' b' hs =>
        rw [hs] at hit
        simp only at hit
        rcases List.mem_cons.1 hit with h' | h'
        · subst h'; rfl
        · exact ih _ _ _ h it h'

/-- After a successful `physical_squashing` all items of the location are squashed. -/
theorem squashUrl_all {env : Env σ β} {w : Writer σ β} {u : Url} {entry : Coll σ β}
    (h : (squashUrl env w u).2 = true) (he : alGet u (squashUrl env w u).1.syncs = some entry) :
    ∀ it ∈ entry.syncs, it.isSquashed = true := by
  simp only [squashUrl] at h he
  split at h
  · next hn => rw [hn] at he; simp [hn] at he
  · next c hc =>
    rw [hc] at he
    simp only [alGet_alModify, if_true, hc, Option.map_some, Option.some.injEq] at he
    subst he
    exact squashLoop_all env c.syncs _ _ _ h

namespace FlushClosed

variable {env : Env σ β} {Q : Outcome → Prop}
  {P : Writer σ β → Log σ β → List (Msg σ β) → Prop}

theorem flushSyncs (c : FlushClosed env Q P) {w : Writer σ β} {log : Log σ β} {acc : List (Msg σ β)}
    (h : P w log acc) (u : Url) (out : Outcome) (hq : Q out) :
    P (flushSyncs env w log u out).1 (flushSyncs env w log u out).2.1 acc := by
  have h1 := c.sq w log acc u h
  have h2 := c.create _ log acc u h1
  simp only [Seafowl.Sync.flushSyncs]
  split
  · exact h1
  · next hsq =>
    split
    · exact h1
    · next entry he =>
      have hall := squashUrl_all (by simpa using hsq) he
      split
      · exact h1
      · exact h2
      · split
        · exact h2
        · next info hi =>
          split
          · next hemp =>
            simp only [List.isEmpty_iff] at hemp
            exact c.empty _ _ acc u entry h2 he hemp
          · next hemp =>
            simp only [List.isEmpty_iff] at hemp
            split
            · exact c.lost _ _ acc u entry info hq h2 (ensureTable_ne _ _) he hemp hall hi
            · exact c.fin _ _ acc u entry info h2 (ensureTable_ne _ _) he hemp hall hi

theorem flushReady (c : FlushClosed env Q P) {w : Writer σ β} {log : Log σ β} {acc : List (Msg σ β)}
    (h : P w log acc) (now : Nat) : P (flushReady env w now).1 log acc := by
  simp only [Seafowl.Sync.flushReady]
  split
  · exact h
  · split
    · split
      · split <;> exact h
      · next u _ _ =>
        have h1 := c.sq w log acc u h
        split
        · exact h1
        · split
          · exact h1
          · split <;> exact h1
    · split <;> exact h

theorem flushLoop (c : FlushClosed env Q P) (now : Nat) : ∀ (fuel : Nat) (outs : List Outcome)
    (w : Writer σ β) (log : Log σ β) (acc : List (Msg σ β)), P w log acc → (∀ o ∈ outs, Q o) →
    P (flushLoop env now fuel outs w log).1 (flushLoop env now fuel outs w log).2.1 acc := by
  intro fuel
  induction fuel with
  | zero => intro outs w log acc h _; exact h
  | succ n ih =>
    intro outs w log acc h hq
    have h1 := c.flushReady h now
    simp only [Seafowl.Sync.flushLoop]
    split
    · exact h1
    · exact h1
    · next u _ =>
      have hq' : Q (outs.headD .ok) := by
        cases outs with
        | nil => exact c.okQ
        | cons o os => exact hq o (by simp)
      have h2 := c.flushSyncs h1 u (outs.headD .ok) hq'
      split
      · apply ih _ _ _ _ h2
        intro o ho
        exact hq o (List.mem_of_mem_tail ho)
      · exact h2

theorem flush (c : FlushClosed env Q P) {w : Writer σ β} {log : Log σ β} {acc : List (Msg σ β)}
    (h : P w log acc) (now : Nat) (outs : List Outcome) (hq : ∀ o ∈ outs, Q o) :
    P (flush env w log now outs).1 (flush env w log now outs).2.1 acc :=
  c.flushLoop now _ outs w log acc h hq

end FlushClosed

/-- The storage outcomes an event brings. -/
def Op.outs : Op σ β → List Outcome
  | .sync _ _ _ outs => outs
  | .tick _ _ outs => outs
  | .external _ => []

theorem Closed.step {env : Env σ β} {Q : Outcome → Prop}
    {P : Writer σ β → Log σ β → List (Msg σ β) → Prop} (c : Closed env Q P) {W : World σ β}
    (h : P W.w W.log W.acc) (op : Op σ β) (hq : ∀ o ∈ op.outs, Q o) :
    P (step env W op).1.w (step env W op).1.log (step env W op).1.acc := by
  cases op with
  | sync m now lock outs =>
    simp only [Seafowl.Sync.step, processSync]
    split
    · exact h
    · next hp =>
      split
      · exact h
      · next hi =>
        split
        · exact h
        · split
          · exact h
          · next w1 he =>
            exact c.flush (c.enq _ _ _ now m w1 h hp (by simpa using hi) he) now outs hq
  | tick now lock outs =>
    simp only [Seafowl.Sync.step, flushTick]
    split
    · exact c.flush h now outs hq
    · exact h
  | external u => exact c.ext _ _ _ u h

theorem Closed.run {env : Env σ β} {Q : Outcome → Prop}
    {P : Writer σ β → Log σ β → List (Msg σ β) → Prop} (c : Closed env Q P) :
    ∀ (ops : List (Op σ β)) (W : World σ β), P W.w W.log W.acc →
      (∀ op ∈ ops, ∀ o ∈ op.outs, Q o) →
      P (run env W ops).w (run env W ops).log (run env W ops).acc := by
  intro ops
  induction ops with
  | nil => intro W h _; exact h
  | cons op ops ih =>
    intro W h hq
    exact ih _ (c.step h op (hq op (by simp))) (fun op' h' => hq op' (by simp [h']))

end Seafowl.Sync
