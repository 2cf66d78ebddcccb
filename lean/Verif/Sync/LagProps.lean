import Verif.Sync.WriterProps

/-!
C133: accepted changes are in the table once the configured lag has passed.
-/

namespace Seafowl.Sync

variable {σ β : Type}

/-- The message at position `i` is in the table, or it waits since at most the time `a` for being written. -/
def Waits (log0 : Log σ β) (i : Nat) (u : Url) (a : Nat) (w : Writer σ β) (log : Log σ β) : Prop :=
  i ∈ committed log0 log u ∨ (i ∈ pending w u ∧ ∃ c, alGet u w.syncs = some c ∧ c.insertionTime ≤ a)

theorem waits_squash {env : Env σ β} {log0 log : Log σ β} {i : Nat} {u : Url} {a : Nat} {w : Writer σ β}
    (h : Waits log0 i u a w log) (x : Url) : Waits log0 i u a (squashUrl env w x).1 log := by
  rcases h with h | ⟨h, c, hc, ht⟩
  · exact .inl h
  · refine .inr ⟨by rw [squashUrl_pending]; exact h, ?_⟩
    simp only [squashUrl]
    split
    · exact ⟨c, hc, ht⟩
    · next c' hc' =>
      simp only [alGet_alModify]
      split
      · next hx =>
        subst hx
        rw [hc]
        exact ⟨_, rfl, ht⟩
      · exact ⟨c, hc, ht⟩

theorem waits_enqueue {env : Env σ β} {log0 log : Log σ β} {i : Nat} {u : Url} {a : Nat} {w w' : Writer σ β} {now : Nat}
    {m : Msg σ β} {mid : Nat} (h : Waits log0 i u a w log) (he : enqueue env w now m mid = .ok w') : Waits log0 i u a w' log := by
  rcases h with h | ⟨h, c, hc, ht⟩
  · exact .inl h
  · refine .inr ⟨by rw [enqueue_pending he]; exact List.mem_append_left _ h, ?_⟩
    obtain ⟨w1, tx, ha, -, -, -, -, hsy, -⟩ := enqueue_ok he
    obtain ⟨⟨hs1, _, _, _⟩, _⟩ := assignTx_ok ha
    rw [hsy]
    split
    · rw [alGet_buffer, hs1]
      split
      · next hu =>
        subst hu
        rw [hc]
        exact ⟨_, rfl, ht⟩
      · exact ⟨c, hc, ht⟩
    · rw [hs1]
      exact ⟨c, hc, ht⟩

theorem waits_log {log0 log log' : Log σ β} {extra : Url → List (Commit σ β)} {i : Nat} {u : Url} {a : Nat} {w : Writer σ β}
    (hp : log0 u <+: log u) (he : Extends log log' extra) (h : Waits log0 i u a w log) : Waits log0 i u a w log' := by
  rcases h with h | h
  · refine .inl ?_
    rw [committed_extends hp he]
    exact List.mem_append_left _ h
  · exact .inr h

theorem waits_closed (env : Env σ β) (log0 : Log σ β) (i : Nat) (u : Url) (a : Nat) :
    Closed env (fun _ => True) (fun w log acc => Full env log0 w log acc ∧ Waits log0 i u a w log) where
  okQ := trivial
  enq := fun _ _ _ now m w' ⟨h, hx⟩ hp hice he => ⟨(full_closed env log0).enq _ _ _ now m w' h hp hice he, waits_enqueue hx he⟩
  sq := fun _ _ _ x ⟨h, hx⟩ => ⟨(full_closed env log0).sq _ _ _ x h, waits_squash hx x⟩
  create := fun _ log _ x ⟨h, hx⟩ =>
    ⟨(full_closed env log0).create _ _ _ x h, waits_log (h.inv.pre u) (ensureTable_extends log x) hx⟩
  lost := fun _ log _ x entry info hq ⟨h, hx⟩ h1 hg hne hsq hci =>
    ⟨(full_closed env log0).lost _ _ _ x entry info hq h h1 hg hne hsq hci,
      waits_log (h.inv.pre u) (appendCommit_extends log x _) hx⟩
  fin := by
    intro w log acc x entry info ⟨h, hx⟩ h1 hg hne hsq hci
    refine ⟨(full_closed env log0).fin _ _ _ x entry info h h1 hg hne hsq hci, ?_⟩
    rcases hx with hx | ⟨hx, c, hc, ht⟩
    · exact waits_log (w := finishFlush w x entry.syncs) (h.inv.pre u) (appendCommit_extends log x _) (.inl hx)
    · by_cases hu : u = x
      · subst hu
        refine .inl ?_
        rw [committed_extends (h.inv.pre u) (appendCommit_extends log u _)]
        refine List.mem_append_right _ ?_
        simp only [pending, hg] at hx
        simpa [commitMsgs] using hx
      · refine .inr ⟨?_, c, ?_, ht⟩
        · rw [finishFlush_pending _ _ _ _ h.inv.keys, if_neg hu]
          exact hx
        · rw [(finishFlush_syncs w x entry.syncs).1]
          simp only [removeSync, hg]
          rw [alGet_alErase _ _ _ h.inv.keys, if_neg hu]
          exact hc
  empty := by
    intro w log acc x entry ⟨h, hx⟩ hg hemp
    have hsk : skelAt w x = some (entry.syncs.map (fun it => (it.txIds, it.msgs))) := by
      simp [skelAt, hg]
    have := (h.inv.items x _ hsk).1
    rw [hemp] at this
    exact absurd rfl this
  ext := fun _ log _ x ⟨h, hx⟩ =>
    ⟨(full_closed env log0).ext _ _ _ x h, waits_log (h.inv.pre u) (appendCommit_extends log x _) hx⟩

/-! ### specification -/

/-- The event is a request or an iteration of the background task whose flush succeeds at time `t`. -/
def Flushes (env : Env σ β) (W : World σ β) (t : Nat) (op : Op σ β) : Prop :=
  (∃ outs, op = .tick t true outs ∧ (flush env W.w W.log t outs).2.2 = .ok) ∨
  (∃ m lock outs mem dur, op = .sync m t lock outs ∧ (rowsOfBatches env m.batches ≠ 0 ∨ m.sequence ≠ none) ∧
    (step env W op).2 = .accepted mem dur)

/-! ### C133 -/

/-- What a request does that has something to do and is taken. -/
theorem step_taken {env : Env σ β} {W : World σ β} {m : Msg σ β} {t : Nat} {lock : Bool} {outs : List Outcome}
    (hne : rowsOfBatches env m.batches ≠ 0 ∨ m.sequence ≠ none)
    (h : (step env W (.sync m t lock outs)).1.acc = W.acc ++ [m] ∨
      ∃ mem dur, (step env W (.sync m t lock outs)).2 = .accepted mem dur) :
    m.iceberg = false ∧ ∃ w1, enqueue env W.w t m W.acc.length = .ok w1 ∧
      (step env W (.sync m t lock outs)).1 =
        { w := (flush env w1 W.log t outs).1, log := (flush env w1 W.log t outs).2.1, acc := W.acc ++ [m] } ∧
      ((∃ mem dur, (step env W (.sync m t lock outs)).2 = .accepted mem dur) → (flush env w1 W.log t outs).2.2 = .ok) := by
  have hbad : ¬ W.acc = W.acc ++ [m] := by
    intro e
    have := congrArg List.length e
    simp at this
  have hp : ¬ (rowsOfBatches env m.batches = 0 ∧ m.sequence = none) := by
    rintro ⟨h1, h2⟩
    rcases hne with h | h
    · exact h h1
    · exact h h2
  simp only [step, processSync, if_neg hp] at h ⊢
  cases hice : m.iceberg with
  | true =>
    simp only [hice, if_true] at h
    rcases h with h | ⟨_, _, h⟩
    · exact absurd h hbad
    · cases h
  | false =>
    simp only [hice, Bool.false_eq_true, if_false] at h ⊢
    cases lock with
    | false =>
      simp only [if_true] at h
      rcases h with h | ⟨_, _, h⟩
      · exact absurd h hbad
      · cases h
    | true =>
      simp only [Bool.true_eq_false, if_false] at h ⊢
      cases he : enqueue env W.w t m W.acc.length with
      | error e =>
        rw [he] at h
        rcases h with h | ⟨_, _, h⟩
        · exact absurd h hbad
        · cases h
      | ok w1 =>
        refine ⟨trivial, w1, rfl, rfl, ?_⟩
        simp only
        rintro ⟨mem, dur, hr⟩
        split at hr
        · next hk => exact hk
        · cases hr

/-- A successful flush leaves no table that has been waiting too long. -/
theorem nothing_waits {env : Env σ β} {w : Writer σ β} {log : Log σ β} {now : Nat} {outs : List Outcome} (ht : Timed now w)
    (h : (flush env w log now outs).2.2 = .ok) :
    ∀ u c, (u, c) ∈ (flush env w log now outs).1.syncs → now - c.insertionTime < env.maxLag ∧ c.insertionTime ≤ now := by
  intro u c hc
  have ht' : Timed now (flush env w log now outs).1 :=
    (timed_closed env now).flush (acc := []) ht now outs (fun _ _ => trivial)
  obtain ⟨h1, _, _⟩ := C08_post env w log now outs _ rfl h
  generalize (flush env w log now outs).1 = w' at *
  cases hs : w'.syncs with
  | nil => rw [hs] at hc; simp at hc
  | cons p rest =>
    obtain ⟨u0, c0⟩ := p
    have h2 := h1 u0 c0 (by rw [hs]; rfl)
    have h3 : c0.insertionTime ≤ now := ht'.2 (u0, c0.insertionTime) (by rw [hs]; simp)
    have h4 : c0.insertionTime ≤ c.insertionTime := by
      rw [hs] at hc
      rcases List.mem_cons.1 hc with hc | hc
      · injection hc with _ hc; subst hc; exact Nat.le_refl _
      · have hpw := ht'.1
        rw [hs] at hpw
        simp only [List.map_cons, List.pairwise_cons] at hpw
        exact hpw.1 (u, c.insertionTime) (List.mem_map.2 ⟨(u, c), hc, rfl⟩)
    have h5 : c.insertionTime ≤ now := ht'.2 (u, c.insertionTime) (List.mem_map.2 ⟨(u, c), hc, rfl⟩)
    simp only [lag, h3, if_true] at h2
    omega

theorem waits_done {env : Env σ β} {log0 log : Log σ β} {w : Writer σ β} {acc : List (Msg σ β)} {now : Nat} {outs : List Outcome}
    {i : Nat} {u : Url} {a : Nat} (hf : Full env log0 w log acc) (hw : Waits log0 i u a w log) (ht : Timed now w)
    (h : (flush env w log now outs).2.2 = .ok) (hl : a + env.maxLag ≤ now) :
    InTable env log0 (flush env w log now outs).2.1 acc i u := by
  obtain ⟨hf', hw'⟩ := (waits_closed env log0 i u a).flush (acc := acc) ⟨hf, hw⟩ now outs (fun _ _ => trivial)
  apply inTable_of_committed hf'.content
  rcases hw' with hw' | ⟨-, c, hc, htc⟩
  · exact hw'
  · have := nothing_waits ht h u c (alGet_mem hc)
    omega

theorem clockOk_append : ∀ (ops ops' : List (Op σ β)) (t : Nat), ClockOk t (ops ++ ops') →
    ClockOk t ops ∧ ClockOk (clockEnd t ops) ops' := by
  intro ops
  induction ops with
  | nil => intro ops' t h; exact ⟨trivial, h⟩
  | cons op ops ih =>
    intro ops' t h
    simp only [List.cons_append, ClockOk] at h
    simp only [ClockOk, clockEnd]
    cases hn : op.now with
    | none =>
      rw [hn] at h
      exact ih ops' t h
    | some n =>
      rw [hn] at h
      obtain ⟨h1, h2⟩ := h
      obtain ⟨h3, h4⟩ := ih ops' n h2
      exact ⟨⟨h1, h3⟩, h4⟩

/-- **C133.**  Take any history in which the clock does not go back, and a message with rows that was taken at time `a`.  Whatever
happens afterwards - requests, failed flushes, lost answers of the storage, commits of others -: as soon as a flush succeeds at a time
`t` that is `max_replication_lag_s` later, the message is in its table. -/
theorem C133_within_lag (env : Env σ β) (log0 : Log σ β) (ops1 ops2 : List (Op σ β)) (m : Msg σ β) (a : Nat) (lock : Bool)
    (outs : List Outcome) (op : Op σ β) (t : Nat)
    (hclock : ClockOk 0 (ops1 ++ .sync m a lock outs :: (ops2 ++ [op])))
    (hm : m.nonempty env = true)
    (htaken : (run env (World.start log0) (ops1 ++ [.sync m a lock outs])).acc = (run env (World.start log0) ops1).acc ++ [m])
    (hf : Flushes env (run env (World.start log0) (ops1 ++ .sync m a lock outs :: ops2)) t op)
    (hlag : a + env.maxLag ≤ t) :
    InTable env log0 (run env (World.start log0) (ops1 ++ .sync m a lock outs :: (ops2 ++ [op]))).log
      (run env (World.start log0) (ops1 ++ .sync m a lock outs :: (ops2 ++ [op]))).acc
      (run env (World.start log0) ops1).acc.length m.url := by
  have hrows : rowsOfBatches env m.batches ≠ 0 := by
    simp only [Msg.nonempty, decide_eq_true_eq] at hm
    omega
  obtain ⟨hc1, hc2⟩ := clockOk_append ops1 _ 0 hclock
  have htimed1 : Timed (clockEnd 0 ops1) (run env (World.start log0) ops1).w := by
    apply timed_run ops1 (World.start log0) 0 _ hc1
    simp [Timed, World.start, Writer.new]
  have hfull1 := full_run env log0 ops1
  rw [run_append] at htaken hf ⊢
  generalize run env (World.start log0) ops1 = W1 at *
  simp only [run] at htaken hf ⊢
  have hca : clockEnd 0 ops1 ≤ a ∧ ClockOk a (ops2 ++ [op]) := hc2
  obtain ⟨hice, w1, he, hstep, -⟩ := step_taken (.inl hrows) (.inl htaken)
  have hp : ¬ (rowsOfBatches env m.batches = 0 ∧ m.sequence = none) := fun h => hrows h.1
  have hfullE := (full_closed env log0).enq _ _ _ a m w1 hfull1 hp hice he
  have htimedE : Timed a w1 := htimed1.enqueue hca.1 he
  have hwE : Waits log0 W1.acc.length m.url a w1 W1.log := by
    have hpend : W1.acc.length ∈ pending w1 m.url := by
      rw [enqueue_pending he]
      simp [hm]
    refine .inr ⟨hpend, ?_⟩
    cases hg : alGet m.url w1.syncs with
    | none => simp [pending, hg] at hpend
    | some c => exact ⟨c, rfl, htimedE.2 (m.url, c.insertionTime) (List.mem_map.2 ⟨(m.url, c), alGet_mem hg, rfl⟩)⟩
  obtain ⟨hfullS, hwS⟩ := (waits_closed env log0 W1.acc.length m.url a).flush (acc := W1.acc ++ [m]) ⟨hfullE, hwE⟩ a outs
    (fun _ _ => trivial)
  have htimedS : Timed a (flush env w1 W1.log a outs).1 := (timed_closed env a).flush (acc := []) htimedE a outs (fun _ _ => trivial)
  rw [hstep] at hf ⊢
  obtain ⟨hc3, hc4⟩ := clockOk_append ops2 [op] a hca.2
  have htimed2 := timed_run (env := env) ops2
    { w := (flush env w1 W1.log a outs).1, log := (flush env w1 W1.log a outs).2.1, acc := W1.acc ++ [m] } a htimedS hc3
  obtain ⟨hfull2, hw2⟩ := (waits_closed env log0 W1.acc.length m.url a).run ops2
    { w := (flush env w1 W1.log a outs).1, log := (flush env w1 W1.log a outs).2.1, acc := W1.acc ++ [m] } ⟨hfullS, hwS⟩
    (fun _ _ _ _ => trivial)
  rw [run_append]
  generalize run env { w := (flush env w1 W1.log a outs).1, log := (flush env w1 W1.log a outs).2.1, acc := W1.acc ++ [m] } ops2 = W2
    at *
  simp only [run]
  rcases hf with ⟨outs', rfl, hok⟩ | ⟨m', lock', outs', mem, dur, rfl, hne', hok⟩
  · have ht2 : clockEnd a ops2 ≤ t := hc4.1
    simp only [step, flushTick, if_true]
    exact waits_done hfull2 hw2 (htimed2.mono ht2) hok hlag
  · have ht2 : clockEnd a ops2 ≤ t := hc4.1
    obtain ⟨hice', w2, he', hstep', hok'⟩ := step_taken hne' (.inr ⟨mem, dur, hok⟩)
    rw [hstep']
    have hp' : ¬ (rowsOfBatches env m'.batches = 0 ∧ m'.sequence = none) := by
      rintro ⟨h1, h2⟩
      rcases hne' with h | h
      · exact h h1
      · exact h h2
    exact waits_done ((full_closed env log0).enq _ _ _ t m' w2 hfull2 hp' hice' he') (waits_enqueue hw2 he')
      (htimed2.enqueue ht2 he') (hok' ⟨mem, dur, hok⟩) hlag

/-! ### one table that cannot be written -/

/-- The event fails to write the first table it tries, at time `t` or later. -/
def FailsFirst (t : Nat) (op : Op σ β) : Prop :=
  (∃ now lock outs, op = .tick now lock (.fail false :: outs) ∧ t ≤ now) ∨
  (∃ m now lock outs, op = .sync m now lock (.fail false :: outs) ∧ t ≤ now)

/-- The first table has been waiting since `ti`. -/
def HeadAt (u : Url) (ti : Nat) (w : Writer σ β) : Prop :=
  (w.syncs.map (fun p => (p.1, p.2.insertionTime))).head? = some (u, ti)

theorem head_enqueue {env : Env σ β} {w w' : Writer σ β} {now : Nat} {m : Msg σ β} {mid : Nat} {u : Url} {ti : Nat}
    (h : HeadAt u ti w) (he : enqueue env w now m mid = .ok w') : HeadAt u ti w' := by
  obtain ⟨w1, tx, ha, _, _, _, _, hsy, _⟩ := enqueue_ok he
  obtain ⟨⟨hs1, _, _, _⟩, _⟩ := assignTx_ok ha
  unfold HeadAt at h ⊢
  rw [hsy]
  split
  · simp only [buffer, hs1]
    split
    · rw [alModify_times]
      · exact h
      · intro c; rfl
    · rw [List.map_append]
      cases hl : w.syncs with
      | nil => rw [hl] at h; cases h
      | cons p l =>
        rw [hl] at h
        exact h
  · rw [hs1]
    exact h

/-- While the oldest table is overdue and cannot be written, a flush writes nothing. -/
theorem flush_blocked {env : Env σ β} {w : Writer σ β} {log : Log σ β} {now : Nat} {outs : List Outcome} {u : Url} {ti : Nat}
    (h : HeadAt u ti w) (hl : ti + env.maxLag ≤ now) :
    flush env w log now (.fail false :: outs) = ((squashUrl env w u).1, log, .err) := by
  cases hs : w.syncs with
  | nil => unfold HeadAt at h; rw [hs] at h; cases h
  | cons p rest =>
    obtain ⟨u', c⟩ := p
    unfold HeadAt at h
    rw [hs] at h
    simp only [List.map_cons, List.head?_cons, Option.some.injEq, Prod.mk.injEq] at h
    obtain ⟨rfl, rfl⟩ := h
    have hready : readyByLag env w now = some u' := by
      unfold readyByLag
      rw [hs]
      simp only [List.head?_cons]
      rw [if_pos]
      unfold lag
      split <;> omega
    have hfr : flushReady env w now = (w, .url u') := by
      unfold flushReady
      rw [hready]
    have hfs : flushSyncs env w log u' (.fail false) = ((squashUrl env w u').1, log, false) := by
      unfold flushSyncs
      simp only
      split
      · rfl
      · have hk : u' ∈ (squashUrl env w u').1.syncs.map (·.1) := by
          rw [(squashUrl_fields env w u').2.2.2.2.1, hs]
          simp
        obtain ⟨e, he⟩ := alGet_isSome_of_key hk
        rw [he]
    unfold flush flushLoop
    simp only [hfr, List.headD_cons, hfs, Bool.false_eq_true, if_false]

theorem head_squash {env : Env σ β} {w : Writer σ β} {u : Url} {ti : Nat} (h : HeadAt u ti w) (x : Url) :
    HeadAt u ti (squashUrl env w x).1 := by
  unfold HeadAt
  rw [squashUrl_times]
  exact h

theorem blocked_step {env : Env σ β} {W : World σ β} {u : Url} {ti t : Nat} (h : HeadAt u ti W.w) (hl : ti + env.maxLag ≤ t)
    {op : Op σ β} (hop : FailsFirst t op) :
    HeadAt u ti (step env W op).1.w ∧ (step env W op).1.log = W.log := by
  rcases hop with ⟨now, lock, outs, rfl, hn⟩ | ⟨m, now, lock, outs, rfl, hn⟩
  · simp only [step, flushTick]
    split
    · rw [flush_blocked h (by omega)]
      exact ⟨head_squash h u, rfl⟩
    · exact ⟨h, rfl⟩
  · simp only [step, processSync]
    split
    · exact ⟨h, rfl⟩
    · split
      · exact ⟨h, rfl⟩
      · split
        · exact ⟨h, rfl⟩
        · split
          · exact ⟨h, rfl⟩
          · next w1 he =>
            have h1 := head_enqueue h he
            simp only
            rw [flush_blocked h1 (by omega)]
            exact ⟨head_squash h1 u, rfl⟩

/-- **C133 is violated** if one table cannot be written: once the table that waits longest is overdue, and as long as writing it fails,
no change of any other table is written, however long it has been waiting, although nothing is wrong with the other tables; and every
further request with changes, for whatever table, is answered with an error. -/
theorem C133_violated_blocked (env : Env σ β) (W : World σ β) (u : Url) (c : Coll σ β) (rest : List (Url × Coll σ β))
    (hW : W.w.syncs = (u, c) :: rest) (t : Nat) (hl : c.insertionTime + env.maxLag ≤ t) (ops : List (Op σ β))
    (hops : ∀ op ∈ ops, FailsFirst t op) :
    (run env W ops).log = W.log ∧
    ∀ m now lock outs, t ≤ now → m.nonempty env = true → ∀ mem dur,
      (step env (run env W ops) (.sync m now lock (.fail false :: outs))).2 ≠ .accepted mem dur := by
  have h0 : HeadAt u c.insertionTime W.w := by
    unfold HeadAt
    rw [hW]
    rfl
  have key : ∀ (ops : List (Op σ β)) (W : World σ β), HeadAt u c.insertionTime W.w → (∀ op ∈ ops, FailsFirst t op) →
      HeadAt u c.insertionTime (run env W ops).w ∧ (run env W ops).log = W.log := by
    intro ops
    induction ops with
    | nil => intro W h _; exact ⟨h, rfl⟩
    | cons op ops ih =>
      intro W h ho
      obtain ⟨h1, h2⟩ := blocked_step h hl (ho op (by simp))
      obtain ⟨h3, h4⟩ := ih _ h1 (fun o hm => ho o (by simp [hm]))
      exact ⟨h3, h4.trans h2⟩
  obtain ⟨h1, h2⟩ := key ops W h0 hops
  refine ⟨h2, fun m now lock outs hn hm mem dur hr => ?_⟩
  have hrows : rowsOfBatches env m.batches ≠ 0 := by
    simp only [Msg.nonempty, decide_eq_true_eq] at hm
    omega
  obtain ⟨-, w1, he, -, hok⟩ := step_taken (.inl hrows) (.inr ⟨mem, dur, hr⟩)
  have := hok ⟨mem, dur, hr⟩
  rw [flush_blocked (head_enqueue h1 he) (by omega)] at this
  cases this

/-! ### concrete cases -/

/-- A change for `a` is taken at 5; a flush fails at 16, one for another table succeeds at 20. -/
example : ClockOk 0 ([] ++ Op.sync (Demo.msg "a" "o" (some 1) [3]) 5 true [] ::
      ([Op.tick 16 true [.fail true], .external "a"] ++ [Op.sync (Demo.msg "b" "o" (some 2) [4]) 20 true []])) ∧
    (Demo.msg "a" "o" (some 1) [3]).nonempty Demo.env = true ∧
    (run Demo.env (World.start fun _ => []) ([] ++ [.sync (Demo.msg "a" "o" (some 1) [3]) 5 true []])).acc =
      [] ++ [Demo.msg "a" "o" (some 1) [3]] ∧
    Flushes Demo.env (run Demo.env (World.start fun _ => []) ([] ++ Op.sync (Demo.msg "a" "o" (some 1) [3]) 5 true [] ::
      [Op.tick 16 true [.fail true], .external "a"])) 20 (.sync (Demo.msg "b" "o" (some 2) [4]) 20 true []) ∧
    5 + Demo.env.maxLag ≤ 20 := by
  refine ⟨by simp [ClockOk, Op.now], by decide, rfl, .inr ⟨_, _, _, some 2, some 1, rfl, .inl (by decide), by decide⟩, by decide⟩

/-- Before the lag has passed, the change is not in the table. -/
example : ((run Demo.env (World.start fun _ => []) [.sync (Demo.msg "a" "o" (some 1) [3]) 5 true [], .tick 14 true []]).log "a").length =
    0 := by decide

/-- `a` cannot be written; `b` waits for ever and its changes are refused. -/
example : (run Demo.env (World.start fun _ => [])
      [.sync (Demo.msg "a" "o" (some 1) [3]) 5 true [], .sync (Demo.msg "b" "o" (some 2) [4]) 6 true []]).w.syncs.map (·.1) = ["a", "b"] ∧
    (step Demo.env (run Demo.env (World.start fun _ => [])
      [.sync (Demo.msg "a" "o" (some 1) [3]) 5 true [], .sync (Demo.msg "b" "o" (some 2) [4]) 6 true []])
      (.sync (Demo.msg "b" "o" (some 3) [1]) 40 true [.fail false])).2 = .flushFailed := by decide

end Seafowl.Sync
