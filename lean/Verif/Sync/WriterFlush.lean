import Verif.Sync.WriterInfo

/-! # The flush loop: termination, post-condition, one commit per table -/

namespace Seafowl.Sync

variable {σ β : Type}

theorem largest_mem {l : List (Url × Coll σ β)} {p : Url × Coll σ β} (h : largest l = some p) :
    p ∈ l := by
  induction l generalizing p with
  | nil => simp [largest] at h
  | cons q rest ih =>
    simp only [largest] at h
    split at h
    · injection h with h; subst h; simp
    · next q' hq =>
      split at h <;> (injection h with h; subst h)
      · simp
      · exact List.mem_cons_of_mem _ (ih hq)

theorem largest_none {l : List (Url × Coll σ β)} (h : largest l = none) : l = [] := by
  cases l with
  | nil => rfl
  | cons q rest =>
    simp only [largest] at h
    split at h
    · cases h
    · split at h <;> cases h

theorem squashUrl_keys (env : Env σ β) (w : Writer σ β) (u : Url) :
    (squashUrl env w u).1.syncs.map (·.1) = w.syncs.map (·.1) := (squashUrl_fields env w u).2.2.2.2.1

/-- What `flush_ready` guarantees. -/
theorem flushReady_spec (env : Env σ β) (w : Writer σ β) (now : Nat) :
    ((flushReady env w now).1.syncs.map (·.1) = w.syncs.map (·.1)) ∧
    (∀ u, (flushReady env w now).2 = .url u → u ∈ w.syncs.map (·.1)) ∧
    ((flushReady env w now).2 = .nothing →
      readyByLag env w now = none ∧
      (∃ u, (flushReady env w now).1 = w ∨ (flushReady env w now).1 = (squashUrl env w u).1) ∧
      readyByCount env (flushReady env w now).1 = none ∧
      ((flushReady env w now).1.size < env.maxBytes ∨ w.syncs = [])) := by
  have hcount : ∀ w' : Writer σ β, ∀ u, readyByCount env w' = some u → u ∈ w'.syncs.map (·.1) := by
    intro w' u hu
    simp only [readyByCount, Option.map_eq_some_iff] at hu
    obtain ⟨p, hp, rfl⟩ := hu
    exact List.mem_map_of_mem (List.mem_of_find?_eq_some hp)
  simp only [flushReady]
  split
  · next u hu =>
    refine ⟨rfl, ?_, by simp⟩
    intro u' hu'
    simp only [Ready.url.injEq] at hu'
    subst hu'
    simp only [readyByLag] at hu
    split at hu
    · next url c hh =>
      split at hu
      · injection hu with hu; subst hu
        have := List.mem_of_head? hh
        exact List.mem_map.2 ⟨_, this, rfl⟩
      · cases hu
    · cases hu
  · next hlag =>
    split
    · split
      · next hl =>
        have hnil := largest_none hl
        split
        · next u hu =>
          exact ⟨rfl, by intro u' h'; simp only [Ready.url.injEq] at h'; subst h'; exact hcount _ _ hu, by simp⟩
        · next hu =>
          exact ⟨rfl, by simp, fun _ => ⟨hlag, ⟨"", Or.inl rfl⟩, hu, Or.inr hnil⟩⟩
      · next u c hl =>
        have hmem := List.mem_map_of_mem (f := (·.1)) (largest_mem hl)
        split
        · exact ⟨squashUrl_keys env w u, by simp, by simp⟩
        · split
          · refine ⟨squashUrl_keys env w u, ?_, by simp⟩
            intro u' h'; simp only [Ready.url.injEq] at h'; subst h'; exact hmem
          · next hsz =>
            split
            · next u' hu =>
              refine ⟨squashUrl_keys env w u, ?_, by simp⟩
              intro u'' h'; simp only [Ready.url.injEq] at h'; subst h'
              have := hcount _ _ hu
              rwa [squashUrl_keys] at this
            · next hu =>
              exact ⟨squashUrl_keys env w u, by simp,
                fun _ => ⟨hlag, ⟨u, Or.inr rfl⟩, hu, Or.inl (by simp only; omega)⟩⟩
    · next hsz =>
      split
      · next u hu =>
        exact ⟨rfl, by intro u' h'; simp only [Ready.url.injEq] at h'; subst h'; exact hcount _ _ hu, by simp⟩
      · next hu =>
        exact ⟨rfl, by simp, fun _ => ⟨hlag, ⟨"", Or.inl rfl⟩, hu, Or.inl (by simp only; omega)⟩⟩

theorem alGet_isSome_of_key {κ α : Type} [DecidableEq κ] {k : κ} {l : List (κ × α)}
    (h : k ∈ l.map (·.1)) : ∃ a, alGet k l = some a := by
  cases hg : alGet k l with
  | none => exact absurd h (alGet_none_iff.1 hg)
  | some a => exact ⟨a, rfl⟩

theorem removeSync_length (w : Writer σ β) (u : Url) {c : Coll σ β} (h : alGet u w.syncs = some c) :
    (removeSync w u).syncs.length + 1 = w.syncs.length := by
  simp only [removeSync, h]
  exact alErase_length u w.syncs c h

theorem removeSync_syncs (w : Writer σ β) (u : Url) {c : Coll σ β} (h : alGet u w.syncs = some c) :
    (removeSync w u).syncs = alErase u w.syncs := by
  simp only [removeSync, h]

/-- The effect of one `flush_syncs` on the keys and the logs. -/
theorem flushSyncs_effect (env : Env σ β) (w : Writer σ β) (log : Log σ β) (u : Url) (out : Outcome)
    (hu : u ∈ w.syncs.map (·.1)) :
    (∀ u', u' ≠ u → (flushSyncs env w log u out).2.1 u' = log u') ∧
    (∃ extra, (flushSyncs env w log u out).2.1 u = log u ++ extra ∧
      (extra.filter (fun c => !c.items.isEmpty)).length ≤ 1) ∧
    ((flushSyncs env w log u out).2.2 = true →
      (flushSyncs env w log u out).1.syncs.length + 1 = w.syncs.length ∧
      ((w.syncs.map (·.1)).Nodup → ((flushSyncs env w log u out).1.syncs.map (·.1)).Nodup ∧
        u ∉ (flushSyncs env w log u out).1.syncs.map (·.1)) ∧
      ∀ u', u' ∈ (flushSyncs env w log u out).1.syncs.map (·.1) → u' ∈ w.syncs.map (·.1)) := by
  have hkeys := squashUrl_keys env w u
  have hlen : (squashUrl env w u).1.syncs.length = w.syncs.length := by
    have := congrArg List.length hkeys
    simpa using this
  obtain ⟨entry, hentry⟩ := alGet_isSome_of_key (hkeys ▸ hu)
  have hrm : ∀ w' : Writer σ β, w'.syncs = (removeSync (squashUrl env w u).1 u).syncs →
      w'.syncs.length + 1 = w.syncs.length ∧
      ((w.syncs.map (·.1)).Nodup → (w'.syncs.map (·.1)).Nodup ∧ u ∉ w'.syncs.map (·.1)) ∧
      ∀ u', u' ∈ w'.syncs.map (·.1) → u' ∈ w.syncs.map (·.1) := by
    intro w' h'
    have hs := alErase_keys_sublist u (squashUrl env w u).1.syncs
    rw [hkeys] at hs
    rw [h']
    refine ⟨?_, ?_, ?_⟩
    · rw [removeSync_length _ _ hentry, hlen]
    · intro hn
      rw [removeSync_syncs _ _ hentry]
      refine ⟨hn.sublist hs, ?_⟩
      have hn' : ((squashUrl env w u).1.syncs.map (·.1)).Nodup := by rw [hkeys]; exact hn
      rw [← alGet_none_iff, alGet_alErase _ _ _ hn']
      simp
    · intro u' hu'
      rw [removeSync_syncs _ _ hentry] at hu'
      exact hs.subset hu'
  have hens : (∀ u', u' ≠ u → ensureTable log u u' = log u') ∧
      ∃ extra, ensureTable log u u = log u ++ extra ∧
        (extra.filter (fun c => !c.items.isEmpty)).length = 0 := by
    refine ⟨fun u' h' => by simp [ensureTable, h'], ?_⟩
    refine ⟨_, ensureTable_extends log u u, ?_⟩
    simp only
    split <;> simp
  obtain ⟨he1, ex, he2, he3⟩ := hens
  have happ : ∀ c : Commit σ β, (∀ u', u' ≠ u → appendCommit (ensureTable log u) u c u' = log u') ∧
      ∃ extra, appendCommit (ensureTable log u) u c u = log u ++ extra ∧
        (extra.filter (fun c => !c.items.isEmpty)).length ≤ 1 := by
    intro c
    refine ⟨fun u' h' => by simp [appendCommit, h', he1 u' h'], ex ++ [c], ?_, ?_⟩
    · simp [appendCommit, he2]
    · simp only [List.filter_append, List.length_append, he3, Nat.zero_add]
      exact Nat.le_trans (List.length_filter_le _ _) (by simp)
  simp only [flushSyncs]
  split
  · exact ⟨fun _ _ => rfl, ⟨[], by simp⟩, by simp⟩
  · rw [hentry]
    simp only
    split
    · exact ⟨fun _ _ => rfl, ⟨[], by simp⟩, by simp⟩
    · exact ⟨he1, ⟨ex, he2, by omega⟩, by simp⟩
    · split
      · exact ⟨he1, ⟨ex, he2, by omega⟩, by simp⟩
      · next info _ =>
        split
        · exact ⟨he1, ⟨ex, he2, by omega⟩, fun _ => hrm _ rfl⟩
        · split
          · exact ⟨(happ _).1, (happ _).2, by simp⟩
          · exact ⟨(happ _).1, (happ _).2, fun _ => hrm _ (finishFlush_syncs _ _ _).1⟩

/-- The loop never runs out of fuel. -/
theorem flushLoop_fuel (env : Env σ β) (now : Nat) : ∀ (fuel : Nat) (outs : List Outcome)
    (w : Writer σ β) (log : Log σ β), w.syncs.length < fuel →
    (flushLoop env now fuel outs w log).2.2 ≠ .outOfFuel := by
  intro fuel
  induction fuel with
  | zero => intro outs w log h; omega
  | succ n ih =>
    intro outs w log h
    obtain ⟨h1, h2, _⟩ := flushReady_spec env w now
    simp only [flushLoop]
    split
    · simp
    · simp
    · next u hu =>
      have hmem : u ∈ (flushReady env w now).1.syncs.map (·.1) := by rw [h1]; exact h2 u hu
      have heff := flushSyncs_effect env (flushReady env w now).1 log u (outs.headD .ok) hmem
      split
      · next hok =>
        apply ih
        have e1 := (heff.2.2 hok).1
        have e2 : (flushReady env w now).1.syncs.length = w.syncs.length := by
          have := congrArg List.length h1
          simpa using this
        omega
      · simp

/-- What holds when the loop ends successfully. -/
theorem flushLoop_post (env : Env σ β) (now : Nat) : ∀ (fuel : Nat) (outs : List Outcome)
    (w : Writer σ β) (log : Log σ β), (flushLoop env now fuel outs w log).2.2 = .ok →
    ∃ w0 : Writer σ β, (flushReady env w0 now).2 = .nothing ∧
      (flushLoop env now fuel outs w log).1 = (flushReady env w0 now).1 := by
  intro fuel
  induction fuel with
  | zero => intro outs w log h; simp [flushLoop] at h
  | succ n ih =>
    intro outs w log h
    simp only [flushLoop] at h ⊢
    split
    · next he => rw [he] at h; simp at h
    · next he => exact ⟨w, he, rfl⟩
    · next u hu =>
      rw [hu] at h
      simp only at h
      split
      · next hok => rw [if_pos hok] at h; exact ih _ _ _ h
      · next hok => rw [if_neg hok] at h; simp at h

theorem squashUrl_times (env : Env σ β) (w : Writer σ β) (url : Url) :
    (squashUrl env w url).1.syncs.map (fun p => (p.1, p.2.insertionTime)) =
      w.syncs.map (fun p => (p.1, p.2.insertionTime)) := by
  simp only [squashUrl]
  split
  · rfl
  · next c hc =>
    generalize (squashLoop env c.syncs w.size c.size c.rows) = r
    simp only
    generalize w.syncs = l
    induction l with
    | nil => rfl
    | cons p rest ih =>
      simp only [alModify]
      split
      · rfl
      · simp [ih]

/-- Each table is committed to at most once by one run of the loop. -/
theorem flushLoop_once (env : Env σ β) (now : Nat) : ∀ (fuel : Nat) (outs : List Outcome)
    (w : Writer σ β) (log : Log σ β), (w.syncs.map (·.1)).Nodup →
    ∀ u, (u ∉ w.syncs.map (·.1) → (flushLoop env now fuel outs w log).2.1 u = log u) ∧
      ∃ extra, (flushLoop env now fuel outs w log).2.1 u = log u ++ extra ∧
        (extra.filter (fun c => !c.items.isEmpty)).length ≤ 1 := by
  intro fuel
  induction fuel with
  | zero => intro outs w log _ u; exact ⟨fun _ => rfl, [], by simp [flushLoop]⟩
  | succ n ih =>
    intro outs w log hn u
    obtain ⟨h1, h2, _⟩ := flushReady_spec env w now
    simp only [flushLoop]
    split
    · exact ⟨fun _ => rfl, [], by simp⟩
    · exact ⟨fun _ => rfl, [], by simp⟩
    · next x hx =>
      have hmem : x ∈ (flushReady env w now).1.syncs.map (·.1) := by rw [h1]; exact h2 x hx
      obtain ⟨e1, ⟨extra, e2, e3⟩, e4⟩ :=
        flushSyncs_effect env (flushReady env w now).1 log x (outs.headD .ok) hmem
      split
      · next hok =>
        obtain ⟨f1, f2, f3⟩ := e4 hok
        obtain ⟨f4, f5⟩ := f2 (by rw [h1]; exact hn)
        obtain ⟨g1, g2⟩ := ih outs.tail _ (flushSyncs env (flushReady env w now).1 log x
          (outs.headD .ok)).2.1 f4 u
        by_cases hux : u = x
        · subst hux
          refine ⟨fun h => absurd (h1 ▸ hmem) h, extra, ?_, e3⟩
          rw [g1 f5, e2]
        · rw [e1 u hux] at g1 g2
          refine ⟨fun h => g1 (fun h' => h ?_), g2⟩
          have := f3 u h'
          rwa [h1] at this
      · by_cases hux : u = x
        · subst hux
          exact ⟨fun h => absurd (h1 ▸ hmem) h, extra, e2, e3⟩
        · exact ⟨fun _ => e1 u hux, [], by rw [e1 u hux]; simp, by simp⟩

/-! ### insertion times are ordered while the clock does not go back -/

/-- Entries are in order of insertion and none is younger than `t`. -/
def Timed (t : Nat) (w : Writer σ β) : Prop :=
  (w.syncs.map (fun p => (p.1, p.2.insertionTime))).Pairwise (fun a b => a.2 ≤ b.2) ∧
  ∀ a ∈ w.syncs.map (fun p => (p.1, p.2.insertionTime)), a.2 ≤ t

theorem Timed.mono {t t' : Nat} {w : Writer σ β} (h : Timed t w) (ht : t ≤ t') : Timed t' w :=
  ⟨h.1, fun a ha => Nat.le_trans (h.2 a ha) ht⟩

theorem removeSync_times (w : Writer σ β) (u : Url) :
    ((removeSync w u).syncs.map (fun p => (p.1, p.2.insertionTime))).Sublist
      (w.syncs.map (fun p => (p.1, p.2.insertionTime))) := by
  simp only [removeSync]
  split
  · exact List.Sublist.refl _
  · exact (alErase_sublist u w.syncs).map _

theorem Timed.sub {t : Nat} {w w' : Writer σ β} (h : Timed t w)
    (hs : (w'.syncs.map (fun p => (p.1, p.2.insertionTime))).Sublist
      (w.syncs.map (fun p => (p.1, p.2.insertionTime)))) : Timed t w' :=
  ⟨h.1.sublist hs, fun a ha => h.2 a (hs.subset ha)⟩

theorem timed_closed (env : Env σ β) (t : Nat) :
    FlushClosed env (fun _ => True) (fun w _ _ => Timed t w) where
  okQ := trivial
  sq := by
    intro w log acc u h
    exact h.sub (by rw [squashUrl_times]; exact List.Sublist.refl _)
  create := fun _ _ _ _ h => h
  lost := fun _ _ _ _ _ _ _ h _ _ _ _ _ => h
  fin := by
    intro w log acc u entry info h _ _ _ _ _
    apply h.sub
    rw [(finishFlush_syncs w u entry.syncs).1]
    exact removeSync_times w u
  empty := by
    intro w log acc u entry h _ _
    exact h.sub (removeSync_times w u)

theorem alModify_times (u : Url) (f : Coll σ β → Coll σ β)
    (hf : ∀ c, (f c).insertionTime = c.insertionTime) (l : List (Url × Coll σ β)) :
    (alModify u f l).map (fun p => (p.1, p.2.insertionTime)) =
      l.map (fun p => (p.1, p.2.insertionTime)) := by
  induction l with
  | nil => rfl
  | cons p rest ih =>
    simp only [alModify]
    split
    · simp [hf]
    · simp [ih]

theorem Timed.enqueue {env : Env σ β} {w w' : Writer σ β} {now t : Nat} {m : Msg σ β} {mid : Nat}
    (h : Timed t w) (ht : t ≤ now) (he : Sync.enqueue env w now m mid = .ok w') : Timed now w' := by
  obtain ⟨w1, tx, ha, _, _, _, _, hsy, _⟩ := enqueue_ok he
  obtain ⟨⟨hs1, _, _, _⟩, _⟩ := assignTx_ok ha
  have h' := h.mono ht
  simp only [Timed] at h' ⊢
  rw [hsy]
  split
  · simp only [buffer, hs1]
    split
    · rw [alModify_times]
      · exact h'
      · intro c; rfl
    · simp only [List.map_append, List.map_cons, List.map_nil]
      refine ⟨List.pairwise_append.2 ⟨h'.1, by simp, ?_⟩, ?_⟩
      · intro a ha b hb
        simp only [List.mem_singleton] at hb
        subst hb
        exact h'.2 a ha
      · intro a ha
        rcases List.mem_append.1 ha with ha | ha
        · exact h'.2 a ha
        · simp only [List.mem_singleton] at ha
          subst ha; exact Nat.le_refl _
  · rw [hs1]; exact h'

/-- The clock reading of an event, if it has one. -/
def Op.now : Op σ β → Option Nat
  | .sync _ now _ _ => some now
  | .tick now _ _ => some now
  | .external _ => none

/-- The clock does not go back, starting from `t`. -/
def ClockOk : Nat → List (Op σ β) → Prop
  | _, [] => True
  | t, op :: ops =>
    match op.now with
    | some n => t ≤ n ∧ ClockOk n ops
    | none => ClockOk t ops

/-- The last clock reading. -/
def clockEnd : Nat → List (Op σ β) → Nat
  | t, [] => t
  | t, op :: ops => clockEnd (op.now.getD t) ops

theorem timed_step {env : Env σ β} {W : World σ β} {t : Nat} (h : Timed t W.w) (op : Op σ β)
    (hc : ∀ n, op.now = some n → t ≤ n) : Timed (op.now.getD t) (step env W op).1.w := by
  cases op with
  | sync m now lock outs =>
    have ht : t ≤ now := hc now rfl
    simp only [Op.now, Option.getD_some, step, processSync]
    split
    · exact h.mono ht
    · split
      · exact h.mono ht
      · split
        · exact h.mono ht
        · split
          · exact h.mono ht
          · next w1 he =>
            exact (timed_closed env now).flush (acc := W.acc) (log := W.log) (h.enqueue ht he)
              now outs (fun _ _ => trivial)
  | tick now lock outs =>
    have ht : t ≤ now := hc now rfl
    simp only [Op.now, Option.getD_some, step, flushTick]
    split
    · exact (timed_closed env now).flush (acc := W.acc) (log := W.log) (h.mono ht)
        now outs (fun _ _ => trivial)
    · exact h.mono ht
  | external u => exact h

theorem timed_run {env : Env σ β} : ∀ (ops : List (Op σ β)) (W : World σ β) (t : Nat), Timed t W.w →
    ClockOk t ops → Timed (clockEnd t ops) (run env W ops).w := by
  intro ops
  induction ops with
  | nil => intro W t h _; exact h
  | cons op ops ih =>
    intro W t h hc
    simp only [run, clockEnd]
    simp only [ClockOk] at hc
    apply ih
    · apply timed_step h
      intro n hn
      rw [hn] at hc
      exact hc.1
    · cases hn : op.now with
      | none => rw [hn] at hc; exact hc
      | some n => rw [hn] at hc; exact hc.2

/-! ### draining -/

theorem advanceDurable_drain : ∀ (txs : List (TxId × Tx)) (dur : Origin → Option Seq),
    (∀ id tx, (id, tx) ∈ txs → tx.sequence ≠ none ∧ tx.locations = []) →
    (advanceDurable txs dur).1 = [] := by
  intro txs
  induction txs with
  | nil => intro dur _; rfl
  | cons p rest ih =>
    intro dur h
    obtain ⟨id, tx⟩ := p
    obtain ⟨h1, h2⟩ := h id tx (by simp)
    simp only [advanceDurable]
    split
    · simp only [h2, List.isEmpty_nil, if_true]
      exact ih _ (fun id' tx' hm => h id' tx' (by simp [hm]))
    · next hs => exact absurd hs h1

theorem advanceDurable_sub : ∀ (txs : List (TxId × Tx)) (dur : Origin → Option Seq),
    ∀ p ∈ (advanceDurable txs dur).1, p ∈ txs := by
  intro txs
  induction txs with
  | nil => intro dur p hp; simp [advanceDurable] at hp
  | cons q rest ih =>
    intro dur p hp
    obtain ⟨id, tx⟩ := q
    simp only [advanceDurable] at hp
    split at hp
    · split at hp
      · exact List.mem_cons_of_mem _ (ih _ p hp)
      · exact hp
    · exact hp

/-- `advanceDurable` stops at a transaction that is open or still has locations. -/
theorem advanceDurable_head : ∀ (txs : List (TxId × Tx)) (dur : Origin → Option Seq) (id : TxId)
    (tx : Tx) (rest : List (TxId × Tx)), (advanceDurable txs dur).1 = (id, tx) :: rest →
    tx.sequence = none ∨ tx.locations ≠ [] := by
  intro txs
  induction txs with
  | nil => intro dur id tx rest h; simp [advanceDurable] at h
  | cons q tl ih =>
    intro dur id tx rest h
    obtain ⟨id', tx'⟩ := q
    simp only [advanceDurable] at h
    split at h
    · split at h
      · exact ih _ _ _ _ h
      · next hl =>
        injection h with h1 h2
        injection h1 with h3 h4
        subst h4
        right
        simpa using hl
    · next hs =>
      injection h with h1 h2
      injection h1 with h3 h4
      subst h4
      exact Or.inl hs

/-- When all transactions are closed and nothing is buffered after a completed table flush, every
memory sequence number is durable. -/
theorem Inv.drained {env : Env σ β} {log0 log log' : Log σ β} {w : Writer σ β}
    {acc : List (Msg σ β)} {u : Url} {entry : Coll σ β}
    (hi : Inv env log0 (finishFlush w u entry.syncs) log' acc) (ho : isOpen acc = false)
    (he : (finishFlush w u entry.syncs).syncs = []) (_h : Inv env log0 w log acc) (o : Origin) :
    (finishFlush w u entry.syncs).originDurable o = (finishFlush w u entry.syncs).originMemory o := by
  have hnil : (finishFlush w u entry.syncs).txs = [] := by
    cases htx : (finishFlush w u entry.syncs).txs with
    | nil => rfl
    | cons p rest =>
      exfalso
      obtain ⟨id, tx⟩ := p
      have h1 := advanceDurable_head _ _ id tx rest (by rw [← htx]; rfl)
      rcases h1 with h1 | h1
      · have h2 := hi.seqs id tx (by simp [htx])
        rw [h1] at h2
        have h3 : (closings acc).length ≤ id := by
          cases hc : (closings acc)[id]? with
          | none => exact List.getElem?_eq_none_iff.1 hc
          | some p => rw [hc] at h2; simp at h2
        have h4 := hi.count
        rw [txCount, ho, ← closings_length] at h4
        have h5 := hi.ids
        have h6 : id ∈ (finishFlush w u entry.syncs).txs.map (·.1) := by simp [htx]
        rw [h5, List.mem_range'_1] at h6
        have := hi.lenle
        simp at h4
        omega
      · obtain ⟨u', hu'⟩ := List.exists_mem_of_ne_nil _ h1
        obtain ⟨j, hj, _⟩ := hi.locs' id tx u' (by simp [htx]) hu'
        simp [pending, he, alGet] at hj
  rw [hi.dur o, hi.mem o]
  have h4 := hi.count
  rw [txCount, ho, ← closings_length] at h4
  simp only [hnil, List.length_nil, Nat.sub_zero, h4]
  simp

theorem drained_closed (env : Env σ β) (log0 : Log σ β) (acc0 : List (Msg σ β))
    (ho : isOpen acc0 = false) :
    FlushClosed env (fun _ => True) (fun w log acc => acc = acc0 ∧ Full env log0 w log acc ∧
      (w.syncs = [] → ∀ o, w.originDurable o = w.originMemory o)) where
  okQ := trivial
  sq := by
    rintro w log acc u ⟨rfl, h, hd⟩
    refine ⟨rfl, (full_closed env log0).sq _ _ _ u h, ?_⟩
    intro hnil o
    obtain ⟨_, _, e1, e2, e3, _⟩ := squashUrl_fields env w u
    rw [e1, e2]
    apply hd
    rw [hnil] at e3
    simpa using e3.symm
  create := by
    rintro w log acc u ⟨rfl, h, hd⟩
    exact ⟨rfl, (full_closed env log0).create _ _ _ u h, hd⟩
  lost := by
    rintro w log acc u entry info _ ⟨rfl, h, hd⟩ h1 h2 h3 h4 h5
    exact ⟨rfl, (full_closed env log0).lost _ _ _ u entry info trivial h h1 h2 h3 h4 h5, hd⟩
  fin := by
    rintro w log acc u entry info ⟨rfl, h, hd⟩ h1 h2 h3 h4 h5
    have hf := (full_closed env log0).fin _ _ _ u entry info h h1 h2 h3 h4 h5
    exact ⟨rfl, hf, fun he o => hf.inv.drained ho he h.inv o⟩
  empty := by
    rintro w log acc u entry ⟨rfl, h, hd⟩ h1 h2
    have hsk : skelAt w u = some (entry.syncs.map (fun it => (it.txIds, it.msgs))) := by
      simp [skelAt, h1]
    have := (h.inv.items u _ hsk).1
    rw [h2] at this
    exact absurd rfl this

end Seafowl.Sync
