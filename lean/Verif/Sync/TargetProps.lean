import Verif.Sync.Target
import Verif.Sync.WriterProps
import Verif.Misc.StoreFactoryProps

/-!
# C107: a sync request changes the table it names

The handle of the buffered entry decides which table a flush writes to.  The entry is found by a URL
in which the options of the store play no part.
-/
namespace Seafowl.Sync

variable {σ β τ : Type}

/-! ### specification -/

/-- The `j`-th accepted message is for the table at URL `u` and came with the handle `t`. -/
def Asked (S : TWorld σ β τ) (u : Url) (j : Nat) (t : τ) : Prop :=
  ∃ m, S.W.acc[j]? = some m ∧ m.url = u ∧ S.tgts[j]? = some t

/-! ### a flush writes only to the tables with buffered changes -/

/-- Between the state `w1`, `log1` and `w`, `log` no entry has come up, and logs without an entry have
been given no data. -/
def Since (w1 : Writer σ β) (log1 : Log σ β) (w : Writer σ β) (log : Log σ β)
    (_ : List (Msg σ β)) : Prop :=
  (∀ u ∈ w.syncs.map (·.1), u ∈ w1.syncs.map (·.1)) ∧
  ∃ extra, Extends log1 log extra ∧
    ∀ u, u ∉ w1.syncs.map (·.1) → ∀ c ∈ extra u, c.items = []

theorem since_append {w1 w : Writer σ β} {log1 log : Log σ β} {acc : List (Msg σ β)} {u : Url}
    {c : Commit σ β} (h : Since w1 log1 w log acc) (hu : c.items = [] ∨ u ∈ w.syncs.map (·.1)) :
    Since w1 log1 w (appendCommit log u c) acc := by
  obtain ⟨hk, extra, he, hx⟩ := h
  refine ⟨hk, fun v => if v = u then extra v ++ [c] else extra v, ?_, ?_⟩
  · intro v
    simp only [appendCommit]
    split <;> simp [he v]
  · intro v hv c' hc'
    simp only at hc'
    split at hc'
    · next hvu =>
      rcases List.mem_append.1 hc' with h1 | h1
      · exact hx v hv c' h1
      · rw [List.mem_singleton] at h1
        subst h1
        rcases hu with h2 | h2
        · exact h2
        · exact absurd (hk u h2) (hvu ▸ hv)
    · exact hx v hv c' hc'

theorem since_create {w1 w : Writer σ β} {log1 log : Log σ β} {acc : List (Msg σ β)} (u : Url)
    (h : Since w1 log1 w log acc) : Since w1 log1 w (ensureTable log u) acc := by
  by_cases hl : log u = []
  · have : ensureTable log u = appendCommit log u { items := [], info := none } := by
      funext v
      simp only [ensureTable, appendCommit]
      by_cases hv : v = u
      · subst hv; simp [hl]
      · simp [hv]
    rw [this]
    exact since_append h (Or.inl rfl)
  · have : ensureTable log u = log := by
      funext v
      simp only [ensureTable]
      by_cases hv : v = u
      · subst hv; simp [hl]
      · simp [hv]
    rw [this]
    exact h

theorem removeSync_keys_sub (w : Writer σ β) (u : Url) :
    ∀ v ∈ (removeSync w u).syncs.map (·.1), v ∈ w.syncs.map (·.1) := by
  intro v hv
  simp only [removeSync] at hv
  split at hv
  · exact hv
  · exact (alErase_keys_sublist u w.syncs).subset hv

theorem since_closed (env : Env σ β) (w1 : Writer σ β) (log1 : Log σ β) :
    FlushClosed env (fun _ => True) (Since w1 log1) where
  okQ := trivial
  sq := by
    intro w log acc u h
    exact ⟨by rw [squashUrl_keys]; exact h.1, h.2⟩
  create := fun w log acc u h => since_create u h
  lost := by
    intro w log acc u entry info _ h _ hg _ _ _
    exact since_append h (Or.inr (List.mem_map.2 ⟨_, alGet_mem hg, rfl⟩))
  fin := by
    intro w log acc u entry info h _ hg _ _ _
    have h1 := since_append (c := { items := entry.syncs, info := info }) h
      (Or.inr (List.mem_map.2 ⟨_, alGet_mem hg, rfl⟩) : _ ∨ u ∈ w.syncs.map (·.1))
    refine ⟨?_, h1.2⟩
    intro v hv
    rw [(finishFlush_syncs w u entry.syncs).1] at hv
    exact h1.1 v (removeSync_keys_sub w u v hv)
  empty := by
    intro w log acc u entry h _ _
    exact ⟨fun v hv => h.1 v (removeSync_keys_sub w u v hv), h.2⟩

theorem flush_since (env : Env σ β) (w : Writer σ β) (log : Log σ β) (now : Nat)
    (outs : List Outcome) :
    Since w log (flush env w log now outs).1 (flush env w log now outs).2.1 [] := by
  refine (since_closed env w log).flush (acc := []) ?_ now outs (fun _ _ => trivial)
  exact ⟨fun _ h => h, fun _ => [], fun u => by simp, fun _ _ c hc => by simp at hc⟩

/-- The entries after a message has been buffered. -/
theorem enqueue_keys {env : Env σ β} {w w' : Writer σ β} {now : Nat} {m : Msg σ β} {mid : Nat}
    (h : enqueue env w now m mid = .ok w') (u : Url) :
    u ∈ w'.syncs.map (·.1) ↔
      u ∈ w.syncs.map (·.1) ∨ (u = m.url ∧ 0 < rowsOfBatches env m.batches) := by
  obtain ⟨w1, t, ha, _, _, _, _, hs, _⟩ := enqueue_ok h
  have hs1 := (assignTx_ok ha).1.1
  rw [hs]
  by_cases hn : m.nonempty env = true
  · rw [if_pos hn]
    have hn' : 0 < rowsOfBatches env m.batches := by simpa [Msg.nonempty] using hn
    have hb := alGet_buffer env w1 now m.url u t m.schema m.batches mid
    have key : ∀ l : List (Url × Coll σ β), u ∈ l.map (·.1) ↔ alGet u l ≠ none := by
      intro l
      rw [Ne, alGet_none_iff]
      exact (Classical.not_not).symm
    rw [key, key, hb, hs1]
    by_cases hu : u = m.url
    · simp [hu, hn']
    · simp [hu]
  · rw [if_neg hn, hs1]
    have hn' : ¬ 0 < rowsOfBatches env m.batches := by simpa [Msg.nonempty] using hn
    simp [hn']

/-! ### the invariant -/

structure TInv (log0 : Log σ β) (S : TWorld σ β τ) : Prop where
  len : S.tgts.length = S.W.acc.length
  ent : ∀ u ∈ S.W.w.syncs.map (·.1), ∃ i t, Asked S u i t ∧ S.entry u = some t
  out : ∀ u p, p ∈ S.out u → p.2.items ≠ [] → ∃ i t, Asked S u i t ∧ p.1 = some t
  pre : ∀ u, log0 u <+: S.W.log u
  cover : ∀ u, commitMsgs ((S.out u).map (·.2)) = committed log0 S.W.log u

theorem commitMsgs_append (a b : List (Commit σ β)) :
    commitMsgs (a ++ b) = commitMsgs a ++ commitMsgs b := by
  simp [commitMsgs]

theorem written_map (entry : Url → Option τ) (log log' : Log σ β) (u : Url)
    {extra : Url → List (Commit σ β)} (h : Extends log log' extra) :
    written entry log log' u = (extra u).map (fun c => (entry u, c)) := by
  simp [written, h u]

theorem written_cover {log0 log log' : Log σ β} {extra : Url → List (Commit σ β)} {u : Url}
    {out : List (Option τ × Commit σ β)} (entry : Url → Option τ) (hp : log0 u <+: log u)
    (he : Extends log log' extra) (hc : commitMsgs (out.map (·.2)) = committed log0 log u) :
    commitMsgs ((out ++ written entry log log' u).map (·.2)) = committed log0 log' u := by
  rw [written_map entry log log' u he, committed_extends hp he, List.map_append, commitMsgs_append,
    hc, List.map_map]
  congr 2
  simp [Function.comp_def]

theorem Asked.mono {S S' : TWorld σ β τ} {u : Url} {i : Nat} {t : τ} (h : Asked S u i t)
    {ms : List (Msg σ β)} {ts : List τ} (ha : S'.W.acc = S.W.acc ++ ms) (ht : S'.tgts = S.tgts ++ ts) :
    Asked S' u i t := by
  obtain ⟨m, h1, h2, h3⟩ := h
  refine ⟨m, ?_, h2, ?_⟩
  · rw [ha, List.getElem?_append_left (List.getElem?_eq_some_iff.1 h1).1]; exact h1
  · rw [ht, List.getElem?_append_left (List.getElem?_eq_some_iff.1 h3).1]; exact h3

/-- What an event does to the service, as far as needed here. -/
theorem step_cases (env : Env σ β) (W : World σ β) (op : Op σ β) :
    (∃ m now lock outs, op = .sync m now lock outs ∧
      ((step env W op).1 = W ∨
       ∃ w1, enqueue env W.w now m W.acc.length = .ok w1 ∧
        (step env W op).1 = World.mk (flush env w1 W.log now outs).1
          (flush env w1 W.log now outs).2.1 (W.acc ++ [m]))) ∨
    (∃ now lock outs, op = .tick now lock outs ∧
      ((step env W op).1 = W ∨
        (step env W op).1 = World.mk (flush env W.w W.log now outs).1
          (flush env W.w W.log now outs).2.1 W.acc)) ∨
    (∃ u, op = .external u ∧
      (step env W op).1 = { W with log := appendCommit W.log u { items := [], info := none } }) := by
  cases op with
  | sync m now lock outs =>
    refine Or.inl ⟨m, now, lock, outs, rfl, ?_⟩
    simp only [step, processSync]
    split
    · exact Or.inl rfl
    · split
      · exact Or.inl rfl
      · split
        · exact Or.inl rfl
        · split
          · exact Or.inl rfl
          · next w1 h => exact Or.inr ⟨w1, h, rfl⟩
  | tick now lock outs =>
    refine Or.inr (Or.inl ⟨now, lock, outs, rfl, ?_⟩)
    simp only [step, flushTick]
    split
    · exact Or.inr rfl
    · exact Or.inl rfl
  | external u => exact Or.inr (Or.inr ⟨u, rfl, rfl⟩)

theorem TInv.step {env : Env σ β} {log0 : Log σ β} {S : TWorld σ β τ} (h : TInv log0 S)
    (op : Op σ β) (t : τ) : TInv log0 (stepT env S op t) := by
  rcases step_cases env S.W op with ⟨m, now, lock, outs, rfl, hs⟩ | ⟨now, lock, outs, rfl, hs⟩ |
    ⟨u, rfl, hs⟩
  · rcases hs with hs | ⟨w1, he, hs⟩
    · have : stepT env S (.sync m now lock outs) t = S := by
        simp only [stepT, hs, if_true]
      rw [this]; exact h
    · have hst : stepT env S (.sync m now lock outs) t =
          { W := { w := (flush env w1 S.W.log now outs).1,
                   log := (flush env w1 S.W.log now outs).2.1, acc := S.W.acc ++ [m] },
            entry := entryAfter env S.W.w S.entry m t, tgts := S.tgts ++ [t],
            out := fun u => S.out u ++ written (entryAfter env S.W.w S.entry m t) S.W.log
              (flush env w1 S.W.log now outs).2.1 u } := by
        simp only [stepT, hs]
        rw [if_neg (by simp)]
      obtain ⟨hk, extra, hx, hem⟩ := flush_since env w1 S.W.log now outs
      -- what the entries after buffering stand for
      have hent : ∀ u ∈ w1.syncs.map (·.1), ∃ i t',
          Asked (stepT env S (.sync m now lock outs) t) u i t' ∧
          entryAfter env S.W.w S.entry m t u = some t' := by
        intro u hu
        rw [enqueue_keys he] at hu
        by_cases hold : u ∈ S.W.w.syncs.map (·.1)
        · obtain ⟨i, t', h1, h2⟩ := h.ent u hold
          refine ⟨i, t', h1.mono (ms := [m]) (ts := [t]) (by rw [hst]) (by rw [hst]), ?_⟩
          obtain ⟨c, hc⟩ := alGet_isSome_of_key hold
          simp only [entryAfter, hc, Option.isSome_some, if_true]
          exact h2
        · rcases hu with hu | ⟨hu, hn⟩
          · exact absurd hu hold
          · refine ⟨S.W.acc.length, t, ⟨m, ?_, hu.symm, ?_⟩, ?_⟩
            · rw [hst]; simp
            · rw [hst]; simp [← h.len]
            · have hg := alGet_none_iff.2 hold
              simp only [entryAfter, hg, Option.isSome_none, Bool.false_eq_true, if_false]
              rw [if_pos ⟨hu, hn⟩]
      refine ⟨?_, ?_, ?_, ?_, ?_⟩
      · rw [hst]; simp [h.len]
      · intro u hu
        have hu' : u ∈ w1.syncs.map (·.1) := by
          rw [hst] at hu; exact hk u hu
        obtain ⟨i, t', h1, h2⟩ := hent u hu'
        exact ⟨i, t', h1, by rw [hst]; exact h2⟩
      · intro u p hp hne
        rw [hst] at hp
        rcases List.mem_append.1 hp with hp | hp
        · obtain ⟨i, t', h1, h2⟩ := h.out u p hp hne
          exact ⟨i, t', h1.mono (ms := [m]) (ts := [t]) (by rw [hst]) (by rw [hst]), h2⟩
        · rw [written_map _ _ _ _ hx] at hp
          obtain ⟨c, hc, rfl⟩ := List.mem_map.1 hp
          have hu : u ∈ w1.syncs.map (·.1) := Classical.byContradiction fun hn => hne (hem u hn c hc)
          obtain ⟨i, t', h1, h2⟩ := hent u hu
          exact ⟨i, t', h1, h2⟩
      · intro u
        rw [hst]
        exact (h.pre u).trans ⟨extra u, (hx u).symm⟩
      · intro u
        rw [hst]
        exact written_cover _ (h.pre u) hx (h.cover u)
  · rcases hs with hs | hs
    · have : stepT env S (.tick now lock outs) t = S := by
        simp only [stepT, hs, written, List.drop_length, List.map_nil, List.append_nil]
      rw [this]; exact h
    · have hst : stepT env S (.tick now lock outs) t =
          { W := { w := (flush env S.W.w S.W.log now outs).1,
                   log := (flush env S.W.w S.W.log now outs).2.1, acc := S.W.acc },
            entry := S.entry, tgts := S.tgts,
            out := fun u => S.out u ++ written S.entry S.W.log
              (flush env S.W.w S.W.log now outs).2.1 u } := by
        simp only [stepT, hs]
      obtain ⟨hk, extra, hx, hem⟩ := flush_since env S.W.w S.W.log now outs
      rw [hst]
      refine ⟨h.len, fun u hu => h.ent u (hk u hu), ?_,
        fun u => (h.pre u).trans ⟨extra u, (hx u).symm⟩, fun u => written_cover _ (h.pre u) hx (h.cover u)⟩
      intro u p hp hne
      rcases List.mem_append.1 hp with hp | hp
      · exact h.out u p hp hne
      · rw [written_map _ _ _ _ hx] at hp
        obtain ⟨c, hc, rfl⟩ := List.mem_map.1 hp
        have hu : u ∈ S.W.w.syncs.map (·.1) := Classical.byContradiction fun hn => hne (hem u hn c hc)
        exact h.ent u hu
  · have hst : stepT env S (.external u) t =
        { S with W := { S.W with log := appendCommit S.W.log u { items := [], info := none } } } := by
      simp only [stepT, hs]
    have hx : Extends S.W.log (appendCommit S.W.log u { items := [], info := none })
        (fun v => if v = u then [{ items := [], info := none }] else []) := by
      intro v
      simp only [appendCommit]
      split <;> simp
    rw [hst]
    refine ⟨h.len, h.ent, h.out, fun v => (h.pre v).trans ⟨_, (hx v).symm⟩, fun v => ?_⟩
    show commitMsgs ((S.out v).map (·.2)) = committed log0 _ v
    rw [committed_extends (h.pre v) hx, h.cover v]
    split <;> simp [commitMsgs]

theorem TInv.run {env : Env σ β} {log0 : Log σ β} : ∀ (ops : List (Op σ β × τ)) (S : TWorld σ β τ),
    TInv log0 S → TInv log0 (runT env S ops)
  | [], _, h => h
  | (op, t) :: ops, _, h => TInv.run ops _ (h.step op t)

theorem TInv.start (log0 : Log σ β) : TInv log0 (TWorld.start log0 : TWorld σ β τ) := by
  refine ⟨rfl, ?_, ?_, fun _ => List.prefix_rfl, ?_⟩
  · intro u hu; simp [TWorld.start, World.start, Writer.new] at hu
  · intro u p hp; simp [TWorld.start] at hp
  · intro u; simp [TWorld.start, World.start, committed, newCommits, commitMsgs]

/-- The handles change nothing else. -/
theorem stepT_world (env : Env σ β) (S : TWorld σ β τ) (op : Op σ β) (t : τ) :
    (stepT env S op t).W = (Seafowl.Sync.step env S.W op).1 := by
  cases op with
  | sync m now lock outs =>
    simp only [stepT]
    split <;> rfl
  | tick now lock outs => rfl
  | external u => rfl

theorem runT_world (env : Env σ β) : ∀ (ops : List (Op σ β × τ)) (S : TWorld σ β τ),
    (runT env S ops).W = Seafowl.Sync.run env S.W (ops.map (·.1))
  | [], _ => rfl
  | (op, t) :: ops, S => by
    simp only [runT, List.map_cons, Seafowl.Sync.run]
    rw [runT_world env ops, stepT_world]

/-! ### C107 -/

/-- C107, what the code does: every commit with data that a flush makes for a URL is written to a
table that some accepted request for this URL named, the messages in it are accepted ones for this
URL, and these commits are all the commits with data there are.  (Without a restriction; which of the
requests it is, see `C107_target_partial` and `C107_violated`.) -/
theorem C107_named (env : Env σ β) (log0 : Log σ β) (ops : List (Op σ β × τ)) (S : TWorld σ β τ)
    (hS : S = runT env (TWorld.start log0) ops) (u : Url) :
    (∀ p ∈ S.out u, p.2.items ≠ [] → ∃ i t, Asked S u i t ∧ p.1 = some t) ∧
    (∀ p ∈ S.out u, ∀ it ∈ p.2.items, ∀ j ∈ it.msgs, ∃ t, Asked S u j t) ∧
    commitMsgs ((S.out u).map (·.2)) = committed log0 S.W.log u := by
  subst hS
  have hI : TInv log0 (runT env (TWorld.start log0) ops) := TInv.run ops _ (TInv.start log0)
  refine ⟨hI.out u, ?_, hI.cover u⟩
  intro p hp it hit j hj
  have hW := runT_world env ops (TWorld.start log0 : TWorld σ β τ)
  obtain ⟨_, _, _, hsub⟩ := C04_at_least_once env log0 (ops.map (·.1)) _ rfl u
  have hc : j ∈ committed log0 (runT env (TWorld.start log0) ops).W.log u := by
    rw [← hI.cover u]
    exact List.mem_flatMap.2 ⟨p.2, List.mem_map.2 ⟨p, hp, rfl⟩, List.mem_flatMap.2 ⟨it, hit, hj⟩⟩
  rw [hW] at hc
  have hpos := hsub j hc
  have e : (TWorld.start log0 : TWorld σ β τ).W = World.start log0 := rfl
  rw [← e, ← hW] at hpos
  obtain ⟨hlt, hu, _⟩ := mem_positions.1 hpos
  have hlt' : j < (runT env (TWorld.start log0) ops).tgts.length := by rw [hI.len]; exact hlt
  exact ⟨_, _, List.getElem?_eq_getElem hlt, hu, List.getElem?_eq_getElem hlt'⟩

/-- C107.  If accepted requests with the same URL name the same table, then every change is written to
the table its request named.  Missing: requests with the same URL for different tables, see
`C107_violated`. -/
theorem C107_target_partial (env : Env σ β) (log0 : Log σ β) (ops : List (Op σ β × τ))
    (S : TWorld σ β τ) (hS : S = runT env (TWorld.start log0) ops)
    (hsame : ∀ u i j t t', Asked S u i t → Asked S u j t' → t = t')
    (u : Url) (p : Option τ × Commit σ β) (hp : p ∈ S.out u) (it : Item σ β) (hit : it ∈ p.2.items)
    (j : Nat) (hj : j ∈ it.msgs) : ∃ t, Asked S u j t ∧ p.1 = some t := by
  obtain ⟨h1, h2, _⟩ := C107_named env log0 ops S hS u
  obtain ⟨i, t, ha, ht⟩ := h1 p hp (by intro h0; rw [h0] at hit; simp at hit)
  obtain ⟨t', ha'⟩ := h2 p hp it hit j hj
  have := hsame u i j t t' ha ha'
  subst this
  exact ⟨t, ha', ht⟩

/-- Segments that stand for themselves. -/
def Plain (l : List String) : Prop := ∀ s ∈ l, s ≠ "." ∧ s ≠ ".."

/-- The URL tells tables apart that are in one store (same location, same options). -/
theorem C107_url_partial (base : List String) (p q : Place) (hs : p.store = q.store)
    (hp : Plain p.path) (hq : Plain q.path) (h : p.url base = q.url base) : p = q := by
  obtain ⟨ps, pp⟩ := p
  obtain ⟨qs, qp⟩ := q
  simp only at hs hp hq
  subst hs
  have : pp = qp := by
    cases ps with
    | none => exact List.append_cancel_left h
    | some lo => exact StoreFactory.C70_url_partial lo.1 pp qp hp hq h
  rw [this]

/-- The request of every accepted message is among the events. -/
theorem asked_mem (env : Env σ β) : ∀ (ops : List (Op σ β × τ)) (S : TWorld σ β τ),
    (∀ (j : Nat) m t, S.W.acc[j]? = some m → S.tgts[j]? = some t → False) →
    S.tgts.length = S.W.acc.length →
    ∀ u j t, Asked (runT env S ops) u j t →
      ∃ m now lock outs, (Op.sync m now lock outs, t) ∈ ops ∧ m.url = u := by
  intro ops S h0 hl
  -- generalised: everything in the lists satisfies a property given for the events
  suffices H : ∀ (Pr : Msg σ β → τ → Prop) (ops : List (Op σ β × τ)) (S : TWorld σ β τ),
      (∀ (j : Nat) m t, S.W.acc[j]? = some m → S.tgts[j]? = some t → Pr m t) →
      S.tgts.length = S.W.acc.length →
      (∀ m now lock outs t, (Op.sync m now lock outs, t) ∈ ops → Pr m t) →
      ∀ (j : Nat) m t, (runT env S ops).W.acc[j]? = some m → (runT env S ops).tgts[j]? = some t → Pr m t by
    intro u j t ⟨m, hm, hu, ht⟩
    exact H (fun m t => ∃ m' now lock outs, (Op.sync m' now lock outs, t) ∈ ops ∧ m'.url = m.url)
      ops S (fun j m t a b => (h0 j m t a b).elim) hl
      (fun m now lock outs t hmem => ⟨m, now, lock, outs, hmem, rfl⟩) j m t hm ht
      |>.imp fun m' h => by rw [← hu]; exact h
  intro Pr ops
  induction ops with
  | nil => intro S h _ _; exact h
  | cons o ops ih =>
    intro S h hl hops
    obtain ⟨op, t0⟩ := o
    simp only [runT]
    have hrest : ∀ m now lock outs t, (Op.sync m now lock outs, t) ∈ ops → Pr m t :=
      fun m now lock outs t hm => hops m now lock outs t (List.mem_cons_of_mem _ hm)
    rcases step_cases env S.W op with ⟨m, now, lock, outs, rfl, hs⟩ | ⟨now, lock, outs, rfl, hs⟩ |
      ⟨u, rfl, hs⟩
    · rcases hs with hs | ⟨w1, he, hs⟩
      · have : stepT env S (.sync m now lock outs) t0 = S := by simp only [stepT, hs, if_true]
        rw [this]
        exact ih S h hl hrest
      · have ha : (stepT env S (.sync m now lock outs) t0).W.acc = S.W.acc ++ [m] := by
          rw [stepT_world, hs]
        have ht : (stepT env S (.sync m now lock outs) t0).tgts = S.tgts ++ [t0] := by
          simp only [stepT, hs]
          rw [if_neg (by simp)]
        apply ih _ _ (by rw [ha, ht]; simp [hl]) hrest
        intro j m' t' hm' ht'
        rw [ha] at hm'
        rw [ht] at ht'
        by_cases hj : j < S.W.acc.length
        · rw [List.getElem?_append_left hj] at hm'
          rw [List.getElem?_append_left (by omega)] at ht'
          exact h j m' t' hm' ht'
        · have h1 := (List.getElem?_eq_some_iff.1 hm').1
          simp at h1
          have hj' : j = S.W.acc.length := by omega
          subst hj'
          rw [List.getElem?_concat_length] at hm'
          rw [← hl, List.getElem?_concat_length] at ht'
          cases hm'; cases ht'
          exact hops m now lock outs t0 (by simp)
    · have ha : (stepT env S (.tick now lock outs) t0).W.acc = S.W.acc := by
        rw [stepT_world]
        rcases hs with hs | hs <;> rw [hs]
      apply ih _ _ _ hrest
      · intro j m t; rw [ha]; exact h j m t
      · rw [ha]; exact hl
    · have ha : (stepT env S (.external u) t0).W.acc = S.W.acc := by
        rw [stepT_world, hs]
      apply ih _ _ _ hrest
      · intro j m t; rw [ha]; exact h j m t
      · rw [ha]; exact hl

/-- C107 in terms of requests.  `enc` writes a URL as text, different ones differently.
If all sync requests are for tables in one
store, by paths without `.` and `..`, every change is written to the place its request named. -/
theorem C107_place_partial (env : Env σ β) (log0 : Log σ β) (base : List String)
    (enc : List String → Url) (ops : List (Op σ β × Place))
    (hinj : ∀ o ∈ ops, ∀ o' ∈ ops, enc (o.2.url base) = enc (o'.2.url base) →
      o.2.url base = o'.2.url base)
    (st : Option (List String × List (String × String)))
    (hops : ∀ m now lock outs pl, (Op.sync m now lock outs, pl) ∈ ops →
      m.url = enc (pl.url base) ∧ pl.store = st ∧ Plain pl.path)
    (S : TWorld σ β Place) (hS : S = runT env (TWorld.start log0) ops)
    (u : Url) (p : Option Place × Commit σ β) (hp : p ∈ S.out u) (it : Item σ β)
    (hit : it ∈ p.2.items) (j : Nat) (hj : j ∈ it.msgs) :
    ∃ pl, Asked S u j pl ∧ p.1 = some pl ∧ u = enc (pl.url base) := by
  have hin : ∀ u j t, Asked S u j t →
      (u = enc (t.url base) ∧ t.store = st ∧ Plain t.path) ∧ ∃ op, (op, t) ∈ ops := by
    intro u j t h
    rw [hS] at h
    obtain ⟨m, now, lock, outs, hmem, hu⟩ := asked_mem env ops (TWorld.start log0)
      (by intro j m t hm; simp [TWorld.start, World.start] at hm) rfl u j t h
    obtain ⟨h1, h2, h3⟩ := hops m now lock outs t hmem
    exact ⟨⟨by rw [← hu]; exact h1, h2, h3⟩, _, hmem⟩
  obtain ⟨pl, h1, h2⟩ := C107_target_partial env log0 ops S hS (by
    intro u i j t t' ha hb
    obtain ⟨⟨a1, a2, a3⟩, oa, ma⟩ := hin u i t ha
    obtain ⟨⟨b1, b2, b3⟩, ob, mb⟩ := hin u j t' hb
    exact C107_url_partial base t t' (by rw [a2, b2]) a3 b3
      (hinj (oa, t) ma (ob, t') mb (by rw [← a1, ← b1])))
    u p hp it hit j hj
  exact ⟨pl, h1, h2, (hin u j pl h1).1.1⟩

/-! ### examples -/

namespace Demo

/-- URLs as text; enough to tell the ones below apart. -/
def enc (l : List String) : Url := String.intercalate "/" l

/-- Two tables of one bucket. -/
def p1 : Place := ⟨some (["s3", "bucket"], [("region", "eu")]), ["a"]⟩
def p2 : Place := ⟨some (["s3", "bucket"], [("region", "eu")]), ["b"]⟩
/-- A bucket of the same name at another provider. -/
def p3 : Place := ⟨some (["s3", "bucket"], [("endpoint", "https://minio.local")]), ["a"]⟩

def msgAt (p : Place) (s : Option Nat) (b : List Nat) : Msg Unit Nat := msg (enc (p.url [])) "o" s b

/-- Interleaved changes to the two tables. -/
def opsT : List (Op Unit Nat × Place) :=
  [ (.sync (msgAt p1 none [3]) 0 true [], p1),
    (.sync (msgAt p2 none [4]) 1 true [], p2),
    (.sync (msgAt p1 (some 1) [5]) 2 true [], p1),
    (.tick 20 true [], p1) ]

/-- The same with the second table at the other provider. -/
def opsBad : List (Op Unit Nat × Place) :=
  [ (.sync (msgAt p1 (some 1) [3]) 0 true [], p1),
    (.sync (msgAt p3 (some 2) [4]) 1 true [], p3),
    (.tick 20 true [], p1) ]

def show' (l : List (Option Place × Commit Unit Nat)) : List (Option Place × List Nat) :=
  (l.filter (fun p => !p.2.items.isEmpty)).map (fun p => (p.1, p.2.items.flatMap (·.msgs)))

end Demo

open Demo in
/-- The hypotheses of `C107_place_partial` on a history in which both tables are written. -/
example :
    (∀ m now lock outs pl, (Op.sync m now lock outs, pl) ∈ opsT →
      m.url = enc (pl.url []) ∧ pl.store = some (["s3", "bucket"], [("region", "eu")]) ∧
        Plain pl.path) ∧
    (∀ o ∈ opsT, ∀ o' ∈ opsT, enc (o.2.url []) = enc (o'.2.url []) → o.2.url [] = o'.2.url []) ∧
    show' ((runT Demo.env (TWorld.start fun _ => []) opsT).out "s3/bucket/a") = [(some p1, [0, 2])] ∧
    show' ((runT Demo.env (TWorld.start fun _ => []) opsT).out "s3/bucket/b") = [(some p2, [1])] := by
  refine ⟨?_, by decide +kernel, by decide +kernel, by decide +kernel⟩
  intro m now lock outs pl h
  simp only [opsT, List.mem_cons, Prod.mk.injEq, Op.sync.injEq, List.not_mem_nil, or_false,
    reduceCtorEq, false_and] at h
  rcases h with ⟨⟨rfl, _⟩, rfl⟩ | ⟨⟨rfl, _⟩, rfl⟩ | ⟨⟨rfl, _⟩, rfl⟩ <;>
    exact ⟨rfl, rfl, by simp [Plain, p1, p2]⟩

open Demo in
/-- **C107 is violated** for stores told apart by their options only: the request for the table at the
other provider is accepted and its change is written to the table of the first request, and the
sequence number reported durable. -/
theorem C107_violated :
    ∃ S : TWorld Unit Nat Place, S = runT Demo.env (TWorld.start fun _ => []) opsBad ∧
      p1 ≠ p3 ∧ Asked S "s3/bucket/a" 1 p3 ∧
      show' (S.out "s3/bucket/a") = [(some p1, [0, 1])] ∧
      S.W.w.originDurable "o" = some 2 :=
  ⟨_, rfl, by decide +kernel, ⟨msgAt p3 (some 2) [4], rfl, by decide +kernel, rfl⟩,
    by decide +kernel, by decide +kernel⟩

/-- Whatever the state: while changes are buffered for a URL under a handle `t`, a request for the same URL is taken in
without a look at the table it names; what is committed for the URL on account of it goes to `t`, and `t` stays the table
for what is committed later. -/
theorem C107_violated_always (env : Env σ β) (S : TWorld σ β τ) (m : Msg σ β) (now : Nat) (lock : Bool)
    (outs : List Outcome) (t t' : τ) (hb : (alGet m.url S.W.w.syncs).isSome) (he : S.entry m.url = some t) :
    (stepT env S (.sync m now lock outs) t').entry m.url = some t ∧
    (stepT env S (.sync m now lock outs) t').W = (step env S.W (.sync m now lock outs)).1 ∧
    ∃ l, (stepT env S (.sync m now lock outs) t').out m.url = S.out m.url ++ l ∧ (∀ p ∈ l, p.1 = some t) := by
  simp only [stepT]
  split
  · exact ⟨he, rfl, [], by simp, by simp⟩
  · refine ⟨by simp [entryAfter, hb, he], rfl, _, rfl, ?_⟩
    intro p hp
    simp only [written, entryAfter, hb, if_true, he, List.mem_map] at hp
    obtain ⟨c, _, rfl⟩ := hp
    rfl

/-- A table of the internal store and one of a store given in the request can share a URL as well. -/
theorem C107_violated_internal :
    (⟨none, ["t"]⟩ : Place) ≠ ⟨some (["memory:", ""], []), ["t"]⟩ ∧
    (⟨none, ["t"]⟩ : Place).url ["memory:"] =
      (⟨some (["memory:", ""], []), ["t"]⟩ : Place).url ["memory:"] := by
  decide +kernel

end Seafowl.Sync
