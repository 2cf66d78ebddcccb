import Verif.Sync.WriterProps

/-!
# The sync writer: currency of commit info, shape of planned items, choice of the table to flush
(C63-C65)
-/

namespace Seafowl.Sync

variable {σ β : Type}

/-! ### C63 -/

/-- **C63**, as far as it holds: the sync info of a commit names a transaction that is not older than
any transaction that was completed by then and provided the last change of an item of the commit. -/
theorem C63_newest_partial (env : Env σ β) (log0 : Log σ β) (ops : List (Op σ β)) (W : World σ β)
    (hW : W = run env (World.start log0) ops) (u : Url) (before after : List (Commit σ β))
    (c : Commit σ β) (ci : CommitInfo) (hc : newCommits log0 W.log u = before ++ c :: after)
    (hci : c.info = some ci) :
    ∃ n, n ≤ W.acc.length ∧ (∀ j ∈ commitMsgs (before ++ [c]), j < n) ∧
      ∀ it ∈ c.items, ∀ j, it.msgs.getLast? = some j →
        (∃ k mk, j ≤ k ∧ k < n ∧ W.acc[k]? = some mk ∧ mk.sequence ≠ none) →
        ∃ i m, i < n ∧ W.acc[i]? = some m ∧ m.origin = ci.origin ∧ m.sequence = some ci.sequence ∧ j ≤ i := by
  obtain ⟨n, h⟩ := C10_commit_info_sound env log0 ops W hW u before after c ci hc hci
  exact ⟨n, h.le, fun j hj => (h.only j hj).1, h.newest⟩

/-- Two transactions in separate items (the schemas are incompatible) flushed in one commit: the
second one is named. -/
example : ((run { Demo.env with compat := fun _ _ => false, maxSyncs := 2 } (World.start fun _ => [])
    [.sync (Demo.msg "a" "o" (some 1) [3]) 0 true [], .sync (Demo.msg "a" "p" (some 7) [4]) 1 true []]).log
      "a").map (fun c => (c.info, c.items.length)) =
    [(none, 0), (some ⟨"p", 7, false⟩, 2)] := by decide

/-- **C63 is violated** in general: when a change of an open transaction has been appended to the item
of a completed one, the commit does not mention the completed transaction at all, although all its
changes are in the table. -/
theorem C63_violated : ∃ (ops : List (Op Unit Nat)) (c : Commit Unit Nat),
    let W := run Demo.env (World.start fun _ => []) ops
    newCommits (fun _ => []) W.log "a" = [⟨[], none⟩, c] ∧ c.info = none ∧ commitMsgs [c] = [0, 1] ∧
    (W.acc.map (fun m => (m.origin, m.sequence))) = [("o", some 1), ("p", none)] := by
  refine ⟨[.sync (Demo.msg "a" "o" (some 1) [3]) 0 true [], .sync (Demo.msg "a" "p" none [4]) 1 true [],
    .tick 20 true []], _, rfl, rfl, rfl, rfl⟩

/-! ### C64 -/

/-- What an item looks like: if it counts as squashed it is a single batch, and if it was put together
from several messages it respects the row limit. -/
def ItemOk (env : Env σ β) (it : Item σ β) : Prop :=
  (it.isSquashed = true → ∃ b, it.data = [b]) ∧
  (1 < it.msgs.length → rowsOfBatches env it.data ≤ 100000)

/-- Squashing does not add rows (C13). -/
def SquashShrinks (env : Env σ β) : Prop :=
  ∀ s d s' b, env.squash s d = some (s', b) → env.rows b ≤ rowsOfBatches env d

theorem rowsOfBatches_append (env : Env σ β) (a b : List β) :
    rowsOfBatches env (a ++ b) = rowsOfBatches env a + rowsOfBatches env b := by
  simp [rowsOfBatches]

theorem pushItem_ok {env : Env σ β} {l : List (Item σ β)} {t : TxId} {s : σ} {bs : List β} {mid : Nat}
    (hl : ∀ it ∈ l, ItemOk env it) : ∀ it ∈ pushItem env l t s bs mid, ItemOk env it := by
  have hnew : ItemOk env (newItem t s bs mid) := by simp [ItemOk, newItem]
  intro it hit
  simp only [pushItem] at hit
  split at hit
  · next prev hp =>
    split at hit
    · next hc =>
      simp only [Bool.and_eq_true, decide_eq_true_eq] at hc
      rcases List.mem_append.1 hit with h | h
      · exact hl it (List.dropLast_subset _ h)
      · simp only [List.mem_singleton] at h
        subst h
        refine ⟨by simp, fun _ => ?_⟩
        rw [rowsOfBatches_append]
        exact hc.2
    · rcases List.mem_append.1 hit with h | h
      · exact hl it h
      · simp only [List.mem_singleton] at h
        subst h; exact hnew
  · simp only [List.mem_singleton] at hit
    subst hit; exact hnew

theorem squashLoop_ok {env : Env σ β} (hs : SquashShrinks env) (l : List (Item σ β)) :
    ∀ (a b c : Nat), (∀ it ∈ l, ItemOk env it) → ∀ it ∈ (squashLoop env l a b c).1, ItemOk env it := by
  induction l with
  | nil => intro a b c _ it hit; simp [squashLoop] at hit
  | cons x rest ih =>
    intro a b c hl it hit
    simp only [squashLoop] at hit
    split at hit
    · rcases List.mem_cons.1 hit with h | h
      · subst h; exact hl _ (by simp)
      · exact ih _ _ _ (fun i hi => hl i (by simp [hi])) it h
    · split at hit
      · exact hl it hit
      · next s' b' hsq =>
        rcases List.mem_cons.1 hit with h | h
        · subst h
          refine ⟨fun _ => ⟨b', rfl⟩, ?_⟩
          intro hm
          have h1 := (hl x (by simp)).2 hm
          have h2 := hs _ _ _ _ hsq
          simp only [rowsOfBatches, List.map_cons, List.map_nil, List.sum_cons, List.sum_nil] at h1 h2 ⊢
          omega
        · exact ih _ _ _ (fun i hi => hl i (by simp [hi])) it h

/-- All buffered items are in shape; all items committed since process start are single squashed
batches in shape. -/
structure Shape (env : Env σ β) (log0 : Log σ β) (w : Writer σ β) (log : Log σ β) : Prop where
  keys : (w.syncs.map (·.1)).Nodup
  pre : ∀ u, log0 u <+: log u
  buf : ∀ u c, alGet u w.syncs = some c → ∀ it ∈ c.syncs, ItemOk env it
  com : ∀ u, ∀ cm ∈ newCommits log0 log u, ∀ it ∈ cm.items, ItemOk env it ∧ it.isSquashed = true

theorem Shape.log {env : Env σ β} {log0 log log' : Log σ β} {w : Writer σ β}
    {extra : Url → List (Commit σ β)} (h : Shape env log0 w log) (he : Extends log log' extra)
    (hx : ∀ u, ∀ cm ∈ extra u, ∀ it ∈ cm.items, ItemOk env it ∧ it.isSquashed = true) :
    Shape env log0 w log' := by
  refine ⟨h.keys, ?_, h.buf, ?_⟩
  · intro u; rw [he u]; exact (h.pre u).trans (List.prefix_append _ _)
  · intro u cm hcm
    rw [newCommits_extends (h.pre u) he] at hcm
    rcases List.mem_append.1 hcm with h1 | h1
    · exact h.com u cm h1
    · exact hx u cm h1

theorem Shape.remove {env : Env σ β} {log0 log : Log σ β} {w w' : Writer σ β} {u : Url}
    (h : Shape env log0 w log) (hw : w'.syncs = (removeSync w u).syncs) : Shape env log0 w' log := by
  have hk := h.keys
  refine ⟨?_, h.pre, ?_, h.com⟩
  · rw [hw]
    simp only [removeSync]
    split
    · exact hk
    · exact hk.sublist (alErase_keys_sublist u w.syncs)
  · intro u' c hc
    rw [hw] at hc
    simp only [removeSync] at hc
    split at hc
    · exact h.buf u' c hc
    · rw [alGet_alErase _ _ _ hk] at hc
      split at hc
      · cases hc
      · exact h.buf u' c hc

theorem shape_closed (env : Env σ β) (hs : SquashShrinks env) (log0 : Log σ β) :
    Closed env (fun _ => True) (fun w log _ => Shape env log0 w log) where
  okQ := trivial
  enq := by
    intro w log acc now m w' h _ _ he
    obtain ⟨w1, t, ha, _, _, _, _, hsy, _⟩ := enqueue_ok he
    obtain ⟨⟨hs1, _, _, _⟩, _⟩ := assignTx_ok ha
    refine ⟨?_, h.pre, ?_, h.com⟩
    · rw [hsy]
      split
      · have hk := h.keys
        rw [← hs1] at hk
        simp only [buffer]
        split
        · rw [alModify_keys]; exact hk
        · next hn =>
          rw [List.map_append, List.nodup_append]
          refine ⟨hk, by simp, ?_⟩
          intro a ha b hb
          simp only [List.map_cons, List.map_nil, List.mem_singleton] at hb
          subst hb
          rintro rfl
          exact (alGet_none_iff.1 hn) ha
      · rw [hs1]; exact h.keys
    · intro u c hc
      rw [hsy] at hc
      split at hc
      · rw [alGet_buffer, hs1] at hc
        split at hc
        · injection hc with hc
          subst hc
          split
          · next c0 hc0 => exact pushItem_ok (h.buf _ c0 hc0)
          · intro it hit
            simp only [List.mem_singleton] at hit
            subst hit
            simp [ItemOk, newItem]
        · exact h.buf u c hc
      · rw [hs1] at hc
        exact h.buf u c hc
  sq := by
    intro w log acc url h
    refine ⟨by rw [squashUrl_keys]; exact h.keys, h.pre, ?_, h.com⟩
    have hb := h.buf
    simp only [squashUrl]
    split
    · exact hb
    · next c hc =>
      intro u c' hc'
      simp only [alGet_alModify] at hc'
      split at hc'
      · next hu =>
        subst hu
        rw [hc] at hc'
        simp only [Option.map_some, Option.some.injEq] at hc'
        subst hc'
        exact squashLoop_ok hs _ _ _ _ (hb _ c hc)
      · exact hb u c' hc'
  create := by
    intro w log acc u h
    apply h.log (ensureTable_extends log u)
    intro u' cm hcm
    split at hcm
    · simp at hcm; subst hcm; simp
    · simp at hcm
  lost := by
    intro w log acc u entry info _ h _ hg _ hall _
    apply h.log (appendCommit_extends log u _)
    intro u' cm hcm it hit
    split at hcm
    · simp at hcm; subst hcm
      exact ⟨h.buf u entry hg it hit, hall it hit⟩
    · simp at hcm
  fin := by
    intro w log acc u entry info h _ hg _ hall _
    refine Shape.remove (u := u) (w := w) ?_ (finishFlush_syncs w u entry.syncs).1
    apply h.log (appendCommit_extends log u _)
    intro u' cm hcm it hit
    split at hcm
    · simp at hcm; subst hcm
      exact ⟨h.buf u entry hg it hit, hall it hit⟩
    · simp at hcm
  empty := by
    intro w log acc u entry h _ _
    exact h.remove rfl
  ext := by
    intro w log acc u h
    apply h.log (appendCommit_extends log u _)
    intro u' cm hcm it hit
    split at hcm
    · simp at hcm; subst hcm; simp at hit
    · simp at hcm

/-- **C64**: what a flush hands to the planner (which looks at the first batch of each item only) and
commits is one batch per item, and an item that combines several messages has at most 100000 rows; the
same row limit holds for everything buffered. -/
theorem C64_one_batch_per_item (env : Env σ β) (hs : SquashShrinks env) (log0 : Log σ β)
    (ops : List (Op σ β)) (W : World σ β) (hW : W = run env (World.start log0) ops) (u : Url) :
    (∀ cm ∈ newCommits log0 W.log u, ∀ it ∈ cm.items, ∃ b, it.data = [b] ∧
      (1 < it.msgs.length → env.rows b ≤ 100000)) ∧
    (∀ c, alGet u W.w.syncs = some c → ∀ it ∈ c.syncs, 1 < it.msgs.length →
      rowsOfBatches env it.data ≤ 100000) := by
  have h : Shape env log0 W.w W.log := by
    subst hW
    refine (shape_closed env hs log0).run ops (World.start log0) ?_ (fun _ _ _ _ => trivial)
    refine ⟨by simp [World.start, Writer.new], fun u => List.prefix_refl _, ?_, ?_⟩
    · simp [World.start, Writer.new, alGet]
    · simp [World.start, newCommits]
  refine ⟨?_, fun c hc it hit hm => (h.buf u c hc it hit).2 hm⟩
  intro cm hcm it hit
  obtain ⟨⟨h1, h2⟩, h3⟩ := h.com u cm hcm it hit
  obtain ⟨b, hb⟩ := h1 h3
  refine ⟨b, hb, fun hm => ?_⟩
  have := h2 hm
  rw [hb] at this
  simpa [rowsOfBatches] using this

theorem Demo.env_shrinks : SquashShrinks Demo.env := by
  intro s d s' b h
  simp only [Demo.env, Option.some.injEq, Prod.mk.injEq] at h
  simp [rowsOfBatches, Demo.env, ← h.2]

/-- A history in which two messages are combined into one item: the commit has one batch of 7 rows. -/
example : ((run Demo.env (World.start fun _ => [])
    [.sync (Demo.msg "a" "o" (some 1) [3]) 0 true [], .sync (Demo.msg "a" "p" none [2, 2]) 1 true [],
      .tick 20 true []]).log "a").map (fun c => c.items.map (fun it => (it.data, it.msgs))) =
    [[], [([7], [0, 1])]] := by decide

/-! ### C65 -/

theorem largest_max {l : List (Url × Coll σ β)} {p : Url × Coll σ β} (h : largest l = some p) :
    ∀ q ∈ l, q.2.size ≤ p.2.size := by
  induction l generalizing p with
  | nil => simp
  | cons a rest ih =>
    simp only [largest] at h
    split at h
    · next hn =>
      injection h with h; subst h
      rw [largest_none hn]
      simp
    · next q' hq =>
      have h1 := ih hq
      split at h
      · injection h with h; subst h
        intro q hq'
        rcases List.mem_cons.1 hq' with rfl | hq'
        · exact Nat.le_refl _
        · have := h1 q hq'; omega
      · injection h with h; subst h
        intro q hq'
        rcases List.mem_cons.1 hq' with rfl | hq'
        · omega
        · exact h1 q hq'

/-- **C65**: which table is flushed.  If the oldest entry is overdue, that one.  Otherwise, if the
memory limit is reached, a table of maximal size is squashed, and flushed if that did not help.
Otherwise a table that has reached the maximal number of items. -/
theorem C65_choice (env : Env σ β) (w : Writer σ β) (now : Nat) (u : Url)
    (h : (flushReady env w now).2 = .url u) :
    (∃ c, w.syncs.head? = some (u, c) ∧ env.maxLag ≤ lag now c.insertionTime) ∨
    (env.maxBytes ≤ w.size ∧ env.maxBytes ≤ (flushReady env w now).1.size ∧
      ∃ c, (u, c) ∈ w.syncs ∧ ∀ q ∈ w.syncs, q.2.size ≤ c.size) ∨
    (∃ c, (u, c) ∈ (flushReady env w now).1.syncs ∧ env.maxSyncs ≤ c.syncs.length ∧
      (w.size < env.maxBytes ∨ (flushReady env w now).1.size < env.maxBytes ∨ w.syncs = [])) := by
  have hcount : ∀ (w' : Writer σ β) (v : Url), readyByCount env w' = some v →
      ∃ c, (v, c) ∈ w'.syncs ∧ env.maxSyncs ≤ c.syncs.length := by
    intro w' v hv
    simp only [readyByCount, Option.map_eq_some_iff] at hv
    obtain ⟨p, hp, rfl⟩ := hv
    have h1 := List.find?_some hp
    exact ⟨p.2, List.mem_of_find?_eq_some hp, by simpa using h1⟩
  revert h
  simp only [flushReady]
  split
  · next v hv =>
    intro h
    simp only [Ready.url.injEq] at h
    subst h
    simp only [readyByLag] at hv
    split at hv
    · next url c hh =>
      split at hv
      · next hl => injection hv with hv; subst hv; exact Or.inl ⟨c, hh, hl⟩
      · cases hv
    · cases hv
  · split
    · next hb =>
      split
      · next hn =>
        split
        · next v hv =>
          intro h
          simp only [Ready.url.injEq] at h
          subst h
          obtain ⟨c, h1, h2⟩ := hcount _ _ hv
          exact Or.inr (Or.inr ⟨c, h1, h2, Or.inr (Or.inr (largest_none hn))⟩)
        · intro h; cases h
      · next v c hl =>
        split
        · intro h; cases h
        · split
          · next hb2 =>
            intro h
            simp only [Ready.url.injEq] at h
            subst h
            exact Or.inr (Or.inl ⟨hb, hb2, c, largest_mem hl, largest_max hl⟩)
          · next hb2 =>
            split
            · next v' hv =>
              intro h
              simp only [Ready.url.injEq] at h
              subst h
              obtain ⟨c, h1, h2⟩ := hcount _ _ hv
              exact Or.inr (Or.inr ⟨c, h1, h2, Or.inr (Or.inl (Nat.lt_of_not_le hb2))⟩)
            · intro h; cases h
    · next hb =>
      split
      · next v hv =>
        intro h
        simp only [Ready.url.injEq] at h
        subst h
        obtain ⟨c, h1, h2⟩ := hcount _ _ hv
        exact Or.inr (Or.inr ⟨c, h1, h2, Or.inl (by omega)⟩)
      · intro h; cases h

/-- 30 and 80 buffered bytes with a limit of 100: the larger table is flushed. -/
example : (flushReady Demo.env (run Demo.env (World.start fun _ => [])
    [.sync (Demo.msg "a" "o" (some 1) [30]) 0 true [], .sync (Demo.msg "b" "o" (some 2) [40]) 0 true []]).w 1).2 =
      .nothing ∧
    (flushReady Demo.env (match enqueue Demo.env (run Demo.env (World.start fun _ => [])
      [.sync (Demo.msg "a" "o" (some 1) [30]) 0 true [], .sync (Demo.msg "b" "o" (some 2) [40]) 0 true []]).w 0
        (Demo.msg "b" "o" (some 3) [40]) 2 with | .ok w => w | .error _ => Writer.new) 1).2 = .url "b" := by
  decide

end Seafowl.Sync
