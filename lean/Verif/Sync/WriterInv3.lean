import Verif.Sync.WriterClosed

/-! # Further invariants of the sync writer: content, accounting, commit info, conservation -/

namespace Seafowl.Sync

variable {σ β : Type}

theorem finishFlush_syncs (w : Writer σ β) (u : Url) (l : List (Item σ β)) :
    (finishFlush w u l).syncs = (removeSync w u).syncs ∧
    (finishFlush w u l).size = (removeSync w u).size := by
  simp only [finishFlush, removeSync]
  constructor <;> (split <;> simp)

theorem newCommits_extends {log0 log log' : Log σ β} {extra : Url → List (Commit σ β)} {u : Url}
    (hp : log0 u <+: log u) (he : Extends log log' extra) :
    newCommits log0 log' u = newCommits log0 log u ++ extra u := by
  obtain ⟨t, ht⟩ := hp
  simp only [newCommits]
  rw [he u, ← ht]
  simp [List.append_assoc]

/-- How `buffer` changes the entry of a location. -/
theorem alGet_buffer (env : Env σ β) (w : Writer σ β) (now : Nat) (u u' : Url) (t : TxId) (s : σ)
    (bs : List β) (mid : Nat) :
    alGet u' (buffer env w now u t s bs mid).syncs =
      if u' = u then
        some (match alGet u w.syncs with
          | some c => { c with
              syncs := pushItem env c.syncs t s bs mid
              size := c.size + sizeOfBatches env bs
              rows := c.rows + rowsOfBatches env bs }
          | none => { size := sizeOfBatches env bs, rows := rowsOfBatches env bs,
                      insertionTime := now, syncs := [newItem t s bs mid] })
      else alGet u' w.syncs := by
  simp only [buffer]
  split
  · next c hc =>
    rw [alGet_alModify]
    split
    · next hu => subst hu; simp [hc]
    · rfl
  · next hc =>
    rw [alGet_append_singleton]
    by_cases hu : u' = u
    · subst hu; simp [hc]
    · cases hg : alGet u' w.syncs <;> simp [hu]

/-! ### content -/

theorem Derived.mono {env : Env σ β} {acc : List (Msg σ β)} (m : Msg σ β) {ms : List Nat} {s : σ}
    {d : List β} (h : Derived env acc ms s d) : Derived env (acc ++ [m]) ms s d := by
  have hx : ∀ {i : Nat} {a : Msg σ β}, acc[i]? = some a → (acc ++ [m])[i]? = some a := by
    intro i a hi
    rw [List.getElem?_append_left]
    · exact hi
    · exact (List.getElem?_eq_some_iff.1 hi).1
  induction h with
  | one h => exact .one (hx h)
  | more _ h1 h2 ih => exact .more ih (hx h1) h2
  | squash _ h1 ih => exact .squash ih h1

/-- The data of every buffered and every committed item derives from its messages. -/
structure Content (env : Env σ β) (log0 : Log σ β) (w : Writer σ β) (log : Log σ β)
    (acc : List (Msg σ β)) : Prop where
  buf : ∀ u c, alGet u w.syncs = some c → ∀ it ∈ c.syncs, Derived env acc it.msgs it.schema it.data
  com : ∀ u, ∀ cm ∈ newCommits log0 log u, ∀ it ∈ cm.items, Derived env acc it.msgs it.schema it.data

theorem pushItem_derived {env : Env σ β} {acc : List (Msg σ β)} {l : List (Item σ β)} {t : TxId}
    {m : Msg σ β} {mid : Nat} (hm : acc[mid]? = some m)
    (hl : ∀ it ∈ l, Derived env acc it.msgs it.schema it.data) :
    ∀ it ∈ pushItem env l t m.schema m.batches mid, Derived env acc it.msgs it.schema it.data := by
  have hnew : Derived env acc (newItem t m.schema m.batches mid).msgs
      (newItem t m.schema m.batches mid).schema (newItem t m.schema m.batches mid).data :=
    .one hm
  intro it hit
  simp only [pushItem] at hit
  split at hit
  · next prev hp =>
    have hmem := List.mem_of_getLast? hp
    split at hit
    · next hc =>
      simp only [Bool.and_eq_true] at hc
      rcases List.mem_append.1 hit with h | h
      · exact hl it (List.dropLast_subset _ h)
      · simp only [List.mem_singleton] at h
        subst h
        exact .more (hl prev hmem) hm hc.1
    · rcases List.mem_append.1 hit with h | h
      · exact hl it h
      · simp only [List.mem_singleton] at h
        subst h; exact hnew
  · simp only [List.mem_singleton] at hit
    subst hit; exact hnew

theorem squashLoop_derived {env : Env σ β} {acc : List (Msg σ β)} (l : List (Item σ β)) :
    ∀ (a b c : Nat), (∀ it ∈ l, Derived env acc it.msgs it.schema it.data) →
    ∀ it ∈ (squashLoop env l a b c).1, Derived env acc it.msgs it.schema it.data := by
  induction l with
  | nil => intro a b c _ it hit; simp [squashLoop] at hit
  | cons x rest ih =>
    intro a b c hl it hit
    simp only [squashLoop] at hit
    split at hit
    · rcases List.mem_cons.1 hit with h | h
      · subst h; exact hl _ (by simp)
      · exact ih _ _ _ (fun i hi => hl i (by simp [hi])) it h
    · split at hit
      · exact hl it hit
      · next s' b' hs =>
        rcases List.mem_cons.1 hit with h | h
        · subst h
          exact .squash (hl x (by simp)) hs
        · exact ih _ _ _ (fun i hi => hl i (by simp [hi])) it h

theorem Content.log {env : Env σ β} {log0 log log' : Log σ β} {w : Writer σ β}
    {acc : List (Msg σ β)} {extra : Url → List (Commit σ β)} (h : Content env log0 w log acc)
    (hpre : ∀ u, log0 u <+: log u) (he : Extends log log' extra)
    (hx : ∀ u, ∀ cm ∈ extra u, ∀ it ∈ cm.items, Derived env acc it.msgs it.schema it.data) :
    Content env log0 w log' acc := by
  refine ⟨h.buf, ?_⟩
  intro u cm hcm
  rw [newCommits_extends (hpre u) he] at hcm
  rcases List.mem_append.1 hcm with h1 | h1
  · exact h.com u cm h1
  · exact hx u cm h1

theorem Content.enqueue {env : Env σ β} {log0 log : Log σ β} {w w' : Writer σ β}
    {acc : List (Msg σ β)} {now : Nat} {m : Msg σ β} (h : Content env log0 w log acc)
    (he : Sync.enqueue env w now m acc.length = .ok w') :
    Content env log0 w' log (acc ++ [m]) := by
  obtain ⟨w1, t, ha, _, _, _, _, hsy, _⟩ := enqueue_ok he
  obtain ⟨⟨hs1, _, _, _⟩, _⟩ := assignTx_ok ha
  have hm : (acc ++ [m])[acc.length]? = some m := by simp
  refine ⟨?_, fun u cm hcm it hit => (h.com u cm hcm it hit).mono m⟩
  intro u c hc
  rw [hsy] at hc
  split at hc
  · rw [alGet_buffer, hs1] at hc
    split at hc
    · injection hc with hc
      subst hc
      split
      · next c0 hc0 =>
        exact pushItem_derived hm (fun it hit => (h.buf _ c0 hc0 it hit).mono m)
      · intro it hit
        simp only [List.mem_singleton] at hit
        subst hit
        exact .one hm
    · exact fun it hit => (h.buf u c hc it hit).mono m
  · rw [hs1] at hc
    exact fun it hit => (h.buf u c hc it hit).mono m

theorem Content.squashUrl {env : Env σ β} {log0 log : Log σ β} {w : Writer σ β}
    {acc : List (Msg σ β)} (h : Content env log0 w log acc) (url : Url) :
    Content env log0 (squashUrl env w url).1 log acc := by
  refine ⟨?_, h.com⟩
  simp only [Sync.squashUrl]
  split
  · exact h.buf
  · next c hc =>
    intro u c' hc'
    simp only [alGet_alModify] at hc'
    split at hc'
    · next hu =>
      subst hu
      rw [hc] at hc'
      simp only [Option.map_some, Option.some.injEq] at hc'
      subst hc'
      exact squashLoop_derived _ _ _ _ (h.buf _ c hc)
    · exact h.buf u c' hc'

theorem Content.removeSync {env : Env σ β} {log0 log : Log σ β} {w : Writer σ β}
    {acc : List (Msg σ β)} (h : Content env log0 w log acc) (hn : (w.syncs.map (·.1)).Nodup)
    (url : Url) : Content env log0 (removeSync w url) log acc := by
  refine ⟨?_, h.com⟩
  simp only [Sync.removeSync]
  split
  · exact h.buf
  · intro u c hc
    simp only [alGet_alErase _ _ _ hn] at hc
    split at hc
    · cases hc
    · exact h.buf u c hc

/-! ### accounting -/

/-- Bytes in a list of items. -/
def itemsSize (env : Env σ β) (l : List (Item σ β)) : Nat :=
  (l.map (fun it => sizeOfBatches env it.data)).sum
/-- Rows in a list of items. -/
def itemsRows (env : Env σ β) (l : List (Item σ β)) : Nat :=
  (l.map (fun it => rowsOfBatches env it.data)).sum

/-- The counters agree with what is buffered. -/
structure Acct (env : Env σ β) (w : Writer σ β) : Prop where
  total : w.size = alSum (·.size) w.syncs
  size : ∀ u c, alGet u w.syncs = some c → c.size = itemsSize env c.syncs
  rows : ∀ u c, alGet u w.syncs = some c → c.rows = itemsRows env c.syncs

theorem pushItem_acct (env : Env σ β) (l : List (Item σ β)) (t : TxId) (s : σ) (bs : List β)
    (mid : Nat) :
    itemsSize env (pushItem env l t s bs mid) = itemsSize env l + sizeOfBatches env bs ∧
    itemsRows env (pushItem env l t s bs mid) = itemsRows env l + rowsOfBatches env bs := by
  simp only [pushItem]
  split
  · next prev hp =>
    have hl : l = l.dropLast ++ [prev] := by
      rw [List.getLast?_eq_some_iff] at hp
      obtain ⟨ys, rfl⟩ := hp
      simp
    split
    · have e1 : itemsSize env l = itemsSize env l.dropLast + sizeOfBatches env prev.data := by
        conv => lhs; rw [hl]
        simp [itemsSize]
      have e2 : itemsRows env l = itemsRows env l.dropLast + rowsOfBatches env prev.data := by
        conv => lhs; rw [hl]
        simp [itemsRows]
      rw [e1, e2]
      simp [itemsSize, itemsRows, sizeOfBatches, rowsOfBatches, Nat.add_assoc]
    · simp [itemsSize, itemsRows, newItem]
  · next hp =>
    rw [List.getLast?_eq_none_iff] at hp
    subst hp
    simp [itemsSize, itemsRows, newItem]

theorem squashLoop_acct (env : Env σ β) (l : List (Item σ β)) :
    ∀ (t s r : Nat), itemsSize env l ≤ s → s ≤ t → itemsRows env l ≤ r →
    (squashLoop env l t s r).2.1 + itemsSize env l = t + itemsSize env (squashLoop env l t s r).1 ∧
    (squashLoop env l t s r).2.2.1 + itemsSize env l = s + itemsSize env (squashLoop env l t s r).1 ∧
    (squashLoop env l t s r).2.2.2.1 + itemsRows env l =
      r + itemsRows env (squashLoop env l t s r).1 := by
  induction l with
  | nil => intro t s r _ _ _; simp [squashLoop, itemsSize, itemsRows]
  | cons x rest ih =>
    intro t s r h1 h2 h3
    have e1 : itemsSize env (x :: rest) = sizeOfBatches env x.data + itemsSize env rest := by
      simp [itemsSize]
    have e2 : itemsRows env (x :: rest) = rowsOfBatches env x.data + itemsRows env rest := by
      simp [itemsRows]
    rw [e1] at h1 ⊢
    rw [e2] at h3 ⊢
    simp only [squashLoop]
    split
    · obtain ⟨a, b, c⟩ := ih t s r (by omega) h2 (by omega)
      simp only [itemsSize, itemsRows, List.map_cons, List.sum_cons] at a b c ⊢
      omega
    · split
      · exact ⟨by rw [e1], by rw [e1], by rw [e2]⟩
      · next s' b' hs =>
        obtain ⟨a, b, c⟩ := ih (t - sizeOfBatches env x.data + env.bytes b')
          (s - sizeOfBatches env x.data + env.bytes b')
          (r - rowsOfBatches env x.data + env.rows b') (by omega) (by omega) (by omega)
        simp only [itemsSize, itemsRows, List.map_cons, List.sum_cons, sizeOfBatches,
          rowsOfBatches, List.map_nil, List.sum_nil] at a b c h1 h2 h3 ⊢
        omega

theorem Acct.squashUrl {env : Env σ β} {w : Writer σ β} (h : Acct env w) (url : Url) :
    Acct env (squashUrl env w url).1 := by
  simp only [Sync.squashUrl]
  split
  · exact h
  · next c hc =>
    have hs := h.size url c hc
    have hr := h.rows url c hc
    have hle := le_alSum url (·.size) w.syncs c hc
    have ht := h.total
    obtain ⟨e1, e2, e3⟩ := squashLoop_acct env c.syncs w.size c.size c.rows
      (by omega) (by omega) (by omega)
    constructor
    · have := alSum_alModify url (·.size) (fun c' : Coll σ β => { c' with
          syncs := (squashLoop env c.syncs w.size c.size c.rows).1,
          size := (squashLoop env c.syncs w.size c.size c.rows).2.2.1,
          rows := (squashLoop env c.syncs w.size c.size c.rows).2.2.2.1 }) w.syncs c hc
      simp only at this ⊢
      omega
    · intro u c' hc'
      simp only [alGet_alModify] at hc'
      split at hc'
      · next hu =>
        subst hu
        rw [hc] at hc'
        simp only [Option.map_some, Option.some.injEq] at hc'
        subst hc'
        simp only; omega
      · exact h.size u c' hc'
    · intro u c' hc'
      simp only [alGet_alModify] at hc'
      split at hc'
      · next hu =>
        subst hu
        rw [hc] at hc'
        simp only [Option.map_some, Option.some.injEq] at hc'
        subst hc'
        simp only; omega
      · exact h.rows u c' hc'

theorem Acct.congr {env : Env σ β} {w w' : Writer σ β} (h : Acct env w) (h1 : w'.syncs = w.syncs)
    (h2 : w'.size = w.size) : Acct env w' :=
  ⟨by rw [h1, h2]; exact h.total, by rw [h1]; exact h.size, by rw [h1]; exact h.rows⟩

theorem Acct.buffer {env : Env σ β} {w : Writer σ β} (h : Acct env w) (now : Nat) (u : Url)
    (t : TxId) (s : σ) (bs : List β) (mid : Nat) : Acct env (buffer env w now u t s bs mid) := by
  have hget : ∀ u' c, alGet u' (Sync.buffer env w now u t s bs mid).syncs = some c →
      c.size = itemsSize env c.syncs ∧ c.rows = itemsRows env c.syncs := by
    intro u' c hc
    rw [alGet_buffer] at hc
    split at hc
    · injection hc with hc
      subst hc
      split
      · next c0 hc0 =>
        obtain ⟨e1, e2⟩ := pushItem_acct env c0.syncs t s bs mid
        have := h.size u c0 hc0
        have := h.rows u c0 hc0
        simp only; omega
      · simp [itemsSize, itemsRows, newItem]
    · exact ⟨h.size u' c hc, h.rows u' c hc⟩
  refine ⟨?_, fun u' c hc => (hget u' c hc).1, fun u' c hc => (hget u' c hc).2⟩
  simp only [Sync.buffer]
  split
  · next c hc =>
    have := alSum_alModify u (·.size) (fun c : Coll σ β => { c with
        syncs := pushItem env c.syncs t s bs mid
        size := c.size + sizeOfBatches env bs
        rows := c.rows + rowsOfBatches env bs }) w.syncs c hc
    have ht := h.total
    simp only at this ⊢
    omega
  · have ht := h.total
    simp only [alSum] at ht ⊢
    simp [ht]

theorem Acct.enqueue {env : Env σ β} {w w' : Writer σ β} {now : Nat} {m : Msg σ β} {mid : Nat}
    (h : Acct env w) (he : Sync.enqueue env w now m mid = .ok w') : Acct env w' := by
  obtain ⟨w1, t, ha, _, _, _, _, hsy, hsz⟩ := enqueue_ok he
  obtain ⟨⟨hs1, hs2, _, _⟩, _⟩ := assignTx_ok ha
  have h1 : Acct env w1 := h.congr hs1 hs2
  by_cases hne : m.nonempty env = true
  · rw [if_pos hne] at hsy hsz
    exact (h1.buffer now m.url t m.schema m.batches mid).congr hsy hsz
  · rw [if_neg hne] at hsy hsz
    exact h1.congr hsy hsz

theorem Acct.removeSync {env : Env σ β} {w : Writer σ β} (h : Acct env w)
    (hn : (w.syncs.map (·.1)).Nodup) (url : Url) : Acct env (removeSync w url) := by
  simp only [Sync.removeSync]
  split
  · exact h
  · next c hc =>
    have := alSum_alErase url (·.size) w.syncs c hc
    have ht := h.total
    refine ⟨by simp only; omega, ?_, ?_⟩
    · intro u c' hc'
      simp only [alGet_alErase _ _ _ hn] at hc'
      split at hc'
      · cases hc'
      · exact h.size u c' hc'
    · intro u c' hc'
      simp only [alGet_alErase _ _ _ hn] at hc'
      split at hc'
      · cases hc'
      · exact h.rows u c' hc'

end Seafowl.Sync
