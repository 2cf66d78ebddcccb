import Verif.Misc.MemPool

/-
C52: memory pool accounting.
-/
namespace Seafowl.MemPool
set_option linter.unusedSimpArgs false

/-! ### Specification -/

/-- What a history of calls reserves in a pool with the given limit, and which `tryGrow` succeed:
one Boolean per call. -/
inductive Hist : Option Nat → Nat → List Op → List Bool → Nat → Prop
  | nil {l n} : Hist l n [] [] n
  | grow {l n c k os rs m} : Hist l (n + k) os rs m → Hist l n (.grow c k :: os) (true :: rs) m
  | shrink {l n c k os rs m} : k ≤ n → Hist l (n - k) os rs m →
      Hist l n (.shrink c k :: os) (true :: rs) m
  | got {l n c k os rs m} : (∀ b, l = some b → n + k ≤ b) → Hist l (n + k) os rs m →
      Hist l n (.tryGrow c k :: os) (true :: rs) m
  | refused {n b c k os rs m} : b < n + k → Hist (some b) n os rs m →
      Hist (some b) n (.tryGrow c k :: os) (false :: rs) m

/-- The part of a consumer's name that names the operator: `Sorter[3]` is `Sorter`. -/
def Operator (name op : List Char) : Prop :=
  '[' ∉ op ∧ (name = op ∨ ∃ rest, name = op ++ '[' :: rest)

/-- The same as a function. -/
def operatorOf : List Char → List Char
  | [] => []
  | '[' :: _ => []
  | c :: cs => c :: operatorOf cs

/-- Bytes asked for by `op`'s consumers in calls with result `r`. -/
def asked (op : List Char) (r : Bool) : List Op → List Bool → Nat
  | .grow c n :: os, b :: rs => (if operatorOf c = op ∧ b = r then n else 0) + asked op r os rs
  | .tryGrow c n :: os, b :: rs =>
    (if operatorOf c = op ∧ b = r then n else 0) + asked op r os rs
  | _ :: os, _ :: rs => asked op r os rs
  | _, _ => 0

def given (op : List Char) : List Op → Nat
  | .shrink c n :: os => (if operatorOf c = op then n else 0) + given op os
  | _ :: os => given op os
  | [] => 0

/-- All bytes of calls with result `r`. -/
def askedAll (r : Bool) : List Op → List Bool → Nat
  | .grow _ n :: os, b :: rs => (if b = r then n else 0) + askedAll r os rs
  | .tryGrow _ n :: os, b :: rs => (if b = r then n else 0) + askedAll r os rs
  | _ :: os, _ :: rs => askedAll r os rs
  | _, _ => 0

def givenAll : List Op → Nat
  | .shrink _ n :: os => n + givenAll os
  | _ :: os => givenAll os
  | [] => 0

/-! ### Names -/

theorem operatorOf_eq (n : List Char) : operatorOf n = extractConsumerName n := by
  induction n with
  | nil => rfl
  | cons c cs ih =>
    by_cases h : c = '['
    · subst h; simp [operatorOf, extractConsumerName]
    · have : operatorOf (c :: cs) = c :: operatorOf cs := by
        rw [operatorOf]; exact fun e => h e
      rw [this, ih]
      simp [extractConsumerName, h]

theorem takeWhile_spec (n : List Char) : Operator n (extractConsumerName n) := by
  unfold extractConsumerName Operator
  refine ⟨?_, ?_⟩
  · intro h
    have := List.all_takeWhile (p := fun c : Char => decide (c ≠ '[')) (l := n)
    simp only [List.all_eq_true] at this
    simpa using this _ h
  · have hd := (List.takeWhile_append_dropWhile (p := fun c : Char => decide (c ≠ '[')) (l := n))
    cases hD : n.dropWhile (fun c => decide (c ≠ '[')) with
    | nil => left; rw [hD, List.append_nil] at hd; exact hd.symm
    | cons x rest =>
      right
      refine ⟨rest, ?_⟩
      have hx := List.head_dropWhile_not (p := fun c : Char => decide (c ≠ '[')) (l := n)
        (by rw [hD]; simp)
      simp only [hD, List.head_cons, decide_eq_false_iff_not, ne_eq, Decidable.not_not] at hx
      rw [hD, hx] at hd
      exact hd.symm

/-- **C52 (names).**  All consumers of one operator are counted together, and only those: the name
counted under is the part before the partition. -/
theorem C52_names (n op : List Char) :
    (Operator n op ↔ extractConsumerName n = op) ∧ (Operator n op ↔ operatorOf n = op) := by
  rw [operatorOf_eq, and_self]
  constructor
  · rintro ⟨hn, h⟩
    unfold extractConsumerName
    have hall : ∀ a ∈ op, decide (a ≠ '[') = true := by
      intro a ha; simp; rintro rfl; exact hn ha
    rcases h with rfl | ⟨rest, rfl⟩
    · have := List.takeWhile_append_of_pos (l₂ := []) hall
      simpa using this
    · rw [List.takeWhile_append_of_pos hall]
      simp
  · rintro rfl; exact takeWhile_spec n

/-! ### Sequences of calls -/

@[simp] theorem step_limit (p : Pool) (o : Op) : (p.step o).inner.limit = p.inner.limit := by
  cases o <;> simp only [Pool.step, Pool.grow, Pool.shrink, Pool.tryGrow, Pool.setGauge, Inner.grow,
    Inner.shrink, Inner.tryGrow]
  cases hl : p.inner.limit with
  | none => simp [Inner.grow, hl]
  | some l =>
    simp only
    split
    · rfl
    · exact hl

/-- **C52 (gauge).**  After every call, the gauge shows what is reserved in the wrapped pool. -/
theorem C52_gauge (p : Pool) (os : List Op) (o : Op) :
    (p.run (os ++ [o])).metrics.reserved = (p.run (os ++ [o])).inner.used := by
  induction os generalizing p with
  | nil =>
    cases o <;> rfl
  | cons x os ih => exact ih (p.step x)

theorem run_spec {l : Option Nat} {n m : Nat} {os : List Op} {rs : List Bool}
    (h : Hist l n os rs m) (p : Pool) (hl : p.inner.limit = l) (hn : p.inner.used = n) :
    (p.run os).inner.used = m ∧
    (∀ op r, (p.run os).metrics.allocated op r = p.metrics.allocated op r + asked op r os rs) ∧
    (∀ op, (p.run os).metrics.freed op = p.metrics.freed op + given op os) := by
  induction h generalizing p with
  | nil => simp [Pool.run, asked, given, hn]
  | @grow l n c k os rs m h ih =>
    obtain ⟨h1, h2, h3⟩ := ih (p.step (.grow c k)) (by simp [hl])
      (by simp [Pool.step, Pool.grow, Pool.setGauge, Inner.grow, hn])
    refine ⟨h1, fun op r => ?_, fun op => ?_⟩
    · simp only [Pool.run, h2, asked, operatorOf_eq]
      simp only [Pool.step, Pool.grow, Pool.setGauge, Metrics.registerAllocation]
      by_cases e : op = extractConsumerName c ∧ r = true
      · rw [if_pos e, if_pos ⟨e.1.symm, e.2.symm⟩]; omega
      · rw [if_neg e, if_neg (fun q => e ⟨q.1.symm, q.2.symm⟩)]; omega
    · simp only [Pool.run, h3, given, operatorOf_eq]
      simp [Pool.step, Pool.grow, Pool.setGauge, Metrics.registerAllocation]
  | @shrink l n c k os rs m hk h ih =>
    obtain ⟨h1, h2, h3⟩ := ih (p.step (.shrink c k)) (by simp [hl])
      (by simp [Pool.step, Pool.shrink, Pool.setGauge, Inner.shrink, hn])
    refine ⟨h1, fun op r => ?_, fun op => ?_⟩
    · simp only [Pool.run, h2, asked, operatorOf_eq]
      simp [Pool.step, Pool.shrink, Pool.setGauge, Metrics.registerDeallocation]
    · simp only [Pool.run, h3, given, operatorOf_eq]
      simp only [Pool.step, Pool.shrink, Pool.setGauge, Metrics.registerDeallocation]
      by_cases e : op = extractConsumerName c
      · rw [if_pos e, if_pos e.symm]; omega
      · rw [if_neg e, if_neg (fun q => e q.symm)]; omega
  | @got l n c k os rs m hk h ih =>
    have ht : p.inner.tryGrow k = (p.inner.grow k, true) := by
      unfold Inner.tryGrow
      rw [hl]
      cases l with
      | none => rfl
      | some b => simp only [hn]; rw [if_pos (hk b rfl)]
    obtain ⟨h1, h2, h3⟩ := ih (p.step (.tryGrow c k)) (by simp [hl])
      (by simp [Pool.step, Pool.tryGrow, ht, Pool.setGauge, Inner.grow, hn])
    refine ⟨h1, fun op r => ?_, fun op => ?_⟩
    · simp only [Pool.run, h2, asked, operatorOf_eq]
      simp only [Pool.step, Pool.tryGrow, ht, Pool.setGauge, Metrics.registerAllocation]
      by_cases e : op = extractConsumerName c ∧ r = true
      · rw [if_pos e, if_pos ⟨e.1.symm, e.2.symm⟩]; omega
      · rw [if_neg e, if_neg (fun q => e ⟨q.1.symm, q.2.symm⟩)]; omega
    · simp only [Pool.run, h3, given, operatorOf_eq]
      simp [Pool.step, Pool.tryGrow, Pool.setGauge, Metrics.registerAllocation]
  | @refused n b c k os rs m hk h ih =>
    have ht : p.inner.tryGrow k = (p.inner, false) := by
      unfold Inner.tryGrow
      rw [hl]
      simp only [hn]; rw [if_neg (by omega)]
    obtain ⟨h1, h2, h3⟩ := ih (p.step (.tryGrow c k)) (by simp [hl])
      (by simp [Pool.step, Pool.tryGrow, ht, Pool.setGauge, hn])
    refine ⟨h1, fun op r => ?_, fun op => ?_⟩
    · simp only [Pool.run, h2, asked, operatorOf_eq]
      simp only [Pool.step, Pool.tryGrow, ht, Pool.setGauge, Metrics.registerAllocation]
      by_cases e : op = extractConsumerName c ∧ r = false
      · rw [if_pos e, if_pos ⟨e.1.symm, e.2.symm⟩]; omega
      · rw [if_neg e, if_neg (fun q => e ⟨q.1.symm, q.2.symm⟩)]; omega
    · simp only [Pool.run, h3, given, operatorOf_eq]
      simp [Pool.step, Pool.tryGrow, Pool.setGauge, Metrics.registerAllocation]

/-- **C52 (counters).**  After any history of calls (no consumer gives back more than there is), the
pool has reserved what the history says, and the counters of an operator have grown by exactly what
its consumers asked for with that result and gave back. -/
theorem C52_counters {l : Option Nat} {os : List Op} {rs : List Bool} {m : Nat}
    (h : Hist l 0 os rs m) (c : Metrics) (op : List Char) :
    let p := (Pool.new ⟨0, l⟩ c).run os
    p.inner.used = m ∧
    (∀ r, p.metrics.allocated op r = c.allocated op r + asked op r os rs) ∧
    p.metrics.freed op = c.freed op + given op os := by
  obtain ⟨h1, h2, h3⟩ := run_spec h (Pool.new ⟨0, l⟩ c) rfl rfl
  exact ⟨h1, h2 op, h3 op⟩

/-- **C52 (balance).**  What is reserved is what was granted less what was given back. -/
theorem C52_balance {l : Option Nat} {n m : Nat} {os : List Op} {rs : List Bool}
    (h : Hist l n os rs m) : m + givenAll os = n + askedAll true os rs := by
  induction h with
  | nil => simp [givenAll, askedAll]
  | grow h ih => simp only [givenAll, askedAll, if_true]; omega
  | shrink hk h ih => simp only [givenAll, askedAll]; omega
  | got hk h ih => simp only [givenAll, askedAll, if_true]; omega
  | refused hk h ih => simp only [givenAll, askedAll, Bool.false_eq_true, if_false]; omega

/-- The gauge of a fresh pool after any non-empty history is the balance. -/
theorem C52_gauge_balance {l : Option Nat} {os : List Op} {rs : List Bool} {m : Nat}
    (h : Hist l 0 os rs m) (c : Metrics) :
    ((Pool.new ⟨0, l⟩ c).run os).metrics.reserved + givenAll os = askedAll true os rs := by
  have hb := C52_balance h
  have hu := (run_spec h (Pool.new ⟨0, l⟩ c) rfl rfl).1
  rcases List.eq_nil_or_concat os with rfl | ⟨os', o, rfl⟩
  · cases h; rfl
  · rw [List.concat_eq_append] at *
    rw [C52_gauge, hu]; omega

/-- **C52 (limit).**  As long as consumers only use `tryGrow`, no more than the limit is reserved. -/
theorem C52_limit {b n m : Nat} {os : List Op} {rs : List Bool} (h : Hist (some b) n os rs m)
    (hn : n ≤ b) (hg : ∀ c k, Op.grow c k ∉ os) : m ≤ b := by
  generalize hl : (some b : Option Nat) = l at h
  induction h with
  | nil => exact hn
  | grow h ih => exact absurd List.mem_cons_self (hg _ _)
  | shrink hk h ih => exact ih (by omega) (fun c k hm => hg c k (List.mem_cons_of_mem _ hm)) hl
  | got hk h ih =>
    exact ih (hk b hl.symm) (fun c k hm => hg c k (List.mem_cons_of_mem _ hm)) hl
  | refused hk h ih => exact ih hn (fun c k hm => hg c k (List.mem_cons_of_mem _ hm)) hl

/-- **C52 (failure).**  A refused reservation changes nothing but the error counter of its operator. -/
theorem C52_failed (p : Pool) (c : List Char) (n : Nat)
    (hg : p.metrics.reserved = p.inner.used) (h : (p.tryGrow c n).2 = false) :
    (p.tryGrow c n).1.inner = p.inner ∧
    (p.tryGrow c n).1.metrics.reserved = p.metrics.reserved ∧
    (p.tryGrow c n).1.metrics.freed = p.metrics.freed ∧
    ∀ op r, (p.tryGrow c n).1.metrics.allocated op r =
      p.metrics.allocated op r + if operatorOf c = op ∧ r = false then n else 0 := by
  have hi : p.inner.tryGrow n = (p.inner, false) := by
    simp only [Pool.tryGrow] at h
    unfold Inner.tryGrow at h ⊢
    cases hl : p.inner.limit with
    | none => simp [hl] at h
    | some b =>
      simp only [hl] at h ⊢
      split at h
      · simp at h
      · rename_i hb; rw [if_neg hb]
  simp only [Pool.tryGrow, hi, Pool.setGauge, Metrics.registerAllocation, hg, true_and]
  intro op r
  rw [operatorOf_eq]
  by_cases e : op = extractConsumerName c ∧ r = false
  · rw [if_pos e, if_pos ⟨e.1.symm, e.2⟩]
  · rw [if_neg e, if_neg (fun q => e ⟨q.1.symm, q.2⟩)]; rfl

/-- **C52 (counters only grow).** -/
theorem C52_monotone (p : Pool) (os : List Op) (op : List Char) (r : Bool) :
    p.metrics.allocated op r ≤ (p.run os).metrics.allocated op r ∧
    p.metrics.freed op ≤ (p.run os).metrics.freed op := by
  induction os generalizing p with
  | nil => exact ⟨Nat.le_refl _, Nat.le_refl _⟩
  | cons o os ih =>
    obtain ⟨h1, h2⟩ := ih (p.step o)
    refine ⟨Nat.le_trans ?_ h1, Nat.le_trans ?_ h2⟩ <;>
      cases o <;> simp only [Pool.step, Pool.grow, Pool.shrink, Pool.tryGrow, Pool.setGauge,
        Metrics.registerAllocation, Metrics.registerDeallocation] <;>
      first | exact Nat.le_refl _ | (split <;> omega)

/-- The history of the repository's own test. -/
example : Hist (some 16) 0
    [.grow "SomeConsumer[20]".toList 8, .tryGrow "SomeConsumer[20]".toList 8,
      .tryGrow "SomeConsumer[20]".toList 1, .shrink "SomeConsumer[20]".toList 16]
    [true, true, false, true] 0 :=
  .grow (.got (by simp) (.refused (by omega) (.shrink (by omega) .nil)))
example : Operator "SomeConsumer[20]".toList "SomeConsumer".toList := by
  rw [(C52_names _ _).2]; decide +kernel
example : extractConsumerName "Sort".toList = "Sort".toList := by decide +kernel

/-! ### Concurrent calls -/

/-- **C52 (any one call running alone)**: whatever the other calls did before, a call that runs
without interruption leaves the gauge exact. -/
theorem C52_recovers (s : Shared) (k : Nat) (o : Op) (h : s.calls[k]? = some (.start o)) :
    (s.run [k, k, k]).gauge = (s.run [k, k, k]).inner.used ∧
    (s.run [k, k, k]).inner = s.inner.apply o := by
  have hk : k < s.calls.length := (List.getElem?_eq_some_iff.1 h).1
  have e1 : s.step k = { s with inner := s.inner.apply o, calls := s.calls.set k .read } := by
    simp only [Shared.step, h]
  have e2 : (s.step k).step k = ⟨s.inner.apply o, s.gauge,
      (s.calls.set k .read).set k (Pc.set (s.inner.apply o).used)⟩ := by
    rw [e1]; simp only [Shared.step, List.getElem?_set_self hk]
  have e3 : (s.run [k, k, k]).gauge = (s.inner.apply o).used ∧
      (s.run [k, k, k]).inner = s.inner.apply o := by
    simp only [Shared.run, e2]
    have hk' : k < (s.calls.set k .read).length := by simpa using hk
    simp only [Shared.step, List.getElem?_set_self hk', and_self]
  exact ⟨by rw [e3.1, e3.2], e3.2⟩

/-- **C52 is violated under concurrency**: two calls reserve 8 and 1 bytes; the first reads the pool
before the second touches it and sets the gauge after the second did.  All calls are done, 9 bytes
are reserved, the gauge shows 8 and keeps showing it until the next call. -/
theorem C52_violated_race :
    let s : Shared := ⟨⟨0, some 16⟩, 0, [.start (.grow ['a'] 8), .start (.grow ['b'] 1)]⟩
    let t := s.run [0, 0, 1, 1, 1, 0]
    (∀ c ∈ t.calls, c = .done) ∧ t.inner.used = 9 ∧ t.gauge = 8 := by
  decide

/-- **C52 is violated under concurrency, for every pair of calls**: whatever the pool holds and whatever two calls do, if the
second changes the reserved bytes there is a schedule after which both are done and the gauge shows the bytes of before the
second call. -/
theorem C52_violated_race_always (i : Inner) (g : Nat) (o o' : Op)
    (h : ((i.apply o).apply o').used ≠ (i.apply o).used) :
    let t := (Shared.mk i g [.start o, .start o']).run [0, 0, 1, 1, 1, 0]
    (∀ c ∈ t.calls, c = .done) ∧ t.inner = (i.apply o).apply o' ∧ t.gauge = (i.apply o).used ∧ t.gauge ≠ t.inner.used := by
  simp [Shared.run, Shared.step, h.symm]

/-- A call that runs its three steps without another call in between. -/
def thrice (k : Nat) : List Nat := [k, k, k]

/-- **C52 (calls one after the other).** If no call is interrupted by another one, the gauge is exact after each of them. -/
theorem C52_gauge_undisturbed (s : Shared) (ks : List Nat) (h : s.gauge = s.inner.used)
    (hc : ∀ c ∈ s.calls, c = .done ∨ ∃ o, c = .start o) :
    (s.run (ks.flatMap thrice)).gauge = (s.run (ks.flatMap thrice)).inner.used := by
  induction ks generalizing s with
  | nil => exact h
  | cons k ks ih =>
    have hr : s.run ((k :: ks).flatMap thrice) = (s.run [k, k, k]).run (ks.flatMap thrice) := rfl
    rw [hr]
    cases hk : s.calls[k]? with
    | none =>
      have e : s.step k = s := by simp [Shared.step, hk]
      have : s.run [k, k, k] = s := by simp [Shared.run, e]
      rw [this]; exact ih s h hc
    | some c =>
      have hlt : k < s.calls.length := (List.getElem?_eq_some_iff.1 hk).1
      rcases hc c (List.mem_of_getElem? hk) with rfl | ⟨o, rfl⟩
      · have e : s.step k = s := by simp [Shared.step, hk]
        have : s.run [k, k, k] = s := by simp [Shared.run, e]
        rw [this]; exact ih s h hc
      · refine ih _ (C52_recovers s k o hk).1 ?_
        intro c hcm
        have e1 : s.step k = { s with inner := s.inner.apply o, calls := s.calls.set k .read } := by
          simp only [Shared.step, hk]
        have hcs : (s.run [k, k, k]).calls = ((s.calls.set k .read).set k (Pc.set (s.inner.apply o).used)).set k .done := by
          simp only [Shared.run, e1]
          simp [Shared.step, hlt]
        rw [hcs, List.set_set, List.set_set] at hcm
        rcases List.mem_or_eq_of_mem_set hcm with hm | hm
        · exact hc c hm
        · exact Or.inl hm

example : ((Shared.mk ⟨0, some 16⟩ 0 [.start (.grow ['a'] 8), .start (.tryGrow ['b'] 9), .start (.shrink ['a'] 3)]).run
    ([0, 2, 1].flatMap thrice)).gauge = 14 := by decide
example : (((⟨4, some 16⟩ : Inner).apply (.grow ['a'] 8)).apply (.shrink ['b'] 3)).used ≠
    ((⟨4, some 16⟩ : Inner).apply (.grow ['a'] 8)).used := by decide

theorem apply_step (p : Pool) (o : Op) : (p.step o).inner = p.inner.apply o := by
  cases o <;> rfl

theorem apply_run (p : Pool) (os : List Op) : (p.run os).inner = os.foldl Inner.apply p.inner := by
  induction os generalizing p with
  | nil => rfl
  | cons o os ih => rw [Pool.run, ih, apply_step]; rfl

/-- With any interleaving the reserved bytes themselves stay exact: they only depend on the order in
which the calls touched the wrapped pool, and are those of the same calls one after the other. -/
theorem C52_inner_exact (s : Shared) (ks : List Nat) (m : Metrics) :
    ∃ os : List Op, (s.run ks).inner = (Pool.run ⟨s.inner, m⟩ os).inner ∧
      (∀ o ∈ os, Pc.start o ∈ s.calls) := by
  simp only [apply_run]
  induction ks generalizing s with
  | nil => exact ⟨[], rfl, by simp⟩
  | cons k ks ih =>
    obtain ⟨os, h1, h2⟩ := ih (s.step k)
    unfold Shared.run
    have keep : ∀ (x : Pc) (o : Op), x ≠ .start o → Pc.start o ∈ s.calls.set k x →
        Pc.start o ∈ s.calls := by
      intro x o hx hm
      rcases List.mem_or_eq_of_mem_set hm with h | h
      · exact h
      · exact absurd h.symm hx
    cases hk : s.calls[k]? with
    | none =>
      have : s.step k = s := by simp [Shared.step, hk]
      rw [this] at h1 h2 ⊢; exact ⟨os, h1, h2⟩
    | some c =>
      cases c with
      | done =>
        have : s.step k = s := by simp [Shared.step, hk]
        rw [this] at h1 h2 ⊢; exact ⟨os, h1, h2⟩
      | start o =>
        refine ⟨o :: os, ?_, ?_⟩
        · rw [h1]; simp [Shared.step, hk]
        · intro o' ho'
          rcases List.mem_cons.1 ho' with rfl | ho'
          · exact List.mem_of_getElem? hk
          · have := h2 o' ho'
            simp only [Shared.step, hk] at this
            exact keep _ _ (by simp) this
      | read =>
        refine ⟨os, by rw [h1]; simp [Shared.step, hk], fun o' ho' => ?_⟩
        have := h2 o' ho'
        simp only [Shared.step, hk] at this
        exact keep _ _ (by simp) this
      | set v =>
        refine ⟨os, by rw [h1]; simp [Shared.step, hk], fun o' ho' => ?_⟩
        have := h2 o' ho'
        simp only [Shared.step, hk] at this
        exact keep _ _ (by simp) this

/-! ### The size of the pool -/

/-- **C52_size_partial.**  With a limit below 2^44 MiB the pool is given the wanted fraction of the
limit.  Missing: larger limits. -/
theorem C52_size_partial (round : Nat → Nat) {m : Nat} (h : m < 2 ^ 44) :
    poolSize round m = round (m * 1048576) := by
  unfold poolSize
  rw [Nat.mod_eq_of_lt (by omega)]

/-- **Violated for larger limits**: a limit of 2^44 MiB (accepted by the configuration check) gives a
pool of size 0. -/
theorem C52_violated_size (round : Nat → Nat) (h0 : round 0 = 0) : poolSize round (2 ^ 44) = 0 := by
  unfold poolSize
  simp [h0]

end Seafowl.MemPool
