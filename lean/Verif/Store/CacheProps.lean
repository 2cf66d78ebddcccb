import Verif.Store.Cache

/-!
# The object cache (C22-C24)
-/

namespace Seafowl.Store

variable {α : Type}

/-- The bytes of an object from `a` up to `b`. -/
def slice (obj : List α) (a b : Nat) : List α := (obj.drop a).take (b - a)

/-- Every cache entry and cache file of the chunks in `P` holds the bytes of that chunk. -/
def Good (P : Nat → Prop) (m : Nat) (obj : List α) (s : CState α) : Prop :=
  ∀ k, P k → (∀ d, s.entries k = some (.mem d) → d = slice obj (k * m) ((k + 1) * m)) ∧
    (∀ d, s.files k = some d → d = slice obj (k * m) ((k + 1) * m))

/-- What other tasks put into the cache for the chunks in `P` are the bytes of the object, and files are
written in one go (`partialWrite` of less than the whole chunk is excluded). -/
def HonestEv (P : Nat → Prop) (m : Nat) (obj : List α) : Ev α → Prop
  | .insert k d => P k → d = slice obj (k * m) ((k + 1) * m)
  | .wrote k d => P k → d = slice obj (k * m) ((k + 1) * m)
  | .partialWrite k d => P k → d = slice obj (k * m) ((k + 1) * m)
  | _ => True

theorem Good.applyEv {P : Nat → Prop} {m : Nat} {obj : List α} {s : CState α} (h : Good P m obj s) {e : Ev α}
    (he : HonestEv P m obj e) : Good P m obj (applyEv s e) := by
  intro i hi
  obtain ⟨h1, h2⟩ := h i hi
  cases e with
  | evict k =>
    simp only [Store.applyEv]
    refine ⟨?_, ?_⟩
    · intro d; simp only [upd]; split
      · simp
      · exact h1 d
    · intro d
      rcases s.entries k with _ | (_ | _)
      · exact h2 d
      · exact h2 d
      · simp only [upd]; split
        · simp
        · exact h2 d
  | insert k d0 =>
    simp only [Store.applyEv]
    split
    · refine ⟨?_, h2⟩
      intro d; simp only [upd]; split
      · next hk =>
        intro hd
        simp only [Option.some.injEq, CVal.mem.injEq] at hd
        subst hk hd
        exact he hi
      · exact h1 d
    · exact ⟨h1, h2⟩
  | wrote k d0 =>
    simp only [Store.applyEv]
    refine ⟨?_, ?_⟩
    · intro d; simp only [upd]; split
      · simp
      · exact h1 d
    · intro d
      have hw : upd s.files k (some d0) i = some d → d = slice obj (i * m) ((i + 1) * m) := by
        simp only [upd]; split
        · next hk =>
          intro hd
          simp only [Option.some.injEq] at hd
          subst hk hd
          exact he hi
        · exact h2 d
      rcases s.entries k with _ | (_ | _)
      · exact hw
      · exact hw
      · simp only [upd]; split
        · simp
        · exact h2 d
  | writeFailed k =>
    simp only [Store.applyEv]
    refine ⟨?_, ?_⟩
    · intro d; simp only [upd]; split
      · simp
      · exact h1 d
    · intro d
      rcases s.entries k with _ | (_ | _)
      · exact h2 d
      · exact h2 d
      · simp only [upd]; split
        · simp
        · exact h2 d
  | fileLost k =>
    refine ⟨h1, ?_⟩
    intro d; simp only [Store.applyEv, upd]; split
    · simp
    · exact h2 d
  | partialWrite k d0 =>
    refine ⟨h1, ?_⟩
    intro d; simp only [Store.applyEv, upd]; split
    · next hk =>
      intro hd
      simp only [Option.some.injEq] at hd
      subst hk hd
      exact he hi
    · exact h2 d

theorem Good.applyEvs {P : Nat → Prop} {m : Nat} {obj : List α} {s : CState α} (h : Good P m obj s)
    {es : List (Ev α)} (he : ∀ e ∈ es, HonestEv P m obj e) : Good P m obj (applyEvs s es) := by
  induction es generalizing s with
  | nil => exact h
  | cons e es ih => exact ih (h.applyEv (he e (by simp))) (fun e' h' => he e' (by simp [h']))

/-- The cache is good and stays so whatever the environment does. -/
structure Safe (P : Nat → Prop) (m : Nat) (obj : List α) (st : RState α) : Prop where
  good : Good P m obj st.cache
  honest : ∀ evs ∈ st.envs, ∀ e ∈ evs, HonestEv P m obj e

theorem Safe.interfere {P : Nat → Prop} {m : Nat} {obj : List α} {st : RState α} (h : Safe P m obj st) :
    Safe P m obj (interfere st) := by
  refine ⟨?_, fun evs he => h.honest evs (List.mem_of_mem_tail he)⟩
  apply h.good.applyEvs
  intro e he
  cases hs : st.envs with
  | nil => rw [hs] at he; cases he
  | cons a as => rw [hs] at he; exact h.honest a (by simp [hs]) e he

theorem slice_append (obj : List α) {a b c : Nat} (h1 : a ≤ b) (h2 : b ≤ c) :
    slice obj a b ++ slice obj b c = slice obj a c := by
  simp only [slice]
  have : c - a = (b - a) + (c - b) := by omega
  rw [this, List.take_add, List.drop_drop]
  congr 4
  omega

theorem slice_length (obj : List α) (a b : Nat) : (slice obj a b).length = min (b - a) (obj.length - a) := by
  simp [slice]

theorem tryFetch_spec {obj : List α} {s e : Nat} {st st' : RState α} {d : List α}
    (h : tryFetch obj s e st = some (d, st')) :
    d = slice obj s e ∧ s < e ∧ s < obj.length ∧ st'.cache = (interfere st).cache ∧
      st'.envs = (interfere st).envs ∧ st'.result = st.result ∧ st'.batch = st.batch ∧
      st'.reqs = st.reqs ++ [(s, e)] := by
  simp only [tryFetch] at h
  split at h
  · cases h
  · simp only [fetch, innerGet] at h
    split at h
    · cases h
    · next d' hd =>
      split at hd
      · next hc =>
        injection hd with hd
        simp only [Option.some.injEq, Prod.mk.injEq] at h
        obtain ⟨rfl, rfl⟩ := h
        exact ⟨hd.symm, hc.1, hc.2, rfl, rfl, rfl, rfl, rfl⟩
      · cases hd

theorem Safe.fetch {P : Nat → Prop} {m : Nat} {obj : List α} {st st' : RState α} {s e : Nat} {d : List α}
    (h : Safe P m obj st) (hf : tryFetch obj s e st = some (d, st')) : Safe P m obj st' := by
  obtain ⟨_, _, _, h1, h2, _⟩ := tryFetch_spec hf
  exact ⟨by rw [h1]; exact h.interfere.good, by rw [h2]; exact h.interfere.honest⟩

theorem Safe.cacheChunk {P : Nat → Prop} {m : Nat} {obj : List α} {st : RState α} (h : Safe P m obj st)
    {k : Nat} {d : List α} (hd : P k → d = slice obj (k * m) ((k + 1) * m)) : Safe P m obj (cacheChunk st k d) :=
  ⟨h.interfere.good.applyEv hd, h.interfere.honest⟩

/-- Looking up a chunk. -/
theorem lookupChunk_spec {P : Nat → Prop} {m : Nat} {obj : List α} {k : Nat} (hk : P k) {st st' : RState α}
    {data : Option (List α)} (hs : Safe P m obj st) (h : lookupChunk m obj k st = some (data, st')) :
    Safe P m obj st' ∧ st'.result = st.result ∧
      (data = none → st'.batch = st.batch ++ [k]) ∧
      (∀ d, data = some d → st'.batch = st.batch ∧ d = slice obj (k * m) ((k + 1) * m)) := by
  have h1 := hs.interfere
  simp only [lookupChunk] at h
  split at h
  · simp only [Option.some.injEq, Prod.mk.injEq] at h
    obtain ⟨rfl, rfl⟩ := h
    exact ⟨⟨h1.good, h1.honest⟩, rfl, fun _ => rfl, by simp⟩
  · next d hd =>
    simp only [Option.some.injEq, Prod.mk.injEq] at h
    obtain ⟨rfl, rfl⟩ := h
    refine ⟨h1, rfl, by simp, ?_⟩
    intro d' hd'
    injection hd' with hd'
    subst hd'
    exact ⟨rfl, (h1.good k hk).1 d hd⟩
  · have h2 := h1.interfere
    split at h
    · next d hd =>
      simp only [Option.some.injEq, Prod.mk.injEq] at h
      obtain ⟨rfl, rfl⟩ := h
      refine ⟨h2, rfl, by simp, ?_⟩
      intro d' hd'
      injection hd' with hd'
      subst hd'
      exact ⟨rfl, (h2.good k hk).2 d hd⟩
    · split at h
      · cases h
      · next d st2 hf =>
        simp only [Option.some.injEq, Prod.mk.injEq] at h
        obtain ⟨rfl, rfl⟩ := h
        obtain ⟨e1, _, _, _, _, e2, e3, _⟩ := tryFetch_spec hf
        refine ⟨(h2.fetch hf).cacheChunk (fun _ => e1), ?_, by simp, ?_⟩
        · exact e2
        · intro d' hd'
          injection hd' with hd'
          subst hd'
          exact ⟨e3, e1⟩

theorem splitBatch_spec {m : Nat} {obj : List α} : ∀ (n b : Nat) (d : List α), 0 < m →
    d = slice obj (b * m) ((b + n) * m) → (b + n - 1) * m < obj.length →
    ∀ p ∈ splitBatch m (List.range' b n) d, p.2 = slice obj (p.1 * m) ((p.1 + 1) * m) := by
  intro n
  induction n with
  | zero => intro b d _ _ _ p hp; simp [splitBatch] at hp
  | succ n ih =>
    intro b d hm hd hlen p hp
    rw [List.range'_succ] at hp
    simp only [splitBatch] at hp
    have hdl : d.length = min ((b + (n + 1)) * m - b * m) (obj.length - b * m) := by rw [hd, slice_length]
    have hbm : (b + (n + 1)) * m - b * m = (n + 1) * m := by
      rw [Nat.add_mul]; omega
    rw [hbm] at hdl
    have hlast : (b + (n + 1) - 1) * m = b * m + n * m := by
      rw [show b + (n + 1) - 1 = b + n by omega, Nat.add_mul]
    rw [hlast] at hlen
    split at hp
    · next hlt =>
      have hn : n = 0 := by
        rcases Nat.eq_zero_or_pos n with h | h
        · exact h
        · exfalso
          have h1 : m ≤ n * m := Nat.le_mul_of_pos_left m h
          have h2 : m ≤ (n + 1) * m := Nat.le_mul_of_pos_left m (by omega)
          omega
      subst hn
      simp only [List.range'_zero, splitBatch, List.mem_singleton] at hp
      subst hp
      exact hd
    · next hge =>
      have hsplit := slice_append obj (a := b * m) (b := (b + 1) * m) (c := (b + (n + 1)) * m)
        (by rw [Nat.add_mul]; omega) (Nat.mul_le_mul_right m (by omega))
      have hfirst : (slice obj (b * m) ((b + 1) * m)).length = m := by
        rw [slice_length]
        have : (b + 1) * m - b * m = m := by rw [Nat.add_mul]; omega
        omega
      rcases List.mem_cons.1 hp with rfl | hp
      · simp only
        rw [hd, ← hsplit, List.take_append_of_le_length (by omega), List.take_of_length_le (by omega)]
      · refine ih (b + 1) (d.drop m) hm ?_ ?_ p hp
        · rw [hd, ← hsplit, List.drop_append_of_le_length (by omega), List.drop_of_length_le (by omega),
            List.nil_append, show b + (n + 1) = b + 1 + n by omega]
        · rw [show b + 1 + n - 1 = b + n by omega, Nat.add_mul]; omega

theorem foldl_cacheChunk {P : Nat → Prop} {m : Nat} {obj : List α} (l : List (Nat × List α)) :
    ∀ st : RState α, Safe P m obj st → (∀ p ∈ l, p.2 = slice obj (p.1 * m) ((p.1 + 1) * m)) →
      Safe P m obj (l.foldl (fun s p => cacheChunk s p.1 p.2) st) ∧
      (l.foldl (fun s p => cacheChunk s p.1 p.2) st).result = st.result := by
  induction l with
  | nil => intro st h _; exact ⟨h, rfl⟩
  | cons p l ih =>
    intro st h hp
    exact ih _ (h.cacheChunk (fun _ => hp p (by simp))) (fun q hq => hp q (by simp [hq]))

theorem flushBatch_spec {P : Nat → Prop} {m : Nat} {obj : List α} {sc b k : Nat} {st st' : RState α} (hm : 0 < m)
    (hs : Safe P m obj st) (hb : b ≤ k) (hsc : sc ≤ b) (hbatch : st.batch = List.range' b (k - b))
    (hres : st.result = slice obj (sc * m) (b * m)) (hk : (k - 1) * m < obj.length)
    (h : flushBatch m obj st = some st') :
    Safe P m obj st' ∧ st'.batch = [] ∧ st'.result = slice obj (sc * m) (k * m) := by
  simp only [flushBatch] at h
  rcases Nat.eq_or_lt_of_le hb with heq | hlt
  · subst heq
    rw [hbatch] at h
    simp only [Nat.sub_self, List.range'_zero, List.head?_nil, List.getLast?_nil, Option.some.injEq] at h
    subst h
    exact ⟨hs, by rw [hbatch]; simp, hres⟩
  · obtain ⟨n, hn⟩ : ∃ n, k - b = n + 1 := ⟨k - b - 1, by omega⟩
    have hhead : st.batch.head? = some b := by rw [hbatch, hn, List.range'_succ]; rfl
    have hlast : st.batch.getLast? = some (b + n) := by
      rw [hbatch, hn, List.range'_concat, List.getLast?_concat]
      simp
    rw [hhead, hlast] at h
    simp only at h
    split at h
    · cases h
    · next d st2 hf =>
      obtain ⟨e1, _, _, _, _, e2, e3, _⟩ := tryFetch_spec hf
      simp only [Option.some.injEq] at h
      subst h
      have hk' : (b + n + 1) = k := by omega
      rw [hk'] at e1
      have hsp := splitBatch_spec (obj := obj) (n + 1) b d hm (by rw [e1, show b + (n + 1) = k by omega])
        (by rw [show b + (n + 1) - 1 = k - 1 by omega]; exact hk)
      have hb2 : st2.batch = List.range' b (n + 1) := by rw [e3, hbatch, hn]
      rw [hb2]
      have := foldl_cacheChunk (P := P) (splitBatch m (List.range' b (n + 1)) d)
        { st2 with result := st2.result ++ d, batch := List.range' b (n + 1) }
        ⟨(hs.fetch hf).good, (hs.fetch hf).honest⟩ hsp
      refine ⟨⟨this.1.good, this.1.honest⟩, rfl, ?_⟩
      rw [this.2]
      simp only
      rw [e2, hres, e1]
      exact slice_append obj (Nat.mul_le_mul_right m hsc) (Nat.mul_le_mul_right m hb)

theorem chunkLoop_spec {P : Nat → Prop} {m : Nat} {obj : List α} {sc : Nat} (hm : 0 < m) :
    ∀ (n k b : Nat) (st st' : RState α), (∀ i, k ≤ i → i < k + n → P i) → Safe P m obj st → sc ≤ b → b ≤ k →
      st.batch = List.range' b (k - b) → st.result = slice obj (sc * m) (b * m) → (n = 0 → b = k) →
      (k + n - 1) * m < obj.length →
      chunkLoop m obj (List.range' k n) st = some st' →
      Safe P m obj st' ∧ st'.result = slice obj (sc * m) ((k + n) * m) := by
  intro n
  induction n with
  | zero =>
    intro k b st st' _ hs hsc hbk hb hr h0 _ h
    simp only [List.range'_zero, chunkLoop, Option.some.injEq] at h
    subst h
    refine ⟨hs, ?_⟩
    rw [hr, h0 rfl]
    rfl
  | succ n ih =>
    intro k b st st' hP hs hsc hbk hb hr _ hlen h
    rw [List.range'_succ] at h
    simp only [chunkLoop] at h
    split at h
    · cases h
    · next data st1 hl =>
      obtain ⟨l1, l2, l3, l4⟩ := lookupChunk_spec (hP k (by omega) (by omega)) hs hl
      have hkm : k * m < obj.length := by
        apply Nat.lt_of_le_of_lt _ hlen
        exact Nat.mul_le_mul_right m (by omega)
      have hkm1 : (k - 1) * m < obj.length := by
        apply Nat.lt_of_le_of_lt _ hkm
        exact Nat.mul_le_mul_right m (by omega)
      have hP' : ∀ i, k + 1 ≤ i → i < k + 1 + n → P i := fun i h1 h2 => hP i (by omega) (by omega)
      have hlen' : (k + 1 + n - 1) * m < obj.length := by
        rw [show k + 1 + n - 1 = k + (n + 1) - 1 by omega]; exact hlen
      cases data with
      | some d =>
        obtain ⟨e1, e2⟩ := l4 d rfl
        simp only [Option.isSome_some, Bool.true_or, if_true] at h
        split at h
        · cases h
        · next st2 hf =>
          obtain ⟨f1, f2, f3⟩ := flushBatch_spec hm l1 hbk hsc (by rw [e1]; exact hb) (by rw [l2]; exact hr) hkm1 hf
          have := ih (k + 1) (k + 1) { st2 with result := st2.result ++ d } st' hP' ⟨f1.good, f1.honest⟩
            (by omega) (Nat.le_refl _) (by simp [f2])
            (by
              simp only
              rw [f3, e2]
              exact slice_append obj (Nat.mul_le_mul_right m (by omega)) (Nat.mul_le_mul_right m (by omega)))
            (fun _ => rfl) hlen' h
          rw [show k + (n + 1) = k + 1 + n by omega]
          exact this
      | none =>
        have e1 := l3 rfl
        have hb1 : st1.batch = List.range' b (k + 1 - b) := by
          rw [e1, hb, show k + 1 - b = (k - b) + 1 by omega, List.range'_concat]
          simp only [Nat.one_mul]
          rw [show b + (k - b) = k by omega]
        by_cases hn : n = 0
        · subst hn
          simp only [List.range'_zero, List.isEmpty_nil, Bool.or_true, if_true] at h
          split at h
          · cases h
          · next st2 hf =>
            obtain ⟨f1, f2, f3⟩ := flushBatch_spec (k := k + 1) hm l1 (by omega) hsc hb1 (by rw [l2]; exact hr)
              (by simpa using hkm) hf
            simp only [chunkLoop, Option.some.injEq] at h
            subst h
            exact ⟨f1, f3⟩
        · have hne : (List.range' (k + 1) n).isEmpty = false := by
            cases n with
            | zero => exact absurd rfl hn
            | succ n => rw [List.range'_succ]; rfl
          simp only [Option.isSome_none, hne, Bool.or_self, Bool.false_eq_true, if_false] at h
          have := ih (k + 1) b st1 st' hP' l1 hsc (by omega) hb1 (by rw [l2]; exact hr)
            (fun h0 => absurd h0 hn) hlen' h
          rw [show k + (n + 1) = k + 1 + n by omega]
          exact this

theorem Safe.failedFetch {P : Nat → Prop} {m : Nat} {obj : List α} {st : RState α} (h : Safe P m obj st)
    (s e : Nat) : Safe P m obj (failedFetch s e st) := ⟨h.interfere.good, h.interfere.honest⟩

/-- What a read that fails leaves behind is good as well. -/
theorem leftover_spec {P : Nat → Prop} {m : Nat} {obj : List α} {sc : Nat} (hm : 0 < m) :
    ∀ (n k b : Nat) (st : RState α), (∀ i, k ≤ i → i < k + n → P i) → Safe P m obj st → sc ≤ b → b ≤ k →
      st.batch = List.range' b (k - b) → st.result = slice obj (sc * m) (b * m) → (n = 0 → b = k) →
      (k + n - 1) * m < obj.length → Safe P m obj (leftover m obj (List.range' k n) st) := by
  intro n
  induction n with
  | zero => intro k b st _ hs _ _ _ _ _ _; exact hs
  | succ n ih =>
    intro k b st hP hs hsc hbk hb hr _ hlen
    rw [List.range'_succ]
    simp only [leftover]
    split
    · exact hs.interfere.interfere.failedFetch _ _
    · next data st1 hl =>
      obtain ⟨l1, l2, l3, l4⟩ := lookupChunk_spec (hP k (by omega) (by omega)) hs hl
      have hkm : k * m < obj.length := by
        apply Nat.lt_of_le_of_lt _ hlen
        exact Nat.mul_le_mul_right m (by omega)
      have hkm1 : (k - 1) * m < obj.length := by
        apply Nat.lt_of_le_of_lt _ hkm
        exact Nat.mul_le_mul_right m (by omega)
      have hP' : ∀ i, k + 1 ≤ i → i < k + 1 + n → P i := fun i h1 h2 => hP i (by omega) (by omega)
      have hlen' : (k + 1 + n - 1) * m < obj.length := by
        rw [show k + 1 + n - 1 = k + (n + 1) - 1 by omega]; exact hlen
      cases data with
      | some d =>
        obtain ⟨e1, e2⟩ := l4 d rfl
        simp only [Option.isSome_some, Bool.true_or, if_true]
        split
        · exact l1.failedFetch _ _
        · next st2 hf =>
          obtain ⟨f1, f2, f3⟩ := flushBatch_spec hm l1 hbk hsc (by rw [e1]; exact hb) (by rw [l2]; exact hr) hkm1 hf
          exact ih (k + 1) (k + 1) { st2 with result := st2.result ++ d } hP' ⟨f1.good, f1.honest⟩
            (by omega) (Nat.le_refl _) (by simp [f2])
            (by
              simp only
              rw [f3, e2]
              exact slice_append obj (Nat.mul_le_mul_right m (by omega)) (Nat.mul_le_mul_right m (by omega)))
            (fun _ => rfl) hlen'
      | none =>
        have e1 := l3 rfl
        have hb1 : st1.batch = List.range' b (k + 1 - b) := by
          rw [e1, hb, show k + 1 - b = (k - b) + 1 by omega, List.range'_concat]
          simp only [Nat.one_mul]
          rw [show b + (k - b) = k by omega]
        by_cases hn : n = 0
        · subst hn
          simp only [List.range'_zero, List.isEmpty_nil, Bool.or_true, if_true]
          split
          · exact l1.failedFetch _ _
          · next st2 hf =>
            exact (flushBatch_spec (k := k + 1) hm l1 (by omega) hsc hb1 (by rw [l2]; exact hr)
              (by simpa using hkm) hf).1
        · have hne : (List.range' (k + 1) n).isEmpty = false := by
            cases n with
            | zero => exact absurd rfl hn
            | succ n => rw [List.range'_succ]; rfl
          simp only [Option.isSome_none, hne, Bool.or_self, Bool.false_eq_true, if_false]
          exact ih (k + 1) b st1 hP' l1 hsc (by omega) hb1 (by rw [l2]; exact hr) (fun h0 => absurd h0 hn) hlen'

/-- The result of a ranged read on a state whose relevant chunks are good. -/
theorem getRange_good {P : Nat → Prop} (m : Nat) (hm : 0 < m) (obj : List α) (cache : CState α)
    (envs : List (List (Ev α))) (fails : List Bool) (start stop : Nat) (hlt : start < stop) (hin : stop ≤ obj.length)
    (hP : ∀ i, start / m ≤ i → i ≤ (stop - 1) / m → P i) (hgood : Good P m obj cache)
    (hhon : ∀ evs ∈ envs, ∀ e ∈ evs, HonestEv P m obj e) :
    ((getRange m obj cache envs fails start stop).1 = .err ∨
      (getRange m obj cache envs fails start stop).1 = .ok (slice obj start stop)) ∧
    Good P m obj (getRange m obj cache envs fails start stop).2.cache := by
  simp only [getRange]
  rw [if_neg (by omega)]
  have hsc : start / m * m ≤ start := Nat.div_mul_le_self start m
  have hec : (stop - 1) / m * m ≤ stop - 1 := Nat.div_mul_le_self (stop - 1) m
  have hec2 : stop ≤ ((stop - 1) / m + 1) * m := by
    have := Nat.lt_mul_div_succ (stop - 1) hm
    rw [Nat.mul_comm] at this
    omega
  have hle : start / m ≤ (stop - 1) / m := Nat.div_le_div_right (by omega)
  generalize start / m = sc at *
  generalize (stop - 1) / m = ec at *
  split
  · exact ⟨Or.inl rfl, (leftover_spec (P := P) (sc := sc) hm _ sc sc _
      (fun i a b => hP i a (by omega)) ⟨hgood, hhon⟩ (Nat.le_refl _) (Nat.le_refl _) (by simp)
      (by simp [slice]) (fun h => by omega)
      (by rw [show sc + (ec + 1 - sc) - 1 = ec by omega]; omega)).good⟩
  · next st hl =>
    obtain ⟨h1, h2⟩ := chunkLoop_spec (P := P) (sc := sc) hm _ sc sc _ st
      (fun i a b => hP i a (by omega)) ⟨hgood, hhon⟩ (Nat.le_refl _) (Nat.le_refl _) (by simp)
      (by simp [slice]) (fun h => by omega)
      (by rw [show sc + (ec + 1 - sc) - 1 = ec by omega]; omega) hl
    rw [show sc + (ec + 1 - sc) = ec + 1 by omega] at h2
    have hsplit := slice_append obj hsc (Nat.le_trans (Nat.le_of_lt hlt) hec2)
    have hfl : (slice obj (sc * m) start).length = start - sc * m := by
      rw [slice_length]; omega
    rw [if_neg (by rw [h2, ← hsplit, List.length_append, hfl]; omega)]
    refine ⟨Or.inr ?_, h1.good⟩
    congr 1
    rw [h2, ← hsplit, List.drop_append_of_le_length (by omega), List.drop_of_length_le (by omega), List.nil_append]
    simp only [slice, List.take_take]
    rw [Nat.min_eq_left (by omega)]

/-- **C22**: a ranged read inside an immutable object returns exactly the requested bytes (or the error
of a failed backend request), whatever earlier reads, evictions, expirations, concurrent readers,
finished or failed disk writes and deleted files did to the cache before and during the read; and the
cache stays correct.  (Disk writes are assumed to be atomic, see `C22_violated_partial_write`.) -/
theorem C22_transparent_partial (m : Nat) (hm : 0 < m) (obj : List α) (history : List (Ev α)) (envs : List (List (Ev α)))
    (fails : List Bool) (start stop : Nat) (hlt : start < stop) (hin : stop ≤ obj.length)
    (hhist : ∀ e ∈ history, HonestEv (fun _ => True) m obj e)
    (hhon : ∀ evs ∈ envs, ∀ e ∈ evs, HonestEv (fun _ => True) m obj e) :
    ((getRange m obj (applyEvs CState.empty history) envs fails start stop).1 = .err ∨
      (getRange m obj (applyEvs CState.empty history) envs fails start stop).1 = .ok (slice obj start stop)) ∧
    Good (fun _ => True) m obj (getRange m obj (applyEvs CState.empty history) envs fails start stop).2.cache := by
  apply getRange_good m hm obj _ envs fails start stop hlt hin (fun _ _ _ => trivial) _ hhon
  apply Good.applyEvs _ hhist
  intro k _
  simp [CState.empty]

theorem chunkLoop_total {m : Nat} {obj : List α} : ∀ (ks : List Nat) (st : RState α),
    (∀ b ∈ st.fails, b = false) → 0 < m → (∀ k ∈ ks, k * m < obj.length) → (∀ k ∈ st.batch, k * m < obj.length) →
    (∀ a z, st.batch.head? = some a → st.batch.getLast? = some z → a ≤ z) →
    (st.batch ++ ks).Pairwise (· < ·) → ∃ st', chunkLoop m obj ks st = some st' := by
  have hfetch : ∀ (st : RState α) (s e : Nat), (∀ b ∈ st.fails, b = false) → s < e → s < obj.length →
      ∃ d st', tryFetch obj s e st = some (d, st') ∧ (∀ b ∈ st'.fails, b = false) ∧ st'.batch = st.batch := by
    intro st s e hf h1 h2
    have : st.fails.headD false = false := by
      cases hs : st.fails with
      | nil => rfl
      | cons a as => exact hf a (by simp [hs])
    simp only [tryFetch, this, Bool.false_eq_true, if_false, fetch, innerGet, h1, h2, and_self, if_true]
    refine ⟨_, _, rfl, ?_, rfl⟩
    intro b hb
    exact hf b (List.mem_of_mem_tail hb)
  intro ks
  induction ks with
  | nil => intro st _ _ _ _ _ _; exact ⟨st, rfl⟩
  | cons k ks ih =>
    intro st hf hm hks hb hbe hpw
    simp only [chunkLoop]
    have hlook : ∃ data st', lookupChunk m obj k st = some (data, st') ∧ (∀ b ∈ st'.fails, b = false) ∧
        (st'.batch = st.batch ∨ st'.batch = st.batch ++ [k]) := by
      simp only [lookupChunk]
      split
      · exact ⟨_, _, rfl, hf, Or.inr rfl⟩
      · exact ⟨_, _, rfl, hf, Or.inl rfl⟩
      · split
        · exact ⟨_, _, rfl, hf, Or.inl rfl⟩
        · obtain ⟨d, st', h1, h2, h3⟩ := hfetch (interfere (interfere st)) (k * m) ((k + 1) * m) hf
            (Nat.mul_lt_mul_of_pos_right (by omega) hm) (hks k (by simp))
          rw [h1]
          exact ⟨_, _, rfl, h2, Or.inl h3⟩
    obtain ⟨data, st1, h1, h2, h3⟩ := hlook
    rw [h1]
    simp only
    have hb1 : ∀ i ∈ st1.batch, i * m < obj.length := by
      intro i hi
      rcases h3 with h3 | h3
      · rw [h3] at hi; exact hb i hi
      · rw [h3] at hi
        rcases List.mem_append.1 hi with hi | hi
        · exact hb i hi
        · simp only [List.mem_singleton] at hi; subst hi; exact hks _ (by simp)
    have hpw1 : (st1.batch ++ ks).Pairwise (· < ·) := by
      rcases h3 with h3 | h3
      · rw [h3]
        refine hpw.sublist ?_
        exact List.Sublist.append_left (List.sublist_cons_self _ _) _
      · rw [h3, List.append_assoc]; exact hpw
    have hbe1 : ∀ a z, st1.batch.head? = some a → st1.batch.getLast? = some z → a ≤ z := by
      intro a z ha hz
      have hp := (List.pairwise_append.1 hpw1).1
      cases hbt : st1.batch with
      | nil => rw [hbt] at ha; cases ha
      | cons x xs =>
        rw [hbt] at ha hz hp
        simp only [List.head?_cons, Option.some.injEq] at ha
        subst ha
        rcases List.mem_cons.1 (List.mem_of_getLast? hz) with h | h
        · omega
        · exact Nat.le_of_lt ((List.pairwise_cons.1 hp).1 z h)
    have hfold : ∀ (l : List (Nat × List α)) (st : RState α), (∀ b ∈ st.fails, b = false) →
        ∀ b ∈ (l.foldl (fun s p => cacheChunk s p.1 p.2) st).fails, b = false := by
      intro l
      induction l with
      | nil => intro st h; exact h
      | cons p l ih => intro st h; exact ih _ h
    have hflush : ∃ st2, flushBatch m obj st1 = some st2 ∧ (∀ b ∈ st2.fails, b = false) ∧ st2.batch = [] := by
      simp only [flushBatch]
      split
      · next a z ha hz =>
        have haz := hbe1 a z ha hz
        obtain ⟨d, st', g1, g2, g3⟩ := hfetch st1 (a * m) ((z + 1) * m) h2
          (Nat.mul_lt_mul_of_pos_right (by omega) hm) (hb1 a (List.mem_of_head? ha))
        rw [g1]
        refine ⟨_, rfl, ?_, rfl⟩
        exact hfold _ _ g2
      · next hno =>
        refine ⟨st1, rfl, h2, ?_⟩
        cases hbt : st1.batch with
        | nil => rfl
        | cons x xs =>
          exfalso
          have : st1.batch.getLast? ≠ none := by rw [hbt]; simp
          cases hl : st1.batch.getLast? with
          | none => exact this hl
          | some z => exact hno x z (by rw [hbt]; rfl) hl
    by_cases hc : (data.isSome || ks.isEmpty) = true
    · rw [if_pos hc]
      obtain ⟨st2, g1, g2, g3⟩ := hflush
      rw [g1]
      simp only
      apply ih
      · split <;> exact g2
      · exact hm
      · exact fun i hi => hks i (by simp [hi])
      · intro i hi; split at hi <;> (rw [g3] at hi; cases hi)
      · intro a z ha; split at ha <;> (rw [g3] at ha; cases ha)
      · split <;> (rw [g3]; exact (List.pairwise_append.1 hpw1).2.1)
    · rw [if_neg hc]
      simp only
      have hd : data = none := by
        cases data with
        | none => rfl
        | some d => simp at hc
      subst hd
      exact ih st1 h2 hm (fun i hi => hks i (by simp [hi])) hb1 hbe1 hpw1

/-- **C22**: the read does not fail unless a backend request does. -/
theorem C22_no_spurious_error_partial (m : Nat) (hm : 0 < m) (obj : List α) (history : List (Ev α))
    (envs : List (List (Ev α))) (start stop : Nat) (hlt : start < stop) (hin : stop ≤ obj.length)
    (hhist : ∀ e ∈ history, HonestEv (fun _ => True) m obj e)
    (hhon : ∀ evs ∈ envs, ∀ e ∈ evs, HonestEv (fun _ => True) m obj e) :
    (getRange m obj (applyEvs CState.empty history) envs [] start stop).1 = .ok (slice obj start stop) := by
  have h := (C22_transparent_partial m hm obj history envs [] start stop hlt hin hhist hhon).1
  rcases h with h | h
  · exfalso
    revert h
    simp only [getRange]
    rw [if_neg (by omega)]
    have hle : start / m ≤ (stop - 1) / m := Nat.div_le_div_right (by omega)
    have hec : (stop - 1) / m * m ≤ stop - 1 := Nat.div_mul_le_self (stop - 1) m
    obtain ⟨st', hst⟩ := chunkLoop_total (m := m) (obj := obj)
      (List.range' (start / m) ((stop - 1) / m + 1 - start / m))
      { cache := applyEvs CState.empty history, result := [], batch := [], reqs := [], envs := envs, fails := [] }
      (by simp) hm
      (by
        intro k hk
        rw [List.mem_range'_1] at hk
        have : k * m ≤ (stop - 1) / m * m := Nat.mul_le_mul_right m (by omega)
        omega)
      (by simp) (by simp) (by simp only [List.nil_append]; exact List.pairwise_lt_range')
    rw [hst]
    simp only
    split <;> simp
  · exact h

/-- Ten bytes in chunks of four; chunk 0 on disk, chunk 2 in memory, chunk 1 missing, and chunk 0 is
evicted between its lookup and the reading of the file. -/
example : (getRange 4 [0, 1, 2, 3, 4, 5, 6, 7, 8, 9]
    (applyEvs CState.empty [.insert 0 [0, 1, 2, 3], .wrote 0 [0, 1, 2, 3], .insert 2 [8, 9]])
    [[], [.evict 0]] [] 1 10).1 = .ok [1, 2, 3, 4, 5, 6, 7, 8, 9] ∧
    (getRange 4 [0, 1, 2, 3, 4, 5, 6, 7, 8, 9]
    (applyEvs CState.empty [.insert 0 [0, 1, 2, 3], .wrote 0 [0, 1, 2, 3], .insert 2 [8, 9]])
    [[], [.evict 0]] [] 1 10).2.reqs = [(0, 4), (4, 8)] := by decide +kernel

/-- **C22 is violated** when a cache file is read while another task is rewriting it: a reader has
looked up a file entry, the entry is evicted, another reader fetches the chunk again, and its write task
has written two of four bytes when the first reader opens the file.  The first reader returns data that
is too short. -/
theorem C22_violated_partial_write : ∃ (obj : List Nat) (history : List (Ev Nat)) (envs : List (List (Ev Nat))),
    (∀ e ∈ history, HonestEv (fun _ => True) 4 obj e) ∧
    envs = [[], [.evict 0, .insert 0 [0, 1, 2, 3], .partialWrite 0 [0, 1]]] ∧
    (getRange 4 obj (applyEvs CState.empty history) envs [] 0 4).1 = .ok [0, 1] := by
  refine ⟨[0, 1, 2, 3, 4, 5, 6, 7], [.insert 0 [0, 1, 2, 3], .wrote 0 [0, 1, 2, 3]], _, ?_, rfl, by decide +kernel⟩
  intro e he
  simp only [List.mem_cons, List.not_mem_nil, or_false] at he
  rcases he with rfl | rfl <;> (intro _; decide)

/-- Outside the claim: reading beyond the end of the object poisons the cache.  The first read returns
what the backing store would return, the second one returns two bytes too many. -/
theorem C22_past_end_poisons : ∃ obj : List Nat, obj.length = 10 ∧
    innerGet obj 0 16 = some obj ∧
    (getRange 4 obj CState.empty [] [] 0 16).1 = .ok obj ∧
    (getRange 4 obj (getRange 4 obj CState.empty [] [] 0 16).2.cache [] [] 0 16).1 = .ok (obj ++ [8, 9]) :=
  ⟨[0, 1, 2, 3, 4, 5, 6, 7, 8, 9], by decide +kernel⟩

/-- Outside the claim: an empty range at the start of the object panics. -/
theorem C22_empty_range_panics (m : Nat) (obj : List α) (cache : CState α) (envs : List (List (Ev α)))
    (fails : List Bool) : (getRange m obj cache envs fails 0 0).1 = .panic := by
  simp [getRange]

/-- Outside the claim: so do ranges that end at 0 or before they start, and any range for a cache that is
configured with chunks of 0 bytes. -/
theorem C22_malformed_panics (m : Nat) (obj : List α) (cache : CState α) (envs : List (List (Ev α)))
    (fails : List Bool) (start stop : Nat) (h : stop = 0 ∨ m = 0 ∨ stop < start) :
    (getRange m obj cache envs fails start stop).1 = .panic := by
  simp only [getRange]
  rw [if_pos h]

/-! ### C23 -/

/-- The cache has no data for a chunk: no entry, or an entry whose file is gone. -/
def Missing (s : CState α) (k : Nat) : Prop :=
  s.entries k = none ∨ (s.entries k = some .file ∧ s.files k = none)

instance (s : CState α) (k : Nat) : Decidable (Missing s k) := by
  unfold Missing
  cases h1 : s.entries k with
  | none => exact isTrue (by simp)
  | some v =>
    cases v with
    | mem d => exact isFalse (by simp)
    | file =>
      cases h2 : s.files k with
      | none => exact isTrue (by simp)
      | some d => exact isFalse (by simp)

/-- The chunks covered by a backend request. -/
def reqChunks (m : Nat) (r : Nat × Nat) : List Nat := List.range' (r.1 / m) (r.2 / m - r.1 / m)

/-- Requests are aligned to chunks. -/
def Aligned (m : Nat) (r : Nat × Nat) : Prop := r.1 % m = 0 ∧ r.2 % m = 0 ∧ r.1 < r.2

theorem interfere_idle {st : RState α} (h : st.envs = []) : interfere st = st := by
  cases st
  cases h
  rfl

theorem tryFetch_idle {obj : List α} {s e : Nat} {st st' : RState α} {d : List α} (hi : st.envs = [])
    (h : tryFetch obj s e st = some (d, st')) :
    st'.cache = st.cache ∧ st'.envs = [] ∧ st'.batch = st.batch ∧ st'.reqs = st.reqs ++ [(s, e)] := by
  obtain ⟨_, _, _, h1, h2, _, h3, h4⟩ := tryFetch_spec h
  rw [interfere_idle hi] at h1 h2
  exact ⟨h1, by rw [h2, hi], h3, h4⟩

theorem cacheChunk_idle {st : RState α} (hi : st.envs = []) (k : Nat) (d : List α) :
    (cacheChunk st k d).envs = [] ∧ (cacheChunk st k d).batch = st.batch ∧ (cacheChunk st k d).reqs = st.reqs ∧
    (cacheChunk st k d).cache.files = st.cache.files ∧
    ∀ i, i ≠ k → (cacheChunk st k d).cache.entries i = st.cache.entries i := by
  simp only [cacheChunk, interfere_idle hi]
  refine ⟨hi, trivial, trivial, ?_, ?_⟩
  · simp only [applyEv]; split <;> rfl
  · intro i hik
    simp only [applyEv]
    split
    · simp [upd, hik]
    · rfl

theorem foldl_cacheChunk_idle (l : List (Nat × List α)) : ∀ st : RState α, st.envs = [] →
    (l.foldl (fun s p => cacheChunk s p.1 p.2) st).envs = [] ∧
    (l.foldl (fun s p => cacheChunk s p.1 p.2) st).reqs = st.reqs ∧
    (l.foldl (fun s p => cacheChunk s p.1 p.2) st).cache.files = st.cache.files ∧
    ∀ i, (∀ p ∈ l, p.1 ≠ i) → (l.foldl (fun s p => cacheChunk s p.1 p.2) st).cache.entries i = st.cache.entries i := by
  induction l with
  | nil => intro st h; exact ⟨h, rfl, rfl, fun _ _ => rfl⟩
  | cons p l ih =>
    intro st h
    obtain ⟨c1, c2, c3, c4, c5⟩ := cacheChunk_idle h p.1 p.2
    obtain ⟨d1, d2, d3, d4⟩ := ih _ c1
    refine ⟨d1, by rw [List.foldl_cons, d2, c3], by rw [List.foldl_cons, d3, c4], ?_⟩
    intro i hi
    rw [List.foldl_cons, d4 i (fun q hq => hi q (by simp [hq])), c5 i (fun he => hi p (by simp) he.symm)]

theorem splitBatch_keys (m : Nat) : ∀ (ks : List Nat) (d : List α), (splitBatch m ks d).map (·.1) = ks := by
  intro ks
  induction ks with
  | nil => intro d; rfl
  | cons k ks ih => intro d; simp only [splitBatch]; split <;> simp [ih]

theorem reqChunks_mul (m : Nat) (hm : 0 < m) (a z : Nat) : reqChunks m (a * m, z * m) = List.range' a (z - a) := by
  simp [reqChunks, Nat.mul_div_cancel _ hm]

theorem aligned_mul {m : Nat} (hm : 0 < m) {a z : Nat} (h : a < z) : Aligned m (a * m, z * m) :=
  ⟨Nat.mul_mod_left a m, Nat.mul_mod_left z m, Nat.mul_lt_mul_of_pos_right h hm⟩

/-- No cache entry refers to a file that is gone. -/
def NoLostFiles (c0 : CState α) : Prop := ∀ i, ¬ (c0.entries i = some .file ∧ c0.files i = none)

/-- Progress of a read without interference: the missing chunks before `k` are requested or are in the
batch `b .. e`, and the cache is as before for the chunks from `k` on. -/
structure Prog (m : Nat) (c0 : CState α) (sc b e k : Nat) (st : RState α) : Prop where
  idle : st.envs = []
  rest : ∀ i, k ≤ i → st.cache.entries i = c0.entries i ∧ st.cache.files i = c0.files i
  sc_le : sc ≤ b
  b_le : b ≤ e
  e_le : e ≤ k
  batch : st.batch = List.range' b (e - b)
  aligned : ∀ r ∈ st.reqs, Aligned m r
  cover : (st.reqs.flatMap (reqChunks m) ++ st.batch).Perm
    ((List.range' sc (k - sc)).filter (fun i => decide (Missing c0 i)))
  apart : NoLostFiles c0 → st.reqs.Pairwise (fun r r' => r.2 < r'.1) ∧ ∀ r ∈ st.reqs, r.2 < b * m

/-- What is left after the batch has been fetched. -/
structure Flushed (m : Nat) (c0 : CState α) (sc e k : Nat) (st : RState α) : Prop where
  idle : st.envs = []
  rest : ∀ i, k ≤ i → st.cache.entries i = c0.entries i ∧ st.cache.files i = c0.files i
  batch : st.batch = []
  aligned : ∀ r ∈ st.reqs, Aligned m r
  cover : (st.reqs.flatMap (reqChunks m)).Perm ((List.range' sc (k - sc)).filter (fun i => decide (Missing c0 i)))
  apart : NoLostFiles c0 → st.reqs.Pairwise (fun r r' => r.2 < r'.1) ∧ ∀ r ∈ st.reqs, r.2 ≤ e * m

theorem flushBatch_prog {m : Nat} {obj : List α} {c0 : CState α} {sc b e k : Nat} {st st' : RState α} (hm : 0 < m)
    (hp : Prog m c0 sc b e k st) (h : flushBatch m obj st = some st') : Flushed m c0 sc e k st' := by
  simp only [flushBatch] at h
  rcases Nat.eq_or_lt_of_le hp.b_le with heq | hlt
  · have hb0 : st.batch = [] := by rw [hp.batch, heq]; simp
    rw [hb0] at h
    simp only [List.head?_nil, List.getLast?_nil, Option.some.injEq] at h
    subst h
    refine ⟨hp.idle, hp.rest, hb0, hp.aligned, ?_, ?_⟩
    · have := hp.cover
      rw [hb0, List.append_nil] at this
      exact this
    · intro hn
      refine ⟨(hp.apart hn).1, fun r hr => ?_⟩
      have := (hp.apart hn).2 r hr
      rw [heq] at this
      omega
  · obtain ⟨n, hn⟩ : ∃ n, e - b = n + 1 := ⟨e - b - 1, by omega⟩
    have hhead : st.batch.head? = some b := by rw [hp.batch, hn, List.range'_succ]; rfl
    have hlast : st.batch.getLast? = some (b + n) := by
      rw [hp.batch, hn, List.range'_concat, List.getLast?_concat]
      simp
    rw [hhead, hlast] at h
    simp only at h
    split at h
    · cases h
    · next d st2 hf =>
      obtain ⟨e1, e2, e3, e4⟩ := tryFetch_idle hp.idle hf
      simp only [Option.some.injEq] at h
      subst h
      rw [show b + n + 1 = e by omega] at e4
      obtain ⟨f1, f2, f3, f4⟩ := foldl_cacheChunk_idle (splitBatch m st2.batch d)
        { st2 with result := st2.result ++ d } e2
      refine ⟨f1, ?_, rfl, ?_, ?_, ?_⟩
      · intro i hi
        refine ⟨?_, ?_⟩
        · have := f4 i (by
            intro p hpm he
            have hk : p.1 ∈ (splitBatch m st2.batch d).map (·.1) := List.mem_map_of_mem hpm
            rw [splitBatch_keys, e3, hp.batch, List.mem_range'_1] at hk
            have := hp.e_le
            omega)
          simp only at this ⊢
          rw [this, e1]
          exact (hp.rest i hi).1
        · have := congrFun f3 i
          simp only at this ⊢
          rw [this, e1]
          exact (hp.rest i hi).2
      · intro r hr
        simp only at hr
        rw [f2] at hr
        simp only at hr
        rw [e4] at hr
        rcases List.mem_append.1 hr with hr | hr
        · exact hp.aligned r hr
        · simp only [List.mem_singleton] at hr
          subst hr
          exact aligned_mul hm hlt
      · simp only
        rw [f2]
        simp only
        rw [e4, List.flatMap_append]
        simp only [List.flatMap_cons, List.flatMap_nil, List.append_nil, reqChunks_mul m hm]
        rw [← hp.batch]
        exact hp.cover
      · intro hnl
        obtain ⟨a1, a2⟩ := hp.apart hnl
        simp only
        rw [f2]
        simp only
        rw [e4]
        refine ⟨?_, ?_⟩
        · rw [List.pairwise_append]
          refine ⟨a1, by simp, ?_⟩
          intro r hr r' hr'
          simp only [List.mem_singleton] at hr'
          subst hr'
          exact a2 r hr
        · intro r hr
          rcases List.mem_append.1 hr with hr | hr
          · have := a2 r hr
            have : b * m ≤ e * m := Nat.mul_le_mul_right m hp.b_le
            omega
          · simp only [List.mem_singleton] at hr
            subst hr
            exact Nat.le_refl _

theorem filter_range_succ (sc k : Nat) (h : sc ≤ k) (f : Nat → Bool) :
    (List.range' sc (k + 1 - sc)).filter f = (List.range' sc (k - sc)).filter f ++ (if f k then [k] else []) := by
  rw [show k + 1 - sc = (k - sc) + 1 by omega, List.range'_concat, List.filter_append]
  rw [show sc + 1 * (k - sc) = k by omega]
  congr 1
  cases h : f k <;> simp [h]

theorem lookupChunk_prog {m : Nat} {obj : List α} {c0 : CState α} {sc b k : Nat} {st st' : RState α} (hm : 0 < m)
    {data : Option (List α)} (hp : Prog m c0 sc b k k st) (h : lookupChunk m obj k st = some (data, st')) :
    (data = none ∧ Prog m c0 sc b (k + 1) (k + 1) st') ∨ (data ≠ none ∧ Prog m c0 sc b k (k + 1) st') := by
  have hsc : sc ≤ k := Nat.le_trans hp.sc_le hp.b_le
  obtain ⟨r1, r2⟩ := hp.rest k (Nat.le_refl _)
  simp only [lookupChunk, interfere_idle hp.idle] at h
  split at h
  · next he =>
    left
    simp only [Option.some.injEq, Prod.mk.injEq] at h
    obtain ⟨rfl, rfl⟩ := h
    refine ⟨rfl, hp.idle, fun i hi => hp.rest i (by omega), hp.sc_le, by have := hp.b_le; omega, Nat.le_refl _,
      ?_, hp.aligned, ?_, hp.apart⟩
    · simp only
      have := hp.b_le
      rw [hp.batch, show k + 1 - b = (k - b) + 1 by omega, List.range'_concat, Nat.one_mul,
        show b + (k - b) = k by omega]
    · have hmis : Missing c0 k := Or.inl (by rw [← r1]; exact he)
      rw [filter_range_succ sc k hsc]
      simp only [hmis, decide_true, if_true]
      rw [← List.append_assoc]
      exact hp.cover.append_right _
  · next d he =>
    right
    simp only [Option.some.injEq, Prod.mk.injEq] at h
    obtain ⟨rfl, rfl⟩ := h
    refine ⟨by simp, hp.idle, fun i hi => hp.rest i (by omega), hp.sc_le, hp.b_le, by omega, hp.batch, hp.aligned, ?_, hp.apart⟩
    have hmis : ¬ Missing c0 k := by
      rintro (h | ⟨h, _⟩) <;> (rw [← r1, he] at h; cases h)
    rw [filter_range_succ sc k hsc]
    simp only [hmis, decide_false, Bool.false_eq_true, if_false, List.append_nil]
    exact hp.cover
  · next he =>
    right
    split at h
    · next d hd =>
      simp only [Option.some.injEq, Prod.mk.injEq] at h
      obtain ⟨rfl, rfl⟩ := h
      refine ⟨by simp, hp.idle, fun i hi => hp.rest i (by omega), hp.sc_le, hp.b_le, by omega, hp.batch, hp.aligned, ?_, hp.apart⟩
      have hmis : ¬ Missing c0 k := by
        rintro (h | ⟨_, h⟩)
        · rw [← r1, he] at h; cases h
        · rw [← r2, hd] at h; cases h
      rw [filter_range_succ sc k hsc]
      simp only [hmis, decide_false, Bool.false_eq_true, if_false, List.append_nil]
      exact hp.cover
    · next hd =>
      split at h
      · cases h
      · next d st2 hf =>
        simp only [Option.some.injEq, Prod.mk.injEq] at h
        obtain ⟨rfl, rfl⟩ := h
        obtain ⟨e1, e2, e3, e4⟩ := tryFetch_idle hp.idle hf
        obtain ⟨c1, c2, c3, c4, c5⟩ := cacheChunk_idle e2 k d
        have hmis : Missing c0 k := Or.inr ⟨by rw [← r1]; exact he, by rw [← r2]; exact hd⟩
        refine ⟨by simp, c1, ?_, hp.sc_le, hp.b_le, by omega, by rw [c2, e3]; exact hp.batch, ?_, ?_, ?_⟩
        · intro i hi
          rw [c5 i (by omega), c4, e1]
          exact hp.rest i (by omega)
        · intro r hr
          rw [c3, e4] at hr
          rcases List.mem_append.1 hr with hr | hr
          · exact hp.aligned r hr
          · simp only [List.mem_singleton] at hr
            subst hr
            exact aligned_mul hm (by omega)
        · rw [filter_range_succ sc k hsc, c2, c3, e3, e4, List.flatMap_append]
          simp only [List.flatMap_cons, List.flatMap_nil, List.append_nil, reqChunks_mul m hm, hmis, decide_true, if_true]
          rw [show k + 1 - k = 1 by omega]
          refine List.Perm.trans ?_ (hp.cover.append_right _)
          rw [List.append_assoc, List.append_assoc]
          exact List.Perm.append_left _ List.perm_append_comm
        · intro hn
          exact absurd ⟨by rw [← r1]; exact he, by rw [← r2]; exact hd⟩ (hn k)

theorem chunkLoop_prog {m : Nat} {obj : List α} {c0 : CState α} {sc : Nat} (hm : 0 < m) :
    ∀ (n k b : Nat) (st st' : RState α), Prog m c0 sc b k k st → (n = 0 → b = k) →
      chunkLoop m obj (List.range' k n) st = some st' → ∃ e, Flushed m c0 sc e (k + n) st' := by
  intro n
  induction n with
  | zero =>
    intro k b st st' hp h0 h
    simp only [List.range'_zero, chunkLoop, Option.some.injEq] at h
    subst h
    have := flushBatch_prog (obj := obj) hm hp (st' := st) (by
      have hb0 : st.batch = [] := by rw [hp.batch, h0 rfl]; simp
      simp [flushBatch, hb0])
    exact ⟨k, this⟩
  | succ n ih =>
    intro k b st st' hp _ h
    rw [List.range'_succ] at h
    simp only [chunkLoop] at h
    split at h
    · cases h
    · next data st1 hl =>
      rw [show k + (n + 1) = k + 1 + n by omega]
      rcases lookupChunk_prog hm hp hl with ⟨rfl, hp1⟩ | ⟨hd, hp1⟩
      · by_cases hn : n = 0
        · subst hn
          simp only [List.range'_zero, List.isEmpty_nil, Bool.or_true, if_true] at h
          split at h
          · cases h
          · next st2 hf =>
            simp only [chunkLoop, Option.some.injEq] at h
            subst h
            exact ⟨_, flushBatch_prog hm hp1 hf⟩
        · have hne : (List.range' (k + 1) n).isEmpty = false := by
            cases n with
            | zero => exact absurd rfl hn
            | succ n => rw [List.range'_succ]; rfl
          simp only [Option.isSome_none, hne, Bool.or_self, Bool.false_eq_true, if_false] at h
          exact ih (k + 1) b st1 st' hp1 (fun h0 => absurd h0 hn) h
      · cases data with
        | none => exact absurd rfl hd
        | some d =>
          simp only [Option.isSome_some, Bool.true_or, if_true] at h
          split at h
          · cases h
          · next st2 hf =>
            have f := flushBatch_prog hm hp1 hf
            have hsc : sc ≤ k := Nat.le_trans hp.sc_le hp.b_le
            refine ih (k + 1) (k + 1) { st2 with result := st2.result ++ d } st' ?_ (fun _ => rfl) h
            refine ⟨f.idle, f.rest, by omega, Nat.le_refl _, Nat.le_refl _, by simp [f.batch], f.aligned, ?_, ?_⟩
            · simp only [f.batch, List.append_nil]
              exact f.cover
            · intro hnl
              refine ⟨(f.apart hnl).1, fun r hr => ?_⟩
              have h1 := (f.apart hnl).2 r hr
              have h2 : k * m < (k + 1) * m := Nat.mul_lt_mul_of_pos_right (by omega) hm
              omega

/-- What holds of the requests of a read that was given up. -/
structure Failed (m : Nat) (c0 : CState α) (sc K : Nat) (st : RState α) : Prop where
  aligned : ∀ r ∈ st.reqs, Aligned m r
  cover : ∃ k extra, k ≤ K ∧ (st.reqs.flatMap (reqChunks m) ++ extra).Perm
    ((List.range' sc (k - sc)).filter (fun i => decide (Missing c0 i)))
  apart : NoLostFiles c0 → st.reqs.Pairwise (fun r r' => r.2 < r'.1)

theorem leftover_lookup {m : Nat} {obj : List α} {c0 : CState α} {sc b k : Nat} {st : RState α} (hm : 0 < m)
    (hp : Prog m c0 sc b k k st) (h : lookupChunk m obj k st = none) :
    Failed m c0 sc (k + 1) (failedFetch (k * m) ((k + 1) * m) st) := by
  have hsc : sc ≤ k := Nat.le_trans hp.sc_le hp.b_le
  obtain ⟨r1, r2⟩ := hp.rest k (Nat.le_refl _)
  simp only [lookupChunk, interfere_idle hp.idle] at h
  split at h
  · cases h
  · cases h
  · next he =>
    split at h
    · cases h
    · next hd =>
      have hlost : c0.entries k = some .file ∧ c0.files k = none := ⟨by rw [← r1]; exact he, by rw [← r2]; exact hd⟩
      have hmis : Missing c0 k := Or.inr hlost
      simp only [failedFetch, interfere_idle hp.idle]
      refine ⟨?_, ⟨k + 1, st.batch, Nat.le_refl _, ?_⟩, fun hn => absurd hlost (hn k)⟩
      · intro r hr
        rcases List.mem_append.1 hr with hr | hr
        · exact hp.aligned r hr
        · simp only [List.mem_singleton] at hr
          subst hr
          exact aligned_mul hm (by omega)
      · rw [filter_range_succ sc k hsc, List.flatMap_append]
        simp only [List.flatMap_cons, List.flatMap_nil, List.append_nil, reqChunks_mul m hm, hmis, decide_true, if_true]
        rw [show k + 1 - k = 1 by omega]
        refine List.Perm.trans ?_ (hp.cover.append_right _)
        rw [List.append_assoc, List.append_assoc]
        exact List.Perm.append_left _ List.perm_append_comm

theorem leftover_flush {m : Nat} {obj : List α} {c0 : CState α} {sc b e k : Nat} {st : RState α} (hm : 0 < m)
    (hp : Prog m c0 sc b e k st) (h : flushBatch m obj st = none) :
    Failed m c0 sc k (failedFetch (st.batch.head?.getD 0 * m) ((st.batch.getLast?.getD 0 + 1) * m) st) := by
  rcases Nat.eq_or_lt_of_le hp.b_le with heq | hlt
  · have hb0 : st.batch = [] := by rw [hp.batch, heq]; simp
    simp [flushBatch, hb0] at h
  · obtain ⟨n, hn⟩ : ∃ n, e - b = n + 1 := ⟨e - b - 1, by omega⟩
    have hhead : st.batch.head? = some b := by rw [hp.batch, hn, List.range'_succ]; rfl
    have hlast : st.batch.getLast? = some (b + n) := by
      rw [hp.batch, hn, List.range'_concat, List.getLast?_concat]
      simp
    rw [hhead, hlast]
    simp only [Option.getD_some, failedFetch, interfere_idle hp.idle, show b + n + 1 = e by omega]
    refine ⟨?_, ⟨k, [], Nat.le_refl _, ?_⟩, ?_⟩
    · intro r hr
      rcases List.mem_append.1 hr with hr | hr
      · exact hp.aligned r hr
      · simp only [List.mem_singleton] at hr
        subst hr
        exact aligned_mul hm hlt
    · rw [List.flatMap_append]
      simp only [List.flatMap_cons, List.flatMap_nil, List.append_nil, reqChunks_mul m hm]
      rw [← hp.batch]
      exact hp.cover
    · intro hnl
      obtain ⟨a1, a2⟩ := hp.apart hnl
      rw [List.pairwise_append]
      refine ⟨a1, by simp, ?_⟩
      intro r hr r' hr'
      simp only [List.mem_singleton] at hr'
      subst hr'
      exact a2 r hr

theorem Failed.mono {m : Nat} {c0 : CState α} {sc K K' : Nat} {st : RState α} (h : Failed m c0 sc K st)
    (hK : K ≤ K') : Failed m c0 sc K' st :=
  ⟨h.aligned, let ⟨k, x, h1, h2⟩ := h.cover; ⟨k, x, Nat.le_trans h1 hK, h2⟩, h.apart⟩

theorem leftover_prog {m : Nat} {obj : List α} {c0 : CState α} {sc : Nat} (hm : 0 < m) :
    ∀ (n k b : Nat) (st : RState α), Prog m c0 sc b k k st → (n = 0 → b = k) →
      Failed m c0 sc (k + n) (leftover m obj (List.range' k n) st) := by
  intro n
  induction n with
  | zero =>
    intro k b st hp _
    exact ⟨hp.aligned, ⟨k, st.batch, by omega, hp.cover⟩, fun hn => (hp.apart hn).1⟩
  | succ n ih =>
    intro k b st hp _
    rw [List.range'_succ]
    simp only [leftover]
    split
    · next hl =>
      rw [interfere_idle hp.idle, interfere_idle hp.idle]
      exact (leftover_lookup hm hp hl).mono (by omega)
    · next data st1 hl =>
      rw [show k + (n + 1) = k + 1 + n by omega]
      rcases lookupChunk_prog hm hp hl with ⟨rfl, hp1⟩ | ⟨hd, hp1⟩
      · by_cases hn : n = 0
        · subst hn
          simp only [List.range'_zero, List.isEmpty_nil, Bool.or_true, if_true]
          split
          · next hf => exact (leftover_flush hm hp1 hf).mono (by omega)
          · next st2 hf =>
            have f := flushBatch_prog hm hp1 hf
            exact ⟨f.aligned, ⟨k + 1, [], by omega, by simpa [leftover] using f.cover⟩, fun hn => (f.apart hn).1⟩
        · have hne : (List.range' (k + 1) n).isEmpty = false := by
            cases n with
            | zero => exact absurd rfl hn
            | succ n => rw [List.range'_succ]; rfl
          simp only [Option.isSome_none, hne, Bool.or_self, Bool.false_eq_true, if_false]
          exact ih (k + 1) b st1 hp1 (fun h0 => absurd h0 hn)
      · cases data with
        | none => exact absurd rfl hd
        | some d =>
          simp only [Option.isSome_some, Bool.true_or, if_true]
          split
          · next hf => exact (leftover_flush hm hp1 hf).mono (by omega)
          · next st2 hf =>
            have f := flushBatch_prog hm hp1 hf
            have hsc : sc ≤ k := Nat.le_trans hp.sc_le hp.b_le
            refine ih (k + 1) (k + 1) { st2 with result := st2.result ++ d } ?_ (fun _ => rfl)
            refine ⟨f.idle, f.rest, by omega, Nat.le_refl _, Nat.le_refl _, by simp [f.batch], f.aligned, ?_, ?_⟩
            · simp only [f.batch, List.append_nil]
              exact f.cover
            · intro hnl
              refine ⟨(f.apart hnl).1, fun r hr => ?_⟩
              have h1 := (f.apart hnl).2 r hr
              have h2 : k * m < (k + 1) * m := Nat.mul_lt_mul_of_pos_right (by omega) hm
              omega

/-- **C23 (failing reads).**  A read that fails has not asked for anything the cache holds or for any chunk twice
either, and only for chunks of the range. -/
theorem C23_failed (m : Nat) (hm : 0 < m) (obj : List α) (cache : CState α) (fails : List Bool)
    (start stop : Nat) (hlt : start < stop) (herr : (getRange m obj cache [] fails start stop).1 = .err) :
    (∀ r ∈ (getRange m obj cache [] fails start stop).2.reqs, Aligned m r) ∧
    ((getRange m obj cache [] fails start stop).2.reqs.flatMap (reqChunks m)).Nodup ∧
    (∀ c, c ∈ (getRange m obj cache [] fails start stop).2.reqs.flatMap (reqChunks m) →
      start / m ≤ c ∧ c ≤ (stop - 1) / m ∧ Missing cache c) := by
  revert herr
  simp only [getRange]
  rw [if_neg (by omega)]
  have hle : start / m ≤ (stop - 1) / m := Nat.div_le_div_right (by omega)
  generalize start / m = sc at *
  generalize (stop - 1) / m = ec at *
  split
  · intro _
    have hf := leftover_prog (obj := obj) (c0 := cache) (sc := sc) hm (ec + 1 - sc) sc sc
      { cache := cache, result := [], batch := [], reqs := [], envs := [], fails := fails }
      ⟨rfl, fun _ _ => ⟨rfl, rfl⟩, Nat.le_refl _, Nat.le_refl _, Nat.le_refl _, by simp, by simp, by simp, by simp⟩
      (fun h => by omega)
    obtain ⟨k, extra, hk, hperm⟩ := hf.cover
    have hnd := hperm.nodup_iff.2 (List.Pairwise.sublist List.filter_sublist List.nodup_range')
    refine ⟨hf.aligned, (List.nodup_append.1 hnd).1, fun c hc => ?_⟩
    have h1 := hperm.mem_iff.1 (List.mem_append_left extra hc)
    rw [List.mem_filter, List.mem_range'_1] at h1
    simp only [decide_eq_true_eq] at h1
    exact ⟨by omega, by omega, h1.2⟩
  · intro h
    split at h <;> cases h

/-- **C23**: a read that succeeds without interference asks the backing store for exactly the missing
chunks of the range: every request is aligned to chunks, no chunk is requested twice, and the requested
chunks are those between the first and the last chunk of the range that the cache has no data for. -/
theorem C23_exactly_missing (m : Nat) (hm : 0 < m) (obj : List α) (cache : CState α) (fails : List Bool)
    (start stop : Nat) (hlt : start < stop) (d : List α)
    (hok : (getRange m obj cache [] fails start stop).1 = .ok d) :
    (∀ r ∈ (getRange m obj cache [] fails start stop).2.reqs, Aligned m r) ∧
    ((getRange m obj cache [] fails start stop).2.reqs.flatMap (reqChunks m)).Nodup ∧
    (∀ c, c ∈ (getRange m obj cache [] fails start stop).2.reqs.flatMap (reqChunks m) ↔
      start / m ≤ c ∧ c ≤ (stop - 1) / m ∧ Missing cache c) := by
  revert hok
  simp only [getRange]
  rw [if_neg (by omega)]
  have hle : start / m ≤ (stop - 1) / m := Nat.div_le_div_right (by omega)
  generalize start / m = sc at *
  generalize (stop - 1) / m = ec at *
  split
  · intro h; cases h
  · next st hl =>
    obtain ⟨e, hf⟩ := chunkLoop_prog (c0 := cache) (sc := sc) hm _ sc sc _ st
      ⟨rfl, fun _ _ => ⟨rfl, rfl⟩, Nat.le_refl _, Nat.le_refl _, Nat.le_refl _, by simp, by simp, by simp, by simp⟩
      (fun h => by omega) hl
    intro _
    have hst : ∀ (x y : RRes α), (if st.result.length < start - sc * m then (x, st) else (y, st)).2 = st := by
      intro x y; split <;> rfl
    rw [hst]
    refine ⟨hf.aligned, ?_, ?_⟩
    · apply hf.cover.nodup_iff.2
      exact List.Pairwise.sublist List.filter_sublist List.nodup_range'
    · intro c
      rw [hf.cover.mem_iff, List.mem_filter, List.mem_range'_1]
      simp only [decide_eq_true_eq]
      constructor
      · rintro ⟨h1, h2⟩; exact ⟨by omega, by omega, h2⟩
      · rintro ⟨h1, h2, h3⟩; exact ⟨by omega, h3⟩

/-- **C23**: neighbouring missing chunks are fetched together: if no cache file is lost, there is a gap
between any two requests, and requests go forward. -/
theorem C23_coalesced (m : Nat) (hm : 0 < m) (obj : List α) (cache : CState α) (hnl : NoLostFiles cache)
    (fails : List Bool) (start stop : Nat) (hlt : start < stop) :
    (getRange m obj cache [] fails start stop).2.reqs.Pairwise (fun r r' => r.2 < r'.1) := by
  simp only [getRange]
  rw [if_neg (by omega)]
  have hle : start / m ≤ (stop - 1) / m := Nat.div_le_div_right (by omega)
  generalize start / m = sc at *
  generalize (stop - 1) / m = ec at *
  split
  · exact (leftover_prog (obj := obj) (c0 := cache) (sc := sc) hm (ec + 1 - sc) sc sc
      { cache := cache, result := [], batch := [], reqs := [], envs := [], fails := fails }
      ⟨rfl, fun _ _ => ⟨rfl, rfl⟩, Nat.le_refl _, Nat.le_refl _, Nat.le_refl _, by simp, by simp, by simp, by simp⟩
      (fun h => by omega)).apart hnl
  · next st hl =>
    obtain ⟨e, hf⟩ := chunkLoop_prog (c0 := cache) (sc := sc) hm _ sc sc _ st
      ⟨rfl, fun _ _ => ⟨rfl, rfl⟩, Nat.le_refl _, Nat.le_refl _, Nat.le_refl _, by simp, by simp, by simp, by simp⟩
      (fun h => by omega) hl
    have hst : ∀ (x y : RRes α), (if st.result.length < start - sc * m then (x, st) else (y, st)).2 = st := by
      intro x y; split <;> rfl
    rw [hst]
    exact (hf.apart hnl).1

/-- The second of two requests fails: what the first one fetched stays in the cache, and the read asks for no more. -/
example :
    let c0 : CState Nat := applyEvs CState.empty [.insert 1 [2, 3]]
    let r := getRange 2 [0, 1, 2, 3, 4, 5, 6, 7] c0 [] [false, true] 0 8
    r.1 = .err ∧ r.2.reqs = [(0, 2), (4, 8)] ∧ r.2.cache.entries 0 = some (.mem [0, 1]) ∧
      r.2.cache.entries 2 = none := by decide +kernel

/-- Chunks 1 and 4 are cached; 0, 2, 3 and 5 are fetched in three requests. -/
example : (getRange 2 [0, 1, 2, 3, 4, 5, 6, 7, 8, 9, 10]
    (applyEvs CState.empty [.insert 1 [2, 3], .insert 4 [8, 9]]) [] [] 1 11).2.reqs = [(0, 2), (4, 8), (10, 12)] := by
  decide +kernel

/-- After a successful read everything is cached: the same read again sends no request. -/
example : (getRange 2 [0, 1, 2, 3, 4] (getRange 2 [0, 1, 2, 3, 4] CState.empty [] [] 1 5).2.cache [] [] 1 5).2.reqs
    = [] := by decide +kernel

/-! ### C24 -/

/-- **C24 is violated**: after an object that has been read is overwritten or deleted through the same
store, reads return the old bytes. -/
theorem C24_violated_overwrite :
    (serveAll 4 ({ obj := none, cache := CState.empty } : Store Nat)
      [.put [1, 2, 3, 4], .read 0 4, .put [5, 6, 7, 8], .read 0 4]).2 = [.ok [1, 2, 3, 4], .ok [1, 2, 3, 4]] := by
  decide +kernel

/-- The same after a deletion. -/
theorem C24_violated_delete :
    (serveAll 4 ({ obj := none, cache := CState.empty } : Store Nat)
      [.put [1, 2, 3, 4], .read 0 4, .delete, .read 0 4]).2 = [.ok [1, 2, 3, 4], .ok [1, 2, 3, 4]] := by
  decide +kernel

/-- **C24, partial**: after an overwrite a read returns the new bytes if the cache has nothing for the
chunks of the range, whatever it has for other chunks (missing: chunks cached before the overwrite). -/
theorem C24_fresh_partial (m : Nat) (hm : 0 < m) (new : List α) (s : Store α) (start stop : Nat) (hlt : start < stop)
    (hin : stop ≤ new.length)
    (hfree : ∀ c, start / m ≤ c → c ≤ (stop - 1) / m → s.cache.entries c = none ∧ s.cache.files c = none) :
    (serveAll m s [.put new, .read start stop]).2 = [.ok (slice new start stop)] := by
  have hgood : Good (fun c => start / m ≤ c ∧ c ≤ (stop - 1) / m) m new s.cache := by
    intro c hc
    obtain ⟨h1, h2⟩ := hfree c hc.1 hc.2
    simp [h1, h2]
  have h := (getRange_good m hm new s.cache [] [] start stop hlt hin (fun i h1 h2 => ⟨h1, h2⟩) hgood (by simp)).1
  have hne : (getRange m new s.cache [] [] start stop).1 ≠ .err := by
    simp only [getRange]
    rw [if_neg (by omega)]
    have hle : start / m ≤ (stop - 1) / m := Nat.div_le_div_right (by omega)
    have hec : (stop - 1) / m * m ≤ stop - 1 := Nat.div_mul_le_self (stop - 1) m
    obtain ⟨st', hst⟩ := chunkLoop_total (m := m) (obj := new)
      (List.range' (start / m) ((stop - 1) / m + 1 - start / m))
      { cache := s.cache, result := [], batch := [], reqs := [], envs := [], fails := [] }
      (by simp) hm
      (by
        intro k hk
        rw [List.mem_range'_1] at hk
        have : k * m ≤ (stop - 1) / m * m := Nat.mul_le_mul_right m (by omega)
        omega)
      (by simp) (by simp) (by simp only [List.nil_append]; exact List.pairwise_lt_range')
    rw [hst]
    simp only
    split <;> simp
  simp only [serveAll, serve, Option.getD_some, Option.toList_none, Option.toList_some, List.nil_append, List.append_nil]
  rcases h with h | h
  · exact absurd h hne
  · rw [h]

/-- **C24, partial**: the same after evictions: once nothing is left of the chunks of the range, the new bytes are
returned. -/
theorem C24_evicted_partial (m : Nat) (hm : 0 < m) (new : List α) (s : Store α) (evs : List (Ev α)) (start stop : Nat)
    (hlt : start < stop) (hin : stop ≤ new.length)
    (hfree : ∀ c, start / m ≤ c → c ≤ (stop - 1) / m →
      (applyEvs s.cache evs).entries c = none ∧ (applyEvs s.cache evs).files c = none) :
    (serveAll m s [.put new, .tasks evs, .read start stop]).2 = [.ok (slice new start stop)] := by
  have h := C24_fresh_partial m hm new { obj := none, cache := applyEvs s.cache evs } start stop hlt hin hfree
  simpa only [serveAll, serve, Option.toList_none, List.nil_append] using h

/-- The chunk is read, overwritten, evicted, and read anew. -/
example : (serveAll 4 ({ obj := none, cache := CState.empty } : Store Nat)
    [.put [1, 2, 3, 4], .read 0 4, .put [5, 6, 7, 8], .tasks [.evict 0], .read 0 4]).2
    = [.ok [1, 2, 3, 4], .ok [5, 6, 7, 8]] := by decide +kernel

/-- The second chunk is stale, the first one is not cached. -/
example : (serveAll 4 ({ obj := none, cache := CState.empty } : Store Nat)
    [.put [1, 2, 3, 4, 5, 6, 7, 8], .read 4 8, .put [9, 9, 9, 9, 8, 8, 8, 8], .read 0 4, .read 4 8]).2
    = [.ok [5, 6, 7, 8], .ok [9, 9, 9, 9], .ok [5, 6, 7, 8]] := by decide +kernel

end Seafowl.Store
