import Verif.Store.CacheProps

/-!
# The cache after a read (C23) and the cache shared by HTTP and HTTPS (C80)
-/

namespace Seafowl.Store

variable {α : Type}

/-! ### C23: what has been read is cached -/

theorem cacheChunk_present {st : RState α} (hi : st.envs = []) (hn : NoLostFiles st.cache) (k : Nat) (d : List α) :
    NoLostFiles (cacheChunk st k d).cache ∧ ¬ Missing (cacheChunk st k d).cache k ∧
    ∀ i, ¬ Missing st.cache i → ¬ Missing (cacheChunk st k d).cache i := by
  simp only [cacheChunk, interfere_idle hi, applyEv]
  have hk := hn k
  cases he : st.cache.entries k with
  | none =>
    simp only [NoLostFiles, Missing, upd]
    refine ⟨?_, ?_, ?_⟩
    · intro i; have := hn i; split <;> simp_all
    · simp
    · intro i h; split
      · simp
      · exact h
  | some v =>
    refine ⟨hn, ?_, fun _ h => h⟩
    simp only [Missing, he]
    rintro (h | ⟨h1, h2⟩)
    · cases h
    · exact hk ⟨by rw [he, h1], h2⟩

theorem foldl_cacheChunk_present (l : List (Nat × List α)) : ∀ st : RState α, st.envs = [] → NoLostFiles st.cache →
    NoLostFiles (l.foldl (fun s p => cacheChunk s p.1 p.2) st).cache ∧
    (∀ p ∈ l, ¬ Missing (l.foldl (fun s p => cacheChunk s p.1 p.2) st).cache p.1) ∧
    ∀ i, ¬ Missing st.cache i → ¬ Missing (l.foldl (fun s p => cacheChunk s p.1 p.2) st).cache i := by
  induction l with
  | nil => intro st _ hn; exact ⟨hn, by simp, fun _ h => h⟩
  | cons p l ih =>
    intro st hi hn
    obtain ⟨c1, c2, c3⟩ := cacheChunk_present hi hn p.1 p.2
    obtain ⟨d1, d2, d3⟩ := ih _ (cacheChunk_idle hi p.1 p.2).1 c1
    rw [List.foldl_cons]
    refine ⟨d1, ?_, fun i h => d3 i (c3 i h)⟩
    intro q hq
    rcases List.mem_cons.1 hq with rfl | hq
    · exact d3 _ c2
    · exact d2 q hq

/-- Every chunk before `k` is cached or waits in the batch. -/
structure Kept (sc k : Nat) (st : RState α) : Prop where
  idle : st.envs = []
  noLost : NoLostFiles st.cache
  kept : ∀ i, sc ≤ i → i < k → i ∈ st.batch ∨ ¬ Missing st.cache i

theorem Kept.flush {m : Nat} {obj : List α} {sc k : Nat} {st st' : RState α} (h : Kept sc k st)
    (hf : flushBatch m obj st = some st') : Kept sc k st' ∧ st'.batch = [] := by
  simp only [flushBatch] at hf
  split at hf
  · next a z ha hz =>
    split at hf
    · cases hf
    · next d st1 ht =>
      obtain ⟨t1, t2, t3, t4⟩ := tryFetch_idle h.idle ht
      injection hf with hf
      subst hf
      have hn1 : NoLostFiles st1.cache := by rw [t1]; exact h.noLost
      obtain ⟨f1, f2, f3⟩ := foldl_cacheChunk_present (splitBatch m st1.batch d)
        { st1 with result := st1.result ++ d } t2 hn1
      refine ⟨⟨?_, f1, ?_⟩, rfl⟩
      · exact (foldl_cacheChunk_idle (splitBatch m st1.batch d) { st1 with result := st1.result ++ d } t2).1
      · intro i hi1 hi2
        right
        rcases h.kept i hi1 hi2 with hb | hm
        · have hk : i ∈ (splitBatch m st1.batch d).map (·.1) := by rw [splitBatch_keys, t3]; exact hb
          obtain ⟨p, hp, rfl⟩ := List.mem_map.1 hk
          exact f2 p hp
        · exact f3 i (by rw [t1]; exact hm)
  · next hno =>
    injection hf with hf
    subst hf
    have hb : st.batch = [] := by
      cases hb : st.batch with
      | nil => rfl
      | cons x xs =>
        exfalso
        cases hl : st.batch.getLast? with
        | none => rw [hb] at hl; simp at hl
        | some z => exact hno x z (by rw [hb]; rfl) hl
    exact ⟨h, hb⟩

theorem Kept.lookup {m : Nat} {obj : List α} {sc k : Nat} {st st' : RState α} {data : Option (List α)}
    (h : Kept sc k st) (hl : lookupChunk m obj k st = some (data, st')) : Kept sc (k + 1) st' := by
  simp only [lookupChunk, interfere_idle h.idle] at hl
  split at hl
  · injection hl with hl
    injection hl with h1 h2
    subst h2
    refine ⟨h.idle, h.noLost, ?_⟩
    intro i hi1 hi2
    by_cases hik : i = k
    · left; simp [hik]
    · rcases h.kept i hi1 (by omega) with hb | hb
      · left; simp [hb]
      · exact Or.inr hb
  · next d he =>
    injection hl with hl
    injection hl with h1 h2
    subst h2
    refine ⟨h.idle, h.noLost, ?_⟩
    intro i hi1 hi2
    by_cases hik : i = k
    · right; subst hik; simp [Missing, he]
    · exact h.kept i hi1 (by omega)
  · next he =>
    split at hl
    · next d hfile =>
      injection hl with hl
      injection hl with h1 h2
      subst h2
      refine ⟨h.idle, h.noLost, ?_⟩
      intro i hi1 hi2
      by_cases hik : i = k
      · right; subst hik; simp [Missing, he, hfile]
      · exact h.kept i hi1 (by omega)
    · next hfile => exact absurd ⟨he, hfile⟩ (h.noLost k)

theorem Kept.loop {m : Nat} {obj : List α} {sc : Nat} : ∀ (n k : Nat) (st st' : RState α), Kept sc k st →
    (n = 0 → st.batch = []) → chunkLoop m obj (List.range' k n) st = some st' →
    Kept sc (k + n) st' ∧ st'.batch = [] := by
  intro n
  induction n with
  | zero =>
    intro k st st' h hb hl
    simp only [List.range'_zero, chunkLoop] at hl
    injection hl with hl
    subst hl
    exact ⟨h, hb rfl⟩
  | succ n ih =>
    intro k st st' h _ hl
    simp only [List.range'_succ, chunkLoop] at hl
    split at hl
    · cases hl
    · next data st1 hlook =>
      have h1 := h.lookup hlook
      rw [show k + (n + 1) = k + 1 + n by omega]
      by_cases hc : (data.isSome || (List.range' (k + 1) n).isEmpty) = true
      · rw [if_pos hc] at hl
        split at hl
        · cases hl
        · next st2 hfl =>
          obtain ⟨h2, hb2⟩ := h1.flush hfl
          refine ih (k + 1) _ st' ?_ ?_ hl
          · cases data
            · exact h2
            · exact ⟨h2.idle, h2.noLost, h2.kept⟩
          · intro _; cases data <;> exact hb2
      · rw [if_neg hc] at hl
        simp only at hl
        have hd : data = none := by
          cases data with
          | none => rfl
          | some d => simp at hc
        subst hd
        have hn : n ≠ 0 := by rintro rfl; simp at hc
        exact ih (k + 1) _ st' h1 (fun h0 => absurd h0 hn) hl

/-- After a read that succeeded, the chunks of the range are in the cache. -/
theorem read_present (m : Nat) (hm : 0 < m) (obj : List α) (cache : CState α) (hnl : NoLostFiles cache) (fails : List Bool)
    (start stop : Nat) (hlt : start < stop) (d : List α)
    (hok : (getRange m obj cache [] fails start stop).1 = .ok d) :
    ∀ c, start / m ≤ c → c ≤ (stop - 1) / m → ¬ Missing (getRange m obj cache [] fails start stop).2.cache c := by
  revert hok
  simp only [getRange]
  rw [if_neg (by omega)]
  split
  · intro h; cases h
  · next st hl =>
    intro _ c h1 h2
    have hst : ∀ (x y : RRes α), (if st.result.length < start - start / m * m then (x, st) else (y, st)).2 = st := by
      intro x y; split <;> rfl
    rw [hst]
    have hle : start / m ≤ (stop - 1) / m := Nat.div_le_div_right (by omega)
    obtain ⟨hk, hb⟩ := Kept.loop (sc := start / m) _ _ _ st
      ⟨rfl, hnl, fun i a b => by omega⟩ (fun h => by omega) hl
    rcases hk.kept c h1 (by omega) with h | h
    · rw [hb] at h; cases h
    · exact h

/-- **C23**: after a read that succeeded, every chunk of the range is in the cache: reading a part of it
again asks the backing store for nothing (without interference; cache files that disappeared are the
exception, see `C23_lost_file_never_repaired`). -/
theorem C23_reread (m : Nat) (hm : 0 < m) (obj : List α) (cache : CState α) (hnl : NoLostFiles cache)
    (fails fails' : List Bool) (start stop start' stop' : Nat) (hlt : start < stop) (d d' : List α)
    (hsub : start ≤ start' ∧ start' < stop' ∧ stop' ≤ stop)
    (hok : (getRange m obj cache [] fails start stop).1 = .ok d)
    (hok' : (getRange m obj (getRange m obj cache [] fails start stop).2.cache [] fails' start' stop').1 = .ok d') :
    (getRange m obj (getRange m obj cache [] fails start stop).2.cache [] fails' start' stop').2.reqs = [] := by
  have hpres := read_present m hm obj cache hnl fails start stop hlt d hok
  obtain ⟨h1, _, h3⟩ := C23_exactly_missing m hm obj _ fails' start' stop' hsub.2.1 d' hok'
  have hall : ∀ c, ¬ c ∈ (getRange m obj (getRange m obj cache [] fails start stop).2.cache [] fails' start' stop').2.reqs.flatMap
      (reqChunks m) := by
    intro c hc
    obtain ⟨a, b, e⟩ := (h3 c).1 hc
    exact hpres c (Nat.le_trans (Nat.div_le_div_right hsub.1) a)
      (Nat.le_trans b (Nat.div_le_div_right (by omega))) e
  cases hr : (getRange m obj (getRange m obj cache [] fails start stop).2.cache [] fails' start' stop').2.reqs with
  | nil => rfl
  | cons r rs =>
    exfalso
    rw [hr] at h1 hall
    obtain ⟨ha, hb, hc⟩ := h1 r (by simp)
    apply hall (r.1 / m)
    simp only [List.flatMap_cons, List.mem_append]
    left
    simp only [reqChunks, List.mem_range'_1]
    have e1 : r.1 / m * m = r.1 := by have := Nat.div_add_mod r.1 m; rw [ha, Nat.mul_comm] at this; omega
    have e2 : r.2 / m * m = r.2 := by have := Nat.div_add_mod r.2 m; rw [hb, Nat.mul_comm] at this; omega
    have : r.1 / m < r.2 / m := by
      rcases Nat.lt_or_ge (r.1 / m) (r.2 / m) with h | h
      · exact h
      · have := Nat.mul_le_mul_right m h
        omega
    omega

/-- A chunk whose cache file disappeared is fetched again by every read until its entry is evicted: the
data is not put back (`or_insert` finds the old entry), so the restriction in `C23_reread` is needed. -/
theorem C23_lost_file_never_repaired :
    let c0 := applyEvs (CState.empty : CState Nat) [.insert 0 [0, 1, 2, 3], .wrote 0 [0, 1, 2, 3], .fileLost 0]
    let r1 := getRange 4 [0, 1, 2, 3, 4, 5, 6, 7] c0 [] [] 0 4
    let r2 := getRange 4 [0, 1, 2, 3, 4, 5, 6, 7] r1.2.cache [] [] 0 4
    r1.1 = .ok [0, 1, 2, 3] ∧ r1.2.reqs = [(0, 4)] ∧ r2.1 = .ok [0, 1, 2, 3] ∧ r2.2.reqs = [(0, 4)] := by
  decide +kernel

example : (getRange 2 [0, 1, 2, 3, 4, 5, 6] (getRange 2 [0, 1, 2, 3, 4, 5, 6] CState.empty [] [] 1 6).2.cache
    [] [] 2 5).2.reqs = [] :=
  C23_reread 2 (by decide) _ _ (by intro i; simp [CState.empty]) [] [] 1 6 2 5 (by decide) [1, 2, 3, 4, 5] [2, 3, 4]
    (by decide) (by decide +kernel) (by decide +kernel)

/-! ### C24: what is cached stays -/

/-- What is cached is read from the cache, whatever the backing store has. -/
theorem chunkLoop_held {m : Nat} (obj obj' : List α) : ∀ (ks : List Nat) (st : RState α), st.envs = [] → st.batch = [] →
    (∀ k ∈ ks, ¬ Missing st.cache k) →
    ∃ st', chunkLoop m obj ks st = some st' ∧ chunkLoop m obj' ks st = some st' ∧ st'.cache = st.cache := by
  intro ks
  induction ks with
  | nil => intro st _ _ _; exact ⟨st, rfl, rfl, rfl⟩
  | cons k ks ih =>
    intro st hi hb hk
    have hm := hk k (by simp)
    have hlook : ∃ d, ∀ o : List α, lookupChunk m o k st = some (some d, st) := by
      cases he : st.cache.entries k with
      | none => exact absurd (Or.inl he) hm
      | some v =>
        cases v with
        | mem d => exact ⟨d, fun o => by simp [lookupChunk, interfere_idle hi, he]⟩
        | file =>
          cases hf : st.cache.files k with
          | none => exact absurd (Or.inr ⟨he, hf⟩) hm
          | some d => exact ⟨d, fun o => by simp [lookupChunk, interfere_idle hi, he, hf]⟩
    obtain ⟨d, hd⟩ := hlook
    have hfl : ∀ o : List α, flushBatch m o st = some st := by intro o; simp [flushBatch, hb]
    simp only [chunkLoop, hd, hfl, Option.isSome_some, Bool.true_or, if_true]
    exact ih { st with result := st.result ++ d } hi hb (fun j hj => hk j (by simp [hj]))

theorem getRange_held {m : Nat} (hm : 0 < m) (obj obj' : List α) (cache : CState α) (fails : List Bool)
    (start stop : Nat) (hlt : start < stop)
    (hk : ∀ c, start / m ≤ c → c ≤ (stop - 1) / m → ¬ Missing cache c) :
    getRange m obj cache [] fails start stop = getRange m obj' cache [] fails start stop ∧
    (getRange m obj cache [] fails start stop).1 ≠ .err := by
  have hle : start / m ≤ (stop - 1) / m := Nat.div_le_div_right (by omega)
  obtain ⟨st', h1, h2, _⟩ := chunkLoop_held (m := m) obj obj'
    (List.range' (start / m) ((stop - 1) / m + 1 - start / m))
    { cache := cache, result := [], batch := [], reqs := [], envs := [], fails := fails } rfl rfl
    (fun c hc => by
      rw [List.mem_range'_1] at hc
      exact hk c hc.1 (by omega))
  simp only [getRange]
  rw [if_neg (by omega), if_neg (by omega), h1, h2]
  refine ⟨rfl, ?_⟩
  simp only
  split <;> simp

/-- **C24 is violated**, always: whatever has been read once is what every later read of the same range, or a
part of it, returns, after any overwrites and deletions through the same store, as long as the chunks are not
evicted. -/
theorem C24_violated_always (m : Nat) (hm : 0 < m) (old : List α) (start stop start' stop' : Nat) (hlt : start < stop)
    (hin : stop ≤ old.length) (hsub : start ≤ start' ∧ start' < stop' ∧ stop' ≤ stop) (changes : List (Req α))
    (hch : ∀ c ∈ changes, c = .delete ∨ ∃ new, c = .put new) :
    (serveAll m { obj := some old, cache := CState.empty } (.read start stop :: changes ++ [.read start' stop'])).2 =
      [.ok (slice old start stop), .ok (slice old start' stop')] := by
  have hempty : Good (fun _ => True) m old (CState.empty : CState α) := by intro k _; simp [CState.empty]
  have hnl : NoLostFiles (CState.empty : CState α) := by intro i; simp [CState.empty]
  have h1 := C22_no_spurious_error_partial m hm old [] [] start stop hlt hin (by simp) (by simp)
  simp only [applyEvs, List.foldl_nil] at h1
  obtain ⟨_, g1⟩ := getRange_good m hm old CState.empty [] [] start stop hlt hin (fun _ _ _ => trivial) hempty (by simp)
  have hp := read_present m hm old CState.empty hnl [] start stop hlt _ h1
  have hkeep : ∀ (cs : List (Req α)), (∀ c ∈ cs, c = .delete ∨ ∃ new, c = .put new) → ∀ (s : Store α) (rs : List (Req α)),
      ∃ o, (serveAll m s (cs ++ rs)).2 = (serveAll m { obj := o, cache := s.cache } rs).2 := by
    intro cs
    induction cs with
    | nil => intro _ s rs; exact ⟨s.obj, rfl⟩
    | cons c cs ih =>
      intro hc s rs
      rcases hc c (by simp) with rfl | ⟨new, rfl⟩
      · obtain ⟨o, ho⟩ := ih (fun c' h' => hc c' (by simp [h'])) { s with obj := none } rs
        exact ⟨o, by simpa [serveAll, serve] using ho⟩
      · obtain ⟨o, ho⟩ := ih (fun c' h' => hc c' (by simp [h'])) { s with obj := some new } rs
        exact ⟨o, by simpa [serveAll, serve] using ho⟩
  rw [List.cons_append, serveAll]
  simp only [serve, Option.getD_some, h1]
  obtain ⟨o, ho⟩ := hkeep changes hch
    { obj := some old, cache := (getRange m old CState.empty [] [] start stop).2.cache } [.read start' stop']
  rw [ho]
  have hp' : ∀ c, start' / m ≤ c → c ≤ (stop' - 1) / m →
      ¬ Missing (getRange m old CState.empty [] [] start stop).2.cache c := fun c a b =>
    hp c (Nat.le_trans (Nat.div_le_div_right hsub.1) a) (Nat.le_trans b (Nat.div_le_div_right (by omega)))
  obtain ⟨e1, e2⟩ := getRange_held hm (o.getD []) old _ [] start' stop' hsub.2.1 hp'
  have e3 := (getRange_good m hm old _ [] [] start' stop' hsub.2.1 (by omega) (fun _ _ _ => trivial) g1 (by simp)).1
  rw [← e1] at e3
  rcases e3 with e3 | e3
  · exact absurd e3 e2
  · simp [serveAll, serve, e3]

example : (serveAll 2 ({ obj := some [1, 2, 3, 4, 5], cache := CState.empty } : Store Nat)
    [.read 1 5, .put [9, 9], .delete, .read 2 4]).2 = [.ok [2, 3, 4, 5], .ok [3, 4]] :=
  C24_violated_always 2 (by decide) [1, 2, 3, 4, 5] 1 5 2 4 (by decide) (by decide) (by decide) [.put [9, 9], .delete]
    (by simp)

/-! ### C80: one cache for two schemes

`add_http_object_store` (/repo/src/object_store/http.rs 501-530) registers a caching store for `http` and
one for `https` that shares the cache of the first (`new_from_sibling`, cache.rs 403-424).  Cache keys
have the host and the path but not the scheme. -/

/-- The scheme of a location. -/
inductive Scheme where
  | http
  | https
deriving DecidableEq, Repr

/-- A location without its scheme: what the server answers over either scheme, and the shared cache. -/
structure Pair (α : Type) where
  obj : Scheme → List α
  cache : CState α

/-- A read over a scheme, or what tasks do to the cache. -/
inductive PReq (α : Type) where
  | read (sch : Scheme) (start stop : Nat) (envs : List (List (Ev α))) (fails : List Bool)
  | tasks (evs : List (Ev α))

/-- One request: the caching store of the scheme, with the shared cache. -/
def pserve (m : Nat) (p : Pair α) : PReq α → Pair α × Option (Scheme × Nat × Nat × RRes α)
  | .read sch a b envs fails =>
    let r := getRange m (p.obj sch) p.cache envs fails a b
    ({ p with cache := r.2.cache }, some (sch, a, b, r.1))
  | .tasks evs => ({ p with cache := applyEvs p.cache evs }, none)

/-- Several requests and their answers. -/
def pserveAll (m : Nat) (p : Pair α) : List (PReq α) → Pair α × List (Scheme × Nat × Nat × RRes α)
  | [] => (p, [])
  | r :: rs =>
    let a := pserve m p r
    let b := pserveAll m a.1 rs
    (b.1, a.2.toList ++ b.2)

/-- A request inside the object `o` over a scheme that serves `o`, with honest other tasks. -/
def Serves (m : Nat) (p : Pair α) (o : List α) : PReq α → Prop
  | .read sch a b envs _ => p.obj sch = o ∧ a < b ∧ b ≤ o.length ∧
      ∀ evs ∈ envs, ∀ e ∈ evs, HonestEv (fun _ => True) m o e
  | .tasks evs => ∀ e ∈ evs, HonestEv (fun _ => True) m o e

/-- **C80, partial**: as long as the schemes that are used serve the same bytes (in particular if only
one of them is used), every answer is an error or the bytes that the server has for that scheme. -/
theorem C80_same_content_partial (m : Nat) (hm : 0 < m) (p : Pair α) (o : List α)
    (hg : p.cache = CState.empty) (rs : List (PReq α)) (hrs : ∀ r ∈ rs, Serves m p o r) :
    ∀ x ∈ (pserveAll m p rs).2, x.2.2.2 = .err ∨ x.2.2.2 = .ok (slice (p.obj x.1) x.2.1 x.2.2.1) := by
  have key : ∀ (rs : List (PReq α)) (q : Pair α), q.obj = p.obj → Good (fun _ => True) m o q.cache →
      (∀ r ∈ rs, Serves m p o r) →
      ∀ x ∈ (pserveAll m q rs).2, x.2.2.2 = .err ∨ x.2.2.2 = .ok (slice (p.obj x.1) x.2.1 x.2.2.1) := by
    intro rs
    induction rs with
    | nil => intro q _ _ _ x hx; cases hx
    | cons r rs ih =>
      intro q hq hgood hall x hx
      have hr := hall r (by simp)
      simp only [pserveAll, List.mem_append] at hx
      cases r with
      | read sch a b envs fails =>
        obtain ⟨h1, h2, h3, h4⟩ := hr
        have h1' : q.obj sch = o := by rw [hq]; exact h1
        obtain ⟨g1, g2⟩ := getRange_good m hm o q.cache envs fails a b h2 h3 (fun _ _ _ => trivial) hgood h4
        simp only [pserve, h1'] at hx
        rcases hx with hx | hx
        · simp only [Option.toList_some, List.mem_singleton] at hx
          subst hx
          simp only [h1]
          exact g1
        · exact ih _ (by simpa using hq) g2 (fun r' h' => hall r' (by simp [h'])) x hx
      | tasks evs =>
        simp only [pserve, Option.toList_none] at hx
        rcases hx with hx | hx
        · cases hx
        · exact ih _ (by simpa using hq) (hgood.applyEvs hr) (fun r' h' => hall r' (by simp [h'])) x hx
  exact key rs p rfl (by rw [hg]; intro k _; simp [CState.empty]) hrs

/-- **C80 is violated**: after a read over `http`, a read of the same location over `https` returns what
came over `http`, although the `https` server has other bytes (and is not even asked). -/
theorem C80_violated_http_poisons_https :
    (pserveAll 4 ({ obj := fun s => if s = .http then [6, 6, 6, 6] else [1, 2, 3, 4], cache := CState.empty } : Pair Nat)
      [.read .http 0 4 [] [], .read .https 0 4 [] []]).2 =
      [(.http, 0, 4, .ok [6, 6, 6, 6]), (.https, 0, 4, .ok [6, 6, 6, 6])] := by decide +kernel

/-- **C80 is violated**, always: what has been read over one scheme is what a read of the same range over the
other scheme returns, whatever the server has there. -/
theorem C80_violated_always (m : Nat) (hm : 0 < m) (obj : Scheme → List α) (s s' : Scheme) (start stop : Nat)
    (hlt : start < stop) (hin : stop ≤ (obj s).length) :
    (pserveAll m { obj, cache := CState.empty } [.read s start stop [] [], .read s' start stop [] []]).2 =
      [(s, start, stop, .ok (slice (obj s) start stop)), (s', start, stop, .ok (slice (obj s) start stop))] := by
  have hempty : Good (fun _ => True) m (obj s) (CState.empty : CState α) := by intro k _; simp [CState.empty]
  have hnl : NoLostFiles (CState.empty : CState α) := by intro i; simp [CState.empty]
  have h1 := C22_no_spurious_error_partial m hm (obj s) [] [] start stop hlt hin (by simp) (by simp)
  simp only [applyEvs, List.foldl_nil] at h1
  obtain ⟨_, g1⟩ := getRange_good m hm (obj s) CState.empty [] [] start stop hlt hin (fun _ _ _ => trivial) hempty (by simp)
  have hp := read_present m hm (obj s) CState.empty hnl [] start stop hlt _ h1
  obtain ⟨e1, e2⟩ := getRange_held hm (obj s') (obj s) _ [] start stop hlt hp
  have e3 := (getRange_good m hm (obj s) _ [] [] start stop hlt hin (fun _ _ _ => trivial) g1 (by simp)).1
  rw [← e1] at e3
  rcases e3 with e3 | e3
  · exact absurd e3 e2
  · simp [pserveAll, pserve, h1, e3]

/-- Without the read over `http` the answer is right. -/
example : (pserveAll 4 ({ obj := fun s => if s = .http then [6, 6, 6, 6] else [1, 2, 3, 4], cache := CState.empty } : Pair Nat)
      [.read .https 0 4 [] [], .tasks [.evict 0], .read .https 1 3 [] []]).2 =
      [(.https, 0, 4, .ok [1, 2, 3, 4]), (.https, 1, 3, .ok [2, 3])] := by decide +kernel

end Seafowl.Store
