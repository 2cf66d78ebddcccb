import Verif.Store.CacheMetrics
import Verif.Store.CacheProps

/-!
# C118: the metrics of the cache account for every read
-/

namespace Seafowl.Store

variable {α : Type}

/-! ### counting does not change what is read -/

theorem lookupChunkM_fst (m : Nat) (obj : List α) (k : Nat) (st : RState α) (w : Metered α) :
    (lookupChunkM m obj k st w).1 = lookupChunk m obj k st := by
  unfold lookupChunkM lookupChunk
  simp only
  split
  · next h => simp only [h]
  · next h => simp only [h]
  · next h =>
    simp only [h]
    split
    · next h2 => simp only [h2]
    · next h2 =>
      simp only [h2, fetchM]
      cases tryFetch obj (k * m) ((k + 1) * m) (interfere (interfere st)) with
      | none => rfl
      | some p => rfl

theorem flushBatchM_fst (m : Nat) (obj : List α) (st : RState α) (w : Metered α) :
    (flushBatchM m obj st w).1 = flushBatch m obj st := by
  unfold flushBatchM flushBatch
  cases h1 : st.batch.head? with
  | none => rfl
  | some first =>
    cases h2 : st.batch.getLast? with
    | none => rfl
    | some last =>
      simp only [fetchM]
      cases tryFetch obj (first * m) ((last + 1) * m) st with
      | none => rfl
      | some p => rfl

theorem chunkLoopM_fst (m : Nat) (obj : List α) : ∀ (ks : List Nat) (st : RState α) (w : Metered α),
    (chunkLoopM m obj ks st w).1 = chunkLoop m obj ks st
  | [], _, _ => rfl
  | k :: ks, st, w => by
    have h1 := lookupChunkM_fst m obj k st w
    unfold chunkLoopM chunkLoop
    rcases hl : lookupChunkM m obj k st w with ⟨_ | ⟨data, st1⟩, w1⟩
    · rw [hl] at h1
      simp only at h1
      simp only [← h1]
    · rw [hl] at h1
      simp only at h1
      simp only [← h1]
      have h2 : (flushIf m obj (data.isSome || ks.isEmpty) st1 w1).1 =
          (if data.isSome || ks.isEmpty then flushBatch m obj st1 else some st1) := by
        unfold flushIf
        split
        · exact flushBatchM_fst m obj st1 w1
        · rfl
      rcases hf : flushIf m obj (data.isSome || ks.isEmpty) st1 w1 with ⟨_ | st2, w2⟩
      · rw [hf] at h2
        simp only at h2
        simp only [← h2]
      · rw [hf] at h2
        simp only at h2
        simp only [← h2]
        rw [chunkLoopM_fst m obj ks]
        cases data <;> rfl

/-- **C118 (the same reads).** The counted read is the read of C22 and C23. -/
theorem C118_same_read (m : Nat) (obj : List α) (cache : CState α) (c : RCall α) (w : Metered α) :
    ((getRangeM m obj cache c w).1, (getRangeM m obj cache c w).2.1) =
      getRange m obj cache c.envs c.fails c.start c.stop := by
  unfold getRangeM getRange
  simp only
  split
  · rfl
  · have h := chunkLoopM_fst m obj (List.range' (c.start / m) ((c.stop - 1) / m + 1 - c.start / m))
      ⟨cache, [], [], [], c.envs, c.fails⟩ { w with meter := w.meter.call (c.stop - c.start) }
    rcases hl : chunkLoopM m obj (List.range' (c.start / m) ((c.stop - 1) / m + 1 - c.start / m))
      ⟨cache, [], [], [], c.envs, c.fails⟩ { w with meter := w.meter.call (c.stop - c.start) } with ⟨_ | st, w1⟩
    · rw [hl] at h
      simp only at h
      simp only [← h]
    · rw [hl] at h
      simp only at h
      simp only [← h]
      split <;> rfl

/-! ### an invariant of everything a read does -/

/-- What one counted step may do to the counters of calls and requested bytes, and to the log. -/
structure StepOk (w w' : Metered α) : Prop where
  calls : w'.meter.calls = w.meter.calls
  asked : w'.meter.asked = w.meter.asked
  log : ∃ l : List (Nat × Nat × Option (List α)), w'.log = w.log ++ l ∧
    w'.meter.okReqs = w.meter.okReqs + (l.filter fun x => x.2.2.isSome).length ∧
    w'.meter.errReqs = w.meter.errReqs + (l.filter fun x => x.2.2.isNone).length ∧
    w'.meter.miss = w.meter.miss + (l.map fun x => (x.2.2.getD []).length).sum

theorem StepOk.refl (w : Metered α) : StepOk w w := ⟨rfl, rfl, [], by simp⟩

theorem StepOk.trans {a b c : Metered α} (h : StepOk a b) (g : StepOk b c) : StepOk a c := by
  obtain ⟨h1, h2, l, h3, h4, h5, h6⟩ := h
  obtain ⟨g1, g2, k, g3, g4, g5, g6⟩ := g
  refine ⟨by rw [g1, h1], by rw [g2, h2], l ++ k, by rw [g3, h3, List.append_assoc], ?_, ?_, ?_⟩
  · rw [g4, h4, List.filter_append, List.length_append]; omega
  · rw [g5, h5, List.filter_append, List.length_append]; omega
  · rw [g6, h6, List.map_append, List.sum_append]; omega

theorem fetchM_step (obj : List α) (s e : Nat) (st : RState α) (w : Metered α) :
    StepOk w (fetchM obj s e st w).2 := by
  unfold fetchM
  simp only
  cases tryFetch obj s e st with
  | none => exact ⟨rfl, rfl, [(s, e, none)], by simp [logOutbound]⟩
  | some p => exact ⟨rfl, rfl, [(s, e, some p.1)], by simp [logOutbound]⟩

theorem readOnly_step (w : Metered α) (f : Meter) (h : f.calls = w.meter.calls ∧ f.asked = w.meter.asked ∧
    f.okReqs = w.meter.okReqs ∧ f.errReqs = w.meter.errReqs ∧ f.miss = w.meter.miss) :
    StepOk w { w with meter := f } :=
  ⟨h.1, h.2.1, [], by simp [h.2.2.1, h.2.2.2.1, h.2.2.2.2]⟩

theorem lookupChunkM_step (m : Nat) (obj : List α) (k : Nat) (st : RState α) (w : Metered α) :
    StepOk w (lookupChunkM m obj k st w).2 := by
  unfold lookupChunkM
  simp only
  split
  · exact StepOk.refl w
  · exact readOnly_step w _ ⟨rfl, rfl, rfl, rfl, rfl⟩
  · split
    · exact readOnly_step w _ ⟨rfl, rfl, rfl, rfl, rfl⟩
    · have h1 : StepOk w { w with meter := w.meter.lost } := readOnly_step w _ ⟨rfl, rfl, rfl, rfl, rfl⟩
      have h2 := h1.trans (fetchM_step obj (k * m) ((k + 1) * m) (interfere (interfere st)) _)
      rcases hf : fetchM obj (k * m) ((k + 1) * m) (interfere (interfere st)) { w with meter := w.meter.lost } with
        ⟨_ | p, w1⟩ <;> (rw [hf] at h2; exact h2)

theorem flushIf_step (m : Nat) (obj : List α) (c : Bool) (st : RState α) (w : Metered α) :
    StepOk w (flushIf m obj c st w).2 := by
  unfold flushIf
  split
  · unfold flushBatchM
    split
    · rename_i first last _ _
      have h2 := fetchM_step obj (first * m) ((last + 1) * m) st w
      rcases hf : fetchM obj (first * m) ((last + 1) * m) st w with ⟨_ | p, w1⟩ <;> (rw [hf] at h2; exact h2)
    · exact StepOk.refl w
  · exact StepOk.refl w

theorem chunkLoopM_step (m : Nat) (obj : List α) : ∀ (ks : List Nat) (st : RState α) (w : Metered α),
    StepOk w (chunkLoopM m obj ks st w).2
  | [], _, w => StepOk.refl w
  | k :: ks, st, w => by
    have h1 := lookupChunkM_step m obj k st w
    unfold chunkLoopM
    rcases hl : lookupChunkM m obj k st w with ⟨_ | ⟨data, st1⟩, w1⟩
    · rw [hl] at h1; exact h1
    · rw [hl] at h1
      have h2 := flushIf_step m obj (data.isSome || ks.isEmpty) st1 w1
      simp only
      rcases hf : flushIf m obj (data.isSome || ks.isEmpty) st1 w1 with ⟨_ | st2, w2⟩
      · rw [hf] at h2; exact h1.trans h2
      · rw [hf] at h2; exact (h1.trans h2).trans (chunkLoopM_step m obj ks _ w2)

theorem getRangeM_step (m : Nat) (obj : List α) (cache : CState α) (c : RCall α) (w : Metered α) :
    StepOk { w with meter := w.meter.call (c.stop - c.start) } (getRangeM m obj cache c w).2.2 := by
  unfold getRangeM
  simp only
  split
  · exact StepOk.refl _
  · have h := chunkLoopM_step m obj (List.range' (c.start / m) ((c.stop - 1) / m + 1 - c.start / m))
      ⟨cache, [], [], [], c.envs, c.fails⟩ { w with meter := w.meter.call (c.stop - c.start) }
    rcases hl : chunkLoopM m obj (List.range' (c.start / m) ((c.stop - 1) / m + 1 - c.start / m))
      ⟨cache, [], [], [], c.envs, c.fails⟩ { w with meter := w.meter.call (c.stop - c.start) } with ⟨_ | st, w1⟩
    · rw [hl] at h; exact h
    · rw [hl] at h
      simp only
      split <;> exact h

/-- What the counters of a server that started with zero must show: each read once with the bytes it asked for, and
of the backend the answers, the failures and the bytes it sent. -/
structure Shows (reads : List (RCall α)) (w : Metered α) : Prop where
  calls : w.meter.calls = reads.length
  asked : w.meter.asked = (reads.map fun c => c.stop - c.start).sum
  okReqs : w.meter.okReqs = (w.log.filter fun x => x.2.2.isSome).length
  errReqs : w.meter.errReqs = (w.log.filter fun x => x.2.2.isNone).length
  miss : w.meter.miss = (w.log.map fun x => (x.2.2.getD []).length).sum

theorem readsM_shows (m : Nat) (obj : List α) : ∀ (l : List (CState α × RCall α)) (done : List (RCall α)) (w : Metered α),
    Shows done w → Shows (done ++ l.map (·.2)) (readsM m obj l w).2
  | [], done, w, h => by simpa [readsM] using h
  | (cache, c) :: rest, done, w, h => by
    have hs := getRangeM_step m obj cache c w
    have h' : Shows (done ++ [c]) (getRangeM m obj cache c w).2.2 := by
      obtain ⟨s1, s2, l, s3, s4, s5, s6⟩ := hs
      refine ⟨?_, ?_, ?_, ?_, ?_⟩
      · rw [s1]; simp [Meter.call, h.calls]
      · rw [s2]; simp [Meter.call, h.asked]
      · rw [s4, s3]; simp only [Meter.call, h.okReqs, List.filter_append, List.length_append]
      · rw [s5, s3]; simp only [Meter.call, h.errReqs, List.filter_append, List.length_append]
      · rw [s6, s3]; simp only [Meter.call, h.miss, List.map_append, List.sum_append]
    have := readsM_shows m obj rest (done ++ [c]) _ h'
    simpa [readsM] using this

/-- **C118 (requests).** After any history of reads, with any interference and any failures, the counters of
incoming reads and of requests to the backend are what came in and what the backend answered. -/
theorem C118_history (m : Nat) (obj : List α) (l : List (CState α × RCall α)) :
    Shows (l.map (·.2)) (readsM m obj l ⟨Meter.zero, []⟩).2 := by
  have := readsM_shows m obj l [] ⟨Meter.zero, []⟩ ⟨rfl, rfl, rfl, rfl, rfl⟩
  simpa using this

/-! ### the requests that are counted are those that are sent -/

/-- The requests of a log. -/
def Metered.sent (w : Metered α) : List (Nat × Nat) := w.log.map (fun x => (x.1, x.2.1))

theorem fetchM_sent (obj : List α) (s e : Nat) (st : RState α) (w : Metered α) :
    (fetchM obj s e st w).2.sent = w.sent ++ [(s, e)] ∧
    (∀ d st', (fetchM obj s e st w).1 = some (d, st') → st'.reqs = st.reqs ++ [(s, e)]) := by
  refine ⟨by simp [fetchM, Metered.sent], fun d st' h => ?_⟩
  exact (tryFetch_spec h).2.2.2.2.2.2.2

theorem foldl_cacheChunk_reqs (l : List (Nat × List α)) : ∀ st : RState α,
    (l.foldl (fun s p => cacheChunk s p.1 p.2) st).reqs = st.reqs := by
  induction l with
  | nil => intro st; rfl
  | cons p l ih => intro st; rw [List.foldl_cons, ih]; rfl

theorem lookupChunkM_sent (m : Nat) (obj : List α) (k : Nat) (st : RState α) (w : Metered α) :
    ∃ l, (lookupChunkM m obj k st w).2.sent = w.sent ++ l ∧
      match (lookupChunkM m obj k st w).1 with
      | some (_, st') => st'.reqs = st.reqs ++ l
      | none => (failedFetch (k * m) ((k + 1) * m) (interfere (interfere st))).reqs = st.reqs ++ l := by
  unfold lookupChunkM
  simp only
  split
  · exact ⟨[], by simp, by simp [interfere]⟩
  · exact ⟨[], by simp [Metered.sent], by simp [interfere]⟩
  · split
    · exact ⟨[], by simp [Metered.sent], by simp [interfere]⟩
    · refine ⟨[(k * m, (k + 1) * m)], ?_⟩
      obtain ⟨h1, h2⟩ := fetchM_sent obj (k * m) ((k + 1) * m) (interfere (interfere st)) { w with meter := w.meter.lost }
      rcases hf : fetchM obj (k * m) ((k + 1) * m) (interfere (interfere st)) { w with meter := w.meter.lost } with
        ⟨_ | ⟨d, st'⟩, w'⟩
      · rw [hf] at h1
        exact ⟨h1, rfl⟩
      · rw [hf] at h1 h2
        exact ⟨h1, h2 d st' rfl⟩

theorem flushIf_sent (m : Nat) (obj : List α) (c : Bool) (st : RState α) (w : Metered α) :
    ∃ l, (flushIf m obj c st w).2.sent = w.sent ++ l ∧
      match (flushIf m obj c st w).1 with
      | some st' => st'.reqs = st.reqs ++ l
      | none => (failedFetch (st.batch.head?.getD 0 * m) ((st.batch.getLast?.getD 0 + 1) * m) st).reqs = st.reqs ++ l := by
  unfold flushIf
  split
  · unfold flushBatchM
    cases h1 : st.batch.head? with
    | none => exact ⟨[], by simp, by simp⟩
    | some first =>
      cases h2 : st.batch.getLast? with
      | none => exact ⟨[], by simp, by simp⟩
      | some last =>
        refine ⟨[(first * m, (last + 1) * m)], ?_⟩
        obtain ⟨e1, e2⟩ := fetchM_sent obj (first * m) ((last + 1) * m) st w
        simp only
        rcases hf : fetchM obj (first * m) ((last + 1) * m) st w with ⟨_ | ⟨d, st'⟩, w'⟩
        · rw [hf] at e1
          exact ⟨e1, rfl⟩
        · rw [hf] at e1 e2
          refine ⟨e1, ?_⟩
          simp only [fetchedBatch]
          rw [foldl_cacheChunk_reqs]
          exact e2 d st' rfl
  · exact ⟨[], by simp, by simp⟩

theorem chunkLoopM_sent (m : Nat) (obj : List α) : ∀ (ks : List Nat) (st : RState α) (w : Metered α),
    ∃ l, (chunkLoopM m obj ks st w).2.sent = w.sent ++ l ∧
      match (chunkLoopM m obj ks st w).1 with
      | some st' => st'.reqs = st.reqs ++ l
      | none => (leftover m obj ks st).reqs = st.reqs ++ l
  | [], st, w => ⟨[], by simp [chunkLoopM], by simp [chunkLoopM]⟩
  | k :: ks, st, w => by
    have h1 := lookupChunkM_fst m obj k st w
    obtain ⟨l1, s1, s2⟩ := lookupChunkM_sent m obj k st w
    unfold chunkLoopM leftover
    rcases hl : lookupChunkM m obj k st w with ⟨_ | ⟨data, st1⟩, w1⟩
    · rw [hl] at h1 s1 s2
      simp only at h1 s1 s2
      simp only [← h1]
      exact ⟨l1, s1, s2⟩
    · rw [hl] at h1 s1 s2
      simp only at h1 s1 s2
      simp only [← h1]
      have h2 : (flushIf m obj (data.isSome || ks.isEmpty) st1 w1).1 =
          (if data.isSome || ks.isEmpty then flushBatch m obj st1 else some st1) := by
        unfold flushIf
        split
        · exact flushBatchM_fst m obj st1 w1
        · rfl
      obtain ⟨l2, t1, t2⟩ := flushIf_sent m obj (data.isSome || ks.isEmpty) st1 w1
      rcases hf : flushIf m obj (data.isSome || ks.isEmpty) st1 w1 with ⟨_ | st2, w2⟩
      · rw [hf] at h2 t1 t2
        simp only at h2 t1 t2
        simp only [← h2]
        exact ⟨l1 ++ l2, by rw [t1, s1, List.append_assoc], by rw [t2, s2, List.append_assoc]⟩
      · rw [hf] at h2 t1 t2
        simp only at h2 t1 t2
        simp only [← h2]
        obtain ⟨l3, u1, u2⟩ := chunkLoopM_sent m obj ks (addData st2 data) w2
        refine ⟨l1 ++ (l2 ++ l3), by rw [u1, t1, s1]; simp, ?_⟩
        have hd : (addData st2 data).reqs = st2.reqs := by cases data <;> rfl
        rw [hd, t2, s2] at u2
        cases data <;>
        · simp only [addData] at u2 ⊢
          generalize (chunkLoopM m obj ks _ w2).1 = x at u2 ⊢
          cases x with
          | none => simpa using u2
          | some st' => simpa using u2

/-- **C118 (what is counted is what is sent).**  Each read, also one that fails, adds to the log of the backend
exactly the requests it sent (those of C23), in order. -/
theorem C118_sent (m : Nat) (obj : List α) (cache : CState α) (c : RCall α) (w : Metered α) :
    (getRangeM m obj cache c w).2.2.sent =
      w.sent ++ (getRange m obj cache c.envs c.fails c.start c.stop).2.reqs := by
  rw [← C118_same_read m obj cache c w]
  unfold getRangeM
  simp only
  split
  · simp [Metered.sent]
  · obtain ⟨l, h1, h2⟩ := chunkLoopM_sent m obj (List.range' (c.start / m) ((c.stop - 1) / m + 1 - c.start / m))
      ⟨cache, [], [], [], c.envs, c.fails⟩ { w with meter := w.meter.call (c.stop - c.start) }
    rcases hl : chunkLoopM m obj (List.range' (c.start / m) ((c.stop - 1) / m + 1 - c.start / m))
      ⟨cache, [], [], [], c.envs, c.fails⟩ { w with meter := w.meter.call (c.stop - c.start) } with ⟨_ | st, w1⟩
    · rw [hl] at h1 h2
      simp only [List.nil_append] at h1 h2
      simp only
      rw [h2, h1]
      rfl
    · rw [hl] at h1 h2
      simp only [List.nil_append] at h1 h2
      simp only
      split <;> (simp only; rw [h2, h1]; rfl)

/-- A read of which the second request fails: both are in the log. -/
example : (getRangeM 2 [0, 1, 2, 3, 4, 5, 6, 7] (applyEvs CState.empty [.insert 1 [2, 3]])
    ⟨[], [false, true], 0, 8⟩ ⟨Meter.zero, []⟩).2.2.log = [(0, 2, some [0, 1]), (4, 8, none)] := by decide +kernel

/-! ### every byte is a hit or a miss -/

/-- Bytes counted as read from the cache or from the backend. -/
def Meter.bytes (w : Meter) : Nat := w.mem + w.disk + w.miss

theorem fetchM_bytes {obj : List α} {s e : Nat} {st st' : RState α} {d : List α} {w w' : Metered α}
    (h : fetchM obj s e st w = (some (d, st'), w')) :
    w'.meter.bytes = w.meter.bytes + d.length ∧ st'.result = st.result ∧ tryFetch obj s e st = some (d, st') := by
  unfold fetchM at h
  simp only [Prod.mk.injEq] at h
  obtain ⟨h1, rfl⟩ := h
  rw [h1]
  refine ⟨?_, ?_, rfl⟩
  · simp [logOutbound, Meter.bytes]; omega
  · unfold tryFetch fetch at h1
    split at h1
    · cases h1
    · simp only at h1
      split at h1
      · cases h1
      · simp only [Option.some.injEq, Prod.mk.injEq] at h1
        rw [← h1.2]
        rfl

theorem cacheChunk_result (st : RState α) (k : Nat) (d : List α) : (cacheChunk st k d).result = st.result := rfl

theorem foldl_cacheChunk_result (l : List (Nat × List α)) : ∀ st : RState α,
    (l.foldl (fun s p => cacheChunk s p.1 p.2) st).result = st.result := by
  induction l with
  | nil => intro st; rfl
  | cons p l ih => intro st; rw [List.foldl_cons, ih, cacheChunk_result]

theorem lookupChunkM_bytes {m : Nat} {obj : List α} {k : Nat} {st st' : RState α} {w w' : Metered α}
    {data : Option (List α)} (h : lookupChunkM m obj k st w = (some (data, st'), w')) :
    w'.meter.bytes = w.meter.bytes + (data.getD []).length ∧ st'.result = st.result := by
  unfold lookupChunkM at h
  simp only at h
  split at h
  · simp only [Prod.mk.injEq, Option.some.injEq] at h
    obtain ⟨⟨rfl, rfl⟩, rfl⟩ := h
    exact ⟨rfl, rfl⟩
  · simp only [Prod.mk.injEq, Option.some.injEq] at h
    obtain ⟨⟨rfl, rfl⟩, rfl⟩ := h
    refine ⟨?_, rfl⟩
    simp [Meter.bytes, Meter.readMem]; omega
  · split at h
    · simp only [Prod.mk.injEq, Option.some.injEq] at h
      obtain ⟨⟨rfl, rfl⟩, rfl⟩ := h
      refine ⟨?_, rfl⟩
      simp [Meter.bytes, Meter.readDisk]; omega
    · rcases hf : fetchM obj (k * m) ((k + 1) * m) (interfere (interfere st)) { w with meter := w.meter.lost } with
        ⟨_ | ⟨d, st1⟩, w1⟩
      · rw [hf] at h; simp [refetched] at h
      · rw [hf] at h
        simp only [refetched, Prod.mk.injEq, Option.some.injEq] at h
        obtain ⟨⟨rfl, rfl⟩, rfl⟩ := h
        obtain ⟨b1, b2, _⟩ := fetchM_bytes hf
        exact ⟨b1, by rw [cacheChunk_result, b2]; rfl⟩

theorem flushIf_bytes {m : Nat} {obj : List α} {c : Bool} {st st' : RState α} {w w' : Metered α}
    (h : flushIf m obj c st w = (some st', w')) :
    w'.meter.bytes + st.result.length = w.meter.bytes + st'.result.length := by
  unfold flushIf at h
  split at h
  · unfold flushBatchM at h
    split at h
    · rename_i first last _ _
      rcases hf : fetchM obj (first * m) ((last + 1) * m) st w with ⟨_ | ⟨d, st1⟩, w1⟩
      · rw [hf] at h; simp [fetchedBatch] at h
      · rw [hf] at h
        simp only [fetchedBatch, Prod.mk.injEq, Option.some.injEq] at h
        obtain ⟨rfl, rfl⟩ := h
        obtain ⟨b1, b2, _⟩ := fetchM_bytes hf
        simp only [foldl_cacheChunk_result, List.length_append, b1, b2]
        omega
    · simp only [Prod.mk.injEq, Option.some.injEq] at h
      obtain ⟨rfl, rfl⟩ := h
      rfl
  · simp only [Prod.mk.injEq, Option.some.injEq] at h
    obtain ⟨rfl, rfl⟩ := h
    rfl

theorem chunkLoopM_bytes (m : Nat) (obj : List α) : ∀ (ks : List Nat) (st st' : RState α) (w w' : Metered α),
    chunkLoopM m obj ks st w = (some st', w') →
      w'.meter.bytes + st.result.length = w.meter.bytes + st'.result.length
  | [], st, st', w, w', h => by
    simp only [chunkLoopM, Prod.mk.injEq, Option.some.injEq] at h
    obtain ⟨rfl, rfl⟩ := h
    rfl
  | k :: ks, st, st', w, w', h => by
    unfold chunkLoopM at h
    rcases hl : lookupChunkM m obj k st w with ⟨_ | ⟨data, st1⟩, w1⟩
    · rw [hl] at h; simp at h
    · rw [hl] at h
      simp only at h
      obtain ⟨l1, l2⟩ := lookupChunkM_bytes hl
      rcases hf : flushIf m obj (data.isSome || ks.isEmpty) st1 w1 with ⟨_ | st2, w2⟩
      · rw [hf] at h; simp at h
      · rw [hf] at h
        simp only at h
        have f1 := flushIf_bytes hf
        have ih := chunkLoopM_bytes m obj ks _ _ _ _ h
        have ha : (addData st2 data).result.length = st2.result.length + (data.getD []).length := by
          cases data <;> simp [addData]
        rw [l2] at f1
        omega

/-- **C118 (bytes).** A read inside an object whose bytes are what the cache and the other tasks put there counts
exactly the bytes of its chunks that exist, each as a hit or as a miss, whatever happens meanwhile: never less than
were asked for, and at most a chunk less one byte more on either side. -/
theorem C118_bytes {P : Nat → Prop} (m : Nat) (hm : 0 < m) (obj : List α) (cache : CState α) (c : RCall α)
    (w : Metered α) (hlt : c.start < c.stop) (hin : c.stop ≤ obj.length)
    (hP : ∀ i, c.start / m ≤ i → i ≤ (c.stop - 1) / m → P i) (hgood : Good P m obj cache)
    (hhon : ∀ evs ∈ c.envs, ∀ e ∈ evs, HonestEv P m obj e) (d : List α)
    (hok : (getRangeM m obj cache c w).1 = .ok d) :
    (getRangeM m obj cache c w).2.2.meter.bytes =
      w.meter.bytes + (min obj.length (((c.stop - 1) / m + 1) * m) - c.start / m * m) ∧
    d.length ≤ min obj.length (((c.stop - 1) / m + 1) * m) - c.start / m * m ∧
    min obj.length (((c.stop - 1) / m + 1) * m) - c.start / m * m ≤ d.length + 2 * (m - 1) := by
  have hsame := C118_same_read m obj cache c w
  have hres := (getRange_good m hm obj cache c.envs c.fails c.start c.stop hlt hin hP hgood hhon).1
  rw [← hsame] at hres
  simp only [hok] at hres
  have hd : d = slice obj c.start c.stop := by
    rcases hres with h | h
    · cases h
    · exact (RRes.ok.inj h)
  have hdl : d.length = c.stop - c.start := by rw [hd, slice_length]; omega
  have hsc : c.start / m * m ≤ c.start := Nat.div_mul_le_self c.start m
  have hsc2 : c.start < (c.start / m + 1) * m := by
    have := Nat.lt_mul_div_succ c.start hm
    rw [Nat.mul_comm] at this
    exact this
  have hec : (c.stop - 1) / m * m ≤ c.stop - 1 := Nat.div_mul_le_self (c.stop - 1) m
  have hec2 : c.stop ≤ ((c.stop - 1) / m + 1) * m := by
    have := Nat.lt_mul_div_succ (c.stop - 1) hm
    rw [Nat.mul_comm] at this
    omega
  have hle : c.start / m ≤ (c.stop - 1) / m := Nat.div_le_div_right (by omega)
  rw [Nat.add_mul, Nat.one_mul] at hsc2
  refine ⟨?_, by omega, by rw [Nat.add_mul, Nat.one_mul]; omega⟩
  have hfst := chunkLoopM_fst m obj (List.range' (c.start / m) ((c.stop - 1) / m + 1 - c.start / m))
      ⟨cache, [], [], [], c.envs, c.fails⟩ { w with meter := w.meter.call (c.stop - c.start) }
  unfold getRangeM at hok ⊢
  simp only at hok ⊢
  rw [if_neg (by omega)] at hok ⊢
  rcases hl : chunkLoopM m obj (List.range' (c.start / m) ((c.stop - 1) / m + 1 - c.start / m))
      ⟨cache, [], [], [], c.envs, c.fails⟩ { w with meter := w.meter.call (c.stop - c.start) } with ⟨_ | st, w1⟩
  · rw [hl] at hok; simp at hok
  · rw [hl] at hfst
    simp only at hfst
    have hb := chunkLoopM_bytes m obj _ _ _ _ _ hl
    have hw : (Meter.call w.meter (c.stop - c.start)).bytes = w.meter.bytes := rfl
    simp only [hw, List.length_nil, Nat.add_zero] at hb
    generalize hsce : c.start / m = sc at *
    generalize hece : (c.stop - 1) / m = ec at *
    obtain ⟨_, h2⟩ := chunkLoop_spec (P := P) (sc := sc) hm _ sc sc _ st
      (fun i a b => hP i a (by omega)) ⟨hgood, hhon⟩ (Nat.le_refl _) (Nat.le_refl _) (by simp)
      (by simp [slice]) (fun h => by omega)
      (by rw [show sc + (ec + 1 - sc) - 1 = ec by omega]; omega) hfst.symm
    rw [show sc + (ec + 1 - sc) = ec + 1 by omega] at h2
    have hlen : st.result.length = min obj.length ((ec + 1) * m) - sc * m := by
      rw [h2]; simp only [slice, List.length_take, List.length_drop]
      omega
    rw [← hlen, ← hb]
    simp only
    split <;> rfl

/-! ### hits are what the cache held -/

/-- Bytes of chunk `k` the cache holds in memory. -/
def memBytes (c : CState α) (k : Nat) : Nat :=
  match c.entries k with
  | some (.mem d) => d.length
  | _ => 0

/-- Bytes of chunk `k` the cache holds on disk. -/
def diskBytes (c : CState α) (k : Nat) : Nat :=
  match c.entries k, c.files k with
  | some .file, some d => d.length
  | _, _ => 0

/-- 1 if the file of chunk `k` is lost. -/
def lostFiles (c : CState α) (k : Nat) : Nat :=
  match c.entries k, c.files k with
  | some .file, none => 1
  | _, _ => 0

/-- Nobody interferes, and from chunk `k` on the cache is as it was. -/
structure Quiet (c0 : CState α) (k : Nat) (st : RState α) : Prop where
  idle : st.envs = []
  rest : ∀ i, k ≤ i → st.cache.entries i = c0.entries i ∧ st.cache.files i = c0.files i
  batch : ∀ i ∈ st.batch, i < k

theorem fetchM_hits (obj : List α) (s e : Nat) (st : RState α) (w : Metered α) :
    (fetchM obj s e st w).2.meter.mem = w.meter.mem ∧ (fetchM obj s e st w).2.meter.disk = w.meter.disk ∧
    (fetchM obj s e st w).2.meter.missing = w.meter.missing := by
  unfold fetchM
  simp only
  cases tryFetch obj s e st <;> exact ⟨rfl, rfl, rfl⟩

theorem lookupChunkM_hits {m : Nat} {obj : List α} {c0 : CState α} {k : Nat} {st st' : RState α} {w w' : Metered α}
    {data : Option (List α)} (hq : Quiet c0 k st) (h : lookupChunkM m obj k st w = (some (data, st'), w')) :
    Quiet c0 (k + 1) st' ∧ w'.meter.mem = w.meter.mem + memBytes c0 k ∧
      w'.meter.disk = w.meter.disk + diskBytes c0 k ∧ w'.meter.missing = w.meter.missing + lostFiles c0 k := by
  obtain ⟨r1, r2⟩ := hq.rest k (Nat.le_refl _)
  unfold lookupChunkM at h
  simp only [interfere_idle hq.idle] at h
  unfold memBytes diskBytes lostFiles
  rw [← r1, ← r2]
  cases he : st.cache.entries k with
  | none =>
    rw [he] at h
    simp only [Prod.mk.injEq, Option.some.injEq] at h
    obtain ⟨⟨rfl, rfl⟩, rfl⟩ := h
    refine ⟨⟨hq.idle, fun i hi => hq.rest i (by omega), ?_⟩, rfl, rfl, rfl⟩
    intro i hi
    rcases List.mem_append.1 hi with hi | hi
    · have := hq.batch i hi; omega
    · simp at hi; omega
  | some v =>
    cases v with
    | mem d =>
      rw [he] at h
      simp only [Prod.mk.injEq, Option.some.injEq] at h
      obtain ⟨⟨rfl, rfl⟩, rfl⟩ := h
      exact ⟨⟨hq.idle, fun i hi => hq.rest i (by omega), fun i hi => by have := hq.batch i hi; omega⟩, rfl, rfl, rfl⟩
    | file =>
      rw [he] at h
      simp only at h
      cases hd : st.cache.files k with
      | some d =>
        rw [hd] at h
        simp only [Prod.mk.injEq, Option.some.injEq] at h
        obtain ⟨⟨rfl, rfl⟩, rfl⟩ := h
        exact ⟨⟨hq.idle, fun i hi => hq.rest i (by omega), fun i hi => by have := hq.batch i hi; omega⟩, rfl, rfl, rfl⟩
      | none =>
        rw [hd] at h
        simp only at h
        have hh := fetchM_hits obj (k * m) ((k + 1) * m) st { w with meter := w.meter.lost }
        rcases hf : fetchM obj (k * m) ((k + 1) * m) st { w with meter := w.meter.lost } with ⟨_ | ⟨d, st1⟩, w1⟩
        · rw [hf] at h; simp [refetched] at h
        · rw [hf] at h hh
          simp only [refetched, Prod.mk.injEq, Option.some.injEq] at h
          obtain ⟨⟨rfl, rfl⟩, rfl⟩ := h
          obtain ⟨_, _, b3⟩ := fetchM_bytes hf
          obtain ⟨t1, t2, t3, _⟩ := tryFetch_idle hq.idle b3
          obtain ⟨c1, c2, _, c4, c5⟩ := cacheChunk_idle t2 k d
          refine ⟨⟨c1, ?_, ?_⟩, by rw [hh.1]; rfl, by rw [hh.2.1]; rfl, by rw [hh.2.2]; rfl⟩
          · intro i hi
            rw [c5 i (by omega), c4, t1]
            exact hq.rest i (by omega)
          · intro i hi
            rw [c2, t3] at hi
            have := hq.batch i hi
            omega

theorem flushIf_hits {m : Nat} {obj : List α} {c0 : CState α} {k : Nat} {c : Bool} {st st' : RState α}
    {w w' : Metered α} (hq : Quiet c0 k st) (h : flushIf m obj c st w = (some st', w')) :
    Quiet c0 k st' ∧ w'.meter.mem = w.meter.mem ∧ w'.meter.disk = w.meter.disk ∧
      w'.meter.missing = w.meter.missing := by
  unfold flushIf at h
  split at h
  · unfold flushBatchM at h
    split at h
    · rename_i first last _ _
      have hh := fetchM_hits obj (first * m) ((last + 1) * m) st w
      rcases hf : fetchM obj (first * m) ((last + 1) * m) st w with ⟨_ | ⟨d, st1⟩, w1⟩
      · rw [hf] at h; simp [fetchedBatch] at h
      · rw [hf] at h hh
        simp only [fetchedBatch, Prod.mk.injEq, Option.some.injEq] at h
        obtain ⟨rfl, rfl⟩ := h
        obtain ⟨_, _, b3⟩ := fetchM_bytes hf
        obtain ⟨t1, t2, t3, _⟩ := tryFetch_idle hq.idle b3
        obtain ⟨f1, _, f3, f4⟩ := foldl_cacheChunk_idle (splitBatch m st1.batch d)
          { st1 with result := st1.result ++ d } t2
        refine ⟨⟨f1, ?_, by simp⟩, hh⟩
        intro i hi
        refine ⟨?_, ?_⟩
        · have := f4 i (by
            intro p hpm he
            have hk : p.1 ∈ (splitBatch m st1.batch d).map (·.1) := List.mem_map_of_mem hpm
            rw [splitBatch_keys, t3] at hk
            have := hq.batch _ hk
            omega)
          simp only at this ⊢
          rw [this, t1]
          exact (hq.rest i hi).1
        · have := congrFun f3 i
          simp only at this ⊢
          rw [this, t1]
          exact (hq.rest i hi).2
    · simp only [Prod.mk.injEq, Option.some.injEq] at h
      obtain ⟨rfl, rfl⟩ := h
      exact ⟨hq, rfl, rfl, rfl⟩
  · simp only [Prod.mk.injEq, Option.some.injEq] at h
    obtain ⟨rfl, rfl⟩ := h
    exact ⟨hq, rfl, rfl, rfl⟩

theorem chunkLoopM_hits {m : Nat} {obj : List α} {c0 : CState α} : ∀ (n k : Nat) (st st' : RState α)
    (w w' : Metered α), Quiet c0 k st → chunkLoopM m obj (List.range' k n) st w = (some st', w') →
      w'.meter.mem = w.meter.mem + ((List.range' k n).map (memBytes c0)).sum ∧
      w'.meter.disk = w.meter.disk + ((List.range' k n).map (diskBytes c0)).sum ∧
      w'.meter.missing = w.meter.missing + ((List.range' k n).map (lostFiles c0)).sum
  | 0, k, st, st', w, w', _, h => by
    simp only [List.range'_zero, chunkLoopM, Prod.mk.injEq, Option.some.injEq] at h
    obtain ⟨rfl, rfl⟩ := h
    simp
  | n + 1, k, st, st', w, w', hq, h => by
    rw [List.range'_succ] at h ⊢
    unfold chunkLoopM at h
    rcases hl : lookupChunkM m obj k st w with ⟨_ | ⟨data, st1⟩, w1⟩
    · rw [hl] at h; simp at h
    · rw [hl] at h
      simp only at h
      obtain ⟨q1, l1, l2, l3⟩ := lookupChunkM_hits hq hl
      rcases hf : flushIf m obj (data.isSome || (List.range' (k + 1) n).isEmpty) st1 w1 with ⟨_ | st2, w2⟩
      · rw [hf] at h; simp at h
      · rw [hf] at h
        simp only at h
        obtain ⟨q2, f1, f2, f3⟩ := flushIf_hits q1 hf
        have q3 : Quiet c0 (k + 1) (addData st2 data) := by
          cases data with
          | none => exact q2
          | some d => exact ⟨q2.idle, q2.rest, q2.batch⟩
        obtain ⟨i1, i2, i3⟩ := chunkLoopM_hits n (k + 1) _ _ _ _ q3 h
        simp only [List.map_cons, List.sum_cons]
        omega

/-- **C118 (hits).** Without interference a read that succeeds counts as hits exactly the bytes the cache held of the
chunks of the range, in memory and on disk, and a warning for each file that was lost. -/
theorem C118_hits (m : Nat) (obj : List α) (cache : CState α) (c : RCall α) (w : Metered α) (hidle : c.envs = [])
    (d : List α) (hok : (getRangeM m obj cache c w).1 = .ok d) :
    let chunks := List.range' (c.start / m) ((c.stop - 1) / m + 1 - c.start / m)
    let w' := (getRangeM m obj cache c w).2.2.meter
    w'.mem = w.meter.mem + (chunks.map (memBytes cache)).sum ∧
    w'.disk = w.meter.disk + (chunks.map (diskBytes cache)).sum ∧
    w'.missing = w.meter.missing + (chunks.map (lostFiles cache)).sum := by
  intro chunks w'
  show (getRangeM m obj cache c w).2.2.meter.mem = _ ∧ (getRangeM m obj cache c w).2.2.meter.disk = _ ∧
    (getRangeM m obj cache c w).2.2.meter.missing = _
  unfold getRangeM at hok ⊢
  simp only at hok ⊢
  split at hok
  · cases hok
  · next hn =>
    rw [if_neg hn]
    rcases hl : chunkLoopM m obj (List.range' (c.start / m) ((c.stop - 1) / m + 1 - c.start / m))
      ⟨cache, [], [], [], c.envs, c.fails⟩ { w with meter := w.meter.call (c.stop - c.start) } with ⟨_ | st, w1⟩
    · rw [hl] at hok; simp at hok
    · have h := chunkLoopM_hits (c0 := cache) _ _ _ _ _ _ ⟨hidle, fun _ _ => ⟨rfl, rfl⟩, by simp⟩ hl
      simp only
      split <;> exact h

/-! ### the other operations -/

/-- The operations of the object store interface that are counted one by one, with their name. -/
def opName : SCall → String
  | .put => "put" | .putMultipart => "put_multipart" | .putMultipartOpts => "put_multipart" | .get => "get"
  | .getRange => "get_range" | .head => "head" | .delete => "delete" | .deleteStream => "delete_stream"
  | .list => "list" | .listWithDelimiter => "list_with_delimiter" | .copy => "copy"
  | .copyIfNotExists => "copy_if_not_exists" | .putPart => "put_part" | .complete => "complete" | .abort => "abort"

/-- Calls of multipart uploads other than the plain start. -/
def OfUpload (c : SCall) : Prop := c = .putMultipartOpts ∨ c = .putPart ∨ c = .complete ∨ c = .abort

/-- Calls that return a stream, whose outcome is not known when it is counted. -/
def Streams (c : SCall) : Prop := c = .deleteStream ∨ c = .list

/-- A look for a checkpoint that is not there. -/
def NoCheckpoint (c : SCall) (r : SRes) : Prop := c = .get ∧ ∃ dir, r = .notFound (dir ++ "_last_checkpoint".toList)

theorem isLastCheckpoint_iff (p : List Char) :
    isLastCheckpoint p = true ↔ ∃ dir, p = dir ++ "_last_checkpoint".toList := by
  unfold isLastCheckpoint lastCheckpoint
  rw [List.isSuffixOf_iff_suffix]
  constructor
  · rintro ⟨t, ht⟩; exact ⟨t, ht.symm⟩
  · rintro ⟨t, ht⟩; exact ⟨t, ht.symm⟩

/-- The status a call has to be counted under. -/
def RightStatus (c : SCall) (r : SRes) (status : String) : Prop :=
  (Streams c ∧ status = "unknown") ∨
  (¬ Streams c ∧ (r = .ok ∨ NoCheckpoint c r) ∧ status = "success") ∨
  (¬ Streams c ∧ ¬ (r = .ok ∨ NoCheckpoint c r) ∧ status = "error")

theorem ok_label (r : SRes) (status : String) : statusLabel (some r.isOk) = status ↔
    (r = .ok ∧ status = "success") ∨ (r ≠ .ok ∧ status = "error") := by
  cases r <;> simp [SRes.isOk, statusLabel, eq_comm]

theorem get_label (r : SRes) (status : String) : statusLabel (some (getSuccess r)) = status ↔
    ((r = .ok ∨ NoCheckpoint .get r) ∧ status = "success") ∨ (¬ (r = .ok ∨ NoCheckpoint .get r) ∧ status = "error") := by
  cases r with
  | ok => simp [getSuccess, statusLabel, eq_comm]
  | other => simp [getSuccess, statusLabel, NoCheckpoint, eq_comm]
  | notFound p =>
    have h : NoCheckpoint .get (.notFound p) ↔ isLastCheckpoint p = true := by
      rw [isLastCheckpoint_iff]
      simp only [NoCheckpoint, true_and, SRes.notFound.injEq]
    rw [h]
    simp only [getSuccess, reduceCtorEq, false_or]
    cases isLastCheckpoint p <;> simp [statusLabel, eq_comm]

theorem series_right (c : SCall) (r : SRes) (hc : ¬ OfUpload c) :
    ∃ b, series c r = some (opName c, b) ∧ ∀ status, statusLabel b = status ↔ RightStatus c r status := by
  have plain : ∀ c : SCall, ¬ Streams c → c ≠ .get → ∀ status,
      (statusLabel (some r.isOk) = status ↔ RightStatus c r status) := by
    intro c hs hg status
    have hn : ¬ NoCheckpoint c r := fun h => hg h.1
    rw [ok_label]
    simp only [RightStatus, hs, hn, false_and, not_false_eq_true, true_and, or_false, false_or, ne_eq]
  cases c with
  | get =>
    refine ⟨_, rfl, fun status => ?_⟩
    rw [get_label]
    have hs : ¬ Streams .get := by simp [Streams]
    simp only [RightStatus, hs, false_and, not_false_eq_true, true_and, false_or]
  | deleteStream =>
    refine ⟨_, rfl, fun status => ?_⟩
    have hs : Streams .deleteStream := by simp [Streams]
    simp only [RightStatus, hs, not_true_eq_false, false_and, true_and, or_false, statusLabel]
    exact eq_comm
  | list =>
    refine ⟨_, rfl, fun status => ?_⟩
    have hs : Streams .list := by simp [Streams]
    simp only [RightStatus, hs, not_true_eq_false, false_and, true_and, or_false, statusLabel]
    exact eq_comm
  | putMultipartOpts => exact absurd (by simp [OfUpload]) hc
  | putPart => exact absurd (by simp [OfUpload]) hc
  | complete => exact absurd (by simp [OfUpload]) hc
  | abort => exact absurd (by simp [OfUpload]) hc
  | _ => exact ⟨_, rfl, plain _ (by simp [Streams]) (by simp)⟩

open Classical in
/-- **C118 (other calls).** After any history of calls to the store, the counter for an operation and a status is the
number of calls of this operation that ended so; a look for a missing `_last_checkpoint`, with which Delta starts, is no
error, and streams count as unknown.  Missing: the calls of multipart uploads after the first, and uploads started
with options, see the violation. -/
theorem C118_requests_partial (l : List (SCall × SRes)) (hl : ∀ x ∈ l, ¬ OfUpload x.1) (op status : String) :
    requestsTotal l op status = (l.filter fun x => decide (opName x.1 = op ∧ RightStatus x.1 x.2 status)).length := by
  induction l with
  | nil => rfl
  | cons x l ih =>
    obtain ⟨c, r⟩ := x
    obtain ⟨b, h1, h2⟩ := series_right c r (hl (c, r) (by simp))
    rw [requestsTotal, ih (fun y hy => hl y (by simp [hy])), h1, List.filter_cons]
    simp only [h2 status]
    by_cases h : opName c = op ∧ RightStatus c r status
    · rw [if_pos h, if_pos (by simpa using h), List.length_cons]; omega
    · rw [if_neg h, if_neg (by simpa using h)]; omega

/-- Different operations have different names. -/
theorem C118_names (c c' : SCall) (h : ¬ OfUpload c) (h' : ¬ OfUpload c') (he : opName c = opName c') : c = c' := by
  simp only [OfUpload] at h h'
  cases c <;> first | (simp at h; done) | (cases c' <;> first | rfl | (simp at h'; done) | (simp [opName] at he; done))

/-- A case: a table is opened, a file is not found, objects are listed. -/
example : requestsTotal [(.get, .notFound "t/_delta_log/_last_checkpoint".toList), (.get, .notFound "t/x".toList), (.get, .ok),
    (.list, .ok), (.put, .other)] "get" "success" = 2 ∧
  requestsTotal [(.get, .notFound "t/_delta_log/_last_checkpoint".toList), (.get, .notFound "t/x".toList), (.get, .ok),
    (.list, .ok), (.put, .other)] "put" "error" = 1 := by decide +kernel

/-- **C118 is violated for uploads in parts**: `requests_total` is documented as the number of calls to the actual
object store, but of an upload of two parts only the start is counted, and not even that if it has options. -/
theorem C118_violated :
    (∀ op status, requestsTotal [(.putMultipart, .ok), (.putPart, .ok), (.putPart, .other), (.abort, .ok)] op status =
      requestsTotal [(.putMultipart, .ok)] op status) ∧
    ∀ op status r, requestsTotal [(.putMultipartOpts, r)] op status = 0 :=
  ⟨fun _ _ => by simp [requestsTotal, series], fun _ _ _ => by simp [requestsTotal, series]⟩

/-- Whatever the history: the calls of uploads in parts, other than the start without options, leave every counter as it
would be without them. -/
theorem C118_violated_always (l l' : List (SCall × SRes)) (c : SCall) (h : OfUpload c) (r : SRes) (op status : String) :
    requestsTotal (l ++ (c, r) :: l') op status = requestsTotal (l ++ l') op status := by
  induction l with
  | nil => rcases h with rfl | rfl | rfl | rfl <;> simp [requestsTotal, series]
  | cons x l ih => obtain ⟨a, b⟩ := x; simp only [List.cons_append, requestsTotal, ih]

/-! ### a case for the reads -/

/-- Ten bytes, chunks of four; the first chunk is in memory. -/
def tenBytes : List Nat := [0, 1, 2, 3, 4, 5, 6, 7, 8, 9]

def firstCached : CState Nat := applyEv CState.empty (.insert 0 [0, 1, 2, 3])

example : (getRangeM 4 tenBytes firstCached ⟨[], [], 1, 9⟩ ⟨Meter.zero, []⟩).1 = .ok [1, 2, 3, 4, 5, 6, 7, 8] ∧
    (getRangeM 4 tenBytes firstCached ⟨[], [], 1, 9⟩ ⟨Meter.zero, []⟩).2.2.meter = ⟨1, 8, 4, 0, 6, 0, 1, 0⟩ := by
  decide +kernel

/-- The hypotheses of `C118_bytes` hold for it. -/
example : Good (fun _ => True) 4 tenBytes firstCached := by
  apply Good.applyEv
  · intro k _
    simp [CState.empty]
  · intro _
    rfl

/-- A failed request to the backend: the hit before it stays counted. -/
example : (readsM 4 tenBytes [(firstCached, ⟨[], [true], 1, 9⟩), (firstCached, ⟨[], [], 0, 4⟩)] ⟨Meter.zero, []⟩).2.meter =
    ⟨2, 12, 8, 0, 0, 0, 0, 1⟩ := by decide +kernel

end Seafowl.Store
