import Verif.Misc.Shutdown

/-!
# C141: stopping the server
-/

namespace Seafowl.Startup

/-- A subsystem waits for its requests. -/
def Sub.waits : Sub → Prop
  | .http _ | .flight _ => True
  | _ => False

theorem lastOf_some {rs : List (Option Nat)} {d : Nat} : lastOf rs = some d → ∀ r ∈ rs, ∃ x, r = some x ∧ x ≤ d := by
  induction rs generalizing d with
  | nil => intro _ r hr; cases hr
  | cons r rs ih =>
    cases r with
    | none => intro h; cases h
    | some x =>
      intro h
      simp only [lastOf] at h
      cases hl : lastOf rs with
      | none => rw [hl] at h; cases h
      | some y =>
        rw [hl] at h
        simp only [Option.map_some, Option.some.injEq] at h
        intro q hq
        rcases List.mem_cons.1 hq with rfl | hq
        · exact ⟨x, rfl, by omega⟩
        · obtain ⟨z, h1, h2⟩ := ih hl q hq
          exact ⟨z, h1, by omega⟩

theorem lastOf_le {rs : List (Option Nat)} {b : Nat} (h : ∀ r ∈ rs, ∃ x, r = some x ∧ x ≤ b) : ∃ d, lastOf rs = some d ∧ d ≤ b := by
  induction rs with
  | nil => exact ⟨0, rfl, by omega⟩
  | cons r rs ih =>
    obtain ⟨x, rfl, hx⟩ := h r List.mem_cons_self
    obtain ⟨d, h1, h2⟩ := ih (fun q hq => h q (List.mem_cons_of_mem _ hq))
    exact ⟨max x d, by simp [lastOf, h1], by omega⟩

theorem allEnd_some {ss : List Sub} {d : Nat} : allEnd ss = some d → ∀ s ∈ ss, ∃ x, s.ends = some x ∧ x ≤ d := by
  induction ss generalizing d with
  | nil => intro _ s hs; cases hs
  | cons s ss ih =>
    intro h
    simp only [allEnd] at h
    cases h1 : s.ends with
    | none => rw [h1] at h; cases h
    | some a =>
      cases h2 : allEnd ss with
      | none => rw [h1, h2] at h; cases h
      | some b =>
        rw [h1, h2] at h
        simp only [Option.some.injEq] at h
        intro q hq
        rcases List.mem_cons.1 hq with rfl | hq
        · exact ⟨a, h1, by omega⟩
        · obtain ⟨z, g1, g2⟩ := ih h2 q hq
          exact ⟨z, g1, by omega⟩

theorem allEnd_le {ss : List Sub} {b : Nat} (h : ∀ s ∈ ss, ∃ x, s.ends = some x ∧ x ≤ b) : ∃ d, allEnd ss = some d ∧ d ≤ b := by
  induction ss with
  | nil => exact ⟨0, rfl, by omega⟩
  | cons s ss ih =>
    obtain ⟨x, h1, hx⟩ := h s List.mem_cons_self
    obtain ⟨d, g1, g2⟩ := ih (fun q hq => h q (List.mem_cons_of_mem _ hq))
    exact ⟨max x d, by simp [allEnd, h1, g1], by omega⟩

/-- Nothing is waited for longer than the last request. -/
theorem allEnd_min {ss : List Sub} {b : Nat} (h : ∀ s ∈ ss, ∃ x, s.ends = some x ∧ x ≤ b) (d : Nat) (hd : allEnd ss = some d) : d ≤ b := by
  obtain ⟨d', h1, h2⟩ := allEnd_le h
  rw [hd] at h1
  cases h1
  exact h2

/-- **C141**: whatever is running, the process ends within five seconds. -/
theorem C141_stops (ss : List Sub) : (stop ss).at_ ≤ 5000 := by
  simp only [stop]
  split
  · split
    · assumption
    · exact Nat.le_refl _
  · exact Nat.le_refl _

/-- **C141**: the process ends cleanly exactly if no frontend failed, no garbage collection runs and each request of the HTTP
and Flight frontends is done within five seconds. -/
theorem C141_exact (ss : List Sub) : (stop ss).clean = true ↔
    .failed ∉ ss ∧ .gc ∉ ss ∧ ∀ s ∈ ss, s.waits → ∀ r ∈ s.reqs, ∃ d, r = some d ∧ d ≤ 5000 := by
  constructor
  · intro h
    simp only [stop] at h
    cases ha : allEnd ss with
    | none => rw [ha] at h; cases h
    | some d =>
      rw [ha] at h
      simp only at h
      by_cases hd : d ≤ patience
      · rw [if_pos hd] at h
        have hf : .failed ∉ ss := by
          intro hm
          simp at h
          exact h hm
        have he := allEnd_some ha
        refine ⟨hf, ?_, ?_⟩
        · intro hm
          obtain ⟨x, hx, _⟩ := he _ hm
          cases hx
        · intro s hs hw r hr
          obtain ⟨x, hx, hx2⟩ := he s hs
          cases s with
          | http rs =>
            obtain ⟨y, g1, g2⟩ := lastOf_some hx r hr
            exact ⟨y, g1, by simp only [patience] at hd; omega⟩
          | flight rs =>
            obtain ⟨y, g1, g2⟩ := lastOf_some hx r hr
            exact ⟨y, g1, by simp only [patience] at hd; omega⟩
          | postgres rs => exact hw.elim
          | gc => exact hw.elim
          | failed => exact hw.elim
      · rw [if_neg hd] at h; cases h
  · rintro ⟨hf, hg, hr⟩
    have : ∀ s ∈ ss, ∃ x, s.ends = some x ∧ x ≤ 5000 := by
      intro s hs
      cases s with
      | http rs => exact lastOf_le (hr _ hs trivial)
      | flight rs => exact lastOf_le (hr _ hs trivial)
      | postgres rs => exact ⟨0, rfl, by omega⟩
      | gc => exact absurd hs hg
      | failed => exact ⟨0, rfl, by omega⟩
    obtain ⟨d, h1, h2⟩ := allEnd_le this
    have h3 : d ≤ patience := h2
    simp only [stop, h1, if_pos h3]
    cases hc : ss.contains .failed with
    | false => rfl
    | true => exact absurd (List.contains_iff_mem.1 hc) hf

/-- **C141, partial**: if the process ends cleanly, every request of the HTTP and Flight frontends that was under way has been
answered. -/
theorem C141_answered_partial (ss : List Sub) (h : (stop ss).clean = true) (s : Sub) (hs : s ∈ ss) (hw : s.waits)
    (r : Option Nat) (hr : r ∈ s.reqs) : answered (stop ss) r = true := by
  simp only [stop] at h ⊢
  cases ha : allEnd ss with
  | none => rw [ha] at h; cases h
  | some d =>
    rw [ha] at h
    simp only at h ⊢
    by_cases hd : d ≤ patience
    · rw [if_pos hd]
      obtain ⟨x, hx, hx2⟩ := allEnd_some ha s hs
      have : ∃ y, r = some y ∧ y ≤ x := by
        cases s with
        | http rs => exact lastOf_some hx r hr
        | flight rs => exact lastOf_some hx r hr
        | postgres rs => exact hw.elim
        | gc => exact hw.elim
        | failed => exact hw.elim
      obtain ⟨y, rfl, hy⟩ := this
      simp only [answered, decide_eq_true_eq]
      omega
    · rw [if_neg hd] at h; cases h

/-- **C141, partial**: requests of the HTTP and Flight frontends that need at most five seconds are answered, whatever else is
running. -/
theorem C141_short_partial (ss : List Sub) (s : Sub) (hs : s ∈ ss) (hw : s.waits) (d : Nat) (hr : some d ∈ s.reqs) (hd : d ≤ 5000) :
    answered (stop ss) (some d) = true := by
  suffices h : d ≤ (stop ss).at_ by simpa [answered] using h
  cases ha : allEnd ss with
  | none => simpa [stop, ha, patience] using hd
  | some e =>
    simp only [stop, ha]
    by_cases he : e ≤ patience
    · rw [if_pos he]
      obtain ⟨x, hx, hx2⟩ := allEnd_some ha s hs
      have : ∃ y, some d = some y ∧ y ≤ x := by
        cases s with
        | http rs => exact lastOf_some hx _ hr
        | flight rs => exact lastOf_some hx _ hr
        | postgres rs => exact hw.elim
        | gc => exact hw.elim
        | failed => exact hw.elim
      obtain ⟨y, h1, hy⟩ := this
      cases h1
      simp only
      omega
    · rw [if_neg he]
      simpa [patience] using hd

/-- **Violated, always**: with the garbage collection running the process never ends cleanly, and only after five seconds, even
if nothing is under way. -/
theorem C141_violated_gc_always (ss : List Sub) (h : .gc ∈ ss) : stop ss = ⟨5000, false⟩ := by
  simp only [stop]
  cases ha : allEnd ss with
  | none => rfl
  | some d =>
    obtain ⟨x, hx, _⟩ := allEnd_some ha _ h
    cases hx

/-- **Violated, always**: in terms of the configuration, a garbage collection interval and a default object store suffice. -/
theorem C141_violated_gc_configured (a : Args) (f : Frontends) (interval : Nat) (store : Bool) (f' : Frontends) (gc : Option Nat)
    (h : mode a f interval store = .serve f' gc) (hi : 0 < interval) (hs : store = true) (fl pg ht : List (Option Nat)) :
    stop (subsystems f' gc fl pg ht) = ⟨5000, false⟩ := by
  apply C141_violated_gc_always
  have hgc : gc.isSome = true := by
    simp only [mode, gcTask, hi, hs, if_true] at h
    by_cases h1 : gcSeconds interval = 0
    · simp only [h1, if_true] at h
      split at h
      · cases h
      · split at h
        · cases h
        · split at h
          · cases h
          · split at h <;> cases h
    · simp only [h1, if_false] at h
      split at h
      · cases h
      · split at h
        · cases h
        · split at h
          · cases h
          · split at h
            · cases h
            · simp only [Mode.serve.injEq] at h
              rw [← h.2]; rfl
  simp [subsystems, hgc]

/-- Without the garbage collection: the server of the default configuration ends cleanly if its requests are done in time. -/
theorem C141_default (a : Args) (f : Frontends) (store : Bool) (f' : Frontends) (gc : Option Nat)
    (h : mode a f 0 store = .serve f' gc) (fl pg ht : List (Option Nat))
    (h1 : ∀ r ∈ fl, ∃ d, r = some d ∧ d ≤ 5000) (h2 : ∀ r ∈ ht, ∃ d, r = some d ∧ d ≤ 5000) :
    (stop (subsystems f' gc fl pg ht)).clean = true := by
  have hgc : gc = none := by
    simp only [mode, gcTask, Nat.lt_irrefl, gt_iff_lt, if_false] at h
    split at h
    · cases h
    · split at h
      · cases h
      · split at h
        · cases h
        · split at h
          · cases h
          · simp only [Mode.serve.injEq] at h
            exact h.2.symm
  rw [C141_exact]
  subst hgc
  have hmem : ∀ s ∈ subsystems f' none fl pg ht, s = .flight fl ∨ s = .postgres pg ∨ s = .http ht := by
    intro s hs
    simp only [subsystems, Option.isSome_none, Bool.false_eq_true, if_false, List.append_nil, List.mem_append] at hs
    rcases hs with (hs | hs) | hs
    · split at hs
      · exact .inl (List.mem_singleton.1 hs)
      · cases hs
    · split at hs
      · exact .inr (.inl (List.mem_singleton.1 hs))
      · cases hs
    · split at hs
      · exact .inr (.inr (List.mem_singleton.1 hs))
      · cases hs
  refine ⟨?_, ?_, ?_⟩
  · intro hm; rcases hmem _ hm with h | h | h <;> cases h
  · intro hm; rcases hmem _ hm with h | h | h <;> cases h
  · intro s hs hw r hr
    rcases hmem _ hs with rfl | rfl | rfl
    · exact h1 r hr
    · exact hw.elim
    · exact h2 r hr

/-- **Violated, always**: a request that needs longer than five seconds is cut off, on any frontend. -/
theorem C141_violated_long_always (ss : List Sub) (r : Option Nat) (h : ∀ d, r = some d → 5000 < d) : answered (stop ss) r = false := by
  cases r with
  | none => rfl
  | some d =>
    have h1 := C141_stops ss
    have h2 := h d rfl
    simp only [answered, decide_eq_false_iff_not]
    omega

/-- **Violated, always**: requests of the PostgreSQL frontend are not waited for.  If all requests of the other frontends are
done earlier, such a request is cut off although the process ends cleanly. -/
theorem C141_violated_postgres_always (ss : List Sub) (d b : Nat) (hf : .failed ∉ ss) (hg : .gc ∉ ss) (hb : b ≤ 5000)
    (hr : ∀ s ∈ ss, s.waits → ∀ r ∈ s.reqs, ∃ x, r = some x ∧ x ≤ b) (hd : b < d) :
    (stop ss).clean = true ∧ answered (stop ss) (some d) = false := by
  have hc : (stop ss).clean = true := by
    rw [C141_exact]
    refine ⟨hf, hg, fun s hs hw r h => ?_⟩
    obtain ⟨x, h1, h2⟩ := hr s hs hw r h
    exact ⟨x, h1, by omega⟩
  refine ⟨hc, ?_⟩
  have hall : ∀ s ∈ ss, ∃ x, s.ends = some x ∧ x ≤ b := by
    intro s hs
    cases s with
    | http rs => exact lastOf_le (hr _ hs trivial)
    | flight rs => exact lastOf_le (hr _ hs trivial)
    | postgres rs => exact ⟨0, rfl, by omega⟩
    | gc => exact absurd hs hg
    | failed => exact ⟨0, rfl, by omega⟩
  obtain ⟨e, h1, h2⟩ := allEnd_le hall
  have he : e ≤ patience := by simp only [patience]; omega
  simp only [stop, h1, if_pos he, answered, decide_eq_false_iff_not]
  omega

/-- Two requests are waited for; the one over PostgreSQL is not. -/
example : stop [.http [some 20, some 300], .postgres [some 400], .flight []] = ⟨300, true⟩ ∧
    answered (stop [.http [some 20, some 300], .postgres [some 400], .flight []]) (some 400) = false ∧
    stop [.http [], .gc] = ⟨5000, false⟩ ∧ stop [.http [some 6000]] = ⟨5000, false⟩ ∧ stop [.flight [none], .http []] = ⟨5000, false⟩ ∧
    stop [.failed, .http [some 10]] = ⟨10, false⟩ := by decide

example : mode ⟨false, none, false⟩ ⟨true, false, true⟩ 1 true = .serve ⟨true, false, true⟩ (some 3600) ∧
    mode ⟨false, none, false⟩ ⟨true, false, true⟩ 0 true = .serve ⟨true, false, true⟩ none := by decide

end Seafowl.Startup
