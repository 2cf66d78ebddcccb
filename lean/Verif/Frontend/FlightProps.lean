/-
C44 (a Flight result stream is handed out at most once) and C60 (the first-request flag).
-/
import Verif.Frontend.Flight

set_option linter.unusedSimpArgs false

namespace Seafowl.Flight

variable {τ : Type}

/-! ### Specification of C44 -/

/-- The last request concerning `id` in the history, if any. -/
def lastAbout (id : Nat) : List (Op τ) → Option (Op τ)
  | [] => none
  | o :: rest =>
    match lastAbout id rest with
    | some o' => some o'
    | none =>
      match o with
      | .query j s => if j = id then some (.query j s) else none
      | .queryFailed _ => none
      | .fetch j => if j = id then some (.fetch j) else none

theorem remove_insert (m : Results τ) (id j : Nat) (s : τ) :
    ((m.insert id s).remove j).1 = if id = j then some s else (m.remove j).1 := by
  unfold Results.insert Results.remove
  by_cases h : id = j
  · subst h; simp
  · rw [if_neg h]
    simp only [List.find?_cons, h, decide_false]
    congr 1
    induction m with
    | nil => rfl
    | cons e m ih =>
      by_cases he : e.1 = id
      · have : ¬ e.1 = j := fun h' => h (he.symm.trans h')
        simp [he, h] 
        simpa [this] using ih
      · simp only [List.filter_cons, he, ne_eq, not_false_eq_true, decide_true, if_true,
          List.find?_cons]
        by_cases hj : e.1 = j
        · simp [hj]
        · simpa [hj] using ih

theorem remove_remove (m : Results τ) (id j : Nat) :
    ((m.remove id).2.remove j).1 = if id = j then none else (m.remove j).1 := by
  unfold Results.remove
  by_cases h : id = j
  · subst h
    simp only [if_true, Option.map_eq_none_iff, List.find?_eq_none, List.mem_filter]
    rintro x ⟨-, hx⟩
    simpa using hx
  · rw [if_neg h]
    simp only
    congr 1
    induction m with
    | nil => rfl
    | cons e m ih =>
      by_cases he : e.1 = id
      · have : ¬ e.1 = j := fun h' => h (he.symm.trans h')
        simp [he, h]
        simpa [this] using ih
      · simp only [List.filter_cons, he, ne_eq, not_false_eq_true, decide_true, if_true,
          List.find?_cons]
        by_cases hj : e.1 = j
        · simp [hj]
        · simpa [hj] using ih

theorem run_lookup : ∀ (hist : List (Op τ)) (m : Results τ) (id : Nat),
    (∀ j s, lastAbout id hist = some (.query j s) → ((runOps m hist).remove id).1 = some s) ∧
    (∀ j, lastAbout id hist = some (.fetch j) → ((runOps m hist).remove id).1 = none) ∧
    (lastAbout id hist = none → ((runOps m hist).remove id).1 = (m.remove id).1) ∧
    (∀ j, lastAbout id hist ≠ some (.queryFailed j)) := by
  intro hist
  induction hist with
  | nil => intro m id; simp [lastAbout, runOps]
  | cons o rest ih =>
    intro m id
    obtain ⟨i1, i2, i3, i4⟩ := ih (stepOp m o).1 id
    simp only [runOps]
    unfold lastAbout
    cases hl : lastAbout id rest with
    | some o' =>
      rw [hl] at i1 i2 i3 i4
      refine ⟨fun j s h => i1 j s h, fun j h => i2 j h, by simp, fun j h => i4 j h⟩
    | none =>
      have i3' := i3 hl
      cases o with
      | query j s =>
        simp only
        rw [i3']
        simp only [stepOp, remove_insert]
        by_cases h : j = id <;> simp [h]
      | queryFailed j => simp only; rw [i3']; simp [stepOp]
      | fetch j =>
        simp only
        rw [i3']
        simp only [stepOp, remove_remove]
        by_cases h : j = id <;> simp [h]

/-- **C44 (what a fetch returns).** Whatever requests came before and in whatever order they
reached the server: a fetch of a ticket succeeds exactly if the last request about that ticket was
its query, and then it returns that query's stream; an unknown or already fetched ticket is an
error.  Requests about other tickets play no part. -/
theorem C44_fetch (hist : List (Op τ)) (id : Nat) (s : τ) :
    fetchAfter hist id = some s ↔ lastAbout id hist = some (.query id s) := by
  obtain ⟨h1, h2, h3, h4⟩ := run_lookup hist [] id
  have hid : ∀ (l : List (Op τ)) j s', lastAbout id l = some (.query j s') → j = id := by
    intro l
    induction l with
    | nil => intro j s' h; simp [lastAbout] at h
    | cons o rest ih =>
      intro j s' h
      unfold lastAbout at h
      cases hl : lastAbout id rest with
      | some o' => rw [hl] at h; simp at h; rw [h] at hl; exact ih j s' hl
      | none =>
        rw [hl] at h
        cases o with
        | query k t =>
          simp only at h
          split at h
          · simp at h; rename_i hk; rw [← h.1]; exact hk
          · simp at h
        | queryFailed k => simp at h
        | fetch k => simp only at h; split at h <;> simp at h
  unfold fetchAfter
  constructor
  · intro h
    cases hl : lastAbout id hist with
    | none => rw [h3 hl] at h; simp [Results.remove] at h
    | some o =>
      cases o with
      | query j t =>
        rw [h1 j t hl] at h
        injection h with h
        rw [hid hist j t hl, h]
      | queryFailed j => exact absurd hl (h4 j)
      | fetch j => rw [h2 j hl] at h; simp at h
  · exact fun h => h1 id s h

theorem lastAbout_append (id : Nat) (a b : List (Op τ)) :
    lastAbout id (a ++ b) =
      match lastAbout id b with
      | some o => some o
      | none => lastAbout id a := by
  induction a with
  | nil => cases h : lastAbout id b <;> simp [lastAbout, h]
  | cons o a ih =>
    simp only [List.cons_append]
    cases h : lastAbout id b with
    | some o' =>
      rw [h] at ih
      simp only at ih ⊢
      unfold lastAbout
      rw [ih]
    | none =>
      rw [h] at ih
      simp only at ih ⊢
      conv => lhs; unfold lastAbout
      conv => rhs; unfold lastAbout
      rw [ih]

theorem lastAbout_none_query (id : Nat) : ∀ (l : List (Op τ)),
    (∀ s, Op.query id s ∉ l) → ∀ j s, lastAbout id l ≠ some (.query j s) := by
  intro l
  induction l with
  | nil => intro _ j s h; simp [lastAbout] at h
  | cons o rest ih =>
    intro hno j s h
    have ih' := ih (fun s hs => hno s (by simp [hs]))
    unfold lastAbout at h
    cases hl : lastAbout id rest with
    | some o' => rw [hl] at h; simp at h; rw [h] at hl; exact ih' j s hl
    | none =>
      rw [hl] at h
      cases o with
      | query k t =>
        simp only at h
        split at h
        · rename_i hk
          subst hk
          exact hno t (by simp)
        · simp at h
      | queryFailed k => simp at h
      | fetch k => simp only at h; split at h <;> simp at h

/-- **C44 (at most once).** With fresh query ids (each id is used by at most one query), of any two
fetches of the same ticket at most one succeeds, whatever happens before and between. -/
theorem C44_at_most_once (h1 h2 : List (Op τ)) (id : Nat) (s1 s2 : τ)
    (hfresh : ∀ (a b : List (Op τ)) (s : τ), h1 ++ .fetch id :: h2 = a ++ .query id s :: b →
      (∀ s', Op.query id s' ∉ a) ∧ (∀ s', Op.query id s' ∉ b))
    (hf1 : fetchAfter h1 id = some s1) :
    fetchAfter (h1 ++ .fetch id :: h2) id ≠ some s2 := by
  intro hf2
  rw [C44_fetch] at hf1 hf2
  -- the query of `id` is in `h1`
  have hin : ∃ s, Op.query id s ∈ h1 := by
    refine Classical.byContradiction fun hno => ?_
    exact lastAbout_none_query id h1 (fun s hs => hno ⟨s, hs⟩) id s1 hf1
  obtain ⟨s, hs⟩ := hin
  obtain ⟨a, b, hab⟩ := List.append_of_mem hs
  have hb := (hfresh a (b ++ .fetch id :: h2) s (by rw [hab]; simp)).2
  have hno2 : ∀ s', Op.query id s' ∉ (Op.fetch id :: h2) := by
    intro s' hs'
    rcases List.mem_cons.1 hs' with h | h
    · simp at h
    · exact hb s' (by simp [h])
  rw [lastAbout_append] at hf2
  have hne := lastAbout_none_query id (.fetch id :: h2) hno2
  cases hl : lastAbout id (Op.fetch id :: h2) with
  | some o =>
    rw [hl] at hf2
    simp only at hf2
    rw [hf2] at hl
    exact hne id s2 hl
  | none =>
    unfold lastAbout at hl
    split at hl
    · simp at hl
    · simp at hl

/-- **C44 (no interference).** Requests about other tickets change nothing for this one. -/
theorem C44_independent (h1 mid h2 : List (Op τ)) (id : Nat)
    (hmid : ∀ o ∈ mid, (∀ s, o ≠ .query id s) ∧ o ≠ .fetch id) :
    fetchAfter (h1 ++ mid ++ h2) id = fetchAfter (h1 ++ h2) id := by
  have hnone : ∀ l : List (Op τ), (∀ o ∈ l, (∀ s, o ≠ .query id s) ∧ o ≠ .fetch id) →
      lastAbout id l = none := by
    intro l
    induction l with
    | nil => intro _; rfl
    | cons o rest ih =>
      intro h
      unfold lastAbout
      rw [ih fun o ho => h o (by simp [ho])]
      have := h o (by simp)
      cases o with
      | query j s =>
        simp only
        rw [if_neg]
        rintro rfl
        exact this.1 s rfl
      | queryFailed j => rfl
      | fetch j =>
        simp only
        rw [if_neg]
        rintro rfl
        exact this.2 rfl
  have hl : lastAbout id (h1 ++ mid ++ h2) = lastAbout id (h1 ++ h2) := by
    simp only [lastAbout_append, hnone mid hmid]
  apply Option.ext
  intro s
  rw [C44_fetch, C44_fetch, hl]

/-- Two queries and their fetches, interleaved: each stream arrives once, a second fetch and an
unknown ticket are errors. -/
example :
    let h : List (Op String) := [.query 1 "one", .query 2 "two", .queryFailed 3, .fetch 2]
    fetchAfter h 1 = some "one" ∧ fetchAfter h 2 = none ∧ fetchAfter h 3 = none ∧
    fetchAfter (h.take 3) 2 = some "two" := by
  decide +kernel

/-! ### C60 -/

/-- The steps of requests `is` handled one after the other. -/
def sequential : Bool → List Nat → List FlagStep
  | _, [] => []
  | true, i :: rest => .load i :: .store i :: sequential false rest
  | false, i :: rest => .load i :: sequential false rest

theorem seen_stable : ∀ (tr : List FlagStep) (st : FlagState) (i : Nat) (b : Bool),
    st.seen i = some b → (runFlag st tr).seen i = some b := by
  intro tr
  induction tr with
  | nil => intro st i b h; exact h
  | cons s rest ih =>
    intro st i b h
    apply ih
    cases s with
    | load j =>
      simp only [flagStep]
      split
      · rename_i hn
        have : i ≠ j := by rintro rfl; rw [h] at hn; simp at hn
        simp [this, h]
      · exact h
    | store j => simp only [flagStep]; split <;> simp [h]

theorem flag_false_stable : ∀ (tr : List FlagStep) (st : FlagState), st.flag = false →
    (runFlag st tr).flag = false ∧
    ∀ i, st.seen i = none → (runFlag st tr).seen i ≠ some true := by
  intro tr
  induction tr with
  | nil => intro st h; exact ⟨h, fun i hi => by simp [runFlag, hi]⟩
  | cons s rest ih =>
    intro st h
    have hf : (flagStep st s).flag = false := by
      cases s <;> simp only [flagStep] <;> split <;> simp [h]
    obtain ⟨i1, i2⟩ := ih _ hf
    refine ⟨i1, fun i hi => ?_⟩
    cases hs : (flagStep st s).seen i with
    | none => exact i2 i hs
    | some b =>
      have hb : b = false := by
        cases s with
        | load j =>
          simp only [flagStep] at hs
          split at hs
          · by_cases hij : i = j
            · simp [hij, h] at hs; exact hs
            · simp [hij, hi] at hs
          · rw [hi] at hs; simp at hs
        | store j =>
          simp only [flagStep] at hs
          split at hs <;> simp [hi] at hs
      subst hb
      rw [show runFlag st (s :: rest) = runFlag (flagStep st s) rest from rfl,
        seen_stable rest _ i false hs]
      simp

/-- **C60 (the first request).** Whatever the interleaving, the request that reads the flag first
reports `first = true`. -/
theorem C60_first_reports (i : Nat) (tr : List FlagStep) :
    reported (.load i :: tr) i = some true := by
  unfold reported
  exact seen_stable tr _ i true (by simp [flagInit, flagStep])

/-- **C60 (later requests).** Whatever the interleaving, a request that reads the flag after some
request has finished its check reports `first = false`. -/
theorem C60_later (pre post : List FlagStep) (i j : Nat)
    (hj : (runFlag flagInit pre).seen j = some true)
    (hi : (runFlag flagInit pre).seen i = none) :
    reported (pre ++ .store j :: post) i ≠ some true := by
  have hrun : ∀ (a b : List FlagStep) (st : FlagState),
      runFlag st (a ++ b) = runFlag (runFlag st a) b := by
    intro a
    induction a with
    | nil => intro b st; rfl
    | cons s a ih => intro b st; exact ih b _
  unfold reported
  rw [hrun]
  have hstep : (flagStep (runFlag flagInit pre) (.store j)).flag = false := by
    simp [flagStep, hj]
  have hs : (flagStep (runFlag flagInit pre) (.store j)).seen i = none := by
    simp [flagStep, hj, hi]
  exact (flag_false_stable post _ hstep).2 i hs

/-- **C60.** Partial: requests handled one at a time. Then the first request reports
`first = true` and every other one `first = false`.  Concurrent requests: `C60_violated_race`. -/
theorem C60_sequential_partial (i : Nat) (rest : List Nat) (hd : i ∉ rest) (hn : rest.Nodup) :
    reported (sequential true (i :: rest)) i = some true ∧
    ∀ j ∈ rest, reported (sequential true (i :: rest)) j = some false := by
  have hseq : ∀ (l : List Nat) (st : FlagState), st.flag = false → l.Nodup →
      (∀ j ∈ l, st.seen j = none) →
      ∀ j ∈ l, (runFlag st (sequential false l)).seen j = some false := by
    intro l
    induction l with
    | nil => intro st _ _ _ j hj; simp at hj
    | cons k l ih =>
      intro st hf hnd hs j hj
      have hk := hs k (by simp)
      have hstep : flagStep st (.load k) =
          { st with seen := fun x => if x = k then some st.flag else st.seen x } := by
        simp [flagStep, hk]
      simp only [sequential, runFlag, hstep]
      rw [List.nodup_cons] at hnd
      rcases List.mem_cons.1 hj with rfl | hj'
      · exact seen_stable _ _ _ _ (by simp [hf])
      · refine ih ⟨st.flag, fun x => if x = k then some st.flag else st.seen x⟩ hf hnd.2 ?_ j hj'
        intro x hx
        have : x ≠ k := by rintro rfl; exact hnd.1 hx
        simp [this, hs x (by simp [hx])]
  refine ⟨C60_first_reports i _, ?_⟩
  intro j hj
  unfold reported
  simp only [sequential, runFlag]
  refine hseq rest _ ?_ hn ?_ j hj
  · simp [flagStep, flagInit]
  · intro x hx
    have : x ≠ i := by rintro rfl; exact hd hx
    simp [flagStep, flagInit, this]

/-- **C60 violated (race).** Load and store are two steps: two concurrent requests can both report
`first = true`. -/
theorem C60_violated_race :
    let tr : List FlagStep := [.load 0, .load 1, .store 0, .store 1]
    reported tr 0 = some true ∧ reported tr 1 = some true := by
  decide +kernel

/-- **C60 violated (race, always).** Every request that reads the flag before the first request has
reset it reports `first = true`, however many there are. -/
theorem C60_violated_race_always (pre post : List FlagStep) (hp : ∀ s ∈ pre, ∀ j, s ≠ .store j) (i : Nat)
    (hi : FlagStep.load i ∈ pre) : reported (pre ++ post) i = some true := by
  have key : ∀ (pre : List FlagStep) (st : FlagState), st.flag = true → (∀ s ∈ pre, ∀ j, s ≠ .store j) →
      (st.seen i = some true ∨ (st.seen i = none ∧ FlagStep.load i ∈ pre)) →
      (runFlag st (pre ++ post)).seen i = some true := by
    intro pre
    induction pre with
    | nil =>
      intro st _ _ h
      rcases h with h | ⟨_, h⟩
      · exact seen_stable post st i true h
      · simp at h
    | cons s pre ih =>
      intro st hf hs h
      have hs' : ∀ s ∈ pre, ∀ j, s ≠ .store j := fun x hx => hs x (by simp [hx])
      cases s with
      | store j => exact absurd rfl (hs _ (by simp) j)
      | load j =>
        show (runFlag (flagStep st (.load j)) (pre ++ post)).seen i = some true
        have hfl : (flagStep st (.load j)).flag = true := by
          simp only [flagStep]
          split <;> exact hf
        refine ih _ hfl hs' ?_
        rcases h with h | ⟨hn, hm⟩
        · left
          exact seen_stable [.load j] st i true h
        · by_cases hij : i = j
          · subst hij
            left
            simp [flagStep, hn, hf]
          · right
            refine ⟨?_, ?_⟩
            · simp only [flagStep]
              split
              · simp [hij, hn]
              · exact hn
            · rcases List.mem_cons.1 hm with hm | hm
              · exact absurd (by cases hm; rfl) hij
              · exact hm
  exact key pre flagInit rfl hp (Or.inr ⟨rfl, hi⟩)

/-- **C60 violated (error).** If the first request ends in an error, no response ever reports
`first = true`: the client is never told about the restart. -/
theorem C60_violated_error (rest : List Bool) :
    some true ∉ processAll true (false :: rest) := by
  have h : ∀ l : List Bool, some true ∉ processAll false l := by
    intro l
    induction l with
    | nil => simp [processAll]
    | cons b l ih => cases b <;> simp [processAll, ih]
  simp [processAll, h rest]

/-- **C60** (one at a time, with errors).  Every request is answered; only the first one that succeeds may report a restart, and it
does so exactly if nothing came before it. -/
theorem C60_errors (l : List Bool) : (processAll true l).length = l.length ∧
    ∀ i : Nat, (processAll true l)[i]? = (l[i]?).map fun ok => if ok then some (i == 0) else none := by
  have h : ∀ (l : List Bool) (i : Nat), (processAll false l)[i]? = (l[i]?).map fun ok => if ok then some false else none := by
    intro l
    induction l with
    | nil => intro i; simp [processAll]
    | cons b l ih =>
      intro i
      cases i with
      | zero => simp [processAll]
      | succ i => simp [processAll, ih]
  have hlen : ∀ (l : List Bool) (b : Bool), (processAll b l).length = l.length := by
    intro l
    induction l with
    | nil => intro b; rfl
    | cons x l ih => intro b; simp [processAll, ih]
  refine ⟨hlen l true, fun i => ?_⟩
  cases l with
  | nil => simp [processAll]
  | cons b l =>
    cases i with
    | zero => simp [processAll]
    | succ i => simp [processAll, h]

/-- Three requests one at a time. -/
example : (List.range 3).map (reported (sequential true [0, 1, 2])) =
    [some true, some false, some false] := by
  decide +kernel

end Seafowl.Flight
