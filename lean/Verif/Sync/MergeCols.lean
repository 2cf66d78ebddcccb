import Verif.Sync.SquashProof

/-!
# The columns of merged items (lemmas for C14)
-/

namespace Seafowl.Sync

variable {pks : List String} {L U : Schema}

/-- The value column of this side has no counterpart and no Changed column. -/
def synth (this other : Schema) (n : String) : Bool := !has other .value n && !has this .changed n

/-- The columns that one column of the lower schema gives rise to. -/
def lowerStep (L U : Schema) (d : Desc) : List Desc :=
  match d.role with
  | .value => (if synth L U d.name then [⟨.changed, d.name⟩] else []) ++ [d]
  | _ => [d]

/-- The columns that one column of the upper schema gives rise to. -/
def upperStep (L U : Schema) (a0 : List Desc) (d : Desc) : List Desc :=
  if d ∈ a0 then []
  else match d.role with
  | .changed => [d]
  | .value => (if synth U L d.name then [⟨.changed, d.name⟩] else []) ++ [d]
  | _ => []

/-- The columns of the merged item. -/
def mergedCols (L U : Schema) : List Desc :=
  L.flatMap (lowerStep L U) ++ U.flatMap (upperStep L U (L.flatMap (lowerStep L U)))

/-- The join expression of each column. -/
def joinExpr (L U : Schema) (d : Desc) : JRow → Cell :=
  match d.role with
  | .oldPk => joinOldPk d
  | .newPk => joinNewPk d
  | .changed =>
    if d ∈ L then joinChanged d U .lower
    else if has L .value d.name && !has U .value d.name then
      fun j => if missing .lower j then litBool false else litBool true
    else if d ∈ U then joinChanged d L .upper
    else fun j => if missing .upper j then litBool false else litBool true
  | .value => if d ∈ L then joinValue d U .lower else joinValue d L .upper

/-- The union expressions of each column. -/
def unionExpr (L U : Schema) (d : Desc) : (Row → Cell) × (Row → Cell) :=
  match d.role with
  | .oldPk | .newPk => (fun r => r d, fun r => r d)
  | .changed =>
    if d ∈ L then unionChanged d U .lower
    else if has L .value d.name && !has U .value d.name then
      (fun _ => litBool true, fun _ => litBool false)
    else if d ∈ U then unionChanged d L .upper
    else (fun _ => litBool false, fun _ => litBool true)
  | .value => if d ∈ L then unionValue d U .lower else unionValue d L .upper

theorem mem_lowerStep {d e : Desc} : e ∈ lowerStep L U d ↔
    e = d ∨ (d.role = .value ∧ synth L U d.name = true ∧ e = ⟨.changed, d.name⟩) := by
  simp only [lowerStep]
  cases d with
  | mk role name =>
    cases role <;> simp [or_comm]

theorem mem_lowerCols {P : List Desc} {e : Desc} : e ∈ P.flatMap (lowerStep L U) ↔
    e ∈ P ∨ (e.role = .changed ∧ Desc.mk .value e.name ∈ P ∧ synth L U e.name = true) := by
  simp only [List.mem_flatMap, mem_lowerStep]
  constructor
  · rintro ⟨d, hd, rfl | ⟨h1, h2, rfl⟩⟩
    · exact Or.inl hd
    · right
      refine ⟨rfl, ?_, h2⟩
      cases d; simp only at h1; subst h1; exact hd
  · rintro (h | ⟨h1, h2, h3⟩)
    · exact ⟨e, h, Or.inl rfl⟩
    · refine ⟨_, h2, Or.inr ⟨rfl, h3, ?_⟩⟩
      cases e; simp only at h1; subst h1; rfl

theorem mem_upperStep {a0 : List Desc} {d e : Desc} : e ∈ upperStep L U a0 d ↔
    d ∉ a0 ∧ ((d.role = .changed ∧ e = d) ∨ (d.role = .value ∧ (e = d ∨
      (synth U L d.name = true ∧ e = ⟨.changed, d.name⟩)))) := by
  simp only [upperStep]
  split
  · simp_all
  · next h =>
    simp only [h, not_false_eq_true, true_and]
    cases d with
    | mk role name =>
      cases role <;> simp [or_comm]

theorem mem_upperCols {a0 P : List Desc} {e : Desc} : e ∈ P.flatMap (upperStep L U a0) ↔
    (e ∈ P ∧ e ∉ a0 ∧ (e.role = .changed ∨ e.role = .value)) ∨
    (e.role = .changed ∧ Desc.mk .value e.name ∈ P ∧ Desc.mk .value e.name ∉ a0 ∧ synth U L e.name = true) := by
  simp only [List.mem_flatMap, mem_upperStep]
  constructor
  · rintro ⟨d, hd, h0, ⟨h1, rfl⟩ | ⟨h1, rfl | ⟨h2, rfl⟩⟩⟩
    · exact Or.inl ⟨hd, h0, Or.inl h1⟩
    · exact Or.inl ⟨hd, h0, Or.inr h1⟩
    · right
      have : d = ⟨.value, d.name⟩ := by cases d; simp only at h1; subst h1; rfl
      exact ⟨rfl, this ▸ hd, this ▸ h0, h2⟩
  · rintro (⟨h1, h2, h3 | h3⟩ | ⟨h1, h2, h3, h4⟩)
    · exact ⟨e, h1, h2, Or.inl ⟨h3, rfl⟩⟩
    · exact ⟨e, h1, h2, Or.inr ⟨h3, Or.inl rfl⟩⟩
    · refine ⟨_, h2, h3, Or.inr ⟨rfl, Or.inr ⟨h4, ?_⟩⟩⟩
      cases e; simp only at h1; subst h1; rfl

theorem setInsert_new {l : List Desc} {d : Desc} (h : d ∉ l) : setInsert l d = l ++ [d] := by
  simp [setInsert, h]

theorem has_iff {S : Schema} {role : Role} {n : String} : has S role n = true ↔ Desc.mk role n ∈ S := by
  simp [has]

theorem synth_iff {this other : Schema} {n : String} : synth this other n = true ↔
    Desc.mk .value n ∉ other ∧ Desc.mk .changed n ∉ this := by
  simp [synth, has]

/-! #### the lower schema -/

theorem lower_fresh (hL : L.Nodup) {P : List Desc} {d : Desc} {R : List Desc} (h : P ++ d :: R = L) :
    d ∉ P.flatMap (lowerStep L U) ∧
    (d.role = .value → synth L U d.name = true → Desc.mk .changed d.name ∉ P.flatMap (lowerStep L U)) := by
  have hd : d ∉ P := by
    intro hm
    rw [← h, List.nodup_append] at hL
    exact hL.2.2 d hm d (by simp) rfl
  have hdL : d ∈ L := by rw [← h]; simp
  have hPL : ∀ e ∈ P, e ∈ L := by intro e he; rw [← h]; simp [he]
  constructor
  · rw [mem_lowerCols]
    rintro (h1 | ⟨h1, h2, h3⟩)
    · exact hd h1
    · apply (synth_iff.1 h3).2
      cases d; simp only at h1; subst h1; exact hdL
  · intro h1 h2
    rw [mem_lowerCols]
    rintro (h3 | ⟨_, h3, _⟩)
    · exact (synth_iff.1 h2).2 (hPL _ h3)
    · apply hd
      cases d; simp only at h1; subst h1; exact h3

theorem joinExpr_lower {d : Desc} (hd : d ∈ L) : joinExpr L U d = match d.role with
    | .oldPk => joinOldPk d
    | .newPk => joinNewPk d
    | .changed => joinChanged d U .lower
    | .value => joinValue d U .lower := by
  simp only [joinExpr, hd, if_true]

theorem joinExpr_synth_lower {n : String} (hv : Desc.mk .value n ∈ L) (hs : synth L U n = true) :
    joinExpr L U ⟨.changed, n⟩ = fun j => if missing .lower j then litBool false else litBool true := by
  have h1 := synth_iff.1 hs
  simp [joinExpr, h1.2, has, hv, h1.1]

theorem joinLower_fold (hL : L.Nodup) : ∀ (R P : List Desc), P ++ R = L →
    R.foldl (joinLower L U) { desc := P.flatMap (lowerStep L U)
                              proj := (P.flatMap (lowerStep L U)).map (joinExpr L U) } =
      { desc := L.flatMap (lowerStep L U), proj := (L.flatMap (lowerStep L U)).map (joinExpr L U) } := by
  intro R
  induction R with
  | nil => intro P h; simp only [List.append_nil] at h; subst h; rfl
  | cons d R ih =>
    intro P h
    rw [List.foldl_cons]
    have hdL : d ∈ L := by rw [← h]; simp
    obtain ⟨hf, hfs⟩ := lower_fresh (U := U) hL h
    have hj := joinExpr_lower (U := U) hdL
    rw [← ih (P ++ [d]) (by simp [h])]
    congr 1
    rw [List.flatMap_append, List.flatMap_cons, List.flatMap_nil, List.append_nil]
    cases d with
    | mk role n =>
      cases role with
      | oldPk => simp only at hj; simp [joinLower, setInsert_new hf, lowerStep, hj]
      | newPk => simp only at hj; simp [joinLower, setInsert_new hf, lowerStep, hj]
      | changed => simp only at hj; simp [joinLower, setInsert_new hf, lowerStep, hj]
      | value =>
        simp only at hj
        by_cases hs : synth L U n = true
        · have hf1 := hfs rfl hs
          have hf2 : Desc.mk .value n ∉ P.flatMap (lowerStep L U) ++ [⟨.changed, n⟩] := by
            simp only [List.mem_append, List.mem_singleton, not_or]
            exact ⟨hf, by simp⟩
          have hc : (!has U .value n && !has L .changed n) = true := hs
          simp only [joinLower, joinSynth, hc, if_true, setInsert_new hf1, setInsert_new hf2, lowerStep, hs,
            List.map_append, List.map_cons, List.map_nil, hj, joinExpr_synth_lower hdL hs,
            List.append_assoc]
        · have hc : (!has U .value n && !has L .changed n) = false := by
            have : synth L U n = (!has U .value n && !has L .changed n) := rfl
            rw [← this]; simpa using hs
          simp only [joinLower, joinSynth, hc, Bool.false_eq_true, if_false, setInsert_new hf, lowerStep, hs,
            List.map_append, List.map_cons, List.map_nil, hj, List.nil_append]

/-! #### the upper schema -/

theorem upper_facts (hL : SchemaOk pks L) (hU : SchemaOk pks U) {P : List Desc} {d : Desc} {R : List Desc}
    (h : P ++ d :: R = U) :
    (d ∈ L.flatMap (lowerStep L U) ++ P.flatMap (upperStep L U (L.flatMap (lowerStep L U))) ↔
      d ∈ L.flatMap (lowerStep L U)) ∧
    (d ∉ L.flatMap (lowerStep L U) → d.role = .value → synth U L d.name = true →
      Desc.mk .changed d.name ∉ L.flatMap (lowerStep L U) ++ P.flatMap (upperStep L U (L.flatMap (lowerStep L U)))) := by
  have hdP : d ∉ P := by
    intro hm
    have := hU.nodup
    rw [← h, List.nodup_append] at this
    exact this.2.2 d hm d (by simp) rfl
  have hdU : d ∈ U := by rw [← h]; simp
  have hPU : ∀ e ∈ P, e ∈ U := by intro e he; rw [← h]; simp [he]
  constructor
  · rw [List.mem_append, mem_upperCols]
    constructor
    · rintro (h1 | ⟨h1, _, _⟩ | ⟨h1, h2, h3, h4⟩)
      · exact h1
      · exact absurd h1 hdP
      · exfalso
        apply (synth_iff.1 h4).2
        cases d; simp only at h1; subst h1; exact hdU
    · exact Or.inl
  · intro h0 h1 h2
    have hd : d = ⟨.value, d.name⟩ := by cases d; simp only at h1; subst h1; rfl
    have hvL : Desc.mk .value d.name ∉ L := by
      intro hm; apply h0; rw [mem_lowerCols]; left; rw [hd]; exact hm
    rw [List.mem_append, mem_lowerCols, mem_upperCols]
    rintro ((h3 | ⟨_, h3, _⟩) | ⟨h3, _, _⟩ | ⟨_, h3, _, _⟩)
    · exact hvL (hL.changed _ h3)
    · exact hvL h3
    · exact (synth_iff.1 h2).2 (hPU _ h3)
    · exact hdP (hd ▸ h3)

theorem joinExpr_upper_value {n : String} (h : Desc.mk .value n ∉ L.flatMap (lowerStep L U)) :
    joinExpr L U ⟨.value, n⟩ = joinValue ⟨.value, n⟩ L .upper := by
  have : Desc.mk .value n ∉ L := fun hm => h (mem_lowerCols.2 (Or.inl hm))
  simp [joinExpr, this]

theorem not_lower_changed {n : String} (h : Desc.mk .changed n ∉ L.flatMap (lowerStep L U)) :
    Desc.mk .changed n ∉ L ∧ (has L .value n && !has U .value n) = false := by
  have h1 : Desc.mk .changed n ∉ L := fun hm => h (mem_lowerCols.2 (Or.inl hm))
  refine ⟨h1, ?_⟩
  cases hv : (has L .value n && !has U .value n) with
  | false => rfl
  | true =>
    exfalso
    simp only [has, Bool.and_eq_true, decide_eq_true_eq, Bool.not_eq_true', decide_eq_false_iff_not] at hv
    exact h (mem_lowerCols.2 (Or.inr ⟨rfl, hv.1, synth_iff.2 ⟨hv.2, h1⟩⟩))

theorem joinExpr_upper_changed {n : String} (h : Desc.mk .changed n ∉ L.flatMap (lowerStep L U))
    (hU : Desc.mk .changed n ∈ U) : joinExpr L U ⟨.changed, n⟩ = joinChanged ⟨.changed, n⟩ L .upper := by
  obtain ⟨h1, h2⟩ := not_lower_changed h
  simp only [joinExpr, h1, if_false, h2, Bool.false_eq_true, hU, if_true]

theorem joinExpr_synth_upper {n : String} (hL : SchemaOk pks L)
    (hs : synth U L n = true) :
    joinExpr L U ⟨.changed, n⟩ = fun j => if missing .upper j then litBool false else litBool true := by
  have h1 := synth_iff.1 hs
  have h2 : Desc.mk .changed n ∉ L := fun hm => h1.1 (hL.changed _ hm)
  have h3 : has L .value n = false := by simp [has, h1.1]
  simp only [joinExpr, h2, if_false, h3, Bool.false_and, Bool.false_eq_true, h1.2]

theorem joinUpper_fold (hL : SchemaOk pks L) (hU : SchemaOk pks U) : ∀ (R P : List Desc), P ++ R = U →
    R.foldl (joinUpper L U)
      { desc := L.flatMap (lowerStep L U) ++ P.flatMap (upperStep L U (L.flatMap (lowerStep L U)))
        proj := (L.flatMap (lowerStep L U) ++ P.flatMap (upperStep L U (L.flatMap (lowerStep L U)))).map
          (joinExpr L U) } =
      { desc := mergedCols L U, proj := (mergedCols L U).map (joinExpr L U) } := by
  intro R
  induction R with
  | nil => intro P h; simp only [List.append_nil] at h; subst h; rfl
  | cons d R ih =>
    intro P h
    rw [List.foldl_cons]
    have hdU : d ∈ U := by rw [← h]; simp
    obtain ⟨hm, hs'⟩ := upper_facts hL hU h
    rw [← ih (P ++ [d]) (by simp [h])]
    congr 1
    rw [List.flatMap_append, List.flatMap_cons, List.flatMap_nil, List.append_nil]
    by_cases hd : d ∈ L.flatMap (lowerStep L U)
    · have h1 := hm.2 hd
      simp only [joinUpper, h1, if_true, upperStep, hd, List.append_nil]
    · have h1 : d ∉ L.flatMap (lowerStep L U) ++ P.flatMap (upperStep L U (L.flatMap (lowerStep L U))) :=
        fun h => hd (hm.1 h)
      cases d with
      | mk role n =>
        cases role with
        | oldPk => simp only [joinUpper, h1, if_false, upperStep, hd, List.append_nil]
        | newPk => simp only [joinUpper, h1, if_false, upperStep, hd, List.append_nil]
        | changed =>
          simp only [joinUpper, h1, if_false, upperStep, hd, setInsert_new h1,
            List.map_append, List.map_cons, List.map_nil, joinExpr_upper_changed hd hdU, List.append_assoc]
        | value =>
          by_cases hs : synth U L n = true
          · have hf1 := hs' hd rfl hs
            have hf2 : Desc.mk .value n ∉ (L.flatMap (lowerStep L U) ++
                P.flatMap (upperStep L U (L.flatMap (lowerStep L U)))) ++ [⟨.changed, n⟩] := by
              rw [List.mem_append, not_or]
              exact ⟨h1, by simp⟩
            have hi := setInsert_new hf2
            simp only [List.append_assoc] at hi
            have hc : (!has L .value n && !has U .changed n) = true := hs
            simp only [joinUpper, h1, if_false, joinSynth, hc, if_true, setInsert_new hf1, hi,
              upperStep, hd, hs, List.map_append, List.map_cons, List.map_nil, joinExpr_upper_value hd,
              joinExpr_synth_upper hL hs, List.append_assoc]
          · have hc : (!has L .value n && !has U .changed n) = false := by
              have : synth U L n = (!has L .value n && !has U .changed n) := rfl
              rw [← this]; simpa using hs
            simp only [joinUpper, h1, if_false, joinSynth, hc, Bool.false_eq_true, setInsert_new h1,
              upperStep, hd, hs, List.map_append, List.map_cons, List.map_nil, joinExpr_upper_value hd,
              List.nil_append, List.append_assoc]

/-- The columns and expressions of the join. -/
theorem mergeJoin_eq (hL : SchemaOk pks L) (hU : SchemaOk pks U) :
    mergeJoin L U = { desc := mergedCols L U, proj := (mergedCols L U).map (joinExpr L U) } := by
  have h1 := joinLower_fold (U := U) hL.nodup L [] rfl
  have h2 := joinUpper_fold hL hU U [] rfl
  simp only [List.flatMap_nil, List.map_nil, List.append_nil] at h1 h2
  rw [mergeJoin, h1, h2]

theorem find?_zip_map {α β : Type} [DecidableEq α] (l : List α) (f : α → β) (d : α) :
    (l.zip (l.map f)).find? (fun p => decide (p.1 = d)) = if d ∈ l then some (d, f d) else none := by
  induction l with
  | nil => simp
  | cons a as ih =>
    simp only [List.map_cons, List.zip_cons_cons, List.find?_cons]
    by_cases h : a = d
    · subst h; simp
    · have h' : ¬ d = a := fun he => h he.symm
      simp [h, ih, h']

theorem project_map {α : Type} (l : List Desc) (f : Desc → α → Cell) (a : α) :
    project l (l.map f) a = fun d => if d ∈ l then f d a else none := by
  funext d
  simp only [project, find?_zip_map]
  split
  · next p hp =>
    split at hp
    · injection hp with hp; subst hp; simp_all
    · cases hp
  · next hp =>
    split at hp
    · cases hp
    · simp_all

/-! #### the union -/

theorem unionExpr_lower {d : Desc} (hd : d ∈ L) : unionExpr L U d = match d.role with
    | .oldPk | .newPk => (fun r => r d, fun r => r d)
    | .changed => unionChanged d U .lower
    | .value => unionValue d U .lower := by
  simp only [unionExpr, hd, if_true]

theorem unionExpr_synth_lower {n : String} (hv : Desc.mk .value n ∈ L) (hs : synth L U n = true) :
    unionExpr L U ⟨.changed, n⟩ = (fun _ => litBool true, fun _ => litBool false) := by
  have h1 := synth_iff.1 hs
  simp [unionExpr, h1.2, has, hv, h1.1]

theorem unionExpr_upper_value {n : String} (h : Desc.mk .value n ∉ L.flatMap (lowerStep L U)) :
    unionExpr L U ⟨.value, n⟩ = unionValue ⟨.value, n⟩ L .upper := by
  have : Desc.mk .value n ∉ L := fun hm => h (mem_lowerCols.2 (Or.inl hm))
  simp [unionExpr, this]

theorem unionExpr_upper_changed {n : String} (h : Desc.mk .changed n ∉ L.flatMap (lowerStep L U))
    (hU : Desc.mk .changed n ∈ U) : unionExpr L U ⟨.changed, n⟩ = unionChanged ⟨.changed, n⟩ L .upper := by
  obtain ⟨h1, h2⟩ := not_lower_changed h
  simp only [unionExpr, h1, if_false, h2, Bool.false_eq_true, hU, if_true]

theorem unionExpr_synth_upper {n : String} (hL : SchemaOk pks L) (hs : synth U L n = true) :
    unionExpr L U ⟨.changed, n⟩ = (fun _ => litBool false, fun _ => litBool true) := by
  have h1 := synth_iff.1 hs
  have h2 : Desc.mk .changed n ∉ L := fun hm => h1.1 (hL.changed _ hm)
  have h3 : has L .value n = false := by simp [has, h1.1]
  simp only [unionExpr, h2, if_false, h3, Bool.false_and, Bool.false_eq_true, h1.2]

theorem unionLower_fold (hL : L.Nodup) : ∀ (R P : List Desc), P ++ R = L →
    R.foldl (unionLower L U) { desc := P.flatMap (lowerStep L U)
                               lower := (P.flatMap (lowerStep L U)).map (fun d => (unionExpr L U d).1)
                               upper := (P.flatMap (lowerStep L U)).map (fun d => (unionExpr L U d).2) } =
      { desc := L.flatMap (lowerStep L U)
        lower := (L.flatMap (lowerStep L U)).map (fun d => (unionExpr L U d).1)
        upper := (L.flatMap (lowerStep L U)).map (fun d => (unionExpr L U d).2) } := by
  intro R
  induction R with
  | nil => intro P h; simp only [List.append_nil] at h; subst h; rfl
  | cons d R ih =>
    intro P h
    rw [List.foldl_cons]
    have hdL : d ∈ L := by rw [← h]; simp
    obtain ⟨hf, hfs⟩ := lower_fresh (U := U) hL h
    have hj := unionExpr_lower (U := U) hdL
    rw [← ih (P ++ [d]) (by simp [h])]
    congr 1
    rw [List.flatMap_append, List.flatMap_cons, List.flatMap_nil, List.append_nil]
    cases d with
    | mk role n =>
      cases role with
      | oldPk => simp only at hj; simp [unionLower, UnionAcc.push, setInsert_new hf, lowerStep, hj]
      | newPk => simp only at hj; simp [unionLower, UnionAcc.push, setInsert_new hf, lowerStep, hj]
      | changed => simp only at hj; simp [unionLower, UnionAcc.push, setInsert_new hf, lowerStep, hj]
      | value =>
        simp only at hj
        by_cases hs : synth L U n = true
        · have hf1 := hfs rfl hs
          have hf2 : Desc.mk .value n ∉ P.flatMap (lowerStep L U) ++ [⟨.changed, n⟩] := by
            simp only [List.mem_append, List.mem_singleton, not_or]
            exact ⟨hf, by simp⟩
          have hc : (!has U .value n && !has L .changed n) = true := hs
          simp only [unionLower, UnionAcc.push, unionSynth, hc, if_true, setInsert_new hf1, setInsert_new hf2, lowerStep, hs,
            List.map_append, List.map_cons, List.map_nil, hj, unionExpr_synth_lower hdL hs,
            List.append_assoc]
          rfl
        · have hc : (!has U .value n && !has L .changed n) = false := by
            have : synth L U n = (!has U .value n && !has L .changed n) := rfl
            rw [← this]; simpa using hs
          simp only [unionLower, UnionAcc.push, unionSynth, hc, Bool.false_eq_true, if_false, setInsert_new hf, lowerStep, hs,
            List.map_append, List.map_cons, List.map_nil, hj, List.nil_append]

theorem unionUpper_fold (hL : SchemaOk pks L) (hU : SchemaOk pks U) : ∀ (R P : List Desc), P ++ R = U →
    R.foldl (unionUpper L U)
      { desc := L.flatMap (lowerStep L U) ++ P.flatMap (upperStep L U (L.flatMap (lowerStep L U)))
        lower := (L.flatMap (lowerStep L U) ++ P.flatMap (upperStep L U (L.flatMap (lowerStep L U)))).map
          (fun d => (unionExpr L U d).1)
        upper := (L.flatMap (lowerStep L U) ++ P.flatMap (upperStep L U (L.flatMap (lowerStep L U)))).map
          (fun d => (unionExpr L U d).2) } =
      { desc := mergedCols L U
        lower := (mergedCols L U).map (fun d => (unionExpr L U d).1)
        upper := (mergedCols L U).map (fun d => (unionExpr L U d).2) } := by
  intro R
  induction R with
  | nil => intro P h; simp only [List.append_nil] at h; subst h; rfl
  | cons d R ih =>
    intro P h
    rw [List.foldl_cons]
    have hdU : d ∈ U := by rw [← h]; simp
    obtain ⟨hm, hs'⟩ := upper_facts hL hU h
    rw [← ih (P ++ [d]) (by simp [h])]
    congr 1
    rw [List.flatMap_append, List.flatMap_cons, List.flatMap_nil, List.append_nil]
    by_cases hd : d ∈ L.flatMap (lowerStep L U)
    · have h1 := hm.2 hd
      simp only [unionUpper, h1, if_true, upperStep, hd, List.append_nil]
    · have h1 : d ∉ L.flatMap (lowerStep L U) ++ P.flatMap (upperStep L U (L.flatMap (lowerStep L U))) :=
        fun h => hd (hm.1 h)
      cases d with
      | mk role n =>
        cases role with
        | oldPk => simp only [unionUpper, h1, if_false, upperStep, hd, List.append_nil]
        | newPk => simp only [unionUpper, h1, if_false, upperStep, hd, List.append_nil]
        | changed =>
          simp only [unionUpper, UnionAcc.push, h1, if_false, upperStep, hd, setInsert_new h1,
            List.map_append, List.map_cons, List.map_nil, unionExpr_upper_changed hd hdU, List.append_assoc]
        | value =>
          by_cases hs : synth U L n = true
          · have hf1 := hs' hd rfl hs
            have hf2 : Desc.mk .value n ∉ (L.flatMap (lowerStep L U) ++
                P.flatMap (upperStep L U (L.flatMap (lowerStep L U)))) ++ [⟨.changed, n⟩] := by
              rw [List.mem_append, not_or]
              exact ⟨h1, by simp⟩
            have hi := setInsert_new hf2
            simp only [List.append_assoc] at hi
            have hc : (!has L .value n && !has U .changed n) = true := hs
            simp only [unionUpper, UnionAcc.push, h1, if_false, unionSynth, hc, if_true, setInsert_new hf1, hi,
              upperStep, hd, hs, List.map_append, List.map_cons, List.map_nil, unionExpr_upper_value hd,
              unionExpr_synth_upper hL hs, List.append_assoc]
            rfl
          · have hc : (!has L .value n && !has U .changed n) = false := by
              have : synth U L n = (!has L .value n && !has U .changed n) := rfl
              rw [← this]; simpa using hs
            simp only [unionUpper, UnionAcc.push, h1, if_false, unionSynth, hc, Bool.false_eq_true, setInsert_new h1,
              upperStep, hd, hs, List.map_append, List.map_cons, List.map_nil, unionExpr_upper_value hd,
              List.nil_append, List.append_assoc]

/-- The columns and expressions of the union. -/
theorem mergeUnion_eq (hL : SchemaOk pks L) (hU : SchemaOk pks U) :
    mergeUnion L U = { desc := mergedCols L U
                       lower := (mergedCols L U).map (fun d => (unionExpr L U d).1)
                       upper := (mergedCols L U).map (fun d => (unionExpr L U d).2) } := by
  have h1 := unionLower_fold (U := U) hL.nodup L [] rfl
  have h2 := unionUpper_fold hL hU U [] rfl
  simp only [List.flatMap_nil, List.map_nil, List.append_nil] at h1 h2
  rw [mergeUnion, h1, h2]

/-! #### the merged schema -/

theorem mem_mergedCols (hL : SchemaOk pks L) (hU : SchemaOk pks U) {d : Desc} : d ∈ mergedCols L U ↔
    d ∈ L ∨ d ∈ U ∨ (d.role = .changed ∧ ((Desc.mk .value d.name ∈ L ∧ Desc.mk .value d.name ∉ U) ∨
      (Desc.mk .value d.name ∈ U ∧ Desc.mk .value d.name ∉ L))) := by
  have hpk : ∀ n, (Desc.mk .oldPk n ∈ U → Desc.mk .oldPk n ∈ L) ∧ (Desc.mk .newPk n ∈ U → Desc.mk .newPk n ∈ L) := by
    intro n
    constructor
    · intro h; rw [← mem_names, hL.oldPk, ← hU.oldPk, mem_names]; exact h
    · intro h; rw [← mem_names, hL.newPk, ← hU.newPk, mem_names]; exact h
  simp only [mergedCols, List.mem_append, mem_lowerCols, mem_upperCols, synth_iff]
  constructor
  · rintro ((h | ⟨h1, h2, h3, h4⟩) | ⟨h1, _, _⟩ | ⟨h1, h2, h3, h4, h5⟩)
    · exact Or.inl h
    · exact Or.inr (Or.inr ⟨h1, Or.inl ⟨h2, h3⟩⟩)
    · exact Or.inr (Or.inl h1)
    · exact Or.inr (Or.inr ⟨h1, Or.inr ⟨h2, h4⟩⟩)
  · rintro (h | h | ⟨h1, ⟨h2, h3⟩ | ⟨h2, h3⟩⟩)
    · exact Or.inl (Or.inl h)
    · by_cases hd : d ∈ L ∨ (d.role = .changed ∧ Desc.mk .value d.name ∈ L ∧ Desc.mk .value d.name ∉ U ∧
        Desc.mk .changed d.name ∉ L)
      · exact Or.inl hd
      · cases d with
        | mk role n =>
          cases role with
          | oldPk => exact Or.inl (Or.inl ((hpk n).1 h))
          | newPk => exact Or.inl (Or.inl ((hpk n).2 h))
          | changed => exact Or.inr (Or.inl ⟨h, hd, Or.inl rfl⟩)
          | value => exact Or.inr (Or.inl ⟨h, hd, Or.inr rfl⟩)
    · by_cases hc : Desc.mk .changed d.name ∈ L
      · left; left
        cases d; simp only at h1; subst h1; exact hc
      · exact Or.inl (Or.inr ⟨h1, h2, h3, hc⟩)
    · by_cases hc : Desc.mk .changed d.name ∈ U
      · have hdc : d = ⟨.changed, d.name⟩ := by cases d; simp only at h1; subst h1; rfl
        right; left
        refine ⟨hdc ▸ hc, ?_, Or.inl h1⟩
        rintro (h4 | ⟨_, h4, _⟩)
        · exact h3 (hL.changed _ (hdc ▸ h4))
        · exact h3 h4
      · right; right
        refine ⟨h1, h2, ?_, h3, hc⟩
        rintro (h4 | ⟨h4, _⟩)
        · exact h3 h4
        · cases h4

theorem nodup_lower (hL : L.Nodup) : ∀ (R P : List Desc), P ++ R = L →
    (P.flatMap (lowerStep L U)).Nodup → (L.flatMap (lowerStep L U)).Nodup := by
  intro R
  induction R with
  | nil => intro P h hn; simp only [List.append_nil] at h; subst h; exact hn
  | cons d R ih =>
    intro P h hn
    obtain ⟨hf, hfs⟩ := lower_fresh (U := U) hL h
    apply ih (P ++ [d]) (by simp [h])
    rw [List.flatMap_append, List.flatMap_cons, List.flatMap_nil, List.append_nil, List.nodup_append]
    refine ⟨hn, ?_, ?_⟩
    · cases d with
      | mk role n =>
        cases role <;> simp [lowerStep]
        split <;> simp
    · intro a ha b hb he
      subst he
      rcases mem_lowerStep.1 hb with rfl | ⟨h1, h2, rfl⟩
      · exact hf ha
      · exact hfs h1 h2 ha

theorem nodup_upper (hL : SchemaOk pks L) (hU : SchemaOk pks U) : ∀ (R P : List Desc), P ++ R = U →
    (L.flatMap (lowerStep L U) ++ P.flatMap (upperStep L U (L.flatMap (lowerStep L U)))).Nodup →
    (mergedCols L U).Nodup := by
  intro R
  induction R with
  | nil => intro P h hn; simp only [List.append_nil] at h; subst h; exact hn
  | cons d R ih =>
    intro P h hn
    obtain ⟨hf, hfs⟩ := upper_facts hL hU h
    apply ih (P ++ [d]) (by simp [h])
    rw [List.flatMap_append, List.flatMap_cons, List.flatMap_nil, List.append_nil, ← List.append_assoc,
      List.nodup_append]
    refine ⟨hn, ?_, ?_⟩
    · simp only [upperStep]
      split
      · simp
      · cases d with
        | mk role n =>
          cases role <;> simp
          split <;> simp
    · intro a ha b hb he
      subst he
      rcases mem_upperStep.1 hb with ⟨h0, ⟨_, rfl⟩ | ⟨h1, rfl | ⟨h2, rfl⟩⟩⟩
      · exact h0 (hf.1 ha)
      · exact h0 (hf.1 ha)
      · exact hfs h0 h1 h2 ha

theorem names_append (A B : List Desc) (role : Role) : names (A ++ B) role = names A role ++ names B role := by
  simp [names]

theorem names_lower (role : Role) (hr : role = .oldPk ∨ role = .newPk) (P : List Desc) :
    names (P.flatMap (lowerStep L U)) role = names P role := by
  induction P with
  | nil => rfl
  | cons d P ih =>
    rw [List.flatMap_cons, names_append, ih]
    have : names (lowerStep L U d) role = names [d] role := by
      cases d with
      | mk r n =>
        rcases hr with rfl | rfl <;> cases r <;> simp [lowerStep, names] <;> split <;> simp
    rw [this, ← names_append]
    rfl

theorem names_upper (role : Role) (hr : role = .oldPk ∨ role = .newPk) (a0 P : List Desc) :
    names (P.flatMap (upperStep L U a0)) role = [] := by
  induction P with
  | nil => rfl
  | cons d P ih =>
    rw [List.flatMap_cons, names_append, ih, List.append_nil]
    cases d with
    | mk r n =>
      simp only [upperStep]
      split
      · rfl
      · rcases hr with rfl | rfl <;> cases r <;> simp [names] <;> split <;> simp

/-- The merged schema is a sync schema for the same keys. -/
theorem mergedCols_ok (hL : SchemaOk pks L) (hU : SchemaOk pks U) : SchemaOk pks (mergedCols L U) := by
  constructor
  · apply nodup_upper hL hU U [] rfl
    simp only [List.flatMap_nil, List.append_nil]
    exact nodup_lower hL.nodup L [] rfl (by simp)
  · rw [mergedCols, names_append, names_lower _ (Or.inl rfl), names_upper _ (Or.inl rfl), List.append_nil, hL.oldPk]
  · rw [mergedCols, names_append, names_lower _ (Or.inr rfl), names_upper _ (Or.inr rfl), List.append_nil, hL.newPk]
  · intro c hc
    rw [mem_mergedCols hL hU] at hc ⊢
    rcases hc with h | h | ⟨_, ⟨h, _⟩ | ⟨h, _⟩⟩
    · exact Or.inl (hL.changed c h)
    · exact Or.inr (Or.inl (hU.changed c h))
    · exact Or.inl h
    · exact Or.inr (Or.inl h)
  · intro c hc
    rw [mem_mergedCols hL hU] at hc
    rcases hc with h | h | ⟨h, _⟩
    · exact hL.noPk c h
    · exact hU.noPk c h
    · cases h

end Seafowl.Sync
