import Verif.Dml.Rechunk

/-!
# Partition files (C27) and multipart uploads (C28)
-/

namespace Seafowl.Dml

set_option linter.unusedSimpArgs false

variable {ρ : Type}

theorem fill_spec (max : Nat) (hm : 0 < max) (cur batch : List ρ) : cur.length ≤ max →
    ∃ closed cur', fill max cur batch = some (closed, cur') ∧ closed.flatten ++ cur' = cur ++ batch ∧
      (∀ f ∈ closed, f.length = max) ∧ cur'.length ≤ max := by
  induction cur, batch using fill.induct max with
  | case1 cur batch h =>
    intro hc
    refine ⟨[], cur ++ batch, ?_, by simp, by simp, by simp; omega⟩
    rw [fill, if_pos h]
  | case2 cur batch h h0 => omega
  | case3 cur batch h h0 hn ih =>
    intro hc
    obtain ⟨closed, cur', e1, _⟩ := ih (by simp)
    rw [hn] at e1; cases e1
  | case4 cur batch h h0 closed0 cur0 hn ih =>
    intro hc
    obtain ⟨closed, cur', e1, e2, e3, e4⟩ := ih (by simp)
    refine ⟨(cur ++ batch.take (max - cur.length)) :: closed, cur', ?_, ?_, ?_, e4⟩
    · rw [fill, if_neg h, if_neg h0, e1]
    · simp only [List.flatten_cons, List.append_assoc]
      rw [e2]
      simp [List.take_append_drop]
    · intro f hf
      rcases List.mem_cons.1 hf with rfl | hf
      · rw [List.length_append, List.length_take, Nat.min_eq_left (Nat.le_of_lt (Nat.lt_of_not_le h))]
        exact Nat.add_sub_cancel' hc
      · exact e3 f hf

theorem fillAll_spec (max : Nat) (hm : 0 < max) (batches : List (List ρ)) : ∀ cur : List ρ, cur.length ≤ max →
    ∃ closed cur', fillAll max cur batches = some (closed, cur') ∧ closed.flatten ++ cur' = cur ++ batches.flatten ∧
      (∀ f ∈ closed, f.length = max) ∧ cur'.length ≤ max := by
  induction batches with
  | nil => intro cur hc; exact ⟨[], cur, rfl, by simp, by simp, hc⟩
  | cons b bs ih =>
    intro cur hc
    obtain ⟨c1, u1, e1, e2, e3, e4⟩ := fill_spec max hm cur b hc
    obtain ⟨c2, u2, f1, f2, f3, f4⟩ := ih u1 e4
    refine ⟨c1 ++ c2, u2, ?_, ?_, ?_, f4⟩
    · simp only [fillAll, e1, f1]
    · rw [List.flatten_append, List.append_assoc, f2, ← List.append_assoc, e2, List.flatten_cons, List.append_assoc]
    · intro f hf
      rcases List.mem_append.1 hf with hf | hf
      · exact e3 f hf
      · exact f3 f hf

/-- **C27**: for every list of batches and every positive limit, the rows of the files in order are the
rows of the batches in order; there is at least one file; every file but the last one has exactly
`max` rows and the last one has at most that; and the metadata of each file counts its own rows. -/
theorem C27_rechunk (max : Nat) (hm : 0 < max) (batches : List (List ρ)) :
    ∃ files, rechunk max batches = some files ∧
      (files.map (·.1)).flatten = batches.flatten ∧ files ≠ [] ∧
      (∀ f ∈ files.dropLast, f.1.length = max) ∧ (∀ f ∈ files, f.1.length ≤ max) ∧
      (∀ f ∈ files, f.2 = f.1.length) := by
  obtain ⟨closed, cur, e1, e2, e3, e4⟩ := fillAll_spec max hm batches [] (by simp)
  have hmeta : ∀ l : List (List ρ), l.zip (l.map List.length) = l.map (fun f => (f, f.length)) := by
    intro l; induction l with
    | nil => rfl
    | cons a l ih => simp [ih]
  refine ⟨((closed ++ [cur]).zip ((closed ++ [cur]).map List.length)), ?_, ?_, ?_, ?_, ?_, ?_⟩
  · simp only [rechunk, e1]
  · rw [hmeta, List.map_map]
    have : ((fun x : List ρ × Nat => x.1) ∘ fun f => (f, f.length)) = id := rfl
    rw [this, List.map_id, List.flatten_append]
    simpa using e2
  · rw [hmeta]; simp
  · rw [hmeta, List.map_append]
    simp only [List.map_cons, List.map_nil, List.dropLast_concat]
    intro f hf
    obtain ⟨g, hg, rfl⟩ := List.mem_map.1 hf
    exact e3 g hg
  · rw [hmeta]
    intro f hf
    obtain ⟨g, hg, rfl⟩ := List.mem_map.1 hf
    rcases List.mem_append.1 hg with hg | hg
    · exact Nat.le_of_eq (e3 g hg)
    · simp only [List.mem_singleton] at hg; subst hg; exact e4
  · rw [hmeta]
    intro f hf
    obtain ⟨g, hg, rfl⟩ := List.mem_map.1 hf
    rfl

/-- Batches of 5, 0, 1 and 3 rows, at most 3 rows per file. -/
example : rechunk 3 [[1, 2, 3, 4, 5], [], [6], [7, 8, 9]] = some [([1, 2, 3], 3), ([4, 5, 6], 3), ([7, 8, 9], 3)] := by
  simp [rechunk, fillAll, fill]

/-- No rows: one empty file. -/
example : rechunk 3 ([[], []] : List (List Nat)) = some [([], 0)] := by
  simp [rechunk, fillAll, fill]

/-- With a limit of 0 (which the configuration accepts) writing any row does not terminate. -/
theorem C27_zero_limit (batches : List (List ρ)) (h : batches.flatten ≠ []) : rechunk 0 batches = none := by
  have hf : ∀ batches : List (List ρ), batches.flatten ≠ [] → fillAll 0 ([] : List ρ) batches = none := by
    intro batches
    induction batches with
    | nil => intro h; exact absurd rfl h
    | cons b bs ih =>
      intro h
      cases b with
      | nil =>
        have e : fill 0 ([] : List ρ) [] = some ([], []) := by simp [fill]
        simp only [fillAll, e]
        rw [ih (by simpa using h)]
      | cons x xs =>
        have e : fill 0 ([] : List ρ) (x :: xs) = none := by simp [fill]
        simp only [fillAll, e]
  simp only [rechunk, hf batches h]

/-! ### C28 -/

variable {β : Type}

theorem uploadLoop_spec (min : Nat) (file buf : List β) (parts : List (List β)) (reads : List (Option Nat))
    (puts : List Bool) : buf.length < min ∨ buf = [] → (∀ p ∈ parts, min ≤ p.length) →
    let u := uploadLoop min file buf parts reads puts
    (u.completed = !u.error) ∧
    (u.error = false → u.parts.flatten = parts.flatten ++ buf ++ file ∧ ∀ p ∈ u.parts.dropLast, min ≤ p.length) ∧
    (reads = [] → puts = [] → u.error = false) := by
  induction file, buf, parts, reads, puts using uploadLoop.induct min with
  | case1 file buf parts reads puts hr =>
    intro _ _
    rw [uploadLoop]
    simp only [hr]
    refine ⟨by simp, by simp, ?_⟩
    intro h1; subst h1; simp at hr
  | case2 parts reads puts n hr =>
    intro _ hp
    rw [uploadLoop]
    simp only [hr, dif_pos, if_true]
    refine ⟨by simp, fun _ => ⟨by simp, fun p hq => hp p (List.dropLast_subset _ hq)⟩, fun _ _ => by simp⟩
  | case3 buf parts reads puts n hb hput hr2 hr =>
    intro _ hp
    rw [uploadLoop]
    simp only [hr, dif_pos, hb, if_false, hput, if_true, hr2]
    refine ⟨by simp, by simp, ?_⟩
    intro h1; subst h1; simp at hr2
  | case4 buf parts reads puts n hb hput m hr2 hr =>
    intro _ hp
    rw [uploadLoop]
    simp only [hr, dif_pos, hb, if_false, hput, if_true, hr2]
    refine ⟨by simp, fun _ => ⟨by simp, ?_⟩, fun _ _ => by simp⟩
    rw [List.dropLast_concat]
    exact hp
  | case5 buf parts reads puts n hb hput hr =>
    intro _ hp
    rw [uploadLoop]
    simp only [hr, dif_pos, hb, if_false, hput, Bool.false_eq_true]
    refine ⟨by simp, by simp, ?_⟩
    intro _ h2; subst h2; simp at hput
  | case6 file buf parts reads puts n hr hf k buf' hlt ih =>
    intro hb hp
    have ih := ih (Or.inl hlt) hp
    rw [uploadLoop]
    simp only [hr, dif_neg hf]
    rw [if_pos hlt]
    refine ⟨ih.1, fun he => ?_, fun h1 h2 => ih.2.2 (by simp [h1]) h2⟩
    obtain ⟨a, b⟩ := ih.2.1 he
    refine ⟨?_, b⟩
    rw [a]
    simp only [buf', List.append_assoc, List.take_append_drop]
  | case7 file buf parts reads puts n hr hf k buf' hge hput ih =>
    intro hb hp
    have ih := ih (Or.inr rfl) (by
      intro p hq
      rcases List.mem_append.1 hq with hq | hq
      · exact hp p hq
      · simp only [List.mem_singleton] at hq; subst hq; omega)
    rw [uploadLoop]
    simp only [hr, dif_neg hf]
    rw [if_neg hge, if_pos hput]
    refine ⟨ih.1, fun he => ?_, fun h1 h2 => ih.2.2 (by simp [h1]) (by simp [h2])⟩
    obtain ⟨a, b⟩ := ih.2.1 he
    refine ⟨?_, b⟩
    rw [a]
    simp only [buf', List.flatten_append, List.flatten_cons, List.flatten_nil, List.append_nil, List.append_assoc,
      List.take_append_drop]
  | case8 file buf parts reads puts n hr hf k buf' hge hput =>
    intro hb hp
    rw [uploadLoop]
    simp only [hr, dif_neg hf]
    rw [if_neg hge, if_neg hput]
    refine ⟨rfl, by simp, ?_⟩
    intro _ h2; subst h2; simp at hput

/-- **C28**: for every file, every sequence of short reads and every pattern of failures: the upload is
completed iff no error is returned, and then the parts concatenate to exactly the bytes of the file and
every part but the last one has at least the minimum size. -/
theorem C28_upload (file : List β) (reads : List (Option Nat)) (puts : List Bool) (completeOk : Bool) :
    let u := upload minPart file reads puts completeOk
    (u.completed = !u.error) ∧
    (u.error = false → u.parts.flatten = file ∧ ∀ p ∈ u.parts.dropLast, 5 * 1024 * 1024 ≤ p.length) := by
  have h := uploadLoop_spec minPart file [] [] reads puts (Or.inr rfl) (by simp)
  simp only [upload]
  generalize uploadLoop minPart file [] [] reads puts = u at h
  obtain ⟨h1, h2, _⟩ := h
  cases he : u.error with
  | true => simp only [if_true, he] at h1 ⊢; exact ⟨h1, by simp⟩
  | false =>
    simp only [he, Bool.false_eq_true, if_false]
    cases completeOk with
    | true =>
      simp only [if_true]
      rw [he] at h1
      refine ⟨by rw [h1, he], fun _ => ?_⟩
      have := h2 he
      simp only [List.flatten_nil, List.nil_append, minPart] at this
      exact this
    | false => simp

/-- **C28**: without failures the upload succeeds. -/
theorem C28_succeeds (file : List β) : (upload minPart file [] [] true).error = false := by
  have h := (uploadLoop_spec minPart file [] [] [] [] (Or.inr rfl) (by simp)).2.2 rfl rfl
  simp [upload, h]

/-- Minimum part size 4 and reads of 3, 2, 1 bytes ...: parts of 5 and 4 bytes and the last byte. -/
example : uploadLoop 4 [1, 2, 3, 4, 5, 6, 7, 8, 9, 10] [] [] [some 3, some 2, some 1, some 3] [] =
    { parts := [[1, 2, 3, 4, 5], [6, 7, 8, 9], [10]], completed := true, error := false } := by
  simp [uploadLoop]

/-- The second part fails. -/
example : uploadLoop 4 [1, 2, 3, 4, 5, 6, 7, 8, 9, 10] [] [] [some 5, some 4] [true, false] =
    { parts := [[1, 2, 3, 4, 5]], completed := false, error := true } := by
  simp [uploadLoop]

end Seafowl.Dml
