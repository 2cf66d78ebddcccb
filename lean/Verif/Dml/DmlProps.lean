import Verif.Dml.Dml
import Verif.Dml.RechunkProps

/-!
# UPDATE (C25), DELETE (C26) and the atomicity of statements (C29)
-/

namespace Seafowl.Dml

set_option linter.unusedSimpArgs false

variable {κ : Type}

/-! ### specifications -/

/-- All rows of a snapshot. -/
def rowsOf (s : Snapshot κ) : List (Row κ) := s.flatMap (·.2)

/-- The rows of a table after a commit on a snapshot: those of the files not removed and those of the
new files. -/
def rowsAfter (s : Snapshot κ) (c : Commit κ) : List (Row κ) :=
  rowsOf (s.filter (fun f => !c.removes.contains f.1)) ++ c.adds.flatten

/-- `r'` is `r` with the assignments carried out: assigned columns have the value of their expression on
the old row, all other columns are unchanged. -/
def SetTo (fields : List String) (assigns : List (String × SExpr κ)) (r r' : Row κ) : Prop :=
  r'.length = fields.length ∧
  ∀ (i : Nat) (f : String), fields[i]? = some f →
    (∀ e : SExpr κ, (f, e) ∈ assigns → e r = r'[i]?) ∧ ((∀ e : SExpr κ, (f, e) ∉ assigns) → r'[i]? = r[i]?)

/-- A prune map is sound: a file that is not kept has no row satisfying the predicate. -/
def SoundPrune (p : Pred κ) (s : Snapshot κ) (keep : List Bool) : Prop :=
  keep.length = s.length ∧ ∀ fk ∈ s.zip keep, fk.2 = false → ∀ r ∈ fk.1.2, p r ≠ some true

/-- The predicate of a statement; without a WHERE clause all rows qualify. -/
def selects (sel : Option (Pred κ)) (r : Row κ) : Prop := ∀ p, sel = some p → p r = some true

/-! ### lemmas -/

theorem addFiles_spec (max : Nat) (hm : 0 < max) (bs : List (List (Row κ))) :
    ∃ a, addFiles max bs = some a ∧ a.flatten = bs.flatten := by
  obtain ⟨files, e1, e2, _⟩ := C27_rechunk max hm bs
  exact ⟨files.map (·.1), by simp only [addFiles, e1, Option.map_some], e2⟩

theorem colAt_index (fields : List String) : ∀ (r : Row κ) (i : Nat) (f : String), fields.Nodup →
    r.length = fields.length → fields[i]? = some f → colAt fields r f = r[i]? := by
  induction fields with
  | nil => intro r i f _ _ h; simp at h
  | cons a fs ih =>
    intro r i f hn hl hi
    cases r with
    | nil => simp at hl
    | cons v vs =>
      simp only [List.nodup_cons] at hn
      simp only [List.length_cons, Nat.add_right_cancel_iff] at hl
      cases i with
      | zero =>
        simp only [List.getElem?_cons_zero, Option.some.injEq] at hi
        simp [colAt, hi]
      | succ i =>
        simp only [List.getElem?_cons_succ] at hi
        have hne : a ≠ f := by
          rintro rfl
          exact hn.1 (List.mem_of_getElem? hi)
        simp only [colAt, if_neg hne, List.getElem?_cons_succ]
        exact ih vs i f hn.2 hl hi

theorem evalRow_some (es : List (SExpr κ)) (r : Row κ) : ∀ v : Row κ, evalRow es r = some v ↔
    v.length = es.length ∧ ∀ (i : Nat) (e : SExpr κ), es[i]? = some e → e r = v[i]? := by
  induction es with
  | nil =>
    intro v
    simp only [evalRow, Option.some.injEq, List.length_nil, List.length_eq_zero_iff]
    constructor
    · rintro rfl; simp
    · rintro ⟨h, _⟩; exact h.symm
  | cons e es ih =>
    intro v
    constructor
    · intro h
      simp only [evalRow] at h
      split at h
      · next x xs hx hxs =>
        simp only [Option.some.injEq] at h; subst h
        obtain ⟨h1, h2⟩ := (ih xs).1 hxs
        refine ⟨by simp [h1], ?_⟩
        intro i e' hi
        cases i with
        | zero => simp only [List.getElem?_cons_zero, Option.some.injEq] at hi ⊢; subst hi; exact hx
        | succ i => simp only [List.getElem?_cons_succ] at hi ⊢; exact h2 i e' hi
      · cases h
    · rintro ⟨h1, h2⟩
      cases v with
      | nil => simp at h1
      | cons x xs =>
        have hx := h2 0 e (by simp)
        have hxs := (ih xs).2 ⟨by simpa using h1, fun i e' hi => by
          have := h2 (i + 1) e' (by simpa using hi)
          simpa using this⟩
        simp only [List.getElem?_cons_zero] at hx
        simp only [evalRow, hx, hxs]

theorem evalRow_none (es : List (SExpr κ)) (r : Row κ) (h : evalRow es r = none) : ∃ e ∈ es, e r = none := by
  induction es with
  | nil => simp [evalRow] at h
  | cons e es ih =>
    simp only [evalRow] at h
    split at h
    · cases h
    · next hno =>
      cases he : e r with
      | none => exact ⟨e, by simp, he⟩
      | some x =>
        cases hes : evalRow es r with
        | none => obtain ⟨e', h1, h2⟩ := ih hes; exact ⟨e', by simp [h1], h2⟩
        | some xs => exact absurd hes (hno x xs he)

theorem evalRows_some (es : List (SExpr κ)) (g : Row κ → Row κ) (hg : g = fun r => (evalRow es r).getD r)
    (rs : List (Row κ)) : ∀ vs, evalRows es rs = some vs → vs = rs.map g ∧ ∀ r ∈ rs, evalRow es r = some (g r) := by
  induction rs with
  | nil => intro vs h; simp only [evalRows, Option.some.injEq] at h; subst h; simp
  | cons r rs ih =>
    intro vs h
    simp only [evalRows] at h
    split at h
    · next x xs hx hxs =>
      simp only [Option.some.injEq] at h; subst h
      obtain ⟨h1, h2⟩ := ih xs hxs
      have hr : evalRow es r = some (g r) := by rw [hg]; simp [hx]
      have hxr : x = g r := by rw [hx] at hr; exact Option.some.inj hr
      refine ⟨by rw [List.map_cons, ← h1, ← hxr], ?_⟩
      intro r' hr'
      rcases List.mem_cons.1 hr' with rfl | hr'
      · exact hr
      · exact h2 r' hr'
    · cases h

theorem evalRows_none (es : List (SExpr κ)) (rs : List (Row κ)) (h : evalRows es rs = none) :
    ∃ r ∈ rs, evalRow es r = none := by
  induction rs with
  | nil => simp [evalRows] at h
  | cons r rs ih =>
    simp only [evalRows] at h
    split at h
    · cases h
    · next hno =>
      cases he : evalRow es r with
      | none => exact ⟨r, by simp, he⟩
      | some x =>
        cases hes : evalRows es rs with
        | none => obtain ⟨r', h1, h2⟩ := ih hes; exact ⟨r', by simp [h1], h2⟩
        | some xs => exact absurd hes (hno x xs he)

theorem evalBatches_some (es : List (SExpr κ)) (g : Row κ → Row κ) (hg : g = fun r => (evalRow es r).getD r)
    (bs : List (List (Row κ))) : ∀ vs, evalBatches es bs = some vs →
      vs.flatten = bs.flatten.map g ∧ ∀ r ∈ bs.flatten, evalRow es r = some (g r) := by
  induction bs with
  | nil => intro vs h; simp only [evalBatches, Option.some.injEq] at h; subst h; simp
  | cons b bs ih =>
    intro vs h
    simp only [evalBatches] at h
    split at h
    · next x xs hx hxs =>
      simp only [Option.some.injEq] at h; subst h
      obtain ⟨h1, h2⟩ := ih xs hxs
      obtain ⟨h3, h4⟩ := evalRows_some es g hg b x hx
      refine ⟨by rw [List.flatten_cons, List.flatten_cons, List.map_append, h1, h3], ?_⟩
      intro r hr
      rw [List.flatten_cons] at hr
      rcases List.mem_append.1 hr with hr | hr
      · exact h4 r hr
      · exact h2 r hr
    · cases h

theorem evalBatches_none (es : List (SExpr κ)) (bs : List (List (Row κ))) (h : evalBatches es bs = none) :
    ∃ r ∈ bs.flatten, evalRow es r = none := by
  induction bs with
  | nil => simp [evalBatches] at h
  | cons b bs ih =>
    simp only [evalBatches] at h
    split at h
    · cases h
    · next hno =>
      cases he : evalRows es b with
      | none => obtain ⟨r, h1, h2⟩ := evalRows_none es b he; exact ⟨r, by simp [h1], h2⟩
      | some x =>
        cases hes : evalBatches es bs with
        | none =>
          obtain ⟨r', h1, h2⟩ := ih hes
          refine ⟨r', ?_, h2⟩
          rw [List.flatten_cons]; exact List.mem_append.2 (Or.inr h1)
        | some xs => exact absurd hes (hno x xs he)

theorem projExprs_index (exprs : List (SExpr κ)) (fields : List String) (sel : Option (Pred κ)) (i : Nat) (e : SExpr κ)
    (h : (projectExpressions exprs fields sel)[i]? = some e) :
    ∃ e0 f, exprs[i]? = some e0 ∧ fields[i]? = some f ∧
      e = caseExpr fields sel e0 f := by
  simp only [projectExpressions, List.getElem?_map, Option.map_eq_some_iff] at h
  obtain ⟨⟨e0, f⟩, h1, h2⟩ := h
  rw [List.getElem?_zip_eq_some] at h1
  exact ⟨e0, f, h1.1, h1.2, h2.symm⟩

theorem planExprs_index (fields : List String) (assigns : List (String × SExpr κ)) (i : Nat) (e : SExpr κ) (f : String)
    (hf : fields[i]? = some f) (h : (planExprs fields assigns)[i]? = some e) :
    e = (assigned assigns f).getD (fun r => colAt fields r f) := by
  simp only [planExprs, List.getElem?_map, hf, Option.map_some, Option.some.injEq] at h
  exact h.symm

theorem assigned_mem (assigns : List (String × SExpr κ)) (f : String) (e : SExpr κ)
    (hn : (assigns.map (·.1)).Nodup) (h : (f, e) ∈ assigns) : assigned assigns f = some e := by
  induction assigns with
  | nil => simp at h
  | cons a rest ih =>
    obtain ⟨n, e'⟩ := a
    simp only [List.map_cons, List.nodup_cons] at hn
    rcases List.mem_cons.1 h with h | h
    · obtain ⟨rfl, rfl⟩ := Prod.mk.inj h
      simp [assigned]
    · have : n ≠ f := by
        rintro rfl
        exact hn.1 (List.mem_map.2 ⟨_, h, rfl⟩)
      simp only [assigned, if_neg this]
      exact ih hn.2 h

theorem assigned_some (assigns : List (String × SExpr κ)) (f : String) (e : SExpr κ)
    (h : assigned assigns f = some e) : (f, e) ∈ assigns := by
  induction assigns with
  | nil => simp [assigned] at h
  | cons a rest ih =>
    obtain ⟨n, e'⟩ := a
    simp only [assigned] at h
    split at h
    · next hnf => subst hnf; cases h; simp
    · exact List.mem_cons_of_mem _ (ih h)

theorem length_projExprs (fields : List String) (assigns : List (String × SExpr κ)) (sel : Option (Pred κ)) :
    (projectExpressions (planExprs fields assigns) fields sel).length = fields.length := by
  simp [projectExpressions, planExprs]

/-- A row not selected is reproduced. -/
theorem evalRow_unselected (fields : List String) (assigns : List (String × SExpr κ)) (p : Pred κ) (r : Row κ)
    (hn : fields.Nodup) (hl : r.length = fields.length) (hp : p r ≠ some true) :
    evalRow (projectExpressions (planExprs fields assigns) fields (some p)) r = some r := by
  rw [evalRow_some]
  refine ⟨by rw [length_projExprs, hl], ?_⟩
  intro i e hi
  obtain ⟨e0, f, h1, h2, rfl⟩ := projExprs_index _ _ _ _ _ hi
  simp only [caseExpr, if_neg hp]
  exact colAt_index fields r i f hn hl h2

/-- A selected row gets the assignments. -/
theorem evalRow_selected (fields : List String) (assigns : List (String × SExpr κ)) (sel : Option (Pred κ)) (r v : Row κ)
    (hn : fields.Nodup) (ha : (assigns.map (·.1)).Nodup) (hl : r.length = fields.length) (hp : selects sel r)
    (h : evalRow (projectExpressions (planExprs fields assigns) fields sel) r = some v) : SetTo fields assigns r v := by
  rw [evalRow_some] at h
  obtain ⟨h1, h2⟩ := h
  rw [length_projExprs] at h1
  refine ⟨h1, ?_⟩
  intro i f hf
  obtain ⟨e, he⟩ : ∃ e, (projectExpressions (planExprs fields assigns) fields sel)[i]? = some e := by
    have hlt : i < fields.length := (List.getElem?_eq_some_iff.1 hf).1
    exact ⟨_, List.getElem?_eq_getElem (by rw [length_projExprs]; exact hlt)⟩
  have hev := h2 i e he
  obtain ⟨e0, f', g1, g2, rfl⟩ := projExprs_index _ _ _ _ _ he
  rw [hf] at g2; cases g2
  have hev : e0 r = v[i]? := by
    cases sel with
    | none => exact hev
    | some p => simp only [caseExpr, hp p rfl, if_true] at hev; exact hev
  rw [planExprs_index fields assigns i e0 f hf g1] at hev
  constructor
  · intro e hm
    rw [assigned_mem assigns f e ha hm] at hev
    exact hev
  · intro hno
    have : assigned assigns f = none := by
      rcases Option.eq_none_or_eq_some (assigned assigns f) with h | ⟨e, h⟩
      · exact h
      · exact absurd (assigned_some _ _ _ h) (hno e)
    rw [this] at hev
    rw [← hev]
    exact (colAt_index fields r i f hn hl hf)

theorem mem_keptFiles (s : Snapshot κ) (keep : List Bool) (f : FileName × List (Row κ)) :
    f ∈ keptFiles s keep ↔ (f, true) ∈ s.zip keep := by
  simp only [keptFiles, List.mem_filterMap]
  constructor
  · rintro ⟨⟨g, k⟩, h1, h2⟩
    cases k
    · simp at h2
    · simp only [if_true, Option.some.injEq] at h2; subst h2; exact h1
  · intro h; exact ⟨_, h, by simp⟩

/-- Splitting a snapshot into the kept and the other files. -/
theorem kept_split (keep : List Bool) (s : Snapshot κ) (hl : keep.length = s.length) (hn : (s.map (·.1)).Nodup) :
    (s.filter (fun f => !((keptFiles s keep).map (·.1)).contains f.1)) =
      (s.zip keep).filterMap (fun fk => if fk.2 then none else some fk.1) ∧
    (rowsOf s).Perm (rowsOf (keptFiles s keep) ++
      rowsOf ((s.zip keep).filterMap (fun fk => if fk.2 then none else some fk.1))) := by
  induction s generalizing keep with
  | nil => simp [keptFiles, rowsOf]
  | cons f s ih =>
    cases keep with
    | nil => simp at hl
    | cons k keep =>
      simp only [List.length_cons, Nat.add_right_cancel_iff] at hl
      simp only [List.map_cons, List.nodup_cons] at hn
      obtain ⟨ih1, ih2⟩ := ih keep hl hn.2
      have hsub : ∀ g, g ∈ keptFiles s keep → g ∈ s := by
        intro g hg
        exact (List.of_mem_zip ((mem_keptFiles s keep g).1 hg)).1
      have hnot : f.1 ∉ (keptFiles s keep).map (·.1) := by
        intro h
        obtain ⟨g, hg, e⟩ := List.mem_map.1 h
        exact hn.1 (e ▸ List.mem_map_of_mem (hsub g hg))
      cases k with
      | false =>
        have e1 : keptFiles (f :: s) (false :: keep) = keptFiles s keep := by simp [keptFiles]
        rw [e1]
        constructor
        · rw [List.filter_cons_of_pos (by simpa using hnot), ih1]
          simp
        · simp only [List.zip_cons_cons, List.filterMap_cons, Bool.false_eq_true, if_false]
          simp only [rowsOf, List.flatMap_cons] at ih2 ⊢
          refine (List.Perm.append_left f.2 ih2).trans ?_
          rw [← List.append_assoc, ← List.append_assoc]
          exact List.Perm.append_right _ List.perm_append_comm
      | true =>
        have e1 : keptFiles (f :: s) (true :: keep) = f :: keptFiles s keep := by simp [keptFiles]
        rw [e1]
        constructor
        · rw [List.filter_cons_of_neg (by simp)]
          simp only [List.zip_cons_cons, List.filterMap_cons, if_true]
          rw [← ih1]
          apply List.filter_congr
          intro g hg
          have : g.1 ≠ f.1 := by
            intro e
            exact hn.1 (e ▸ List.mem_map_of_mem hg)
          simp [this]
        · simp only [List.zip_cons_cons, List.filterMap_cons, if_true]
          simp only [rowsOf, List.flatMap_cons] at ih2 ⊢
          rw [List.append_assoc]
          exact List.Perm.append_left f.2 ih2

theorem filter_removed_all (s : Snapshot κ) : s.filter (fun f => !(s.map (·.1)).contains f.1) = [] := by
  rw [List.filter_eq_nil_iff]
  intro f hf
  have : f.1 ∈ s.map (·.1) := List.mem_map_of_mem hf
  simp only [Bool.not_eq_true, Bool.not_eq_false']
  simpa using this

/-! ### C25 -/

/-- **C25** (`_partial`: assumes that the scan of the kept files returns all their rows; the library only
promises the rows matching the filter): for every layout with distinct files, every sound prune map, every predicate,
assignments and scan order, if the UPDATE does not fail then every row after the commit comes from exactly one
row before it: unchanged if the predicate is false or NULL, with the assignments carried out if it is
true. -/
theorem C25_update_partial (max : Nat) (hm : 0 < max) (fields : List String) (assigns : List (String × SExpr κ))
    (sel : Option (Pred κ)) (s : Snapshot κ) (keep : List Bool) (scan : List (List (Row κ))) (c : Commit κ)
    (hn : fields.Nodup) (ha : (assigns.map (·.1)).Nodup) (hs : (s.map (·.1)).Nodup)
    (hw : ∀ r ∈ rowsOf s, r.length = fields.length)
    (hp : ∀ p, sel = some p → SoundPrune p s keep ∧ scan.flatten.Perm (rowsOf (keptFiles s keep)))
    (hp' : sel = none → scan.flatten.Perm (rowsOf s))
    (h : update max fields assigns sel s keep scan = some c) :
    ∃ g : Row κ → Row κ, (rowsAfter s c).Perm ((rowsOf s).map g) ∧
      ∀ r ∈ rowsOf s, (selects sel r → SetTo fields assigns r (g r)) ∧ (¬ selects sel r → g r = r) := by
  let es := projectExpressions (planExprs fields assigns) fields sel
  have hgs : ∃ g : Row κ → Row κ, g = fun r => (evalRow es r).getD r := ⟨_, rfl⟩
  obtain ⟨g, hg⟩ := hgs
  cases sel with
  | none =>
    simp only [update] at h
    split at h
    · next hempty =>
      cases h
      have hnil : s = [] := by simpa using hempty
      subst hnil
      exact ⟨g, by simp [rowsAfter, rowsOf], by simp [rowsOf]⟩
    · split at h
      · cases h
      · next batches hb =>
        obtain ⟨a, ea, ef⟩ := addFiles_spec max hm batches
        rw [ea] at h
        simp only [Option.map_some, Option.some.injEq] at h
        subst h
        obtain ⟨h1, h2⟩ := evalBatches_some es g hg scan batches hb
        refine ⟨g, ?_, ?_⟩
        · simp only [rowsAfter, filter_removed_all, rowsOf, List.flatMap_nil, List.nil_append, ef, h1]
          exact (hp' rfl).map g
        · intro r hr
          refine ⟨fun hsel => ?_, fun hsel => absurd (fun p hp => by cases hp) hsel⟩
          exact evalRow_selected fields assigns none r (g r) hn ha (hw r hr) hsel (h2 r ((hp' rfl).mem_iff.2 hr))
  | some p =>
    obtain ⟨⟨hlen, hsound⟩, hscan⟩ := hp p rfl
    obtain ⟨hk1, hk2⟩ := kept_split keep s hlen hs
    have hother : ∀ r ∈ rowsOf ((s.zip keep).filterMap (fun fk => if fk.2 then none else some fk.1)), p r ≠ some true := by
      intro r hr
      simp only [rowsOf, List.mem_flatMap, List.mem_filterMap] at hr
      obtain ⟨f, ⟨⟨f', k⟩, hz, he⟩, hrf⟩ := hr
      cases k with
      | true => simp at he
      | false =>
        simp only [Bool.false_eq_true, if_false, Option.some.injEq] at he; subst he
        exact hsound _ hz rfl r hrf
    have hid : ∀ r ∈ rowsOf s, p r ≠ some true → g r = r := by
      intro r hr hpr
      rw [hg]
      simp only [es, evalRow_unselected fields assigns p r hn (hw r hr) hpr, Option.getD_some]
    have hmapother : (rowsOf ((s.zip keep).filterMap (fun fk => if fk.2 then none else some fk.1))).map g =
        rowsOf ((s.zip keep).filterMap (fun fk => if fk.2 then none else some fk.1)) := by
      rw [List.map_congr_left (g := id), List.map_id]
      intro r hr
      exact hid r (hk2.mem_iff.2 (List.mem_append.2 (Or.inr hr))) (hother r hr)
    simp only [update] at h
    split at h
    · next hempty =>
      cases h
      have hnil : keptFiles s keep = [] := by simpa using hempty
      rw [hnil] at hk2
      simp only [rowsOf, List.flatMap_nil, List.nil_append] at hk2
      have hno : ∀ r ∈ rowsOf s, p r ≠ some true := fun r hr => hother r (hk2.mem_iff.1 hr)
      refine ⟨id, ?_, ?_⟩
      · have : s.filter (fun _ => true) = s := List.filter_eq_self.2 (by simp)
        simp [rowsAfter, this]
      intro r hr
      exact ⟨fun hsel => absurd (hsel p rfl) (hno r hr), fun _ => rfl⟩
    · split at h
      · cases h
      · next batches hb =>
        obtain ⟨a, ea, ef⟩ := addFiles_spec max hm batches
        rw [ea] at h
        simp only [Option.map_some, Option.some.injEq] at h
        subst h
        obtain ⟨h1, h2⟩ := evalBatches_some es g hg scan batches hb
        refine ⟨g, ?_, ?_⟩
        · simp only [rowsAfter]
          rw [hk1, ef, h1]
          refine List.Perm.trans ?_ (hk2.map g).symm
          rw [List.map_append, hmapother]
          exact List.perm_append_comm.trans ((hscan.map g).append_right _)
        · intro r hr
          constructor
          · intro hsel
            have hin : r ∈ scan.flatten := by
              rw [hscan.mem_iff]
              rcases List.mem_append.1 (hk2.mem_iff.1 hr) with h | h
              · exact h
              · exact absurd (hsel p rfl) (hother r h)
            exact evalRow_selected fields assigns (some p) r (g r) hn ha (hw r hr) hsel (h2 r hin)
          · intro hsel
            apply hid r hr
            intro hpr
            apply hsel
            intro p' hp'
            cases hp'
            exact hpr

/-- **C25**: an UPDATE fails (before committing anything) only if an assigned expression cannot be
evaluated on a row that satisfies the predicate; errors on other rows cannot occur. -/
theorem C25_fails_only_on_qualifying (max : Nat) (hm : 0 < max) (fields : List String) (assigns : List (String × SExpr κ))
    (sel : Option (Pred κ)) (s : Snapshot κ) (keep : List Bool) (scan : List (List (Row κ)))
    (hn : fields.Nodup) (hw : ∀ r ∈ scan.flatten, r.length = fields.length)
    (h : update max fields assigns sel s keep scan = none) :
    ∃ r ∈ scan.flatten, selects sel r ∧ ∃ f ∈ fields, ∃ e, (f, e) ∈ assigns ∧ e r = none := by
  have hev : evalBatches (projectExpressions (planExprs fields assigns) fields sel) scan = none := by
    cases sel <;>
    · simp only [update] at h
      split at h
      · cases h
      · split at h
        · next he => exact he
        · next batches _ =>
          obtain ⟨a, ea, _⟩ := addFiles_spec max hm batches
          rw [ea] at h
          cases h
  obtain ⟨r, hr, he⟩ := evalBatches_none _ _ hev
  refine ⟨r, hr, ?_⟩
  have hsel : selects sel r := by
    intro p hp
    subst hp
    refine Decidable.byContradiction (fun hpr => ?_)
    rw [evalRow_unselected fields assigns p r hn (hw r hr) hpr] at he
    cases he
  refine ⟨hsel, ?_⟩
  obtain ⟨e, hem, hee⟩ := evalRow_none _ _ he
  obtain ⟨i, hi⟩ := List.mem_iff_getElem?.1 hem
  obtain ⟨e0, f, g1, g2, rfl⟩ := projExprs_index _ _ _ _ _ hi
  refine ⟨f, List.mem_of_getElem? g2, ?_⟩
  have he0 : e0 r = none := by
    cases sel with
    | none => exact hee
    | some p => simp only [caseExpr, hsel p rfl, if_true] at hee; exact hee
  rw [planExprs_index fields assigns i e0 f g2 g1] at he0
  rcases Option.eq_none_or_eq_some (assigned assigns f) with h | ⟨e, h⟩
  · rw [h] at he0
    simp only [Option.getD_none] at he0
    rw [colAt_index fields r i f hn (hw r hr) g2] at he0
    have := (List.getElem?_eq_some_iff.1 g2).1
    rw [List.getElem?_eq_none_iff] at he0
    have := hw r hr
    omega
  · rw [h] at he0
    exact ⟨e, assigned_some _ _ _ h, he0⟩

/-- Example table: two columns, two files. -/
def exSnap : Snapshot (Option Int) :=
  [((1, 0), [[some 1, some 10], [some 2, none], [some 3, some 30]]), ((2, 0), [[some 7, some 70]])]

/-- `b > 5` with NULL semantics. -/
def exPred : Pred (Option Int) := fun r =>
  match r with
  | [_, some b] => some (decide (b > 5 ∧ b < 50))
  | _ => none

/-- `UPDATE t SET b = a + 1 WHERE b > 5 AND b < 50`; only the first file is kept. -/
example : update 2 ["a", "b"] [("b", fun r => (colAt ["a", "b"] r "a").map (fun v => v.map (· + 1)))] (some exPred)
    exSnap [true, false] [[[some 1, some 10], [some 2, none], [some 3, some 30]]] =
    some { adds := [[[some 1, some 2], [some 2, none]], [[some 3, some 4]]], removes := [(1, 0)] } := by
  simp [update, exSnap, exPred, keptFiles, evalBatches, evalRows, evalRow, projectExpressions, caseExpr, planExprs, assigned, colAt,
    addFiles, rechunk, fillAll, fill]

/-- The hypotheses of `C25_update_partial` hold for it. -/
example : SoundPrune exPred exSnap [true, false] ∧ (exSnap.map (·.1)).Nodup ∧
    ([[[some 1, some 10], [some 2, none], [some 3, some 30]]] : List (List (Row (Option Int)))).flatten.Perm
      (rowsOf (keptFiles exSnap [true, false])) := by
  refine ⟨⟨rfl, ?_⟩, by decide, by simp [rowsOf, keptFiles, exSnap]⟩
  simp [exSnap, exPred]

/-- **C25**: the assumption is needed.  If the scan of a kept file returns only the rows that match the
filter (which is all a filtered scan promises), the other rows of the file are lost. -/
theorem C25_needs_whole_files : ∃ c, update 2 ["a", "b"] [("a", fun _ => some (some 0))] (some exPred) exSnap [true, false]
      [[[some 1, some 10], [some 3, some 30]]] = some c ∧
    [some 2, none] ∈ rowsOf exSnap ∧ [some 2, none] ∉ rowsAfter exSnap c := by
  refine ⟨{ adds := [[[some 0, some 10], [some 0, some 30]]], removes := [(1, 0)] }, ?_, ?_, ?_⟩
  · simp [update, exSnap, exPred, keptFiles, evalBatches, evalRows, evalRow, projectExpressions, caseExpr, planExprs, assigned, colAt,
      addFiles, rechunk, fillAll, fill]
  · decide
  · decide

/-! ### C26 -/

/-- **C26**: exactly what DELETE does, for every layout, sound prune map, predicate and scan order (the scan returning
the rows of the kept files): the rows before are the rows after, the rows satisfying the predicate, and the rows of
kept files for which the predicate is NULL. -/
theorem C26_exact (max : Nat) (hm : 0 < max) (p : Pred κ) (s : Snapshot κ) (keep : List Bool) (scan : List (List (Row κ)))
    (hs : (s.map (·.1)).Nodup) (hp : SoundPrune p s keep) (hscan : scan.flatten.Perm (rowsOf (keptFiles s keep))) :
    ∃ c, delete max (some p) s keep scan = some c ∧
      (rowsOf s).Perm (rowsAfter s c ++ (rowsOf s).filter (fun r => p r == some true) ++
        (rowsOf (keptFiles s keep)).filter (fun r => p r == none)) := by
  obtain ⟨hlen, hsound⟩ := hp
  obtain ⟨hk1, hk2⟩ := kept_split keep s hlen hs
  generalize ho : rowsOf ((s.zip keep).filterMap (fun fk => if fk.2 then none else some fk.1)) = other at hk2
  have hother : ∀ r ∈ other, p r ≠ some true := by
    intro r hr
    rw [← ho] at hr
    simp only [rowsOf, List.mem_flatMap, List.mem_filterMap] at hr
    obtain ⟨f, ⟨⟨f', k⟩, hz, he⟩, hrf⟩ := hr
    cases k with
    | true => simp at he
    | false =>
      simp only [Bool.false_eq_true, if_false, Option.some.injEq] at he; subst he
      exact hsound _ hz rfl r hrf
  have hfo : other.filter (fun r => p r == some true) = [] := by
    rw [List.filter_eq_nil_iff]
    intro r hr
    simpa using hother r hr
  -- the rows of the kept files split three ways
  have h3 : ∀ l : List (Row κ), l.Perm (l.filter (fun r => p r == some false) ++ l.filter (fun r => p r == some true) ++
      l.filter (fun r => p r == none)) := by
    intro l
    induction l with
    | nil => simp
    | cons r l ih =>
      rcases hpr : p r with _ | (_ | _)
      · simp only [List.filter_cons, hpr, beq_iff_eq, reduceCtorEq, if_false, if_true, beq_self_eq_true]
        exact (ih.cons r).trans List.perm_middle.symm
      · simp only [List.filter_cons, hpr, beq_iff_eq, reduceCtorEq, if_false, if_true, Option.some.injEq, Bool.false_eq_true,
          Bool.true_eq_false, List.cons_append]
        exact ih.cons r
      · simp only [List.filter_cons, hpr, beq_iff_eq, reduceCtorEq, if_false, if_true, Option.some.injEq, Bool.false_eq_true,
          Bool.true_eq_false, List.cons_append, List.append_assoc]
        refine (ih.cons r).trans ?_
        rw [List.append_assoc]
        exact List.perm_middle.symm
  have hnot : ∀ l : List (Row κ), filterRows (notP p) l = l.filter (fun r => p r == some false) := by
    intro l
    apply List.filter_congr
    intro r _
    rcases hpr : p r with _ | (_ | _) <;> simp [notP, hpr]
  simp only [delete]
  split
  · next hempty =>
    have hnil : keptFiles s keep = [] := by simpa using hempty
    refine ⟨_, rfl, ?_⟩
    rw [hnil] at hk2 ⊢
    have hk2 : (rowsOf s).Perm other := hk2
    have hf : (rowsOf s).filter (fun r => p r == some true) = [] := by
      rw [List.filter_eq_nil_iff]
      intro r hr
      simpa using hother r (hk2.mem_iff.1 hr)
    rw [hf]
    have : s.filter (fun _ => true) = s := List.filter_eq_self.2 (by simp)
    simp [rowsAfter, rowsOf, this]
  · obtain ⟨a, ea, ef⟩ := addFiles_spec max hm (scan.map (filterRows (notP p)))
    refine ⟨_, by rw [ea]; rfl, ?_⟩
    simp only [rowsAfter]
    rw [hk1, ho, ef]
    have hfl : (scan.map (filterRows (notP p))).flatten = scan.flatten.filter (fun r => p r == some false) := by
      rw [List.filter_flatten]
      congr 1
      apply List.map_congr_left
      intro l _
      exact hnot l
    rw [hfl]
    have hft : ((rowsOf s).filter (fun r => p r == some true)).Perm
        ((rowsOf (keptFiles s keep)).filter (fun r => p r == some true)) := by
      have := hk2.filter (fun r => p r == some true)
      rwa [List.filter_append, hfo, List.append_nil] at this
    have hsf := hscan.filter (fun r => p r == some false)
    refine hk2.trans ?_
    refine ((h3 (rowsOf (keptFiles s keep))).append_right other).trans ?_
    refine List.perm_append_comm.trans ?_
    simp only [List.append_assoc]
    refine List.Perm.append_left other ?_
    refine List.Perm.append hsf.symm ?_
    exact List.Perm.append_right _ hft.symm

/-- **C26** (`_partial`: only if the predicate is not NULL on any row of the files it touches): DELETE
removes exactly the rows satisfying the predicate. -/
theorem C26_delete_partial (max : Nat) (hm : 0 < max) (p : Pred κ) (s : Snapshot κ) (keep : List Bool)
    (scan : List (List (Row κ))) (hs : (s.map (·.1)).Nodup) (hp : SoundPrune p s keep)
    (hscan : scan.flatten.Perm (rowsOf (keptFiles s keep))) (hnull : ∀ r ∈ rowsOf (keptFiles s keep), p r ≠ none) :
    ∃ c, delete max (some p) s keep scan = some c ∧
      (rowsAfter s c).Perm ((rowsOf s).filter (fun r => !(p r == some true))) := by
  obtain ⟨c, h1, h2⟩ := C26_exact max hm p s keep scan hs hp hscan
  refine ⟨c, h1, ?_⟩
  have hn : (rowsOf (keptFiles s keep)).filter (fun r => p r == none) = [] := by
    rw [List.filter_eq_nil_iff]
    intro r hr
    simpa using hnull r hr
  rw [hn, List.append_nil] at h2
  have hsplit := List.filter_append_perm (fun r => p r == some true) (rowsOf s)
  have h4 := (hsplit.trans h2).trans List.perm_append_comm
  exact ((List.perm_append_left_iff _).1 h4).symm

/-- **C26**: DELETE without a predicate removes all rows. -/
theorem C26_all (max : Nat) (s : Snapshot κ) (keep : List Bool) (scan : List (List (Row κ))) :
    ∃ c, delete max none s keep scan = some c ∧ rowsAfter s c = [] := by
  refine ⟨_, rfl, ?_⟩
  simp only [rowsAfter, filter_removed_all]
  simp [rowsOf]

/-- **C26 does not hold**: `DELETE FROM t WHERE b > 5 AND b < 50` also removes the row whose `b` is
NULL from the file it rewrites. -/
theorem C26_violated : ∃ c, delete 2 (some exPred) exSnap [true, false]
      [[[some 1, some 10], [some 2, none], [some 3, some 30]]] = some c ∧
    [some 2, none] ∈ rowsOf exSnap ∧ exPred [some 2, none] ≠ some true ∧ [some 2, none] ∉ rowsAfter exSnap c := by
  refine ⟨{ adds := [[]], removes := [(1, 0)] }, ?_, ?_, ?_, ?_⟩
  · simp [delete, exSnap, exPred, keptFiles, filterRows, notP, addFiles, rechunk, fillAll, fill]
  · decide
  · decide
  · decide

/-- The hypotheses of `C26_delete_partial` hold for a predicate that is never NULL. -/
example : SoundPrune (fun r : Row (Option Int) => some (r.head? == some (some 1))) exSnap [true, false] ∧
    (∀ r ∈ rowsOf (keptFiles exSnap [true, false]), (fun r : Row (Option Int) => some (r.head? == some (some 1))) r ≠ none) := by
  refine ⟨⟨rfl, ?_⟩, by simp⟩
  simp [exSnap]

/-! ### C29 -/

theorem live_append (log : List (List Action)) (as : List Action) :
    live (log ++ [as]) = as.foldl applyAction (live log) := by
  simp [live, List.foldl_append]

theorem foldl_adds (fs l : List FileName) : (fs.map Action.add).foldl applyAction l = l ++ fs := by
  induction fs generalizing l with
  | nil => simp
  | cons f fs ih => simp [applyAction, ih, List.append_assoc]

theorem foldl_removes (fs : List FileName) : ∀ l : List FileName,
    (fs.map Action.remove).foldl applyAction l = l.filter (fun f => !fs.contains f) := by
  induction fs with
  | nil => intro l; simp [List.filter_eq_self.2]
  | cons f fs ih =>
    intro l
    simp only [List.map_cons, List.foldl_cons, applyAction]
    rw [ih, List.filter_filter]
    apply List.filter_congr
    intro g _
    by_cases h : g = f
    · simp [h]
    · simp [h]

theorem uploadFiles_spec (uuid : Nat) (adds : List (List (Row κ))) : ∀ (i : Nat) (oks : List Bool)
    (o : FileName → Option (List (Row κ))),
    (∀ f, f.1 ≠ uuid → (uploadFiles uuid i adds oks o).1 f = o f) ∧
    (∀ j, j < i → (uploadFiles uuid i adds oks o).1 (uuid, j) = o (uuid, j)) ∧
    ((uploadFiles uuid i adds oks o).2 = true →
      ∀ (j : Nat) (rows : List (Row κ)), adds[j]? = some rows →
        (uploadFiles uuid i adds oks o).1 (uuid, i + j) = some rows) := by
  induction adds with
  | nil => intro i oks o; simp [uploadFiles]
  | cons rows rest ih =>
    intro i oks o
    simp only [uploadFiles]
    generalize ho : (if oks.headD true then (fun f => if f = (uuid, i) then some rows else o f) else o) = o'
    obtain ⟨h1, h2, h3⟩ := ih (i + 1) oks.tail o'
    have hof : ∀ f, f ≠ (uuid, i) → o' f = o f := by
      intro f hf
      rw [← ho]
      split
      · simp [hf]
      · rfl
    refine ⟨?_, ?_, ?_⟩
    · intro f hf
      rw [h1 f hf, hof]
      rintro rfl
      exact hf rfl
    · intro j hj
      rw [h2 j (by omega), hof]
      intro h
      have := (Prod.mk.inj h).2
      omega
    · intro hok j rows' hj
      simp only [Bool.and_eq_true] at hok
      cases j with
      | zero =>
        simp only [List.getElem?_cons_zero, Option.some.injEq] at hj
        subst hj
        refine (h2 i (by omega)).trans ?_
        rw [← ho, hok.1]
        simp
      | succ j =>
        simp only [List.getElem?_cons_succ] at hj
        have := h3 hok.2 j rows' hj
        rw [show i + (j + 1) = i + 1 + j from by omega]
        exact this

/-- The names of the files of a table are distinct and not of the given (fresh) UUID. -/
def Fresh (w : World κ) (uuid : Nat) : Prop := ∀ f ∈ live w.log, f.1 ≠ uuid

theorem snapshot_unchanged (w w' : World κ) (uuid : Nat) (hf : Fresh w uuid) (hlog : w'.log = w.log)
    (ho : ∀ f : FileName, f.1 ≠ uuid → w'.objects f = w.objects f) : snapshot w' = snapshot w := by
  simp only [snapshot, hlog]
  apply List.map_congr_left
  intro f hm
  rw [ho f (hf f hm)]

/-- **C29**: if an upload or the commit fails, the statement reports an error and the visible table is exactly what it was. -/
theorem C29_failure_invisible (w : World κ) (uuid : Nat) (c : Commit κ) (oks : List Bool) (commitOk recordOk : Bool)
    (hf : Fresh w uuid) (h : commitOk = false ∨ ∃ i, i < c.adds.length ∧ oks[i]? = some false) :
    (execute w uuid c oks commitOk recordOk).2 = false ∧
    snapshot (execute w uuid c oks commitOk recordOk).1 = snapshot w := by
  have hu := uploadFiles_spec uuid c.adds 0 oks w.objects
  have hfail : ∀ (adds : List (List (Row κ))) (i : Nat) (oks : List Bool) (o : FileName → Option (List (Row κ))),
      (∃ i, i < adds.length ∧ oks[i]? = some false) → (uploadFiles uuid i adds oks o).2 = false := by
    intro adds
    induction adds with
    | nil => rintro i oks o ⟨j, hj, _⟩; simp at hj
    | cons rows rest ih =>
      rintro i oks o ⟨j, hj, hk⟩
      simp only [uploadFiles]
      cases j with
      | zero =>
        cases oks with
        | nil => simp at hk
        | cons b bs => simp only [List.getElem?_cons_zero, Option.some.injEq] at hk; simp [hk]
      | succ j =>
        cases oks with
        | nil => simp at hk
        | cons b bs =>
          rw [Bool.and_eq_false_iff]
          right
          apply ih
          exact ⟨j, by simpa using hj, by simpa using hk⟩
  have key : (uploadFiles uuid 0 c.adds oks w.objects).2 = false ∨ commitOk = false := by
    rcases h with h | h
    · exact Or.inr h
    · exact Or.inl (hfail c.adds 0 oks w.objects h)
  have hres : execute w uuid c oks commitOk recordOk =
      ({ w with objects := (uploadFiles uuid 0 c.adds oks w.objects).1 }, false) := by
    simp only [execute]
    cases hb : (uploadFiles uuid 0 c.adds oks w.objects).2 with
    | false => simp
    | true =>
      have : commitOk = false := by
        rcases key with k | k
        · rw [hb] at k; cases k
        · exact k
      simp [this]
  rw [hres]
  refine ⟨rfl, ?_⟩
  exact snapshot_unchanged w _ uuid hf rfl (fun f hne => hu.1 f hne)

/-- **C29**: if all uploads and the commit succeed, the visible table is exactly the one described by the
commit, whether or not the catalog record is written. -/
theorem C29_commit_visible (w : World κ) (uuid : Nat) (c : Commit κ) (commitOk recordOk : Bool) (oks : List Bool)
    (hf : Fresh w uuid) (hr : ∀ f ∈ c.removes, f ∈ live w.log) (hc : commitOk = true)
    (hu : (uploadFiles uuid 0 c.adds oks w.objects).2 = true) :
    (execute w uuid c oks commitOk recordOk).2 = recordOk ∧
    snapshot (execute w uuid c oks commitOk recordOk).1 =
      (snapshot w).filter (fun f => !c.removes.contains f.1) ++
        c.adds.mapIdx (fun i rows => ((uuid, i), rows)) ∧
    rowsOf (snapshot (execute w uuid c oks commitOk recordOk).1) = rowsAfter (snapshot w) c := by
  have hs := uploadFiles_spec uuid c.adds 0 oks w.objects
  let w2 : World κ := { w with
    objects := (uploadFiles uuid 0 c.adds oks w.objects).1
    log := w.log ++ [(List.range c.adds.length).map (fun i => Action.add (uuid, i)) ++ c.removes.map Action.remove] }
  have hres : (execute w uuid c oks commitOk recordOk).2 = recordOk ∧
      (execute w uuid c oks commitOk recordOk).1.log = w2.log ∧
      (execute w uuid c oks commitOk recordOk).1.objects = w2.objects := by
    simp only [execute, hu, hc]
    cases recordOk <;> simp [w2]
  have hlive : live w2.log = (live w.log).filter (fun f => !c.removes.contains f) ++
      (List.range c.adds.length).map (fun i => (uuid, i)) := by
    simp only [w2, live_append, List.foldl_append]
    have : (List.range c.adds.length).map (fun i => Action.add (uuid, i)) =
        ((List.range c.adds.length).map (fun i => (uuid, i))).map Action.add := by simp [List.map_map]
    rw [this, foldl_adds, foldl_removes, List.filter_append]
    congr 1
    rw [List.filter_eq_self]
    intro f hm
    obtain ⟨i, _, rfl⟩ := List.mem_map.1 hm
    simp only [Bool.not_eq_true']
    rw [List.contains_eq_mem]
    simp only [decide_eq_false_iff_not]
    intro h
    exact hf _ (hr _ h) rfl
  have hsnap : snapshot (execute w uuid c oks commitOk recordOk).1 =
      (snapshot w).filter (fun f => !c.removes.contains f.1) ++
        c.adds.mapIdx (fun i rows => ((uuid, i), rows)) := by
    simp only [snapshot, hres.2.1, hres.2.2, hlive, List.map_append]
    congr 1
    · rw [List.filter_map]
      apply List.map_congr_left
      intro f hm
      have hm' := (List.mem_filter.1 hm).1
      rw [show w2.objects f = w.objects f from hs.1 f (hf f hm')]
    · apply List.ext_getElem?
      intro i
      simp only [List.map_map, List.getElem?_map, List.getElem?_mapIdx]
      by_cases hi : i < c.adds.length
      · rw [List.getElem?_range hi, List.getElem?_eq_getElem hi]
        have := hs.2.2 hu i _ (List.getElem?_eq_getElem hi)
        rw [Nat.zero_add] at this
        simp [w2, this]
      · rw [List.getElem?_eq_none (by simpa using hi), List.getElem?_eq_none (by omega)]
        rfl
  refine ⟨hres.1, hsnap, ?_⟩
  rw [hsnap]
  simp only [rowsAfter, rowsOf, List.flatMap_append]
  congr 1
  rw [List.flatMap_def]
  congr 1
  apply List.ext_getElem?
  intro i
  simp only [List.getElem?_map, List.getElem?_mapIdx, Option.map_map]
  cases c.adds[i]? <;> rfl

/-- **C29**: a statement that succeeds appends exactly one version to the log, and the version number that
is recorded in the catalog is the number of that version; a failed statement records nothing, and changes
the log only by that one version. -/
theorem C29_recorded (w : World κ) (uuid : Nat) (c : Commit κ) (oks : List Bool) (commitOk recordOk : Bool) :
    (∀ w', execute w uuid c oks commitOk recordOk = (w', true) →
      ∃ actions, w'.log = w.log ++ [actions] ∧ ∃ v, w'.recorded = w.recorded ++ [v] ∧
        v + 1 = w'.log.length ∧ w'.log[v]? = some actions) ∧
    (∀ w', execute w uuid c oks commitOk recordOk = (w', false) →
      w'.recorded = w.recorded ∧ (w'.log = w.log ∨ ∃ actions, w'.log = w.log ++ [actions])) := by
  refine ⟨?_, ?_⟩
  · intro w' h
    simp only [execute] at h
    split at h
    · cases h
    · split at h
      · cases h
      · split at h
        · cases h
        · injection h with h1 h2
          subst h1
          exact ⟨_, rfl, w.log.length, by simp, by simp, by simp⟩
  · intro w' h
    simp only [execute] at h
    split at h
    · injection h with h1 h2
      subst h1
      exact ⟨rfl, Or.inl rfl⟩
    · split at h
      · injection h with h1 h2
        subst h1
        exact ⟨rfl, Or.inl rfl⟩
      · split at h
        · injection h with h1 h2
          subst h1
          exact ⟨rfl, Or.inr ⟨_, rfl⟩⟩
        · cases h

/-- **C29**: the files of a table always have distinct names, and the names used by statements run so far;
with fresh UUIDs the hypotheses of the theorems above hold after any sequence of statements. -/
theorem C29_distinct (w : World κ) (uuid : Nat) (c : Commit κ) (oks : List Bool) (commitOk recordOk : Bool)
    (hd : (live w.log).Nodup) (hf : Fresh w uuid) :
    (live (execute w uuid c oks commitOk recordOk).1.log).Nodup ∧
    ∀ f ∈ live (execute w uuid c oks commitOk recordOk).1.log, f ∈ live w.log ∨ f.1 = uuid := by
  have hlog : (execute w uuid c oks commitOk recordOk).1.log = w.log ∨
      (execute w uuid c oks commitOk recordOk).1.log =
        w.log ++ [(List.range c.adds.length).map (fun i => Action.add (uuid, i)) ++ c.removes.map Action.remove] := by
    simp only [execute]
    split
    · exact Or.inl rfl
    · split
      · exact Or.inl rfl
      · split
        · exact Or.inr rfl
        · exact Or.inr rfl
  rcases hlog with e | e
  · rw [e]; exact ⟨hd, fun f h => Or.inl h⟩
  · rw [e, live_append, List.foldl_append]
    have : (List.range c.adds.length).map (fun i => Action.add (uuid, i)) =
        ((List.range c.adds.length).map (fun i => (uuid, i))).map Action.add := by simp [List.map_map]
    rw [this, foldl_adds, foldl_removes]
    constructor
    · apply List.Pairwise.sublist List.filter_sublist
      rw [List.pairwise_append]
      refine ⟨hd, ?_, ?_⟩
      · rw [List.pairwise_map]
        refine List.nodup_range.imp ?_
        intro a b hab h
        exact hab (Prod.mk.inj h).2
      · intro f hm g hg h
        obtain ⟨i, _, rfl⟩ := List.mem_map.1 hg
        exact hf f hm (by rw [h])
    · intro f hm
      rcases List.mem_append.1 (List.mem_filter.1 hm).1 with h | h
      · exact Or.inl h
      · obtain ⟨i, _, rfl⟩ := List.mem_map.1 h
        exact Or.inr rfl

/-- Example: a table with one file. -/
def exWorld : World (Option Int) :=
  { objects := fun f => if f = (1, 0) then some [[some 1], [some 2]] else none
    log := [[.add (1, 0)]], recorded := [0] }

/-- The second upload of a statement fails: an orphaned object, but the table is unchanged. -/
example : (execute exWorld 5 { adds := [[[some 3]], [[some 4]]], removes := [(1, 0)] } [true, false] true true).2 = false ∧
    rowsOf (snapshot (execute exWorld 5 { adds := [[[some 3]], [[some 4]]], removes := [(1, 0)] } [true, false] true true).1) =
      [[some 1], [some 2]] := by decide

/-- All steps succeed. -/
example : (execute exWorld 5 { adds := [[[some 3]], [[some 4]]], removes := [(1, 0)] } [] true true).2 = true ∧
    rowsOf (snapshot (execute exWorld 5 { adds := [[[some 3]], [[some 4]]], removes := [(1, 0)] } [] true true).1) =
      [[some 3], [some 4]] := by decide

/-- **C29**, remark: a statement that reports an error may nevertheless have taken effect, namely if only
recording the new version in the catalog fails. -/
theorem C29_error_after_commit : ∃ (w : World (Option Int)) (c : Commit (Option Int)), Fresh w 5 ∧
    (execute w 5 c [] true false).2 = false ∧ snapshot (execute w 5 c [] true false).1 ≠ snapshot w := by
  refine ⟨exWorld, { adds := [[[some 3]]], removes := [] }, ?_, by decide, by decide⟩
  intro f hf
  have : f ∈ [((1, 0) : FileName)] := hf
  simp only [List.mem_singleton] at this
  subst this
  decide

/-- **C25** end to end: a successful UPDATE statement. -/
theorem C25_statement_partial (max : Nat) (hm : 0 < max) (fields : List String) (assigns : List (String × SExpr κ))
    (sel : Option (Pred κ)) (w : World κ) (uuid : Nat) (keep : List Bool) (scan : List (List (Row κ))) (c : Commit κ)
    (oks : List Bool) (recordOk : Bool)
    (hd : (live w.log).Nodup) (hf : Fresh w uuid) (hu : (uploadFiles uuid 0 c.adds oks w.objects).2 = true)
    (hn : fields.Nodup) (ha : (assigns.map (·.1)).Nodup)
    (hw : ∀ r ∈ rowsOf (snapshot w), r.length = fields.length)
    (hp : ∀ p, sel = some p → SoundPrune p (snapshot w) keep ∧
      scan.flatten.Perm (rowsOf (keptFiles (snapshot w) keep)))
    (hp' : sel = none → scan.flatten.Perm (rowsOf (snapshot w)))
    (h : update max fields assigns sel (snapshot w) keep scan = some c) :
    ∃ g : Row κ → Row κ,
      (rowsOf (snapshot (execute w uuid c oks true recordOk).1)).Perm ((rowsOf (snapshot w)).map g) ∧
      ∀ r ∈ rowsOf (snapshot w), (selects sel r → SetTo fields assigns r (g r)) ∧ (¬ selects sel r → g r = r) := by
  have hnames : (snapshot w).map (·.1) = live w.log := by simp [snapshot, List.map_map, Function.comp_def]
  have hrem : ∀ f ∈ c.removes, f ∈ live w.log := by
    have hk : ∀ f ∈ (keptFiles (snapshot w) keep).map (·.1), f ∈ live w.log := by
      intro f hm
      obtain ⟨g, hg, rfl⟩ := List.mem_map.1 hm
      rw [← hnames]
      exact List.mem_map_of_mem (List.of_mem_zip ((mem_keptFiles _ _ g).1 hg)).1
    intro f hm
    cases sel <;>
    · simp only [update] at h
      split at h
      · cases h; simp at hm
      · split at h
        · cases h
        · next batches _ =>
          obtain ⟨a, ea, _⟩ := addFiles_spec max (by assumption) batches
          rw [ea] at h
          simp only [Option.map_some, Option.some.injEq] at h
          subst h
          first
            | exact hk f hm
            | (rw [← hnames]; exact hm)
  obtain ⟨g, h1, h2⟩ := C25_update_partial max hm fields assigns sel (snapshot w) keep scan c hn ha (hnames ▸ hd) hw hp hp' h
  refine ⟨g, ?_, h2⟩
  rw [(C29_commit_visible w uuid c true recordOk oks hf hrem rfl hu).2.2]
  exact h1

/-- INSERT appends exactly the rows of its source. -/
theorem C29_insert (max : Nat) (hm : 0 < max) (batches : List (List (Row κ))) (w : World κ) (uuid : Nat)
    (oks : List Bool) (recordOk : Bool) (hf : Fresh w uuid) :
    ∃ c, insert max batches = some c ∧
      ((uploadFiles uuid 0 c.adds oks w.objects).2 = true →
        rowsOf (snapshot (execute w uuid c oks true recordOk).1) = rowsOf (snapshot w) ++ batches.flatten) := by
  obtain ⟨a, ea, ef⟩ := addFiles_spec max hm batches
  refine ⟨{ adds := a, removes := [] }, by simp [insert, ea], ?_⟩
  intro hu
  rw [(C29_commit_visible w uuid _ true recordOk oks hf (by simp) rfl hu).2.2]
  have : (snapshot w).filter (fun _ => true) = snapshot w := List.filter_eq_self.2 (by simp)
  simp [rowsAfter, ef, this]

end Seafowl.Dml
