import Verif.Sync.Schema
import Verif.Sync.PruneProps

/-!
# Schema checks (C19, C20, C62) and temporary rows (C21)
-/

namespace Seafowl.Sync

/-! ### C19 -/

/-- A row of the column list: a descriptor with its field. -/
abbrev ColIn := RawDesc × Field

/-- The key columns with a role code, as names with types. -/
def HasKey (cs : List ColIn) (code : Int) (k : String × DType) : Prop :=
  ∃ p ∈ cs, p.1.role = code ∧ p.1.name = k.1 ∧ p.2.ty = k.2

/-- What the validation demands of the columns `cs` when all descriptors are `ds`. -/
structure ColsValid (ds : List RawDesc) (cs : List ColIn) : Prop where
  known : ∀ p ∈ cs, p.1.role = 0 ∨ p.1.role = 1 ∨ p.1.role = 2 ∨ p.1.role = 3
  changedBool : ∀ p ∈ cs, p.1.role = 2 → p.2.ty = .boolean
  changedValue : ∀ p ∈ cs, p.1.role = 2 → ∃ d ∈ ds, d.role = 3 ∧ d.name = p.1.name

/-- The demand on the key columns. -/
structure KeysValid (cs : List ColIn) : Prop where
  exist : ∃ k, HasKey cs 0 k
  same : ∀ k, HasKey cs 0 k ↔ HasKey cs 1 k

theorem roleOf_spec (n : Int) :
    (roleOf n = some .oldPk ↔ n = 0) ∧ (roleOf n = some .newPk ↔ n = 1) ∧ (roleOf n = some .changed ↔ n = 2) ∧
    (roleOf n = some .value ↔ n = 3) ∧ (roleOf n = none ↔ ¬ (n = 0 ∨ n = 1 ∨ n = 2 ∨ n = 3)) := by
  simp only [roleOf]
  split
  · next h => subst h; simp
  · split
    · next h => subst h; simp
    · split
      · next h => subst h; simp
      · split
        · next h => subst h; simp
        · next h0 h1 h2 h3 => simp [h0, h1, h2, h3]

theorem checkCols_spec (ds : List RawDesc) : ∀ (cs : List ColIn) (a : PkSets),
    ((∃ b, checkCols ds cs a = .ok b) ↔ ColsValid ds cs) ∧
    (∀ b, checkCols ds cs a = .ok b → ∀ k,
      (k ∈ b.old ↔ k ∈ a.old ∨ HasKey cs 0 k) ∧ (k ∈ b.new ↔ k ∈ a.new ∨ HasKey cs 1 k)) := by
  intro cs
  induction cs with
  | nil =>
    intro a
    refine ⟨⟨fun _ => ⟨by simp, by simp, by simp⟩, fun _ => ⟨a, rfl⟩⟩, ?_⟩
    intro b hb k
    simp only [checkCols, Except.ok.injEq] at hb
    subst hb
    simp [HasKey]
  | cons p rest ih =>
    intro a
    obtain ⟨d, f⟩ := p
    obtain ⟨s0, s1, s2, s3, s4⟩ := roleOf_spec d.role
    have hcons : ∀ (code : Int) (k : String × DType), HasKey ((d, f) :: rest) code k ↔
        (d.role = code ∧ d.name = k.1 ∧ f.ty = k.2) ∨ HasKey rest code k := by
      intro code k; simp [HasKey]
    have hvalid : (d.role = 0 ∨ d.role = 1 ∨ d.role = 3) →
        (ColsValid ds ((d, f) :: rest) ↔ ColsValid ds rest) := by
      intro hr
      constructor
      · intro h
        exact ⟨fun p hp => h.known p (by simp [hp]), fun p hp => h.changedBool p (by simp [hp]),
          fun p hp => h.changedValue p (by simp [hp])⟩
      · intro h
        refine ⟨?_, ?_, ?_⟩
        · intro p hp
          rcases List.mem_cons.1 hp with rfl | hp
          · simp only; omega
          · exact h.known p hp
        · intro p hp h2
          rcases List.mem_cons.1 hp with rfl | hp
          · simp only at h2; omega
          · exact h.changedBool p hp h2
        · intro p hp h2
          rcases List.mem_cons.1 hp with rfl | hp
          · simp only at h2; omega
          · exact h.changedValue p hp h2
    cases hro : roleOf d.role with
    | none =>
      simp only [checkCols, hro]
      refine ⟨⟨?_, ?_⟩, ?_⟩
      · rintro ⟨b, hb⟩; cases hb
      · intro h
        have := h.known (d, f) (by simp)
        exact absurd this (s4.1 hro)
      · intro b hb; cases hb
    | some role =>
      cases role with
      | oldPk =>
        have hd := s0.1 hro
        simp only [checkCols, hro]
        obtain ⟨h1, h2⟩ := ih { a with old := (d.name, f.ty) :: a.old }
        refine ⟨h1.trans (hvalid (Or.inl hd)).symm, ?_⟩
        intro b hb k
        obtain ⟨h3, h4⟩ := h2 b hb k
        rw [h3, h4, hcons, hcons]
        simp only [List.mem_cons, hd]
        constructor
        · constructor
          · rintro ((rfl | h) | h)
            · exact Or.inr (Or.inl ⟨trivial, rfl, rfl⟩)
            · exact Or.inl h
            · exact Or.inr (Or.inr h)
          · rintro (h | ⟨_, h5, h6⟩ | h)
            · exact Or.inl (Or.inr h)
            · exact Or.inl (Or.inl (by rw [h5, h6]))
            · exact Or.inr h
        · simp
      | newPk =>
        have hd := s1.1 hro
        simp only [checkCols, hro]
        obtain ⟨h1, h2⟩ := ih { a with new := (d.name, f.ty) :: a.new }
        refine ⟨h1.trans (hvalid (Or.inr (Or.inl hd))).symm, ?_⟩
        intro b hb k
        obtain ⟨h3, h4⟩ := h2 b hb k
        rw [h3, h4, hcons, hcons]
        simp only [List.mem_cons, hd]
        constructor
        · simp
        · constructor
          · rintro ((rfl | h) | h)
            · exact Or.inr (Or.inl ⟨trivial, rfl, rfl⟩)
            · exact Or.inl h
            · exact Or.inr (Or.inr h)
          · rintro (h | ⟨_, h5, h6⟩ | h)
            · exact Or.inl (Or.inr h)
            · exact Or.inl (Or.inl (by rw [h5, h6]))
            · exact Or.inr h
      | value =>
        have hd := s3.1 hro
        simp only [checkCols, hro]
        obtain ⟨h1, h2⟩ := ih a
        refine ⟨h1.trans (hvalid (Or.inr (Or.inr hd))).symm, ?_⟩
        intro b hb k
        obtain ⟨h3, h4⟩ := h2 b hb k
        rw [h3, h4, hcons, hcons]
        simp [hd]
      | changed =>
        have hd := s2.1 hro
        simp only [checkCols, hro]
        by_cases hb : f.ty = .boolean
        · have hany : ds.any (fun o => decide (d.name = o.name) && decide (o.role = valueCode)) = true ↔
              ∃ o ∈ ds, o.role = 3 ∧ o.name = d.name := by
            rw [List.any_eq_true]
            constructor
            · rintro ⟨o, ho, h⟩
              rw [Bool.and_eq_true] at h
              exact ⟨o, ho, of_decide_eq_true h.2, (of_decide_eq_true h.1).symm⟩
            · rintro ⟨o, ho, h1, h2⟩
              exact ⟨o, ho, by simp [valueCode, h1, h2]⟩
          by_cases hv : ∃ o ∈ ds, o.role = 3 ∧ o.name = d.name
          · rw [if_neg (by simp [hb]), if_neg (by rw [hany.2 hv]; simp)]
            obtain ⟨h1, h2⟩ := ih a
            constructor
            · refine h1.trans ⟨?_, ?_⟩
              · intro h
                refine ⟨?_, ?_, ?_⟩
                · intro p hp
                  rcases List.mem_cons.1 hp with rfl | hp
                  · simp only; omega
                  · exact h.known p hp
                · intro p hp hp2
                  rcases List.mem_cons.1 hp with rfl | hp
                  · exact hb
                  · exact h.changedBool p hp hp2
                · intro p hp hp2
                  rcases List.mem_cons.1 hp with rfl | hp
                  · exact hv
                  · exact h.changedValue p hp hp2
              · intro h
                exact ⟨fun p hp => h.known p (by simp [hp]), fun p hp => h.changedBool p (by simp [hp]),
                  fun p hp => h.changedValue p (by simp [hp])⟩
            · intro b hb k
              obtain ⟨h3, h4⟩ := h2 b hb k
              rw [h3, h4, hcons, hcons]
              simp [hd]
          · rw [if_neg (by simp [hb]), if_pos (by
              cases h : ds.any (fun o => decide (d.name = o.name) && decide (o.role = valueCode)) with
              | true => exact absurd (hany.1 h) hv
              | false => rfl)]
            refine ⟨⟨?_, ?_⟩, ?_⟩
            · rintro ⟨b, hb⟩; cases hb
            · intro h; exact absurd (h.changedValue (d, f) (by simp) hd) hv
            · intro b hb; cases hb
        · rw [if_pos hb]
          refine ⟨⟨?_, ?_⟩, ?_⟩
          · rintro ⟨b, hb⟩; cases hb
          · intro h; exact absurd (h.changedBool (d, f) (by simp) hd) hb
          · intro b hb; cases hb

theorem sameSet_iff {a b : List (String × DType)} : sameSet a b = true ↔ ∀ k, k ∈ a ↔ k ∈ b := by
  simp only [sameSet, Bool.and_eq_true, List.all_eq_true, List.contains_eq_mem, decide_eq_true_eq]
  exact ⟨fun h k => ⟨h.1 k, h.2 k⟩, fun h => ⟨fun k => (h k).1, fun k => (h k).2⟩⟩

/-- **C19**, general form: what exactly is accepted, for any fields.  The number of descriptors is
compared with the number of fields including nested ones, the checks apply to the descriptors zipped
with the top-level fields. -/
theorem C19_accepted_general (ds : List RawDesc) (fs : List Field) :
    (∃ cols, tryNew ds fs true = .ok cols) ↔
      ds.length = flatLen fs ∧ ColsValid ds (ds.zip fs) ∧ KeysValid (ds.zip fs) := by
  obtain ⟨h1, h2⟩ := checkCols_spec ds (ds.zip fs) { old := [], new := [] }
  simp only [tryNew]
  by_cases hl : ds.length = flatLen fs
  · rw [if_neg (by simp [hl])]
    cases hc : checkCols ds (ds.zip fs) { old := [], new := [] } with
    | error e =>
      simp only
      constructor
      · rintro ⟨c, h⟩; cases h
      · rintro ⟨_, h, _⟩
        obtain ⟨b, hb⟩ := h1.2 h
        rw [hc] at hb; cases hb
    | ok b =>
      have hv := h1.1 ⟨b, hc⟩
      have hk := h2 b hc
      simp only [List.not_mem_nil, false_or] at hk
      simp only [Bool.true_and]
      constructor
      · rintro ⟨c, h⟩
        split at h
        · cases h
        · next he =>
          split at h
          · cases h
          · next hs =>
            simp only [Bool.not_eq_true', Bool.not_eq_false] at hs
            rw [sameSet_iff] at hs
            refine ⟨hl, hv, ?_, ?_⟩
            · simp only [Bool.or_eq_true, List.isEmpty_iff, not_or] at he
              obtain ⟨k, hkm⟩ := List.exists_mem_of_ne_nil _ he.1
              exact ⟨k, (hk k).1.1 hkm⟩
            · intro k; rw [← (hk k).1, ← (hk k).2]; exact hs k
      · rintro ⟨_, _, ⟨k0, hk0⟩, hsame⟩
        have h3 : b.old ≠ [] := by intro h; have := (hk k0).1.2 hk0; rw [h] at this; cases this
        have h4 : b.new ≠ [] := by
          intro h; have := (hk k0).2.2 ((hsame k0).1 hk0); rw [h] at this; cases this
        rw [if_neg (by simp [List.isEmpty_iff, h3, h4])]
        have h5 : sameSet b.old b.new = true := by
          rw [sameSet_iff]; intro k; rw [(hk k).1, (hk k).2]; exact hsame k
        rw [if_neg (by simp [h5])]
        exact ⟨_, rfl⟩
  · rw [if_pos hl]
    constructor
    · rintro ⟨c, h⟩; cases h
    · rintro ⟨h, _⟩; exact absurd h hl

theorem flatLen_flat {fs : List Field} (h : ∀ f ∈ fs, f.nested = 0) : flatLen fs = fs.length := by
  induction fs with
  | nil => rfl
  | cons f fs ih =>
    have h1 := h f (by simp)
    have h2 := ih (fun g hg => h g (by simp [hg]))
    simp only [flatLen, List.map_cons, List.sum_cons, List.length_cons] at h2 ⊢
    omega

/-- **C19** for fields without nested fields: a sync schema is accepted iff there are as many
descriptors as fields, every role is known, each Changed column is boolean and names an existing Value
column, and the old and the new key columns are the same non-empty set of (name, type). -/
theorem C19_accepted_exact_partial (ds : List RawDesc) (fs : List Field) (hflat : ∀ f ∈ fs, f.nested = 0) :
    (∃ cols, tryNew ds fs true = .ok cols) ↔
      ds.length = fs.length ∧ ColsValid ds (ds.zip fs) ∧ KeysValid (ds.zip fs) := by
  rw [C19_accepted_general, flatLen_flat hflat]

/-- **C19**: the columns of an accepted schema are the descriptors with their fields, in order. -/
theorem C19_columns (ds : List RawDesc) (fs : List Field) (cols : List SyncCol) (h : tryNew ds fs true = .ok cols)
    (i : Nat) (c : SyncCol) (hc : cols[i]? = some c) :
    ∃ d, ds[i]? = some d ∧ fs[i]? = some c.field ∧ c.name = d.name ∧
      d.role = (match c.role with | .oldPk => 0 | .newPk => 1 | .changed => 2 | .value => 3) := by
  have hv := ((C19_accepted_general ds fs).1 ⟨cols, h⟩).2.1
  have hcols : cols = mkCols ds fs := by
    simp only [tryNew] at h
    split at h
    · cases h
    · split at h
      · cases h
      · split at h
        · cases h
        · split at h
          · cases h
          · injection h with h; exact h.symm
  subst hcols
  simp only [mkCols, List.getElem?_map] at hc
  cases hz : (ds.zip fs)[i]? with
  | none => rw [hz] at hc; cases hc
  | some p =>
    rw [hz] at hc
    simp only [Option.map_some, Option.some.injEq] at hc
    obtain ⟨h1, h2⟩ := List.getElem?_zip_eq_some.1 hz
    refine ⟨p.1, h1, ?_, ?_, ?_⟩
    · rw [← hc]; exact h2
    · rw [← hc]
    · obtain ⟨s0, s1, s2, s3, _⟩ := roleOf_spec p.1.role
      rcases hv.known p (List.mem_of_getElem? hz) with h3 | h3 | h3 | h3
      · rw [← hc]; simp only [s0.2 h3, Option.getD_some]; exact h3
      · rw [← hc]; simp only [s1.2 h3, Option.getD_some]; exact h3
      · rw [← hc]; simp only [s2.2 h3, Option.getD_some]; exact h3
      · rw [← hc]; simp only [s3.2 h3, Option.getD_some]; exact h3

/-- **C19**, `with_fields`: replacing the fields is accepted iff there is one field per column with the
same type, and changes nothing but the fields. -/
theorem C19_with_fields (cols : List SyncCol) (fs : List Field) :
    ((∃ out, withFields cols fs = .ok out) ↔ fs.map (·.ty) = cols.map (·.field.ty)) ∧
    (∀ out, withFields cols fs = .ok out → out.map (·.field) = fs ∧
      out.map (fun c => (c.role, c.name)) = cols.map (fun c => (c.role, c.name))) := by
  have h1 : ∀ (cols : List SyncCol) (fs : List Field), fs.length = cols.length →
      (((cols.zip fs).all (fun p => decide (p.1.field.ty = p.2.ty)) = true ↔ fs.map (·.ty) = cols.map (·.field.ty)) ∧
      ((cols.zip fs).map (fun p => ({ p.1 with field := p.2 } : SyncCol))).map (·.field) = fs ∧
      ((cols.zip fs).map (fun p => ({ p.1 with field := p.2 } : SyncCol))).map (fun c => (c.role, c.name)) =
        cols.map (fun c => (c.role, c.name))) := by
    intro cols
    induction cols with
    | nil => intro fs hl; cases fs <;> simp at hl ⊢
    | cons c cols ih =>
      intro fs hl
      cases fs with
      | nil => simp at hl
      | cons f fs =>
        obtain ⟨a, b, d⟩ := ih fs (by simpa using hl)
        simp only [List.zip_cons_cons, List.all_cons, List.map_cons, Bool.and_eq_true, decide_eq_true_eq, a, b, d,
          List.cons.injEq, and_true]
        exact ⟨fun h => ⟨h.1.symm, h.2⟩, fun h => ⟨h.1.symm, h.2⟩⟩
  simp only [withFields]
  by_cases hl : fs.length = cols.length
  · obtain ⟨a, b, d⟩ := h1 cols fs hl
    rw [if_neg (by simp [hl])]
    constructor
    · rw [← a]
      split
      · next h => exact ⟨fun _ => h, fun _ => ⟨_, rfl⟩⟩
      · next h => exact ⟨fun ⟨_, h'⟩ => (by cases h'), fun h' => absurd h' h⟩
    · intro out h
      split at h
      · injection h with h; subst h; exact ⟨b, d⟩
      · cases h
  · rw [if_pos hl]
    refine ⟨⟨fun ⟨_, h⟩ => (by cases h), fun h => ?_⟩, fun out h => (by cases h)⟩
    have := congrArg List.length h
    simp at this
    exact absurd this hl

/-- **C19**, `column`: a lookup by role and name finds a column with that role and name if there is one,
namely the last one (so the only one if there are no duplicates). -/
theorem C19_column (cols : List SyncCol) (role : Role) (name : String) :
    (findCol cols role name = none ↔ ∀ c ∈ cols, ¬ (c.role = role ∧ c.name = name)) ∧
    (∀ c, findCol cols role name = some c ↔ ∃ pre post, cols = pre ++ c :: post ∧ c.role = role ∧ c.name = name ∧
      ∀ c' ∈ post, ¬ (c'.role = role ∧ c'.name = name)) := by
  constructor
  · simp [findCol, List.find?_eq_none]
  · intro c
    simp only [findCol, List.find?_eq_some_iff_append, Bool.and_eq_true, decide_eq_true_eq]
    constructor
    · rintro ⟨⟨h1, h2⟩, as, bs, h3, h4⟩
      refine ⟨bs.reverse, as.reverse, ?_, h1, h2, ?_⟩
      · have := congrArg List.reverse h3
        simpa using this
      · intro c' hc' h
        have := h4 c' (by simpa using hc')
        simp [h.1, h.2] at this
    · rintro ⟨pre, post, h1, h2, h3, h4⟩
      refine ⟨⟨h2, h3⟩, post.reverse, pre.reverse, by simp [h1], ?_⟩
      intro c' hc'
      have := h4 c' (by simpa using hc')
      by_cases hr : c'.role = role
      · have hn : c'.name ≠ name := fun hn => this ⟨hr, hn⟩
        simp [hn]
      · simp [hr]

example : findCol [⟨.oldPk, "a", ⟨"x", .boolean, 0⟩⟩, ⟨.newPk, "a", ⟨"y", .boolean, 0⟩⟩, ⟨.newPk, "a", ⟨"z", .boolean, 0⟩⟩]
    .newPk "a" = some ⟨.newPk, "a", ⟨"z", .boolean, 0⟩⟩ := by decide

/-- A valid schema: two key columns in different order, a value and its flag. -/
example : ∃ cols, tryNew [⟨0, "a"⟩, ⟨0, "b"⟩, ⟨1, "b"⟩, ⟨1, "a"⟩, ⟨3, "v"⟩, ⟨2, "v"⟩]
    [⟨"o1", .other 1, 0⟩, ⟨"o2", .other 2, 0⟩, ⟨"n2", .other 2, 0⟩, ⟨"n1", .other 1, 0⟩, ⟨"v", .other 3, 0⟩,
      ⟨"c", .boolean, 0⟩] true = .ok cols := ⟨_, rfl⟩

/-- A flag that is not boolean is refused. -/
example : tryNew [⟨0, "a"⟩, ⟨1, "a"⟩, ⟨3, "v"⟩, ⟨2, "v"⟩]
    [⟨"o1", .other 1, 0⟩, ⟨"n1", .other 1, 0⟩, ⟨"v", .other 3, 0⟩, ⟨"c", .other 1, 0⟩] true =
    .error .notBoolean := rfl

/-- **C19 is violated** for nested fields: a schema with one descriptor per field is refused, and a
schema with more descriptors than fields is accepted (the surplus is dropped). -/
theorem C19_violated_nested : ∃ (ds : List RawDesc) (fs : List Field),
    (ds.length = fs.length ∧ ColsValid ds (ds.zip fs) ∧ KeysValid (ds.zip fs) ∧
      tryNew ds fs true = .error .count) ∧
    (∃ ds' cols, ds'.length ≠ fs.length ∧ tryNew ds' fs true = .ok cols ∧ cols.length < ds'.length) := by
  refine ⟨[⟨0, "a"⟩, ⟨1, "a"⟩, ⟨3, "v"⟩],
    [⟨"o", .other 1, 0⟩, ⟨"n", .other 1, 0⟩, ⟨"v", .other 2, 1⟩], ⟨rfl, ?_, ?_, rfl⟩,
    [⟨0, "a"⟩, ⟨1, "a"⟩, ⟨3, "v"⟩, ⟨3, "w"⟩], _, by decide, rfl, by decide⟩
  · refine ⟨?_, ?_, ?_⟩ <;> intro p hp <;> simp [List.zip, List.zipWith] at hp <;>
      rcases hp with rfl | rfl | rfl <;> simp
  · refine ⟨⟨("a", .other 1), ⟨(⟨0, "a"⟩, ⟨"o", .other 1, 0⟩), by simp [List.zip, List.zipWith], rfl, rfl, rfl⟩⟩, ?_⟩
    intro k
    simp [HasKey, List.zip, List.zipWith]

/-! ### C20 -/

/-- Two columns agree in what matters for concatenation. -/
def SameCol (a b : SyncCol) : Prop := a.name = b.name ∧ a.role = b.role ∧ a.field.ty = b.field.ty

/-- **C20**, as far as it holds: schemas with the same number of columns are compatible iff they list
the same names, roles and types in the same order. -/
theorem C20_compatible_partial (a b : List SyncCol) (hl : a.length = b.length) :
    compatible a b = true ↔
      a.map (fun c => (c.name, c.role, c.field.ty)) = b.map (fun c => (c.name, c.role, c.field.ty)) := by
  induction a generalizing b with
  | nil => cases b with
    | nil => simp [compatible]
    | cons _ _ => simp at hl
  | cons x xs ih => cases b with
    | nil => simp at hl
    | cons y ys =>
      simp only [List.length_cons, Nat.add_right_cancel_iff] at hl
      simp only [compatible] at ih
      simp only [compatible, List.zip_cons_cons, List.all_cons, Bool.and_eq_true, ih ys hl, List.map_cons,
        List.cons.injEq, Prod.mk.injEq, decide_eq_true_eq, and_assoc]

/-- **C20**: without the condition on the lengths only the common prefix agrees. -/
theorem C20_prefix (a b : List SyncCol) : compatible a b = true ↔
    ∀ (i : Nat) (x y : SyncCol), a[i]? = some x → b[i]? = some y → SameCol x y := by
  induction a generalizing b with
  | nil => simp [compatible]
  | cons x xs ih => cases b with
    | nil => simp [compatible]
    | cons y ys =>
      simp only [compatible] at ih
      simp only [compatible, List.zip_cons_cons, List.all_cons, Bool.and_eq_true, ih ys, decide_eq_true_eq]
      constructor
      · rintro ⟨⟨⟨h1, h2⟩, h3⟩, h4⟩ i x' y' hx hy
        cases i with
        | zero =>
          simp only [List.getElem?_cons_zero, Option.some.injEq] at hx hy
          subst hx hy; exact ⟨h1, h2, h3⟩
        | succ i =>
          simp only [List.getElem?_cons_succ] at hx hy
          exact h4 i x' y' hx hy
      · intro h
        obtain ⟨h1, h2, h3⟩ := h 0 x y rfl rfl
        exact ⟨⟨⟨h1, h2⟩, h3⟩, fun i x' y' hx hy => h (i + 1) x' y' (by simpa using hx) (by simpa using hy)⟩

/-- A column of the demo. -/
def demoCol (role : Role) (name : String) : SyncCol := ⟨role, name, ⟨name, .other 1, 0⟩⟩

/-- **C20 is violated by every message with additional columns** at the end: it is appended to the item, whatever the columns are,
and a value that it carries in an additional column is not there under the schema of the item. -/
theorem C20_violated_always (a extra : List SyncCol) (pks : List String) :
    compatible a (a ++ extra) = true ∧ compatible (a ++ extra) a = true ∧
    ∀ w, w ∉ pks → Desc.mk .value w ∈ descs extra → Desc.mk .value w ∉ descs a →
      Desc.mk .changed w ∉ descs (a ++ extra) → ∀ r : Row,
        (changeOf pks (descs (a ++ extra)) r).set w = some (r ⟨.value, w⟩) ∧ (changeOf pks (descs a) r).set w = none := by
  refine ⟨?_, ?_, ?_⟩
  · rw [C20_prefix]
    intro i x y hx hy
    obtain ⟨hi, -⟩ := List.getElem?_eq_some_iff.1 hx
    rw [List.getElem?_append_left hi, hx] at hy
    injection hy with hy
    subst hy
    exact ⟨rfl, rfl, rfl⟩
  · rw [C20_prefix]
    intro i x y hx hy
    obtain ⟨hi, -⟩ := List.getElem?_eq_some_iff.1 hy
    rw [List.getElem?_append_left hi, hy] at hx
    injection hx with hx
    subst hx
    exact ⟨rfl, rfl, rfl⟩
  · intro w hw he ha hc r
    have hin : Desc.mk .value w ∈ descs (a ++ extra) := by
      simp only [descs, List.map_append, List.mem_append]
      exact Or.inr he
    simp [changeOf, hw, hin, hc, ha]

/-- **C20 is violated**: a message with an additional column is appended to the item, and a change that
sets the additional column means something else under the schema of the item. -/
theorem C20_violated : ∃ (a b : List SyncCol) (pks : List String) (r : Row), SchemaOk pks (descs a) ∧
    SchemaOk pks (descs b) ∧ a.length ≠ b.length ∧ compatible a b = true ∧
    changeOf pks (descs a) r ≠ changeOf pks (descs b) r := by
  refine ⟨[demoCol .oldPk "id", demoCol .newPk "id", demoCol .value "v"],
    [demoCol .oldPk "id", demoCol .newPk "id", demoCol .value "v", demoCol .value "w"], ["id"],
    SqDemo.row [(⟨.oldPk, "id"⟩, SqDemo.i 1), (⟨.newPk, "id"⟩, SqDemo.i 1), (⟨.value, "v"⟩, SqDemo.i 1),
      (⟨.value, "w"⟩, SqDemo.i 7)], ?_, ?_, by decide, by decide, ?_⟩
  · constructor
    · decide
    · decide
    · decide
    · intro c h; simp [descs, demoCol] at h
    · intro c h; simp [descs, demoCol] at h; simp [h]
  · constructor
    · decide
    · decide
    · decide
    · intro c h; simp [descs, demoCol] at h
    · intro c h; simp [descs, demoCol] at h; rcases h with h | h <;> simp [h]
  · intro h
    have h1 := congrArg (fun c : Change => c.set "w") h
    revert h1
    decide

/-! ### C62 -/

/-- **C62**, as far as it holds: if the key columns come in the same order, the key of an earlier
change and the key of a later one are the same for squashing iff they agree column by column. -/
theorem C62_by_name_partial {pks : List String} {S : Schema} (hS : SchemaOk pks S) (r r' : Row) :
    newKey S r = oldKey S r' ↔ ∀ n ∈ pks, r ⟨.newPk, n⟩ = r' ⟨.oldPk, n⟩ := by
  simp only [newKey, oldKey, hS.oldPk, hS.newPk]
  exact List.map_inj_left

open SqDemo in
/-- **C62 is violated**: a schema with the new-key columns in another order is accepted, and squashing
links the insertion of the row (a = 1, b = 2) with the update of the row (a = 2, b = 1). -/
theorem C62_violated : ∃ (ds : List RawDesc) (fs : List Field) (cols : List SyncCol) (r1 r2 : Row) (out : List Row),
    tryNew ds fs true = .ok cols ∧ (∀ f ∈ fs, f.nested = 0) ∧
    (∀ n ∈ ["a", "b"], r1 ⟨.newPk, n⟩ ≠ r2 ⟨.oldPk, n⟩) ∧
    squash (descs cols) [r1, r2] = some out ∧ out.length = 1 := by
  refine ⟨[⟨0, "a"⟩, ⟨0, "b"⟩, ⟨1, "b"⟩, ⟨1, "a"⟩, ⟨3, "v"⟩],
    [⟨"o1", .other 1, 0⟩, ⟨"o2", .other 1, 0⟩, ⟨"n2", .other 1, 0⟩, ⟨"n1", .other 1, 0⟩, ⟨"v", .other 1, 0⟩], _,
    row [(⟨.newPk, "a"⟩, i 1), (⟨.newPk, "b"⟩, i 2), (⟨.value, "v"⟩, i 10)],
    row [(⟨.oldPk, "a"⟩, i 2), (⟨.oldPk, "b"⟩, i 1), (⟨.newPk, "a"⟩, i 2), (⟨.newPk, "b"⟩, i 1), (⟨.value, "v"⟩, i 20)],
    _, rfl, ?_, ?_, rfl, ?_⟩
  · simp
  · decide
  · decide

theorem exists_differs : ∀ (xs ys : List String), xs.length = ys.length → xs ≠ ys →
    ∃ (i : Nat) (a b : String), xs[i]? = some a ∧ ys[i]? = some b ∧ a ≠ b
  | [], [], _, h => absurd rfl h
  | [], _ :: _, h, _ => by simp at h
  | _ :: _, [], h, _ => by simp at h
  | x :: xs, y :: ys, hl, h => by
    by_cases e : x = y
    · subst e
      obtain ⟨i, a, b, h1, h2, h3⟩ := exists_differs xs ys (by simpa using hl) (fun h' => h (by rw [h']))
      exact ⟨i + 1, a, b, by simpa using h1, by simpa using h2, h3⟩
    · exact ⟨0, x, y, rfl, rfl, e⟩

/-- **C62, exactly**: for a schema with as many new as old key columns, rows are linked by the names of the key columns just
if the new ones come in the order of the old ones; in any other order there are rows that agree by name and are not linked. -/
theorem C62_exact (S : Schema) (hlen : (names S .newPk).length = (names S .oldPk).length) :
    (∀ r r' : Row, newKey S r = oldKey S r' ↔ ∀ n ∈ names S .oldPk, r ⟨.newPk, n⟩ = r' ⟨.oldPk, n⟩) ↔
      names S .newPk = names S .oldPk := by
  constructor
  · intro h
    refine Classical.byContradiction fun hne => ?_
    obtain ⟨i, a, b, ha, hb, hab⟩ := exists_differs _ _ hlen hne
    let r : Row := fun d => some (.int (if d.name = a then 1 else 0))
    have hk := (h r r).2 (fun n _ => rfl)
    have h1 := congrArg (fun l : Key => l[i]?) hk
    simp only [newKey, oldKey, List.getElem?_map, ha, hb, Option.map_some, Option.some.injEq, r, Val.int.injEq] at h1
    simp [Ne.symm hab] at h1
  · intro h r r'
    simp only [newKey, oldKey, h]
    exact List.map_inj_left

/-! ### C21 -/

/-- Every key of every change is NULL: nothing is left to do. -/
def NoKeys (pks : List String) (items : List SItem) : Prop :=
  ∀ it ∈ items, ∀ r ∈ it.2, ∀ n ∈ pks, r ⟨.oldPk, n⟩ = none ∧ r ⟨.newPk, n⟩ = none

theorem minCell_none {l : List Cell} (h : ∀ c ∈ l, c = none) : minCell l = none := by
  unfold minCell
  induction l with
  | nil => rfl
  | cons c l ih =>
    rw [List.foldl_cons, h c (by simp)]
    exact ih (fun c' h' => h c' (by simp [h']))

theorem qualifier_nil {pks : List String} {items : List SItem} (hne : items ≠ []) {role : Role}
    (hrole : ∀ it ∈ items, names it.1 role = pks) :
    ∃ qs, constructQualifier items role = some qs ∧
      (qs = [] ↔ ∀ it ∈ items, ∀ r ∈ it.2, ∀ n ∈ pks, r ⟨role, n⟩ = none) := by
  cases items with
  | nil => exact absurd rfl hne
  | cons it0 rest =>
    simp only [constructQualifier]
    rw [if_pos]
    · refine ⟨_, rfl, ?_⟩
      rw [hrole it0 (by simp), List.filterMap_eq_nil_iff]
      constructor
      · intro h it hit r hr n hn
        cases hc : r ⟨role, n⟩ with
        | none => rfl
        | some v =>
          have hm := mem_keyCells hit hr role n
          rw [hc] at hm
          obtain ⟨lo, h1, _⟩ := minCell_le _ hm
          obtain ⟨hi, h2, _⟩ := maxCell_ge _ hm
          have := h n hn
          rw [h1, h2] at this
          cases this
      · intro h n hn
        rw [minCell_none]
        intro c hc
        obtain ⟨it, hit, hc⟩ := List.mem_flatMap.1 hc
        obtain ⟨r, hr, rfl⟩ := List.mem_map.1 hc
        exact h it hit r hr n hn
    · rw [List.all_eq_true]
      intro it hit
      rw [List.all_eq_true]
      intro c hc
      rw [hrole it0 (by simp)] at hc
      simp only [has, decide_eq_true_eq]
      rw [← mem_names, hrole it hit]
      exact hc

/-- **C21**, exactly: planning the flush of squashed items panics iff all their keys are NULL, whatever
the table looks like. -/
theorem C21_flush_fails_iff_partial {pks full : List String} (hpk : pks ≠ []) (items : List SItem) (hne : items ≠ [])
    (hok : ∀ it ∈ items, SchemaOk pks it.1) (sn : Snapshot) :
    flushFiles full items sn = none ↔ NoKeys pks items := by
  obtain ⟨qo, ho, hoq⟩ := qualifier_nil (pks := pks) hne (role := .oldPk) (fun it hit => (hok it hit).oldPk)
  obtain ⟨qn, hn, hnq⟩ := qualifier_nil (pks := pks) hne (role := .newPk) (fun it hit => (hok it hit).newPk)
  have hflush : ∀ base, flushRows full items base ≠ none := by
    intro base
    cases items with
    | nil => exact absurd rfl hne
    | cons it0 rest =>
      have : ∀ (rest : List SItem) (acc : SItem), SchemaOk pks acc.1 → (∀ it ∈ rest, SchemaOk pks it.1) →
          ∃ out, mergeAll acc rest = some out ∧ SchemaOk pks out.1 := by
        intro rest
        induction rest with
        | nil => intro acc hA _; exact ⟨acc, rfl, hA⟩
        | cons it rest ih =>
          intro acc hA h
          obtain ⟨acc', ha⟩ := merge_defined (L := acc.1) (h it (by simp)) hpk acc.2 it.2
          have hs := merge_schema (S := acc'.1) (rows := acc'.2) hA (h it (by simp)) ha
          obtain ⟨out, h1, h2⟩ := ih acc' (by rw [hs]; exact mergedCols_ok hA (h it (by simp)))
            (fun it' h' => h it' (by simp [h']))
          exact ⟨out, by simp only [mergeAll, ha, h1], h2⟩
      obtain ⟨out, h1, h2⟩ := this rest it0 (hok it0 (by simp)) (fun it hit => hok it (by simp [hit]))
      simp only [flushRows, squashSyncs, h1, normalize, h2.oldPk]
      cases hh : pks.head? with
      | none => simp [List.head?_eq_none_iff] at hh; exact absurd hh hpk
      | some n => simp
  have hfine : pruneMap sn items ≠ none := by
    cases items with
    | nil => exact absurd rfl hne
    | cons it0 rest =>
      simp only [pruneMap]
      split
      · simp
      · rw [if_pos]
        · simp
        · rw [List.all_eq_true]
          intro it hit
          rw [(hok it hit).oldPk, (hok it hit).newPk, (hok it0 (by simp)).oldPk]
          simp
  simp only [flushFiles, prunePartitions, ho, hn]
  constructor
  · intro h
    simp only [coarseMap] at h
    split at h
    · next he =>
      split at he
      · next he2 =>
        split at he2
        · have h1 := hoq.1 rfl
          have h2 := hnq.1 rfl
          intro it hit r hr n hnp
          exact ⟨h1 it hit r hr n hnp, h2 it hit r hr n hnp⟩
        all_goals cases he2
      · split at he
        · exact absurd he hfine
        · cases he
    · split at h
      · next hf => exact absurd hf (hflush _)
      · cases h
  · intro h
    have h1 := hoq.2 (fun it hit r hr n hnp => (h it hit r hr n hnp).1)
    have h2 := hnq.2 (fun it hit r hr n hnp => (h it hit r hr n hnp).2)
    subst h1 h2
    simp [coarseMap]

open SqDemo in
/-- **C21 is violated**: when a row is inserted and deleted within the buffered changes and nothing
else happens, planning the flush panics for every table; squashing alone panics when there is a
Changed column. -/
theorem C21_violated :
    (∃ out, squash S3 [r3 none (i 9) (i 1), r3 (i 9) none none] = some out ∧
      ∀ sn full, flushFiles full [(S3, out)] sn = none) ∧
    squash S1 [r1 none (i 9) (i 1) (t true), r1 (i 9) none none (t false)] = none := by
  refine ⟨⟨[], rfl, ?_⟩, rfl⟩
  intro sn full
  rw [C21_flush_fails_iff_partial (pks := ["id"]) (by simp) _ (by simp) (by simp [S3_ok])]
  intro it hit r hr
  simp only [List.mem_singleton] at hit
  subst hit
  cases hr

/-- **C21 is violated, always**: a row that is inserted and deleted by the two buffered changes.  Squashing panics if there
is a Changed column; otherwise it leaves nothing, and planning the flush panics for every table. -/
theorem C21_violated_always {pks full : List String} (hpk : pks ≠ []) {S : Schema} (hS : SchemaOk pks S) (u u' : Row)
    (hins : oldKey S u = nullKey S) (hnn : newKey S u ≠ nullKey S) (hkey : oldKey S u' = newKey S u)
    (hdel : newKey S u' = nullKey S) :
    (names S .changed ≠ [] → squash S [u, u'] = none) ∧
    (names S .changed = [] → squash S [u, u'] = some [] ∧ ∀ sn, flushFiles full [(S, [])] sn = none) := by
  have hfold : [u, u'].foldl (sqStep S) { chains := [], temp := [], pk := [] } =
      { chains := [(Chain.single S u).extend S u'], temp := [0], pk := alErase (newKey S u) [(newKey S u, 0)] } := by
    have e1 : sqStep S { chains := [], temp := [], pk := [] } u =
        { chains := [Chain.single S u], temp := [], pk := [(newKey S u, 0)] } := by
      simp [sqStep, alGet, hnn, alInsert, alErase]
    simp only [List.foldl_cons, List.foldl_nil, e1]
    simp [sqStep, alGet, hkey, hdel, Chain.single, hins]
  refine ⟨fun h => ?_, fun h => ⟨?_, fun sn => ?_⟩⟩
  · simp only [squash, hfold]
    simp [liveChains, h]
  · simp only [squash, hfold]
    simp [liveChains, h]
  · rw [C21_flush_fails_iff_partial (pks := pks) hpk _ (by simp) (by simp [hS])]
    intro it hit r hr
    simp only [List.mem_singleton] at hit
    subst hit
    cases hr

end Seafowl.Sync
