import Verif.Context.Coerce

/-!
# C124: CREATE TABLE AS stores what the query returns
-/
namespace Seafowl.Coerce

/-! ### specification -/

/-- The length of a unit in nanoseconds. -/
def nanos : Unit' → Int
  | .s => 1000000000
  | .ms => 1000000
  | .us => 1000
  | .ns => 1

/-- The moment a value of a column stands for, in nanoseconds since 1970. -/
def moment : T → Val → Option Int
  | .ts u _, .ts x => some (nanos u * x)
  | _, _ => none

/-- The cell of a table or plan. -/
def cell (rows : List (List Val)) (i j : Nat) : Option Val := rows[i]?.bind (·[j]?)

/-- All rows have a value for each column. -/
def Plan.Rect (p : Plan) : Prop := ∀ r ∈ p.rows, r.length = p.schema.length

/-- A timestamp in nanoseconds. -/
def IsNanos (t : T) : Prop := ∃ tz, t = .ts .ns tz

/-! ### lemmas -/

theorem incompatible_iff (t : T) : incompatible t = true ↔ IsNanos t := by
  unfold incompatible IsNanos
  split
  · simp
  · next h => simp only [Bool.false_eq_true, false_iff, not_exists]; exact h

theorem coerceField_other {f : Field} (h : ¬ IsNanos f.ty) : coerceField f = f := by
  unfold coerceField
  split
  · next tz ht => exact absurd ⟨tz, ht⟩ h
  · rfl

theorem coerceVal_other {t : T} (h : ¬ IsNanos t) (v : Val) : coerceVal t v = v := by
  unfold coerceVal
  split
  · next tz x => exact absurd ⟨tz, rfl⟩ h
  · rfl

theorem zip_other {s : List Field} (h : ∀ f ∈ s, ¬ IsNanos f.ty) {r : List Val} (hr : r.length = s.length) :
    List.zipWith (fun f v => coerceVal f.ty v) s r = r := by
  induction s generalizing r with
  | nil => cases r <;> simp_all
  | cons f s ih =>
    cases r with
    | nil => simp at hr
    | cons v r =>
      simp only [List.zipWith_cons_cons, coerceVal_other (h f (by simp))]
      rw [ih (fun g hg => h g (by simp [hg])) (by simpa using hr)]

/-- Both branches of `coercePlan` are the projection. -/
theorem coercePlan_eq {p : Plan} (hp : p.Rect) :
    coercePlan p = ⟨p.schema.map coerceField,
      p.rows.map (fun r => List.zipWith (fun f v => coerceVal f.ty v) p.schema r)⟩ := by
  unfold coercePlan
  split
  · rfl
  · next h =>
    have hn : ∀ f ∈ p.schema, ¬ IsNanos f.ty := by
      intro f hf hx
      apply h
      rw [List.any_eq_true]
      exact ⟨f, hf, (incompatible_iff _).2 hx⟩
    have h1 : p.schema.map coerceField = p.schema := by
      rw [List.map_congr_left (fun f hf => coerceField_other (hn f hf))]
      simp
    have h2 : p.rows.map (fun r => List.zipWith (fun f v => coerceVal f.ty v) p.schema r) = p.rows := by
      rw [List.map_congr_left (fun r hr => zip_other hn (hp r hr))]
      simp
    rw [h1, h2]

theorem createTableAs_eq {L : Lib} {p : Plan} {t : Table} (hp : p.Rect) (h : createTableAs L p = some t) :
    t.schema = p.schema.map coerceField ∧
    t.rows = p.rows.map (fun r => List.zipWith (fun f v => coerceVal f.ty v) p.schema r) := by
  unfold createTableAs store at h
  rw [coercePlan_eq hp] at h
  split at h
  · cases h; exact ⟨rfl, rfl⟩
  · cases h

theorem cell_stored {L : Lib} {p : Plan} {t : Table} (hp : p.Rect) (h : createTableAs L p = some t) (i j : Nat)
    {f : Field} (hf : p.schema[j]? = some f) : cell t.rows i j = (cell p.rows i j).map (coerceVal f.ty) := by
  rw [(createTableAs_eq hp h).2]
  unfold cell
  rw [List.getElem?_map]
  cases hr : p.rows[i]? with
  | none => simp
  | some r =>
    simp only [Option.map_some, Option.bind_some, List.getElem?_zipWith, hf]
    cases r[j]? <;> simp

/-! ### theorems -/

/-- **C124**: the table has as many rows as the query, with as many columns of the same names, in the same order, nullable
where they were, and of the same types but for timestamps in nanoseconds, which become microseconds in the same time
zone. -/
theorem C124_columns (L : Lib) (p : Plan) (t : Table) (hp : p.Rect) (h : createTableAs L p = some t) :
    t.rows.length = p.rows.length ∧ (∀ r ∈ t.rows, r.length = p.schema.length) ∧
    t.schema.length = p.schema.length ∧
    ∀ (j : Nat) (f : Field), p.schema[j]? = some f → ∃ g, t.schema[j]? = some g ∧ g.name = f.name ∧ g.nullable = f.nullable ∧
      (¬ IsNanos f.ty → g.ty = f.ty) ∧ ∀ tz, f.ty = .ts .ns tz → g.ty = .ts .us tz := by
  obtain ⟨h1, h2⟩ := createTableAs_eq hp h
  refine ⟨by rw [h2]; simp, ?_, by rw [h1]; simp, ?_⟩
  · intro r hr
    rw [h2] at hr
    obtain ⟨q, hq, rfl⟩ := List.mem_map.1 hr
    simp [hp q hq]
  · intro j f hf
    refine ⟨coerceField f, by rw [h1]; simp [hf], ?_, ?_, ?_, ?_⟩
    · unfold coerceField; split <;> rfl
    · unfold coerceField; split <;> rfl
    · intro hn; rw [coerceField_other hn]
    · intro tz ht; simp [coerceField, ht]

/-- **C124, partial**: every value of the table is that of the query, unless it is a timestamp in nanoseconds.  (Missing:
those, see `C124_moments` and `C124_violated`.) -/
theorem C124_values_partial (L : Lib) (p : Plan) (t : Table) (hp : p.Rect) (h : createTableAs L p = some t)
    (i j : Nat) (f : Field) (hf : p.schema[j]? = some f) (hn : ¬ IsNanos f.ty ∨ cell p.rows i j = some .null) :
    cell t.rows i j = cell p.rows i j := by
  rw [cell_stored hp h i j hf]
  rcases hn with hn | hn
  · cases cell p.rows i j with
    | none => rfl
    | some v => simp [coerceVal_other hn]
  · rw [hn]
    simp [coerceVal]

theorem coerced_moment {p : Plan} {L : Lib} {t : Table} (hp : p.Rect) (h : createTableAs L p = some t) {i j : Nat}
    {f g : Field} (hf : p.schema[j]? = some f) (hg : t.schema[j]? = some g) {tz : Option String} (ht : f.ty = .ts .ns tz)
    {v : Val} (hv : cell p.rows i j = some v) {m : Int} (hm : moment f.ty v = some m) :
    ∃ w, cell t.rows i j = some w ∧ moment g.ty w = some (1000 * (m.tdiv 1000)) := by
  have hgt : g = coerceField f := by
    rw [(createTableAs_eq hp h).1, List.getElem?_map, hf] at hg
    simpa using hg.symm
  refine ⟨coerceVal f.ty v, by rw [cell_stored hp h i j hf, hv]; rfl, ?_⟩
  have hgty : g.ty = .ts .us tz := by rw [hgt]; simp [coerceField, ht]
  rw [ht] at hm ⊢
  cases v with
  | ts x =>
    simp only [moment, nanos, Option.some.injEq, Int.one_mul] at hm
    subst hm
    simp [coerceVal, hgty, moment, nanos]
  | null => simp [moment] at hm
  | list l => simp [moment] at hm
  | struct l => simp [moment] at hm
  | other n => simp [moment] at hm

/-- **C124**: a timestamp in nanoseconds is stored as a moment less than a microsecond away, between it and 1970; it is stored
exactly if, and only if, it is a number of whole microseconds; and the order of moments is kept, though not strictly. -/
theorem C124_moments (L : Lib) (p : Plan) (t : Table) (hp : p.Rect) (h : createTableAs L p = some t)
    (j : Nat) (f g : Field) (hf : p.schema[j]? = some f) (hg : t.schema[j]? = some g) (tz : Option String)
    (ht : f.ty = .ts .ns tz) (i : Nat) (v : Val) (hv : cell p.rows i j = some v) (m : Int)
    (hm : moment f.ty v = some m) :
    ∃ w n, cell t.rows i j = some w ∧ moment g.ty w = some n ∧
      (0 ≤ m → n ≤ m ∧ m < n + 1000) ∧ (m ≤ 0 → m ≤ n ∧ n < m + 1000) ∧ (n = m ↔ (1000 : Int) ∣ m) ∧
      ∀ i' v' m', cell p.rows i' j = some v' → moment f.ty v' = some m' → m ≤ m' →
        ∃ w' n', cell t.rows i' j = some w' ∧ moment g.ty w' = some n' ∧ n ≤ n' := by
  obtain ⟨w, hw1, hw2⟩ := coerced_moment hp h hf hg ht hv hm
  have key : ∀ m : Int, (0 ≤ m → m.tdiv 1000 = m / 1000) ∧ (m ≤ 0 → m.tdiv 1000 = -((-m) / 1000)) := by
    intro m
    constructor
    · intro h0
      exact Int.tdiv_eq_ediv_of_nonneg h0
    · intro h0
      have : m.tdiv 1000 = -((-m).tdiv 1000) := by rw [Int.neg_tdiv]; omega
      rw [this, Int.tdiv_eq_ediv_of_nonneg (by omega)]
  obtain ⟨k1, k2⟩ := key m
  refine ⟨w, _, hw1, hw2, ?_, ?_, ?_, ?_⟩
  · intro h0; rw [k1 h0]; omega
  · intro h0; rw [k2 h0]; omega
  · rcases Int.le_total 0 m with h0 | h0
    · rw [k1 h0]; omega
    · rw [k2 h0]; omega
  · intro i' v' m' hv' hm' hle
    obtain ⟨w', hw1', hw2'⟩ := coerced_moment hp h hf hg ht hv' hm'
    obtain ⟨l1, l2⟩ := key m'
    refine ⟨w', _, hw1', hw2', ?_⟩
    rcases Int.le_total 0 m with h0 | h0
    · rw [k1 h0, l1 (by omega)]; omega
    · rw [k2 h0]
      rcases Int.le_total 0 m' with h1 | h1
      · rw [l1 h1]; omega
      · rw [l2 h1]; omega

/-- **C124 violated**: a moment with a fraction of a microsecond is stored as another moment without any notice; one before
1970 as a later one. -/
theorem C124_violated (L : Lib) (x : Int) (hx : ¬ (1000 : Int) ∣ x) (name : String) (nl : Bool) :
    ∃ t w n, createTableAs L ⟨[⟨name, .ts .ns none, nl⟩], [[.ts x]]⟩ = some t ∧ cell t.rows 0 0 = some w ∧
      t.schema = [⟨name, .ts .us none, nl⟩] ∧ moment (.ts .us none) w = some n ∧ n ≠ x ∧ (x < 0 → x < n) := by
  have hc : createTableAs L ⟨[⟨name, .ts .ns none, nl⟩], [[.ts x]]⟩ =
      some ⟨[⟨name, .ts .us none, nl⟩], [[.ts (x.tdiv 1000)]]⟩ := by
    simp [createTableAs, store, coercePlan, incompatible, coerceField, coerceVal, storable]
  have hr : Plan.Rect ⟨[⟨name, .ts .ns none, nl⟩], [[.ts x]]⟩ := by
    intro r hr
    simp at hr
    simp [hr]
  obtain ⟨w, n, h1, h2, h3, h4, h5, _⟩ := C124_moments L _ _ hr hc 0 ⟨name, .ts .ns none, nl⟩ ⟨name, .ts .us none, nl⟩ rfl
    rfl none rfl 0 (.ts x) rfl x (by simp [moment, nanos])
  refine ⟨_, w, n, hc, h1, rfl, h2, fun e => hx (h5.1 e), ?_⟩
  intro hneg
  have := h4 (by omega)
  have hne : n ≠ x := fun e => hx (h5.1 e)
  omega

/-- Two moments become one: rows that were different are the same in the table. -/
example (L : Lib) :
    createTableAs L ⟨[⟨"t", .ts .ns none, true⟩], [[.ts 1500], [.ts 1999], [.ts (-1)], [.null]]⟩ =
      some ⟨[⟨"t", .ts .us none, true⟩], [[.ts 1], [.ts 1], [.ts 0], [.null]]⟩ := by
  rfl

/-- **C124**: which queries can be stored: those all of whose columns have a type of Delta tables, or are timestamps in
nanoseconds without time zone or in one that Delta tables have. -/
theorem C124_accepted (L : Lib) (p : Plan) :
    (createTableAs L p).isSome = true ↔
      ∀ f ∈ p.schema, storable L f.ty = true ∨ f.ty = .ts .ns none ∨ ∃ z, f.ty = .ts .ns (some z) ∧ L.zone z = true := by
  have hs : (coercePlan p).schema = p.schema.map coerceField := by
    unfold coercePlan
    split
    · rfl
    · next h =>
      have hn : ∀ f ∈ p.schema, coerceField f = f := by
        intro f hf
        apply coerceField_other
        intro hx
        apply h
        rw [List.any_eq_true]
        exact ⟨f, hf, (incompatible_iff _).2 hx⟩
      rw [List.map_congr_left hn]
      simp
  have hf : ∀ f : Field, storable L (coerceField f).ty = true ↔
      (storable L f.ty = true ∨ f.ty = .ts .ns none ∨ ∃ z, f.ty = .ts .ns (some z) ∧ L.zone z = true) := by
    intro f
    by_cases hx : IsNanos f.ty
    · obtain ⟨tz, ht⟩ := hx
      cases tz with
      | none => simp [coerceField, ht, storable]
      | some z => simp [coerceField, ht, storable]
    · rw [coerceField_other hx]
      refine ⟨Or.inl, ?_⟩
      rintro (h | h | ⟨z, h, _⟩)
      · exact h
      · exact absurd ⟨_, h⟩ hx
      · exact absurd ⟨_, h⟩ hx
  unfold createTableAs store
  rw [hs]
  simp only [List.all_map, Function.comp_def]
  split
  · next h =>
    simp only [Option.isSome_some, true_iff]
    intro f hfm
    exact (hf f).1 (List.all_eq_true.1 h f hfm)
  · next h =>
    simp only [Option.isSome_none, Bool.false_eq_true, false_iff]
    intro hall
    exact h (List.all_eq_true.2 (fun f hfm => (hf f).2 (hall f hfm)))

/-- **C124 violated**: a timestamp in nanoseconds inside a list or a struct is not converted, and the statement is refused; so is
every other unit; and the upload of a file is refused for the very columns that the statement converts. -/
theorem C124_violated_refused (L : Lib) (name : String) (nl : Bool) (rows : List (List Val)) (tz : Option String) :
    createTableAs L ⟨[⟨name, .list (.ts .ns tz), nl⟩], rows⟩ = none ∧
    createTableAs L ⟨[⟨name, .struct [(name, .ts .ns tz)], nl⟩], rows⟩ = none ∧
    createTableAs L ⟨[⟨name, .ts .ms tz, nl⟩], rows⟩ = none ∧
    createTableAs L ⟨[⟨name, .ts .s tz, nl⟩], rows⟩ = none ∧
    uploadNew L ⟨[⟨name, .ts .ns tz, nl⟩], rows⟩ = none := by
  simp [createTableAs, uploadNew, store, coercePlan, incompatible, storable, storableAll]

/-- Columns of several types, one of them converted. -/
example : createTableAs ⟨fun _ => true, fun z => z == "UTC"⟩
      ⟨[⟨"a", .other 1, false⟩, ⟨"b", .ts .ns (some "UTC"), true⟩, ⟨"c", .list (.ts .us none), true⟩],
       [[.other 7, .ts 1234567, .list [.ts 5]], [.other 8, .null, .null]]⟩ =
    some ⟨[⟨"a", .other 1, false⟩, ⟨"b", .ts .us (some "UTC"), true⟩, ⟨"c", .list (.ts .us none), true⟩],
       [[.other 7, .ts 1234, .list [.ts 5]], [.other 8, .null, .null]]⟩ := by
  rfl

end Seafowl.Coerce
