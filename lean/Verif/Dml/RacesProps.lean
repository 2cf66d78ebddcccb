import Verif.Dml.Races
import Mathlib.Data.List.Induction

/-!
# Statements that run at the same time have the effect of statements run one after the other (C128)
-/

namespace Seafowl.Races

variable {ρ : Type}

/-! ### Specification -/

/-- What a statement does to the rows of the table if it runs alone. -/
def effect : Stmt ρ → List ρ → List ρ
  | .insert rows, t => t ++ rows
  | .insertFrom q, t => t ++ q t
  | .modify p g, t => t.filterMap (fun x => if p x then g x else some x)

/-- What the statement with this number does. -/
def effectAt (sys : Sys ρ) (t : List ρ) (i : Nat) : List ρ :=
  match sys.stmts[i]? with
  | some st => effect st t
  | none => t

/-- The statement has begun and has neither committed nor failed. -/
def Ready (s : State ρ) (i : Nat) : Prop := ∃ v a r, s.stage i = .ready v a r

/-- At some moment both statements have begun and have not ended. -/
def Together (sys : Sys ρ) (init : List (List ρ)) (evs : List Ev) (i j : Nat) : Prop :=
  ∃ a b, evs = a ++ b ∧ Ready (run sys init a) i ∧ Ready (run sys init a) j

/-- The rows that the first statement changes do not come to qualify for the second by that. -/
def Quiet (sys : Sys ρ) (i j : Nat) : Prop :=
  ∀ p g p' g', sys.stmts[i]? = some (.modify p g) → sys.stmts[j]? = some (.modify p' g') →
    ∀ x y, p x = true → p' x = false → g x = some y → p' y = false

/-- What is assumed of the parts that are not modelled: no row is lost when files are written, and a file that contains
a qualifying row is not skipped. -/
structure Sound (sys : Sys ρ) : Prop where
  cut : ∀ rows, (sys.cut rows).flatten = rows
  keep : ∀ i p g, sys.stmts[i]? = some (.modify p g) → ∀ rows, (∃ x ∈ rows, p x = true) → sys.keep i rows = true

/-- No statement reads the table to insert into it. -/
def Blind (sys : Sys ρ) : Prop := ∀ (i : Nat) (q : List ρ → List ρ), sys.stmts[i]? ≠ some (Stmt.insertFrom q)

/-- The rows of a table after some events are those of a serial execution, in an order that respects which statement
ended before which began. -/
def Serial (sys : Sys ρ) (init : List (List ρ)) (evs : List Ev) : Prop :=
  ∃ order : List Nat, order.Nodup ∧ (∀ i, i ∈ order ↔ (run sys init evs).stage i = .done) ∧
    (∀ a b i j, evs = a ++ b → (run sys init a).stage i = .done → (run sys init a).stage j = .start → j ∈ order →
      [i, j].Sublist order) ∧
    (rowsOf (run sys init evs).files).Perm (order.foldl (effectAt sys) init.flatten)

/-! ### Rows one by one -/

/-- What the statement makes of a row. -/
def h (sys : Sys ρ) (i : Nat) (x : ρ) : Option ρ :=
  match sys.stmts[i]? with
  | some (.modify p g) => change p g x
  | _ => some x

/-- Does the row qualify? -/
def hit (sys : Sys ρ) (i : Nat) (x : ρ) : Bool :=
  match sys.stmts[i]? with
  | some (.modify p _) => p x
  | _ => false

theorem h_modify {sys : Sys ρ} {i : Nat} {p : ρ → Bool} {g : ρ → Option ρ}
    (e : sys.stmts[i]? = some (.modify p g)) : h sys i = change p g := by
  funext x; simp [h, e]

theorem hit_modify {sys : Sys ρ} {i : Nat} {p : ρ → Bool} {g : ρ → Option ρ}
    (e : sys.stmts[i]? = some (.modify p g)) : hit sys i = p := by
  funext x; simp [hit, e]

theorem modify_or (sys : Sys ρ) (i : Nat) :
    (∃ p g, sys.stmts[i]? = some (.modify p g)) ∨ (h sys i = some ∧ hit sys i = fun _ => false) := by
  rcases e : sys.stmts[i]? with _ | st
  · right; exact ⟨by funext x; simp [h, e], by funext x; simp [hit, e]⟩
  · cases st with
    | modify p g => exact .inl ⟨p, g, rfl⟩
    | insert rows => right; exact ⟨by funext x; simp [h, e], by funext x; simp [hit, e]⟩
    | insertFrom q => right; exact ⟨by funext x; simp [h, e], by funext x; simp [hit, e]⟩

theorem h_of_not_hit (sys : Sys ρ) (i : Nat) (x : ρ) (hx : hit sys i x = false) : h sys i x = some x := by
  rcases modify_or sys i with ⟨p, g, e⟩ | ⟨e, _⟩
  · rw [hit_modify e] at hx; rw [h_modify e]; simp [change, hx]
  · rw [e]

theorem quiet_hit {sys : Sys ρ} {i j : Nat} (hq : Quiet sys i j) {x y : ρ} (hj : hit sys j x = false)
    (hy : h sys i x = some y) : hit sys j y = false := by
  rcases modify_or sys j with ⟨p', g', e'⟩ | ⟨_, e'⟩
  · rw [hit_modify e'] at hj ⊢
    rcases modify_or sys i with ⟨p, g, e⟩ | ⟨e, _⟩
    · rw [h_modify e] at hy
      unfold change at hy
      split at hy
      · next hp => exact hq p g p' g' e e' x y hp hj hy
      · cases hy; exact hj
    · rw [e] at hy; cases hy; exact hj
  · rw [e']

/-- A row through the statements of a list, of those that have committed. -/
def fo (sys : Sys ρ) (ok : Nat → Bool) (l : List Nat) (o : Option ρ) : Option ρ :=
  l.foldl (fun o i => if ok i then o.bind (h sys i) else o) o

theorem fo_append (sys : Sys ρ) (ok : Nat → Bool) (l l' : List Nat) (o : Option ρ) :
    fo sys ok (l ++ l') o = fo sys ok l' (fo sys ok l o) := by simp [fo]

theorem fo_cons (sys : Sys ρ) (ok : Nat → Bool) (i : Nat) (l : List Nat) (o : Option ρ) :
    fo sys ok (i :: l) o = fo sys ok l (if ok i then o.bind (h sys i) else o) := by simp [fo]

theorem fo_none (sys : Sys ρ) (ok : Nat → Bool) (l : List Nat) : fo sys ok l none = none := by
  induction l with
  | nil => rfl
  | cons i l ih => rw [fo_cons]; simpa using ih

theorem fo_fix (sys : Sys ρ) (ok : Nat → Bool) (l : List Nat) (v : ρ)
    (hl : ∀ i ∈ l, ok i = true → hit sys i v = false) : fo sys ok l (some v) = some v := by
  induction l with
  | nil => rfl
  | cons i l ih =>
    rw [fo_cons]
    have : (if ok i then (some v).bind (h sys i) else some v) = some v := by
      split
      · next ho => simpa using h_of_not_hit sys i v (hl i (by simp) ho)
      · rfl
    rw [this]
    exact ih fun j hj => hl j (by simp [hj])

theorem fo_congr (sys : Sys ρ) (ok ok' : Nat → Bool) (l : List Nat) (o : Option ρ)
    (hl : ∀ i ∈ l, ok i = ok' i) : fo sys ok l o = fo sys ok' l o := by
  induction l generalizing o with
  | nil => rfl
  | cons i l ih =>
    rw [fo_cons, fo_cons, hl i (by simp)]
    exact ih _ fun j hj => hl j (by simp [hj])

/-- A row that came into the table after the first `b` of the statements. -/
def val (sys : Sys ρ) (ok : Nat → Bool) (pts : List Nat) (b : Nat) (x : ρ) : Option ρ :=
  fo sys ok (pts.drop b) (some x)

/-- The rows that the statement brings at place `k`. -/
def born (sys : Sys ρ) (i k : Nat) : List (Nat × ρ) :=
  match sys.stmts[i]? with
  | some (.insert rows) => rows.map (fun x => (k, x))
  | _ => []

/-- The rows that ever came into the table and the statements before. -/
def linsOf (sys : Sys ρ) (init : List (List ρ)) (pts : List Nat) : List (Nat × ρ) :=
  init.flatten.map (fun x => (0, x)) ++ pts.zipIdx.flatMap (fun c => born sys c.1 c.2)

theorem filterMap_congr {α β : Type} {f g : α → Option β} (l : List α) (e : ∀ x ∈ l, f x = g x) :
    l.filterMap f = l.filterMap g := by
  induction l with
  | nil => rfl
  | cons a l ih =>
    simp only [List.filterMap_cons, e a (by simp), ih fun x hx => e x (by simp [hx])]

theorem linsOf_snoc (sys : Sys ρ) (init : List (List ρ)) (pts : List Nat) (i : Nat) :
    linsOf sys init (pts ++ [i]) = linsOf sys init pts ++ born sys i pts.length := by
  simp [linsOf, List.zipIdx_append]

theorem linsOf_le (sys : Sys ρ) (init : List (List ρ)) (pts : List Nat) :
    ∀ c ∈ linsOf sys init pts, c.1 ≤ pts.length := by
  induction pts using List.reverseRecOn with
  | nil =>
    intro c hc
    simp only [linsOf, List.zipIdx_nil, List.flatMap_nil, List.append_nil, List.mem_map] at hc
    obtain ⟨x, _, hx⟩ := hc; simp [← hx]
  | append_singleton pts i ih =>
    intro c hc
    rw [linsOf_snoc, List.mem_append] at hc
    rcases hc with hc | hc
    · have := ih c hc; simp; omega
    · unfold born at hc
      split at hc
      · simp at hc; obtain ⟨x, _, hx⟩ := hc; simp [← hx]
      · simp at hc

theorem val_snoc (sys : Sys ρ) (ok : Nat → Bool) (pts : List Nat) (i b : Nat) (x : ρ) (hb : b ≤ pts.length) :
    val sys ok (pts ++ [i]) b x = if ok i then (val sys ok pts b x).bind (h sys i) else val sys ok pts b x := by
  unfold val
  rw [List.drop_append_of_le_length hb, fo_append, fo_cons]
  rfl

/-- The serial execution, row by row. -/
theorem serial_rows (sys : Sys ρ) (init : List (List ρ)) (ok : Nat → Bool) (pts : List Nat) (hb : Blind sys)
    (hi : ∀ i ∈ pts, ∀ rows, sys.stmts[i]? = some (.insert rows) → ok i = true) :
    (pts.filter ok).foldl (effectAt sys) init.flatten =
      (linsOf sys init pts).filterMap (fun c => val sys ok pts c.1 c.2) := by
  induction pts using List.reverseRecOn with
  | nil =>
    simp only [List.filter_nil, List.foldl_nil, linsOf, List.zipIdx_nil, List.flatMap_nil, List.append_nil]
    rw [List.filterMap_map]
    have : ((fun c : Nat × ρ => val sys ok [] c.1 c.2) ∘ fun x => (0, x)) = some := by
      funext x; simp [val, fo]
    rw [this, List.filterMap_some]
  | append_singleton pts i ih =>
    have ih := ih fun j hj => hi j (by simp [hj])
    rw [linsOf_snoc, List.filterMap_append, List.filter_append, List.foldl_append, ih]
    have hold : (linsOf sys init pts).filterMap (fun c => val sys ok (pts ++ [i]) c.1 c.2) =
        if ok i then ((linsOf sys init pts).filterMap (fun c => val sys ok pts c.1 c.2)).filterMap (h sys i)
        else (linsOf sys init pts).filterMap (fun c => val sys ok pts c.1 c.2) := by
      have e : (linsOf sys init pts).filterMap (fun c => val sys ok (pts ++ [i]) c.1 c.2) =
          (linsOf sys init pts).filterMap (fun c =>
            if ok i then (val sys ok pts c.1 c.2).bind (h sys i) else val sys ok pts c.1 c.2) := by
        apply filterMap_congr
        intro c hc
        exact val_snoc sys ok pts i c.1 c.2 (linsOf_le sys init pts c hc)
      rw [e]
      split
      · rw [List.filterMap_filterMap]
      · rfl
    rw [hold]
    cases hst : sys.stmts[i]? with
    | none =>
      have hh : h sys i = some := by funext x; simp [h, hst]
      simp only [born, hst, List.filterMap_nil, List.append_nil, hh]
      cases ho : ok i <;> simp [effectAt, hst, ho]
    | some st =>
      cases st with
      | insert rows =>
        have ho := hi i (by simp) rows hst
        have hh : h sys i = some := by funext x; simp [h, hst]
        have hv : ∀ x, val sys ok (pts ++ [i]) pts.length x = some x := by
          intro x; simp [val, fo, ho, hh]
        simp only [ho, born, hst, hh, List.filter_cons, List.filter_nil, if_true, List.foldl_cons, List.foldl_nil,
          effectAt, effect, List.filterMap_map]
        have : ((fun c : Nat × ρ => val sys ok (pts ++ [i]) c.1 c.2) ∘ fun x => (pts.length, x)) = some := by
          funext x; exact hv x
        rw [this, List.filterMap_some, List.filterMap_some]
      | insertFrom q => exact absurd hst (hb i q)
      | modify p g =>
        have hh := h_modify hst
        simp only [born, hst, List.filterMap_nil, List.append_nil, hh]
        cases ho : ok i
        · simp [ho]
        · simp [effectAt, hst, effect, ho]; rfl

/-! ### The invariant -/

/-- A row that came into the table at place `b`, and where it is now. -/
structure Lin (ρ : Type) where
  b : Nat
  x : ρ
  cur : Option (Path × ρ)

/-- The statement has committed. -/
def ok (s : State ρ) (i : Nat) : Bool :=
  match s.stage i with
  | .done => true
  | _ => false

theorem ok_iff (s : State ρ) (i : Nat) : ok s i = true ↔ s.stage i = .done := by
  unfold ok; split <;> simp_all

/-- The rows of some files with the names of the files. -/
def entries (fs : List (File ρ)) : List (Path × ρ) := fs.flatMap (fun f => f.rows.map (fun x => (f.path, x)))

/-- The row is in a file that the statement replaces. -/
def Touch (sys : Sys ρ) (ok : Nat → Bool) (A B : List Nat) (r : List Path) (l : Lin ρ) : Prop :=
  ∃ q v, l.cur = some (q, v) ∧ q ∈ r ∧ val sys ok A l.b l.x = some v ∧
    ∀ j ∈ B, ok j = true → hit sys j v = false

/-- The row is of no concern to the statement. -/
def Miss (sys : Sys ρ) (ok : Nat → Bool) (A : List Nat) (m : Nat) (r : List Path) (l : Lin ρ) : Prop :=
  (∀ q v, l.cur = some (q, v) → q ∉ r) ∧ ∀ v, val sys ok A l.b l.x = some v → hit sys m v = false

/-- What a statement that has not committed will do to a row. -/
def Pend (sys : Sys ρ) (ok : Nat → Bool) (pts : List Nat) (m : Nat) (r : List Path) (l : Lin ρ) : Prop :=
  ∀ A B, pts = A ++ m :: B →
    (l.b ≤ A.length → Touch sys ok A B r l ∨ Miss sys ok A m r l) ∧
    (A.length < l.b → ∀ q v, l.cur = some (q, v) → q ∉ r)

/-- The row has the value that the serial execution gives it. -/
def LinOk (sys : Sys ρ) (s : State ρ) (pts : List Nat) (l : Lin ρ) : Prop :=
  l.b ≤ pts.length ∧ l.cur.map (·.2) = val sys (ok s) pts l.b l.x ∧
  ∀ m v a r p g, s.stage m = .ready v a r → sys.stmts[m]? = some (.modify p g) →
    conflict s v r = true ∨ Pend sys (ok s) pts m r l

/-- The invariant. -/
structure Inv (sys : Sys ρ) (init : List (List ρ)) (s : State ρ) (pts : List Nat) : Prop where
  nodup : pts.Nodup
  donePts : ∀ i, s.stage i = .done → i ∈ pts
  started : ∀ i ∈ pts, s.stage i ≠ .start
  modPts : ∀ i v a r p g, s.stage i = .ready v a r → sys.stmts[i]? = some (.modify p g) → i ∈ pts
  insPts : ∀ i ∈ pts, ∀ rows, sys.stmts[i]? = some (.insert rows) → s.stage i = .done
  insAdds : ∀ i v a r rows, s.stage i = .ready v a r → sys.stmts[i]? = some (.insert rows) →
    a = write sys i rows ∧ r = []
  paths : (s.files.map (·.path)).Nodup
  live : ∀ f ∈ s.files, ∀ i, f.path.1 = i + 1 → s.stage i = .done
  remOld : ∀ m v a r, s.stage m = .ready v a r → ∀ q ∈ r, ∀ i, q.1 = i + 1 → s.stage i = .done
  verLe : ∀ m v a r, s.stage m = .ready v a r → v ≤ s.log.length
  addsPath : ∀ m v a r, s.stage m = .ready v a r → (∀ f ∈ a, f.path.1 = m + 1) ∧ (a.map (·.path)).Nodup
  addsRows : ∀ m v a r p g, s.stage m = .ready v a r → sys.stmts[m]? = some (.modify p g) →
    conflict s v r = true ∨
      rowsOf a = (rowsOf (s.files.filter (fun f => r.contains f.path))).filterMap (change p g)
  quiet : ∀ m v a r A B, s.stage m = .ready v a r → pts = A ++ m :: B → ∀ j ∈ B, Quiet sys m j
  lins : ∃ ls : List (Lin ρ), (ls.map (fun l => (l.b, l.x))).Perm (linsOf sys init pts) ∧
    (ls.filterMap (·.cur)).Perm (entries s.files) ∧ ∀ l ∈ ls, LinOk sys s pts l

/-! #### Lists -/

theorem split_two {A B A' B' : List Nat} {m m' : Nat} (hne : m ≠ m') (e : A ++ m :: B = A' ++ m' :: B') :
    (∃ C, A' = A ++ m :: C ∧ B = C ++ m' :: B') ∨ (∃ C, A = A' ++ m' :: C ∧ B' = C ++ m :: B) := by
  rcases List.append_eq_append_iff.1 e with ⟨c, h1, h2⟩ | ⟨c, h1, h2⟩
  · cases c with
    | nil => simp at h2; exact absurd h2.1 hne
    | cons y c => simp at h2; exact .inl ⟨c, by rw [h1, h2.1], h2.2⟩
  · cases c with
    | nil => simp at h2; exact absurd h2.1.symm hne
    | cons y c => simp at h2; exact .inr ⟨c, by rw [h1, h2.1], h2.2⟩

theorem snoc_split {pts A B : List Nat} {i m : Nat} (hne : m ≠ i) (e : pts ++ [i] = A ++ m :: B) :
    ∃ C, B = C ++ [i] ∧ pts = A ++ m :: C := by
  rcases split_two (A := pts) (B := []) (m := i) (m' := m) (fun h => hne h.symm) e with ⟨C, h1, h2⟩ | ⟨C, h1, h2⟩
  · simp at h2
  · exact ⟨C, h2, h1⟩

theorem snoc_split_self {pts A B : List Nat} {i : Nat} (hi : i ∉ pts) (e : pts ++ [i] = A ++ i :: B) :
    A = pts ∧ B = [] := by
  rcases List.append_eq_append_iff.1 e with ⟨c, h1, h2⟩ | ⟨c, h1, h2⟩
  · cases c with
    | nil => simp at h1 h2; exact ⟨h1, h2⟩
    | cons y c => simp at h2
  · cases c with
    | nil => simp at h1 h2; exact ⟨h1.symm, h2⟩
    | cons y c => simp at h2; exact absurd (by rw [h1, h2.1]; simp) hi

theorem entries_filter (fs : List (File ρ)) (c : Path → Bool) :
    entries (fs.filter (fun f => c f.path)) = (entries fs).filter (fun e => c e.1) := by
  induction fs with
  | nil => rfl
  | cons f fs ih =>
    simp only [entries, List.filter_cons, List.flatMap_cons, List.filter_append] at ih ⊢
    have : (f.rows.map (fun x => (f.path, x))).filter (fun e : Path × ρ => c e.1) =
        if c f.path then f.rows.map (fun x => (f.path, x)) else [] := by
      rw [List.filter_map]
      have e : ((fun e : Path × ρ => c e.1) ∘ fun x => (f.path, x)) = fun _ => c f.path := rfl
      rw [e]
      cases c f.path
      · simp
      · rw [List.filter_eq_self.2 (by simp)]; simp
    rw [this]
    split
    · rw [List.flatMap_cons, ih]
    · simpa using ih

theorem entries_rows (fs : List (File ρ)) : (entries fs).map (·.2) = rowsOf fs := by
  simp [entries, rowsOf, List.map_flatMap, List.map_map, Function.comp_def]

theorem entries_append (fs fs' : List (File ρ)) : entries (fs ++ fs') = entries fs ++ entries fs' := by
  simp [entries]

theorem mem_entries {fs : List (File ρ)} {q : Path} {v : ρ} (he : (q, v) ∈ entries fs) :
    ∃ f ∈ fs, f.path = q ∧ v ∈ f.rows := by
  simp only [entries, List.mem_flatMap, List.mem_map, Prod.mk.injEq] at he
  obtain ⟨f, hf, x, hx, h1, h2⟩ := he
  exact ⟨f, hf, h1, h2 ▸ hx⟩

theorem write_rows (sys : Sys ρ) (hs : Sound sys) (i : Nat) (rows : List ρ) : rowsOf (write sys i rows) = rows := by
  have : ∀ (c : List (List ρ)) k, rowsOf ((c.zipIdx k).map (fun c => (⟨(i + 1, c.2), c.1⟩ : File ρ))) = c.flatten := by
    intro c
    induction c with
    | nil => intro k; rfl
    | cons x c ih => intro k; simp only [List.zipIdx_cons, List.map_cons, rowsOf, List.flatMap_cons, List.flatten_cons]
                     have := ih (k + 1); unfold rowsOf at this; rw [this]
  unfold write
  rw [this, hs.cut]

theorem write_path (sys : Sys ρ) (i : Nat) (rows : List ρ) :
    (∀ f ∈ write sys i rows, f.path.1 = i + 1) ∧ ((write sys i rows).map (·.path)).Nodup := by
  constructor
  · intro f hf
    simp only [write, List.mem_map] at hf
    obtain ⟨c, _, hc⟩ := hf
    simp [← hc]
  · have : ∀ (c : List (List ρ)) k,
        (∀ q ∈ ((c.zipIdx k).map (fun c => (⟨(i + 1, c.2), c.1⟩ : File ρ))).map (·.path), k ≤ q.2) ∧
        (((c.zipIdx k).map (fun c => (⟨(i + 1, c.2), c.1⟩ : File ρ))).map (·.path)).Nodup := by
      intro c
      induction c with
      | nil => intro k; simp
      | cons x c ih =>
        intro k
        obtain ⟨h1, h2⟩ := ih (k + 1)
        simp only [List.zipIdx_cons, List.map_cons, List.mem_cons, List.nodup_cons]
        refine ⟨?_, ?_, h2⟩
        · rintro q (rfl | hq)
          · exact Nat.le_refl k
          · have := h1 q hq; omega
        · intro hq; have : k + 1 ≤ k := h1 _ hq; omega
    exact (this _ 0).2

theorem inj_of_nodup (fs : List (File ρ)) (hn : (fs.map (·.path)).Nodup) {f f' : File ρ} (hf : f ∈ fs) (hf' : f' ∈ fs)
    (he : f.path = f'.path) : f = f' := by
  induction fs with
  | nil => simp at hf
  | cons x fs ih =>
    rw [List.map_cons, List.nodup_cons] at hn
    rcases List.mem_cons.1 hf with rfl | h1 <;> rcases List.mem_cons.1 hf' with rfl | h2
    · rfl
    · exact absurd (List.mem_map.2 ⟨f', h2, he.symm⟩) hn.1
    · exact absurd (List.mem_map.2 ⟨f, h1, he⟩) hn.1
    · exact ih hn.2 h1 h2

theorem filter_touched (fs : List (File ρ)) (hn : (fs.map (·.path)).Nodup) (c : File ρ → Bool) :
    fs.filter (fun f => ((fs.filter c).map (·.path)).contains f.path) = fs.filter c := by
  apply List.filter_congr
  intro f hf
  cases hc : c f with
  | true => simp only [List.contains_eq_mem, List.mem_map, List.mem_filter, decide_eq_true_eq]; exact ⟨f, ⟨hf, hc⟩, rfl⟩
  | false =>
    simp only [List.contains_eq_mem, List.mem_map, List.mem_filter, decide_eq_false_iff_not]
    rintro ⟨f', ⟨hf', hc'⟩, he⟩
    have : f' = f := inj_of_nodup fs hn hf' hf he
    rw [this, hc] at hc'
    cases hc'

/-- Values can be found in a list of entries one after the other. -/
theorem assign {α : Type} (f : α → Option ρ) (xs : List α) :
    ∀ es : List (Path × ρ), (es.map (·.2)).Perm (xs.filterMap f) →
      ∃ c : List (α × Option (Path × ρ)), c.map (·.1) = xs ∧ (∀ z ∈ c, z.2.map (·.2) = f z.1) ∧
        (c.filterMap (·.2)).Perm es := by
  induction xs with
  | nil => intro es he; simp at he; subst he; exact ⟨[], rfl, by simp, by simp⟩
  | cons x xs ih =>
    intro es he
    rw [List.filterMap_cons] at he
    cases hx : f x with
    | none =>
      simp only [hx] at he
      obtain ⟨c, h1, h2, h3⟩ := ih es he
      exact ⟨(x, none) :: c, by simp [h1], by simp only [List.mem_cons]; rintro z (rfl | hz); exacts [by simp [hx], h2 z hz],
        by simpa using h3⟩
    | some v =>
      simp only [hx] at he
      have hv : v ∈ es.map (·.2) := he.mem_iff.2 (by simp)
      obtain ⟨e, hm, hev⟩ := List.mem_map.1 hv
      obtain ⟨s, t, rfl⟩ := List.append_of_mem hm
      have he' : ((s ++ t).map (·.2)).Perm (xs.filterMap f) := by
        apply List.Perm.cons_inv (a := v)
        refine List.Perm.trans ?_ he
        simp only [List.map_append, List.map_cons, hev]
        exact List.perm_middle.symm
      obtain ⟨c, h1, h2, h3⟩ := ih (s ++ t) he'
      exact ⟨(x, some e) :: c, by simp [h1],
        by simp only [List.mem_cons]; rintro z (rfl | hz); exacts [by simp [hx, hev], h2 z hz],
        by simpa using (h3.cons e).trans List.perm_middle.symm⟩

theorem conflict_snoc (s s' : State ρ) (e : Nat × List Path) (hl : s'.log = s.log ++ [e]) (v : Nat) (r : List Path)
    (hv : v ≤ s.log.length) :
    conflict s' v r = (conflict s v r || e.2.any (fun p => r.contains p)) := by
  simp [conflict, hl, List.drop_append_of_le_length hv]

/-! #### Rows when a statement commits -/

section commit
variable (sys : Sys ρ) (ok ok' : Nat → Bool) (m : Nat) (A B : List Nat) (r : List Path)
  (hoff : ∀ i, i ≠ m → ok' i = ok i) (hm : ok m = false) (hm' : ok' m = true) (hn : (A ++ m :: B).Nodup)
include hoff

theorem val_before (b : Nat) (x : ρ) (C : List Nat) (hC : m ∉ C) : val sys ok' C b x = val sys ok C b x := by
  apply fo_congr
  intro i hi
  exact hoff i fun h => hC (h ▸ List.mem_of_mem_drop hi)

include hm hm' hn

theorem val_missed (l : Lin ρ) (hp : Pend sys ok (A ++ m :: B) m r l) (hcur : ∀ q v, l.cur = some (q, v) → q ∉ r)
    (C D : List Nat) (hC : A ++ m :: B = C ++ D) : val sys ok' C l.b l.x = val sys ok C l.b l.x := by
  by_cases hmC : m ∈ C
  · obtain ⟨C1, C2, rfl⟩ := List.append_of_mem hmC
    have hA : C1 = A ∧ C2 ++ D = B := by
      have hnA : m ∉ A := fun h => by
        rw [List.nodup_append] at hn; exact hn.2.2 m h m (by simp) rfl
      have e : A ++ m :: B = C1 ++ m :: (C2 ++ D) := by simpa using hC
      have hnC : m ∉ C1 := fun h => by
        rw [e, List.nodup_append] at hn; exact hn.2.2 m h m (by simp) rfl
      rcases List.append_eq_append_iff.1 e with ⟨c, h1, h2⟩ | ⟨c, h1, h2⟩
      · cases c with
        | nil => simp at h1 h2; exact ⟨h1, h2.symm⟩
        | cons y c => simp at h2; exact absurd (by rw [h1, ← h2.1]; simp) hnC
      · cases c with
        | nil => simp at h1 h2; exact ⟨h1.symm, h2⟩
        | cons y c => simp at h2; exact absurd (by rw [h1, ← h2.1]; simp) hnA
    obtain ⟨rfl, rfl⟩ := hA
    have hnC1 : m ∉ C1 := fun h => by
      rw [List.nodup_append] at hn; exact hn.2.2 m h m (by simp) rfl
    have hnC2 : m ∉ C2 := fun h => by
      rw [List.nodup_append] at hn
      have := hn.2.1; rw [List.nodup_cons] at this; exact this.1 (by simp [h])
    by_cases hb : l.b ≤ C1.length
    · have hv := val_before sys ok ok' m hoff l.b l.x C1 hnC1
      unfold val at hv ⊢
      rw [List.drop_append_of_le_length hb, fo_append, fo_append, hv, fo_cons, fo_cons, hm, hm']
      rcases (hp C1 (C2 ++ D) rfl).1 hb with ⟨q, v, h1, h2, _⟩ | ⟨_, h2⟩
      · exact absurd h2 (hcur q v h1)
      · have e : fo sys ok (C1.drop l.b) (some l.x) = val sys ok C1 l.b l.x := rfl
        rw [e]
        have e2 : (if true = true then (val sys ok C1 l.b l.x).bind (h sys m) else val sys ok C1 l.b l.x) =
            val sys ok C1 l.b l.x := by
          cases hc : val sys ok C1 l.b l.x with
          | none => rfl
          | some v => simpa using h_of_not_hit sys m v (h2 v hc)
        rw [e2]
        simp only [Bool.false_eq_true, if_false]
        apply fo_congr
        intro i hi
        exact hoff i fun h => hnC2 (h ▸ hi)
    · unfold val
      apply fo_congr
      intro i hi
      apply hoff
      rintro rfl
      have : (C1 ++ i :: C2).drop l.b = C2.drop (l.b - C1.length - 1) := by
        rw [List.drop_append, List.drop_of_length_le (by omega)]
        obtain ⟨k, hk⟩ : ∃ k, l.b - C1.length = k + 1 := ⟨l.b - C1.length - 1, by omega⟩
        rw [hk]; simp
      rw [this] at hi
      exact hnC2 (List.mem_of_mem_drop hi)
  · exact val_before sys ok ok' m hoff l.b l.x C hmC

theorem val_touched (l : Lin ρ) (v : ρ) (hb : l.b ≤ A.length) (hv : val sys ok A l.b l.x = some v)
    (hB : ∀ j ∈ B, ok j = true → hit sys j v = false) (hq : ∀ j ∈ B, Quiet sys m j)
    (C D : List Nat) (hC : B = C ++ D) :
    val sys ok (A ++ m :: C) l.b l.x = some v ∧ val sys ok' (A ++ m :: C) l.b l.x = h sys m v := by
  have hnA : m ∉ A := fun h => by
    rw [List.nodup_append] at hn; exact hn.2.2 m h m (by simp) rfl
  have hnC : m ∉ C := fun h => by
    rw [List.nodup_append] at hn
    have := hn.2.1; rw [List.nodup_cons] at this; exact this.1 (by rw [hC]; simp [h])
  have hv' := val_before sys ok ok' m hoff l.b l.x A hnA
  unfold val at hv hv' ⊢
  rw [List.drop_append_of_le_length hb, fo_append, fo_append, hv', hv, fo_cons, fo_cons, hm, hm']
  constructor
  · simp only [Bool.false_eq_true, if_false]
    exact fo_fix sys ok C v fun j hj => hB j (by rw [hC]; simp [hj])
  · simp only [if_true, Option.bind_some]
    cases hy : h sys m v with
    | none => exact fo_none sys ok' C
    | some y =>
      apply fo_fix
      intro j hj hoj
      have hjB : j ∈ B := by rw [hC]; simp [hj]
      exact quiet_hit (hq j hjB) (hB j hjB (by rw [← hoff j fun h => hnC (h ▸ hj)]; exact hoj)) hy

end commit
/-! #### Steps -/

theorem stage_set (s : State ρ) (i j : Nat) (st : Stage ρ) :
    (setStage s i st).stage j = if j = i then st else s.stage j := rfl

theorem ok_set_same (s : State ρ) (i : Nat) (st : Stage ρ) (h1 : s.stage i ≠ .done) (h2 : st ≠ .done) :
    ok (setStage s i st) = ok s := by
  funext j
  by_cases hj : j = i
  · subst hj
    have a : ok (setStage s j st) j = false := by
      rw [Bool.eq_false_iff, ne_eq, ok_iff, stage_set]; simpa using h2
    have b : ok s j = false := by rw [Bool.eq_false_iff, ne_eq, ok_iff]; exact h1
    rw [a, b]
  · simp [ok, stage_set, hj]

/-- A statement fails. -/
theorem inv_fail {sys : Sys ρ} {init : List (List ρ)} {s : State ρ} {pts : List Nat} (hi : Inv sys init s pts) (i : Nat)
    (hnd : s.stage i ≠ .done) : Inv sys init (setStage s i .failed) pts := by
  have hr : ∀ {m v a r}, (setStage s i .failed).stage m = .ready v a r → s.stage m = .ready v a r := by
    intro m v a r h
    rw [stage_set] at h
    split at h
    · cases h
    · exact h
  have hd : ∀ {m}, s.stage m = .done → (setStage s i .failed).stage m = .done := by
    intro m h
    rw [stage_set]
    split
    · next e => subst e; exact absurd h hnd
    · exact h
  have hok := ok_set_same s i .failed hnd (by simp)
  obtain ⟨ls, h1, h2, h3⟩ := hi.lins
  refine
    { nodup := hi.nodup
      donePts := ?_, started := ?_
      modPts := fun j v a r p g h => hi.modPts j v a r p g (hr h)
      insPts := fun j hj rows h => hd (hi.insPts j hj rows h)
      insAdds := fun j v a r rows h => hi.insAdds j v a r rows (hr h)
      paths := hi.paths
      live := fun f hf j h => hd (hi.live f hf j h)
      remOld := fun m v a r h q hq j hj => hd (hi.remOld m v a r (hr h) q hq j hj)
      verLe := fun m v a r h => hi.verLe m v a r (hr h)
      addsPath := fun m v a r h => hi.addsPath m v a r (hr h)
      addsRows := fun m v a r p g h => hi.addsRows m v a r p g (hr h)
      quiet := fun m v a r A B h => hi.quiet m v a r A B (hr h)
      lins := ⟨ls, h1, h2, fun l hl => ?_⟩ }
  · intro j h
    rw [stage_set] at h
    split at h
    · cases h
    · exact hi.donePts j h
  · intro j hj h
    rw [stage_set] at h
    split at h
    · cases h
    · exact hi.started j hj h
  · obtain ⟨a1, a2, a3⟩ := h3 l hl
    refine ⟨a1, by rw [hok]; exact a2, fun m v a r p g h e => ?_⟩
    rw [hok]
    exact a3 m v a r p g (hr h) e

/-- An INSERT writes its files. -/
theorem inv_insert_start {sys : Sys ρ} {init : List (List ρ)} {s : State ρ} {pts : List Nat} (hi : Inv sys init s pts)
    (i : Nat) (rows : List ρ) (hst : sys.stmts[i]? = some (.insert rows)) (hs : s.stage i = .start) :
    Inv sys init (setStage s i (.ready s.log.length (write sys i rows) [])) pts := by
  have hnp : i ∉ pts := fun h => hi.started i h hs
  have hr : ∀ {m v a r}, (setStage s i (.ready s.log.length (write sys i rows) [])).stage m = .ready v a r →
      (m = i ∧ v = s.log.length ∧ a = write sys i rows ∧ r = []) ∨ (m ≠ i ∧ s.stage m = .ready v a r) := by
    intro m v a r h
    rw [stage_set] at h
    split at h
    · next e => cases h; exact .inl ⟨e, rfl, rfl, rfl⟩
    · next e => exact .inr ⟨e, h⟩
  have hd : ∀ {m}, s.stage m = .done → (setStage s i (.ready s.log.length (write sys i rows) [])).stage m = .done := by
    intro m h
    rw [stage_set]
    split
    · next e => subst e; rw [hs] at h; cases h
    · exact h
  have hok := ok_set_same s i (.ready s.log.length (write sys i rows) []) (by rw [hs]; simp) (by simp)
  obtain ⟨ls, h1, h2, h3⟩ := hi.lins
  refine
    { nodup := hi.nodup
      donePts := ?_, started := ?_, modPts := ?_
      insPts := fun j hj rows h => hd (hi.insPts j hj rows h)
      insAdds := ?_
      paths := hi.paths
      live := fun f hf j h => hd (hi.live f hf j h)
      remOld := ?_, verLe := ?_, addsPath := ?_, addsRows := ?_, quiet := ?_
      lins := ⟨ls, h1, h2, fun l hl => ?_⟩ }
  · intro j h
    rw [stage_set] at h
    split at h
    · cases h
    · exact hi.donePts j h
  · intro j hj h
    rw [stage_set] at h
    split at h
    · cases h
    · exact hi.started j hj h
  · intro j v a r p g h e
    rcases hr h with ⟨rfl, _⟩ | ⟨_, h⟩
    · rw [hst] at e; cases e
    · exact hi.modPts j v a r p g h e
  · intro j v a r rows' h e
    rcases hr h with ⟨rfl, _, ha, hr⟩ | ⟨_, h⟩
    · rw [hst] at e; cases e; exact ⟨ha, hr⟩
    · exact hi.insAdds j v a r rows' h e
  · intro m v a r h q hq j hj
    rcases hr h with ⟨rfl, _, _, hr⟩ | ⟨_, h⟩
    · rw [hr] at hq; cases hq
    · exact hd (hi.remOld m v a r h q hq j hj)
  · intro m v a r h
    rcases hr h with ⟨rfl, hv, _⟩ | ⟨_, h⟩
    · exact Nat.le_of_eq hv
    · exact hi.verLe m v a r h
  · intro m v a r h
    rcases hr h with ⟨rfl, _, ha, _⟩ | ⟨_, h⟩
    · rw [ha]; exact write_path sys m rows
    · exact hi.addsPath m v a r h
  · intro m v a r p g h e
    rcases hr h with ⟨rfl, _⟩ | ⟨_, h⟩
    · rw [hst] at e; cases e
    · exact hi.addsRows m v a r p g h e
  · intro m v a r A B h e
    rcases hr h with ⟨rfl, _⟩ | ⟨_, h⟩
    · exact absurd (by rw [e]; simp) hnp
    · exact hi.quiet m v a r A B h e
  · obtain ⟨a1, a2, a3⟩ := h3 l hl
    refine ⟨a1, by rw [hok]; exact a2, fun m v a r p g h e => ?_⟩
    rw [hok]
    rcases hr h with ⟨rfl, _⟩ | ⟨_, h⟩
    · rw [hst] at e; cases e
    · exact a3 m v a r p g h e

/-- An UPDATE or DELETE takes its snapshot. -/
theorem inv_modify_start {sys : Sys ρ} {init : List (List ρ)} {s : State ρ} {pts : List Nat} (hi : Inv sys init s pts)
    (hso : Sound sys) (i : Nat) (p : ρ → Bool) (g : ρ → Option ρ) (hst : sys.stmts[i]? = some (.modify p g))
    (hs : s.stage i = .start) (hq : ∀ m, Ready s m → Quiet sys m i) :
    Inv sys init (setStage s i (prepare sys s i (.modify p g))) (pts ++ [i]) := by
  have hnp : i ∉ pts := fun h => hi.started i h hs
  generalize hT : s.files.filter (fun f => sys.keep i f.rows) = T
  have hprep : prepare sys s i (.modify p g) =
      .ready s.log.length (write sys i ((rowsOf T).filterMap (change p g))) (T.map (·.path)) := by
    simp only [prepare, hT]
  rw [hprep]
  generalize hW : write sys i ((rowsOf T).filterMap (change p g)) = W
  generalize hX : Stage.ready s.log.length W (T.map (·.path)) = X
  have hXd : X ≠ .done := by rw [← hX]; simp
  have hr : ∀ {m v a r}, (setStage s i X).stage m = .ready v a r →
      (m = i ∧ v = s.log.length ∧ a = W ∧ r = T.map (·.path)) ∨ (m ≠ i ∧ s.stage m = .ready v a r) := by
    intro m v a r h
    rw [stage_set] at h
    split at h
    · next e => rw [← hX] at h; cases h; exact .inl ⟨e, rfl, rfl, rfl⟩
    · next e => exact .inr ⟨e, h⟩
  have hd : ∀ {m}, s.stage m = .done → (setStage s i X).stage m = .done := by
    intro m h
    rw [stage_set]
    split
    · next e => subst e; rw [hs] at h; cases h
    · exact h
  have hok := ok_set_same s i X (by rw [hs]; simp) hXd
  have hoi : ok s i = false := by rw [Bool.eq_false_iff, ne_eq, ok_iff, hs]; simp
  obtain ⟨ls, h1, h2, h3⟩ := hi.lins
  have hborn : born sys i pts.length = [] := by simp [born, hst]
  refine
    { nodup := ?_
      donePts := ?_, started := ?_, modPts := ?_, insPts := ?_, insAdds := ?_
      paths := hi.paths
      live := fun f hf j h => hd (hi.live f hf j h)
      remOld := ?_, verLe := ?_, addsPath := ?_, addsRows := ?_, quiet := ?_
      lins := ⟨ls, by rw [linsOf_snoc, hborn, List.append_nil]; exact h1, h2, fun l hl => ?_⟩ }
  · rw [List.nodup_append]
    exact ⟨hi.nodup, by simp, fun c hc d hd h => hnp (List.mem_singleton.1 hd ▸ h ▸ hc)⟩
  · intro j h
    rw [stage_set] at h
    split at h
    · exact absurd h hXd
    · exact List.mem_append_left _ (hi.donePts j h)
  · intro j hj h
    rw [stage_set] at h
    split at h
    · rw [← hX] at h; cases h
    · next e =>
      rcases List.mem_append.1 hj with hj | hj
      · exact hi.started j hj h
      · exact e (by simpa using hj)
  · intro j v a r p' g' h e
    rcases hr h with ⟨rfl, _⟩ | ⟨_, h⟩
    · simp
    · exact List.mem_append_left _ (hi.modPts j v a r p' g' h e)
  · intro j hj rows e
    rcases List.mem_append.1 hj with hj | hj
    · exact hd (hi.insPts j hj rows e)
    · simp at hj; subst hj; rw [hst] at e; cases e
  · intro j v a r rows' h e
    rcases hr h with ⟨rfl, _⟩ | ⟨_, h⟩
    · rw [hst] at e; cases e
    · exact hi.insAdds j v a r rows' h e
  · intro m v a r h q hqr j hj
    rcases hr h with ⟨rfl, _, _, hr0⟩ | ⟨_, h⟩
    · rw [hr0] at hqr
      obtain ⟨f, hf, rfl⟩ := List.mem_map.1 hqr
      rw [← hT] at hf
      exact hd (hi.live f (List.mem_filter.1 hf).1 j hj)
    · exact hd (hi.remOld m v a r h q hqr j hj)
  · intro m v a r h
    rcases hr h with ⟨rfl, hv, _⟩ | ⟨_, h⟩
    · exact Nat.le_of_eq hv
    · exact hi.verLe m v a r h
  · intro m v a r h
    rcases hr h with ⟨rfl, _, ha, _⟩ | ⟨_, h⟩
    · rw [ha, ← hW]; exact write_path sys m _
    · exact hi.addsPath m v a r h
  · intro m v a r p' g' h e
    rcases hr h with ⟨rfl, _, ha, hr⟩ | ⟨_, h⟩
    · right
      rw [hst] at e; cases e
      rw [ha, ← hW, write_rows sys hso, hr]
      show _ = (rowsOf (s.files.filter _)).filterMap _
      rw [← hT, filter_touched s.files hi.paths]
    · exact hi.addsRows m v a r p' g' h e
  · intro m v a r A B h e j hj
    rcases hr h with ⟨rfl, _⟩ | ⟨hne, h0⟩
    · obtain ⟨_, rfl⟩ := snoc_split_self hnp e; cases hj
    · obtain ⟨C, rfl, e'⟩ := snoc_split hne e
      rcases List.mem_append.1 hj with hj | hj
      · exact hi.quiet m v a r A C h0 e' j hj
      · rw [List.mem_singleton.1 hj]; exact hq m ⟨v, a, r, h0⟩
  · obtain ⟨a1, a2, a3⟩ := h3 l hl
    refine ⟨by simp; omega, by rw [hok, val_snoc _ _ _ _ _ _ a1, hoi]; simpa using a2, fun m v a r p' g' h e => ?_⟩
    rw [hok]
    rcases hr h with ⟨rfl, _, _, hr⟩ | ⟨hne, h⟩
    · right
      intro A B hAB
      obtain ⟨rfl, rfl⟩ := snoc_split_self hnp hAB
      refine ⟨fun _ => ?_, fun hlt => by omega⟩
      rw [hr]
      rcases hc : l.cur with _ | ⟨q, v⟩
      · right
        refine ⟨fun q v hqv => (by rw [hc] at hqv; cases hqv), fun v hv => ?_⟩
        rw [hc] at a2; rw [← a2] at hv; cases hv
      · have hcv : val sys (ok s) A l.b l.x = some v := by rw [← a2, hc]; rfl
        by_cases hqm : q ∈ T.map (·.path)
        · exact .inl ⟨q, v, hc, hqm, hcv, by simp⟩
        · right
          refine ⟨fun q' v' h' => by rw [hc] at h'; cases h'; exact hqm, fun v' hv' => ?_⟩
          rw [hcv] at hv'; cases hv'
          have hme : (q, v) ∈ entries s.files := h2.mem_iff.1 (List.mem_filterMap.2 ⟨l, hl, hc⟩)
          obtain ⟨f, hf, hfq, hfv⟩ := mem_entries hme
          rw [hit_modify hst]
          rcases hpv : p v with _ | _
          · rfl
          · exfalso
            apply hqm
            rw [← hT]
            exact List.mem_map.2 ⟨f, List.mem_filter.2 ⟨hf, hso.keep m p g hst f.rows ⟨v, hfv, hpv⟩⟩, hfq⟩
    · rcases a3 m v a r p' g' h e with hc | hp
      · exact .inl hc
      · right
        intro A B hAB
        obtain ⟨C, rfl, hAC⟩ := snoc_split hne hAB
        obtain ⟨b1, b2⟩ := hp A C hAC
        refine ⟨fun hb => ?_, b2⟩
        rcases b1 hb with ⟨q, w, c1, c2, c3, c4⟩ | hm
        · left
          refine ⟨q, w, c1, c2, c3, fun j hj hoj => ?_⟩
          rcases List.mem_append.1 hj with hj | hj
          · exact c4 j hj hoj
          · simp at hj; subst hj; rw [hoi] at hoj; cases hoj
        · exact .inr hm

/-- The state after a commit without conflict. -/
def committed (s : State ρ) (i : Nat) (adds : List (File ρ)) (removes : List Path) : State ρ :=
  setStage { s with files := s.files.filter (fun f => !removes.contains f.path) ++ adds
                    log := s.log ++ [(i, removes)] } i .done

theorem committed_stage (s : State ρ) (i : Nat) (adds : List (File ρ)) (removes : List Path) (j : Nat) :
    (committed s i adds removes).stage j = if j = i then .done else s.stage j := rfl

theorem ok_committed (s : State ρ) (i : Nat) (adds : List (File ρ)) (removes : List Path) (j : Nat) :
    ok (committed s i adds removes) j = if j = i then true else ok s j := by
  unfold ok
  rw [committed_stage]
  by_cases h : j = i <;> simp [h]

/-- What a commit does to the parts of the invariant that do not concern the values of rows. -/
theorem paths_committed {sys : Sys ρ} {init : List (List ρ)} {s : State ρ} {pts : List Nat} (hi : Inv sys init s pts)
    {i v : Nat} {a : List (File ρ)} {r : List Path} (hs : s.stage i = .ready v a r) :
    ((committed s i a r).files.map (·.path)).Nodup ∧
      (∀ f ∈ (committed s i a r).files, ∀ j, f.path.1 = j + 1 → (committed s i a r).stage j = .done) := by
  obtain ⟨ha1, ha2⟩ := hi.addsPath i v a r hs
  constructor
  · show ((s.files.filter _ ++ a).map _).Nodup
    rw [List.map_append, List.nodup_append]
    refine ⟨hi.paths.sublist (List.filter_sublist.map _), ha2, ?_⟩
    rintro q hq q' hq' rfl
    obtain ⟨f, hf, rfl⟩ := List.mem_map.1 hq
    obtain ⟨f', hf', he⟩ := List.mem_map.1 hq'
    have := hi.live f (List.mem_filter.1 hf).1 i (by rw [← he]; exact ha1 f' hf')
    rw [hs] at this; cases this
  · intro f hf j hj
    rw [committed_stage]
    split
    · rfl
    · next hne =>
      rcases List.mem_append.1 (show f ∈ s.files.filter _ ++ a from hf) with hf | hf
      · exact hi.live f (List.mem_filter.1 hf).1 j hj
      · have := ha1 f hf; omega

/-- The files that another statement replaces are still there, or it has a conflict. -/
theorem rows_committed {sys : Sys ρ} {init : List (List ρ)} {s : State ρ} {pts : List Nat} (hi : Inv sys init s pts)
    {i v : Nat} {a : List (File ρ)} {r : List Path} (hs : s.stage i = .ready v a r)
    {m v' : Nat} {a' : List (File ρ)} {r' : List Path} {p : ρ → Bool} {g : ρ → Option ρ}
    (hs' : s.stage m = .ready v' a' r') (e : sys.stmts[m]? = some (.modify p g)) :
    conflict (committed s i a r) v' r' = true ∨
      rowsOf a' = (rowsOf ((committed s i a r).files.filter (fun f => r'.contains f.path))).filterMap (change p g) := by
  have hcs := conflict_snoc s (committed s i a r) (i, r) rfl v' r' (hi.verLe m v' a' r' hs')
  rcases hi.addsRows m v' a' r' p g hs' e with hc | hr
  · left; rw [hcs, hc]; rfl
  · cases hx : r.any (fun p => r'.contains p) with
    | true => left; rw [hcs, hx]; simp
    | false =>
      right
      have e1 : (committed s i a r).files.filter (fun f => r'.contains f.path) =
          s.files.filter (fun f => r'.contains f.path) := by
        show (s.files.filter _ ++ a).filter _ = _
        have e2 : a.filter (fun f => r'.contains f.path) = [] := by
          rw [List.filter_eq_nil_iff]
          intro f hf hcon
          have := hi.remOld m v' a' r' hs' f.path (by simpa using hcon) i ((hi.addsPath i v a r hs).1 f hf)
          rw [hs] at this; cases this
        rw [List.filter_append, e2, List.append_nil, List.filter_filter]
        apply List.filter_congr
        intro f _
        cases hc : r'.contains f.path with
        | false => rfl
        | true =>
          have : r.contains f.path = false := by
            cases hrc : r.contains f.path with
            | false => rfl
            | true =>
              have : r.any (fun p => r'.contains p) = true := by
                rw [List.any_eq_true]; exact ⟨f.path, by simpa using hrc, hc⟩
              rw [hx] at this; cases this
          rw [this]; rfl
      rw [e1]; exact hr

/-- An INSERT commits. -/
theorem inv_insert_commit {sys : Sys ρ} {init : List (List ρ)} {s : State ρ} {pts : List Nat} (hi : Inv sys init s pts)
    (hso : Sound sys) (i v : Nat) (a : List (File ρ)) (r : List Path) (rows : List ρ)
    (hst : sys.stmts[i]? = some (.insert rows)) (hs : s.stage i = .ready v a r) :
    Inv sys init (committed s i a r) (pts ++ [i]) := by
  obtain ⟨ha, hr0⟩ := hi.insAdds i v a r rows hs hst
  have hnp : i ∉ pts := fun h => by have := hi.insPts i h rows hst; rw [hs] at this; cases this
  have hr : ∀ {m v' a' r'}, (committed s i a r).stage m = .ready v' a' r' → m ≠ i ∧ s.stage m = .ready v' a' r' := by
    intro m v a r h
    rw [committed_stage] at h
    split at h
    · cases h
    · next e => exact ⟨e, h⟩
  have hd : ∀ {m}, s.stage m = .done → (committed s i a r).stage m = .done := by
    intro m h; rw [committed_stage]; split
    · rfl
    · exact h
  have hoff : ∀ j, j ≠ i → ok (committed s i a r) j = ok s j := fun j hj => by rw [ok_committed]; simp [hj]
  have hoi : ok (committed s i a r) i = true := by rw [ok_committed]; simp
  have hhi : h sys i = some := by funext x; simp [h, hst]
  have hhit : ∀ x, hit sys i x = false := by intro x; simp [hit, hst]
  obtain ⟨ls, h1, h2, h3⟩ := hi.lins
  obtain ⟨hp1, hp2⟩ := paths_committed hi hs
  have hmem : ∀ l ∈ ls, l.b ≤ pts.length := fun l hl => (h3 l hl).1
  have hval : ∀ (C : List Nat) b (x : ρ), i ∉ C → val sys (ok (committed s i a r)) C b x = val sys (ok s) C b x :=
    fun C b x hC => val_before sys (ok s) (ok (committed s i a r)) i hoff b x C hC
  refine
    { nodup := ?_
      donePts := ?_, started := ?_, modPts := ?_, insPts := ?_
      insAdds := fun j v a r rows' h e => hi.insAdds j v a r rows' (hr h).2 e
      paths := hp1, live := hp2
      remOld := fun m v a r h q hq j hj => hd (hi.remOld m v a r (hr h).2 q hq j hj)
      verLe := ?_
      addsPath := fun m v a r h => hi.addsPath m v a r (hr h).2
      addsRows := fun m v a r p' g' h e => rows_committed hi hs (hr h).2 e
      quiet := ?_
      lins := ⟨ls ++ (entries a).map (fun e => ⟨pts.length, e.2, some e⟩), ?_, ?_, ?_⟩ }
  · rw [List.nodup_append]
    exact ⟨hi.nodup, by simp, fun c hc d hd h => hnp (List.mem_singleton.1 hd ▸ h ▸ hc)⟩
  · intro j h
    rw [committed_stage] at h
    split at h
    · next e => simp [e]
    · exact List.mem_append_left _ (hi.donePts j h)
  · intro j hj h
    rw [committed_stage] at h
    split at h
    · cases h
    · next e =>
      rcases List.mem_append.1 hj with hj | hj
      · exact hi.started j hj h
      · exact e (by simpa using hj)
  · intro j v a r p' g' h e
    exact List.mem_append_left _ (hi.modPts j v a r p' g' (hr h).2 e)
  · intro j hj rows' e
    rcases List.mem_append.1 hj with hj | hj
    · exact hd (hi.insPts j hj rows' e)
    · simp at hj; subst hj; rw [committed_stage]; simp
  · intro m v' a' r' h
    show v' ≤ (s.log ++ [(i, r)]).length
    have := hi.verLe m v' a' r' (hr h).2
    simp; omega
  · intro m v' a' r' A B h e j hj
    obtain ⟨C, rfl, e0⟩ := snoc_split (hr h).1 e
    rcases List.mem_append.1 hj with hj | hj
    · exact hi.quiet m v' a' r' A C (hr h).2 e0 j hj
    · rw [List.mem_singleton.1 hj]
      intro p g p' g' _ e'
      rw [hst] at e'; cases e'
  · rw [linsOf_snoc, List.map_append, List.map_map]
    refine h1.append (List.Perm.of_eq ?_)
    have e1 : ((fun l : Lin ρ => (l.b, l.x)) ∘ fun e : Path × ρ => (⟨pts.length, e.2, some e⟩ : Lin ρ)) =
        (fun x => (pts.length, x)) ∘ (fun e : Path × ρ => e.2) := rfl
    rw [e1, ← List.map_map, entries_rows, ha, write_rows sys hso]
    simp [born, hst]
  · rw [List.filterMap_append]
    show List.Perm _ (entries (s.files.filter _ ++ a))
    rw [entries_append, hr0]
    refine List.Perm.append ?_ (List.Perm.of_eq ?_)
    · rw [List.filter_eq_self.2 (by simp)]; exact h2
    · rw [List.filterMap_map]
      exact List.filterMap_some
  · intro l hl
    rcases List.mem_append.1 hl with hl | hl
    · obtain ⟨a1, a2, a3⟩ := h3 l hl
      refine ⟨by simp; omega, ?_, fun m v' a' r' p' g' h e => ?_⟩
      · rw [val_snoc _ _ _ _ _ _ a1, hoi, hhi, hval pts _ _ hnp, a2]; simp
      · obtain ⟨hne, h⟩ := hr h
        rcases a3 m v' a' r' p' g' h e with hc | hp
        · left; rw [conflict_snoc s _ (i, r) rfl v' r' (hi.verLe m v' a' r' h), hc]; rfl
        · right
          intro A B hAB
          obtain ⟨C, rfl, hAC⟩ := snoc_split hne hAB
          have hiA : i ∉ A := fun h => hnp (by rw [hAC]; simp [h])
          obtain ⟨b1, b2⟩ := hp A C hAC
          refine ⟨fun hb => ?_, b2⟩
          unfold Touch Miss
          rw [hval A _ _ hiA]
          rcases b1 hb with ⟨q, w, c1, c2, c3, c4⟩ | hm
          · left
            refine ⟨q, w, c1, c2, c3, fun j hj hoj => ?_⟩
            rcases List.mem_append.1 hj with hj | hj
            · have : j ≠ i := fun h => hnp (by rw [hAC, ← h]; simp [hj])
              exact c4 j hj (by rw [← hoff j this]; exact hoj)
            · simp at hj; subst hj; exact hhit w
          · exact .inr hm
    · obtain ⟨e, he, rfl⟩ := List.mem_map.1 hl
      refine ⟨by simp, ?_, fun m v' a' r' p' g' h _ => .inr fun A B hAB => ?_⟩
      · simp [val, fo, hoi, hhi]
      · obtain ⟨hne, h⟩ := hr h
        obtain ⟨C, rfl, hAC⟩ := snoc_split hne hAB
        have hlen : A.length < pts.length := by rw [hAC]; simp
        refine ⟨fun hb => by simp at hb; omega, fun _ q w hqw hqr => ?_⟩
        cases hqw
        obtain ⟨f, hf, hfq, _⟩ := mem_entries he
        have := hi.remOld m v' a' r' h q hqr i (by rw [← hfq]; exact (hi.addsPath i v a r hs).1 f hf)
        rw [hs] at this; cases this

/-- The row is in one of these files. -/
def inFiles (r : List Path) (l : Lin ρ) : Bool :=
  match l.cur with
  | some (q, _) => r.contains q
  | none => false

theorem filterMap_inFiles (r : List Path) (ls : List (Lin ρ)) :
    (ls.filter (inFiles r)).filterMap (·.cur) = (ls.filterMap (·.cur)).filter (fun e => r.contains e.1) ∧
    (ls.filter (fun l => !inFiles r l)).filterMap (·.cur) =
      (ls.filterMap (·.cur)).filter (fun e => !r.contains e.1) := by
  induction ls with
  | nil => exact ⟨rfl, rfl⟩
  | cons l ls ih =>
    obtain ⟨ih1, ih2⟩ := ih
    rcases hc : l.cur with _ | ⟨q, v⟩
    · have : inFiles r l = false := by simp [inFiles, hc]
      simp [this, hc, ih1, ih2]
    · have : inFiles r l = r.contains q := by simp [inFiles, hc]
      cases hq : r.contains q
      · rw [hq] at this
        simp only [List.filter_cons, this, hc, List.filterMap_cons, hq, Bool.not_false, if_true, Bool.false_eq_true,
          if_false, ih1, ih2]
        exact ⟨trivial, trivial⟩
      · rw [hq] at this
        simp only [List.filter_cons, this, hc, List.filterMap_cons, hq, Bool.not_true, if_true, Bool.false_eq_true,
          if_false, ih1, ih2]
        exact ⟨trivial, trivial⟩

/-- An UPDATE or DELETE commits. -/
theorem inv_modify_commit {sys : Sys ρ} {init : List (List ρ)} {s : State ρ} {pts : List Nat} (hi : Inv sys init s pts)
    (m v : Nat) (a : List (File ρ)) (r : List Path) (p : ρ → Bool) (g : ρ → Option ρ)
    (hst : sys.stmts[m]? = some (.modify p g)) (hs : s.stage m = .ready v a r) (hnc : conflict s v r = false) :
    Inv sys init (committed s m a r) pts := by
  have hr : ∀ {m' v' a' r'}, (committed s m a r).stage m' = .ready v' a' r' → m' ≠ m ∧ s.stage m' = .ready v' a' r' := by
    intro m' v a r h
    rw [committed_stage] at h
    split at h
    · cases h
    · next e => exact ⟨e, h⟩
  have hd : ∀ {j}, s.stage j = .done → (committed s m a r).stage j = .done := by
    intro m h; rw [committed_stage]; split
    · rfl
    · exact h
  have hoff : ∀ j, j ≠ m → ok (committed s m a r) j = ok s j := fun j hj => by rw [ok_committed]; simp [hj]
  have hom' : ok (committed s m a r) m = true := by rw [ok_committed]; simp
  have hom : ok s m = false := by rw [Bool.eq_false_iff, ne_eq, ok_iff, hs]; simp
  have hh := h_modify hst
  obtain ⟨A, B, hAB⟩ := List.append_of_mem (hi.modPts m v a r p g hs hst)
  have hn : (A ++ m :: B).Nodup := hAB ▸ hi.nodup
  have hquiet := hi.quiet m v a r A B hs hAB
  obtain ⟨ls, h1, h2, h3⟩ := hi.lins
  obtain ⟨hp1, hp2⟩ := paths_committed hi hs
  have hpend : ∀ l ∈ ls, Pend sys (ok s) (A ++ m :: B) m r l := by
    intro l hl
    rcases (h3 l hl).2.2 m v a r p g hs hst with hc | hp
    · rw [hnc] at hc; cases hc
    · rw [← hAB]; exact hp
  obtain ⟨f1, f2⟩ := filterMap_inFiles r ls
  -- the rows that are rewritten find a place
  have hval : ((entries a).map (·.2)).Perm
      ((ls.filter (inFiles r)).filterMap (fun l => (l.cur.map (·.2)).bind (h sys m))) := by
    rcases hi.addsRows m v a r p g hs hst with hc | hrows
    · rw [hnc] at hc; cases hc
    rw [entries_rows, hrows]
    have e1 : (ls.filter (inFiles r)).filterMap (fun l => (l.cur.map (·.2)).bind (h sys m)) =
        (((ls.filter (inFiles r)).filterMap (·.cur)).map (·.2)).filterMap (h sys m) := by
      rw [List.filterMap_map, List.filterMap_filterMap]
      apply filterMap_congr
      intro l _
      cases l.cur <;> rfl
    rw [e1, f1, hh]
    apply List.Perm.filterMap
    rw [← entries_rows, entries_filter s.files (fun q => r.contains q)]
    exact ((h2.filter _).map _).symm
  obtain ⟨c, c1, c2, c3⟩ := assign (fun l : Lin ρ => (l.cur.map (·.2)).bind (h sys m)) (ls.filter (inFiles r))
    (entries a) hval
  have hfresh : ∀ q w, (q, w) ∈ entries a → ∀ m' v' a' r', s.stage m' = .ready v' a' r' → q ∉ r' := by
    intro q w hq m' v' a' r' h' hqr
    obtain ⟨f, hf, hfq, _⟩ := mem_entries hq
    have := hi.remOld m' v' a' r' h' q hqr m (by rw [← hfq]; exact (hi.addsPath m v a r hs).1 f hf)
    rw [hs] at this; cases this
  refine
    { nodup := hi.nodup
      donePts := ?_, started := ?_
      modPts := fun j v a r p' g' h e => hi.modPts j v a r p' g' (hr h).2 e
      insPts := fun j hj rows e => hd (hi.insPts j hj rows e)
      insAdds := fun j v a r rows' h e => hi.insAdds j v a r rows' (hr h).2 e
      paths := hp1, live := hp2
      remOld := fun m v a r h q hq j hj => hd (hi.remOld m v a r (hr h).2 q hq j hj)
      verLe := ?_
      addsPath := fun m v a r h => hi.addsPath m v a r (hr h).2
      addsRows := fun m v a r p' g' h e => rows_committed hi hs (hr h).2 e
      quiet := fun m v a r A B h => hi.quiet m v a r A B (hr h).2
      lins := ⟨c.map (fun z => { z.1 with cur := z.2 }) ++ ls.filter (fun l => !inFiles r l), ?_, ?_, ?_⟩ }
  · intro j hj
    rw [committed_stage] at hj
    split at hj
    · next e => rw [e]; exact hi.modPts m v a r p g hs hst
    · exact hi.donePts j hj
  · intro j hj h
    rw [committed_stage] at h
    split at h
    · cases h
    · exact hi.started j hj h
  · intro m' v' a' r' h
    show v' ≤ (s.log ++ [(m, r)]).length
    have := hi.verLe m' v' a' r' (hr h).2
    simp; omega
  · rw [List.map_append, List.map_map]
    have e1 : c.map ((fun l : Lin ρ => (l.b, l.x)) ∘ fun z => { z.1 with cur := z.2 }) =
        (c.map (·.1)).map (fun l => (l.b, l.x)) := by rw [List.map_map]; rfl
    rw [e1, c1, ← List.map_append]
    exact ((List.filter_append_perm (inFiles r) ls).map _).trans h1
  · rw [List.filterMap_append, List.filterMap_map]
    show List.Perm _ (entries (s.files.filter _ ++ a))
    rw [entries_append, entries_filter s.files (fun q => !r.contains q), f2]
    have e1 : ((fun l : Lin ρ => l.cur) ∘ fun z : Lin ρ × Option (Path × ρ) => { z.1 with cur := z.2 }) = (·.2) := rfl
    rw [e1]
    exact (c3.append (h2.filter _)).trans List.perm_append_comm
  · intro l hl
    rcases List.mem_append.1 hl with hl | hl
    · -- a row in a file that is replaced
      obtain ⟨⟨l0, cur⟩, hz, rfl⟩ := List.mem_map.1 hl
      have hl0 : l0 ∈ ls.filter (inFiles r) := by rw [← c1]; exact List.mem_map.2 ⟨_, hz, rfl⟩
      obtain ⟨hl1, hl2⟩ := List.mem_filter.1 hl0
      have hcv := c2 _ hz
      simp only at hcv
      rcases hc : l0.cur with _ | ⟨q, w⟩
      · simp [inFiles, hc] at hl2
      have hqr : q ∈ r := by simpa [inFiles, hc] using hl2
      rw [hc] at hcv
      simp only [Option.map_some, Option.bind_some] at hcv
      have hp := hpend l0 hl1 A B rfl
      have hb : l0.b ≤ A.length := by
        rcases Nat.lt_or_ge A.length l0.b with hlt | hge
        · exact absurd hqr (hp.2 hlt q w hc)
        · exact hge
      obtain ⟨hw, hwB⟩ : val sys (ok s) A l0.b l0.x = some w ∧ ∀ j ∈ B, ok s j = true → hit sys j w = false := by
        rcases hp.1 hb with ⟨q', w', d1, _, d3, d4⟩ | ⟨d1, _⟩
        · rw [hc] at d1; cases d1; exact ⟨d3, d4⟩
        · exact absurd hqr (d1 q w hc)
      have ht := val_touched sys (ok s) (ok (committed s m a r)) m A B hoff hom hom' hn l0 w hb hw hwB hquiet
      obtain ⟨a1, a2, a3⟩ := h3 l0 hl1
      refine ⟨a1, ?_, fun m' v' a' r' p' g' h' e' => ?_⟩
      · simp only
        rw [hcv, hAB, (ht B [] (by simp)).2]
      · obtain ⟨hne, h'⟩ := hr h'
        have hcs := conflict_snoc s (committed s m a r) (m, r) rfl v' r' (hi.verLe m' v' a' r' h')
        rcases a3 m' v' a' r' p' g' h' e' with hcf | hp'
        · left; rw [hcs, hcf]; rfl
        by_cases hq' : q ∈ r'
        · left
          rw [hcs]
          have : r.any (fun p => r'.contains p) = true := by
            rw [List.any_eq_true]; exact ⟨q, hqr, by simpa using hq'⟩
          simp only [this, Bool.or_true]
        · right
          intro A' B' hAB'
          obtain ⟨b1, b2⟩ := hp' A' B' hAB'
          have hnew : ∀ q' w', cur = some (q', w') → q' ∉ r' := by
            intro q' w' hcw
            refine hfresh q' w' ?_ m' v' a' r' h'
            exact c3.mem_iff.1 (List.mem_filterMap.2 ⟨_, hz, hcw⟩)
          refine ⟨fun hb' => .inr ⟨hnew, fun x hx => ?_⟩, fun _ => hnew⟩
          have hmiss : ∀ y, val sys (ok s) A' l0.b l0.x = some y → hit sys m' y = false := by
            rcases b1 hb' with ⟨q', w', d1, d2, _⟩ | ⟨_, d2⟩
            · rw [hc] at d1; cases d1; exact absurd d2 hq'
            · exact d2
          simp only at hx
          rcases split_two (fun h => hne h.symm) (hAB ▸ hAB' : A ++ m :: B = A' ++ m' :: B') with ⟨C, d1, d2⟩ | ⟨C, d1, d2⟩
          · obtain ⟨t1, t2⟩ := ht C (m' :: B') d2
            rw [d1, t2] at hx
            rw [d1, t1] at hmiss
            exact quiet_hit (hquiet m' (by rw [d2]; simp)) (hmiss w rfl) hx
          · have hmA' : m ∉ A' := fun h => by
              rw [d1] at hn
              have : (A' ++ (m' :: C ++ m :: B)).Nodup := by simpa using hn
              rw [List.nodup_append] at this
              exact this.2.2 m h m (by simp) rfl
            rw [val_before sys (ok s) _ m hoff _ _ A' hmA'] at hx
            exact hmiss x hx
    · -- a row in another file
      obtain ⟨hl1, hl2⟩ := List.mem_filter.1 hl
      have hcur : ∀ q w, l.cur = some (q, w) → q ∉ r := by
        intro q w hc hq
        simp [inFiles, hc] at hl2
        exact hl2 hq
      have hmv := val_missed sys (ok s) (ok (committed s m a r)) m A B r hoff hom hom' hn l (hpend l hl1) hcur
      obtain ⟨a1, a2, a3⟩ := h3 l hl1
      refine ⟨a1, ?_, fun m' v' a' r' p' g' h' e' => ?_⟩
      · rw [a2, hAB, hmv _ [] (by simp)]
      · obtain ⟨hne, h0⟩ := hr h'
        have hcs := conflict_snoc s (committed s m a r) (m, r) rfl v' r' (hi.verLe m' v' a' r' h0)
        rcases a3 m' v' a' r' p' g' h0 e' with hcf | hp'
        · left; rw [hcs, hcf]; rfl
        right
        intro A' B' hAB'
        obtain ⟨b1, b2⟩ := hp' A' B' hAB'
        refine ⟨fun hb' => ?_, b2⟩
        have hvA' := hmv A' (m' :: B') (by rw [← hAB, hAB'])
        unfold Touch Miss
        rw [hvA']
        rcases b1 hb' with ⟨q, w, d1, d2, d3, d4⟩ | hm
        · left
          refine ⟨q, w, d1, d2, d3, fun j hj hoj => ?_⟩
          by_cases hjm : j = m
          · subst hjm
            have hAB2 : A ++ j :: B = A' ++ m' :: B' := by rw [← hAB, hAB']
            rcases split_two (fun h => hne h.symm) hAB2 with ⟨C, e1, e2⟩ | ⟨C, e1, e2⟩
            · exfalso
              have : (A ++ j :: C ++ m' :: B').Nodup := by rw [e2] at hn; simpa using hn
              rw [List.nodup_append] at this
              exact this.2.2 j (by simp) j (by simp [hj]) rfl
            · have hbA : l.b ≤ A.length := by rw [e1]; simp; omega
              have hvA : val sys (ok s) A l.b l.x = some w := by
                have d3' := d3
                unfold val at d3' ⊢
                rw [e1, List.drop_append_of_le_length hb', fo_append, d3']
                apply fo_fix
                intro i hi' hoi
                rcases List.mem_cons.1 hi' with rfl | hi'
                · rw [ok_iff, h0] at hoi; cases hoi
                · exact d4 i (by rw [e2]; simp [hi']) hoi
              rcases (hpend l hl1 A B rfl).1 hbA with ⟨q', w', x1, x2, _⟩ | ⟨_, x2⟩
              · exact absurd x2 (hcur q' w' x1)
              · exact x2 w hvA
          · exact d4 j hj (by rw [← hoff j hjm]; exact hoj)
        · exact .inr hm

/-! #### Executions -/

/-- The statement takes its place in the serial order. -/
def point (sys : Sys ρ) (s : State ρ) : Ev → List Nat
  | .run i =>
    match sys.stmts[i]?, s.stage i with
    | some (.modify _ _), .start => [i]
    | some (.insert _), .ready _ _ _ => [i]
    | _, _ => []
  | .fail _ => []

/-- The serial order. -/
def points (sys : Sys ρ) (s : State ρ) : List Ev → List Nat
  | [] => []
  | e :: es => point sys s e ++ points sys (step sys s e) es

theorem points_append (sys : Sys ρ) (es es' : List Ev) : ∀ s : State ρ,
    points sys s (es ++ es') = points sys s es ++ points sys (es.foldl (step sys) s) es' := by
  induction es with
  | nil => intro s; rfl
  | cons e es ih => intro s; simp [points, ih]

theorem run_snoc (sys : Sys ρ) (init : List (List ρ)) (es : List Ev) (e : Ev) :
    run sys init (es ++ [e]) = step sys (run sys init es) e := by simp [run]

theorem inv_initial (sys : Sys ρ) (init : List (List ρ)) : Inv sys init (initial init) [] := by
  have hpath : ∀ (c : List (List ρ)) k,
      (∀ q ∈ ((c.zipIdx k).map (fun c => (⟨(0, c.2), c.1⟩ : File ρ))).map (·.path), k ≤ q.2) ∧
      (((c.zipIdx k).map (fun c => (⟨(0, c.2), c.1⟩ : File ρ))).map (·.path)).Nodup := by
    intro c
    induction c with
    | nil => intro k; simp
    | cons x c ih =>
      intro k
      obtain ⟨h1, h2⟩ := ih (k + 1)
      simp only [List.zipIdx_cons, List.map_cons, List.mem_cons, List.nodup_cons]
      refine ⟨?_, ?_, h2⟩
      · rintro q (rfl | hq)
        · exact Nat.le_refl k
        · have := h1 q hq; omega
      · intro hq; have : k + 1 ≤ k := h1 _ hq; omega
  have hrows : ∀ (c : List (List ρ)) k, rowsOf ((c.zipIdx k).map (fun c => (⟨(0, c.2), c.1⟩ : File ρ))) = c.flatten := by
    intro c
    induction c with
    | nil => intro k; rfl
    | cons x c ih => intro k; simp only [List.zipIdx_cons, List.map_cons, rowsOf, List.flatMap_cons, List.flatten_cons]
                     have := ih (k + 1); unfold rowsOf at this; rw [this]
  refine
    { nodup := by simp
      donePts := fun i h => by cases h
      started := fun i h => by cases h
      modPts := fun i v a r p g h => by cases h
      insPts := fun i h => by cases h
      insAdds := fun i v a r rows h => by cases h
      paths := (hpath init 0).2
      live := ?_
      remOld := fun m v a r h => by cases h
      verLe := fun m v a r h => by cases h
      addsPath := fun m v a r h => by cases h
      addsRows := fun m v a r p g h => by cases h
      quiet := fun m v a r A B h => by cases h
      lins := ⟨(entries (initial init).files).map (fun e => ⟨0, e.2, some e⟩), ?_, ?_, ?_⟩ }
  · intro f hf i h
    obtain ⟨c, _, rfl⟩ := List.mem_map.1 hf
    simp at h
  · rw [List.map_map]
    have e1 : ((fun l : Lin ρ => (l.b, l.x)) ∘ fun e : Path × ρ => (⟨0, e.2, some e⟩ : Lin ρ)) =
        (fun x => (0, x)) ∘ (fun e : Path × ρ => e.2) := rfl
    rw [e1, ← List.map_map, entries_rows]
    show List.Perm ((rowsOf (init.zipIdx.map _)).map _) _
    rw [hrows init 0]
    simp only [linsOf, List.zipIdx_nil, List.flatMap_nil, List.append_nil]
    exact List.Perm.refl _
  · rw [List.filterMap_map]
    exact List.Perm.of_eq List.filterMap_some
  · intro l hl
    obtain ⟨e, he, rfl⟩ := List.mem_map.1 hl
    exact ⟨by simp, by simp [val, fo], fun m v a r p g h => by cases h⟩

theorem inv_run (sys : Sys ρ) (init : List (List ρ)) (hso : Sound sys) (hb : Blind sys) (evs : List Ev)
    (hq : ∀ i j, i ≠ j → Together sys init evs i j → Quiet sys i j) :
    Inv sys init (run sys init evs) (points sys (initial init) evs) := by
  induction evs using List.reverseRecOn with
  | nil => exact inv_initial sys init
  | append_singleton evs e ih =>
    have ih := ih fun i j hij ⟨a, b, h1, h2⟩ => hq i j hij ⟨a, b ++ [e], by simp [h1], h2⟩
    rw [points_append, run_snoc]
    have hfold : evs.foldl (step sys) (initial init) = run sys init evs := rfl
    rw [hfold]
    have hq' : ∀ m i, m ≠ i → Ready (step sys (run sys init evs) e) m → Ready (step sys (run sys init evs) e) i →
        Quiet sys m i := by
      intro m i hmi h1 h2
      exact hq m i hmi ⟨evs ++ [e], [], by simp, by rw [run_snoc]; exact ⟨h1, h2⟩⟩
    generalize run sys init evs = s at *
    generalize points sys (initial init) evs = pts at *
    simp only [points, List.append_nil]
    cases e with
    | fail i =>
      simp only [point, step, List.append_nil]
      split
      · next h => exact inv_fail ih i (by rw [h]; simp)
      · next h => exact inv_fail ih i (by rw [h]; simp)
      · exact ih
    | run i =>
      rcases hst : sys.stmts[i]? with _ | st
      · simp only [point, step, hst, List.append_nil]; exact ih
      · rcases hs : s.stage i with _ | ⟨v, a, r⟩ | _ | _
        · cases st with
          | insert rows =>
            simp only [point, step, hst, hs, List.append_nil]
            exact inv_insert_start ih i rows hst hs
          | insertFrom q => exact absurd hst (hb i q)
          | modify p g =>
            have hstep : step sys s (.run i) = setStage s i (prepare sys s i (.modify p g)) := by
              simp only [step, hst, hs]
            rw [hstep] at hq' ⊢
            simp only [point, hst, hs]
            refine inv_modify_start ih hso i p g hst hs fun m hm => ?_
            obtain ⟨v, a, r, hm⟩ := hm
            have hne : m ≠ i := by rintro rfl; rw [hs] at hm; cases hm
            refine hq' m i hne ⟨v, a, r, by rw [stage_set]; simp [hne, hm]⟩ ?_
            exact ⟨_, _, _, by rw [stage_set, if_pos rfl]; rfl⟩
        · have hstep : step sys s (.run i) = commit s i v a r := by simp only [step, hst, hs]
          rw [hstep]
          cases st with
          | insert rows =>
            simp only [point, hst, hs]
            have hr0 := (ih.insAdds i v a r rows hs hst).2
            have hnc : conflict s v r = false := by rw [hr0]; simp [conflict]
            have : commit s i v a r = committed s i a r := by simp [commit, hnc, committed]
            rw [this]
            exact inv_insert_commit ih hso i v a r rows hst hs
          | insertFrom q => exact absurd hst (hb i q)
          | modify p g =>
            simp only [point, hst, hs, List.append_nil]
            cases hc : conflict s v r with
            | true =>
              have : commit s i v a r = setStage s i .failed := by simp [commit, hc]
              rw [this]
              exact inv_fail ih i (by rw [hs]; simp)
            | false =>
              have : commit s i v a r = committed s i a r := by simp [commit, hc, committed]
              rw [this]
              exact inv_modify_commit ih i v a r p g hst hs hc
        · simp only [point, step, hst, hs, List.append_nil]
          cases st <;> exact (by simpa using ih)
        · simp only [point, step, hst, hs, List.append_nil]
          cases st <;> exact (by simpa using ih)

/-! ### C128 -/

/-- **C128, partial**: statements that run at the same time have the effect of those that succeed run one after the
other, each at some moment between its beginning and its end, if no INSERT reads the table itself and no statement
makes rows qualify for another UPDATE or DELETE that runs at the same time.  A statement that fails has no effect. -/
theorem C128_serial_partial (sys : Sys ρ) (init : List (List ρ)) (evs : List Ev) (hso : Sound sys) (hb : Blind sys)
    (hq : ∀ i j, i ≠ j → Together sys init evs i j → Quiet sys i j) : Serial sys init evs := by
  have hi := inv_run sys init hso hb evs hq
  refine ⟨(points sys (initial init) evs).filter (ok (run sys init evs)), hi.nodup.sublist List.filter_sublist, ?_, ?_, ?_⟩
  · intro i
    rw [List.mem_filter, ok_iff]
    exact ⟨fun h => h.2, fun h => ⟨hi.donePts i h, h⟩⟩
  · intro a b i j hab hdi hsj hj
    subst hab
    have hia := inv_run sys init hso hb a fun i j hij ⟨c, d, h1, h2⟩ => hq i j hij ⟨c, d ++ b, by simp [h1], h2⟩
    rw [points_append] at hj ⊢
    rw [List.filter_append] at hj ⊢
    have hdone : (run sys init (a ++ b)).stage i = .done := by
      have : ∀ (es : List Ev) (s : State ρ), s.stage i = .done → (es.foldl (step sys) s).stage i = .done := by
        intro es
        induction es with
        | nil => intro s h; exact h
        | cons e es ih =>
          intro s h
          apply ih
          cases e with
          | run k =>
            simp only [step]
            by_cases hk : i = k
            · subst hk; rw [h]; cases sys.stmts[i]? <;> exact h
            · split
              · rw [stage_set]; simp [hk, h]
              · unfold commit; split <;> (rw [stage_set]; simp [hk, h])
              · exact h
          | fail k =>
            simp only [step]
            by_cases hk : i = k
            · subst hk; rw [h]; exact h
            · split
              · rw [stage_set]; simp [hk, h]
              · rw [stage_set]; simp [hk, h]
              · exact h
      have e : run sys init (a ++ b) = b.foldl (step sys) (run sys init a) := by simp [run]
      rw [e]; exact this b _ hdi
    have h1 : i ∈ (points sys (initial init) a).filter (ok (run sys init (a ++ b))) :=
      List.mem_filter.2 ⟨hia.donePts i hdi, (ok_iff _ _).2 hdone⟩
    have h2 : j ∈ (points sys (List.foldl (step sys) (initial init) a) b).filter (ok (run sys init (a ++ b))) := by
      rcases List.mem_append.1 hj with hj | hj
      · exact absurd hsj (hia.started j (List.mem_filter.1 hj).1)
      · exact hj
    exact (List.singleton_sublist.2 h1).append (List.singleton_sublist.2 h2)
  · obtain ⟨ls, h1, h2, h3⟩ := hi.lins
    rw [serial_rows sys init _ _ hb fun i hip rows h => (ok_iff _ _).2 (hi.insPts i hip rows h)]
    refine List.Perm.trans ?_ (h1.filterMap _)
    rw [List.filterMap_map, ← entries_rows]
    refine List.Perm.trans (h2.map _).symm (List.Perm.of_eq ?_)
    rw [List.map_filterMap]
    apply filterMap_congr
    intro l hl
    exact (h3 l hl).2.1

theorem not_both {sys : Sys ρ} {i j : Nat}
    (hm : ∀ p g p' g', sys.stmts[i]? = some (.modify p g) → sys.stmts[j]? = some (.modify p' g') → False) :
    Quiet sys i j := fun p g p' g' h1 h2 => absurd trivial fun _ => hm p g p' g' h1 h2

/-- **C128**: INSERT and DELETE statements are serializable. -/
theorem C128_inserts_deletes (sys : Sys ρ) (init : List (List ρ)) (evs : List Ev) (hso : Sound sys) (hb : Blind sys)
    (hd : ∀ (i : Nat) p g, sys.stmts[i]? = some (Stmt.modify p g) → ∀ x, g x = none) : Serial sys init evs := by
  refine C128_serial_partial sys init evs hso hb fun i j _ _ p g p' g' h _ x y _ _ hg => ?_
  rw [hd i p g h x] at hg; cases hg

/-- **C128**: so are INSERT, UPDATE and DELETE statements if the assignments do not change which rows qualify (for
instance, UPDATE statements that have no WHERE clause or select rows by columns that no UPDATE assigns). -/
theorem C128_keys (sys : Sys ρ) (init : List (List ρ)) (evs : List Ev) (hso : Sound sys) (hb : Blind sys)
    (hk : ∀ (i j : Nat) p g p' g', sys.stmts[i]? = some (Stmt.modify p g) → sys.stmts[j]? = some (Stmt.modify p' g') →
      ∀ x y, g x = some y → p' y = p' x) : Serial sys init evs := by
  refine C128_serial_partial sys init evs hso hb fun i j _ _ p g p' g' h h' x y _ hx hg => ?_
  rw [hk i j p g p' g' h h' x y hg]; exact hx

/-- **C128**: so are any number of INSERT statements while there is at most one UPDATE or DELETE at any time. -/
theorem C128_one_writer (sys : Sys ρ) (init : List (List ρ)) (evs : List Ev) (hso : Sound sys) (hb : Blind sys)
    (h1 : ∀ i j p g p' g', i ≠ j → sys.stmts[i]? = some (.modify p g) → sys.stmts[j]? = some (.modify p' g') →
      ¬ Together sys init evs i j) : Serial sys init evs :=
  C128_serial_partial sys init evs hso hb fun i j hij ht =>
    not_both fun p g p' g' e e' => h1 i j p g p' g' hij e e' ht

/-! #### Failures -/

theorem together_snoc {sys : Sys ρ} {init : List (List ρ)} {evs : List Ev} {i j : Nat} (e : Ev)
    (ht : Together sys init evs i j) : Together sys init (evs ++ [e]) i j := by
  obtain ⟨a, b, h1, h2⟩ := ht
  exact ⟨a, b ++ [e], by simp [h1], h2⟩

/-- Which statement has removed the files another one wants to remove. -/
structure Fails (sys : Sys ρ) (init : List (List ρ)) (evs : List Ev) : Prop where
  failed : ∀ i, (run sys init evs).stage i = .failed → .fail i ∈ evs ∨ ∃ j p g p' g', j ≠ i ∧
    (run sys init evs).stage j = .done ∧ sys.stmts[i]? = some (.modify p g) ∧ sys.stmts[j]? = some (.modify p' g') ∧
    Together sys init evs i j
  ver : ∀ i v a r, (run sys init evs).stage i = .ready v a r → v ≤ (run sys init evs).log.length ∧
    (r ≠ [] → ∃ p g, sys.stmts[i]? = some (.modify p g)) ∧
    ∀ e ∈ (run sys init evs).log.drop v, e.1 ≠ i ∧ (run sys init evs).stage e.1 = .done ∧
      Together sys init evs i e.1 ∧ (e.2 ≠ [] → ∃ p g, sys.stmts[e.1]? = some (.modify p g))

theorem fails_run (sys : Sys ρ) (init : List (List ρ)) (evs : List Ev) : Fails sys init evs := by
  induction evs using List.reverseRecOn with
  | nil => exact { failed := fun i h => by simp [run, initial] at h, ver := fun i v a r h => by simp [run, initial] at h }
  | append_singleton evs e ih =>
    obtain ⟨ih1, ih2⟩ := ih
    -- a statement that does not concern another
    have keepF : ∀ (s' : State ρ), run sys init (evs ++ [e]) = s' →
        (∀ i, (run sys init evs).stage i = .done → s'.stage i = .done) →
        ∀ i, (run sys init evs).stage i = .failed → .fail i ∈ evs ++ [e] ∨ ∃ j p g p' g', j ≠ i ∧
          s'.stage j = .done ∧ sys.stmts[i]? = some (.modify p g) ∧ sys.stmts[j]? = some (.modify p' g') ∧
          Together sys init (evs ++ [e]) i j := by
      intro s' _ hdone i hf
      rcases ih1 i hf with h | ⟨j, p, g, p', g', h1, h2, h3, h4, h5⟩
      · exact .inl (List.mem_append_left _ h)
      · exact .inr ⟨j, p, g, p', g', h1, hdone j h2, h3, h4, together_snoc e h5⟩
    have same : ∀ (k : Nat) (st : Stage ρ), run sys init (evs ++ [e]) = setStage (run sys init evs) k st →
        (run sys init evs).stage k ≠ .done →
        (st = .failed → .fail k ∈ evs ++ [e] ∨ ∃ j p g p' g', j ≠ k ∧ (run sys init evs).stage j = .done ∧
          sys.stmts[k]? = some (.modify p g) ∧ sys.stmts[j]? = some (.modify p' g') ∧
          Together sys init (evs ++ [e]) k j) →
        (∀ v a r, st = .ready v a r → v = (run sys init evs).log.length ∧
          (r ≠ [] → ∃ p g, sys.stmts[k]? = some (.modify p g))) →
        Fails sys init (evs ++ [e]) := by
      intro k st hrun hnd hfail hready
      have hdone : ∀ i, (run sys init evs).stage i = .done → (run sys init (evs ++ [e])).stage i = .done := by
        intro i hi
        rw [hrun, stage_set]
        split
        · next h => subst h; exact absurd hi hnd
        · exact hi
      refine ⟨fun i hf => ?_, fun i v a r hr => ?_⟩
      · by_cases hik : i = k
        · subst hik
          have hst : st = .failed := by rw [hrun, stage_set] at hf; simpa using hf
          rcases hfail hst with h | ⟨j, p, g, p', g', h1, h2, h3, h4, h5⟩
          · exact .inl h
          · exact .inr ⟨j, p, g, p', g', h1, hdone j h2, h3, h4, h5⟩
        · exact keepF _ rfl hdone i (by rw [hrun, stage_set] at hf; simpa [hik] using hf)
      · have hlog : (run sys init (evs ++ [e])).log = (run sys init evs).log := by rw [hrun]; rfl
        rw [hlog]
        by_cases hik : i = k
        · subst hik
          have hst : st = .ready v a r := by rw [hrun, stage_set] at hr; simpa using hr
          obtain ⟨h1, h2⟩ := hready v a r hst
          subst h1
          exact ⟨Nat.le_refl _, h2, by simp⟩
        · obtain ⟨h1, h2, h3⟩ := ih2 i v a r (by rw [hrun, stage_set] at hr; simpa [hik] using hr)
          refine ⟨h1, h2, fun c hc => ?_⟩
          obtain ⟨d1, d2, d3, d4⟩ := h3 c hc
          exact ⟨d1, hdone _ d2, together_snoc e d3, d4⟩
    have nothing : run sys init (evs ++ [e]) = run sys init evs → Fails sys init (evs ++ [e]) := by
      intro hrun
      refine ⟨fun i hf => keepF _ rfl (fun j hj => by rw [hrun]; exact hj) i (by rw [hrun] at hf; exact hf), fun i v a r hr => ?_⟩
      rw [hrun] at hr ⊢
      obtain ⟨h1, h2, h3⟩ := ih2 i v a r hr
      refine ⟨h1, h2, fun c hc => ?_⟩
      obtain ⟨d1, d2, d3, d4⟩ := h3 c hc
      exact ⟨d1, d2, together_snoc e d3, d4⟩
    cases e with
    | fail i =>
      rcases hs : (run sys init evs).stage i with _ | ⟨v, a, r⟩ | _ | _
      · exact same i .failed (by rw [run_snoc]; simp [step, hs]) (by rw [hs]; simp) (fun _ => .inl (by simp)) (by simp)
      · exact same i .failed (by rw [run_snoc]; simp [step, hs]) (by rw [hs]; simp) (fun _ => .inl (by simp)) (by simp)
      · exact nothing (by rw [run_snoc]; simp [step, hs])
      · exact nothing (by rw [run_snoc]; simp [step, hs])
    | run i =>
      rcases hst : sys.stmts[i]? with _ | st
      · exact nothing (by rw [run_snoc]; simp [step, hst])
      · rcases hs : (run sys init evs).stage i with _ | ⟨v, a, r⟩ | _ | _
        · refine same i (prepare sys (run sys init evs) i st) (by rw [run_snoc]; simp [step, hst, hs]) (by rw [hs]; simp)
            (fun h => ?_) (fun v a r h => ?_)
          · cases st <;> cases h
          · cases st with
            | insert rows => cases h; exact ⟨rfl, fun h => absurd rfl h⟩
            | insertFrom q => cases h; exact ⟨rfl, fun h => absurd rfl h⟩
            | modify p g => cases h; exact ⟨rfl, fun _ => ⟨p, g, hst⟩⟩
        · obtain ⟨hv, hmod, hlog⟩ := ih2 i v a r hs
          cases hc : conflict (run sys init evs) v r with
          | true =>
            refine same i .failed (by rw [run_snoc]; simp [step, hst, hs, commit, hc]) (by rw [hs]; simp)
              (fun _ => .inr ?_) (by simp)
            simp only [conflict, List.any_eq_true] at hc
            obtain ⟨c, hc1, q, hq1, hq2⟩ := hc
            obtain ⟨d1, d2, d3, d4⟩ := hlog c hc1
            obtain ⟨p, g, hp⟩ := hmod (by rintro rfl; simp at hq2)
            obtain ⟨p', g', hp'⟩ := d4 (by intro h; rw [h] at hq1; cases hq1)
            exact ⟨c.1, p, g, p', g', d1, d2, hp, hp', together_snoc _ d3⟩
          | false =>
            have hrun : run sys init (evs ++ [.run i]) = committed (run sys init evs) i a r := by
              rw [run_snoc]; simp [step, hst, hs, commit, hc, committed]
            have hdone : ∀ j, (run sys init evs).stage j = .done → (run sys init (evs ++ [.run i])).stage j = .done := by
              intro j hj
              rw [hrun, committed_stage]; split
              · rfl
              · exact hj
            refine ⟨fun j hf => keepF _ rfl hdone j ?_, fun j v' a' r' hr => ?_⟩
            · rw [hrun, committed_stage] at hf
              split at hf
              · cases hf
              · exact hf
            · have hji : j ≠ i := by rintro rfl; rw [hrun, committed_stage] at hr; simp at hr
              have hr' : (run sys init evs).stage j = .ready v' a' r' := by
                rw [hrun, committed_stage] at hr; simpa [hji] using hr
              obtain ⟨h1, h2, h3⟩ := ih2 j v' a' r' hr'
              have hl : (run sys init (evs ++ [.run i])).log = (run sys init evs).log ++ [(i, r)] := by rw [hrun]; rfl
              rw [hl]
              refine ⟨by simp; omega, h2, fun c hcm => ?_⟩
              rw [List.drop_append_of_le_length h1, List.mem_append] at hcm
              rcases hcm with hcm | hcm
              · obtain ⟨d1, d2, d3, d4⟩ := h3 c hcm
                exact ⟨d1, hdone _ d2, together_snoc _ d3, d4⟩
              · simp at hcm; subst hcm
                refine ⟨fun h => hji h.symm, by rw [hrun, committed_stage]; simp, ?_, hmod⟩
                exact ⟨evs, [.run i], rfl, ⟨v', a', r', hr'⟩, ⟨v, a, r, hs⟩⟩
        · exact nothing (by rw [run_snoc]; simp [step, hst, hs])
        · exact nothing (by rw [run_snoc]; simp [step, hst, hs])

/-- **C128**: a statement that is not interrupted fails only because another UPDATE or DELETE that ran at the same time
has succeeded; an INSERT never fails because of other statements. -/
theorem C128_failure (sys : Sys ρ) (init : List (List ρ)) (evs : List Ev) (i : Nat)
    (hf : (run sys init evs).stage i = .failed) (hno : .fail i ∉ evs) :
    ∃ j p g p' g', j ≠ i ∧ (run sys init evs).stage j = .done ∧ sys.stmts[i]? = some (.modify p g) ∧
      sys.stmts[j]? = some (.modify p' g') ∧ Together sys init evs i j := by
  rcases (fails_run sys init evs).failed i hf with h | h
  · exact absurd h hno
  · exact h

/-! ### Violations -/

theorem two_orders (order : List Nat) (hn : order.Nodup) (hm : ∀ i, i ∈ order ↔ i = 0 ∨ i = 1) :
    order = [0, 1] ∨ order = [1, 0] := by
  have h01 : ([0, 1] : List Nat).Nodup := by decide
  have hp : order.Perm [0, 1] := (List.perm_ext_iff_of_nodup hn h01).2 (by simpa using hm)
  match order, hp.length_eq with
  | [a, b], _ =>
    have ha := (hm a).1 (by simp)
    have hb := (hm b).1 (by simp)
    have hab : a ≠ b := by simpa using hn
    rcases ha with rfl | rfl <;> rcases hb with rfl | rfl <;> simp_all

/-- Two UPDATE statements that turn each `x` into `y` and each `y` into `x`. -/
def swap [DecidableEq ρ] (x y : ρ) : Sys ρ where
  stmts := [.modify (· == x) (fun _ => some y), .modify (· == y) (fun _ => some x)]
  keep := fun i rows => if i = 0 then rows.any (· == x) else rows.any (· == y)
  cut := fun rows => [rows]

theorem swap_sound [DecidableEq ρ] (x y : ρ) : Sound (swap x y) where
  cut := fun rows => by simp [swap]
  keep := by
    intro i p g h rows ⟨z, hz, hp⟩
    match i with
    | 0 => simp only [swap, List.getElem?_cons_zero, Option.some.injEq, Stmt.modify.injEq] at h ⊢
           obtain ⟨rfl, _⟩ := h
           simp only [if_true, List.any_eq_true]; exact ⟨z, hz, hp⟩
    | 1 => simp only [swap, List.getElem?_cons_succ, List.getElem?_cons_zero, Option.some.injEq, Stmt.modify.injEq] at h ⊢
           obtain ⟨rfl, _⟩ := h
           simp only [Nat.one_ne_zero, if_false, List.any_eq_true]; exact ⟨z, hz, hp⟩
    | n + 2 => simp [swap] at h

/-- **C128 is violated**: `UPDATE t SET c = y WHERE c = x` and `UPDATE t SET c = x WHERE c = y` at the same time, on a
table that holds `x` and `y` in different files, both succeed and swap the values.  Run one after the other they leave
a single value. -/
theorem C128_violated_update [DecidableEq ρ] (x y : ρ) (hxy : x ≠ y) :
    ¬ Serial (swap x y) [[x], [y]] [.run 0, .run 1, .run 0, .run 1] := by
  have hyx : y ≠ x := fun h => hxy h.symm
  rintro ⟨order, hn, hm, _, hp⟩
  have hfiles : rowsOf (run (swap x y) [[x], [y]] [.run 0, .run 1, .run 0, .run 1]).files = [y, x] := by
    simp [run, step, initial, swap, prepare, setStage, rowsOf, write, change, commit, conflict, hxy, hyx, List.zipIdx]
  have hdone : ∀ i, (run (swap x y) [[x], [y]] [.run 0, .run 1, .run 0, .run 1]).stage i = .done ↔ i = 0 ∨ i = 1 := by
    intro i
    match i with
    | 0 => simp [run, step, initial, swap, prepare, setStage, rowsOf, write, change, commit, conflict, hxy, hyx, List.zipIdx]
    | 1 => simp [run, step, initial, swap, prepare, setStage, rowsOf, write, change, commit, conflict, hxy, hyx, List.zipIdx]
    | n + 2 => simp [run, step, initial, swap, prepare, setStage, rowsOf, write, change, commit, conflict, hxy, hyx, List.zipIdx]
  rw [hfiles] at hp
  rcases two_orders order hn (fun i => (hm i).trans (hdone i)) with rfl | rfl
  · have : y ∈ ([0, 1].foldl (effectAt (swap x y)) [[x], [y]].flatten) := hp.mem_iff.1 (by simp)
    simp [effectAt, swap, effect, hyx] at this
  · have : x ∈ ([1, 0].foldl (effectAt (swap x y)) [[x], [y]].flatten) := hp.mem_iff.1 (by simp)
    simp [effectAt, swap, effect, hxy] at this

/-- `INSERT INTO t SELECT * FROM t` and `DELETE FROM t`. -/
def copyDelete (ρ : Type) : Sys ρ where
  stmts := [.insertFrom id, .modify (fun _ => true) (fun _ => none)]
  keep := fun _ _ => true
  cut := fun rows => [rows]

/-- **C128 is violated**: `INSERT INTO t SELECT * FROM t` while `DELETE FROM t` runs: both succeed and the copies of
all rows remain.  Run one after the other they leave an empty table. -/
theorem C128_violated_copy (init : List (List ρ)) (hne : init.flatten ≠ []) :
    ¬ Serial (copyDelete ρ) init [.run 0, .run 1, .run 1, .run 0] := by
  rintro ⟨order, hn, hm, _, hp⟩
  have hrows : rowsOf (initial init).files = init.flatten := by
    have : ∀ (c : List (List ρ)) k, rowsOf ((c.zipIdx k).map (fun c => (⟨(0, c.2), c.1⟩ : File ρ))) = c.flatten := by
      intro c
      induction c with
      | nil => intro k; rfl
      | cons x c ih => intro k; simp only [List.zipIdx_cons, List.map_cons, rowsOf, List.flatMap_cons, List.flatten_cons]
                       have := ih (k + 1); unfold rowsOf at this; rw [this]
    exact this init 0
  generalize hF : (initial init).files = F at hrows
  have hinit : initial init = ⟨F, [], fun _ => .start⟩ := by rw [← hF]; rfl
  have hchange : ∀ l : List ρ, l.filterMap (change (fun _ => true) (fun _ => none)) = [] := by
    intro l; simp [change]
  have hfiles : rowsOf (run (copyDelete ρ) init [.run 0, .run 1, .run 1, .run 0]).files = init.flatten := by
    simp only [run, hinit, List.foldl_cons, List.foldl_nil]
    simp only [step, copyDelete, List.getElem?_cons_zero, List.getElem?_cons_succ, prepare, setStage, if_true,
      Nat.one_ne_zero, if_false, hchange, commit, conflict, List.drop_nil, List.any_nil,
      Bool.false_eq_true, write, List.zipIdx, Nat.zero_ne_one, hrows, id, List.length_nil, List.drop_zero,
      List.nil_append, List.map_cons, List.map_nil, List.any_cons, List.contains_nil, Bool.or_false,
      List.any_map]
    simp [rowsOf]
    intro f hf hno
    exact absurd rfl (hno f hf)
  have hdone : ∀ i, (run (copyDelete ρ) init [.run 0, .run 1, .run 1, .run 0]).stage i = .done ↔ i = 0 ∨ i = 1 := by
    intro i
    simp only [run, hinit, List.foldl_cons, List.foldl_nil]
    match i with
    | 0 => simp [step, copyDelete, prepare, setStage, commit, conflict]
    | 1 => simp [step, copyDelete, prepare, setStage, commit, conflict]
    | n + 2 => simp [step, copyDelete, prepare, setStage, commit, conflict]
  rw [hfiles] at hp
  generalize init.flatten = t at *
  have hnone : t.filterMap (fun _ => (none : Option ρ)) = [] := by rw [List.filterMap_eq_nil_iff]; simp
  rcases two_orders order hn (fun i => (hm i).trans (hdone i)) with rfl | rfl
  · simp [effectAt, copyDelete, effect, hnone] at hp; exact hne hp
  · simp [effectAt, copyDelete, effect, hnone] at hp; exact hne hp

/-! ### Examples -/

/-- UPDATE of the row with key 1, DELETE of the row with key 2, INSERT of a row with key 1, and an UPDATE of all rows. -/
def keyed : Sys (Nat × Nat) where
  stmts := [.modify (fun x => x.1 == 1) (fun x => some (x.1, x.2 + 1)), .modify (fun x => x.1 == 2) (fun _ => none),
    .insert [(1, 50)], .modify (fun _ => true) (fun x => some (x.1, x.2 * 2))]
  keep := fun i rows => if i = 0 then rows.any (fun x => x.1 == 1) else if i = 1 then rows.any (fun x => x.1 == 2) else true
  cut := fun rows => rows.map (fun x => [x])

theorem keyed_sound : Sound keyed where
  cut := by
    intro rows
    induction rows with
    | nil => rfl
    | cons x rows ih => simp [keyed] at ih ⊢; exact ih
  keep := by
    intro i p g h rows ⟨z, hz, hp⟩
    match i with
    | 0 =>
      simp only [keyed, List.getElem?_cons_zero, Option.some.injEq, Stmt.modify.injEq] at h ⊢
      obtain ⟨rfl, _⟩ := h
      simp only [if_true, List.any_eq_true]; exact ⟨z, hz, hp⟩
    | 1 =>
      simp only [keyed, List.getElem?_cons_succ, List.getElem?_cons_zero, Option.some.injEq, Stmt.modify.injEq] at h ⊢
      obtain ⟨rfl, _⟩ := h
      simp only [Nat.one_ne_zero, if_false, if_true, List.any_eq_true]; exact ⟨z, hz, hp⟩
    | n + 2 => simp [keyed]

theorem keyed_blind : Blind keyed := by
  intro i q h
  match i with
  | 0 => simp [keyed] at h
  | 1 => simp [keyed] at h
  | 2 => simp [keyed] at h
  | 3 => simp [keyed] at h
  | n + 4 => simp [keyed] at h

theorem keyed_keys (i j : Nat) (p p' : Nat × Nat → Bool) (g g' : Nat × Nat → Option (Nat × Nat))
    (h1 : keyed.stmts[i]? = some (.modify p g)) (h2 : keyed.stmts[j]? = some (.modify p' g')) (x y : Nat × Nat)
    (hg : g x = some y) : p' y = p' x := by
  have hp : p' y = p' x ∨ y.1 ≠ x.1 := by
    match j with
    | 0 => simp [keyed] at h2; obtain ⟨rfl, _⟩ := h2; by_cases hxy : y.1 = x.1 <;> simp [hxy]
    | 1 => simp [keyed] at h2; obtain ⟨rfl, _⟩ := h2; by_cases hxy : y.1 = x.1 <;> simp [hxy]
    | 2 => simp [keyed] at h2
    | 3 => simp [keyed] at h2; obtain ⟨rfl, _⟩ := h2; simp
    | n + 4 => simp [keyed] at h2
  have hk : y.1 = x.1 := by
    match i with
    | 0 => simp [keyed] at h1; obtain ⟨_, rfl⟩ := h1; cases hg; rfl
    | 1 => simp [keyed] at h1; obtain ⟨_, rfl⟩ := h1; cases hg
    | 2 => simp [keyed] at h1
    | 3 => simp [keyed] at h1; obtain ⟨_, rfl⟩ := h1; cases hg; rfl
    | n + 4 => simp [keyed] at h1
  rcases hp with h | h
  · exact h
  · exact absurd hk h

/-- Statements 0, 1 and 2 run at the same time and all succeed. -/
example : rowsOf (run keyed [[(1, 10), (3, 30)], [(2, 20)]] [.run 0, .run 1, .run 2, .run 2, .run 1, .run 0]).files =
    [(1, 50), (1, 11), (3, 30)] := by decide

example : Serial keyed [[(1, 10), (3, 30)], [(2, 20)]] [.run 0, .run 1, .run 2, .run 2, .run 1, .run 0] :=
  C128_keys _ _ _ keyed_sound keyed_blind fun i j p g p' g' => keyed_keys i j p p' g g'

/-- Statement 3 runs at the same time as statement 0, which commits first: the files it wants to replace are gone. -/
example : (run keyed [[(1, 10), (3, 30)], [(2, 20)]] [.run 3, .run 0, .run 0, .run 3]).stage 3 = .failed := by decide

example : ∃ j p g p' g', j ≠ 3 ∧
    (run keyed [[(1, 10), (3, 30)], [(2, 20)]] [.run 3, .run 0, .run 0, .run 3]).stage j = .done ∧
    keyed.stmts[3]? = some (.modify p g) ∧ keyed.stmts[j]? = some (.modify p' g') ∧
    Together keyed [[(1, 10), (3, 30)], [(2, 20)]] [.run 3, .run 0, .run 0, .run 3] 3 j :=
  C128_failure _ _ _ 3 (by decide) (by decide)

/-- An UPDATE while rows are inserted. -/
example : Serial { keyed with stmts := keyed.stmts.drop 2, keep := fun _ _ => true } [[(1, 10), (3, 30)], [(2, 20)]]
    [.run 1, .run 0, .run 0, .run 1] := by
  refine C128_one_writer _ _ _ ⟨keyed_sound.cut, fun _ _ _ _ _ _ => rfl⟩ ?_ ?_
  · intro i q h
    match i with
    | 0 => simp [keyed] at h
    | 1 => simp [keyed] at h
    | n + 2 => simp [keyed] at h
  · intro i j p g p' g' hij h h' _
    have h1 : i = 1 := by
      match i with
      | 0 => simp [keyed] at h
      | 1 => rfl
      | n + 2 => simp [keyed] at h
    have h2 : j = 1 := by
      match j with
      | 0 => simp [keyed] at h'
      | 1 => rfl
      | n + 2 => simp [keyed] at h'
    exact hij (h1.trans h2.symm)

/-- A DELETE while rows are inserted: what is inserted meanwhile stays. -/
example : rowsOf (run { keyed with stmts := [.modify (fun x => x.1 == 1) (fun _ => none), .insert [(1, 50)]] }
    [[(1, 10), (3, 30)], [(2, 20)]] [.run 0, .run 1, .run 1, .run 0]).files = [(2, 20), (1, 50), (3, 30)] := by decide

example : Serial { keyed with stmts := [.modify (fun x => x.1 == 1) (fun _ => none), .insert [(1, 50)]],
                              keep := fun _ _ => true }
    [[(1, 10), (3, 30)], [(2, 20)]] [.run 0, .run 1, .run 1, .run 0] := by
  refine C128_inserts_deletes _ _ _ ⟨keyed_sound.cut, fun _ _ _ _ _ _ => rfl⟩ ?_ ?_
  · intro i q h
    match i with
    | 0 => simp at h
    | 1 => simp at h
    | n + 2 => simp at h
  · intro i p g h x
    match i with
    | 0 => simp at h; rw [← h.2]
    | 1 => simp at h
    | n + 2 => simp at h

/-- The swap: both statements succeed. -/
example : rowsOf (run (swap 1 2) [[1], [2]] [.run 0, .run 1, .run 0, .run 1]).files = [2, 1] := by decide

example : ([[7, 8], [9]] : List (List Nat)).flatten ≠ [] := by decide

end Seafowl.Races
