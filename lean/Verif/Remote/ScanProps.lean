import Verif.Remote.Scan
import Verif.Remote.PushdownProps

/-!
# Remote tables: what a scan returns (C82)

The remote database is specified on its own: a table with named columns and rows, and what it
answers to `SELECT names FROM t WHERE … LIMIT n`.  The theorems say when a scan of the Seafowl table
is what this database holds, seen through the declared columns.
-/

namespace Seafowl.Remote

variable {V W : Type}

/-! ### The specification of the remote database -/

/-- `LIMIT`. -/
def limited (l : Option Nat) (xs : List α) : List α :=
  match l with
  | none => xs
  | some n => xs.take n

/-- The column of the remote table with the given name. -/
def pickField (R : Answer V) (n : String) : Option Field := R.fields.find? (fun f => f.name == n)

/-- The value of a row in the column with the given name. -/
def pickCell (R : Answer V) (row : List V) (n : String) : Option V :=
  ((R.fields.zip row).find? (fun p => p.1.name == n)).map (·.2)

/-- The WHERE clause keeps the rows for which `keep` holds: it is read as an expression whose value
for the row is true. -/
def Means (d : Option Dialect) (A : List V → Alg W) (truth : W → Bool) (w : Option Sql)
    (keep : List V → Bool) : Prop :=
  match w with
  | none => ∀ row, keep row = true
  | some s => ∃ dd e, d = some dd ∧ Reads dd s e ∧ ∀ row, keep row = truth ((A row).eval e)

/-- The database with table `R` answers the queries as SQL has it; nothing is assumed of queries
with an empty list of columns. -/
structure Serves (d : Option Dialect) (A : List V → Alg W) (truth : W → Bool) (R : Answer V)
    (run : Query → Option (Answer V)) : Prop where
  star : ∀ w l keep, Means d A truth w keep →
    run ⟨none, w, l⟩ = some ⟨R.fields, limited l (R.rows.filter keep)⟩
  cols : ∀ names w l keep, names ≠ [] → Means d A truth w keep →
    run ⟨some names, w, l⟩ = (names.mapM (pickField R)).bind (fun fs =>
      ((limited l (R.rows.filter keep)).mapM (fun row => names.mapM (pickCell R row))).map
        (fun rows => ⟨fs, rows⟩))

/-- AND in WHERE clauses. -/
structure AndLaws (A : Alg W) (truth : W → Bool) : Prop where
  assoc : A.Assoc
  and : ∀ x y, truth (A.bin .and x y) = (truth x && truth y)

/-! ### What the user expects -/

/-- The declared column exists in the remote table and its type can be cast. -/
def castable (k : Caster V) (R : Answer V) (f : Field) : Bool :=
  match pickField R f.name with
  | none => false
  | some s => s.ty == f.ty || k.can s.ty f.ty

/-- A value of type `a` as a value of type `b`. -/
def conv (k : Caster V) (a b : Nat) (v : V) : Option V := if a = b then some v else k.val a b v

/-- The value of a remote row in a declared column: that of the remote column with the same name, in
the declared type. -/
def wanted (k : Caster V) (R : Answer V) (row : List V) (f : Field) : Option V :=
  match (R.fields.zip row).find? (fun p => p.1.name == f.name) with
  | none => none
  | some (s, v) => conv k s.ty f.ty v

/-- The rows of the remote table, seen through the declared columns: an error if a column is
missing, cannot be cast, or has a value that cannot be cast. -/
def through (k : Caster V) (R : Answer V) (fields : List Field) (rows : List (List V)) :
    Option (List (List V)) :=
  if fields.all (castable k R) then rows.mapM (fun row => fields.mapM (wanted k R row)) else none

/-! ### Delivery is by position -/

/-- The expressions of the projection if columns are distinct: the n-th reads column n. -/
def castsFrom : Nat → List (Field × Field) → List CastExpr
  | _, [] => []
  | n, (f, s) :: ps => ⟨n, if s.ty = f.ty then none else some (s.ty, f.ty)⟩ :: castsFrom (n + 1) ps

def posCastable (k : Caster V) (p : Field × Field) : Bool := p.2.ty == p.1.ty || k.can p.2.ty p.1.ty

def posCell (k : Caster V) (p : (Field × Field) × V) : Option V := conv k p.1.2.ty p.1.1.ty p.2

theorem colIndex_append (pre suf : List Field) (f : Field)
    (h : ((pre ++ f :: suf).map (·.name)).Nodup) :
    colIndex (pre ++ f :: suf) f.name = some pre.length := by
  unfold colIndex
  induction pre with
  | nil => simp [List.findIdx?_cons]
  | cons g pre ih =>
    simp only [List.cons_append, List.map_cons, List.nodup_cons] at h
    have hne : g.name ≠ f.name := by
      intro he
      apply h.1
      rw [he]
      simp
    simp only [List.cons_append, List.findIdx?_cons, beq_iff_eq, hne, if_false, ih h.2,
      Option.map_some, List.length_cons]

theorem castExprs (k : Caster V) (schema src : List Field) (hn : (schema.map (·.name)).Nodup) :
    ∀ (suf suf' pre pre' : List Field), schema = pre ++ suf → src = pre' ++ suf' →
      pre.length = pre'.length →
      (suf.zip suf').mapM (castExpr k schema src) =
        if (suf.zip suf').all (posCastable k) then some (castsFrom pre.length (suf.zip suf')) else none := by
  intro suf
  induction suf with
  | nil => intro suf' pre pre' _ _ _; simp [castsFrom]
  | cons f suf ih =>
    intro suf' pre pre' hs hs' hl
    cases suf' with
    | nil => simp [castsFrom]
    | cons s suf' =>
      have hi := ih suf' (pre ++ [f]) (pre' ++ [s]) (by simp [hs]) (by simp [hs']) (by simp [hl])
      have hc : castExpr k schema src (f, s) =
          if posCastable k (f, s) then some ⟨pre.length, if s.ty = f.ty then none else some (s.ty, f.ty)⟩
          else none := by
        unfold castExpr posCastable
        have : colIndex schema f.name = some pre.length := by
          rw [hs] at hn ⊢
          exact colIndex_append _ _ _ hn
        simp only [this]
        have hsi : src[pre.length]? = some s := by rw [hs', hl]; simp
        by_cases he : s = f
        · simp [he]
        · simp only [he, ne_eq, not_false_iff, if_true, castTo, hsi]
          by_cases ht : s.ty = f.ty
          · simp [ht]
          · by_cases hk : k.can s.ty f.ty = true <;> simp [ht, hk]
      simp only [List.zip_cons_cons, List.mapM_cons, hc, hi, List.all_cons, List.length_append,
        List.length_cons, List.length_nil, castsFrom]
      by_cases h1 : posCastable k (f, s) = true
      · by_cases h2 : (suf.zip suf').all (posCastable k) = true
        · simp [h1, h2]
        · simp [h1, h2]
      · simp [h1]

theorem evalCasts (k : Caster V) : ∀ (ps : List (Field × Field)) (rpre rsuf : List V),
    ps.length ≤ rsuf.length →
    (castsFrom rpre.length ps).mapM (evalCast k (rpre ++ rsuf)) = (ps.zip rsuf).mapM (posCell k) := by
  intro ps
  induction ps with
  | nil => intro rpre rsuf _; simp [castsFrom]
  | cons p ps ih =>
    intro rpre rsuf hl
    obtain ⟨f, s⟩ := p
    cases rsuf with
    | nil => simp at hl
    | cons v rsuf =>
      have hi := ih (rpre ++ [v]) rsuf (by simpa using hl)
      simp only [List.append_assoc, List.singleton_append, List.length_append, List.length_cons,
        List.length_nil] at hi
      have he : evalCast k (rpre ++ v :: rsuf)
          ⟨rpre.length, if s.ty = f.ty then none else some (s.ty, f.ty)⟩ = posCell k ((f, s), v) := by
        unfold evalCast posCell conv
        by_cases ht : s.ty = f.ty <;> simp [ht]
      simp only [castsFrom, List.mapM_cons, he, List.zip_cons_cons]
      rw [show rpre.length + 1 = rpre.length + (0 + 1) from rfl, hi]

theorem posSelf (k : Caster V) : ∀ (fs : List Field) (row : List V), row.length = fs.length →
    ((fs.zip fs).zip row).mapM (posCell k) = some row := by
  intro fs
  induction fs with
  | nil => intro row h; simp at h; simp [h]
  | cons f fs ih =>
    intro row h
    cases row with
    | nil => simp at h
    | cons v row =>
      simp only [List.length_cons, Nat.add_right_cancel_iff] at h
      simp only [List.zip_cons_cons, List.mapM_cons, ih row h]
      simp [posCell, conv]

theorem mapM_some_self {f : α → Option α} (xs : List α) (h : ∀ x ∈ xs, f x = some x) :
    xs.mapM f = some xs := by
  induction xs with
  | nil => simp
  | cons x xs ih =>
    simp [List.mapM_cons, h x (by simp), ih (fun y hy => h y (by simp [hy]))]

theorem mapM_congr' {f g : α → Option β} (xs : List α) (h : ∀ x ∈ xs, f x = g x) :
    xs.mapM f = xs.mapM g := by
  induction xs with
  | nil => simp
  | cons x xs ih =>
    simp [List.mapM_cons, h x (by simp), ih (fun y hy => h y (by simp [hy]))]

/-- **C82 (by position).** Whatever the remote database answers, the values of its n-th column are
delivered as the n-th column of the scan, in the declared type of the latter; surplus columns on
either side are left out. -/
theorem C82_positional (k : Caster V) (schema : List Field) (a : Answer V)
    (hn : (schema.map (·.name)).Nodup) (hr : ∀ row ∈ a.rows, row.length = a.fields.length) :
    deliver k schema a =
      if (schema.zip a.fields).all (posCastable k) then
        a.rows.mapM (fun row => ((schema.zip a.fields).zip row).mapM (posCell k))
      else none := by
  unfold deliver
  by_cases he : a.fields = schema
  · simp only [he, ne_eq, not_true_eq_false, if_false]
    have h1 : ∀ fs : List Field, (fs.zip fs).all (posCastable k) = true := by
      intro fs
      induction fs with
      | nil => rfl
      | cons f fs ih => simp only [List.zip_cons_cons, List.all_cons, ih]; simp [posCastable]
    rw [if_pos (h1 _), mapM_some_self]
    intro row hrow
    exact posSelf k _ _ (by rw [hr row hrow, he])
  · simp only [he, ne_eq, not_false_iff, if_true]
    rw [castExprs k schema a.fields hn schema a.fields [] [] rfl rfl rfl]
    by_cases hc : (schema.zip a.fields).all (posCastable k) = true
    · simp only [hc, if_true]
      refine mapM_congr' _ (fun row hrow => ?_)
      have := evalCasts k (schema.zip a.fields) [] row (by
        rw [hr row hrow]; simp only [List.length_zip]; omega)
      simpa using this
    · simp [hc]

/-! ### The WHERE clause -/

theorem whereClause_means (d : Dialect) (A : List V → Alg W) (truth : W → Bool)
    (hA : ∀ row, AndLaws (A row) truth) (fs : List Expr) (w : Option Sql)
    (hw : whereClause d fs = some w) (hf : ∀ e ∈ fs, isFilter e = true) :
    Means (some d) A truth w (fun row => fs.all (fun e => truth ((A row).eval e))) := by
  cases w with
  | none =>
    cases fs with
    | nil => intro row; rfl
    | cons e fs => simp [whereClause, conjunction] at hw
  | some s =>
    obtain ⟨e', hr, hv⟩ := C48_where_partial d fs s hw hf
    refine ⟨d, e', rfl, hr, fun row => ?_⟩
    cases fs with
    | nil => simp [whereClause] at hw
    | cons e rest =>
      have := hv W (A row) (hA row).assoc e rest rfl
      rw [this]
      have gen : ∀ (rest : List Expr) (v : W),
          truth (rest.foldl (fun v x => (A row).bin .and v ((A row).eval x)) v) =
            (truth v && rest.all (fun e => truth ((A row).eval e))) := by
        intro rest
        induction rest with
        | nil => intro v; simp
        | cons x rest ih =>
          intro v
          simp only [List.foldl_cons, ih, (hA row).and, List.all_cons, Bool.and_assoc]
      rw [gen]
      simp

theorem rtWhere_means (t : RTable) (A : List V → Alg W) (truth : W → Bool)
    (hA : ∀ row, AndLaws (A row) truth) (fs : List Expr) (hx : ∀ e ∈ fs, rtExact t e = true)
    (hf : ∀ e ∈ fs, isFilter e = true) :
    ∃ w, rtWhere t fs = some w ∧
      Means t.dialect A truth w (fun row => fs.all (fun e => truth ((A row).eval e))) := by
  unfold rtWhere rtExact at *
  cases hd : t.dialect with
  | some d =>
    simp only [hd] at hx ⊢
    obtain ⟨w, hw, _⟩ := C48_exact d fs hx
    exact ⟨w, hw, whereClause_means d A truth hA fs w hw hf⟩
  | none =>
    simp only [hd] at hx ⊢
    cases fs with
    | nil => exact ⟨none, rfl, fun row => rfl⟩
    | cons e fs => exact absurd (hx e (by simp)) (by simp)

/-! ### Scans with a projection -/

theorem project_names (schema : List Field) (ixs : List Nat) (fs : List Field)
    (h : project schema ixs = some fs) : fs = [] ↔ ixs = [] := by
  unfold project at h
  cases ixs with
  | nil => simp at h; simp [h]
  | cons i ixs =>
    simp only [List.mapM_cons] at h
    cases h1 : schema[i]? with
    | none => simp [h1] at h
    | some f =>
      cases h2 : ixs.mapM (fun i => schema[i]?) with
      | none => simp [h1, h2] at h
      | some gs => simp [h1, h2] at h; simp [← h]

theorem mapM_eq_none {f : α → Option β} : ∀ xs : List α, xs.mapM f = none ↔ ∃ x ∈ xs, f x = none := by
  intro xs
  induction xs with
  | nil => simp
  | cons x xs ih =>
    simp only [List.mapM_cons]
    cases hx : f x with
    | none => simp [hx]
    | some y =>
      cases hs : xs.mapM f with
      | none =>
        have := ih.1 hs
        simp only [Option.bind_eq_bind, Option.bind_some, Option.bind_none, true_iff]
        obtain ⟨z, hz, h⟩ := this
        exact ⟨z, by simp [hz], h⟩
      | some ys =>
        simp only [Option.bind_eq_bind, Option.bind_some, Option.pure_def, reduceCtorEq, false_iff]
        rintro ⟨z, hz, h⟩
        rcases List.mem_cons.1 hz with rfl | hz
        · rw [hx] at h; cases h
        · rw [ih.2 ⟨z, hz, h⟩] at hs; cases hs

theorem pickCell_of_field (R : Answer V) (row : List V) (hl : row.length = R.fields.length) (n : String)
    (s : Field) (h : pickField R n = some s) :
    ∃ v, (R.fields.zip row).find? (fun p => p.1.name == n) = some (s, v) := by
  unfold pickField at h
  revert row h
  generalize R.fields = fs
  induction fs with
  | nil => intro row hl h; simp at h
  | cons f fs ih =>
    intro row hl h
    cases row with
    | nil => simp at hl
    | cons v row =>
      simp only [List.zip_cons_cons, List.find?_cons] at h ⊢
      by_cases hf : (f.name == n) = true
      · simp only [hf] at h ⊢
        injection h with h
        exact ⟨v, by rw [h]⟩
      · simp only [Bool.not_eq_true] at hf
        simp only [hf] at h ⊢
        exact ih row (by simpa using hl) h

/-- A row of the answer, cast by position, is the row seen through the declared columns. -/
theorem posRow (k : Caster V) (R : Answer V) (row : List V) (hl : row.length = R.fields.length) :
    ∀ (fields srcs : List Field) (vs : List V),
      (fields.map (·.name)).mapM (pickField R) = some srcs →
      (fields.map (·.name)).mapM (pickCell R row) = some vs →
      ((fields.zip srcs).zip vs).mapM (posCell k) = fields.mapM (wanted k R row) := by
  intro fields
  induction fields with
  | nil => intro srcs vs h1 h2; simp at h1 h2; simp [h1]
  | cons f fields ih =>
    intro srcs vs h1 h2
    simp only [List.map_cons, List.mapM_cons] at h1 h2
    cases hp : pickField R f.name with
    | none => simp [hp] at h1
    | some s =>
      obtain ⟨v, hv⟩ := pickCell_of_field R row hl f.name s hp
      have hv' : pickCell R row f.name = some v := by unfold pickCell; rw [hv]; rfl
      cases hs : (fields.map (·.name)).mapM (pickField R) with
      | none => simp [hp, hs] at h1
      | some srcs' =>
        cases hc : (fields.map (·.name)).mapM (pickCell R row) with
        | none => simp [hv', hc] at h2
        | some vs' =>
          simp [hp, hs] at h1
          simp [hv', hc] at h2
          subst h1; subst h2
          simp only [List.zip_cons_cons, List.mapM_cons, ih srcs' vs' hs hc]
          simp [posCell, wanted, hv]

theorem posCastable_names (k : Caster V) (R : Answer V) : ∀ (fields srcs : List Field),
    (fields.map (·.name)).mapM (pickField R) = some srcs →
    (fields.zip srcs).all (posCastable k) = fields.all (castable k R) := by
  intro fields
  induction fields with
  | nil => intro srcs _; simp
  | cons f fields ih =>
    intro srcs h
    simp only [List.map_cons, List.mapM_cons] at h
    cases hp : pickField R f.name with
    | none => simp [hp] at h
    | some s =>
      cases hs : (fields.map (·.name)).mapM (pickField R) with
      | none => simp [hp, hs] at h
      | some srcs' =>
        simp [hp, hs] at h
        subst h
        simp only [List.zip_cons_cons, List.all_cons, ih srcs' hs]
        simp [posCastable, castable, hp]

theorem mapM_mapM {f : α → Option β} {g : β → Option γ} {h : α → Option γ} (xs : List α)
    (hs : ∀ x ∈ xs, ∃ y, f x = some y ∧ g y = h x) :
    ∃ ys, xs.mapM f = some ys ∧ ys.mapM g = xs.mapM h := by
  induction xs with
  | nil => exact ⟨[], by simp⟩
  | cons x xs ih =>
    obtain ⟨y, h1, h2⟩ := hs x (by simp)
    obtain ⟨ys, h3, h4⟩ := ih (fun z hz => hs z (by simp [hz]))
    exact ⟨y :: ys, by simp [List.mapM_cons, h1, h3], by simp [List.mapM_cons, h2, h4]⟩

theorem mem_limited {l : Option Nat} {xs : List α} {x : α} (h : x ∈ limited l xs) : x ∈ xs := by
  cases l with
  | none => exact h
  | some n => exact List.mem_of_mem_take h

theorem mapM_length {f : α → Option β} : ∀ (xs : List α) (ys : List β), xs.mapM f = some ys →
    ys.length = xs.length := by
  intro xs
  induction xs with
  | nil => intro ys h; simp at h; simp [h]
  | cons x xs ih =>
    intro ys h
    simp only [List.mapM_cons] at h
    cases h1 : f x with
    | none => simp [h1] at h
    | some y =>
      cases h2 : xs.mapM f with
      | none => simp [h1, h2] at h
      | some zs => simp [h1, h2] at h; rw [← h]; simp [ih zs h2]

theorem mapM_mem {f : α → Option β} : ∀ (xs : List α) (ys : List β), xs.mapM f = some ys →
    ∀ y ∈ ys, ∃ x ∈ xs, f x = some y := by
  intro xs
  induction xs with
  | nil => intro ys h y hy; simp at h; simp [h] at hy
  | cons x xs ih =>
    intro ys h y hy
    simp only [List.mapM_cons] at h
    cases h1 : f x with
    | none => simp [h1] at h
    | some z =>
      cases h2 : xs.mapM f with
      | none => simp [h1, h2] at h
      | some zs =>
        simp [h1, h2] at h
        subst h
        rcases List.mem_cons.1 hy with rfl | hy
        · exact ⟨x, by simp, h1⟩
        · obtain ⟨x', hx', h'⟩ := ih zs h2 y hy
          exact ⟨x', by simp [hx'], h'⟩

/-- **C82 (scans with a projection).** If the remote database answers as SQL has it, a scan with a
non-empty projection, filters taken off DataFusion's hands and a limit returns the rows of the
remote table for which all filters hold, in their order and up to the limit, with the declared
columns of the projection: each has the values of the remote column *of that name*, in the declared
type.  If a column is missing or cannot be cast, the scan fails.
(Partial: the filters are ordinary ones in the sense of C48, and the projection is given.) -/
theorem C82_partial (k : Caster V) (A : List V → Alg W) (truth : W → Bool)
    (hA : ∀ row, AndLaws (A row) truth) (R : Answer V)
    (hR : ∀ row ∈ R.rows, row.length = R.fields.length)
    (run : Query → Option (Answer V)) (t : RTable) (hrun : Serves t.dialect A truth R run)
    (ixs : List Nat) (fields : List Field) (hp : project t.schema ixs = some fields)
    (hne : ixs ≠ []) (hn : (fields.map (·.name)).Nodup)
    (filters : List Expr) (hx : ∀ e ∈ filters, rtExact t e = true)
    (hf : ∀ e ∈ filters, isFilter e = true) (limit : Option Nat) :
    scan k run t (some ixs) filters limit =
      through k R fields
        (limited limit (R.rows.filter (fun row => filters.all (fun e => truth ((A row).eval e))))) := by
  obtain ⟨w, hw, hm⟩ := rtWhere_means t A truth hA filters hx hf
  have hfne : fields.map (·.name) ≠ [] := by
    intro h
    exact hne ((project_names _ _ _ hp).1 (List.map_eq_nil_iff.1 h))
  unfold scan
  simp only [scanCols, hp, Option.map_some, hw, hrun.cols _ w limit _ hfne hm]
  generalize hrows : limited limit
    (R.rows.filter (fun row => filters.all (fun e => truth ((A row).eval e)))) = rows
  have hlen : ∀ row ∈ rows, row.length = R.fields.length := by
    intro row hrow
    rw [← hrows] at hrow
    exact hR row (List.mem_filter.1 (mem_limited hrow)).1
  unfold through
  cases hs : (fields.map (·.name)).mapM (pickField R) with
  | none =>
    obtain ⟨n, hmem, hnone⟩ := (mapM_eq_none _).1 hs
    obtain ⟨f, hfm, rfl⟩ := List.mem_map.1 hmem
    have : fields.all (castable k R) = false := by
      rw [List.all_eq_false]
      exact ⟨f, hfm, by simp [castable, hnone]⟩
    simp [this]
  | some srcs =>
    have hvals : ∀ row ∈ rows, ∃ vs, (fields.map (·.name)).mapM (pickCell R row) = some vs ∧
        ((fields.zip srcs).zip vs).mapM (posCell k) = fields.mapM (wanted k R row) := by
      intro row hrow
      cases hc : (fields.map (·.name)).mapM (pickCell R row) with
      | some vs => exact ⟨vs, rfl, posRow k R row (hlen row hrow) fields srcs vs hs hc⟩
      | none =>
        exfalso
        obtain ⟨n, hmem, hnone⟩ := (mapM_eq_none _).1 hc
        cases hpf : pickField R n with
        | none =>
          rw [(mapM_eq_none _).2 ⟨n, hmem, hpf⟩] at hs
          cases hs
        | some s =>
          obtain ⟨v, hv⟩ := pickCell_of_field R row (hlen row hrow) n s hpf
          simp [pickCell, hv] at hnone
    obtain ⟨ys, hys, hys'⟩ := mapM_mapM rows hvals
    simp only [Option.bind_some, hys, Option.map_some]
    rw [C82_positional k fields ⟨srcs, ys⟩ hn ?_]
    · simp only [posCastable_names k R fields srcs hs, hys']
    · intro vs hvs
      have hsl := mapM_length _ _ hs
      simp only [List.length_map] at hsl
      obtain ⟨row, _, hrow⟩ := mapM_mem _ _ hys vs hvs
      have := mapM_length _ _ hrow
      simp only [List.length_map] at this
      rw [this, hsl]

/-! ### Scans without a projection -/

theorem mapM_pickField_self (R : Answer V) (hn : (R.fields.map (·.name)).Nodup) :
    ∀ fs : List Field, (∀ f ∈ fs, f ∈ R.fields) → (fs.map (·.name)).mapM (pickField R) = some fs := by
  intro fs
  induction fs with
  | nil => intro _; simp
  | cons f fs ih =>
    intro h
    have hf : pickField R f.name = some f := by
      unfold pickField
      have hmem := h f (by simp)
      revert hn hmem
      generalize R.fields = gs
      intro hn hmem
      induction gs with
      | nil => simp at hmem
      | cons g gs ihg =>
        simp only [List.map_cons, List.nodup_cons] at hn
        rcases List.mem_cons.1 hmem with rfl | hmem
        · simp
        · have : g.name ≠ f.name := by
            intro he; apply hn.1; rw [he]; exact List.mem_map.2 ⟨f, hmem, rfl⟩
          have hb : (g.name == f.name) = false := by simp [this]
          simp only [List.find?_cons, hb]
          exact ihg hn.2 hmem
    simp [List.mapM_cons, hf, ih (fun g hg => h g (by simp [hg]))]

theorem mapM_pickCell_self (R : Answer V) (hn : (R.fields.map (·.name)).Nodup) (row : List V)
    (hl : row.length = R.fields.length) :
    (R.fields.map (·.name)).mapM (pickCell R row) = some row := by
  have key : ∀ (pre suf : List Field) (rpre rsuf : List V), R.fields = pre ++ suf →
      row = rpre ++ rsuf → pre.length = rpre.length →
      (suf.map (·.name)).mapM (pickCell R row) = some rsuf := by
    intro pre suf
    induction suf generalizing pre with
    | nil =>
      intro rpre rsuf h1 h2 h3
      have : rsuf = [] := by
        have := congrArg List.length h2
        rw [hl, h1] at this
        simp only [List.append_nil, List.length_append] at this
        exact List.length_eq_zero_iff.1 (by omega)
      simp [this]
    | cons f suf ih =>
      intro rpre rsuf h1 h2 h3
      cases rsuf with
      | nil =>
        exfalso
        have := congrArg List.length h2
        rw [hl, h1] at this
        simp only [List.append_nil, List.length_append, List.length_cons] at this
        omega
      | cons v rsuf =>
        have hi := ih (pre ++ [f]) (rpre ++ [v]) rsuf (by simp [h1]) (by simp [h2]) (by simp [h3])
        have hc : pickCell R row f.name = some v := by
          unfold pickCell
          rw [h1, h2, List.zip_append h3]
          rw [h1] at hn
          have : ∀ p ∈ pre.zip rpre, ¬ ((p.1.name == f.name) = true) := by
            intro p hp he
            have hm := List.of_mem_zip (show (p.1, p.2) ∈ pre.zip rpre from hp)
            simp only [List.map_append, List.map_cons] at hn
            have := (List.nodup_append.1 hn).2.2 p.1.name (List.mem_map.2 ⟨p.1, hm.1, rfl⟩) f.name (by simp)
            exact this (by simpa using he)
          rw [List.find?_append, List.find?_eq_none.2 this]
          simp
        simp [List.mapM_cons, hc, hi]
  exact key [] R.fields [] row rfl rfl rfl

/-- **C82 (scans without a projection).** If the remote table has the columns of the declared
schema in the same order (under the same names), a scan of all columns returns its rows for which
the filters hold, seen through the declared columns. -/
theorem C82_star_partial (k : Caster V) (A : List V → Alg W) (truth : W → Bool)
    (hA : ∀ row, AndLaws (A row) truth) (R : Answer V)
    (hR : ∀ row ∈ R.rows, row.length = R.fields.length)
    (run : Query → Option (Answer V)) (t : RTable) (hrun : Serves t.dialect A truth R run)
    (hn : (t.schema.map (·.name)).Nodup)
    (hsame : R.fields.map (·.name) = t.schema.map (·.name))
    (filters : List Expr) (hx : ∀ e ∈ filters, rtExact t e = true)
    (hf : ∀ e ∈ filters, isFilter e = true) (limit : Option Nat) :
    scan k run t none filters limit =
      through k R t.schema
        (limited limit (R.rows.filter (fun row => filters.all (fun e => truth ((A row).eval e))))) := by
  obtain ⟨w, hw, hm⟩ := rtWhere_means t A truth hA filters hx hf
  unfold scan
  simp only [scanCols, hw, hrun.star w limit _ hm]
  generalize hrows : limited limit
    (R.rows.filter (fun row => filters.all (fun e => truth ((A row).eval e)))) = rows
  have hlen : ∀ row ∈ rows, row.length = R.fields.length := by
    intro row hrow
    rw [← hrows] at hrow
    exact hR row (List.mem_filter.1 (mem_limited hrow)).1
  have hnR : (R.fields.map (·.name)).Nodup := by rw [hsame]; exact hn
  have hs : (t.schema.map (·.name)).mapM (pickField R) = some R.fields := by
    rw [← hsame]; exact mapM_pickField_self R hnR R.fields (fun f h => h)
  rw [C82_positional k t.schema ⟨R.fields, rows⟩ hn hlen]
  unfold through
  simp only [posCastable_names k R t.schema R.fields hs]
  split
  · refine mapM_congr' _ (fun row hrow => ?_)
    exact posRow k R row (hlen row hrow) t.schema R.fields row hs
      (by rw [← hsame]; exact mapM_pickCell_self R hnR row (hlen row hrow))
  · rfl

/-- **C82 (introspection).** A table created without columns gets those of the remote table, and a
scan of all columns returns the remote rows as they are. -/
theorem C82_introspected (k : Caster V) (A : List V → Alg W) (truth : W → Bool)
    (hA : ∀ row, AndLaws (A row) truth) (R : Answer V)
    (run : Query → Option (Answer V)) (d : Option Dialect) (hrun : Serves d A truth R run) :
    ∃ t, newTable run d [] = some t ∧ t.schema = R.fields ∧
      ∀ filters limit, (∀ e ∈ filters, rtExact t e = true) → (∀ e ∈ filters, isFilter e = true) →
        scan k run t none filters limit =
          some (limited limit
            (R.rows.filter (fun row => filters.all (fun e => truth ((A row).eval e))))) := by
  refine ⟨⟨d, R.fields⟩, ?_, rfl, fun filters limit hx hf => ?_⟩
  · unfold newTable
    rw [hrun.star none (some 1) (fun _ => true) (fun _ => rfl)]
    rfl
  · obtain ⟨w, hw, hm⟩ := rtWhere_means ⟨d, R.fields⟩ A truth hA filters hx hf
    unfold scan
    simp only [scanCols, hw, hrun.star w limit _ hm, deliver]
    simp

/-- **C82 (no filter is lost).** A scan that was given filters and succeeds has asked the remote database
with a WHERE clause; a source without a dialect of ours answers a scan with filters by an error. -/
theorem C82_filters_kept (k : Caster V) (run : Query → Option (Answer V)) (t : RTable) (p : Option (List Nat))
    (filters : List Expr) (limit : Option Nat) (rows : List (List V)) (hne : filters ≠ [])
    (h : scan k run t p filters limit = some rows) :
    t.dialect ≠ none ∧ ∃ (cols : Option (List String)) (w : Sql) (a : Answer V), run ⟨cols, some w, limit⟩ = some a := by
  have he : filters.isEmpty = false := by cases filters with
    | nil => exact absurd rfl hne
    | cons _ _ => rfl
  unfold scan at h
  split at h
  · cases h
  · rename_i fields cols _
    split at h
    · cases h
    · rename_i w hw
      have hsome : t.dialect ≠ none ∧ ∃ q, w = some q := by
        unfold rtWhere at hw
        split at hw
        · rename_i d hd
          refine ⟨by rw [hd]; simp, ?_⟩
          unfold whereClause at hw
          rw [he] at hw
          simp only [Bool.false_eq_true, if_false] at hw
          split at hw
          · cases hw
          · rename_i e _
            cases hq : filterToSql d e with
            | none => rw [hq] at hw; cases hw
            | some q => rw [hq] at hw; exact ⟨q, (Option.some.inj hw).symm⟩
        · rw [he] at hw
          cases hw
      obtain ⟨hd, q, rfl⟩ := hsome
      refine ⟨hd, cols, q, ?_⟩
      split at h
      · cases h
      · rename_i a ha
        exact ⟨a, ha⟩

/-- **C82 (declared columns).** A table created with columns has exactly these, and the remote
database is not asked. -/
theorem C82_declared (run : Query → Option (Answer V)) (d : Option Dialect) (schema : List Field)
    (h : schema ≠ []) : newTable run d schema = some ⟨d, schema⟩ := by
  unfold newTable
  cases schema with
  | nil => exact absurd rfl h
  | cons f fs => rfl

/-! ### A database -/

/-- A database answering as SQL has it, for sources without filters. -/
def plainDb (R : Answer V) (q : Query) : Option (Answer V) :=
  match q.cols with
  | none => some ⟨R.fields, limited q.limit R.rows⟩
  | some names => (names.mapM (pickField R)).bind (fun fs =>
      ((limited q.limit R.rows).mapM (fun row => names.mapM (pickCell R row))).map
        (fun rows => ⟨fs, rows⟩))

theorem plainDb_serves (A : List V → Alg W) (truth : W → Bool) (R : Answer V) :
    Serves none A truth R (plainDb R) := by
  have key : ∀ w keep, Means none A truth w keep → R.rows.filter keep = R.rows := by
    intro w keep h
    cases w with
    | none => exact List.filter_eq_self.2 (fun row _ => h row)
    | some s => obtain ⟨_, _, h', _⟩ := h; cases h'
  constructor
  · intro w l keep h
    simp [plainDb, key w keep h]
  · intro names w l keep _ h
    simp [plainDb, key w keep h]

/-- The table of the examples: columns `a` and `b` of one type. -/
def exR : Answer Nat := ⟨[⟨"a", 0, true⟩, ⟨"b", 0, true⟩], [[1, 2], [3, 4]]⟩

/-- A caster that can cast all types and keeps the values. -/
def idCaster : Caster Nat := ⟨fun _ _ => true, fun _ _ v => some v⟩

/-- An algebra over Boolean values. -/
def boolAlg : Alg Bool where
  atom _ := true
  bin o x y := if o = .or then x || y else x && y
  not x := !x
  neg x := x
  is _ x := x
  inList x _ _ := x
  unsupported _ := false

theorem boolAlg_laws : AndLaws boolAlg id := by
  constructor
  · rintro o (rfl | rfl) x y z
    · simp [boolAlg, Bool.and_assoc]
    · simp [boolAlg, Bool.or_assoc]
  · intro x y; simp [boolAlg]

/-- With a projection, the declared order does not matter. -/
example : scan idCaster (plainDb exR) ⟨none, [⟨"b", 7, true⟩, ⟨"a", 0, true⟩]⟩ (some [0, 1]) [] (some 1) =
    some [[2, 1]] := by decide +kernel

example : through idCaster exR [⟨"b", 7, true⟩, ⟨"a", 0, true⟩] [[1, 2]] = some [[2, 1]] := by
  decide +kernel

example : scan idCaster (plainDb exR) ⟨none, [⟨"b", 7, true⟩, ⟨"a", 0, true⟩]⟩ (some [0, 1]) [] (some 1) =
    through idCaster exR [⟨"b", 7, true⟩, ⟨"a", 0, true⟩] (limited (some 1) exR.rows) := by
  have := C82_partial idCaster (fun _ => boolAlg) id (fun _ => boolAlg_laws) exR (by decide)
    (plainDb exR) ⟨none, [⟨"b", 7, true⟩, ⟨"a", 0, true⟩]⟩ (plainDb_serves _ _ _) [0, 1]
    [⟨"b", 7, true⟩, ⟨"a", 0, true⟩] rfl (by decide) (by decide) [] (by simp) (by simp) (some 1)
  exact this

/-- A column the remote table does not have. -/
example : scan idCaster (plainDb exR) ⟨none, [⟨"c", 0, true⟩]⟩ (some [0]) [] none = none := by
  decide +kernel

/-- **Violation of C82 without a projection.** The columns of the remote table come under the names
of other columns if they are declared in another order: here the values of `a` are returned as
those of `b`. -/
theorem C82_violated_star : ∃ (R : Answer Nat) (t : RTable) (rows : List (List Nat)),
    (t.schema.map (·.name)).Nodup ∧
    scan idCaster (plainDb R) t none [] none = some rows ∧
    through idCaster R t.schema R.rows ≠ some rows ∧
    (through idCaster R t.schema R.rows).isSome = true :=
  ⟨exR, ⟨none, [⟨"b", 0, true⟩, ⟨"a", 0, true⟩]⟩, [[1, 2], [3, 4]], by decide +kernel,
    by decide +kernel, by decide +kernel, by decide +kernel⟩

theorem posTypes (k : Caster V) : ∀ (fs gs : List Field) (row : List V), gs.map (·.ty) = fs.map (·.ty) →
    row.length = gs.length → (fs.zip gs).all (posCastable k) = true ∧
      ((fs.zip gs).zip row).mapM (posCell k) = some row
  | [], [], row, _, h => by
    cases row with
    | nil => exact ⟨rfl, rfl⟩
    | cons _ _ => simp at h
  | [], g :: gs, _, h, _ => by simp at h
  | f :: fs, [], _, h, _ => by simp at h
  | f :: fs, g :: gs, [], _, h => by simp at h
  | f :: fs, g :: gs, v :: row, ht, h => by
    simp only [List.map_cons, List.cons.injEq] at ht
    simp only [List.length_cons, Nat.add_right_cancel_iff] at h
    obtain ⟨h1, h2⟩ := posTypes k fs gs row ht.2 h
    refine ⟨by simp [posCastable, ht.1] at h1 ⊢; exact h1, ?_⟩
    simp only [List.zip_cons_cons, List.mapM_cons, h2]
    simp [posCell, conv, ht.1]

/-- **Violation of C82 without a projection, always.** Whatever the names and the order of the declared columns, if their
types are those of the remote columns by position then a scan of all columns returns the remote rows as they are, each value
under the name declared in its place. -/
theorem C82_violated_star_always (k : Caster V) (A : List V → Alg W) (truth : W → Bool)
    (hA : ∀ row, AndLaws (A row) truth) (R : Answer V)
    (hR : ∀ row ∈ R.rows, row.length = R.fields.length)
    (run : Query → Option (Answer V)) (t : RTable) (hrun : Serves t.dialect A truth R run)
    (hn : (t.schema.map (·.name)).Nodup) (hty : R.fields.map (·.ty) = t.schema.map (·.ty))
    (filters : List Expr) (hx : ∀ e ∈ filters, rtExact t e = true)
    (hf : ∀ e ∈ filters, isFilter e = true) (limit : Option Nat) :
    scan k run t none filters limit =
      some (limited limit (R.rows.filter (fun row => filters.all (fun e => truth ((A row).eval e))))) := by
  obtain ⟨w, hw, hm⟩ := rtWhere_means t A truth hA filters hx hf
  unfold scan
  simp only [scanCols, hw, hrun.star w limit _ hm]
  generalize hrows : limited limit
    (R.rows.filter (fun row => filters.all (fun e => truth ((A row).eval e)))) = rows
  have hlen : ∀ row ∈ rows, row.length = R.fields.length := by
    intro row hrow
    rw [← hrows] at hrow
    exact hR row (List.mem_filter.1 (mem_limited hrow)).1
  rw [C82_positional k t.schema ⟨R.fields, rows⟩ hn hlen]
  cases hr : rows with
  | nil =>
    have : (t.schema.zip R.fields).all (posCastable k) = true := by
      rw [List.all_eq_true]
      intro p hp
      have : p.2.ty = p.1.ty := by
        obtain ⟨i, hi⟩ := List.mem_iff_getElem?.1 hp
        rw [List.getElem?_zip_eq_some] at hi
        have h3 := congrArg (fun l => l[i]?) hty
        simp only [List.getElem?_map, hi.1, hi.2, Option.map_some, Option.some.injEq] at h3
        exact h3
      simp [posCastable, this]
    simp [this]
  | cons row rest =>
    have hc := (posTypes k t.schema R.fields row hty (hlen row (by rw [hr]; simp))).1
    simp only [hc, if_true]
    rw [← hr]
    exact mapM_some_self _ (fun row hrow => (posTypes k t.schema R.fields row hty (hlen row hrow)).2)

/-- **C82 (scans without a projection, exactly).** What a scan of all columns returns, whatever is declared: the columns by
position, cast to the declared types; it fails just if a cast is not possible. -/
theorem C82_star_exact (k : Caster V) (A : List V → Alg W) (truth : W → Bool)
    (hA : ∀ row, AndLaws (A row) truth) (R : Answer V)
    (hR : ∀ row ∈ R.rows, row.length = R.fields.length)
    (run : Query → Option (Answer V)) (t : RTable) (hrun : Serves t.dialect A truth R run)
    (hn : (t.schema.map (·.name)).Nodup)
    (filters : List Expr) (hx : ∀ e ∈ filters, rtExact t e = true)
    (hf : ∀ e ∈ filters, isFilter e = true) (limit : Option Nat) :
    scan k run t none filters limit =
      if (t.schema.zip R.fields).all (posCastable k) then
        (limited limit (R.rows.filter (fun row => filters.all (fun e => truth ((A row).eval e))))).mapM
          (fun row => ((t.schema.zip R.fields).zip row).mapM (posCell k))
      else none := by
  obtain ⟨w, hw, hm⟩ := rtWhere_means t A truth hA filters hx hf
  unfold scan
  simp only [scanCols, hw, hrun.star w limit _ hm]
  exact C82_positional k t.schema ⟨R.fields, _⟩ hn
    (fun row hrow => hR row (List.mem_filter.1 (mem_limited hrow)).1)

example : exR.fields.map (·.ty) = ([⟨"b", 0, true⟩, ⟨"a", 0, true⟩] : List Field).map (·.ty) := by decide

/-- **Violation of C82 without a projection.** A declared column the remote table does not have is
silently left out if it is the last one; a projection makes the scan fail. -/
theorem C82_violated_missing : ∃ (R : Answer Nat) (t : RTable),
    (t.schema.map (·.name)).Nodup ∧ t.schema.length = 3 ∧
    scan idCaster (plainDb R) t none [] none = some [[1, 2], [3, 4]] ∧
    scan idCaster (plainDb R) t (some [0, 1, 2]) [] none = none :=
  ⟨exR, ⟨none, [⟨"a", 0, true⟩, ⟨"b", 0, true⟩, ⟨"c", 0, true⟩]⟩, by decide +kernel,
    by decide +kernel, by decide +kernel, by decide +kernel⟩

/-- **C82 (empty projection).** A scan of no columns (as for `COUNT(*)`) asks for an empty list of
columns, `SELECT  FROM t`, which only PostgreSQL understands: if the database refuses it, the scan
fails. -/
theorem C82_empty_projection (k : Caster V) (run : Query → Option (Answer V)) (t : RTable)
    (limit : Option Nat) (h : run ⟨some [], none, limit⟩ = none) :
    scan k run t (some []) [] limit = none := by
  unfold scan scanCols project rtWhere
  cases t.dialect <;> simp [whereClause, h]

end Seafowl.Remote
