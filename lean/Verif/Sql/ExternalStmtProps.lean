import Verif.Sql.ExternalStmt

/-!
# C111: CREATE EXTERNAL TABLE is read as written
-/

namespace Seafowl.SqlExt

set_option linter.unusedSimpArgs false

variable {α : Type}

/-! ### specification: the grammar -/

/-- The crate's parser `p` reads `a` at the front of `w` and leaves `r`. -/
def Took (p : List Tok → Option (α × Nat)) (w : List Tok) (a : α) (r : List Tok) : Prop :=
  w ≠ [] ∧ ∃ k, p w = some (a, k) ∧ r = w.drop (k + 1)

/-- A word: any keyword or a name. -/
inductive IsWord : Tok → Ident → Prop
  | kw (k : Kw) (t : String) : IsWord (.kw k t) ⟨t, false⟩
  | ident (v : String) (q : Bool) : IsWord (.ident v q) ⟨v, q⟩

/-- Items separated by commas, with or without one after the last, and a closing parenthesis. -/
inductive Items (I : List Tok → α → List Tok → Prop) : List Tok → List α → List Tok → Prop
  | last (w : List Tok) (x : α) (r : List Tok) : I w x (.rparen :: r) → Items I w [x] r
  | lastComma (w : List Tok) (x : α) (r : List Tok) : I w x (.comma :: .rparen :: r) → Items I w [x] r
  | cons (w : List Tok) (x : α) (w' : List Tok) (xs : List α) (r : List Tok) : I w x (.comma :: w') →
      (∀ r', w' ≠ .rparen :: r') → Items I w' xs r → Items I w (x :: xs) r

/-- Such a list in parentheses; it may be empty or missing. -/
inductive OptItems (I : List Tok → α → List Tok → Prop) : List Tok → List α → List Tok → Prop
  | missing (w : List Tok) : (∀ r, w ≠ .lparen :: r) → OptItems I w [] w
  | empty (r : List Tok) : OptItems I (.lparen :: .rparen :: r) [] r
  | given (w : List Tok) (xs : List α) (r : List Tok) : (∀ r', w ≠ .rparen :: r') → Items I w xs r →
      OptItems I (.lparen :: w) xs r

/-- A partition name. -/
inductive PartAt (L : Lib) : List Tok → String → List Tok → Prop
  | mk (t : Tok) (i : Ident) (r : List Tok) : IsWord t i → PartAt L (t :: r) (showIdent L i) r

/-- A column or a constraint. -/
inductive ElemAt (L : Lib) : List Tok → Elem → List Tok → Prop
  | constraint (w : List Tok) (c k : Nat) : w ≠ [] → L.constraint w = some (some (c, k)) →
      ElemAt L w (.constraint c) (w.drop (k + 1))
  | col (t : Tok) (i : Ident) (w : List Tok) (x : Nat) (r : List Tok) : L.constraint (t :: w) = some none →
      IsWord t i → Took L.colRest w x r → ElemAt L (t :: w) (.col ⟨i, x⟩) r

/-- ASC, DESC or nothing. -/
inductive DirAt : List Tok → Option Bool → List Tok → Prop
  | asc (t : String) (r : List Tok) : DirAt (.kw .asc t :: r) (some true) r
  | desc (t : String) (r : List Tok) : DirAt (.kw .desc t :: r) (some false) r
  | none (w : List Tok) : (∀ t r, w ≠ .kw .asc t :: r) → (∀ t r, w ≠ .kw .desc t :: r) → DirAt w none w

/-- NULLS FIRST, NULLS LAST or nothing. -/
inductive NullsAt : List Tok → Option Bool → List Tok → Prop
  | first (t t' : String) (r : List Tok) : NullsAt (.kw .nulls t :: .kw .first t' :: r) (some true) r
  | last (t t' : String) (r : List Tok) : NullsAt (.kw .nulls t :: .kw .last t' :: r) (some false) r
  | none (w : List Tok) : (∀ t t' r, w ≠ .kw .nulls t :: .kw .first t' :: r) →
      (∀ t t' r, w ≠ .kw .nulls t :: .kw .last t' :: r) → NullsAt w none w

/-- One sort expression. -/
inductive OrderAt (L : Lib) : List Tok → OrderExpr → List Tok → Prop
  | mk (w w1 w2 r : List Tok) (e : Nat) (d n : Option Bool) : Took L.expr w e w1 → DirAt w1 d w2 → NullsAt w2 n r →
      OrderAt L w ⟨e, d, n⟩ r

/-- Sort expressions up to the closing parenthesis. -/
inductive Orders (L : Lib) : List Tok → List OrderExpr → List Tok → Prop
  | last (w : List Tok) (x : OrderExpr) (r : List Tok) : OrderAt L w x (.rparen :: r) → Orders L w [x] r
  | cons (w : List Tok) (x : OrderExpr) (w' : List Tok) (xs : List OrderExpr) (r : List Tok) :
      OrderAt L w x (.comma :: w') → Orders L w' xs r → Orders L w (x :: xs) r

/-- The rest of a key `a.b.c`. -/
inductive KeyTail : List Tok → List String → List Tok → Prop
  | done (w : List Tok) : (∀ r, w ≠ .period :: r) → KeyTail w [] w
  | more (t : Tok) (i : Ident) (w : List Tok) (ps : List String) (r : List Tok) : IsWord t i → KeyTail w ps r →
      KeyTail (.period :: t :: w) (i.value :: ps) r

/-- The value of an option. -/
inductive ValueAt : List Tok → Val → List Tok → Prop
  | word (t : Tok) (i : Ident) (r : List Tok) : IsWord t i → ValueAt (t :: r) (.text i.value) r
  | text (s : String) (r : List Tok) : ValueAt (.str s :: r) (.text s) r
  | num (s : String) (r : List Tok) : ValueAt (.num s :: r) (.number s) r

/-- An option. -/
inductive PairAt : List Tok → String × Val → List Tok → Prop
  | name (t : Tok) (i : Ident) (w : List Tok) (ps : List String) (w' : List Tok) (v : Val) (r : List Tok) :
      IsWord t i → KeyTail w ps w' → ValueAt w' v r → PairAt (t :: w) (".".intercalate (i.value :: ps), v) r
  | text (s : String) (w : List Tok) (v : Val) (r : List Tok) : ValueAt w v r → PairAt (.str s :: w) (s, v) r

/-- The clauses.  A list after PARTITIONED BY is one of definitions if something other than a comma or the closing
parenthesis follows the first word. -/
inductive ClauseAt (L : Lib) : List Tok → Clause → List Tok → Prop
  | stored (a b : String) (t : Tok) (i : Ident) (r : List Tok) : IsWord t i →
      ClauseAt L (.kw .stored a :: .kw .as b :: t :: r) (.stored (L.upper i.value)) r
  | location (a s : String) (t : Tok) (r : List Tok) : L.literal t = some s →
      ClauseAt L (.kw .location a :: t :: r) (.location s) r
  | order (a b : String) (w : List Tok) (es : List OrderExpr) (r : List Tok) : Orders L w es r →
      ClauseAt L (.kw .with_ a :: .kw .order b :: .lparen :: w) (.order es) r
  | partNames (a b : String) (w : List Tok) (ns : List String) (r : List Tok) : OptItems (PartAt L) w ns r →
      ClauseAt L (.kw .partitioned a :: .kw .by_ b :: w) (.parts ns []) r
  | partDefs (a b : String) (w : List Tok) (cols : List ColDef) (r : List Tok) : w[2]? ≠ some .comma →
      w[2]? ≠ some .rparen → OptItems (ElemAt L) w (cols.map Elem.col) r →
      ClauseAt L (.kw .partitioned a :: .kw .by_ b :: w) (.parts (cols.map fun c => showIdent L c.name) cols) r
  | options (a : String) (w : List Tok) (kvs : List (String × Val)) (r : List Tok) : Items PairAt w kvs r →
      ClauseAt L (.kw .options a :: .lparen :: w) (.options kvs) r

/-- Clauses up to the end of the input or a semicolon, which stays. -/
inductive Clauses (L : Lib) : List Tok → List Clause → List Tok → Prop
  | eof : Clauses L [] [] []
  | semi (r : List Tok) : Clauses L (.semi :: r) [] (.semi :: r)
  | cons (w : List Tok) (c : Clause) (w' : List Tok) (cs : List Clause) (r : List Tok) : ClauseAt L w c w' →
      Clauses L w' cs r → Clauses L w (c :: cs) r

/-- The formats, locations, … given by the clauses. -/
def formats (cs : List Clause) : List String := cs.filterMap fun | .stored f => some f | _ => none
def locations (cs : List Clause) : List String := cs.filterMap fun | .location s => some s | _ => none
def orders (cs : List Clause) : List (List OrderExpr) := cs.filterMap fun | .order es => some es | _ => none
def partitions (cs : List Clause) : List (List String × List ColDef) := cs.filterMap fun | .parts n c => some (n, c) | _ => none
def optionLists (cs : List Clause) : List (List (String × Val)) := cs.filterMap fun | .options o => some o | _ => none

/-- What the statement says: one format, one location, at most one PARTITIONED BY and one OPTIONS; all sort orders
in sequence; columns defined in PARTITIONED BY come after the others. -/
structure Says (cs : List Clause) (es : List Elem) (s : Stmt) : Prop where
  format : formats cs = [s.fileType]
  location : locations cs = [s.location]
  onePart : (partitions cs).length ≤ 1
  parts : s.partCols = (partitions cs).flatMap (·.1)
  columns : s.columns = (es.filterMap fun | .col c => some c | _ => none) ++ (partitions cs).flatMap (·.2)
  constraints : s.constraints = es.filterMap fun | .constraint c => some c | _ => none
  oneOptions : (optionLists cs).length ≤ 1
  options : s.options = (optionLists cs).flatten
  order : s.order = orders cs

/-- TEMP or TEMPORARY or nothing. -/
inductive TempAt : List Tok → Bool → List Tok → Prop
  | temp (t : String) (r : List Tok) : TempAt (.kw .temp t :: r) true r
  | temporary (t : String) (r : List Tok) : TempAt (.kw .temporary t :: r) true r
  | none (w : List Tok) : (∀ t r, w ≠ .kw .temp t :: r) → (∀ t r, w ≠ .kw .temporary t :: r) → TempAt w false w

/-- IF NOT EXISTS or nothing. -/
inductive IneAt : List Tok → Bool → List Tok → Prop
  | given (a b c : String) (r : List Tok) : IneAt (.kw .if_ a :: .kw .not_ b :: .kw .exists_ c :: r) true r
  | none (w : List Tok) : (∀ a b c r, w ≠ .kw .if_ a :: .kw .not_ b :: .kw .exists_ c :: r) → IneAt w false w

/-- The statement after CREATE [UNBOUNDED] EXTERNAL. -/
inductive External (L : Lib) : List Tok → List Ident → List Elem → List Clause → Bool → Bool → List Tok → Prop
  | mk (w w1 w2 w3 w4 r : List Tok) (t : String) (name : List Ident) (es : List Elem) (cs : List Clause) (temp ine : Bool) :
      TempAt w temp (.kw .table t :: w1) → IneAt w1 ine w2 → Took L.objectName w2 name w3 →
      OptItems (ElemAt L) w3 es w4 → Clauses L w4 cs r → External L w name es cs temp ine r

/-! ### lemmas -/

theorem took_iff {p : List Tok → Option (α × Nat)} {w r : List Tok} {a : α} : run p w = some (a, r) ↔ Took p w a r := by
  unfold Took run
  cases w with
  | nil => simp
  | cons t w =>
    simp only [ne_eq, reduceCtorEq, not_false_eq_true, true_and, Option.map_eq_some_iff, Prod.mk.injEq]
    constructor
    · rintro ⟨⟨a', k⟩, h1, rfl, rfl⟩
      exact ⟨k, h1, rfl⟩
    · rintro ⟨k, h1, rfl⟩
      exact ⟨(a, k), h1, rfl, rfl⟩

theorem took_shorter {p : List Tok → Option (α × Nat)} {w r : List Tok} {a : α} (h : Took p w a r) :
    r.length < w.length := by
  obtain ⟨hne, k, -, rfl⟩ := h
  cases w with
  | nil => exact absurd rfl hne
  | cons t w => simp only [List.drop_succ_cons, List.length_drop, List.length_cons]; omega

theorem word_iff (t : Tok) (i : Ident) : word t = some i ↔ IsWord t i := by
  constructor
  · intro h
    cases t with
    | kw k t => simp only [word, Option.some.injEq] at h; subst h; exact .kw k t
    | ident v q => simp only [word, Option.some.injEq] at h; subst h; exact .ident v q
    | _ => simp [word] at h
  · rintro (_ | _) <;> rfl

/-- Items of a parser as a relation. -/
def At (item : List Tok → Option (α × List Tok)) (w : List Tok) (x : α) (r : List Tok) : Prop := item w = some (x, r)

theorem commaList_iff (item : List Tok → Option (α × List Tok))
    (hs : ∀ w x r, item w = some (x, r) → r.length < w.length) : ∀ (f : Nat) (w : List Tok) (xs : List α) (r : List Tok),
    w.length < f → (commaList item f w = some (xs, r) ↔ Items (At item) w xs r) := by
  intro f
  induction f with
  | zero => intro w xs r h; omega
  | succ f ih =>
    intro w xs r hf
    constructor
    · intro h
      unfold commaList at h
      split at h
      · cases h
      · next x r' he => cases h; exact .lastComma w x _ he
      · next x r' he => cases h; exact .last w x _ he
      · next x r' hnot he =>
        have hl := hs _ _ _ he
        simp only [List.length_cons] at hl
        simp only [Option.map_eq_some_iff, Prod.mk.injEq] at h
        obtain ⟨⟨ys, r2⟩, h1, rfl, rfl⟩ := h
        exact .cons w x r' ys _ he (fun r'' e => hnot r'' e) ((ih r' ys _ (by omega)).1 h1)
      · cases h
    · intro h
      cases h with
      | last _ x _ he =>
        have he : item w = some (x, .rparen :: r) := he
        simp [commaList, he]
      | lastComma _ x _ he =>
        have he : item w = some (x, .comma :: .rparen :: r) := he
        simp [commaList, he]
      | cons _ x w' ys _ he hnot h =>
        have he : item w = some (x, .comma :: w') := he
        have hl := hs _ _ _ he
        simp only [List.length_cons] at hl
        have h1 := (ih w' ys r (by omega)).2 h
        unfold commaList
        rw [he]
        cases w' with
        | nil => simp only [h1, Option.map_some]
        | cons t w' =>
          cases t with
          | rparen => exact absurd rfl (hnot w')
          | _ => simp only [h1, Option.map_some]

theorem Items.congr {I J : List Tok → α → List Tok → Prop} (h : ∀ w x r, I w x r ↔ J w x r) (w : List Tok) (xs : List α)
    (r : List Tok) : Items I w xs r ↔ Items J w xs r := by
  have : I = J := by funext w x r; exact propext (h w x r)
  rw [this]

theorem optList_iff (item : List Tok → Option (α × List Tok))
    (hs : ∀ w x r, item w = some (x, r) → r.length < w.length) (w : List Tok) (xs : List α) (r : List Tok) :
    optList item w = some (xs, r) ↔ OptItems (At item) w xs r := by
  constructor
  · intro h
    unfold optList at h
    split at h
    · cases h; exact .empty _
    · next w hnot => exact .given w xs r (fun r' e => by subst e; exact hnot r' rfl) ((commaList_iff item hs _ w xs r (by omega)).1 h)
    · next hnot1 hnot2 =>
      cases h
      exact .missing w (fun r e => hnot2 r e)
  · intro h
    cases h with
    | missing _ h =>
      unfold optList
      split
      · next r e => exact absurd rfl (h _)
      · next r e => exact absurd rfl (h _)
      · rfl
    | empty => rfl
    | given w _ _ h1 h2 =>
      have h2 := (commaList_iff item hs (w.length + 1) w xs r (by omega)).2 h2
      unfold optList
      split
      · next e => cases e; exact absurd rfl (h1 _)
      · next e => cases e; exact h2
      · next h => exact absurd rfl (h w)

theorem optItems_congr {I J : List Tok → α → List Tok → Prop} (h : ∀ w x r, I w x r ↔ J w x r) (w : List Tok)
    (xs : List α) (r : List Tok) : OptItems I w xs r ↔ OptItems J w xs r := by
  have : I = J := by funext w x r; exact propext (h w x r)
  rw [this]

theorem partName_iff (L : Lib) (w : List Tok) (x : String) (r : List Tok) : At (partName L) w x r ↔ PartAt L w x r := by
  unfold At partName
  cases w with
  | nil => simp; intro h; cases h
  | cons t w =>
    simp only [Option.map_eq_some_iff, Prod.mk.injEq]
    constructor
    · rintro ⟨i, h, rfl, rfl⟩
      exact .mk t i _ ((word_iff t i).1 h)
    · rintro ⟨_, i, _, h⟩
      exact ⟨i, (word_iff t i).2 h, rfl, rfl⟩

theorem partName_shorter (L : Lib) (w : List Tok) (x : String) (r : List Tok) (h : partName L w = some (x, r)) :
    r.length < w.length := by
  cases (partName_iff L w x r).1 h with
  | mk t i _ _ => simp

theorem element_iff (L : Lib) (w : List Tok) (x : Elem) (r : List Tok) : At (element L) w x r ↔ ElemAt L w x r := by
  unfold At element
  constructor
  · intro h
    split at h
    · cases h
    · next c k hc =>
      split at h
      · cases h
      · next hne => cases h; exact .constraint w c k hne hc
    · next hc =>
      simp only [Option.map_eq_some_iff, Prod.mk.injEq] at h
      obtain ⟨⟨c, r'⟩, h1, rfl, rfl⟩ := h
      unfold columnDef at h1
      split at h1
      · cases h1
      · next t w =>
        split at h1
        · cases h1
        · next i hi =>
          simp only [Option.map_eq_some_iff, Prod.mk.injEq] at h1
          obtain ⟨⟨y, r2⟩, h2, rfl, rfl⟩ := h1
          exact .col t i w y _ hc ((word_iff t i).1 hi) (took_iff.1 h2)
  · intro h
    cases h with
    | constraint _ c k hne hc => simp [hc, hne]
    | col t i w y _ hc hi ht => simp [hc, columnDef, (word_iff t i).2 hi, took_iff.2 ht]

theorem element_shorter (L : Lib) (w : List Tok) (x : Elem) (r : List Tok) (h : element L w = some (x, r)) :
    r.length < w.length := by
  cases (element_iff L w x r).1 h with
  | constraint _ c k hne _ =>
    have := List.length_pos_iff.2 hne
    simp only [List.length_drop]; omega
  | col t i w y _ _ _ ht =>
    have := took_shorter ht
    simp only [List.length_cons]; omega

theorem dir_iff (w : List Tok) (d : Option Bool) (r : List Tok) : parseDir w = (d, r) ↔ DirAt w d r := by
  constructor
  · intro h
    unfold parseDir at h
    split at h <;> cases h
    · exact .asc _ _
    · exact .desc _ _
    · next h1 h2 => exact .none _ (fun t r e => h1 t r e) (fun t r e => h2 t r e)
  · intro h
    cases h with
    | asc => rfl
    | desc => rfl
    | none _ h1 h2 =>
      unfold parseDir
      split
      · exact absurd rfl (h1 _ _)
      · exact absurd rfl (h2 _ _)
      · rfl

theorem nulls_iff (w : List Tok) (d : Option Bool) (r : List Tok) : parseNulls w = (d, r) ↔ NullsAt w d r := by
  constructor
  · intro h
    unfold parseNulls at h
    split at h <;> cases h
    · exact .first _ _ _
    · exact .last _ _ _
    · next h1 h2 => exact .none _ (fun t t' r e => h1 t t' r e) (fun t t' r e => h2 t t' r e)
  · intro h
    cases h with
    | first => rfl
    | last => rfl
    | none _ h1 h2 =>
      unfold parseNulls
      split
      · exact absurd rfl (h1 _ _ _)
      · exact absurd rfl (h2 _ _ _)
      · rfl

theorem dir_length (w : List Tok) : (parseDir w).2.length ≤ w.length := by
  unfold parseDir
  split <;> simp only [List.length_cons] <;> omega

theorem nulls_length (w : List Tok) : (parseNulls w).2.length ≤ w.length := by
  unfold parseNulls
  split <;> simp only [List.length_cons] <;> omega

theorem order_iff (L : Lib) (w : List Tok) (x : OrderExpr) (r : List Tok) : orderExpr L w = some (x, r) ↔ OrderAt L w x r := by
  unfold orderExpr
  constructor
  · intro h
    split at h
    · cases h
    · next e w1 he =>
      cases h
      exact .mk w w1 _ _ e _ _ (took_iff.1 he) ((dir_iff w1 _ _).1 rfl) ((nulls_iff _ _ _).1 rfl)
  · intro h
    cases h with
    | mk w1 w2 _ e d n h1 h2 h3 =>
    rw [took_iff.2 h1]
    simp only [(dir_iff w1 d w2).2 h2, (nulls_iff w2 n r).2 h3]

theorem order_shorter (L : Lib) (w : List Tok) (x : OrderExpr) (r : List Tok) (h : orderExpr L w = some (x, r)) :
    r.length < w.length := by
  unfold orderExpr at h
  split at h
  · cases h
  · next e w1 he =>
    cases h
    have h1 := took_shorter (took_iff.1 he)
    have h2 := dir_length w1
    have h3 := nulls_length (parseDir w1).2
    omega

theorem orderList_iff (L : Lib) : ∀ (f : Nat) (w : List Tok) (xs : List OrderExpr) (r : List Tok),
    w.length < f → (orderList L f w = some (xs, r) ↔ Orders L w xs r) := by
  intro f
  induction f with
  | zero => intro w xs r h; omega
  | succ f ih =>
    intro w xs r hf
    constructor
    · intro h
      unfold orderList at h
      split at h
      · next x w' he =>
        have hl := order_shorter L _ _ _ he
        simp only [List.length_cons] at hl
        simp only [Option.map_eq_some_iff, Prod.mk.injEq] at h
        obtain ⟨⟨ys, r2⟩, h1, rfl, rfl⟩ := h
        exact .cons w x w' ys _ ((order_iff L _ _ _).1 he) ((ih w' ys _ (by omega)).1 h1)
      · next x w' he => cases h; exact .last w x _ ((order_iff L _ _ _).1 he)
      · cases h
    · intro h
      cases h with
      | last _ x _ he => simp [orderList, (order_iff L _ _ _).2 he]
      | cons _ x w' ys _ he h =>
        have he := (order_iff L _ _ _).2 he
        have hl := order_shorter L _ _ _ he
        simp only [List.length_cons] at hl
        simp [orderList, he, (ih w' ys r (by omega)).2 h]

theorem key_iff (w : List Tok) : ∀ (ps : List String) (r : List Tok), keyParts w = some (ps, r) ↔ KeyTail w ps r := by
  fun_induction keyParts w with
  | case1 k t w ih =>
    intro ps r
    simp only [Option.map_eq_some_iff, Prod.mk.injEq]
    constructor
    · rintro ⟨⟨qs, r'⟩, h, rfl, rfl⟩
      exact .more (.kw k t) ⟨t, false⟩ w qs _ (.kw k t) ((ih qs _).1 h)
    · intro h
      cases h with
      | done _ h => exact absurd rfl (h _)
      | more _ i _ qs _ hw h => cases hw; exact ⟨(qs, r), (ih qs r).2 h, rfl, rfl⟩
  | case2 v q w ih =>
    intro ps r
    simp only [Option.map_eq_some_iff, Prod.mk.injEq]
    constructor
    · rintro ⟨⟨qs, r'⟩, h, rfl, rfl⟩
      exact .more (.ident v q) ⟨v, q⟩ w qs _ (.ident v q) ((ih qs _).1 h)
    · intro h
      cases h with
      | done _ h => exact absurd rfl (h _)
      | more _ i _ qs _ hw h => cases hw; exact ⟨(qs, r), (ih qs r).2 h, rfl, rfl⟩
  | case3 w h1 h2 =>
    intro ps r
    simp only [reduceCtorEq, false_iff]
    intro h
    cases h with
    | done _ h => exact absurd rfl (h _)
    | more t i w qs _ hw h =>
      cases hw with
      | kw k t => exact h1 k t w rfl
      | ident v q => exact h2 v q w rfl
  | case4 w h1 h2 h3 =>
    intro ps r
    simp only [Option.some.injEq, Prod.mk.injEq]
    constructor
    · rintro ⟨rfl, rfl⟩
      exact .done _ (fun r e => h3 r e)
    · intro h
      cases h with
      | done => exact ⟨rfl, rfl⟩
      | more t i w qs _ hw h => exact absurd rfl (h3 _)

theorem key_length (w : List Tok) (ps : List String) (r : List Tok) (h : KeyTail w ps r) : r.length ≤ w.length := by
  induction h with
  | done => exact Nat.le_refl _
  | more t i w ps r _ _ ih => simp only [List.length_cons]; omega

theorem value_iff (w : List Tok) (v : Val) (r : List Tok) : optionValue w = some (v, r) ↔ ValueAt w v r := by
  constructor
  · intro h
    unfold optionValue at h
    split at h <;> cases h
    · exact .word _ _ _ (.kw _ _)
    · exact .word _ _ _ (.ident _ _)
    · exact .text _ _
    · exact .num _ _
  · rintro (⟨_, _, _, (_ | _)⟩ | _ | _) <;> rfl

theorem pair_iff (w : List Tok) (x : String × Val) (r : List Tok) : At optionPair w x r ↔ PairAt w x r := by
  unfold At optionPair
  constructor
  · intro h
    split at h
    · cases h
    · next k w' hk =>
      simp only [Option.map_eq_some_iff, Prod.mk.injEq] at h
      obtain ⟨⟨v, r'⟩, hv, rfl, rfl⟩ := h
      unfold optionKey at hk
      split at hk
      · simp only [Option.map_eq_some_iff, Prod.mk.injEq] at hk
        obtain ⟨⟨ps, r2⟩, h1, rfl, rfl⟩ := hk
        exact .name _ ⟨_, false⟩ _ ps _ v _ (.kw _ _) ((key_iff _ _ _).1 h1) ((value_iff _ _ _).1 hv)
      · simp only [Option.map_eq_some_iff, Prod.mk.injEq] at hk
        obtain ⟨⟨ps, r2⟩, h1, rfl, rfl⟩ := hk
        exact .name _ ⟨_, _⟩ _ ps _ v _ (.ident _ _) ((key_iff _ _ _).1 h1) ((value_iff _ _ _).1 hv)
      · cases hk
        exact .text _ _ v _ ((value_iff _ _ _).1 hv)
      · cases hk
  · intro h
    cases h with
    | name t i w ps w' v _ hw hk hv =>
      cases hw <;> simp [optionKey, (key_iff _ _ _).2 hk, (value_iff _ _ _).2 hv]
    | text s w v _ hv => simp [optionKey, (value_iff _ _ _).2 hv]

theorem value_length (w : List Tok) (v : Val) (r : List Tok) (h : ValueAt w v r) : r.length < w.length := by
  cases h <;> simp

theorem pair_shorter (w : List Tok) (x : String × Val) (r : List Tok) (h : optionPair w = some (x, r)) :
    r.length < w.length := by
  cases (pair_iff w x r).1 h with
  | name t i w ps w' v _ _ hk hv =>
    have h1 := key_length _ _ _ hk
    have h2 := value_length _ _ _ hv
    simp only [List.length_cons]; omega
  | text s w v _ hv =>
    have h2 := value_length _ _ _ hv
    simp only [List.length_cons]; omega

theorem colsOf_eq (es : List Elem) : colsOf es = es.filterMap fun | .col c => some c | _ => none := by
  induction es with
  | nil => rfl
  | cons e es ih => cases e <;> simp [colsOf, ih]

theorem consOf_eq (es : List Elem) : consOf es = es.filterMap fun | .constraint c => some c | _ => none := by
  induction es with
  | nil => rfl
  | cons e es ih => cases e <;> simp [consOf, ih]

theorem cons_nil (es : List Elem) : consOf es = [] ↔ es = (colsOf es).map Elem.col := by
  induction es with
  | nil => simp [consOf, colsOf]
  | cons e es ih =>
    cases e with
    | col c => simp [consOf, colsOf, ih]
    | constraint c =>
      simp only [consOf, colsOf, reduceCtorEq, false_iff]
      cases colsOf es <;> simp

theorem cols_map (cs : List ColDef) : colsOf (cs.map Elem.col) = cs ∧ consOf (cs.map Elem.col) = [] := by
  induction cs with
  | nil => simp [consOf, colsOf]
  | cons c cs ih => simp [consOf, colsOf, ih]

theorem parts_third (L : Lib) (w : List Tok) (ns : List String) (r : List Tok) (h : OptItems (PartAt L) w ns r)
    (h1 : w[2]? ≠ some .comma) (h2 : w[2]? ≠ some .rparen) : ns = [] ∧ OptItems (ElemAt L) w [] r := by
  cases h with
  | missing _ h => exact ⟨rfl, .missing w h⟩
  | empty => exact ⟨rfl, .empty r⟩
  | given w _ _ hn hi =>
    exfalso
    cases hi with
    | last _ x _ hp => cases hp; exact h2 rfl
    | lastComma _ x _ hp => cases hp; exact h1 rfl
    | cons _ x w' xs _ hp _ _ => cases hp; exact h1 rfl

theorem clause_iff (L : Lib) (w : List Tok) (c : Clause) (r : List Tok) : clause L w = some (c, r) ↔ ClauseAt L w c r := by
  constructor
  · intro h
    unfold clause at h
    split at h
    · unfold storedClause at h
      split at h
      · simp only [Option.map_eq_some_iff, Prod.mk.injEq] at h
        obtain ⟨i, hi, rfl, rfl⟩ := h
        exact .stored _ _ _ i _ ((word_iff _ _).1 hi)
      · cases h
    · unfold locationClause at h
      split at h
      · simp only [Option.map_eq_some_iff, Prod.mk.injEq] at h
        obtain ⟨s, hl, rfl, rfl⟩ := h
        exact .location _ s _ _ hl
      · cases h
    · unfold withClause at h
      split at h
      · simp only [Option.map_eq_some_iff, Prod.mk.injEq] at h
        obtain ⟨⟨es, r'⟩, hi, rfl, rfl⟩ := h
        exact .order _ _ _ es _ ((orderList_iff L _ _ _ _ (by omega)).1 hi)
      · cases h
    · unfold partitionedClause at h
      split at h
      · split at h
        · simp only [Option.map_eq_some_iff, Prod.mk.injEq] at h
          obtain ⟨⟨ns, r'⟩, hi, rfl, rfl⟩ := h
          exact .partNames _ _ _ ns _ ((optItems_congr (partName_iff L) _ _ _).1
            ((optList_iff _ (partName_shorter L) _ _ _).1 hi))
        · next hn =>
          rw [not_or] at hn
          split at h
          · cases h
          · next es r' he =>
            split at h
            · next hc =>
              cases h
              have he := (optItems_congr (element_iff L) _ _ _).1 ((optList_iff _ (element_shorter L) _ _ _).1 he)
              rw [(cons_nil es).1 hc] at he
              exact .partDefs _ _ _ _ _ hn.1 hn.2 he
            · cases h
      · cases h
    · unfold optionsClause at h
      split at h
      · simp only [Option.map_eq_some_iff, Prod.mk.injEq] at h
        obtain ⟨⟨kvs, r'⟩, hi, rfl, rfl⟩ := h
        exact .options _ _ kvs _ ((Items.congr pair_iff _ _ _).1 ((commaList_iff _ pair_shorter _ _ _ _ (by omega)).1 hi))
      · cases h
    · cases h
  · intro h
    cases h with
    | stored a b t i _ hi => simp [clause, storedClause, (word_iff _ _).2 hi]
    | location _ _ _ _ hl => simp [clause, locationClause, hl]
    | order a b w es _ h => simp [clause, withClause, (orderList_iff L (w.length + 1) w es r (by omega)).2 h]
    | partNames a b w ns _ h =>
      by_cases hc : w[2]? = some .comma ∨ w[2]? = some .rparen
      · have := (optList_iff _ (partName_shorter L) w ns r).2 ((optItems_congr (partName_iff L) _ _ _).2 h)
        simp [clause, partitionedClause, hc, this]
      · rw [not_or] at hc
        obtain ⟨rfl, h'⟩ := parts_third L w ns r h hc.1 hc.2
        have := (optList_iff _ (element_shorter L) w [] r).2 ((optItems_congr (element_iff L) _ _ _).2 h')
        simp [clause, partitionedClause, hc, this, consOf, colsOf]
    | partDefs a b w cols _ h1 h2 h =>
      have := (optList_iff _ (element_shorter L) w _ r).2 ((optItems_congr (element_iff L) _ _ _).2 h)
      simp [clause, partitionedClause, h1, h2, this, cols_map]
    | options a w kvs _ h =>
      have := (commaList_iff _ pair_shorter (w.length + 1) w kvs r (by omega)).2 ((Items.congr pair_iff _ _ _).2 h)
      simp [clause, optionsClause, this]

/-! ### the builder -/

/-- What the builder holds after some clauses. -/
structure Rep (c0 : List ColDef) (b : Builder) (cs : List Clause) : Prop where
  format : b.fileType.toList = formats cs
  location : b.location.toList = locations cs
  parts : b.partCols.toList = (partitions cs).map (·.1)
  options : b.options.toList = optionLists cs
  order : b.order = orders cs
  columns : b.columns = c0 ++ (partitions cs).flatMap (·.2)

theorem toList_inj {x y : Option α} (h : x.toList = y.toList) : x = y := by
  cases x <;> cases y <;> simp_all

theorem Rep.unique {c0 : List ColDef} {b b' : Builder} {cs : List Clause} (h : Rep c0 b cs) (h' : Rep c0 b' cs) : b = b' := by
  obtain ⟨a1, a2, a3, a4, a5, a6⟩ := h
  obtain ⟨b1, b2, b3, b4, b5, b6⟩ := h'
  cases b; cases b'
  simp only [Builder.mk.injEq]
  exact ⟨toList_inj (a1.trans b1.symm), toList_inj (a2.trans b2.symm), toList_inj (a3.trans b3.symm), a5.trans b5.symm,
    toList_inj (a4.trans b4.symm), a6.trans b6.symm⟩

theorem toList_snoc {x : Option α} {l : List α} (h : x.toList = l) (y : α) :
    (x.isSome = false → (some y).toList = l ++ [y]) ∧ (∀ z : Option α, ∀ l', z.toList = l ++ y :: l' → x.isSome = false) := by
  cases x with
  | none => simp at h; subst h; simp
  | some a =>
    simp only [Option.toList_some] at h
    subst h
    refine ⟨by simp, ?_⟩
    intro z l' hz
    cases z <;> simp at hz

/-- One clause more. -/
theorem enter_rep (c0 : List ColDef) (b : Builder) (pre : List Clause) (c : Clause) (h : Rep c0 b pre) :
    (∀ b', b.enter c = some b' → Rep c0 b' (pre ++ [c])) ∧
    (∀ b'' cs, Rep c0 b'' (pre ++ c :: cs) → ∃ b', b.enter c = some b') := by
  obtain ⟨h1, h2, h3, h4, h5, h6⟩ := h
  cases c with
  | stored f =>
    obtain ⟨s1, s2⟩ := toList_snoc h1 f
    constructor
    · intro b' hb
      simp only [Builder.enter] at hb
      split at hb
      · cases hb
      · next hn =>
        cases hb
        exact ⟨by simpa [formats] using s1 (by simpa using hn), by simpa [locations] using h2, by simpa [partitions] using h3,
          by simpa [optionLists] using h4, by simpa [orders] using h5, by simpa [partitions] using h6⟩
    · intro b'' cs hr
      have := s2 b''.fileType (formats cs) (by rw [hr.format]; simp [formats])
      exact ⟨_, by simp only [Builder.enter, this, Bool.false_eq_true, if_false]; rfl⟩
  | location f =>
    obtain ⟨s1, s2⟩ := toList_snoc h2 f
    constructor
    · intro b' hb
      simp only [Builder.enter] at hb
      split at hb
      · cases hb
      · next hn =>
        cases hb
        exact ⟨by simpa [formats] using h1, by simpa [locations] using s1 (by simpa using hn), by simpa [partitions] using h3,
          by simpa [optionLists] using h4, by simpa [orders] using h5, by simpa [partitions] using h6⟩
    · intro b'' cs hr
      have := s2 b''.location (locations cs) (by rw [hr.location]; simp [locations])
      exact ⟨_, by simp only [Builder.enter, this, Bool.false_eq_true, if_false]; rfl⟩
  | order es =>
    constructor
    · intro b' hb
      simp only [Builder.enter, Option.some.injEq] at hb
      subst hb
      exact ⟨by simpa [formats] using h1, by simpa [locations] using h2, by simpa [partitions] using h3,
          by simpa [optionLists] using h4, by simp [orders, h5], by simpa [partitions] using h6⟩
    · intro b'' cs _
      exact ⟨_, rfl⟩
  | parts ns cols =>
    obtain ⟨s1, s2⟩ := toList_snoc h3 ns
    constructor
    · intro b' hb
      simp only [Builder.enter] at hb
      split at hb
      · cases hb
      · next hn =>
        cases hb
        exact ⟨by simpa [formats] using h1, by simpa [locations] using h2,
          by simpa [partitions] using s1 (by simpa using hn),
          by simpa [optionLists] using h4, by simpa [orders] using h5, by simp [partitions, h6]⟩
    · intro b'' cs hr
      have := s2 b''.partCols ((partitions cs).map (·.1)) (by rw [hr.parts]; simp [partitions])
      exact ⟨_, by simp only [Builder.enter, this, Bool.false_eq_true, if_false]; rfl⟩
  | options kvs =>
    obtain ⟨s1, s2⟩ := toList_snoc h4 kvs
    constructor
    · intro b' hb
      simp only [Builder.enter] at hb
      split at hb
      · cases hb
      · next hn =>
        cases hb
        exact ⟨by simpa [formats] using h1, by simpa [locations] using h2, by simpa [partitions] using h3,
          by simpa [optionLists] using s1 (by simpa using hn), by simpa [orders] using h5, by simpa [partitions] using h6⟩
    · intro b'' cs hr
      have := s2 b''.options (optionLists cs) (by rw [hr.options]; simp [optionLists])
      exact ⟨_, by simp only [Builder.enter, this, Bool.false_eq_true, if_false]; rfl⟩

theorem clause_nil (L : Lib) : clause L [] = none := rfl
theorem clause_semi (L : Lib) (r : List Tok) : clause L (.semi :: r) = none := rfl

theorem clauseAt_shorter (L : Lib) (w : List Tok) (c : Clause) (r : List Tok) (h : ClauseAt L w c r) : r.length < w.length := by
  have hitems : ∀ {β : Type} (I : List Tok → β → List Tok → Prop), (∀ w x r, I w x r → r.length < w.length) →
      ∀ w xs r, Items I w xs r → r.length < w.length := by
    intro β I hI w xs r h
    induction h with
    | last w x r h => have := hI _ _ _ h; simp only [List.length_cons] at this; omega
    | lastComma w x r h => have := hI _ _ _ h; simp only [List.length_cons] at this; omega
    | cons w x w' xs r h _ _ ih => have := hI _ _ _ h; simp only [List.length_cons] at this; omega
  have hopt : ∀ {β : Type} (I : List Tok → β → List Tok → Prop), (∀ w x r, I w x r → r.length < w.length) →
      ∀ w xs r, OptItems I w xs r → r.length ≤ w.length := by
    intro β I hI w xs r h
    cases h with
    | missing => exact Nat.le_refl _
    | empty => simp only [List.length_cons]; omega
    | given w _ _ _ h => have := hitems I hI _ _ _ h; simp only [List.length_cons]; omega
  have hord : ∀ w xs r, Orders L w xs r → r.length < w.length := by
    intro w xs r h
    induction h with
    | last w x r h =>
      have := order_shorter L _ _ _ ((order_iff L _ _ _).2 h); simp only [List.length_cons] at this; omega
    | cons w x w' xs r h _ ih =>
      have := order_shorter L _ _ _ ((order_iff L _ _ _).2 h); simp only [List.length_cons] at this; omega
  cases h with
  | stored => simp only [List.length_cons]; omega
  | location => simp only [List.length_cons]; omega
  | order a b w es _ h => have := hord _ _ _ h; simp only [List.length_cons]; omega
  | partNames a b w ns _ h =>
    have := hopt _ (fun w x r h => partName_shorter L w x r ((partName_iff L w x r).2 h)) _ _ _ h
    simp only [List.length_cons]; omega
  | partDefs a b w cols _ _ _ h =>
    have := hopt _ (fun w x r h => element_shorter L w x r ((element_iff L w x r).2 h)) _ _ _ h
    simp only [List.length_cons]; omega
  | options a w kvs _ h =>
    have := hitems _ (fun w x r h => pair_shorter w x r ((pair_iff w x r).2 h)) _ _ _ h
    simp only [List.length_cons]; omega

/-- The loop reads clauses, and holds what they say. -/
theorem loop_iff (L : Lib) (c0 : List ColDef) : ∀ (f : Nat) (b : Builder) (pre : List Clause) (w : List Tok) (b' : Builder)
    (r : List Tok), w.length < f → Rep c0 b pre →
    (clauseLoop L f b w = some (b', r) ↔ ∃ cs, Clauses L w cs r ∧ Rep c0 b' (pre ++ cs)) := by
  intro f
  induction f with
  | zero => intro b pre w b' r h; omega
  | succ f ih =>
    intro b pre w b' r hf hrep
    constructor
    · intro h
      unfold clauseLoop at h
      split at h
      · cases h
        exact ⟨[], .eof, by simpa using hrep⟩
      · cases h
        exact ⟨[], .semi _, by simpa using hrep⟩
      · next t ts hn =>
        split at h
        · cases h
        · next c w' hc =>
          have hc := (clause_iff L _ c w').1 hc
          have hl := clauseAt_shorter L _ _ _ hc
          split at h
          · cases h
          · next b1 hb1 =>
            have hr1 := (enter_rep c0 b pre c hrep).1 b1 hb1
            obtain ⟨cs, h1, h2⟩ := (ih b1 (pre ++ [c]) w' b' r (by omega) hr1).1 h
            exact ⟨c :: cs, .cons _ c w' cs r hc h1, by simpa using h2⟩
    · rintro ⟨cs, h1, h2⟩
      cases h1 with
      | eof =>
        simp only [List.append_nil] at h2
        rw [h2.unique hrep]
        rfl
      | semi r =>
        simp only [List.append_nil] at h2
        rw [h2.unique hrep]
        rfl
      | cons _ c w' cs _ hc h1 =>
        obtain ⟨b1, hb1⟩ := (enter_rep c0 b pre c hrep).2 b' cs h2
        have hr1 := (enter_rep c0 b pre c hrep).1 b1 hb1
        have hl := clauseAt_shorter L _ _ _ hc
        have hc' := (clause_iff L w c w').2 hc
        have h3 := (ih b1 (pre ++ [c]) w' b' r (by omega) hr1).2 ⟨cs, h1, by simpa using h2⟩
        unfold clauseLoop
        split
        · rw [clause_nil] at hc'; cases hc'
        · rw [clause_semi] at hc'; cases hc'
        · rw [hc']
          simp only [hb1, h3]

theorem temp_iff (w : List Tok) (d : Bool) (r : List Tok) : parseTemp w = (d, r) ↔ TempAt w d r := by
  constructor
  · intro h
    unfold parseTemp at h
    split at h <;> cases h
    · exact .temp _ _
    · exact .temporary _ _
    · next h1 h2 => exact .none _ (fun t r e => h1 t r e) (fun t r e => h2 t r e)
  · intro h
    cases h with
    | temp => rfl
    | temporary => rfl
    | none _ h1 h2 =>
      unfold parseTemp
      split
      · exact absurd rfl (h1 _ _)
      · exact absurd rfl (h2 _ _)
      · rfl

theorem ine_iff (w : List Tok) (d : Bool) (r : List Tok) : parseIfNotExists w = (d, r) ↔ IneAt w d r := by
  constructor
  · intro h
    unfold parseIfNotExists at h
    split at h <;> cases h
    · exact .given _ _ _ _
    · next h1 => exact .none _ (fun a b c r e => h1 a b c r e)
  · intro h
    cases h with
    | given => rfl
    | none _ h1 =>
      unfold parseIfNotExists
      split
      · exact absurd rfl (h1 _ _ _ _)
      · rfl

theorem rep_init (c0 : List ColDef) : Rep c0 { columns := c0 } [] := by
  constructor <;> simp [formats, locations, partitions, optionLists, orders]

/-- The builder after the clauses and the validations against what the statement says. -/
theorem finish_iff (name : List Ident) (ine temp unb : Bool) (es : List Elem) (cs : List Clause) (s : Stmt) :
    (∃ b, Rep (colsOf es) b cs ∧ finish name ine temp unb (consOf es) b = some s) ↔
      Says cs es s ∧ s.name = name ∧ s.ifNotExists = ine ∧ s.temporary = temp ∧ s.unbounded = unb := by
  constructor
  · rintro ⟨b, ⟨h1, h2, h3, h4, h5, h6⟩, hf⟩
    unfold finish at hf
    split at hf
    · next f l ef el =>
      cases hf
      rw [ef] at h1
      rw [el] at h2
      refine ⟨⟨h1.symm, h2.symm, ?_, ?_, ?_, consOf_eq es, ?_, ?_, h5⟩, rfl, rfl, rfl, rfl⟩
      · have := congrArg List.length h3
        rw [List.length_map] at this
        rw [← this]
        cases b.partCols <;> simp
      · show b.partCols.getD [] = _
        rw [List.flatMap_def, ← h3]
        cases b.partCols <;> simp
      · rw [← colsOf_eq]; exact h6
      · rw [← h4]
        cases b.options <;> simp
      · show b.options.getD [] = _
        rw [← h4]
        cases b.options <;> simp
    · cases hf
  · rintro ⟨⟨h1, h2, h3, h4, h5, h6, h7, h8, h9⟩, rfl, rfl, rfl, rfl⟩
    have hp : ∃ p : Option (List String), p.toList = (partitions cs).map (·.1) ∧ p.getD [] = s.partCols := by
      rw [h4]
      match hq : partitions cs, h3 with
      | [], _ => exact ⟨none, by simp, by simp⟩
      | [x], _ => exact ⟨some x.1, by simp, by simp⟩
      | _ :: _ :: _, h => simp at h
    have ho : ∃ p : Option (List (String × Val)), p.toList = optionLists cs ∧ p.getD [] = s.options := by
      rw [h8]
      match hq : optionLists cs, h7 with
      | [], _ => exact ⟨none, by simp, by simp⟩
      | [x], _ => exact ⟨some x, by simp, by simp⟩
      | _ :: _ :: _, h => simp at h
    obtain ⟨p, p1, p2⟩ := hp
    obtain ⟨o, o1, o2⟩ := ho
    refine ⟨⟨some s.fileType, some s.location, p, s.order, o, s.columns⟩, ⟨h1.symm, h2.symm, p1, o1, h9, ?_⟩, ?_⟩
    · rw [colsOf_eq]; exact h5
    · simp only [finish, p2, o2, consOf_eq, ← h6]

/-! ### C111 -/

/-- **C111**: the parser accepts exactly the statements of the grammar, and what it builds is what they say: the one
format, the one location, the partition columns, options and sort orders of the clauses, in whatever order the
clauses stand. -/
theorem C111_grammar (L : Lib) (unb : Bool) (w : List Tok) (s : Stmt) (r : List Tok) :
    parseExternal L unb w = some (s, r) ↔
      ∃ es cs, External L w s.name es cs s.temporary s.ifNotExists r ∧ Says cs es s ∧ s.unbounded = unb := by
  constructor
  · intro h
    unfold parseExternal at h
    split at h
    · next t w1 ht =>
      split at h
      · cases h
      · next name w3 hn =>
        split at h
        · cases h
        · next es w4 he =>
          split at h
          · cases h
          · next b r' hl =>
            simp only [Option.map_eq_some_iff, Prod.mk.injEq] at h
            obtain ⟨s', hf, rfl, rfl⟩ := h
            obtain ⟨cs, hc, hr⟩ := (loop_iff L (colsOf es) _ _ [] w4 b r' (by omega) (rep_init _)).1 hl
            obtain ⟨hs, e1, e2, e3, e4⟩ := (finish_iff _ _ _ _ es cs s').1 ⟨b, hr, hf⟩
            refine ⟨es, cs, ?_, hs, e4⟩
            rw [e1, e2, e3]
            exact .mk w w1 _ w3 w4 r' t name es cs _ _ ((temp_iff _ _ _).1 (Prod.ext rfl ht)) ((ine_iff _ _ _).1 rfl) (took_iff.1 hn)
              ((optItems_congr (element_iff L) _ _ _).1 ((optList_iff _ (element_shorter L) _ _ _).1 he)) hc
    · cases h
  · rintro ⟨es, cs, hx, hs, rfl⟩
    cases hx with
    | mk w1 w2 w3 w4 _ t _ _ _ _ _ h1 h2 h3 h4 h5 =>
      obtain ⟨b, hr, hf⟩ := (finish_iff s.name s.ifNotExists s.temporary s.unbounded es cs s).2 ⟨hs, rfl, rfl, rfl, rfl⟩
      have hl := (loop_iff L (colsOf es) (w4.length + 1) { columns := colsOf es } [] w4 b r (by omega) (rep_init _)).2 ⟨cs, h5, hr⟩
      have h4 := (optList_iff _ (element_shorter L) w3 es w4).2 ((optItems_congr (element_iff L) _ _ _).2 h4)
      unfold parseExternal
      simp only [(temp_iff _ _ _).2 h1, (ine_iff _ _ _).2 h2, took_iff.2 h3, h4, hl, hf, Option.map_some]

theorem filterMap_perm_one {β γ : Type} (g : β → Option γ) {cs ds : List β} (hp : cs.Perm ds) (h : (cs.filterMap g).length ≤ 1) :
    cs.filterMap g = ds.filterMap g := by
  have hq := hp.filterMap g
  match hc : cs.filterMap g, h with
  | [], _ => rw [hc] at hq; exact (List.nil_perm.1 hq).symm
  | [x], _ => rw [hc] at hq; exact (List.perm_singleton.1 hq.symm).symm
  | _ :: _ :: _, h => simp at h

/-- **C111**: the order of the clauses does not matter (except for the sequence of several sort orders). -/
theorem C111_order (L : Lib) (unb : Bool) (w w' : List Tok) (name : List Ident) (es : List Elem) (cs ds : List Clause)
    (temp ine : Bool) (r r' : List Tok) (s : Stmt) (hw : External L w name es cs temp ine r)
    (hw' : External L w' name es ds temp ine r') (hp : cs.Perm ds) (ho : orders cs = orders ds) (hs : Says cs es s)
    (hn : s.name = name) (ht : s.temporary = temp) (hi : s.ifNotExists = ine) (hu : s.unbounded = unb) :
    parseExternal L unb w = some (s, r) ∧ parseExternal L unb w' = some (s, r') := by
  subst hn ht hi
  refine ⟨(C111_grammar L unb w s r).2 ⟨es, cs, hw, hs, hu⟩, (C111_grammar L unb w' s r').2 ⟨es, ds, hw', ?_, hu⟩⟩
  obtain ⟨h1, h2, h3, h4, h5, h6, h7, h8, h9⟩ := hs
  have e1 : formats cs = formats ds := filterMap_perm_one _ hp (by show (formats cs).length ≤ 1; rw [h1]; simp)
  have e2 : locations cs = locations ds := filterMap_perm_one _ hp (by show (locations cs).length ≤ 1; rw [h2]; simp)
  have e3 : partitions cs = partitions ds := filterMap_perm_one _ hp h3
  have e4 : optionLists cs = optionLists ds := filterMap_perm_one _ hp h7
  rw [e1] at h1; rw [e2] at h2; rw [e3] at h3 h4 h5; rw [e4] at h7 h8; rw [ho] at h9
  exact ⟨h1, h2, h3, h4, h5, h6, h7, h8, h9⟩

/-- **C111**: without exactly one STORED AS and exactly one LOCATION, or with two PARTITIONED BY or OPTIONS, nothing is
accepted. -/
theorem C111_required (L : Lib) (unb : Bool) (w : List Tok) (s : Stmt) (r : List Tok) (h : parseExternal L unb w = some (s, r)) :
    ∃ es cs, External L w s.name es cs s.temporary s.ifNotExists r ∧ (formats cs).length = 1 ∧ (locations cs).length = 1 ∧
      (partitions cs).length ≤ 1 ∧ (optionLists cs).length ≤ 1 := by
  obtain ⟨es, cs, h1, h2, -⟩ := (C111_grammar L unb w s r).1 h
  exact ⟨es, cs, h1, by rw [h2.format]; rfl, by rw [h2.location]; rfl, h2.onePart, h2.oneOptions⟩

/-- How columns are named when the statement is planned: quoted names as they are, others in lower case. -/
def planned (lower : String → String) (i : Ident) : String := if i.quoted then i.value else lower i.value

theorem clauses_mem {L : Lib} {w : List Tok} {cs : List Clause} {r : List Tok} (h : Clauses L w cs r) {c : Clause} (hc : c ∈ cs) :
    ∃ a b, ClauseAt L a c b := by
  induction h with
  | eof => cases hc
  | semi => cases hc
  | cons w c' w' cs r h _ ih =>
    rcases List.mem_cons.1 hc with rfl | hc
    · exact ⟨_, _, h⟩
    · exact ih hc

/-- **C111**, partition columns: those defined in PARTITIONED BY name the columns they define if none is quoted or holds
capitals.  (Missing: quoted names and capitals, see below.) -/
theorem C111_partition_columns_partial (L : Lib) (lower : String → String) (unb : Bool) (w : List Tok) (s : Stmt) (r : List Tok)
    (h : parseExternal L unb w = some (s, r)) :
    ∃ es cs, External L w s.name es cs s.temporary s.ifNotExists r ∧
      ∀ ns cols, Clause.parts ns cols ∈ cs → (∀ c ∈ cols, c.name.quoted = false ∧ lower c.name.value = c.name.value) →
        cols ≠ [] → s.partCols = cols.map (fun c => planned lower c.name) ∧
          ∀ p ∈ s.partCols, p ∈ s.columns.map fun c => planned lower c.name := by
  obtain ⟨es, cs, h1, h2, -⟩ := (C111_grammar L unb w s r).1 h
  refine ⟨es, cs, h1, ?_⟩
  intro ns cols hm hc hne
  obtain ⟨a, b, hcl⟩ : ∃ a b, ClauseAt L a (.parts ns cols) b := by
    cases h1 with
    | mk _ _ _ _ _ _ _ _ _ _ _ _ _ _ _ h5 => exact clauses_mem h5 hm
  have hin : (ns, cols) ∈ partitions cs := List.mem_filterMap.2 ⟨_, hm, rfl⟩
  have hp : partitions cs = [(ns, cols)] := by
    match hq : partitions cs, h2.onePart with
    | [], _ => rw [hq] at hin; cases hin
    | [x], _ => rw [hq] at hin; simp at hin; rw [hin]
    | _ :: _ :: _, h => simp at h
  have hns : ns = cols.map fun c => planned lower c.name := by
    cases hcl with
    | partNames => exact absurd rfl hne
    | partDefs =>
      apply List.map_congr_left
      intro c hcm
      obtain ⟨q, l⟩ := hc c hcm
      simp [showIdent, planned, q, l]
  have e : s.partCols = cols.map (fun c => planned lower c.name) := by rw [h2.parts, hp]; simp [hns]
  refine ⟨e, fun p hp' => ?_⟩
  rw [e] at hp'
  obtain ⟨c, hc1, rfl⟩ := List.mem_map.1 hp'
  refine List.mem_map.2 ⟨c, ?_, rfl⟩
  rw [h2.columns, hp]
  simp [hc1]

/-- **C111**, partition columns, exactly: a column defined in PARTITIONED BY is named by the statement as it was written,
quotes and capitals included; this is the name of the column exactly if the name is written without quotes and without
capitals. -/
theorem C111_partition_exact (L : Lib) (lower : String → String) (unb : Bool) (w : List Tok) (s : Stmt) (r : List Tok)
    (h : parseExternal L unb w = some (s, r)) (hq : ∀ v, L.showQuoted v ≠ v) :
    ∃ es cs, External L w s.name es cs s.temporary s.ifNotExists r ∧
      ∀ ns cols, Clause.parts ns cols ∈ cs → cols ≠ [] →
        s.partCols = cols.map (fun c => if c.name.quoted then L.showQuoted c.name.value else c.name.value) ∧
        (∀ c ∈ cols, c ∈ s.columns) ∧
        (s.partCols = cols.map (fun c => planned lower c.name) ↔
          ∀ c ∈ cols, c.name.quoted = false ∧ lower c.name.value = c.name.value) := by
  obtain ⟨es, cs, h1, h2, -⟩ := (C111_grammar L unb w s r).1 h
  refine ⟨es, cs, h1, ?_⟩
  intro ns cols hm hne
  obtain ⟨a, b, hcl⟩ : ∃ a b, ClauseAt L a (.parts ns cols) b := by
    cases h1 with
    | mk _ _ _ _ _ _ _ _ _ _ _ _ _ _ _ h5 => exact clauses_mem h5 hm
  have hin : (ns, cols) ∈ partitions cs := List.mem_filterMap.2 ⟨_, hm, rfl⟩
  have hp : partitions cs = [(ns, cols)] := by
    match hq : partitions cs, h2.onePart with
    | [], _ => rw [hq] at hin; cases hin
    | [x], _ => rw [hq] at hin; simp at hin; rw [hin]
    | _ :: _ :: _, h => simp at h
  have hns : ns = cols.map fun c => showIdent L c.name := by
    cases hcl with
    | partNames => exact absurd rfl hne
    | partDefs => rfl
  have e : s.partCols = cols.map (fun c => showIdent L c.name) := by rw [h2.parts, hp]; simp [hns]
  refine ⟨e, fun c hc => by rw [h2.columns, hp]; simp [hc], ?_⟩
  rw [e, List.map_inj_left]
  constructor
  · intro hall c hc
    have := hall c hc
    simp only [showIdent, planned] at this
    cases hqd : c.name.quoted with
    | true => rw [hqd] at this; exact absurd this (hq _)
    | false => rw [hqd] at this; exact ⟨rfl, this.symm⟩
  · intro hall c hc
    obtain ⟨q, l⟩ := hall c hc
    simp [showIdent, planned, q, l]

/-! ### a concrete crate -/

/-- One word for a name, an expression or a type; `other 9` is a constraint. -/
def lib0 : Lib where
  objectName | .ident v q :: _ => some ([⟨v, q⟩], 0) | _ => none
  expr | .ident "ts" _ :: _ => some (1, 0) | .ident _ _ :: _ => some (2, 0) | _ => none
  colRest | .ident "int" _ :: _ => some (7, 0) | .ident _ _ :: _ => some (8, 0) | _ => none
  constraint | .other 9 :: _ => some (some (3, 0)) | _ => some none
  literal | .str s => some s | _ => none
  showQuoted v := "\"" ++ v ++ "\""
  upper v := if v = "parquet" then "PARQUET" else v

/-- `TEMP TABLE IF NOT EXISTS t (a int, <constraint>,)` -/
def head0 : List Tok :=
  [.kw .temp "temp", .kw .table "TABLE", .kw .if_ "IF", .kw .not_ "NOT", .kw .exists_ "EXISTS", .ident "t" false, .lparen,
   .ident "a" false, .ident "int" false, .comma, .other 9, .comma, .rparen]

def stored0 : List Tok := [.kw .stored "STORED", .kw .as "AS", .ident "parquet" false]
def location0 : List Tok := [.kw .location "LOCATION", .str "s3://b/x"]
def order0 : List Tok :=
  [.kw .with_ "WITH", .kw .order "ORDER", .lparen, .ident "ts" false, .kw .desc "DESC", .kw .nulls "NULLS", .kw .last "LAST",
   .comma, .ident "a" false, .rparen]
def parts0 : List Tok :=
  [.kw .partitioned "PARTITIONED", .kw .by_ "BY", .lparen, .ident "p" false, .ident "text" false, .rparen]
def options0 : List Tok :=
  [.kw .options "OPTIONS", .lparen, .ident "format" false, .period, .kw .delimiter "delimiter", .str "|", .comma, .str "k",
   .num "3", .rparen]

def stmt0 : Stmt :=
  { name := [⟨"t", false⟩], columns := [⟨⟨"a", false⟩, 7⟩, ⟨⟨"p", false⟩, 8⟩], fileType := "PARQUET", location := "s3://b/x",
    partCols := ["p"], order := [[⟨1, some false, some false⟩, ⟨2, none, none⟩]], ifNotExists := true, temporary := true,
    unbounded := false, options := [("format.delimiter", .text "|"), ("k", .number "3")], constraints := [3] }

/-- All clauses at once, in two orders. -/
example : parseExternal lib0 false (head0 ++ stored0 ++ location0 ++ order0 ++ parts0 ++ options0 ++ [.semi]) =
    some (stmt0, [.semi]) := by decide +kernel
example : parseExternal lib0 false (head0 ++ options0 ++ parts0 ++ order0 ++ location0 ++ stored0) = some (stmt0, []) := by
  decide +kernel

/-- A format twice, no location, constraints on partition columns, and a trailing comma in an order are errors. -/
example : parseExternal lib0 false (head0 ++ stored0 ++ location0 ++ stored0) = none := by decide +kernel
example : parseExternal lib0 false (head0 ++ stored0 ++ options0) = none := by decide +kernel
example : parseExternal lib0 false (head0 ++ stored0 ++ location0 ++
    [.kw .partitioned "PARTITIONED", .kw .by_ "BY", .lparen, .ident "p" false, .ident "text" false, .comma, .other 9, .rparen])
    = none := by decide +kernel
example : parseExternal lib0 false (head0 ++ stored0 ++ location0 ++
    [.kw .with_ "WITH", .kw .order "ORDER", .lparen, .ident "ts" false, .comma, .rparen]) = none := by decide +kernel

/-- Two sort orders are kept in sequence. -/
example : (parseExternal lib0 false (head0 ++ order0 ++ stored0 ++ location0 ++
    [.kw .with_ "WITH", .kw .order "ORDER", .lparen, .ident "a" false, .rparen])).map (fun p => p.1.order) =
    some [[⟨1, some false, some false⟩, ⟨2, none, none⟩], [⟨2, none, none⟩]] := by decide +kernel

/-! ### violations -/

/-- **C111 is violated** for partition columns defined with quotes: the statement defines the column `p q`, but says that it
is partitioned by `"p q"` with the quotes, which no column is called. -/
theorem C111_quoted_partition_column :
    ∃ s, parseExternal lib0 false (head0 ++ stored0 ++ location0 ++
      [.kw .partitioned "PARTITIONED", .kw .by_ "BY", .lparen, .ident "p q" true, .ident "text" false, .rparen]) = some (s, []) ∧
      "p q" ∈ s.columns.map (fun c => planned id c.name) ∧ s.partCols = ["\"p q\""] ∧
      ∀ p ∈ s.partCols, p ∉ s.columns.map fun c => planned id c.name :=
  ⟨{ stmt0 with columns := [⟨⟨"a", false⟩, 7⟩, ⟨⟨"p q", true⟩, 8⟩], partCols := ["\"p q\""], order := [], options := [] },
    by decide +kernel⟩

/-- **C111 is violated** likewise for capitals: `PARTITIONED BY (P text)` defines the column `p` and partitions by `P`. -/
theorem C111_capital_partition_column (lower : String → String) (hP : lower "P" = "p") (ha : lower "a" = "a") :
    ∃ s, parseExternal lib0 false (head0 ++ stored0 ++ location0 ++
      [.kw .partitioned "PARTITIONED", .kw .by_ "BY", .lparen, .ident "P" false, .ident "text" false, .rparen]) = some (s, []) ∧
      s.columns.map (fun c => planned lower c.name) = ["a", "p"] ∧ s.partCols = ["P"] := by
  refine ⟨{ stmt0 with columns := [⟨⟨"a", false⟩, 7⟩, ⟨⟨"P", false⟩, 8⟩], partCols := ["P"], order := [], options := [] },
    by decide +kernel, ?_, rfl⟩
  simp [planned, hP, ha, stmt0]

/-- PARTITIONED BY without any list is accepted. -/
theorem C111_bare_partitioned_by :
    (parseExternal lib0 false (head0 ++ stored0 ++ [.kw .partitioned "PARTITIONED", .kw .by_ "BY"] ++ location0)).map
      (fun p => p.1.partCols) = some [] := by decide +kernel

end Seafowl.SqlExt
