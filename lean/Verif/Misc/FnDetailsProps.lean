import Verif.Misc.FnDetails

/-!
# C74: a stored function is the function that was created
-/

namespace Seafowl.FnDetails

/-- The value fits the Rust field (`u8`, `i8`). -/
def DType.InRange : DType → Prop
  | .DECIMAL p s => p < 256 ∧ -128 ≤ s ∧ s < 128
  | _ => True

theorem input_roundtrip (t : DType) (h : t.InRange) : DType.ofJson t.toJson = some t := by
  cases t
  case DECIMAL p s =>
    obtain ⟨h1, h2, h3⟩ := h
    have : (0 : Int) ≤ (p : Int) ∧ (p : Int) < 256 ∧ -128 ≤ s ∧ s < 128 := ⟨by omega, by omega, h2, h3⟩
    simp [DType.toJson, DType.ofJson, this]
  all_goals decide +kernel

theorem inputs_roundtrip (l : List DType) (h : ∀ t ∈ l, t.InRange) : (l.map DType.toJson).mapM DType.ofJson = some l := by
  induction l with
  | nil => rfl
  | cons t ts ih =>
    simp [List.mapM_cons, input_roundtrip t (h t (by simp)), ih (fun x hx => h x (List.mem_cons_of_mem _ hx))]

/-- What the return type becomes. -/
def DType.forget : DType → DType
  | .DECIMAL _ _ => .DECIMAL 0 0
  | t => t

theorem ret_roundtrip (t : DType) : DType.fromStr (upper t.display) = some t.forget := by
  cases t
  case DECIMAL p s =>
    have : upper "DECIMAL" = "DECIMAL" := by decide +kernel
    simp only [DType.display, this, DType.forget]
    decide +kernel
  all_goals decide +kernel

theorem lang_roundtrip (l : Lang) : Lang.fromStr l.display = some l := by cases l <;> decide +kernel

theorem vol_roundtrip (v : Vol) : Vol.fromStr v.display = some v := by cases v <;> decide +kernel

/-- **C74**: what reading back gives, for every definition: everything but a DECIMAL return type's precision
and scale. -/
theorem C74_load (d : Details) (h : ∀ t ∈ d.input, t.InRange) : load (store d) = some { d with ret := d.ret.forget } := by
  simp [load, store, parseInput, lang_roundtrip, inputs_roundtrip d.input h, ret_roundtrip, vol_roundtrip]

/-- **C74** (partial): the definition survives unless it returns a DECIMAL with a precision or scale. -/
theorem C74_partial (d : Details) (h : ∀ t ∈ d.input, t.InRange) (hr : ∀ p s, d.ret = .DECIMAL p s → p = 0 ∧ s = 0) :
    load (store d) = some d := by
  rw [C74_load d h]
  have : d.ret.forget = d.ret := by
    rcases hd : d.ret with _ | _ | _ | _ | _ | _ | _ | _ | _ | _ | ⟨p, s⟩ | _ | _ | _ | _ | _ | _ <;> try rfl
    obtain ⟨rfl, rfl⟩ := hr p s hd
    rfl
  rw [this]

theorem ite_cases {α : Type} {c : Prop} [Decidable c] {a x : α} {b : Option α} (h : (if c then some a else b) = some x) :
    a = x ∨ b = some x := by
  by_cases hc : c
  · rw [if_pos hc] at h; exact Or.inl (Option.some.inj h)
  · rw [if_neg hc] at h; exact Or.inr h

theorem fromStr_decimal {s : String} {p : Nat} {q : Int} (h : DType.fromStr s = some (.DECIMAL p q)) : p = 0 ∧ q = 0 := by
  unfold DType.fromStr at h
  repeat (rcases ite_cases h with h' | h; · cases h' <;> exact ⟨rfl, rfl⟩)
  cases h

/-- A DECIMAL written in SQL has neither precision nor scale. -/
theorem parseType_decimal {s : String} {p : Nat} {q : Int} (h : parseType s = some (.DECIMAL p q)) : p = 0 ∧ q = 0 :=
  fromStr_decimal h

theorem mapM_mem {α β : Type} (f : α → Option β) (l : List α) : ∀ {r : List β}, l.mapM f = some r → ∀ y ∈ r, ∃ x ∈ l, f x = some y := by
  induction l with
  | nil => intro r h y hy; simp at h; subst h; simp at hy
  | cons a l ih =>
    intro r h y hy
    simp only [List.mapM_cons, Option.bind_eq_bind, Option.bind_eq_some_iff, Option.pure_def, Option.some.injEq] at h
    obtain ⟨b, hb, bs, hbs, rfl⟩ := h
    rcases List.mem_cons.1 hy with rfl | hy
    · exact ⟨a, by simp, hb⟩
    · obtain ⟨x, hx, hxy⟩ := ih hbs y hy
      exact ⟨x, List.mem_cons_of_mem _ hx, hxy⟩

/-- Every type written in SQL fits, and decimals are bare. -/
theorem parseSql_types (j : J) (d : Details) (h : parseSql j = some d) :
    (∀ t ∈ d.input, ∃ s, parseType s = some t) ∧ ∃ s, parseType s = some d.ret := by
  cases j with
  | obj l =>
    simp only [parseSql, Option.bind_eq_bind, Option.bind_eq_some_iff, Option.pure_def, Option.some.injEq] at h
    obtain ⟨_, _, _, _, inp, hinp, ret, hret, _, _, _, _, rfl⟩ := h
    constructor
    · intro t ht
      split at hinp
      · obtain ⟨x, _, hx⟩ := mapM_mem _ _ hinp t ht
        cases x with
        | str s => exact ⟨s, hx⟩
        | null | num | arr | obj => simp [sqlType] at hx
      · simp at hinp
    · split at hret
      · exact ⟨_, hret⟩
      · simp at hret
  | null | str | num | arr => simp [parseSql] at h

/-- **C74** for SQL: every function that `CREATE FUNCTION` accepts is read back as it was created. -/
theorem C74_sql (j : J) (d : Details) (h : parseSql j = some d) : load (store d) = some d := by
  obtain ⟨h1, s, h2⟩ := parseSql_types j d h
  refine C74_partial d ?_ ?_
  · intro t ht
    obtain ⟨s, hs⟩ := h1 t ht
    cases t with
    | DECIMAL p q => obtain ⟨rfl, rfl⟩ := parseType_decimal hs; simp [DType.InRange]
    | I32 | I64 | F32 | F64 | SMALLINT | INT | BIGINT | CHAR | VARCHAR | TEXT | FLOAT | REAL | DOUBLE | BOOLEAN | DATE | TIMESTAMP =>
      trivial
  · intro p q hd
    rw [hd] at h2
    exact parseType_decimal h2

/-- Type names in SQL are case-insensitive. -/
theorem C74_case (s s' : String) (h : upper s = upper s') : parseType s = parseType s' := by simp only [parseType, h]

/-- Arrow's decimals have a precision from 1 to 38. -/
def ValidDecimal (p : Nat) : Prop := 1 ≤ p ∧ p ≤ 38

/-- **C74**, violated: no SQL definition has a DECIMAL argument or result that Arrow could hold, although
`"DECIMAL"` is accepted; and a result type with precision and scale, given to the function store directly, is lost. -/
theorem C74_violated :
    (∀ j d, parseSql j = some d → (∀ p s, d.ret = .DECIMAL p s → ¬ ValidDecimal p) ∧
      (∀ p s, DType.DECIMAL p s ∈ d.input → ¬ ValidDecimal p)) ∧
    parseType "decimal" = some (.DECIMAL 0 0) ∧ parseType "DECIMAL(10, 2)" = none ∧
    load (store ⟨"f", .WasmMessagePack, [.DECIMAL 10 2], .DECIMAL 10 2, "", .Volatile⟩) =
      some ⟨"f", .WasmMessagePack, [.DECIMAL 10 2], .DECIMAL 0 0, "", .Volatile⟩ := by
  refine ⟨?_, by decide +kernel, by decide +kernel, ?_⟩
  · intro j d h
    obtain ⟨h1, s, h2⟩ := parseSql_types j d h
    constructor
    · intro p q hd
      rw [hd] at h2
      obtain ⟨rfl, rfl⟩ := parseType_decimal h2
      simp [ValidDecimal]
    · intro p q hm
      obtain ⟨s, hs⟩ := h1 _ hm
      obtain ⟨rfl, rfl⟩ := parseType_decimal hs
      simp [ValidDecimal]
  · rw [C74_load _ (by simp [DType.InRange])]
    rfl

/-- A definition written in SQL with defaults. -/
def exJson : J := .obj [("entrypoint", .str "add"), ("input_types", .arr [.str "bigint", .str "Text"]),
  ("return_type", .str "Boolean"), ("data", .str "AGFz")]

example : parseSql exJson = some ⟨"add", .WasmMessagePack, [.BIGINT, .TEXT], .BOOLEAN, "AGFz", .Volatile⟩ ∧
    load (store ⟨"add", .WasmMessagePack, [.BIGINT, .TEXT], .BOOLEAN, "AGFz", .Volatile⟩) =
      some ⟨"add", .WasmMessagePack, [.BIGINT, .TEXT], .BOOLEAN, "AGFz", .Volatile⟩ := by decide +kernel

/-- The object has the key, once, with this value. -/
def Once (l : List (String × J)) (k : String) (v : J) : Prop :=
  ∃ pre suf, l = pre ++ (k, v) :: suf ∧ (∀ e ∈ pre, e.1 ≠ k) ∧ ∀ e ∈ suf, e.1 ≠ k

theorem field_once (l : List (String × J)) (k : String) (v : J) : field l k = some (some v) ↔ Once l k v := by
  have none_iff : ∀ m : List (String × J), m.filter (·.1 == k) = [] ↔ ∀ e ∈ m, e.1 ≠ k := by
    intro m
    rw [List.filter_eq_nil_iff]
    simp
  constructor
  · intro h
    have hf : ∃ x, l.filter (·.1 == k) = [x] ∧ x.2 = v := by
      unfold field at h
      split at h
      · simp at h
      · rename_i x hx
        exact ⟨x, hx, by simpa using h⟩
      · simp at h
    obtain ⟨⟨k', v'⟩, hx, rfl⟩ := hf
    have hm : (k', v') ∈ l.filter (·.1 == k) := by simp [hx]
    have hk : k' = k := by simpa using (List.mem_filter.mp hm).2
    obtain ⟨pre, suf, rfl⟩ := List.append_of_mem (List.mem_filter.mp hm).1
    subst hk
    rw [List.filter_append, List.filter_cons_of_pos (by simp)] at hx
    have hl := congrArg List.length hx
    simp only [List.length_append, List.length_cons, List.length_nil] at hl
    refine ⟨pre, suf, rfl, (none_iff _).mp (List.length_eq_zero_iff.mp (by omega)), (none_iff _).mp (List.length_eq_zero_iff.mp (by omega))⟩
  · rintro ⟨pre, suf, rfl, h1, h2⟩
    have e : (pre ++ (k, v) :: suf).filter (·.1 == k) = [(k, v)] := by
      rw [List.filter_append, List.filter_cons_of_pos (by simp), (none_iff _).mpr h1, (none_iff _).mpr h2]
      rfl
    simp only [field, e]

theorem field_none (l : List (String × J)) (k : String) : field l k = none ↔ ∀ e ∈ l, e.1 ≠ k := by
  have none_iff : l.filter (·.1 == k) = [] ↔ ∀ e ∈ l, e.1 ≠ k := by
    rw [List.filter_eq_nil_iff]
    simp
  rw [← none_iff]
  unfold field
  constructor
  · intro h
    split at h
    · assumption
    · simp at h
    · simp at h
  · intro h
    rw [h]

theorem reqStr_once (l : List (String × J)) (k s : String) : reqStr l k = some s ↔ Once l k (.str s) := by
  rw [← field_once]
  unfold reqStr
  split
  · rename_i t ht
    rw [ht]
    simp
  · rename_i hn
    constructor
    · simp
    · intro h
      exact absurd h (hn s)

/-- A language by its name in SQL. -/
inductive LangName : String → Lang → Prop
  | wasm : LangName "wasm" .Wasm
  | pack : LangName "wasmMessagePack" .WasmMessagePack

/-- A volatility by its name in SQL. -/
inductive VolName : String → Vol → Prop
  | immutable : VolName "immutable" .Immutable
  | stable : VolName "stable" .Stable
  | volatile : VolName "volatile" .Volatile

/-- The given setting, or the default if it is left out. -/
def OrDefault (l : List (String × J)) (k : String) (name : String → α → Prop) (dflt a : α) : Prop :=
  (∃ s, Once l k (.str s) ∧ name s a) ∨ ((∀ e ∈ l, e.1 ≠ k) ∧ a = dflt)

theorem once_key {l : List (String × J)} {k : String} {v : J} (h : Once l k v) : ¬ ∀ e ∈ l, e.1 ≠ k := by
  obtain ⟨pre, suf, rfl, _, _⟩ := h
  intro h
  exact h (k, v) (by simp) rfl

theorem sqlLang_spec (l : List (String × J)) (a : Lang) :
    sqlLang l = some a ↔ OrDefault l "language" LangName .WasmMessagePack a := by
  unfold sqlLang OrDefault
  split
  · rename_i h
    have hn := (field_none _ _).mp h
    constructor
    · intro h'
      exact .inr ⟨hn, by simpa using h'.symm⟩
    · rintro (⟨s, ho, _⟩ | ⟨_, rfl⟩)
      · exact absurd hn (once_key ho)
      · rfl
  · rename_i s h
    have ho := (field_once _ _ _).mp h
    constructor
    · intro h'
      refine .inl ⟨s, ho, ?_⟩
      split at h'
      · rename_i e; simp at h'; subst e h'; exact .wasm
      · split at h'
        · rename_i e; simp at h'; subst e h'; exact .pack
        · simp at h'
    · rintro (⟨s', ho', hs⟩ | ⟨hn, _⟩)
      · have := h.symm.trans ((field_once _ _ _).mpr ho')
        simp at this
        subst this
        cases hs <;> simp
      · exact absurd hn (once_key ho)
  · rename_i h1 h2
    constructor
    · simp
    · rintro (⟨s', ho', _⟩ | ⟨hn, _⟩)
      · exact absurd ((field_once _ _ _).mpr ho') (h2 s')
      · exact absurd ((field_none _ _).mpr hn) h1

theorem sqlVol_spec (l : List (String × J)) (a : Vol) :
    sqlVol l = some a ↔ OrDefault l "volatility" VolName .Volatile a := by
  unfold sqlVol OrDefault
  split
  · rename_i h
    have hn := (field_none _ _).mp h
    constructor
    · intro h'
      exact .inr ⟨hn, by simpa using h'.symm⟩
    · rintro (⟨s, ho, _⟩ | ⟨_, rfl⟩)
      · exact absurd hn (once_key ho)
      · rfl
  · rename_i s h
    have ho := (field_once _ _ _).mp h
    constructor
    · intro h'
      refine .inl ⟨s, ho, ?_⟩
      split at h'
      · rename_i e; simp at h'; subst e h'; exact .immutable
      · split at h'
        · rename_i e; simp at h'; subst e h'; exact .stable
        · split at h'
          · rename_i e; simp at h'; subst e h'; exact .volatile
          · simp at h'
    · rintro (⟨s', ho', hs⟩ | ⟨hn, _⟩)
      · have := h.symm.trans ((field_once _ _ _).mpr ho')
        simp at this
        subst this
        cases hs <;> simp
      · exact absurd hn (once_key ho)
  · rename_i h1 h2
    constructor
    · simp
    · rintro (⟨s', ho', _⟩ | ⟨hn, _⟩)
      · exact absurd ((field_once _ _ _).mpr ho') (h2 s')
      · exact absurd ((field_none _ _).mpr hn) h1

/-- `ts` are the names of the types. -/
def TypeNames : List J → List DType → Prop
  | [], [] => True
  | t :: ts, d :: ds => (∃ s, t = .str s ∧ parseType s = some d) ∧ TypeNames ts ds
  | _, _ => False

theorem sqlTypes_spec : ∀ (ts : List J) (ds : List DType), ts.mapM sqlType = some ds ↔ TypeNames ts ds
  | [], [] => by simp [TypeNames]
  | [], d :: ds => by simp [TypeNames]
  | t :: ts, [] => by
    rw [List.mapM_cons]
    cases sqlType t <;> cases List.mapM sqlType ts <;> simp [TypeNames]
  | t :: ts, d :: ds => by
    rw [List.mapM_cons]
    have ih := sqlTypes_spec ts ds
    have ht : sqlType t = some d ↔ ∃ s, t = .str s ∧ parseType s = some d := by
      cases t <;> simp [sqlType]
    rw [TypeNames, ← ih, ← ht]
    cases sqlType t <;> cases List.mapM sqlType ts <;> simp [and_comm]

/-- **C74 (what CREATE FUNCTION accepts).** The text after AS is accepted exactly if it is an object
with the entry point, the argument types, the result type and the code, each once, and with the
language and the volatility at most once; and the function then has just these. -/
theorem C74_accepts (j : J) (d : Details) : parseSql j = some d ↔
    ∃ l, j = .obj l ∧ Once l "entrypoint" (.str d.entrypoint) ∧
      OrDefault l "language" LangName .WasmMessagePack d.language ∧
      (∃ ts, Once l "input_types" (.arr ts) ∧ TypeNames ts d.input) ∧
      (∃ s, Once l "return_type" (.str s) ∧ parseType s = some d.ret) ∧
      Once l "data" (.str d.data) ∧ OrDefault l "volatility" VolName .Volatile d.volatility := by
  cases j with
  | obj l =>
    have hin : ∀ ds, (match field l "input_types" with
        | some (some (.arr ts)) => ts.mapM sqlType
        | _ => none) = some ds ↔ ∃ ts, Once l "input_types" (.arr ts) ∧ TypeNames ts ds := by
      intro ds
      simp only [← field_once, ← sqlTypes_spec]
      split
      · rename_i ts ht
        rw [ht]
        simp
      · rename_i hn
        constructor
        · simp
        · rintro ⟨ts, h, _⟩
          exact absurd h (hn ts)
    have hret : ∀ t, (match field l "return_type" with
        | some (some (.str s)) => parseType s
        | _ => none) = some t ↔ ∃ s, Once l "return_type" (.str s) ∧ parseType s = some t := by
      intro t
      simp only [← field_once]
      split
      · rename_i s hs
        rw [hs]
        simp
      · rename_i hn
        constructor
        · simp
        · rintro ⟨s, h, _⟩
          exact absurd h (hn s)
    simp only [parseSql, bind, Option.bind_eq_some_iff, reqStr_once, sqlLang_spec, sqlVol_spec, pure,
      Option.some.injEq]
    constructor
    · rintro ⟨a, h1, b, h2, c, h3, e, h4, f, h5, g, h6, rfl⟩
      exact ⟨l, rfl, h1, h2, (hin _).mp h3, (hret _).mp h4, h5, h6⟩
    · rintro ⟨l', hl, h1, h2, h3, h4, h5, h6⟩
      cases hl
      exact ⟨_, h1, _, h2, _, (hin _).mpr h3, _, (hret _).mpr h4, _, h5, _, h6, rfl⟩
  | null | str | num | arr => simp [parseSql]

/-- A key given twice is an error. -/
example : parseSql (.obj [("entrypoint", .str "f"), ("entrypoint", .str "g"), ("input_types", .arr []),
    ("return_type", .str "text"), ("data", .str "")]) = none := by decide +kernel

end Seafowl.FnDetails
