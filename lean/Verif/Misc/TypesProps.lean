import Verif.Misc.Types

/-
C51, C69: declared column types.
-/
namespace Seafowl.Types
set_option linter.unusedSimpArgs false

/-! ### Specification -/

/-- A legal `DECIMAL(p, s)`. -/
def LegalDecimal (p s : Nat) : Prop := 1 ≤ p ∧ p ≤ 38 ∧ s ≤ p

/-- The whole numbers a value of a SQL integer type can have (the SQL standard, Postgres and MySQL
agree), regardless of display width: from `lo` up to, excluding, `hi`. -/
def SqlTy.range : SqlTy → Option (Int × Int)
  | .tinyInt _ => some (-2 ^ 7, 2 ^ 7)
  | .smallInt _ | .int2 _ => some (-2 ^ 15, 2 ^ 15)
  | .int _ | .integer _ | .int4 _ => some (-2 ^ 31, 2 ^ 31)
  | .bigInt _ | .int8 _ => some (-2 ^ 63, 2 ^ 63)
  | .uTinyInt _ => some (0, 2 ^ 8)
  | .uSmallInt _ | .uInt2 _ => some (0, 2 ^ 16)
  | .uInt _ | .uInteger _ | .uInt4 _ => some (0, 2 ^ 32)
  | .uBigInt _ | .uInt8 _ => some (0, 2 ^ 64)
  | _ => none

/-- The whole numbers an Arrow integer array holds. -/
def ArrowTy.range : ArrowTy → Option (Int × Int)
  | .int8 => some (-128, 128)
  | .int16 => some (-32768, 32768)
  | .int32 => some (-2147483648, 2147483648)
  | .int64 => some (-9223372036854775808, 9223372036854775808)
  | .uint8 => some (0, 256)
  | .uint16 => some (0, 65536)
  | .uint32 => some (0, 4294967296)
  | .uint64 => some (0, 18446744073709551616)
  | _ => none

/-- Binary digits of a floating point type: `FLOAT(p)` asks for at least `p`; `FLOAT` and `DOUBLE
PRECISION` are 53 in Postgres, `REAL` is 24. -/
def SqlTy.binaryDigits : SqlTy → Option Nat
  | .float (some p) => some p
  | .real | .float4 => some 24
  | .double | .doublePrecision | .float8 => some 53
  | _ => none

def ArrowTy.binaryDigits : ArrowTy → Option Nat
  | .float32 => some 24
  | .float64 => some 53
  | _ => none

/-- The name a column is found under: an unquoted identifier stands for its lower-case form. -/
inductive Named : Ident → List Char → Prop
  | quoted (v : List Char) : Named ⟨v, true⟩ v
  | plain (v : List Char) (n : List Char)
      (len : n.length = v.length)
      (each : ∀ (i : Nat) (c : Char), v[i]? = some c →
        n[i]? = some (if 'A' ≤ c ∧ c ≤ 'Z' then Char.ofNat (c.toNat + 32) else c)) :
      Named ⟨v, false⟩ n

/-! ### C51 -/

theorem asU8_of_lt {p : Nat} (h : p < 256) : asU8 p = p := Nat.mod_eq_of_lt h

theorem asI8_of_lt {s : Nat} (h : s < 128) : asI8 s = s := by
  unfold asI8
  have : s % 256 = s := Nat.mod_eq_of_lt (by omega)
  simp [this, h]

/-- **C51 (one half, for all numbers).**  A legal `DECIMAL(p, s)` column gets exactly that type. -/
theorem C51_legal {p s : Nat} (h : LegalDecimal p s) :
    makeDecimalType (some p) (some s) = some (.decimal128 p s) := by
  obtain ⟨h1, h2, h3⟩ := h
  simp only [makeDecimalType, asU8_of_lt (show p < 256 by omega), asI8_of_lt (show s < 128 by omega)]
  rw [if_neg]
  simp only [Int.natAbs_natCast]
  omega

/-- **C51_partial.**  Exactly the legal ones are accepted, for precisions below 256 and scales below
218.  Missing: larger numbers, which lose their high bits before the check (see the violations). -/
theorem C51_partial {p s : Nat} (hp : p < 256) (hs : s < 218) (t : ArrowTy) :
    makeDecimalType (some p) (some s) = some t ↔ LegalDecimal p s ∧ t = .decimal128 p s := by
  constructor
  · intro h
    by_cases hl : LegalDecimal p s
    · rw [C51_legal hl] at h
      exact ⟨hl, by simpa using h.symm⟩
    · exfalso
      simp only [makeDecimalType, asU8_of_lt hp] at h
      split at h
      · exact absurd h (by simp)
      · rename_i hc
        apply hl
        have hm : s % 256 = s := Nat.mod_eq_of_lt (by omega)
        unfold asI8 at hc
        rw [hm] at hc
        refine ⟨by omega, by omega, ?_⟩
        split at hc <;> omega
  · rintro ⟨hl, rfl⟩
    exact C51_legal hl

/-- Without a scale it is 0; without anything it is (38, 10); a scale alone is rejected. -/
theorem C51_defaults {p : Nat} (hp : p < 256) (t : ArrowTy) :
    (makeDecimalType (some p) none = some t ↔ LegalDecimal p 0 ∧ t = .decimal128 p 0) ∧
    makeDecimalType none none = some (.decimal128 38 10) ∧
    ∀ s, makeDecimalType none (some s) = none := by
  refine ⟨?_, rfl, fun _ => rfl⟩
  simp only [makeDecimalType, asU8_of_lt hp, LegalDecimal]
  split
  · rename_i h
    simp only [Int.natAbs_zero] at h
    simp only [reduceCtorEq, false_iff]
    omega
  · rename_i h
    simp only [Int.natAbs_zero] at h
    constructor
    · intro e
      exact ⟨by omega, by simpa using e.symm⟩
    · rintro ⟨_, rfl⟩; rfl

/-- **C51_columns_partial.**  The same for columns declared as `DECIMAL` or `NUMERIC`, in all forms.  Missing:
as for `C51_partial`. -/
theorem C51_columns_partial {p s : Nat} (hp : p < 256) (hs : s < 218) (t : ArrowTy)
    (k : Exact → SqlTy) (hk : k = .decimal ∨ k = .numeric) :
    (convertSimpleDataType (k (.both p s)) = some t ↔ LegalDecimal p s ∧ t = .decimal128 p s) ∧
    (convertSimpleDataType (k (.precision p)) = some t ↔ LegalDecimal p 0 ∧ t = .decimal128 p 0) ∧
    convertSimpleDataType (k .none) = some (.decimal128 38 10) := by
  have h1 := C51_partial hp hs t
  have h2 := (C51_defaults hp t).1
  rcases hk with rfl | rfl
  · exact ⟨h1, h2, rfl⟩
  · exact ⟨h1, h2, rfl⟩

example : convertSimpleDataType (.numeric (.both 10 2)) = some (.decimal128 10 2) := by decide

/-- Whatever is accepted is at least a type Arrow can hold. -/
theorem C51_storable {p s : Option Nat} {q : Nat} {r : Int}
    (h : makeDecimalType p s = some (.decimal128 q r)) : 1 ≤ q ∧ q ≤ 38 ∧ r.natAbs ≤ q := by
  unfold makeDecimalType at h
  split at h <;> simp only at h <;> first
    | (split at h
       · exact absurd h (by simp)
       · rename_i hc
         simp only [Option.some.injEq, ArrowTy.decimal128.injEq] at h
         obtain ⟨rfl, rfl⟩ := h
         omega)
    | exact absurd h (by simp)

example : LegalDecimal 38 0 ∧ LegalDecimal 10 10 ∧ ¬ LegalDecimal 39 0 ∧ ¬ LegalDecimal 4 5 := by
  simp [LegalDecimal]
example : makeDecimalType (some 39) (some 2) = none ∧ makeDecimalType (some 5) (some 6) = none ∧
    makeDecimalType (some 0) (some 0) = none := by decide

/-- **C51 is violated**: `DECIMAL(266, 2)` is accepted, as `DECIMAL(10, 2)`: -/
theorem C51_violated_precision :
    ¬ LegalDecimal 266 2 ∧ makeDecimalType (some 266) (some 2) = some (.decimal128 10 2) := by
  refine ⟨by simp [LegalDecimal], by decide⟩

/-- `DECIMAL(10, 254)` is accepted with scale -2, i.e. rounds to hundreds: -/
theorem C51_violated_scale :
    ¬ LegalDecimal 10 254 ∧ makeDecimalType (some 10) (some 254) = some (.decimal128 10 (-2)) := by
  refine ⟨by simp [LegalDecimal], by decide⟩

/-- The bounds of `C51_partial` cannot be raised: -/
theorem C51_partial_tight :
    makeDecimalType (some 257) (some 0) = some (.decimal128 1 0) ∧
    makeDecimalType (some 38) (some 218) = some (.decimal128 38 (-38)) := by decide

/-- **C51 (all numbers).**  What is accepted in general: the precision and the scale of the column agree with the declared
ones up to multiples of 256, and Arrow can hold the type. -/
theorem C51_general (p s q : Nat) (r : Int) :
    makeDecimalType (some p) (some s) = some (.decimal128 q r) ↔
      1 ≤ q ∧ q ≤ 38 ∧ r.natAbs ≤ q ∧ (∃ k, p = q + 256 * k) ∧ ∃ k : Int, (s : Int) = r + 256 * k := by
  have hi : -128 ≤ asI8 s ∧ asI8 s < 128 ∧ ∃ k : Int, (s : Int) = asI8 s + 256 * k := by
    unfold asI8
    split
    · exact ⟨by omega, by omega, (s / 256 : Nat), by omega⟩
    · exact ⟨by omega, by omega, (s / 256 : Nat) + 1, by omega⟩
  obtain ⟨hi1, hi2, k, hk⟩ := hi
  simp only [makeDecimalType]
  constructor
  · intro h
    split at h
    · exact absurd h (by simp)
    · rename_i hc
      simp only [Option.some.injEq, ArrowTy.decimal128.injEq] at h
      obtain ⟨rfl, rfl⟩ := h
      refine ⟨by omega, by omega, by omega, ⟨p / 256, ?_⟩, k, hk⟩
      simp only [asU8]
      omega
  · rintro ⟨h1, h2, h3, ⟨j, hj⟩, k', hk'⟩
    have e1 : asU8 p = q := by simp only [asU8]; omega
    have e2 : asI8 s = r := by omega
    rw [e1, e2, if_neg (by omega)]

/-! ### C69: the columns of a created table -/

theorem lowerAscii_eq (c : Char) :
    lowerAscii c = if 'A' ≤ c ∧ c ≤ 'Z' then Char.ofNat (c.toNat + 32) else c := by
  unfold lowerAscii
  have h1 : ('A' ≤ c) ↔ 65 ≤ c.toNat := by
    rw [Char.le_def, UInt32.le_iff_toNat_le]; rfl
  have h2 : (c ≤ 'Z') ↔ c.toNat ≤ 90 := by
    rw [Char.le_def, UInt32.le_iff_toNat_le]; rfl
  simp only [h1, h2]

theorem named_normalize (i : Ident) : Named i (normalizeIdent i) := by
  obtain ⟨v, q⟩ := i
  cases q with
  | true => simpa [normalizeIdent] using Named.quoted v
  | false =>
    simp only [normalizeIdent, Bool.false_eq_true, ↓reduceIte]
    refine Named.plain v _ (by simp) ?_
    intro i c h
    rw [List.getElem?_map, h, Option.map_some, lowerAscii_eq]

/-- **C69 (columns).**  If the statement is accepted, the table has one column per declared column,
in the declared order, with the declared name (lower case unless quoted), and it takes NULLs exactly
if `NOT NULL` is not declared. -/
theorem C69_columns {cols : List ColumnDef} {fs : List Field} (h : buildSchema cols = some fs) :
    fs.length = cols.length ∧
    ∀ (i : Nat) (c : ColumnDef), cols[i]? = some c → ∃ f, fs[i]? = some f ∧
      Named c.name f.name ∧ convertSimpleDataType c.ty = some f.ty ∧
      (f.nullable = true ↔ ColOpt.notNull ∉ c.options) := by
  induction cols generalizing fs with
  | nil => simp [buildSchema] at h; subst h; simp
  | cons c cs ih =>
    simp only [buildSchema] at h
    rcases Option.eq_none_or_eq_some (convertSimpleDataType c.ty) with hc | ⟨t, hc⟩
    · simp [hc] at h
    · rw [hc] at h
      simp only [Option.map_eq_some_iff] at h
      obtain ⟨gs, hg, rfl⟩ := h
      obtain ⟨hl, hi⟩ := ih hg
      refine ⟨by simp [hl], ?_⟩
      intro i c' hc'
      cases i with
      | zero =>
        simp only [List.getElem?_cons_zero, Option.some.injEq] at hc'
        subst hc'
        refine ⟨_, rfl, named_normalize _, hc, ?_⟩
        simp only [Bool.not_eq_eq_eq_not, Bool.not_true, List.any_eq_false, decide_eq_true_eq]
        constructor
        · intro h hm; exact h _ hm rfl
        · intro h x hx e; exact h (e ▸ hx)
      | succ j =>
        simp only [List.getElem?_cons_succ] at hc' ⊢
        exact hi j c' hc'

/-- A statement is rejected only for a column whose type is rejected. -/
theorem C69_rejected {cols : List ColumnDef} :
    buildSchema cols = none ↔ ∃ c ∈ cols, convertSimpleDataType c.ty = none := by
  induction cols with
  | nil => simp [buildSchema]
  | cons c cs ih =>
    simp only [buildSchema]
    rcases Option.eq_none_or_eq_some (convertSimpleDataType c.ty) with hc | ⟨t, hc⟩
    · simp [hc]
    · simp [hc, ih]

/-- **C69 (integers).**  An integer column holds exactly the numbers of its declared type. -/
theorem C69_integers {t : SqlTy} {r : Int × Int} (h : t.range = some r) :
    ∃ a, convertSimpleDataType t = some a ∧ a.range = some r := by
  cases t <;> simp only [SqlTy.range, Option.some.injEq, reduceCtorEq] at h <;> subst h <;>
    exact ⟨_, rfl, by simp [ArrowTy.range]⟩

/-- **C69_floats_partial.**  A floating point column has at least the declared number of binary
digits, and is of the smaller format if that suffices.  Missing: `FLOAT(p)` with p > 24. -/
theorem C69_floats_partial {t : SqlTy} {n : Nat} (h : t.binaryDigits = some n)
    (hf : ∀ p, t = .float (some p) → p ≤ 24) :
    ∃ a m, convertSimpleDataType t = some a ∧ a.binaryDigits = some m ∧ n ≤ m ∧ (m = 24 ∨ 24 < n) := by
  cases t <;> simp only [SqlTy.binaryDigits, Option.some.injEq, reduceCtorEq] at h
  case float p =>
    cases p with
    | none => simp [SqlTy.binaryDigits] at h
    | some p =>
      simp only [SqlTy.binaryDigits, Option.some.injEq] at h
      subst h
      exact ⟨_, _, rfl, rfl, hf _ rfl, .inl rfl⟩
  all_goals subst h; exact ⟨_, _, rfl, rfl, by decide⟩

/-- A time stamp column has a time zone exactly if it was declared with one, and no declared
precision is ever ignored. -/
theorem C69_timestamp (p : Option Nat) (w : Tz) (a : ArrowTy) :
    convertSimpleDataType (.timestamp p w) = some a ↔
      p = none ∧ ∃ z, a = .timestampUs z ∧
        (z.isSome = true ↔ (w = .tz ∨ w = .withTimeZone)) ∧ (z = none ∨ z = some "+00:00") := by
  cases p with
  | some p => simp [convertSimpleDataType]
  | none =>
    cases w <;> simp only [convertSimpleDataType, defaultTz, Option.some.injEq, true_and, reduceCtorEq,
      or_false, false_or, or_true, if_true, if_false, or_self, iff_true, iff_false] <;> constructor
    all_goals first
      | (rintro rfl; exact ⟨_, rfl, by simp, by simp⟩)
      | (rintro ⟨z, rfl, hz, h⟩; rcases h with rfl | rfl <;> simp_all)

/-- A time column is declared without a time zone and precision; others are refused. -/
theorem C69_time (p : Option Nat) (w : Tz) (a : ArrowTy) :
    convertSimpleDataType (.time p w) = some a ↔
      p = none ∧ ¬ (w = .tz ∨ w = .withTimeZone) ∧ a = .time64Ns := by
  cases p with
  | some p => simp [convertSimpleDataType]
  | none => cases w <;> simp [convertSimpleDataType, eq_comm]

/-- The types of character strings. -/
inductive IsText : SqlTy → Prop
  | char (n : Option Nat) : IsText (.char n)
  | varchar (n : Option Nat) : IsText (.varchar n)
  | text : IsText .text
  | string (n : Option Nat) : IsText (.string n)

/-- **C69 (other types).**  Character strings, truth values, byte strings, dates and intervals are kept as such, and no
other declared type is. -/
theorem C69_others (t : SqlTy) :
    (convertSimpleDataType t = some .utf8 ↔ IsText t) ∧
    (convertSimpleDataType t = some .boolean ↔ t = .boolean ∨ t = .bool) ∧
    (convertSimpleDataType t = some .binary ↔ t = .bytea) ∧
    (convertSimpleDataType t = some .date32 ↔ t = .date) ∧
    (convertSimpleDataType t = some .intervalMonthDayNano ↔ t = .interval) := by
  have hd : ∀ p s, ∀ a, makeDecimalType p s = some a → ∃ q r, a = .decimal128 q r := by
    intro p s a h
    cases p <;> cases s <;> simp only [makeDecimalType] at h
    all_goals first
      | (cases h; done)
      | (cases h; exact ⟨_, _, rfl⟩)
      | (split at h
         · cases h
         · injection h with h; exact ⟨_, _, h.symm⟩)
  have hn : ∀ p s, makeDecimalType p s ≠ some .utf8 ∧ makeDecimalType p s ≠ some .boolean ∧
      makeDecimalType p s ≠ some .binary ∧ makeDecimalType p s ≠ some .date32 ∧
      makeDecimalType p s ≠ some .intervalMonthDayNano := by
    intro p s
    refine ⟨?_, ?_, ?_, ?_, ?_⟩ <;> intro h <;> obtain ⟨_, _, h⟩ := hd _ _ _ h <;> cases h
  have ht : IsText t ↔ (∃ n, t = .char n) ∨ (∃ n, t = .varchar n) ∨ t = .text ∨ ∃ n, t = .string n := by
    constructor
    · rintro (n | n | _ | n) <;> simp
    · rintro (⟨n, rfl⟩ | ⟨n, rfl⟩ | rfl | ⟨n, rfl⟩) <;> constructor
  rw [ht]
  cases t with
  | numeric e => cases e <;> simp [convertSimpleDataType, hn]
  | decimal e => cases e <;> simp [convertSimpleDataType, hn]
  | timestamp p z => cases p <;> simp [convertSimpleDataType]
  | time p z => cases p <;> cases z <;> simp [convertSimpleDataType]
  | _ => simp [convertSimpleDataType]

example : buildSchema [⟨⟨"Id".toList, false⟩, .int none, [.notNull]⟩,
      ⟨⟨"Name".toList, true⟩, .varchar (some 20), [.other "DEFAULT ''"]⟩]
    = some [⟨"id".toList, .int32, false⟩, ⟨"Name".toList, .utf8, true⟩] := by decide +kernel
example : (SqlTy.int (some 11)).range = some (-2 ^ 31, 2 ^ 31) := rfl

/-- **C69 is violated for floats**: `FLOAT(53)`, which asks for double precision, is stored in single
precision. -/
theorem C69_violated_float :
    (SqlTy.float (some 53)).binaryDigits = some 53 ∧
    (convertSimpleDataType (.float (some 53))).bind ArrowTy.binaryDigits = some 24 := by decide

/-- … and so is every `FLOAT(p)` with `p` above 24: the column never has the digits asked for. -/
theorem C69_violated_float_always (p : Nat) (hp : 24 < p) :
    ∃ a m, convertSimpleDataType (.float (some p)) = some a ∧ a.binaryDigits = some m ∧ m < p :=
  ⟨_, _, rfl, rfl, hp⟩

/-- **C69 is violated for other column options**: `PRIMARY KEY`, which forbids NULLs, is accepted and
has no effect, like every option other than `NOT NULL`. -/
theorem C69_violated_options (c : ColumnDef) (s : String) :
    buildSchema [{ c with options := .other s :: c.options }] = buildSchema [c] := by
  simp [buildSchema]

end Seafowl.Types
