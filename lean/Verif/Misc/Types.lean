/-
From the columns of a CREATE TABLE statement to the schema of the table.

Modelled: /repo/src/datafusion/utils.rs 15-20 (`normalize_ident`), 23-42 (`build_schema`), 47-178
(`convert_simple_data_type`), 182-209 (`make_decimal_type`).

The lengths of CHAR, VARCHAR and STRING and the display widths of the integer types are numbers, as
in the parser.  The types that are always rejected are one constructor.
-/
namespace Seafowl.Types

/-- `x as u8` for an unsigned `x`. -/
def asU8 (x : Nat) : Nat := x % 256

/-- `x as i8` for an unsigned `x`. -/
def asI8 (x : Nat) : Int := if x % 256 < 128 then ((x % 256 : Nat) : Int) else ((x % 256 : Nat) : Int) - 256

/-- `TimezoneInfo` of sqlparser. -/
inductive Tz where
  | none | withTimeZone | withoutTimeZone | tz
  deriving DecidableEq, Repr

/-- `ExactNumberInfo` of sqlparser. -/
inductive Exact where
  | none | precision (p : Nat) | both (p s : Nat)
  deriving DecidableEq, Repr

/-- The SQL types, as parsed. -/
inductive SqlTy where
  | boolean | bool
  | tinyInt (w : Option Nat) | smallInt (w : Option Nat) | int2 (w : Option Nat)
  | int (w : Option Nat) | integer (w : Option Nat) | int4 (w : Option Nat)
  | bigInt (w : Option Nat) | int8 (w : Option Nat)
  | uTinyInt (w : Option Nat) | uSmallInt (w : Option Nat) | uInt2 (w : Option Nat)
  | uInt (w : Option Nat) | uInteger (w : Option Nat) | uInt4 (w : Option Nat)
  | uBigInt (w : Option Nat) | uInt8 (w : Option Nat)
  | float (p : Option Nat) | real | float4 | double | doublePrecision | float8
  | char (n : Option Nat) | varchar (n : Option Nat) | text | string (n : Option Nat)
  | timestamp (p : Option Nat) (z : Tz)
  | date
  | time (p : Option Nat) (z : Tz)
  | numeric (e : Exact) | decimal (e : Exact)
  | bytea | interval
  | other (name : String)
  deriving DecidableEq, Repr

/-- The Arrow types a column can get. -/
inductive ArrowTy where
  | boolean
  | int8 | int16 | int32 | int64 | uint8 | uint16 | uint32 | uint64
  | float32 | float64 | utf8
  /-- microseconds; with a time zone or without -/
  | timestampUs (tz : Option String)
  | date32 | time64Ns
  | decimal128 (p : Nat) (s : Int)
  | binary | intervalMonthDayNano
  deriving DecidableEq, Repr

/-- `make_decimal_type` (utils.rs 182-209); `none` is an error.  `DECIMAL128_MAX_PRECISION` is 38,
`DECIMAL_DEFAULT_SCALE` is 10. -/
def makeDecimalType (precision scale : Option Nat) : Option ArrowTy :=
  let check (p : Nat) (s : Int) : Option ArrowTy :=
    if p = 0 ∨ p > 38 ∨ s.natAbs > p then none else some (.decimal128 p s)
  match precision, scale with
  | some p, some s => check (asU8 p) (asI8 s)
  | some p, none => check (asU8 p) 0
  | none, some _ => none
  | none, none => check 38 10

/-- `ConfigOptions::default().execution.time_zone` of DataFusion. -/
def defaultTz : Option String := some "+00:00"

/-- `convert_simple_data_type` (utils.rs 47-178); `none` is an error. -/
def convertSimpleDataType : SqlTy → Option ArrowTy
  | .boolean | .bool => some .boolean
  | .tinyInt _ => some .int8
  | .smallInt _ | .int2 _ => some .int16
  | .int _ | .integer _ | .int4 _ => some .int32
  | .bigInt _ | .int8 _ => some .int64
  | .uTinyInt _ => some .uint8
  | .uSmallInt _ | .uInt2 _ => some .uint16
  | .uInt _ | .uInteger _ | .uInt4 _ => some .uint32
  | .uBigInt _ | .uInt8 _ => some .uint64
  | .float _ => some .float32
  | .real | .float4 => some .float32
  | .double | .doublePrecision | .float8 => some .float64
  | .char _ | .varchar _ | .text | .string _ => some .utf8
  | .timestamp none z =>
    some (.timestampUs (if z = .tz ∨ z = .withTimeZone then defaultTz else none))
  | .timestamp (some _) _ => none
  | .date => some .date32
  | .time none z =>
    if z = .none ∨ z = .withoutTimeZone then some .time64Ns else none
  | .time (some _) _ => none
  | .numeric e | .decimal e =>
    match e with
    | .none => makeDecimalType none none
    | .precision p => makeDecimalType (some p) none
    | .both p s => makeDecimalType (some p) (some s)
  | .bytea => some .binary
  | .interval => some .intervalMonthDayNano
  | .other _ => none

/-- An identifier: its text and whether it is quoted. -/
structure Ident where
  value : List Char
  quoted : Bool
  deriving DecidableEq, Repr

/-- `char::to_ascii_lowercase`. -/
def lowerAscii (c : Char) : Char :=
  if 65 ≤ c.toNat ∧ c.toNat ≤ 90 then Char.ofNat (c.toNat + 32) else c

/-- `normalize_ident` (utils.rs 15-20). -/
def normalizeIdent (i : Ident) : List Char :=
  if i.quoted then i.value else i.value.map lowerAscii

/-- The options of a column that matter, and the rest. -/
inductive ColOpt where
  | null | notNull | other (text : String)
  deriving DecidableEq, Repr

/-- `ColumnDef` of sqlparser (an option's name and the collation are not used). -/
structure ColumnDef where
  name : Ident
  ty : SqlTy
  options : List ColOpt
  deriving DecidableEq, Repr

/-- A field of an Arrow schema. -/
structure Field where
  name : List Char
  ty : ArrowTy
  nullable : Bool
  deriving DecidableEq, Repr

/-- `build_schema` (utils.rs 23-42): the first column with a rejected type fails the statement. -/
def buildSchema : List ColumnDef → Option (List Field)
  | [] => some []
  | c :: cs =>
    match convertSimpleDataType c.ty with
    | none => none
    | some t =>
      let allowNull := !(c.options.any (fun o => decide (o = .notNull)))
      (buildSchema cs).map (fun fs => ⟨normalizeIdent c.name, t, allowNull⟩ :: fs)

end Seafowl.Types
