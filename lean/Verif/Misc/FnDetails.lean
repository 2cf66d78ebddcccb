/-!
# Model of how function definitions are written, stored and read back

/repo/src/wasm_udf/data_types.rs 38-150 (types and their serde/strum derives, the SQL-side deserialisers),
/repo/src/repository/default.rs 407-451 (`create_function`: one text column per field),
/repo/src/catalog/metastore.rs 273-300 (`parse_create_function_details`), /repo/src/wasm_udf/wasm.rs 39-66
(`sql_type_to_arrow_type`).

JSON is modelled as values; that `serde_json` text round-trips for them, and that numbers of `u8`/`i8` are in
range, is assumed.  Code and entry point are opaque strings.
-/

namespace Seafowl.FnDetails

/-- `CreateFunctionDataType` (data_types.rs 44-66). -/
inductive DType where
  | I32 | I64 | F32 | F64 | SMALLINT | INT | BIGINT | CHAR | VARCHAR | TEXT
  | DECIMAL (precision : Nat) (scale : Int)
  | FLOAT | REAL | DOUBLE | BOOLEAN | DATE | TIMESTAMP
deriving DecidableEq, Repr

/-- `CreateFunctionVolatility` (69-78). -/
inductive Vol where
  | Immutable | Stable | Volatile
deriving DecidableEq, Repr

/-- `CreateFunctionLanguage` (80-87). -/
inductive Lang where
  | Wasm | WasmMessagePack
deriving DecidableEq, Repr

/-- `CreateFunctionDetails` (137-150). -/
structure Details where
  entrypoint : String
  language : Lang
  input : List DType
  ret : DType
  data : String
  volatility : Vol
deriving DecidableEq, Repr

/-- JSON. -/
inductive J where
  | null
  | str (s : String)
  | num (n : Int)
  | arr (l : List J)
  | obj (l : List (String × J))

/-- strum `Display`: the variant's name. -/
def DType.display : DType → String
  | .I32 => "I32" | .I64 => "I64" | .F32 => "F32" | .F64 => "F64" | .SMALLINT => "SMALLINT" | .INT => "INT"
  | .BIGINT => "BIGINT" | .CHAR => "CHAR" | .VARCHAR => "VARCHAR" | .TEXT => "TEXT" | .DECIMAL _ _ => "DECIMAL"
  | .FLOAT => "FLOAT" | .REAL => "REAL" | .DOUBLE => "DOUBLE" | .BOOLEAN => "BOOLEAN" | .DATE => "DATE"
  | .TIMESTAMP => "TIMESTAMP"

/-- strum `EnumString`: exact names; the fields of a struct variant take their default. -/
def DType.fromStr (s : String) : Option DType :=
  if s = "I32" then some .I32 else if s = "I64" then some .I64 else if s = "F32" then some .F32
  else if s = "F64" then some .F64 else if s = "SMALLINT" then some .SMALLINT else if s = "INT" then some .INT
  else if s = "BIGINT" then some .BIGINT else if s = "CHAR" then some .CHAR else if s = "VARCHAR" then some .VARCHAR
  else if s = "TEXT" then some .TEXT else if s = "DECIMAL" then some (.DECIMAL 0 0) else if s = "FLOAT" then some .FLOAT
  else if s = "REAL" then some .REAL else if s = "DOUBLE" then some .DOUBLE else if s = "BOOLEAN" then some .BOOLEAN
  else if s = "DATE" then some .DATE else if s = "TIMESTAMP" then some .TIMESTAMP else none

/-- `str::to_ascii_uppercase`. -/
def upper (s : String) : String := String.ofList (s.toList.map Char.toUpper)

/-- `parse_create_function_data_type` (89-93). -/
def parseType (s : String) : Option DType := DType.fromStr (upper s)

/-- serde names: `rename_all = "lowercase"`. -/
def DType.low : DType → String
  | .I32 => "i32" | .I64 => "i64" | .F32 => "f32" | .F64 => "f64" | .SMALLINT => "smallint" | .INT => "int"
  | .BIGINT => "bigint" | .CHAR => "char" | .VARCHAR => "varchar" | .TEXT => "text" | .DECIMAL _ _ => "decimal"
  | .FLOAT => "float" | .REAL => "real" | .DOUBLE => "double" | .BOOLEAN => "boolean" | .DATE => "date"
  | .TIMESTAMP => "timestamp"

/-- Derived `Serialize`. -/
def DType.toJson : DType → J
  | .DECIMAL p s => .obj [("decimal", .obj [("precision", .num p), ("scale", .num s)])]
  | t => .str t.low

/-- Unit variants by their serde name. -/
def unitOf (s : String) : Option DType :=
  if s = "i32" then some .I32 else if s = "i64" then some .I64 else if s = "f32" then some .F32
  else if s = "f64" then some .F64 else if s = "smallint" then some .SMALLINT else if s = "int" then some .INT
  else if s = "bigint" then some .BIGINT else if s = "char" then some .CHAR else if s = "varchar" then some .VARCHAR
  else if s = "text" then some .TEXT else if s = "float" then some .FLOAT
  else if s = "real" then some .REAL else if s = "double" then some .DOUBLE else if s = "boolean" then some .BOOLEAN
  else if s = "date" then some .DATE else if s = "timestamp" then some .TIMESTAMP else none

/-- Derived `Deserialize` (for stored values; other spellings serde accepts are not modelled). -/
def DType.ofJson : J → Option DType
  | .str s => unitOf s
  | .obj [("decimal", .obj [("precision", .num p), ("scale", .num s)])] =>
    if 0 ≤ p ∧ p < 256 ∧ -128 ≤ s ∧ s < 128 then some (.DECIMAL p.toNat s) else none
  | _ => none

/-- strum `Display`/`EnumString` of the language. -/
def Lang.display : Lang → String
  | .Wasm => "Wasm" | .WasmMessagePack => "WasmMessagePack"

def Lang.fromStr (s : String) : Option Lang :=
  if s = "Wasm" then some .Wasm else if s = "WasmMessagePack" then some .WasmMessagePack else none

/-- strum `Display`/`EnumString` of the volatility. -/
def Vol.display : Vol → String
  | .Immutable => "Immutable" | .Stable => "Stable" | .Volatile => "Volatile"

def Vol.fromStr (s : String) : Option Vol :=
  if s = "Immutable" then some .Immutable else if s = "Stable" then some .Stable
  else if s = "Volatile" then some .Volatile else none

/-- The columns of table `function` (default.rs 414-447); `input_types` holds JSON text. -/
structure Row where
  entrypoint : String
  language : String
  input : J
  ret : String
  data : String
  volatility : String

/-- `create_function` (default.rs 414, 436-443). -/
def store (d : Details) : Row :=
  { entrypoint := d.entrypoint, language := d.language.display, input := .arr (d.input.map DType.toJson)
    ret := d.ret.display, data := d.data, volatility := d.volatility.display }

/-- `serde_json::from_str::<Vec<CreateFunctionDataType>>`. -/
def parseInput : J → Option (List DType)
  | .arr l => l.mapM DType.ofJson
  | _ => none

/-- `parse_create_function_details` (metastore.rs 273-300). -/
def load (r : Row) : Option Details := do
  let language ← Lang.fromStr r.language
  let input ← parseInput r.input
  let ret ← DType.fromStr (upper r.ret)
  let volatility ← Vol.fromStr r.volatility
  return { entrypoint := r.entrypoint, language, input, ret, data := r.data, volatility }

/-! ### the SQL side -/

/-- A field of an object; serde rejects duplicates, `field` returns `none` (missing) or `some none` (duplicate). -/
def field (l : List (String × J)) (k : String) : Option (Option J) :=
  match l.filter (·.1 == k) with
  | [] => none
  | [x] => some (some x.2)
  | _ => some none

/-- Required string. -/
def reqStr (l : List (String × J)) (k : String) : Option String :=
  match field l k with
  | some (some (.str s)) => some s
  | _ => none

/-- `deserialize_datatype_vec` (95-120): strings only. -/
def sqlType : J → Option DType
  | .str s => parseType s
  | _ => none

/-- serde names of language and volatility: `rename_all = "camelCase"`, defaulted when missing. -/
def sqlLang (l : List (String × J)) : Option Lang :=
  match field l "language" with
  | none => some .WasmMessagePack
  | some (some (.str s)) => if s = "wasm" then some .Wasm else if s = "wasmMessagePack" then some .WasmMessagePack else none
  | _ => none

def sqlVol (l : List (String × J)) : Option Vol :=
  match field l "volatility" with
  | none => some .Volatile
  | some (some (.str s)) =>
    if s = "immutable" then some .Immutable else if s = "stable" then some .Stable
    else if s = "volatile" then some .Volatile else none
  | _ => none

/-- `serde_json::from_str::<CreateFunctionDetails>` of the text after AS (logical.rs 235-238). -/
def parseSql : J → Option Details
  | .obj l => do
    let entrypoint ← reqStr l "entrypoint"
    let language ← sqlLang l
    let input ← (match field l "input_types" with
      | some (some (.arr ts)) => ts.mapM sqlType
      | _ => none)
    let ret ← (match field l "return_type" with
      | some (some (.str s)) => parseType s
      | _ => none)
    let data ← reqStr l "data"
    let volatility ← sqlVol l
    return { entrypoint, language, input, ret, data, volatility }
  | _ => none

end Seafowl.FnDetails
