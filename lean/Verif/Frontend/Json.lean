import Verif.Store.Http

/-!
# Text of HTTP answers

Modelled: /repo/src/frontend/http.rs 108-121 (`content_type_with_schema`), 128-139 (`batch_to_json`), 141-155
(`plan_to_response`).  Library code modelled here: the line delimited JSON writer of arrow-json 53.3 (`Writer::write`,
the encoders of structs, lists, strings, numbers and Booleans), the string escapes of serde_json, the serialisation of
Arrow schemas and the texts of `ArrowError`.  Simplified: numbers with a fraction are the literal the library prints,
dates, times and intervals are the text the library prints; maps, dictionaries and binary data are left out.
-/

namespace Seafowl.HttpJson

/-- Text as a list of characters. -/
abbrev Text := List Char

/-- A value of a column. -/
inductive V where
  | null
  | bool (b : Bool)
  | int (i : Int)
  /-- a floating point number, with the literal the library prints for it; `none` for NaN and the infinities -/
  | float (lit : Option Text)
  | decimal (lit : Text)
  /-- strings; also dates, times and intervals, which are printed as strings -/
  | text (s : Text)
  | list (vs : List V)
  | struct (fs : List (Text × V))

/-! ### Encoders (library) -/

/-- Decimal digit. -/
def digit (n : Nat) : Char := Char.ofNat (48 + n % 10)

/-- Decimal digits of a number. -/
def digits (n : Nat) : Text := if n < 10 then [digit n] else digits (n / 10) ++ [digit n]
termination_by n
decreasing_by omega

/-- An integer. -/
def intText (i : Int) : Text := if i < 0 then '-' :: digits i.natAbs else digits i.natAbs

/-- Lower case hexadecimal digit. -/
def hexLow (n : Nat) : Char := if n < 10 then Char.ofNat (48 + n) else Char.ofNat (87 + n)

/-- One character of a string (serde_json `format_escaped_str`). -/
def escChar (c : Char) : Text :=
  if c = '"' then ['\\', '"']
  else if c = '\\' then ['\\', '\\']
  else if c.toNat = 8 then ['\\', 'b']
  else if c.toNat = 9 then ['\\', 't']
  else if c.toNat = 10 then ['\\', 'n']
  else if c.toNat = 12 then ['\\', 'f']
  else if c.toNat = 13 then ['\\', 'r']
  else if c.toNat < 32 then ['\\', 'u', '0', '0', hexLow (c.toNat / 16), hexLow (c.toNat % 16)]
  else [c]

/-- A string. -/
def strText (s : Text) : Text := '"' :: (s.flatMap escChar ++ ['"'])

mutual
/-- The encoder of a value (`make_encoder`).  Numbers that are not finite are written as null. -/
def enc : V → Text
  | .null => ['n', 'u', 'l', 'l']
  | .bool b => if b then ['t', 'r', 'u', 'e'] else ['f', 'a', 'l', 's', 'e']
  | .int i => intText i
  | .float (some l) => l
  | .float none => ['n', 'u', 'l', 'l']
  | .decimal l => l
  | .text s => strText s
  | .list vs => '[' :: (encList vs ++ [']'])
  | .struct fs => '{' :: (encFields fs ++ ['}'])

/-- The elements of a list. -/
def encList : List V → Text
  | [] => []
  | v :: vs => enc v ++ encListMore vs

/-- The elements after the first. -/
def encListMore : List V → Text
  | [] => []
  | v :: vs => ',' :: (enc v ++ encListMore vs)

/-- The fields of a struct. -/
def encFields : List (Text × V) → Text
  | [] => []
  | (k, v) :: fs => strText k ++ ':' :: (enc v ++ encFieldsMore fs)

/-- The fields after the first. -/
def encFieldsMore : List (Text × V) → Text
  | [] => []
  | (k, v) :: fs => ',' :: (strText k ++ ':' :: (enc v ++ encFieldsMore fs))
end

/-! ### Answers -/

/-- The kinds of `ArrowError`. -/
inductive Kind where
  | notYetImplemented | external | cast | memory | parse | schema | compute | divideByZero | overflow | csv | json | io
  | ipc | argument | parquet | cData | dictionaryKey | runEnd
deriving DecidableEq, Repr

/-- The text in front of the message (`Display` of `ArrowError`). -/
def Kind.label : Kind → String
  | .notYetImplemented => "Not yet implemented: "
  | .external => "External error: "
  | .cast => "Cast error: "
  | .memory => "Memory error: "
  | .parse => "Parser error: "
  | .schema => "Schema error: "
  | .compute => "Compute error: "
  | .divideByZero => "Divide by zero error"
  | .overflow => "Arithmetic overflow: "
  | .csv => "Csv error: "
  | .json => "Json error: "
  | .io => "Io error: "
  | .ipc => "Ipc error: "
  | .argument => "Invalid argument error: "
  | .parquet => "Parquet argument error: "
  | .cData => "C Data interface error: "
  | .dictionaryKey => "Dictionary key bigger than the key type"
  | .runEnd => "Run end encoded array index overflow error"

/-- An `ArrowError`. -/
structure ArrowErr where
  kind : Kind
  message : Text
deriving DecidableEq, Repr

/-- `to_string`. -/
def ArrowErr.display (e : ArrowErr) : Text := e.kind.label.toList ++ e.message

/-- A record batch: the names of its columns, whether there is an encoder for each column, its rows. -/
structure Batch where
  names : List Text
  supported : Bool
  rows : List (List V)

/-- One row as fields.  `with_explicit_nulls(true)` keeps the fields that are null. -/
def rowFields (names : List Text) (row : List V) : List (Text × V) := names.zip row

/-- One line of the answer. -/
def rowText (names : List Text) (row : List V) : Text := enc (.struct (rowFields names row))

/-- `batch_to_json` (http.rs 128-139); an empty batch is not looked at by the writer. -/
def batchToJson : Except ArrowErr Batch → Except ArrowErr Text
  | .error e => .error e
  | .ok b =>
    if b.rows.isEmpty then .ok []
    else if b.supported then .ok (b.rows.flatMap (fun r => rowText b.names r ++ ['\n']))
    else .error ⟨.json, "Unsupported data type for JSON encoding".toList⟩

/-- One chunk of the body (http.rs 146-153): an error becomes text. -/
def chunk (b : Except ArrowErr Batch) : Text :=
  match batchToJson b with
  | .ok t => t
  | .error e => e.display

/-- `plan_to_response` (http.rs 141-155): the body for a stream of batches. -/
def body (stream : List (Except ArrowErr Batch)) : Text := stream.flatMap chunk

/-! ### The schema in the header -/

/-- Arrow types as serde writes them: variants without, with one and with several arguments. -/
inductive DT where
  | unit (name : Text)
  | one (name : Text) (arg : V)
  | tuple (name : Text) (args : List V)

/-- Serialisation of a type. -/
def DT.json : DT → V
  | .unit n => .text n
  | .one n v => .struct [(n, v)]
  | .tuple n vs => .struct [(n, .list vs)]

/-- A field of a schema. -/
structure Field where
  name : Text
  type : DT
  nullable : Bool
  dictId : Int := 0
  ordered : Bool := false
  metadata : List (Text × Text) := []

/-- String maps. -/
def metaJson (m : List (Text × Text)) : V := .struct (m.map (fun e => (e.1, .text e.2)))

/-- Serialisation of a field. -/
def Field.json (f : Field) : V :=
  .struct [("name".toList, .text f.name), ("data_type".toList, f.type.json), ("nullable".toList, .bool f.nullable),
    ("dict_id".toList, .int f.dictId), ("dict_is_ordered".toList, .bool f.ordered), ("metadata".toList, metaJson f.metadata)]

/-- Serialisation of a schema. -/
def schemaJson (fs : List Field) (metadata : List (Text × Text)) : V :=
  .struct [("fields".toList, .list (fs.map Field.json)), ("metadata".toList, metaJson metadata)]

/-- UTF-8. -/
def utf8 (t : Text) : List Nat := (String.ofList t).toByteArray.data.toList.map UInt8.toNat

/-- `HeaderValue::from_str` (library): visible ASCII characters, spaces and tabs (bytes above 127 would pass as
well). -/
def headerOk (bs : List Nat) : Bool := bs.all (fun b => (32 ≤ b && b != 127) || b == 9)

/-- `content_type_with_schema` (http.rs 108-121). -/
def contentType (fs : List Field) (metadata : List (Text × Text)) : List Nat :=
  let output := Store.Http.percentEncode (utf8 (enc (schemaJson fs metadata)))
  let value := Store.Http.ascii "application/json; arrow-schema=" ++ output
  if headerOk value then value else Store.Http.ascii "application/json"

end Seafowl.HttpJson
