/-
# Model of the parser of CREATE EXTERNAL TABLE

Modelled: /repo/src/datafusion/parser.rs 53-55 (`parse_file_type`), 57-64 (`ensure_not_set`), 345-368
(`parse_option_key`), 376-388 (`parse_option_value`), 455-482 (`parse_partitions`), 485-495
(`parse_order_by_exprs`), 498-526 (`parse_order_by_expr`), 529-565 (`parse_columns`), 567-599 (`parse_column_def`),
601-736 (`parse_create_external_table`), 739-745 (`parse_file_format`), 747-767 (`parse_value_options`).

The sqlparser crate is a parameter (`Lib`): object names, expressions, what follows the name in a column definition
(data type, collation, column options) and table constraints are read by given functions from the remaining
tokens to a result and the number of tokens consumed beyond the first.  Errors are `none`, without their texts.
-/
namespace Seafowl.SqlExt

/-- The keywords that matter; `other` stands for all the others. -/
inductive Kw where
  | temp | temporary | table | if_ | not_ | exists_ | stored | as | location | with_ | order | header | row
  | delimiter | compression | type | partitioned | by_ | options | asc | desc | nulls | first | last
  | other (n : Nat)
  deriving DecidableEq, Repr

/-- Tokens.  A `Token::Word` is a keyword with its text, or a name which may be quoted (quoted words are never
keywords).  `str` stands for the three kinds of string literals, which are read alike. -/
inductive Tok where
  | kw (k : Kw) (text : String)
  | ident (v : String) (quoted : Bool)
  | str (s : String)
  | num (s : String)
  | comma | lparen | rparen | period | semi
  | other (n : Nat)
  deriving DecidableEq, Repr

/-- An identifier of the crate: text and whether it was quoted. -/
structure Ident where
  value : String
  quoted : Bool
  deriving DecidableEq, Repr

/-- A column definition: its name and the rest (type, collation, options). -/
structure ColDef where
  name : Ident
  rest : Nat
  deriving DecidableEq, Repr

/-- `Value` of an option. -/
inductive Val where
  | text (s : String)
  | number (s : String)
  deriving DecidableEq, Repr

/-- `OrderByExpr`. -/
structure OrderExpr where
  expr : Nat
  asc : Option Bool
  nullsFirst : Option Bool
  deriving DecidableEq, Repr

/-- The library: the crate's parsers, `Display` of a quoted identifier, `to_uppercase`. -/
structure Lib where
  objectName : List Tok → Option (List Ident × Nat)
  expr : List Tok → Option (Nat × Nat)
  colRest : List Tok → Option (Nat × Nat)
  /-- `none`: error, `some none`: no constraint here -/
  constraint : List Tok → Option (Option (Nat × Nat))
  /-- `parse_literal_string` -/
  literal : Tok → Option String
  showQuoted : String → String
  upper : String → String

/-- Runs a parser of the crate; it fails at the end of the input and consumes at least a token. -/
def run (p : List Tok → Option (α × Nat)) (toks : List Tok) : Option (α × List Tok) :=
  match toks with
  | [] => none
  | _ :: _ => (p toks).map fun r => (r.1, toks.drop (r.2 + 1))

/-- `parse_identifier` on a word. -/
def word : Tok → Option Ident
  | .kw _ t => some ⟨t, false⟩
  | .ident v q => some ⟨v, q⟩
  | _ => none

/-- `Ident::to_string`. -/
def showIdent (L : Lib) (i : Ident) : String := if i.quoted then L.showQuoted i.value else i.value

/-- The loop of `parse_partitions`, `parse_columns` and `parse_value_options` (464-480, 540-562, 751-765): items
separated by commas up to the closing parenthesis, a comma before it being allowed. -/
def commaList (item : List Tok → Option (α × List Tok)) : Nat → List Tok → Option (List α × List Tok)
  | 0, _ => none
  | f + 1, toks =>
    match item toks with
    | none => none
    | some (x, .comma :: .rparen :: r) => some ([x], r)
    | some (x, .rparen :: r) => some ([x], r)
    | some (x, .comma :: r) => (commaList item f r).map fun p => (x :: p.1, p.2)
    | some _ => none

/-- A list that may be missing or empty (`parse_partitions` 457-461, `parse_columns` 534-538). -/
def optList (item : List Tok → Option (α × List Tok)) (toks : List Tok) : Option (List α × List Tok) :=
  match toks with
  | .lparen :: .rparen :: r => some ([], r)
  | .lparen :: r => commaList item (r.length + 1) r
  | _ => some ([], toks)

/-- A partition name (465-467). -/
def partName (L : Lib) (toks : List Tok) : Option (String × List Tok) :=
  match toks with
  | [] => none
  | t :: r => (word t).map fun i => (showIdent L i, r)

/-- `parse_column_def` (567-599). -/
def columnDef (L : Lib) (toks : List Tok) : Option (ColDef × List Tok) :=
  match toks with
  | [] => none
  | t :: r =>
    match word t with
    | none => none
    | some i => (run L.colRest r).map fun p => (⟨i, p.1⟩, p.2)

/-- A column or a table constraint (541-551). -/
inductive Elem where
  | col (c : ColDef)
  | constraint (c : Nat)
  deriving DecidableEq, Repr

/-- One round of the loop of `parse_columns`. -/
def element (L : Lib) (toks : List Tok) : Option (Elem × List Tok) :=
  match L.constraint toks with
  | none => none
  | some (some (c, k)) => if toks = [] then none else some (.constraint c, toks.drop (k + 1))
  | some none => (columnDef L toks).map fun p => (.col p.1, p.2)

/-- The columns of a list. -/
def colsOf : List Elem → List ColDef
  | [] => []
  | .col c :: es => c :: colsOf es
  | .constraint _ :: es => colsOf es

/-- The constraints of a list. -/
def consOf : List Elem → List Nat
  | [] => []
  | .col _ :: es => consOf es
  | .constraint c :: es => c :: consOf es

/-- ASC, DESC or nothing (502-508). -/
def parseDir : List Tok → Option Bool × List Tok
  | .kw .asc _ :: r => (some true, r)
  | .kw .desc _ :: r => (some false, r)
  | toks => (none, toks)

/-- NULLS FIRST, NULLS LAST or nothing (510-519). -/
def parseNulls : List Tok → Option Bool × List Tok
  | .kw .nulls _ :: .kw .first _ :: r => (some true, r)
  | .kw .nulls _ :: .kw .last _ :: r => (some false, r)
  | toks => (none, toks)

/-- `parse_order_by_expr`. -/
def orderExpr (L : Lib) (toks : List Tok) : Option (OrderExpr × List Tok) :=
  match run L.expr toks with
  | none => none
  | some (e, r) => some (⟨e, (parseDir r).1, (parseNulls (parseDir r).2).1⟩, (parseNulls (parseDir r).2).2)

/-- The loop of `parse_order_by_exprs`: here a comma before the closing parenthesis is not allowed. -/
def orderList (L : Lib) : Nat → List Tok → Option (List OrderExpr × List Tok)
  | 0, _ => none
  | f + 1, toks =>
    match orderExpr L toks with
    | some (x, .comma :: r) => (orderList L f r).map fun p => (x :: p.1, p.2)
    | some (x, .rparen :: r) => some ([x], r)
    | _ => none

/-- `(.word)*` of `parse_option_key` (350-360). -/
def keyParts : List Tok → Option (List String × List Tok)
  | .period :: .kw _ t :: r => (keyParts r).map fun p => (t :: p.1, p.2)
  | .period :: .ident v _ :: r => (keyParts r).map fun p => (v :: p.1, p.2)
  | .period :: _ => none
  | toks => some ([], toks)

/-- `parse_option_key`. -/
def optionKey : List Tok → Option (String × List Tok)
  | .kw _ t :: r => (keyParts r).map fun p => (".".intercalate (t :: p.1), p.2)
  | .ident v _ :: r => (keyParts r).map fun p => (".".intercalate (v :: p.1), p.2)
  | .str s :: r => some (s, r)
  | _ => none

/-- `parse_option_value`. -/
def optionValue : List Tok → Option (Val × List Tok)
  | .kw _ t :: r => some (.text t, r)
  | .ident v _ :: r => some (.text v, r)
  | .str s :: r => some (.text s, r)
  | .num s :: r => some (.number s, r)
  | _ => none

/-- A key and a value (752-754). -/
def optionPair (toks : List Tok) : Option ((String × Val) × List Tok) :=
  match optionKey toks with
  | none => none
  | some (k, r) => (optionValue r).map fun p => ((k, p.1), p.2)

/-- A clause as read. -/
inductive Clause where
  | stored (format : String)
  | location (s : String)
  | order (es : List OrderExpr)
  | parts (names : List String) (cols : List ColDef)
  | options (kvs : List (String × Val))
  deriving DecidableEq, Repr

/-- STORED AS (637-641, 739-745). -/
def storedClause (L : Lib) : List Tok → Option (Clause × List Tok)
  | .kw .as _ :: t :: r => (word t).map fun i => (.stored (L.upper i.value), r)
  | _ => none

/-- LOCATION (642-645). -/
def locationClause (L : Lib) : List Tok → Option (Clause × List Tok)
  | t :: r => (L.literal t).map fun s => (.location s, r)
  | [] => none

/-- WITH ORDER; WITH HEADER ROW is an error (646-654). -/
def withClause (L : Lib) : List Tok → Option (Clause × List Tok)
  | .kw .order _ :: .lparen :: r => (orderList L (r.length + 1) r).map fun p => (.order p.1, p.2)
  | _ => none

/-- PARTITIONED BY (662-689): the third token decides between names and definitions. -/
def partitionedClause (L : Lib) : List Tok → Option (Clause × List Tok)
  | .kw .by_ _ :: toks =>
    if toks[2]? = some .comma ∨ toks[2]? = some .rparen then
      (optList (partName L) toks).map fun p => (.parts p.1 [], p.2)
    else
      match optList (element L) toks with
      | none => none
      | some (es, r) =>
        if consOf es = [] then some (.parts ((colsOf es).map fun c => showIdent L c.name) (colsOf es), r) else none
  | _ => none

/-- OPTIONS (690-693, 747-767). -/
def optionsClause : List Tok → Option (Clause × List Tok)
  | .lparen :: r => (commaList optionPair (r.length + 1) r).map fun p => (.options p.1, p.2)
  | _ => none

/-- One clause by its keyword; DELIMITER and COMPRESSION are errors (655-661). -/
def clause (L : Lib) : List Tok → Option (Clause × List Tok)
  | .kw .stored _ :: r => storedClause L r
  | .kw .location _ :: r => locationClause L r
  | .kw .with_ _ :: r => withClause L r
  | .kw .partitioned _ :: r => partitionedClause L r
  | .kw .options _ :: r => optionsClause r
  | _ => none

/-- The `Builder` (616-624) and the columns, which PARTITIONED BY extends (680). -/
structure Builder where
  fileType : Option String := none
  location : Option String := none
  partCols : Option (List String) := none
  order : List (List OrderExpr) := []
  options : Option (List (String × Val)) := none
  columns : List ColDef := []
  deriving DecidableEq, Repr

/-- Entering a clause; `none` if it was given before (`ensure_not_set`; WITH ORDER may be repeated).  In the code the
check comes before the clause is read; both are errors. -/
def Builder.enter (b : Builder) : Clause → Option Builder
  | .stored f => if b.fileType.isSome then none else some { b with fileType := some f }
  | .location s => if b.location.isSome then none else some { b with location := some s }
  | .order es => some { b with order := b.order ++ [es] }
  | .parts ns cs => if b.partCols.isSome then none else some { b with partCols := some ns, columns := b.columns ++ cs }
  | .options kvs => if b.options.isSome then none else some { b with options := some kvs }

/-- The clause loop (626-708); the semicolon at the end stays. -/
def clauseLoop (L : Lib) : Nat → Builder → List Tok → Option (Builder × List Tok)
  | 0, _, _ => none
  | f + 1, b, toks =>
    match toks with
    | [] => some (b, [])
    | .semi :: r => some (b, .semi :: r)
    | t :: ts =>
      match clause L (t :: ts) with
      | none => none
      | some (c, r) =>
        match b.enter c with
        | none => none
        | some b' => clauseLoop L f b' r

/-- `CreateExternalTable`. -/
structure Stmt where
  name : List Ident
  columns : List ColDef
  fileType : String
  location : String
  partCols : List String
  order : List (List OrderExpr)
  ifNotExists : Bool
  temporary : Bool
  unbounded : Bool
  options : List (String × Val)
  constraints : List Nat
  deriving DecidableEq, Repr

/-- TEMP or TEMPORARY (605-608). -/
def parseTemp : List Tok → Bool × List Tok
  | .kw .temp _ :: r => (true, r)
  | .kw .temporary _ :: r => (true, r)
  | toks => (false, toks)

/-- IF NOT EXISTS (610-612). -/
def parseIfNotExists : List Tok → Bool × List Tok
  | .kw .if_ _ :: .kw .not_ _ :: .kw .exists_ _ :: r => (true, r)
  | toks => (false, toks)

/-- The validations and the result (710-735). -/
def finish (name : List Ident) (ine temp unb : Bool) (constraints : List Nat) (b : Builder) : Option Stmt :=
  match b.fileType, b.location with
  | some f, some l => some
      { name := name, columns := b.columns, fileType := f, location := l, partCols := b.partCols.getD [],
        order := b.order, ifNotExists := ine, temporary := temp, unbounded := unb,
        options := b.options.getD [], constraints := constraints }
  | _, _ => none

/-- `parse_create_external_table` (after CREATE [UNBOUNDED] EXTERNAL). -/
def parseExternal (L : Lib) (unbounded : Bool) (toks : List Tok) : Option (Stmt × List Tok) :=
  match (parseTemp toks).2 with
  | .kw .table _ :: r1 =>
    match run L.objectName (parseIfNotExists r1).2 with
    | none => none
    | some (name, r2) =>
      match optList (element L) r2 with
      | none => none
      | some (es, r3) =>
        match clauseLoop L (r3.length + 1) { columns := colsOf es } r3 with
        | none => none
        | some (b, r4) =>
          (finish name (parseIfNotExists r1).1 (parseTemp toks).1 unbounded (consOf es) b).map fun s => (s, r4)
  | _ => none

end Seafowl.SqlExt
