/-
Splitting a script into statements, and the statements Seafowl parses itself.

Modelled: /repo/src/datafusion/parser.rs 110-135 (`parse_sql_with_dialect`), 147-182
(`parse_statement`), 185-202 (`parse_convert`), 204-232 (`parse_vacuum`), 234-253
(`parse_truncate`), 256-337 (`parse_copy`), 391-409 (`parse_create`), 412-444
(`parse_create_function`), and the planning of the smuggled statements in
/repo/src/context/logical.rs 262-296.

The sqlparser crate is a parameter: its parsers are given as functions from the remaining tokens to
a result and the number of tokens consumed beyond the first.  They fail at the end of the input.
Text inside a token (strings, comments, quoted names) is the tokenizer's business.
-/
namespace Seafowl.Sql

inductive Kw where
  | create | convert | copy | vacuum | truncate | table | database | to | delta | stored | as
  | partitioned | by | options | with | or | replace | external | unbounded | function
  | otherKw (n : Nat)
  deriving DecidableEq, Repr

inductive Tok where
  | semi
  | lparen
  | rparen
  | kw (k : Kw)
  | ident (s : String)
  | str (s : String)
  | other (n : Nat)
  deriving DecidableEq, Repr

abbrev Name := List String

/-- The sqlparser crate. -/
structure Native where
  statement : List Tok → Option (Nat × Nat)
  create : List Tok → Option (Nat × Nat)
  query : List Tok → Option (Nat × Nat)
  objectName : List Tok → Option (Name × Nat)
  fileFormat : List Tok → Option (Nat × Nat)
  partitions : List Tok → Option (Nat × Nat)
  options : List Tok → Option (Nat × Nat)
  externalTable : List Tok → Option (Nat × Nat)

/-- Runs a parser of the crate; it fails at the end of the input and consumes at least a token. -/
def run (p : List Tok → Option (α × Nat)) (toks : List Tok) : Option (α × List Tok) :=
  match toks with
  | [] => none
  | _ :: _ => (p toks).map fun r => (r.1, toks.drop (r.2 + 1))

inductive CopySource where
  | query (q : Nat)
  | relation (n : Name)
  deriving DecidableEq, Repr

inductive Stmt where
  /-- anything the crate parses -/
  | native (n : Nat)
  /-- what the crate's `parse_create` yields -/
  | nativeCreate (n : Nat)
  | createExternal (unbounded : Bool) (n : Nat)
  | createFunction (orReplace : Bool) (name : Name) (body : String)
  | convert (location : String) (name : Name)
  | copyTo (source : CopySource) (target : String) (partitionedBy storedAs options : Option Nat)
  /-- `SQLStatement::Truncate`, used for TRUNCATE and, smuggled, for VACUUM -/
  | truncate (name : Name) (partitions : Option String) (table : Bool)
  deriving DecidableEq, Repr

/-- `parse_convert`. -/
def parseConvert (N : Native) (toks : List Tok) : Option (Stmt × List Tok) :=
  match toks with
  | .str loc :: .kw .to :: .kw .delta :: rest =>
    (run N.objectName rest).map fun r => (.convert loc r.1, r.2)
  | _ => none

/-- `parse_vacuum`: the target of the collection travels in a `Truncate` node. -/
def parseVacuum (N : Native) (toks : List Tok) : Option (Stmt × List Tok) :=
  match toks with
  | .kw .table :: rest => (run N.objectName rest).map fun r => (.truncate r.1 none false, r.2)
  | .kw .database :: rest =>
    match run N.objectName rest with
    | some (d :: _, rest') => some (.truncate [] (some d) false, rest')
    | _ => none
  | _ => none

/-- `parse_truncate`. -/
def parseTruncate (N : Native) (toks : List Tok) : Option (Stmt × List Tok) :=
  match toks with
  | .kw .table :: rest => (run N.objectName rest).map fun r => (.truncate r.1 none true, r.2)
  | _ => none

/-- The `Builder` of `parse_copy`. -/
structure CopyB where
  storedAs : Option Nat := none
  target : Option String := none
  partitionedBy : Option Nat := none
  options : Option Nat := none
  deriving DecidableEq, Repr

/-- The clause loop of `parse_copy` (279-321).  The token that ends it — the end of the input or a
semicolon — is consumed. -/
def copyLoop (N : Native) : Nat → CopyB → List Tok → Option (CopyB × List Tok)
  | 0, _, _ => none
  | f + 1, b, toks =>
    match toks with
    | .kw .stored :: .kw .as :: rest =>
      if b.storedAs.isSome then none
      else match run N.fileFormat rest with
        | none => none
        | some (x, rest') => copyLoop N f { b with storedAs := some x } rest'
    | .kw .to :: .str s :: rest =>
      if b.target.isSome then none else copyLoop N f { b with target := some s } rest
    | .kw .partitioned :: .kw .by :: rest =>
      if b.partitionedBy.isSome then none
      else match run N.partitions rest with
        | none => none
        | some (x, rest') => copyLoop N f { b with partitionedBy := some x } rest'
    | .kw .options :: rest =>
      if b.options.isSome then none
      else match run N.options rest with
        | none => none
        | some (x, rest') => copyLoop N f { b with options := some x } rest'
    | [] => some (b, [])
    | .semi :: rest => some (b, rest)
    | _ => none

/-- The source of a COPY. -/
def copySource (N : Native) (toks : List Tok) : Option (CopySource × List Tok) :=
  match toks with
  | .lparen :: rest =>
    match run N.query rest with
    | some (q, .rparen :: rest') => some (.query q, rest')
    | _ => none
  | _ => (run N.objectName toks).map fun r => (.relation r.1, r.2)

/-- `parse_copy`. -/
def parseCopy (N : Native) (toks : List Tok) : Option (Stmt × List Tok) :=
  match copySource N toks with
  | none => none
  | some (src, rest) =>
    match copyLoop N (rest.length + 1) {} rest with
    | none => none
    | some (b, rest') =>
      match b.target with
      | none => none
      | some t => some (.copyTo src t b.partitionedBy b.storedAs b.options, rest')

/-- `parse_create_function`. -/
def parseCreateFunction (N : Native) (orReplace : Bool) (toks : List Tok) :
    Option (Stmt × List Tok) :=
  match run N.objectName toks with
  | some (n, .kw .as :: .str s :: rest) => some (.createFunction orReplace n s, rest)
  | _ => none

/-- The rest of `parse_create` after the optional OR REPLACE. -/
def parseCreateRest (N : Native) (orReplace : Bool) (toks : List Tok) : Option (Stmt × List Tok) :=
  match toks with
  | .kw .external :: rest => (run N.externalTable rest).map fun r => (.createExternal false r.1, r.2)
  | .kw .unbounded :: .kw .external :: rest =>
    (run N.externalTable rest).map fun r => (.createExternal true r.1, r.2)
  | .kw .unbounded :: _ => none
  | .kw .function :: rest => parseCreateFunction N orReplace rest
  | _ => (run N.create toks).map fun r => (.nativeCreate r.1, r.2)

/-- `parse_create`: OR REPLACE is consumed before the crate's parser runs. -/
def parseCreate (N : Native) (toks : List Tok) : Option (Stmt × List Tok) :=
  match toks with
  | .kw .or :: .kw .replace :: rest => parseCreateRest N true rest
  | _ => parseCreateRest N false toks

/-- `parse_statement`. -/
def parseStatement (N : Native) (toks : List Tok) : Option (Stmt × List Tok) :=
  match toks with
  | .kw .create :: rest => parseCreate N rest
  | .kw .convert :: rest => parseConvert N rest
  | .kw .copy :: rest => parseCopy N rest
  | .kw .vacuum :: rest => parseVacuum N rest
  | .kw .truncate :: rest => parseTruncate N rest
  | _ => (run N.statement toks).map fun r => (.native r.1, r.2)

/-- The loop of `parse_sql_with_dialect`; `exp` is `expecting_statement_delimiter`. -/
def parseLoop (N : Native) : Nat → Bool → List Tok → Option (List Stmt)
  | 0, _, _ => none
  | f + 1, exp, toks =>
    match toks with
    | .semi :: rest => parseLoop N f false rest
    | [] => some []
    | t :: rest =>
      if exp then none
      else match parseStatement N (t :: rest) with
        | none => none
        | some (s, rest') => (parseLoop N f true rest').map (s :: ·)

/-- `DFParser::parse_sql` on the tokens of a script; `none` is a parser error. -/
def parseSql (N : Native) (toks : List Tok) : Option (List Stmt) :=
  parseLoop N (toks.length + 1) false toks

/-! ### Planning TRUNCATE and VACUUM -/

inductive PlanNode where
  | vacuum (database : Option String) (table : Option Name)
  | truncateTable (table : Name)
  | otherPlan
  deriving DecidableEq, Repr

/-- logical.rs 262-296. -/
def planStmt : Stmt → PlanNode
  | .truncate name partitions false =>
    .vacuum partitions (if partitions.isNone then some name else none)
  | .truncate name _ true => .truncateTable name
  | _ => .otherPlan

end Seafowl.Sql
