import Verif.Remote.Pushdown

/-!
# Remote tables: the scan

`RemoteTable::new` and `RemoteTable::scan` of `datafusion_remote_tables/src/provider.rs` (35-63,
121-222) and `RemoteTableFactory::create` of `factory.rs` (16-35).

The query is a structure here, not a text: the texts of its column list and of its WHERE clause are
the subject of `Remote/Quote.lean` and `Remote/Pushdown.lean`.  The remote database is a parameter,
a function from queries to answers (an answer has a schema of its own), and so is Arrow's cast.
A result of `none` stands for an error.
-/

namespace Seafowl.Remote

/-- An Arrow field; types are numbered. -/
structure Field where
  name : String
  ty : Nat
  nullable : Bool
  deriving DecidableEq, Repr

/-- `SELECT {columns} FROM {name}{where_clause}{limit_clause}` (provider.rs 172-178); `cols = none`
is `*`. -/
structure Query where
  cols : Option (List String)
  filter : Option Sql
  limit : Option Nat
  deriving DecidableEq, Repr

/-- Fetched data: the schema found in it and the rows. -/
structure Answer (V : Type) where
  fields : List Field
  rows : List (List V)
  deriving DecidableEq, Repr

/-- `RemoteTable` (27-33).  `dialect = none`: a source that is not PostgreSQL, SQLite or MySQL. -/
structure RTable where
  dialect : Option Dialect
  schema : List Field
  deriving DecidableEq, Repr

/-- Arrow's cast: which types can be cast (checked while planning) and the values (checked while
running; a value which does not fit fails the query). -/
structure Caster (V : Type) where
  can : Nat → Nat → Bool
  val : Nat → Nat → V → Option V

/-- `Schema::project` (Arrow): an index out of bounds is an error. -/
def project (schema : List Field) (ixs : List Nat) : Option (List Field) :=
  ixs.mapM (fun i => schema[i]?)

/-- `filter_expr_to_sql` (87-104) and the WHERE clause (150-169) for all sources. -/
def rtWhere (t : RTable) (filters : List Expr) : Option (Option Sql) :=
  match t.dialect with
  | some d => whereClause d filters
  | none => if filters.isEmpty then some none else none

/-- `supports_filters_pushdown` (224-242) for all sources. -/
def rtExact (t : RTable) (e : Expr) : Bool :=
  match t.dialect with
  | some d => exact d e
  | none => false

/-- `col(f.name(), &schema)` (201): the position of the first field of that name. -/
def colIndex (schema : List Field) (name : String) : Option Nat :=
  schema.findIdx? (fun f => f.name == name)

/-- An expression of the projection: the column read, and the types of the cast if there is one. -/
structure CastExpr where
  col : Nat
  cast : Option (Nat × Nat)
  deriving DecidableEq, Repr

/-- `cast(col_expr, &src_schema, f.data_type())` (204-207): no cast between equal types; an error if
the types cannot be cast or the fetched data has no such column. -/
def castTo (k : Caster V) (src : List Field) (i : Nat) (ty : Nat) : Option CastExpr :=
  match src[i]? with
  | none => none
  | some s =>
    if s.ty = ty then some ⟨i, none⟩
    else if k.can s.ty ty then some ⟨i, some (s.ty, ty)⟩
    else none

/-- One pair of the zip (200-211). -/
def castExpr (k : Caster V) (schema src : List Field) (p : Field × Field) : Option CastExpr :=
  match colIndex schema p.1.name with
  | none => none
  | some i => if p.2 ≠ p.1 then castTo k src i p.1.ty else some ⟨i, none⟩

/-- `ProjectionExec` on one row. -/
def evalCast (k : Caster V) (row : List V) (c : CastExpr) : Option V :=
  match row[c.col]?, c.cast with
  | none, _ => none
  | some v, none => some v
  | some v, some (a, b) => k.val a b v

/-- The cast of fetched data to the declared schema (188-219). -/
def deliver (k : Caster V) (schema : List Field) (a : Answer V) : Option (List (List V)) :=
  if a.fields ≠ schema then
    match (schema.zip a.fields).mapM (castExpr k schema a.fields) with
    | none => none
    | some cs => a.rows.mapM (fun row => cs.mapM (evalCast k row))
  else some a.rows

/-- The declared fields of the scan and its column list (131-145). -/
def scanCols (t : RTable) (projection : Option (List Nat)) :
    Option (List Field × Option (List String)) :=
  match projection with
  | none => some (t.schema, none)
  | some ixs => (project t.schema ixs).map (fun fs => (fs, some (fs.map (·.name))))

/-- `RemoteTable::scan` (121-222). -/
def scan (k : Caster V) (run : Query → Option (Answer V)) (t : RTable)
    (projection : Option (List Nat)) (filters : List Expr) (limit : Option Nat) :
    Option (List (List V)) :=
  match scanCols t projection with
  | none => none
  | some (fields, cols) =>
    match rtWhere t filters with
    | none => none
    | some w =>
      match run ⟨cols, w, limit⟩ with
      | none => none
      | some a => deliver k fields a

/-- `RemoteTable::new` (35-63): an empty schema is replaced by that of one row of the table. -/
def newTable (run : Query → Option (Answer V)) (dialect : Option Dialect) (schema : List Field) :
    Option RTable :=
  if schema.isEmpty then
    match run ⟨none, none, some 1⟩ with
    | none => none
    | some a => some ⟨dialect, a.fields⟩
  else some ⟨dialect, schema⟩

end Seafowl.Remote
