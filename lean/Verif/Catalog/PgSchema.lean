import Verif.Catalog.Upgrade

/-!
# The schema of a catalog in PostgreSQL

Modelled: /repo/src/repository/postgres.rs 43-86 (`try_new`, `connect`), /repo/src/repository/default.rs 60-101 (`setup`).

The name of the schema is put into `CREATE SCHEMA IF NOT EXISTS {name};` and `SET search_path TO {name},public;` without quotes.
What PostgreSQL makes of it is written out for names without quotes and blanks; other names are left out.
-/
namespace Seafowl.PgSchema
open Seafowl.Upgrade (Typ)

abbrev Text := List Char

/-- The first character of an identifier. -/
def isStart (c : Char) : Bool := c.isAlpha || c == '_' || 128 ≤ c.toNat

/-- The others. -/
def isPart (c : Char) : Bool := isStart c || c.isDigit || c == '$'

/-- Identifiers without quotes are folded to lower case (ASCII only, as for UTF-8). -/
def fold (c : Char) : Char := if 'A' ≤ c ∧ c ≤ 'Z' then Char.ofNat (c.toNat + 32) else c

/-- The characters that fit into so many bytes. -/
def takeBytes : Nat → Text → Text
  | _, [] => []
  | n, c :: cs => if c.utf8Size ≤ n then c :: takeBytes (n - c.utf8Size) cs else []

/-- The identifier a name stands for in SQL; `none` is a syntax error.  `reserved`: the key words that are not allowed. -/
def ident (reserved : Text → Bool) : Text → Option Text
  | [] => none
  | c :: cs =>
    if isStart c && cs.all isPart && !reserved ((c :: cs).map fold) then some (takeBytes 63 ((c :: cs).map fold)) else none

/-- The tables of a catalog. -/
inductive Table where
  | database | collection | table | tableVersion | tableColumn | function | droppedTable
  deriving DecidableEq, Repr

/-- Rows, as far as they matter: the identifier and a text (the type of a column). -/
abbrev Row := Nat × Typ

/-- A database: how far the catalog in a schema is (0: no tables), and its rows. -/
structure Db where
  level : Text → Nat
  rows : Text → Table → List Row

/-- The tables there are at a level. -/
def has (level : Nat) : Table → Bool
  | .droppedTable => decide (3 ≤ level)
  | _ => decide (1 ≤ level)

def publicS : Text := "public".toList

/-- Which schema a table without one is in, by the search path. -/
def resolve (db : Db) (t : Table) : List Text → Option Text
  | [] => none
  | s :: rest => if has (db.level s) t then some s else resolve db t rest

/-- The search path (postgres.rs 71-77). -/
def path (s : Text) : List Text := [s, publicS]

def setRows (db : Db) (s : Text) (t : Table) (r : List Row) : Db :=
  { db with rows := fun s' t' => if s' = s ∧ t' = t then r else db.rows s' t' }

/-- The rows a statement sees in a table. -/
def view (db : Db) (s : Text) (t : Table) : List Row :=
  match resolve db t (path s) with
  | some s' => db.rows s' t
  | none => []

/-- A statement: it changes one table, by what is in all of them. -/
structure Stmt where
  target : Table
  change : (Table → List Row) → List Row

/-- A statement of a server whose schema is `s`; without the table it fails. -/
def run (s : Text) (db : Db) (q : Stmt) : Db :=
  match resolve db q.target (path s) with
  | some s' => setRows db s' q.target (q.change (view db s))
  | none => db

/-- The loop in `setup` (default.rs 63-94). -/
def convertRow (r : Row) : Row :=
  match r.2 with
  | .old n t nl => (r.1, .field n t nl)
  | _ => r

def convert (s : Text) (db : Db) : Db := run s db ⟨.tableColumn, fun v => (v .tableColumn).map convertRow⟩

/-- The migrations: the table that says which of them have been applied is created in the first schema of the path; so are the
tables.  `mig`: what they do to the rows. -/
def migrate (mig : Nat → (Table → List Row) → Table → List Row) (s : Text) (db : Db) : Db :=
  { level := fun s' => if s' = s then 4 else db.level s'
    rows := fun s' t => if s' = s then mig (db.level s) (db.rows s) t else db.rows s' t }

/-- `try_new` (postgres.rs 43-60); `none`: the server does not start. -/
def start (reserved : Text → Bool) (mig : Nat → (Table → List Row) → Table → List Row) (name : Text) (db : Db) : Option Db :=
  match ident reserved name with
  | some s => some (migrate mig s (convert s db))
  | none => none

end Seafowl.PgSchema
