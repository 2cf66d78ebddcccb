/-!
# Starting on the catalog of an earlier version

Modelled: /repo/src/repository/default.rs 60-101 (`setup`), /repo/src/repository/sqlite.rs 53-88 (`try_new`, `try_new_read_only`),
/repo/src/repository/postgres.rs 36-60 (`try_new`), and the four migrations in /repo/migrations/sqlite (those of
/repo/migrations/postgres do the same).

The migrator of sqlx is written out: it refuses a catalog with a migration it does not know, and applies those that are missing in
order, each in a transaction.  Texts of types are told apart by their format; what is in them is opaque.
-/
namespace Seafowl.Upgrade

/-- The text in `table_column.type`. -/
inductive Typ where
  /-- the JSON of a data type -/
  | bare (t : String)
  /-- the JSON of a field in the format of Arrow's integration tests -/
  | old (name t : String) (nullable : Bool)
  /-- the JSON of a field as serde writes it -/
  | field (name t : String) (nullable : Bool)
  /-- anything else; it may not even be JSON -/
  | junk (s : String)
  deriving DecidableEq, Repr

structure Tab where
  id : Nat
  coll : Nat
  name : String
  /-- the column of level 3 -/
  legacy : Bool
  /-- the column of levels 3 and 4 -/
  uuid : Nat
  deriving DecidableEq, Repr

structure Ver where
  id : Nat
  table : Nat
  time : Int
  /-- the column of levels 3 and 4 -/
  version : Int
  deriving DecidableEq, Repr

structure Col where
  id : Nat
  ver : Nat
  name : String
  typ : Typ
  deriving DecidableEq, Repr

/-- Rows of `table_partition` with the object of the partition: which files a table of the time before Delta consists of. -/
structure Part where
  ver : Nat
  object : String
  deriving DecidableEq, Repr

/-- A catalog.  `level`: how many migrations have been applied; columns and tables that do not exist at a level are
empty. -/
structure St where
  level : Nat
  dbs : List (Nat × String)
  colls : List (Nat × Nat × String)
  fns : List (Nat × Nat × String)
  tabs : List Tab
  vers : List Ver
  cols : List Col
  parts : List Part
  dropped : List (String × Nat)
  deriving DecidableEq, Repr

/-- One column of the loop in `setup` (default.rs 75-92): `field_from_json` reads the old format only. -/
def convertCol (c : Col) : Col :=
  match c.typ with
  | .old n t nl => { c with typ := .field n t nl }
  | _ => c

/-- The loop (default.rs 70-93): an update that fails is ignored.  `ok`: the updates that succeed; those after an interruption
do not.  Without the table there is nothing to do. -/
def convert (ok : Nat → Bool) (s : St) : St :=
  { s with cols := s.cols.map (fun c => if ok c.id then convertCol c else c) }

/-- `create_tables.up.sql`. -/
def mig1 (s : St) : Option St := some { s with level := 1 }

/-- One row of `arrow_datatype_storage.up.sql`: the type becomes a nullable field; `json(type)` fails for a text that is not
JSON. -/
def wrapCol (c : Col) : Option Col :=
  match c.typ with
  | .bare t => some { c with typ := .old c.name t true }
  | .old _ t _ => some { c with typ := .old c.name t true }
  | .field _ t _ => some { c with typ := .old c.name t true }
  | .junk _ => none

/-- All rows, or none. -/
def wrapAll : List Col → Option (List Col)
  | [] => some []
  | c :: cs =>
    match wrapCol c, wrapAll cs with
    | some c', some cs' => some (c' :: cs')
    | _, _ => none

/-- `arrow_datatype_storage.up.sql`. -/
def mig2 (s : St) : Option St :=
  match wrapAll s.cols with
  | some cols => some { s with level := 2, cols := cols }
  | none => none

/-- `delta_lake_integration.up.sql`: all tables there are become legacy tables with the same UUID, the zero one. -/
def mig3 (s : St) : Option St :=
  some { s with
    level := 3
    tabs := s.tabs.map (fun t => { t with legacy := true, uuid := 0 })
    vers := s.vers.map (fun v => { v with version := -1 })
    dropped := [] }

/-- `remove_legacy_tables.up.sql`. -/
def mig4 (s : St) : Option St :=
  some { s with
    level := 4
    parts := []
    tabs := s.tabs.map (fun t => { t with legacy := false }) }

/-- The next migration. -/
def next (s : St) : Option St :=
  match s.level with
  | 0 => mig1 s
  | 1 => mig2 s
  | 2 => mig3 s
  | _ => mig4 s

inductive Outcome where
  | running | panic | interrupted
  deriving DecidableEq, Repr

/-- The migrator: `n` migrations are applied before an interruption. -/
def migrate : Nat → St → St × Outcome
  | n, s =>
    if s.level = 4 then (s, .running)
    else
      match n with
      | 0 => (s, .interrupted)
      | n + 1 =>
        match next s with
        | some s' => migrate n s'
        | none => (s, .panic)
termination_by n => n

/-- `setup`, cut off after the given updates and migrations; a catalog of a later version is refused, after the loop. -/
def setup (ok : Nat → Bool) (n : Nat) (s : St) : St × Outcome :=
  if 4 < s.level then (convert ok s, .panic) else migrate n (convert ok s)

/-- `try_new_read_only` (sqlite.rs 74-88): nothing is changed, and nothing is checked. -/
def openReadOnly (s : St) : St × Outcome := (s, .running)

end Seafowl.Upgrade
