import Verif.Context.Ddl

/-!
# Model of ALTER TABLE statements (src/context/logical.rs 189-216, src/context/physical.rs 635-665)

`Statement::AlterTable { name, operations, .. }`: the fields `if_exists`, `only`, `location` and `on_cluster` of the parsed
statement are not looked at.  Names are texts, read with `TableReference::from(&str)` (`Env.parse`), as in `Verif.Context.Ddl`.
-/

namespace Seafowl.Ddl

/-- One operation of an ALTER TABLE statement: `RENAME TO new` or any other one. -/
inductive AlterOp where
  | renameTo (new : String)
  | other (k : Nat)
deriving DecidableEq, Repr

/-- `Statement::AlterTable` as parsed. -/
structure Alter where
  ifExists : Bool
  name : String
  ops : List AlterOp
deriving DecidableEq, Repr

/-- Planning and executing an ALTER TABLE statement after the reload of the schema: only a single RENAME TO is accepted
(logical.rs 190-197); the rest is `doRename` (logical.rs 199-215, physical.rs 635-665). -/
def alter (env : Env) (c : Ctx) (a : Alter) : Res :=
  match reload env c with
  | (c1, .error e) => (c1, .error e)
  | (c1, .ok _) =>
    match a.ops with
    | [.renameTo new] => doRename env c1 a.name new
    | _ => (c1, .error .plan)

end Seafowl.Ddl
