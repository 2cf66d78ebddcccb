/-
TRUNCATE and VACUUM.

Modelled: /repo/src/context/physical.rs 666-702 (`Truncate`), 703-766 (`Vacuum`).  The Delta library
decides which files a vacuum deletes: those with a tombstone in the loaded snapshot that are not live
in it (retention period zero); it may add log entries without file actions.
-/
import Verif.Sql.Parser
import Verif.Dml.Dml
import Verif.Catalog.Gc

namespace Seafowl.Sql

open Seafowl.Dml

/-- The tables: names in the catalog, and log, files and recorded versions of each table by UUID. -/
structure Lake (κ : Type) where
  named : Name → Option Nat
  tables : Nat → World κ

/-- Replaces the state of one table. -/
def Lake.set (l : Lake κ) (u : Nat) (w : World κ) : Lake κ :=
  { l with tables := fun v => if v = u then w else l.tables v }

/-- TRUNCATE (666-702): the table is loaded at `loaded` commits; by the time of the commit the log
is the one in the lake.  The catalog does not record the version. -/
def truncateTable (l : Lake κ) (n : Name) (loaded : Nat) (commitOk : Bool) : Lake κ × Bool :=
  match l.named n with
  | none => (l, false)
  | some u =>
    let w := l.tables u
    let actions := (live (w.log.take loaded)).map Action.remove
    if commitOk then (l.set u { w with log := w.log ++ [actions] }, true) else (l, false)

/-- Replay of the tombstones. -/
def applyTomb (t : List FileName) : Action → List FileName
  | .remove f => f :: t
  | .add f => t.filter (· != f)

/-- The tombstones of a log. -/
def tombs (log : List (List Action)) : List FileName := log.flatten.foldl applyTomb []

/-- What the library deletes, given the snapshot it loaded. -/
def stale (log : List (List Action)) (f : FileName) : Bool :=
  (tombs log).contains f && !(live log).contains f

/-- VACUUM TABLE (717-765): `loaded` as above, `kept` says which deletions did not happen, `extra`
is the number of log entries without actions the library adds.  Afterwards all recorded versions but
the newest are forgotten; without such a table in the catalog that is an error. -/
def vacuumTable (l : Lake κ) (n : Name) (loaded : Nat) (kept : FileName → Bool) (extra : Nat)
    (libOk recOk : Bool) : Lake κ × Bool :=
  match l.named n with
  | none => (l, false)
  | some u =>
    let w := l.tables u
    let w1 : World κ :=
      { w with
        objects := fun f => if stale (w.log.take loaded) f && !kept f then none else w.objects f
        log := w.log ++ List.replicate extra [] }
    if !libOk then (l.set u w1, false)
    else if !recOk then (l.set u w1, false)
    else (l.set u { w1 with recorded := w1.recorded.drop (w1.recorded.length - 1) }, true)

end Seafowl.Sql
