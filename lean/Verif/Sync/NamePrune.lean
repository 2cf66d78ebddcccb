import Verif.Sync.NameFlush
import Verif.Sync.Prune

/-!
# Model of which statistics the choice of files reads

`Sync/Prune.lean` models the choice of the files that a flush rewrites, and takes it that the statistics
are those of the key columns.  The columns are given by name: `col(pk_col)` in the qualifier (sync/utils.rs
304), `col.name().into()` in the fine-grained map (sync/utils.rs 344-345).  Both read the name as an SQL
identifier.
-/

namespace Seafowl.Names

open Seafowl.Sync

/-- A file of the table: the rows as lists of cells, and the statistics in the log. -/
structure PFile where
  rows : List PRow
  min : String → Cell
  max : String → Cell
  records : Option Int

/-- The files of a version of the table, and the columns with statistics at all. -/
structure PSnapshot where
  files : List PFile
  hasMin : String → Bool
  hasMax : String → Bool

/-- The column that is found for a name (a name that is not found is an error, see `boundsFound`). -/
def foundAs (parse : String → List String) (n : String) : String := (colOf parse n).name

/-- The statistics as they are found for the names of key columns.  The rows play no part in it. -/
def statsByName (parse : String → List String) (ps : PSnapshot) : Snapshot where
  files := ps.files.map (fun f =>
    { rows := [], min := fun n => f.min (foundAs parse n), max := fun n => f.max (foundAs parse n), records := f.records })
  hasMin n := ps.hasMin (foundAs parse n)
  hasMax n := ps.hasMax (foundAs parse n)

/-- The files that are rewritten (planner.rs 620-627). -/
def picked {A : Type} (files : List A) (keep : List Bool) : List A := ((files.zip keep).filter (·.2)).map (·.1)
/-- The files that stay. -/
def kept {A : Type} (files : List A) (keep : List Bool) : List A := ((files.zip keep).filter (fun p => !p.2)).map (·.1)

/-- The key values of an item (`column_by_name`, sync/utils.rs 285-293, 386-436). -/
def keyItem (it : List SyncCol × List PRow) : SItem := (descs it.1, it.2.map (byRel lowerRel it.1))

/-- `plan_delta_syncs` (planner.rs 52-115) and the commit of its result: the rows of the table after the
flush, `none` if it fails. -/
def flushFilesNamed (parse : String → List String) (t : List TCol) (items : List (List SyncCol × List PRow))
    (ps : PSnapshot) : Option (List PRow) :=
  match prunePartitions (statsByName parse ps) (items.map keyItem) with
  | none => none
  | some keep =>
    match flushNamed parse t items ((picked ps.files keep).flatMap (·.rows)) with
    | none => none
    | some out => some ((kept ps.files keep).flatMap (·.rows) ++ out)

end Seafowl.Names
