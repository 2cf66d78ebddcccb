import Verif.Sync.NamePrune

/-!
# Flush after flush by names

`flushFilesNamed` (Sync/NamePrune.lean) is one flush.  Here the next one finds the files that this one left.
-/

namespace Seafowl.Names

open Seafowl.Sync

/-- The changes of one flush: columns with their fields, and rows as lists of cells. -/
abbrev Batch := List (List SyncCol × List PRow)

/-- The files after flushes (sync/writer.rs 447-515, planner.rs 53-117).  How the rows of the table are divided into
files afterwards, in which order, and for which columns there are statistics is left open, as long as the statistics are
bounds of the values (`honest`, for a table and its files; context/delta.rs 74-225). -/
inductive NamedAfter (parse : String → List String) (t : List TCol) (honest : PSnapshot → Prop) :
    List Batch → PSnapshot → PSnapshot → Prop
  | nil (ps : PSnapshot) : NamedAfter parse t honest [] ps ps
  | flush {items : Batch} {rest : List Batch} {ps mid ps' : PSnapshot} {rows : List PRow} :
      flushFilesNamed parse t items ps = some rows → (mid.files.flatMap (·.rows)).Perm rows → honest mid →
      NamedAfter parse t honest rest mid ps' → NamedAfter parse t honest (items :: rest) ps ps'

end Seafowl.Names
