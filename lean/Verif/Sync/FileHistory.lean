import Verif.Sync.EndToEnd
import Verif.Sync.Prune

/-!
# The files of a table through the commits of the writer

`contents` (Sync/EndToEnd.lean) applies every flush to all rows of the table.  Here a flush rewrites the files that
`prune_partitions` picks, and the next one chooses among the files that this one left.
-/

namespace Seafowl.Sync

/-- The statistics in the log are bounds of the values in the files, where there are any (written by the Delta
library). -/
def Bounded (sn : Snapshot) : Prop :=
  ∀ f ∈ sn.files, ∀ r ∈ f.rows, ∀ c v, r c = some v →
    (∀ m, f.min c = some m → m.le v = true) ∧ (∀ m, f.max c = some m → v.le m = true)

/-- The files of a table after commits (sync/planner.rs 53-117, sync/writer.rs 447-515): a flush removes the files it
picks, and adds files with the rows it computes from theirs.  How the rows are divided into files, in which order, and
for which columns there are statistics is left open (context/delta.rs 74-225).  Commits that do not come from a flush of
row changes are taken to leave the files as they are, as in `contents`. -/
inductive FilesAfter (full : List String) : List (Commit Schema (List Row)) → Snapshot → Snapshot → Prop
  | nil (sn : Snapshot) : FilesAfter full [] sn sn
  | other {c : Commit Schema (List Row)} {cs : List (Commit Schema (List Row))} {sn sn' : Snapshot} :
      c.items.isEmpty = true → FilesAfter full cs sn sn' → FilesAfter full (c :: cs) sn sn'
  | flush {c : Commit Schema (List Row)} {cs : List (Commit Schema (List Row))} {sn mid sn' : Snapshot}
      {keep : List Bool} {out : List TRow} {new : List DFile} :
      c.items.isEmpty = false → prunePartitions sn (plannerItems c.items) = some keep →
      flushRows full (plannerItems c.items) (fileRows (touched sn.files keep)) = some out →
      (fileRows new).Perm out → mid.files = untouched sn.files keep ++ new → Bounded mid →
      FilesAfter full cs mid sn' → FilesAfter full (c :: cs) sn sn'

end Seafowl.Sync
