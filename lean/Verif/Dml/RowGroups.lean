import Verif.Dml.Dml

/-!
# Row groups and filtered scans

The files a statement writes consist of row groups of at most `MAX_ROW_GROUP_SIZE` rows
(/repo/src/context/delta.rs 44, 81-84).  UPDATE and DELETE read the files they rewrite with
`table.scan(&state, None, &filter, None)` (/repo/src/context/physical.rs 304, 423-425), that is with the WHERE
clause as the filter of the scan, and take the result for the rows of those files.  A scan with a filter only
has to return the rows that match it.  Here: the scan of a Parquet file that leaves out the row groups whose
statistics refute the filter, which is what the reader does by default when it is given a predicate.  Whether the
pinned version of the Delta library passes the filter on to the reader cannot be read off /repo.

Simplified: statistics are a function of the rows they describe (`may`); pages inside a row group are not modelled.
-/

namespace Seafowl.Dml

variable {κ : Type}

/-- `MAX_ROW_GROUP_SIZE` (delta.rs 44). -/
def maxRowGroup : Nat := 65536

/-- The row groups of a file (delta.rs 81-86: `ArrowWriter` starts a new row group whenever the current one has
`max` rows). -/
def rowGroups {ρ : Type} (max : Nat) (rows : List ρ) : List (List ρ) :=
  if h : rows = [] ∨ max = 0 then []
  else rows.take max :: rowGroups max (rows.drop max)
termination_by rows.length
decreasing_by
  have := List.length_pos_iff.2 (fun e => h (Or.inl e))
  simp only [List.length_drop]
  omega

/-- The `PruningPredicate` made from a predicate (physical.rs 280-283, 398-399), applied to the statistics of a set of
rows (library): can there be a row satisfying the predicate. -/
abbrev May (κ : Type) := List (Row κ) → Bool

/-- `pruning_predicate.prune(snapshot)` (physical.rs 284, 400): one decision per file. -/
def pruneMap (may : May κ) (s : Snapshot κ) : List Bool := s.map (fun f => may f.2)

/-- The rows read from a file by a scan with a filter that leaves out the row groups its statistics refute. -/
def readFile (may : May κ) (max : Nat) (rows : List (Row κ)) : List (Row κ) :=
  ((rowGroups max rows).filter may).flatten

/-- `table.scan(&state, None, &[predicate], None)` (physical.rs 304, 423-425): one batch per file that is not
refuted. -/
def scanFiltered (may : May κ) (max : Nat) (s : Snapshot κ) : List (List (Row κ)) :=
  (keptFiles s (pruneMap may s)).map (fun f => readFile may max f.2)

/-- UPDATE … WHERE (physical.rs 216-369) with that scan. -/
def updateWhere (may : May κ) (group max : Nat) (fields : List String) (assigns : List (String × SExpr κ)) (p : Pred κ)
    (s : Snapshot κ) : Option (Commit κ) :=
  update max fields assigns (some p) s (pruneMap may s) (scanFiltered may group s)

/-- DELETE … WHERE (physical.rs 370-485) with that scan. -/
def deleteWhere (may : May κ) (group max : Nat) (p : Pred κ) (s : Snapshot κ) : Option (Commit κ) :=
  delete max (some p) s (pruneMap may s) (scanFiltered may group s)

end Seafowl.Dml
