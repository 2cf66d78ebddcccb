import Verif.Sync.MergeProps

/-!
# Model of partition pruning during a flush

`construct_qualifier`, `get_prune_map` (sync/utils.rs 254-457), `prune_partitions` (sync/planner.rs
552-628) and the choice of files in `plan_delta_syncs` (sync/planner.rs 53-117).
-/

namespace Seafowl.Sync

/-- The order of scalars of one type (Arrow's comparison kernels; strings by code points). -/
def Val.le : Val → Val → Bool
  | .int a, .int b => decide (a ≤ b)
  | .str a, .str b => decide (a ≤ b)
  | .bool a, .bool b => !a || b
  | .int _, _ => true
  | .str _, .int _ => false
  | .str _, .bool _ => true
  | .bool _, _ => false

/-- Comparison `a ≤ b` in three-valued logic. -/
def le3 : Cell → Cell → Option Bool
  | some a, some b => some (a.le b)
  | _, _ => none

/-- Kleene AND (`and_kleene`). -/
def and3 : Option Bool → Option Bool → Option Bool
  | some false, _ => some false
  | _, some false => some false
  | some true, some true => some true
  | _, _ => none

/-- Kleene OR. -/
def or3 : Option Bool → Option Bool → Option Bool
  | some true, _ => some true
  | _, some true => some true
  | some false, some false => some false
  | _, _ => none

/-- `MinAccumulator`: NULLs are ignored. -/
def minCell (l : List Cell) : Cell :=
  l.foldl (fun acc c => match acc, c with
    | none, c => c
    | acc, none => acc
    | some a, some b => if a.le b then some a else some b) none

/-- `MaxAccumulator`: NULLs are ignored. -/
def maxCell (l : List Cell) : Cell :=
  l.foldl (fun acc c => match acc, c with
    | none, c => c
    | acc, none => acc
    | some a, some b => if a.le b then some b else some a) none

/-- A data file of the table with the statistics in the log. -/
structure DFile where
  rows : List TRow
  min : String → Cell
  max : String → Cell
  /-- `num_records` of the JSON statistics, if there are any -/
  records : Option Int

/-- A snapshot: the files, and for which columns `min_values`/`max_values` return an array at all. -/
structure Snapshot where
  files : List DFile
  hasMin : String → Bool
  hasMax : String → Bool

/-- All values of a key column in the items (the first and only batch of each, sync/utils.rs 283-293). -/
def keyCells (items : List SItem) (role : Role) (c : String) : List Cell :=
  items.flatMap (fun it => it.2.map (fun r => r ⟨role, c⟩))

/-- `construct_qualifier` (sync/utils.rs 254-317) as a list of conditions `c BETWEEN lo AND hi` that are
AND-ed; the empty list is `None`.  The outer `none` is a panic (no items, or a key column missing in
one of them). -/
def constructQualifier (items : List SItem) (role : Role) : Option (List (String × Val × Val)) :=
  match items with
  | [] => none
  | it0 :: _ =>
    let cols := names it0.1 role
    if items.all (fun it => cols.all (fun c => has it.1 role c)) then
      some (cols.filterMap (fun c =>
        match minCell (keyCells items role c), maxCell (keyCells items role c) with
        | some lo, some hi => some (c, lo, hi)
        | _, _ => none))
    else none

/-- A statistic of a file as the pruning library sees it. -/
def statMin (sn : Snapshot) (f : DFile) (c : String) : Cell := if sn.hasMin c then f.min c else none
/-- See `statMin`. -/
def statMax (sn : Snapshot) (f : DFile) (c : String) : Cell := if sn.hasMax c then f.max c else none

/-- `PruningPredicate` on `c BETWEEN lo AND hi`: rewritten to `max(c) >= lo AND min(c) <= hi` (library
behaviour). -/
def pruneBetween (sn : Snapshot) (f : DFile) (q : String × Val × Val) : Option Bool :=
  and3 (le3 (some q.2.1) (statMax sn f q.1)) (le3 (statMin sn f q.1) (some q.2.2))

/-- A conjunction. -/
def pruneAll (sn : Snapshot) (f : DFile) (qs : List (String × Val × Val)) : Option Bool :=
  qs.foldl (fun acc q => and3 acc (pruneBetween sn f q)) (some true)

/-- The coarse prune map: the qualifiers for old and new keys OR-ed (sync/planner.rs 570-590).  `none`
is the panic when there is neither. -/
def coarseMap (sn : Snapshot) (old new : List (String × Val × Val)) : Option (List Bool) :=
  match old, new with
  | [], [] => none
  | [], qs => some (sn.files.map (fun f => decide (pruneAll sn f qs ≠ some false)))
  | qs, [] => some (sn.files.map (fun f => decide (pruneAll sn f qs ≠ some false)))
  | qo, qn => some (sn.files.map (fun f => decide (or3 (pruneAll sn f qo) (pruneAll sn f qn) ≠ some false)))

/-- One key value against the statistics of one file (sync/utils.rs 415-426). -/
def fineCell (sn : Snapshot) (f : DFile) (c : String) (v : Cell) : Option Bool :=
  match sn.hasMin c, sn.hasMax c with
  | true, true => and3 (le3 (f.min c) v) (le3 v (f.max c))
  | true, false => le3 (f.min c) v
  | false, true => le3 v (f.max c)
  | false, false => none  -- unreachable!, see `pruneMap`

/-- One change row against one file: AND over the key columns (sync/utils.rs 428-436). -/
def fineRow (sn : Snapshot) (f : DFile) (role : Role) (cols : List String) (r : Row) : Option Bool :=
  cols.foldl (fun acc c => and3 acc (fineCell sn f c (r ⟨role, c⟩))) (some true)

/-- One item against one file: rows whose first key column is NULL are skipped; the file is needed if
some row may be in it (sync/utils.rs 386-447). -/
def fineItem (sn : Snapshot) (f : DFile) (role : Role) (it : SItem) : Bool :=
  match names it.1 role with
  | [] => false
  | c :: cs =>
    (it.2.filter (fun r => (r ⟨role, c⟩).isSome)).any (fun r => decide (fineRow sn f role (c :: cs) r ≠ some false))

/-- `get_prune_map` (sync/utils.rs 321-457).  `none` is the `unreachable!` for key columns that are not
old-key columns of the first item (the code reaches it only if there are rows to check). -/
def pruneMap (sn : Snapshot) (items : List SItem) : Option (List Bool) :=
  match items with
  | [] => none
  | it0 :: _ =>
    let cols := names it0.1 .oldPk
    if cols.any (fun c => !sn.hasMin c && !sn.hasMax c) then some (sn.files.map (fun _ => true))
    else if items.all (fun it => (names it.1 .oldPk ++ names it.1 .newPk).all (fun c => cols.contains c)) then
      some (sn.files.map (fun f => items.any (fineItem sn f .oldPk) || items.any (fineItem sn f .newPk)))
    else none

/-- `FINE_GRAINED_PRUNING_ROW_CRITERIA` (sync/planner.rs 36). -/
def fineCriteria : Int := 3000000

/-- The number of rows to rewrite according to the statistics (sync/planner.rs 593-607). -/
def totalRows (files : List DFile) (keep : List Bool) : Int :=
  ((files.zip keep).map (fun p => if p.2 then p.1.records.getD 0 else 0)).sum

/-- `prune_partitions` (sync/planner.rs 552-628): which files are rewritten. -/
def prunePartitions (sn : Snapshot) (items : List SItem) : Option (List Bool) :=
  match constructQualifier items .oldPk, constructQualifier items .newPk with
  | some qo, some qn =>
    match coarseMap sn qo qn with
    | none => none
    | some keep =>
      if totalRows sn.files keep > fineCriteria then pruneMap sn items else some keep
  | _, _ => none

/-- The files that are read and removed. -/
def touched (files : List DFile) (keep : List Bool) : List DFile :=
  ((files.zip keep).filter (·.2)).map (·.1)
/-- The files that stay. -/
def untouched (files : List DFile) (keep : List Bool) : List DFile :=
  ((files.zip keep).filter (fun p => !p.2)).map (·.1)

/-- The rows of some files. -/
def fileRows (files : List DFile) : List TRow := files.flatMap (·.rows)

/-- `plan_delta_syncs` (sync/planner.rs 53-117) and the commit of its result: the rows of the table after
the flush. -/
def flushFiles (full : List String) (items : List SItem) (sn : Snapshot) : Option (List TRow) :=
  match prunePartitions sn items with
  | none => none
  | some keep =>
    match flushRows full items (fileRows (touched sn.files keep)) with
    | none => none
    | some out => some (fileRows (untouched sn.files keep) ++ out)

end Seafowl.Sync
