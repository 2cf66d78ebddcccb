import Verif.Sync.Names

/-!
# Model of which values the plan of a flush reads

`Sync/Names.lean` follows whether the columns the plan refers to are found.  Here it is followed which
column is found, and so which value of a buffered row ends up in which column of the table.

Only rows that are inserted, or updated without a change of the key, are followed, from the squashed
changes on (planner.rs 291-548); the squashed changes of a single item are the changes as they were sent.
-/

namespace Seafowl.Names

open Seafowl.Sync

/-- The position of the column that a reference stands for (`finds`, the lookup of the library). -/
def resolve (sc : Scope) (c : ColRef) : Option Nat :=
  if finds sc c then sc.findIdx? (fun d => if c.rel = [] then decide (d.name = c.name) else decide (d = c))
  else none

/-- The value of `col(field)` for a row with these cells; the outer `none` is an error of the plan. -/
def readCol {V : Type} (parse : String → List String) (sc : Scope) (row : List (Option V)) (field : String) :
    Option (Option V) :=
  (resolve sc (colOf parse field)).bind (fun i => row[i]?)

/-- The cell of a normalised column of an upserted row (planner.rs 354-394): a key column has the value
of the NewPk column of that name (358-375), the others are read from their own field (388-390). -/
def normCell {V : Type} (parse : String → List String) (L : Low) (row : List (Option V)) (c : SyncCol) :
    Option (Option V) :=
  match findCol L.cols c.role c.name with
  | none => none
  | some s => readCol parse L.scope row s.field.name

/-- The cell of the column `n` of the table for an upserted row (planner.rs 485-533).  `old` is the cell
of the row in the table, NULL if there is none.  The references to the normalised columns are exact, and
their names are canonical. -/
def upsertCell {V : Type} (parse : String → List String) (isTrue : V → Bool) (L : Low) (old : String → Option V)
    (row : List (Option V)) (n : String) : Option (Option V) :=
  let N := normCols L.cols
  match (findCol N .value n).or (findCol N .newPk n) with
  | none => some (old n)
  | some c =>
    match findCol N .changed n with
    | none => normCell parse L row c
    | some k =>
      match normCell parse L row k, normCell parse L row c with
      | some flag, some v => some (if flag.any isTrue then v else old n)
      | _, _ => none

/-- The row that is written for an upserted row. -/
def upsertRow {V : Type} (parse : String → List String) (isTrue : V → Bool) (t : List TCol) (L : Low)
    (old : String → Option V) (row : List (Option V)) : List (Option (Option V)) :=
  (flatNames t).map (upsertCell parse isTrue L old row)

end Seafowl.Names
