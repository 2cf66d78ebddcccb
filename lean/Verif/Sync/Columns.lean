import Verif.Sync.Data

/-!
# Model of the columns of a synced table

`create_table` and the beginning of `flush_syncs` (sync/writer.rs 291-321, 412-427): a table that does
not exist yet is created from the first buffered item, afterwards the columns of the table decide which
columns of the changes are looked at.  Data types are left out.
-/

namespace Seafowl.Sync

/-- The columns with which `create_table` makes the table (sync/writer.rs 296-303): the NewPk and Value
columns of the schema, in its order, under the names of their descriptors. -/
def createdCols (S : Schema) : List String :=
  (S.filter (fun d => decide (d.role = .newPk) || decide (d.role = .value))).map (·.name)

/-- The table at the target location: its columns and rows, `none` if there is none. -/
abbrev Stored := Option (List String × List TRow)

/-- The table at the location once it surely exists (sync/writer.rs 414-425): `syncs.first()` is the
first item in the buffer.  `none` is the panic on an empty buffer. -/
def openOrCreate (t : Stored) (items : List (Schema × List Row)) : Option (List String × List TRow) :=
  match t with
  | some x => some x
  | none =>
    match items with
    | [] => none
    | it :: _ => some (createdCols it.1, [])

/-- The contents of the table after the flush of the squashed items (sync/writer.rs 412-450): columns
do not change, `TableProvider::schema(table)` is the schema of the new files too (planner.rs 58-60). -/
def flushStored (t : Stored) (items : List (Schema × List Row)) : Option (List String × List TRow) :=
  match openOrCreate t items with
  | none => none
  | some (cols, rows) => (flushRows cols items rows).map (fun out => (cols, out))

end Seafowl.Sync
