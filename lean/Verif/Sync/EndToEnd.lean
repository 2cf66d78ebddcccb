import Verif.Sync.ResendProps
import Verif.Sync.WriterMore

/-!
# The writer together with the data it writes

`Verif.Sync.Writer` leaves the content of batches open, `Verif.Sync.Data` and `Verif.Sync.Apply` say what squashing,
merging and applying do to rows.  Here the two are put together: the writer with real batches, and the content of a
table as the result of its commits.
-/

namespace Seafowl.Sync

/-- The writer's surroundings with real data: a batch is a list of rows, two schemas are compatible if their columns
agree as far as both go (sync/schema/mod.rs 183-192, see `compatible`), and squashing is `squash_batches`
(sync/utils.rs 33-249, see `squash`).  Memory sizes and the limits of the configuration are arbitrary. -/
def dataEnv (bytes : List Row → Nat) (maxLag maxBytes maxSyncs : Nat) : Env Schema (List Row) where
  bytes := bytes
  rows := List.length
  compat := fun a b => (a.zip b).all (fun p => decide (p.1 = p.2))
  squash := fun S bs => (squash S bs.flatten).map (fun out => (S, out))
  maxLag := maxLag
  maxBytes := maxBytes
  maxSyncs := maxSyncs

/-- What the planner takes from the items of a flush: schema and first batch of each
(sync/planner.rs 134-157). -/
def plannerItems (items : List (Item Schema (List Row))) : List SItem :=
  items.map (fun it => (it.schema, it.data.headD []))

/-- The rows of a table after commits.  Commits that do not come from a flush of row changes (creation of the table,
commits of others) are taken to leave the rows as they are.  `none`: planning failed (sync/writer.rs 436-445). -/
def contents (full : List String) : List (Commit Schema (List Row)) → List TRow → Option (List TRow)
  | [], base => some base
  | c :: cs, base =>
    if c.items.isEmpty then contents full cs base
    else
      match flushRows full (plannerItems c.items) base with
      | none => none
      | some base' => contents full cs base'

end Seafowl.Sync
