import Verif.Sync.Writer
import Verif.Misc.StoreFactory

/-!
# Which table a sync request is for

The writer model (`Verif.Sync.Writer`) names a table by the URL under which its changes are buffered.
The code keeps beside the buffered changes the handle of the table (`sync_target`), and it is through
this handle that a flush reads and writes.

Modelled: /repo/src/frontend/flight/handler.rs 166-191 (from the request to handle and URL),
/repo/src/sync/writer.rs 156-171 and 226-271 (the entry found by the URL alone; its handle is that of
the message which created it, 255-268), 406-424, 491-497 (a flush works on the handle of the entry),
650-656 (the handle goes away with the entry).

Simplified: the log of a URL in `World` stands for the log of whatever table the handle in use refers
to; with several handles for one URL the model therefore says which handle a commit went to but not
what that table held before.
-/
namespace Seafowl.Sync

variable {σ β τ : Type}

/-- The service together with the handles.  `entry` is the `sync_target` of the buffered entry of a
URL; it means something only while there is such an entry.  `tgts` (the handles of the accepted
messages, in order) and `out` (the commits of the flushes by URL, each with the handle it was written
through) are ghosts. -/
structure TWorld (σ β τ : Type) where
  W : World σ β
  entry : Url → Option τ
  tgts : List τ
  out : Url → List (Option τ × Commit σ β)

/-- At the start of the process. -/
def TWorld.start (log : Log σ β) : TWorld σ β τ :=
  { W := World.start log, entry := fun _ => none, tgts := [], out := fun _ => [] }

/-- The handles after a message has been buffered (writer.rs 226-271): an existing entry keeps its
handle, a new one gets that of the message. -/
def entryAfter (env : Env σ β) (w : Writer σ β) (entry : Url → Option τ) (m : Msg σ β) (t : τ) :
    Url → Option τ :=
  fun u =>
    if (alGet u w.syncs).isSome then entry u
    else if u = m.url ∧ 0 < rowsOfBatches env m.batches then some t
    else none

/-- The commits between two states of the logs, written through the handles given. -/
def written (entry : Url → Option τ) (log log' : Log σ β) (u : Url) :
    List (Option τ × Commit σ β) :=
  ((log' u).drop (log u).length).map (fun c => (entry u, c))

/-- One event; `t` is the handle a sync request brings. -/
def stepT (env : Env σ β) (S : TWorld σ β τ) (op : Op σ β) (t : τ) : TWorld σ β τ :=
  let W' := (step env S.W op).1
  match op with
  | .sync m _ _ _ =>
    if W'.acc.length = S.W.acc.length then { S with W := W' }
    else
      let entry := entryAfter env S.W.w S.entry m t
      { W := W', entry := entry, tgts := S.tgts ++ [t],
        out := fun u => S.out u ++ written entry S.W.log W'.log u }
  | .tick _ _ _ =>
    { S with W := W', out := fun u => S.out u ++ written S.entry S.W.log W'.log u }
  | .external _ => { S with W := W' }

/-- A history of events. -/
def runT (env : Env σ β) (S : TWorld σ β τ) : List (Op σ β × τ) → TWorld σ β τ
  | [] => S
  | (op, t) :: ops => runT env (stepT env S op t) ops

/-! ### From the request to the handle -/

/-- What a request says about its table (clade/proto/sync.proto: `store` and `path`): the location and
the options of the store, or nothing for the internal store, and the path.  The path is a list of
segments. -/
structure Place where
  store : Option (List String × List (String × String))
  path : List String
  deriving DecidableEq

/-- The URL under which the changes are buffered (handler.rs 166-191, object_store/factory.rs 142-154
and, for the internal store, whose URL `base` ends with a slash, object_store/wrapped.rs 112-122: the
path joined to it, here for paths of plain segments).  The options play no part. -/
def Place.url (base : List String) (p : Place) : List String :=
  match p.store with
  | none => base ++ p.path
  | some (loc, _) => StoreFactory.tableUrl loc p.path

end Seafowl.Sync
