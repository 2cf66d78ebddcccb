/-!
# Model of the data sync writer

Follows `/repo/src/sync/writer.rs` (the in-memory queue of row-change messages and its
flushing to Delta tables), `/repo/src/sync/mod.rs` and the sync part of
`/repo/src/frontend/flight/handler.rs`.

The content of record batches is opaque here (type parameter `β`), as is the sync schema
(`σ`).  What the writer does with them is given by `Env`.  The data semantics of squashing and
planning are modelled in `Verif.Sync.Squash`, `Verif.Sync.Merge` and `Verif.Sync.Apply`.

Metrics and log output are left out.
-/

namespace Seafowl.Sync

/-- Table location, `log_store.root_uri()` (writer.rs 164-169). -/
abbrev Url := String
/-- sync/mod.rs 15. -/
abbrev Origin := String
/-- sync/mod.rs 16; a `u64` in the code, unbounded here (numbers are only stored and compared). -/
scoped macro "Seq" : term => `(Nat)
/-- Transaction ids are random v4 UUIDs in the code (writer.rs 213); the model draws them from a
counter, i.e. it assumes that UUIDs do not collide. -/
scoped macro "TxId" : term => `(Nat)

/-- writer.rs 29. -/
def MAX_ROWS_PER_SYNC : Nat := 100000

/-- The operations and configuration the writer relies on.  `bytes` is
`RecordBatch::get_array_memory_size`, `rows` is `num_rows`, `compat` is
`SyncSchema::is_compatible_with` (schema/mod.rs 183-192), `squash` is `squash_batches`
(sync/utils.rs 33-249; it may fail and it may change the schema's fields), and the three numbers
are `misc.sync_conf` (config/schema.rs). -/
structure Env (σ β : Type) where
  bytes : β → Nat
  rows : β → Nat
  compat : σ → σ → Bool
  squash : σ → List β → Option (σ × β)
  maxLag : Nat
  maxBytes : Nat
  maxSyncs : Nat

/-- writer.rs 88-98.  The `HashSet` of locations is a list; only membership matters. -/
structure Tx where
  origin : Origin
  sequence : Option Seq
  locations : List Url
deriving DecidableEq, Repr

/-- writer.rs 116-129.  `msgs` is a ghost field: the positions (in the sequence of accepted
messages) of the messages whose batches are in `data`.  No function of the model reads it. -/
structure Item (σ β : Type) where
  isSquashed : Bool
  txIds : List TxId
  schema : σ
  data : List β
  msgs : List Nat

/-- writer.rs 100-114.  `sync_target` is dropped: Iceberg targets are refused before they are
buffered (flight/handler.rs 192-194). -/
structure Coll (σ β : Type) where
  size : Nat
  rows : Nat
  insertionTime : Nat
  syncs : List (Item σ β)

/-- writer.rs 69-84.  The two `IndexMap`s are association lists in insertion order, the
`HashMap`s from origins are functions.  `nextTx` is the source of fresh transaction ids. -/
structure Writer (σ β : Type) where
  nextTx : TxId
  txs : List (TxId × Tx)
  syncs : List (Url × Coll σ β)
  size : Nat
  originMemory : Origin → Option Seq
  originDurable : Origin → Option Seq

/-- writer.rs 132-142. -/
def Writer.new {σ β : Type} : Writer σ β :=
  { nextTx := 0, txs := [], syncs := [], size := 0,
    originMemory := fun _ => none, originDurable := fun _ => none }

/-- sync/mod.rs 47-58 (`version` is constantly 0). -/
structure CommitInfo where
  origin : Origin
  sequence : Seq
  newTx : Bool
deriving DecidableEq, Repr

/-- One entry of a Delta log as far as syncing is concerned: the items whose data the commit
applied to the table and the optional sync info (writer.rs 462-489).  Commits that do not come
from a sync flush (table creation, SQL statements) have `items = []` and `info = none`. -/
structure Commit (σ β : Type) where
  items : List (Item σ β)
  info : Option CommitInfo

/-- The Delta logs of all locations, oldest commit first.  `[]` means that there is no table. -/
abbrev Log (σ β : Type) := Url → List (Commit σ β)

/-- A sync message as it reaches `process_sync_cmd` (handler.rs 136-141, clade/proto/sync.proto). -/
structure Msg (σ β : Type) where
  url : Url
  iceberg : Bool
  origin : Origin
  sequence : Option Seq
  schema : σ
  batches : List β

variable {σ β : Type}

/-! ### association lists (IndexMap) -/

/-- `IndexMap::get`. -/
def alGet {κ α : Type} [DecidableEq κ] (k : κ) : List (κ × α) → Option α
  | [] => none
  | (k', a) :: rest => if k' = k then some a else alGet k rest

/-- `IndexMap::get_mut` followed by an update in place. -/
def alModify {κ α : Type} [DecidableEq κ] (k : κ) (f : α → α) : List (κ × α) → List (κ × α)
  | [] => []
  | (k', a) :: rest => if k' = k then (k', f a) :: rest else (k', a) :: alModify k f rest

/-- `IndexMap::shift_remove`. -/
def alErase {κ α : Type} [DecidableEq κ] (k : κ) : List (κ × α) → List (κ × α)
  | [] => []
  | (k', a) :: rest => if k' = k then rest else (k', a) :: alErase k rest

/-- `HashMap::insert` on a map given as a function. -/
def fnSet {α : Type} (f : Origin → Option α) (o : Origin) (a : α) : Origin → Option α :=
  fun o' => if o' = o then some a else f o'

/-! ### enqueue_sync -/

/-- First component of `get_size_and_rows` (sync/utils.rs 19-26). -/
def sizeOfBatches (env : Env σ β) (bs : List β) : Nat := (bs.map env.bytes).sum
/-- Second component of `get_size_and_rows` (sync/utils.rs 19-26). -/
def rowsOfBatches (env : Env σ β) (bs : List β) : Nat := (bs.map env.rows).sum

/-- The two `InvalidMessage` errors of `enqueue_sync`. -/
inductive EnqErr where
  | otherOriginOpen   -- writer.rs 177-184
  | emptyTransaction  -- writer.rs 202-211
deriving DecidableEq, Repr

/-- The new-transaction branch, writer.rs 199-224. -/
def startTx (w : Writer σ β) (url : Url) (origin : Origin) (seq : Option Seq) (nrows : Nat) :
    Except EnqErr (Writer σ β × TxId) :=
  if nrows = 0 ∧ seq.isSome then
    .error .emptyTransaction
  else
    .ok ({ w with
            nextTx := w.nextTx + 1
            txs := w.txs ++ [(w.nextTx, { origin := origin, sequence := seq, locations := [url] })] },
         w.nextTx)

/-- Choice of the transaction for a message, writer.rs 173-224. -/
def assignTx (w : Writer σ β) (url : Url) (origin : Origin) (seq : Option Seq) (nrows : Nat) :
    Except EnqErr (Writer σ β × TxId) :=
  match w.txs.getLast? with
  | some (txId, tx) =>
    if tx.sequence = none then
      if origin ≠ tx.origin then
        .error .otherOriginOpen
      else
        let tx' : Tx :=
          { tx with
            sequence := if seq.isSome then seq else tx.sequence
            locations := if 0 < nrows then url :: tx.locations else tx.locations }
        .ok ({ w with txs := w.txs.dropLast ++ [(txId, tx')] }, txId)
    else
      startTx w url origin seq nrows
  | none => startTx w url origin seq nrows

/-- A new item for a message (writer.rs 246-251 and 261-266). -/
def newItem (txId : TxId) (schema : σ) (batches : List β) (mid : Nat) : Item σ β :=
  { isSquashed := false, txIds := [txId], schema := schema, data := batches, msgs := [mid] }

/-- Appending a message to the items of a location, writer.rs 232-252.  `syncs` is never empty in
the code (`last_mut().unwrap()`); the empty case here adds a first item. -/
def pushItem (env : Env σ β) (syncs : List (Item σ β)) (txId : TxId) (schema : σ)
    (batches : List β) (mid : Nat) : List (Item σ β) :=
  match syncs.getLast? with
  | some prev =>
    if env.compat prev.schema schema
        && decide (rowsOfBatches env prev.data + rowsOfBatches env batches ≤ MAX_ROWS_PER_SYNC) then
      syncs.dropLast ++
        [{ prev with
            isSquashed := false
            txIds := prev.txIds ++ [txId]
            data := prev.data ++ batches
            msgs := prev.msgs ++ [mid] }]
    else
      syncs ++ [newItem txId schema batches mid]
  | none => [newItem txId schema batches mid]

/-- Buffering of a non-empty message, writer.rs 226-279. -/
def buffer (env : Env σ β) (w : Writer σ β) (now : Nat) (url : Url) (txId : TxId) (schema : σ)
    (batches : List β) (mid : Nat) : Writer σ β :=
  let sz := sizeOfBatches env batches
  let rs := rowsOfBatches env batches
  let syncs :=
    match alGet url w.syncs with
    | some _ =>
      alModify url (fun c => { c with
        syncs := pushItem env c.syncs txId schema batches mid
        size := c.size + sz
        rows := c.rows + rs }) w.syncs
    | none =>
      w.syncs ++ [(url, { size := sz, rows := rs, insertionTime := now,
                          syncs := [newItem txId schema batches mid] })]
  { w with syncs := syncs, size := w.size + sz }

/-- `enqueue_sync`, writer.rs 156-289.  `mid` is the ghost position of the message. -/
def enqueue (env : Env σ β) (w : Writer σ β) (now : Nat) (m : Msg σ β) (mid : Nat) :
    Except EnqErr (Writer σ β) :=
  let rs := rowsOfBatches env m.batches
  match assignTx w m.url m.origin m.sequence rs with
  | .error e => .error e
  | .ok (w1, txId) =>
    let w2 := if 0 < rs then buffer env w1 now m.url txId m.schema m.batches mid else w1
    let w3 := match m.sequence with
      | some s => { w2 with originMemory := fnSet w2.originMemory m.origin s }
      | none => w2
    .ok w3

/-! ### squashing -/

/-- The loop of `physical_squashing` (writer.rs 534-570) over the items of one location.
`total`, `size`, `rows` are `self.size`, `table_syncs.size` and `table_syncs.rows`.  The flag is
`false` when `squash_batches` failed; items squashed before the failure stay squashed. -/
def squashLoop (env : Env σ β) : List (Item σ β) → Nat → Nat → Nat →
    List (Item σ β) × Nat × Nat × Nat × Bool
  | [], total, size, rows => ([], total, size, rows, true)
  | it :: rest, total, size, rows =>
    if it.isSquashed then
      let r := squashLoop env rest total size rows
      (it :: r.1, r.2)
    else
      let oldSize := sizeOfBatches env it.data
      let oldRows := rowsOfBatches env it.data
      match env.squash it.schema it.data with
      | none => (it :: rest, total, size, rows, false)
      | some (schema, b) =>
        let r := squashLoop env rest (total - oldSize + env.bytes b)
          (size - oldSize + env.bytes b) (rows - oldRows + env.rows b)
        ({ it with isSquashed := true, schema := schema, data := [b] } :: r.1, r.2)

/-- `physical_squashing`, writer.rs 528-580.  The flag says whether it returned `Ok`. -/
def squashUrl (env : Env σ β) (w : Writer σ β) (url : Url) : Writer σ β × Bool :=
  match alGet url w.syncs with
  | none => (w, true)
  | some c =>
    let r := squashLoop env c.syncs w.size c.size c.rows
    ({ w with
        syncs := alModify url (fun c => { c with
          syncs := r.1, size := r.2.2.1, rows := r.2.2.2.1 }) w.syncs
        size := r.2.1 }, r.2.2.2.2)

/-! ### flushing one location -/

/-- `commit_info`, writer.rs 607-637.  `none` as the outer result is the panic of
`self.txs[..]`/`unwrap` on a missing transaction. -/
def commitInfo (txs : List (TxId × Tx)) (last : Option CommitInfo) (syncs : List (Item σ β)) :
    Option (Option CommitInfo) :=
  let newTx? : Option Bool :=
    match syncs.getLast? with
    | none => some false
    | some it =>
      match it.txIds.getLast? with
      | none => none
      | some t => (alGet t txs).map (fun tx => tx.sequence.isNone)
  match newTx? with
  | none => none
  | some newTx =>
    let found := syncs.reverse.findSome? (fun it =>
      match it.txIds.getLast? with
      | none => none
      | some t =>
        match alGet t txs with
        | some tx => tx.sequence.map (fun s => { origin := tx.origin, sequence := s, newTx := newTx : CommitInfo })
        | none => none)
    some (match found with
      | some ci => some ci
      | none => last.map (fun ci => { ci with newTx := newTx }))

/-- `table_sequence`, writer.rs 587-603: the sync info of the newest commit. -/
def tableSequence (commits : List (Commit σ β)) : Option CommitInfo :=
  match commits.getLast? with
  | some c => c.info
  | none => none

/-- `remove_tx_locations`, writer.rs 640-647. -/
def removeTxLocations (txs : List (TxId × Tx)) (url : Url) (ids : List TxId) : List (TxId × Tx) :=
  txs.map (fun p =>
    if ids.contains p.1 then (p.1, { p.2 with locations := p.2.locations.filter (· ≠ url) }) else p)

/-- `remove_sync`, writer.rs 650-656. -/
def removeSync (w : Writer σ β) (url : Url) : Writer σ β :=
  match alGet url w.syncs with
  | none => w
  | some c => { w with syncs := alErase url w.syncs, size := w.size - c.size }

/-- `advance_durable`, writer.rs 661-682.  The code first collects the ids of the leading
complete transactions and then removes them from the map; both are one recursion here. -/
def advanceDurable : List (TxId × Tx) → (Origin → Option Seq) →
    List (TxId × Tx) × (Origin → Option Seq)
  | [], dur => ([], dur)
  | (id, tx) :: rest, dur =>
    match tx.sequence with
    | some s =>
      if tx.locations.isEmpty then advanceDurable rest (fnSet dur tx.origin s)
      else ((id, tx) :: rest, dur)
    | none => ((id, tx) :: rest, dur)

/-- What the storage layer does with one flush of a location.  `fail created`: some fallible call
before or during the commit returned an error or the request was cancelled, nothing of the data was
committed; `created` tells whether the empty table had already been created (writer.rs 415-422).
`ackLost`: the log entry was written but the flush did not get to its in-memory bookkeeping (lost
response, cancelled request). -/
inductive Outcome where
  | ok
  | fail (created : Bool)
  | ackLost
deriving DecidableEq, Repr

/-- Table creation if there is none (writer.rs 415-422). -/
def ensureTable (log : Log σ β) (url : Url) : Log σ β :=
  fun u => if u = url ∧ log u = [] then [{ items := [], info := none }] else log u

/-- Append a commit to the log of one location. -/
def appendCommit (log : Log σ β) (url : Url) (c : Commit σ β) : Log σ β :=
  fun u => if u = url then log u ++ [c] else log u

/-- Whether `flush_syncs` got to its end, i.e. returned `Ok`. -/
abbrev FlushOk := Bool

/-- The bookkeeping after a successful commit, writer.rs 499-509. -/
def finishFlush (w : Writer σ β) (url : Url) (syncs : List (Item σ β)) : Writer σ β :=
  let ids := (syncs.flatMap (·.txIds)).eraseDups
  let w1 := { w with txs := removeTxLocations w.txs url ids }
  let w2 := removeSync w1 url
  let r := advanceDurable w2.txs w2.originDurable
  { w2 with txs := r.1, originDurable := r.2 }

/-- `flush_syncs`, writer.rs 390-525.  Planning and uploading (lines 436-460) either succeed or
are covered by `Outcome.fail`.  The early return for an empty item list (430-434) is modelled as is. -/
def flushSyncs (env : Env σ β) (w : Writer σ β) (log : Log σ β) (url : Url) (out : Outcome) :
    Writer σ β × Log σ β × FlushOk :=
  let sq := squashUrl env w url
  let w := sq.1
  if sq.2 = false then (w, log, false) else
  match alGet url w.syncs with
  | none => (w, log, true)
  | some entry =>
    match out with
    | .fail false => (w, log, false)
    | .fail true => (w, ensureTable log url, false)
    | _ =>
      let log := ensureTable log url
      match commitInfo w.txs (tableSequence (log url)) entry.syncs with
      | none => (w, log, false)
      | some info =>
        if entry.syncs.isEmpty then (removeSync w url, log, true)
        else
          let log := appendCommit log url { items := entry.syncs, info := info }
          match out with
          | .ackLost => (w, log, false)
          | _ => (finishFlush w url entry.syncs, log, true)

/-! ### the flush loop -/

/-- `now() - insertion_time` on `u64` (writer.rs 342) in a release build: wraps around when the
clock went backwards. -/
def lag (now insertionTime : Nat) : Nat :=
  if insertionTime ≤ now then now - insertionTime else 2 ^ 64 - (insertionTime - now)

/-- `max_by_key(|(_, entry)| entry.size)` (writer.rs 355): the last entry of maximal size. -/
def largest : List (Url × Coll σ β) → Option (Url × Coll σ β)
  | [] => none
  | p :: rest =>
    match largest rest with
    | none => some p
    | some q => if q.2.size < p.2.size then some p else some q

/-- First criterion of `flush_ready`, writer.rs 341-351. -/
def readyByLag (env : Env σ β) (w : Writer σ β) (now : Nat) : Option Url :=
  match w.syncs.head? with
  | some (url, c) => if env.maxLag ≤ lag now c.insertionTime then some url else none
  | none => none

/-- Third criterion of `flush_ready`, writer.rs 370-384. -/
def readyByCount (env : Env σ β) (w : Writer σ β) : Option Url :=
  (w.syncs.find? (fun p => decide (env.maxSyncs ≤ p.2.syncs.length))).map (·.1)

/-- Result of `flush_ready`. -/
inductive Ready where
  | url (u : Url)
  | nothing
  | error
deriving DecidableEq, Repr

/-- `flush_ready`, writer.rs 340-387. -/
def flushReady (env : Env σ β) (w : Writer σ β) (now : Nat) : Writer σ β × Ready :=
  match readyByLag env w now with
  | some u => (w, .url u)
  | none =>
    let byCount (w : Writer σ β) : Writer σ β × Ready :=
      match readyByCount env w with
      | some u => (w, .url u)
      | none => (w, .nothing)
    if env.maxBytes ≤ w.size then
      match largest w.syncs with
      | none => byCount w
      | some (u, _) =>
        let sq := squashUrl env w u
        if sq.2 = false then (sq.1, .error)
        else if env.maxBytes ≤ sq.1.size then (sq.1, .url u)
        else byCount sq.1
    else byCount w

/-- Result of `flush`; `outOfFuel` is only there to make the loop structurally recursive and is
shown to be unreachable. -/
inductive FlushRes where
  | ok
  | err
  | outOfFuel
deriving DecidableEq, Repr

/-- The loop of `flush`, writer.rs 321-334.  The storage outcomes of the successive
`flush_syncs` calls are given by a list (`ok` once it is exhausted); the clock is read once per
call of `flush` instead of once per iteration. -/
def flushLoop (env : Env σ β) (now : Nat) : Nat → List Outcome → Writer σ β → Log σ β →
    Writer σ β × Log σ β × FlushRes
  | 0, _, w, log => (w, log, .outOfFuel)
  | fuel + 1, outs, w, log =>
    let r := flushReady env w now
    match r.2 with
    | .error => (r.1, log, .err)
    | .nothing => (r.1, log, .ok)
    | .url u =>
      let f := flushSyncs env r.1 log u (outs.headD .ok)
      if f.2.2 then flushLoop env now fuel outs.tail f.1 f.2.1
      else (f.1, f.2.1, .err)

/-- `flush`, writer.rs 321-334. -/
def flush (env : Env σ β) (w : Writer σ β) (log : Log σ β) (now : Nat) (outs : List Outcome) :
    Writer σ β × Log σ β × FlushRes :=
  flushLoop env now (w.syncs.length + 1) outs w log

/-! ### the service: requests, flush task, other writers -/

/-- What the process and the object store hold.  `acc` is a ghost: the messages that
`enqueue_sync` accepted since the process started, in order. -/
structure World (σ β : Type) where
  w : Writer σ β
  log : Log σ β
  acc : List (Msg σ β)

/-- State at process start with whatever the object store holds. -/
def World.start (log : Log σ β) : World σ β := { w := Writer.new, log := log, acc := [] }

/-- Response to a sync request (handler.rs 136-237, without the `first` flag). -/
inductive Resp where
  | accepted (memory durable : Option Seq)
  | notAccepted                       -- lock timeout, 227-235
  | notImplemented                    -- Iceberg, 192-194
  | invalid (e : EnqErr)              -- 209-215
  | flushFailed                       -- 217
  | none                              -- no request (background task, other writer)
deriving DecidableEq, Repr

/-- Events.  `sync`: a `do_put` request (`lock` = the write lock was obtained in time); `tick`: one
iteration of `flush_task`; `external`: somebody else commits to the table. -/
inductive Op (σ β : Type) where
  | sync (m : Msg σ β) (now : Nat) (lock : Bool) (outs : List Outcome)
  | tick (now : Nat) (lock : Bool) (outs : List Outcome)
  | external (url : Url)

/-- `process_sync_cmd`, handler.rs 136-237.  Building the log store (166-191) is assumed to
succeed. -/
def processSync (env : Env σ β) (W : World σ β) (m : Msg σ β) (now : Nat) (lock : Bool)
    (outs : List Outcome) : World σ β × Resp :=
  if rowsOfBatches env m.batches = 0 ∧ m.sequence = none then
    (W, .accepted (W.w.originMemory m.origin) (W.w.originDurable m.origin))
  else if m.iceberg then (W, .notImplemented)
  else if lock = false then (W, .notAccepted)
  else
    match enqueue env W.w now m W.acc.length with
    | .error e => (W, .invalid e)
    | .ok w1 =>
      let f := flush env w1 W.log now outs
      ({ w := f.1, log := f.2.1, acc := W.acc ++ [m] },
        match f.2.2 with
        | .ok => .accepted (f.1.originMemory m.origin) (f.1.originDurable m.origin)
        | _ => .flushFailed)

/-- One iteration of `flush_task`, sync/mod.rs 95-107. -/
def flushTick (env : Env σ β) (W : World σ β) (now : Nat) (lock : Bool) (outs : List Outcome) :
    World σ β :=
  if lock then
    let f := flush env W.w W.log now outs
    { W with w := f.1, log := f.2.1 }
  else W

/-- One event. -/
def step (env : Env σ β) (W : World σ β) : Op σ β → World σ β × Resp
  | .sync m now lock outs => processSync env W m now lock outs
  | .tick now lock outs => (flushTick env W now lock outs, .none)
  | .external url => ({ W with log := appendCommit W.log url { items := [], info := none } }, .none)

/-- A history of events. -/
def run (env : Env σ β) (W : World σ β) : List (Op σ β) → World σ β
  | [] => W
  | op :: ops => run env (step env W op).1 ops

end Seafowl.Sync
