import Verif.Sync.WriterInfo

/-!
# Model of the metrics of the sync writer

`/repo/src/sync/metrics.rs` declares the counters and gauges, `/repo/src/sync/writer.rs` updates
them.  The functions below follow the functions of `Verif.Sync.Writer` and say what each does to
the metrics; the writer itself never reads them.

Simplifications: gauges hold `f64` in the code, here integers (equal up to `2^53`); histograms of
durations and the log lines are left out, among them the one of writer.rs 573-576, whose
`old_size - self.size` would underflow if squashing made a table's batches larger.
-/

namespace Seafowl.Sync

variable {σ β : Type}

/-- The counters and gauges of `SyncWriterMetrics` (metrics.rs 28-44), and the two families of
gauges per origin (metrics.rs 116-124).  `none`: the gauge was never set. -/
structure Metrics where
  reqBytes : Nat
  reqRows : Nat
  memBytes : Int
  memRows : Int
  oldest : Nat
  sqBytes : Nat
  sqRows : Nat
  flBytes : Nat
  flRows : Nat
  flLast : Nat
  seqMem : Origin → Option Nat
  seqDur : Origin → Option Nat

/-- A new process (metrics.rs 53-114). -/
def Metrics.new : Metrics :=
  { reqBytes := 0, reqRows := 0, memBytes := 0, memRows := 0, oldest := 0, sqBytes := 0,
    sqRows := 0, flBytes := 0, flRows := 0, flLast := 0,
    seqMem := fun _ => none, seqDur := fun _ => none }

/-- `self.syncs.first().map(|(_, v)| v.insertion_time).unwrap_or(0)` (writer.rs 274-277 and
327-330). -/
def firstInsertion (w : Writer σ β) : Nat :=
  match w.syncs.head? with
  | some (_, c) => c.insertionTime
  | none => 0

/-- The metrics of `enqueue_sync` for a message with rows, writer.rs 226-228 and 271-278; `w` is
the writer after the message was buffered. -/
def bufferMet (env : Env σ β) (w : Writer σ β) (m : Msg σ β) (mt : Metrics) : Metrics :=
  { mt with
    reqBytes := mt.reqBytes + sizeOfBatches env m.batches
    reqRows := mt.reqRows + rowsOfBatches env m.batches
    memBytes := mt.memBytes + (sizeOfBatches env m.batches : Int)
    memRows := mt.memRows + (rowsOfBatches env m.batches : Int)
    oldest := firstInsertion w }

/-- The metrics of an accepted message, writer.rs 226-286; `w` is the writer afterwards. -/
def enqueueMet (env : Env σ β) (w : Writer σ β) (m : Msg σ β) (mt : Metrics) : Metrics :=
  let mt1 := if 0 < rowsOfBatches env m.batches then bufferMet env w m mt else mt
  match m.sequence with
  | some s => { mt1 with seqMem := fnSet mt1.seqMem m.origin s }
  | none => mt1

/-- The metrics of one squashed item, writer.rs 541-559: the two counters saturate, the two gauges
get the signed difference, `in_memory_bytes` by `decrement`, `in_memory_rows` by `increment`. -/
def squashItemMet (env : Env σ β) (old : List β) (b : β) (mt : Metrics) : Metrics :=
  { mt with
    sqBytes := mt.sqBytes + (sizeOfBatches env old - env.bytes b)
    sqRows := mt.sqRows + (rowsOfBatches env old - env.rows b)
    memBytes := mt.memBytes - ((sizeOfBatches env old : Int) - (env.bytes b : Int))
    memRows := mt.memRows + ((rowsOfBatches env old : Int) - (env.rows b : Int)) }

/-- The metrics of the loop of `physical_squashing` (writer.rs 534-570), item by item as
`squashLoop`. -/
def squashMet (env : Env σ β) : List (Item σ β) → Metrics → Metrics
  | [], mt => mt
  | it :: rest, mt =>
    if it.isSquashed then squashMet env rest mt
    else
      match env.squash it.schema it.data with
      | none => mt
      | some (_, b) => squashMet env rest (squashItemMet env it.data b mt)

/-- The metrics of `physical_squashing`, writer.rs 528-580. -/
def squashUrlMet (env : Env σ β) (w : Writer σ β) (url : Url) (mt : Metrics) : Metrics :=
  match alGet url w.syncs with
  | none => mt
  | some c => squashMet env c.syncs mt

/-- The metrics of `remove_sync`, writer.rs 650-656. -/
def removeMet (w : Writer σ β) (url : Url) (mt : Metrics) : Metrics :=
  match alGet url w.syncs with
  | none => mt
  | some c => { mt with memBytes := mt.memBytes - (c.size : Int), memRows := mt.memRows - (c.rows : Int) }

/-- One gauge of `sequence_durable` after the loop of writer.rs 520-522: it is set if the origin is
in `origin_durable` and keeps its value otherwise. -/
def durGauge (dur prev : Option Nat) : Option Nat :=
  match dur with
  | some s => some s
  | none => prev

/-- The metrics at the end of a successful `flush_syncs`, writer.rs 508-522; `w` is the writer
before the entry `c` is removed and `w'` after. -/
def finishMet (w w' : Writer σ β) (url : Url) (c : Coll σ β) (now : Nat) (mt : Metrics) : Metrics :=
  let mt1 := removeMet w url mt
  { mt1 with
    flBytes := mt1.flBytes + c.size
    flRows := mt1.flRows + c.rows
    flLast := now
    seqDur := fun o => durGauge (w'.originDurable o) (mt1.seqDur o) }

/-- The metrics of `flush_syncs`, writer.rs 390-525, branch by branch as `flushSyncs`. -/
def flushSyncsMet (env : Env σ β) (w0 : Writer σ β) (log : Log σ β) (url : Url) (out : Outcome)
    (now : Nat) (mt0 : Metrics) : Metrics :=
  let sq := squashUrl env w0 url
  let w := sq.1
  let mt := squashUrlMet env w0 url mt0
  if sq.2 = false then mt else
  match alGet url w.syncs with
  | none => mt
  | some entry =>
    match out with
    | .fail _ => mt
    | _ =>
      match commitInfo w.txs (tableSequence (ensureTable log url url)) entry.syncs with
      | none => mt
      | some _ =>
        if entry.syncs.isEmpty then removeMet w url mt
        else
          match out with
          | .ackLost => mt
          | _ => finishMet w (finishFlush w url entry.syncs) url entry now mt

/-- The metrics of `flush_ready`, writer.rs 340-387: only its squashing touches them. -/
def flushReadyMet (env : Env σ β) (w : Writer σ β) (now : Nat) (mt : Metrics) : Metrics :=
  match readyByLag env w now with
  | some _ => mt
  | none =>
    if env.maxBytes ≤ w.size then
      match largest w.syncs with
      | none => mt
      | some (u, _) => squashUrlMet env w u mt
    else mt

/-- The metrics of `flush`, writer.rs 321-334: when the loop ends without an error,
`in_memory_oldest` is set (326-331). -/
def flushLoopMet (env : Env σ β) (now : Nat) : Nat → List Outcome → Writer σ β → Log σ β →
    Metrics → Metrics
  | 0, _, _, _, mt => mt
  | fuel + 1, outs, w, log, mt =>
    let r := flushReady env w now
    let mt1 := flushReadyMet env w now mt
    match r.2 with
    | .error => mt1
    | .nothing => { mt1 with oldest := firstInsertion r.1 }
    | .url u =>
      let f := flushSyncs env r.1 log u (outs.headD .ok)
      let mt2 := flushSyncsMet env r.1 log u (outs.headD .ok) now mt1
      if f.2.2 then flushLoopMet env now fuel outs.tail f.1 f.2.1 mt2
      else mt2

/-- The metrics of `flush`. -/
def flushMet (env : Env σ β) (w : Writer σ β) (log : Log σ β) (now : Nat) (outs : List Outcome)
    (mt : Metrics) : Metrics :=
  flushLoopMet env now (w.syncs.length + 1) outs w log mt

/-- The metrics of one event, as `step`. -/
def stepMet (env : Env σ β) (W : World σ β) (mt : Metrics) : Op σ β → Metrics
  | .sync m now lock outs =>
    if rowsOfBatches env m.batches = 0 ∧ m.sequence = none then mt
    else if m.iceberg then mt
    else if lock = false then mt
    else
      match enqueue env W.w now m W.acc.length with
      | .error _ => mt
      | .ok w1 => flushMet env w1 W.log now outs (enqueueMet env w1 m mt)
  | .tick now lock outs => if lock then flushMet env W.w W.log now outs mt else mt
  | .external _ => mt

/-- The metrics after a history of events, as `run`. -/
def runMet (env : Env σ β) (W : World σ β) (mt : Metrics) : List (Op σ β) → Metrics
  | [] => mt
  | op :: ops => runMet env (step env W op).1 (stepMet env W mt op) ops

end Seafowl.Sync
