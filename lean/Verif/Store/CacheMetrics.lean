import Verif.Store.Cache

/-!
# The metrics of the caching object store

Modelled: /repo/src/object_store/cache.rs 62-74 (disk reads), 236-283 (`CachingObjectStoreMetrics`), 416-425
(`get_range_inner`), 446-538 (`get_chunk_range`), 593-777 (`impl ObjectStore`).

The read of `Store/Cache.lean` with the counters it increments; counters stay when a read fails.  What the
backend answered is kept in a log, which the program does not have.  Latencies are left out; so is the gauge of the
occupied bytes, which is documented as approximate.
-/

namespace Seafowl.Store

variable {α : Type}

/-- The counters (cache.rs 164-178, 236-263). -/
structure Meter where
  /-- `get_range_requests_total` -/
  calls : Nat
  /-- `get_range_requested_bytes_total` -/
  asked : Nat
  /-- `hit_read_bytes_total`, memory -/
  mem : Nat
  /-- `hit_read_bytes_total`, disk -/
  disk : Nat
  /-- `get_range_read_bytes_total` -/
  miss : Nat
  /-- `warnings_total`, `cache_file_missing` -/
  missing : Nat
  /-- `requests_total`, `get_range`, `success` -/
  okReqs : Nat
  /-- `requests_total`, `get_range`, `error` -/
  errReqs : Nat
  deriving DecidableEq, Repr

def Meter.zero : Meter := ⟨0, 0, 0, 0, 0, 0, 0, 0⟩

/-- The counters, and what the backend was asked and answered so far. -/
structure Metered (α : Type) where
  meter : Meter
  log : List (Nat × Nat × Option (List α))

/-- `log_get_range_outbound_request` (cache.rs 255-265). -/
def logOutbound (w : Meter) : Option (List α) → Meter
  | some d => { w with okReqs := w.okReqs + 1, miss := w.miss + d.length }
  | none => { w with errReqs := w.errReqs + 1 }

/-- `get_range_inner` (cache.rs 416-425). -/
def fetchM (obj : List α) (s e : Nat) (st : RState α) (w : Metered α) : Option (List α × RState α) × Metered α :=
  let r := tryFetch obj s e st
  (r, { meter := logOutbound w.meter (r.map (·.1)), log := w.log ++ [(s, e, r.map (·.1))] })

/-- A read from memory, a read from disk, a file that is not there (cache.rs 477-491, 67-73). -/
def Meter.readMem (w : Meter) (n : Nat) : Meter := { w with mem := w.mem + n }
@[inherit_doc Meter.readMem] def Meter.readDisk (w : Meter) (n : Nat) : Meter := { w with disk := w.disk + n }
@[inherit_doc Meter.readMem] def Meter.lost (w : Meter) : Meter := { w with missing := w.missing + 1 }

/-- After the fetch for a lost file (cache.rs 492-498). -/
def refetched (k : Nat) : Option (List α × RState α) × Metered α → Option (Option (List α) × RState α) × Metered α
  | (none, w) => (none, w)
  | (some (d, st), w) => (some (some d, cacheChunk st k d), w)

/-- Looking up one chunk (cache.rs 466-501). -/
def lookupChunkM (m : Nat) (obj : List α) (k : Nat) (st : RState α) (w : Metered α) :
    Option (Option (List α) × RState α) × Metered α :=
  let st := interfere st
  match st.cache.entries k with
  | none => (some (none, { st with batch := st.batch ++ [k] }), w)
  | some (.mem d) => (some (some d, st), { w with meter := w.meter.readMem d.length })
  | some .file =>
    let st := interfere st
    match st.cache.files k with
    | some d => (some (some d, st), { w with meter := w.meter.readDisk d.length })
    | none => refetched k (fetchM obj (k * m) ((k + 1) * m) st { w with meter := w.meter.lost })

/-- What is done with a fetched batch (cache.rs 515-531). -/
def fetchedBatch (m : Nat) : Option (List α × RState α) × Metered α → Option (RState α) × Metered α
  | (none, w) => (none, w)
  | (some (d, st), w) =>
    let st' := (splitBatch m st.batch d).foldl (fun s p => cacheChunk s p.1 p.2) { st with result := st.result ++ d }
    (some { st' with batch := [] }, w)

/-- Fetching the outstanding chunks (cache.rs 503-531). -/
def flushBatchM (m : Nat) (obj : List α) (st : RState α) (w : Metered α) : Option (RState α) × Metered α :=
  match st.batch.head?, st.batch.getLast? with
  | some first, some last => fetchedBatch m (fetchM obj (first * m) ((last + 1) * m) st w)
  | _, _ => (some st, w)

/-- The flush of a round of the loop, if there is one (cache.rs 503). -/
def flushIf (m : Nat) (obj : List α) (c : Bool) (st : RState α) (w : Metered α) : Option (RState α) × Metered α :=
  if c then flushBatchM m obj st w else (some st, w)

/-- `result.extend_from_slice` (cache.rs 533-536). -/
def addData (st : RState α) : Option (List α) → RState α
  | some d => { st with result := st.result ++ d }
  | none => st

/-- The loop of `get_chunk_range` (cache.rs 457-537). -/
def chunkLoopM (m : Nat) (obj : List α) : List Nat → RState α → Metered α → Option (RState α) × Metered α
  | [], st, w => (some st, w)
  | k :: ks, st, w =>
    match lookupChunkM m obj k st w with
    | (none, w) => (none, w)
    | (some (data, st), w) =>
      match flushIf m obj (data.isSome || ks.isEmpty) st w with
      | (none, w) => (none, w)
      | (some st, w) => chunkLoopM m obj ks (addData st data) w

/-- The counters of the call itself (cache.rs 660-663). -/
def Meter.call (w : Meter) (n : Nat) : Meter := { w with calls := w.calls + 1, asked := w.asked + n }

/-- One `get_range` of a history: what the environment does, which backend requests fail, the range. -/
structure RCall (α : Type) where
  envs : List (List (Ev α))
  fails : List Bool
  start : Nat
  stop : Nat

/-- `get_range` (cache.rs 655-683). -/
def getRangeM (m : Nat) (obj : List α) (cache : CState α) (c : RCall α) (w : Metered α) :
    RRes α × RState α × Metered α :=
  let st0 : RState α := ⟨cache, [], [], [], c.envs, c.fails⟩
  let w := { w with meter := w.meter.call (c.stop - c.start) }
  if c.stop = 0 ∨ m = 0 ∨ c.stop < c.start then (.panic, st0, w)
  else
    match chunkLoopM m obj (List.range' (c.start / m) ((c.stop - 1) / m + 1 - c.start / m)) st0 w with
    | (none, w) =>
      (.err, leftover m obj (List.range' (c.start / m) ((c.stop - 1) / m + 1 - c.start / m)) st0, w)
    | (some st, w) =>
      if st.result.length < c.start - c.start / m * m then (.panic, st, w)
      else (.ok ((st.result.drop (c.start - c.start / m * m)).take (c.stop - c.start)), st, w)

/-- Several reads, one after the other; the cache a failed read leaves is up to the environment (`caches`). -/
def readsM (m : Nat) (obj : List α) : List (CState α × RCall α) → Metered α → List (RRes α) × Metered α
  | [], w => ([], w)
  | (cache, c) :: rest, w =>
    let r := getRangeM m obj cache c w
    let t := readsM m obj rest r.2.2
    (r.1 :: t.1, t.2)

/-! ### the other operations -/

/-- Calls to the object store behind the cache; the last three are those of a multipart upload, which gets the
upload of the store itself. -/
inductive SCall where
  | put | putMultipart | putMultipartOpts | get | getRange | head | delete | deleteStream | list
  | listWithDelimiter | copy | copyIfNotExists | putPart | complete | abort
  deriving DecidableEq, Repr

/-- How a call went; a path is text. -/
inductive SRes where
  | ok
  | notFound (path : List Char)
  | other
  deriving DecidableEq, Repr

/-- `path.ends_with("_last_checkpoint")` (cache.rs 642-646). -/
def lastCheckpoint : List Char := "_last_checkpoint".toList

def isLastCheckpoint (path : List Char) : Bool := lastCheckpoint.isSuffixOf path

/-- The `success` of `get_opts` (cache.rs 639-649). -/
def getSuccess : SRes → Bool
  | .ok => true
  | .notFound p => isLastCheckpoint p
  | .other => false

/-- `result.is_ok()`. -/
def SRes.isOk : SRes → Bool
  | .ok => true
  | _ => false

/-- The labels `operation` and `success` of a call; `none`: not counted (cache.rs 593-777). -/
def series : SCall → SRes → Option (String × Option Bool)
  | .put, r => some ("put", some r.isOk)
  | .putMultipart, r => some ("put_multipart", some r.isOk)
  | .putMultipartOpts, _ => none
  | .get, r => some ("get", some (getSuccess r))
  | .getRange, r => some ("get_range", some r.isOk)
  | .head, r => some ("head", some r.isOk)
  | .delete, r => some ("delete", some r.isOk)
  | .deleteStream, _ => some ("delete_stream", none)
  | .list, _ => some ("list", none)
  | .listWithDelimiter, r => some ("list_with_delimiter", some r.isOk)
  | .copy, r => some ("copy", some r.isOk)
  | .copyIfNotExists, r => some ("copy_if_not_exists", some r.isOk)
  | .putPart, _ => none
  | .complete, _ => none
  | .abort, _ => none

/-- The label `status` (cache.rs 242-246). -/
def statusLabel : Option Bool → String
  | some true => "success"
  | some false => "error"
  | none => "unknown"

/-- `requests_total` after a history of calls (cache.rs 236-253). -/
def requestsTotal : List (SCall × SRes) → String → String → Nat
  | [], _, _ => 0
  | (c, r) :: rest, op, status =>
    (match series c r with
      | some (o, b) => if o = op ∧ statusLabel b = status then 1 else 0
      | none => 0) + requestsTotal rest op status

end Seafowl.Store
