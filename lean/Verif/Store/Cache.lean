/-!
# Model of the caching object store

`CachingObjectStore` (/repo/src/object_store/cache.rs): ranged reads through a cache of chunks of
`min_fetch_size` bytes.

One location is modelled; cache keys and file names of different locations are different (file names
contain a SHA-256 hash of the path).  What other tasks do to the cache between two steps of a read
(evictions, expirations, other readers, disk writes) is a list of events.  Metrics are left out.
-/

namespace Seafowl.Store

/-- `CacheValue` (cache.rs 116-120); the file of a chunk is in `CState.files`. -/
inductive CVal (α : Type) where
  | mem (data : List α)
  | file
deriving DecidableEq, Repr

/-- The cache entries and the cache files of one location by chunk number.  (The key of chunk `k` is the
range `k * m .. (k + 1) * m`, cache.rs 458-464.) -/
structure CState (α : Type) where
  entries : Nat → Option (CVal α)
  files : Nat → Option (List α)

variable {α : Type}

/-- The empty cache. -/
def CState.empty : CState α := { entries := fun _ => none, files := fun _ => none }

/-- Assignment at one chunk. -/
def upd {γ : Type} (f : Nat → γ) (k : Nat) (v : γ) : Nat → γ := fun i => if i = k then v else f i

/-- What other tasks do to the cache. -/
inductive Ev (α : Type) where
  /-- eviction or expiration; the listener deletes the file (cache.rs 314-344) -/
  | evict (k : Nat)
  /-- another reader caches the data it fetched (`or_insert`, cache.rs 540-546) -/
  | insert (k : Nat) (data : List α)
  /-- a write task wrote the file and replaces the entry (cache.rs 559-570); if the old entry was a file,
  the listener deletes the file, which has the same name -/
  | wrote (k : Nat) (data : List α)
  /-- a write task failed and invalidates the entry (cache.rs 571-577) -/
  | writeFailed (k : Nat)
  /-- the file disappears -/
  | fileLost (k : Nat)
  /-- a write task has written only a part of the file so far (`tokio::fs::write` is not atomic) -/
  | partialWrite (k : Nat) (data : List α)

/-- The effect of an event. -/
def applyEv (s : CState α) : Ev α → CState α
  | .evict k =>
    { entries := upd s.entries k none
      files := match s.entries k with
        | some .file => upd s.files k none
        | _ => s.files }
  | .insert k d =>
    match s.entries k with
    | none => { s with entries := upd s.entries k (some (.mem d)) }
    | some _ => s
  | .wrote k d =>
    { entries := upd s.entries k (some .file)
      files := match s.entries k with
        | some .file => upd s.files k none
        | _ => upd s.files k (some d) }
  | .writeFailed k =>
    { entries := upd s.entries k none
      files := match s.entries k with
        | some .file => upd s.files k none
        | _ => s.files }
  | .fileLost k => { s with files := upd s.files k none }
  | .partialWrite k d => { s with files := upd s.files k (some d) }

/-- Several events. -/
def applyEvs (s : CState α) (evs : List (Ev α)) : CState α := evs.foldl applyEv s

/-- State of a read: cache, bytes collected so far (`result`), chunks to fetch (`chunk_batch`), the
requests sent to the backend (a log), what the environment will do at the coming points of interference,
and which of the coming backend requests will fail. -/
structure RState (α : Type) where
  cache : CState α
  result : List α
  batch : List Nat
  reqs : List (Nat × Nat)
  envs : List (List (Ev α))
  fails : List Bool

/-- Other tasks run. -/
def interfere (st : RState α) : RState α :=
  { st with cache := applyEvs st.cache (st.envs.headD []), envs := st.envs.tail }

/-- `get_range` of the backing store (library behaviour: an error if the range is empty or starts behind
the end of the object, otherwise the part inside the object). -/
def innerGet (obj : List α) (s e : Nat) : Option (List α) :=
  if s < e ∧ s < obj.length then some ((obj.drop s).take (e - s)) else none

/-- `get_range_inner` (cache.rs 416-425). -/
def fetch (obj : List α) (s e : Nat) (st : RState α) : Option (List α × RState α) :=
  let st := interfere st
  let st := { st with reqs := st.reqs ++ [(s, e)], fails := st.fails.tail }
  match innerGet obj s e with
  | none => none
  | some d => some (d, st)

/-- Whether the next backend request fails is decided by the oracle. -/
def tryFetch (obj : List α) (s e : Nat) (st : RState α) : Option (List α × RState α) :=
  if st.fails.headD false then none else fetch obj s e st

/-- `cache_chunk_data` (cache.rs 540-582); the write task is part of the environment. -/
def cacheChunk (st : RState α) (k : Nat) (d : List α) : RState α :=
  let st := interfere st
  { st with cache := applyEv st.cache (.insert k d) }

/-- Looking up one chunk (cache.rs 466-501): the data if there is any. -/
def lookupChunk (m : Nat) (obj : List α) (k : Nat) (st : RState α) : Option (Option (List α) × RState α) :=
  let st := interfere st
  match st.cache.entries k with
  | none => some (none, { st with batch := st.batch ++ [k] })
  | some (.mem d) => some (some d, st)
  | some .file =>
    let st := interfere st
    match st.cache.files k with
    | some d => some (some d, st)
    | none =>
      match tryFetch obj (k * m) ((k + 1) * m) st with
      | none => none
      | some (d, st) => some (some d, cacheChunk st k d)

/-- Cutting a fetched batch into chunks (cache.rs 519-528). -/
def splitBatch (m : Nat) : List Nat → List α → List (Nat × List α)
  | [], _ => []
  | k :: ks, d =>
    if d.length < m then (k, d) :: splitBatch m ks d
    else (k, d.take m) :: splitBatch m ks (d.drop m)

/-- Fetching the outstanding chunks (cache.rs 503-531). -/
def flushBatch (m : Nat) (obj : List α) (st : RState α) : Option (RState α) :=
  match st.batch.head?, st.batch.getLast? with
  | some first, some last =>
    match tryFetch obj (first * m) ((last + 1) * m) st with
    | none => none
    | some (d, st) =>
      let st' := (splitBatch m st.batch d).foldl (fun s p => cacheChunk s p.1 p.2)
        { st with result := st.result ++ d }
      some { st' with batch := [] }
  | _, _ => some st

/-- The loop of `get_chunk_range` (cache.rs 457-537) over the remaining chunks. -/
def chunkLoop (m : Nat) (obj : List α) : List Nat → RState α → Option (RState α)
  | [], st => some st
  | k :: ks, st =>
    match lookupChunk m obj k st with
    | none => none
    | some (data, st) =>
      match (if data.isSome || ks.isEmpty then flushBatch m obj st else some st) with
      | none => none
      | some st =>
        chunkLoop m obj ks (match data with
          | some d => { st with result := st.result ++ d }
          | none => st)

/-- After a request that failed (cache.rs 416-425): it was sent, and other tasks ran meanwhile. -/
def failedFetch (s e : Nat) (st : RState α) : RState α :=
  let st := interfere st
  { st with reqs := st.reqs ++ [(s, e)], fails := st.fails.tail }

/-- What the loop leaves behind if one of its requests fails (the `?` in cache.rs 492-494 and 513): what was
fetched before stays in the cache. -/
def leftover (m : Nat) (obj : List α) : List Nat → RState α → RState α
  | [], st => st
  | k :: ks, st =>
    match lookupChunk m obj k st with
    | none => failedFetch (k * m) ((k + 1) * m) (interfere (interfere st))
    | some (data, st) =>
      match (if data.isSome || ks.isEmpty then flushBatch m obj st else some st) with
      | none => failedFetch (st.batch.head?.getD 0 * m) ((st.batch.getLast?.getD 0 + 1) * m) st
      | some st =>
        leftover m obj ks (match data with
          | some d => { st with result := st.result ++ d }
          | none => st)

/-- Result of a read. -/
inductive RRes (α : Type) where
  | ok (data : List α)
  | err
  | panic
deriving DecidableEq, Repr

/-- `get_range` (cache.rs 655-683), with `start..stop` the requested range.  It panics for an empty range
at 0 (`range.end - 1`), for a chunk size of 0, and if fewer bytes arrive than are to be skipped. -/
def getRange (m : Nat) (obj : List α) (cache : CState α) (envs : List (List (Ev α))) (fails : List Bool)
    (start stop : Nat) : RRes α × RState α :=
  let st0 : RState α := { cache := cache, result := [], batch := [], reqs := [], envs := envs, fails := fails }
  if stop = 0 ∨ m = 0 ∨ stop < start then (.panic, st0)
  else
    let sc := start / m
    let ec := (stop - 1) / m
    match chunkLoop m obj (List.range' sc (ec + 1 - sc)) st0 with
    | none => (.err, leftover m obj (List.range' sc (ec + 1 - sc)) st0)
    | some st =>
      let off := start - sc * m
      if st.result.length < off then (.panic, st)
      else (.ok ((st.result.drop off).take (stop - start)), st)

/-! ### a store with overwrites and deletions (put_opts, delete: cache.rs 593-608, 698-712) -/

/-- A backing object that may be overwritten or deleted, with the cache in front of it. -/
structure Store (α : Type) where
  obj : Option (List α)
  cache : CState α

/-- Requests to the caching store. -/
inductive Req (α : Type) where
  | put (data : List α)
  | delete
  | read (start stop : Nat)
  | tasks (evs : List (Ev α))

/-- One request without interference or failures; `put` and `delete` go to the backing store only. -/
def serve (m : Nat) (s : Store α) : Req α → Store α × Option (RRes α)
  | .put d => ({ s with obj := some d }, none)
  | .delete => ({ s with obj := none }, none)
  | .read a b =>
    let r := getRange m (s.obj.getD []) s.cache [] [] a b
    ({ s with cache := r.2.cache }, some r.1)
  | .tasks evs => ({ s with cache := applyEvs s.cache evs }, none)

/-- Several requests; the answers in order. -/
def serveAll (m : Nat) (s : Store α) : List (Req α) → Store α × List (RRes α)
  | [] => (s, [])
  | r :: rs =>
    let a := serve m s r
    let b := serveAll m a.1 rs
    (b.1, a.2.toList ++ b.2)

end Seafowl.Store
