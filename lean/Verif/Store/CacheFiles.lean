/-!
# The files of the cache

Modelled: /repo/src/object_store/cache.rs 48-65 (`write_file`), 75-80 (`remove_file`), 119-132
(`CacheValue`), 314-344 (`on_evict`), 376-386 (the cache with its weigher and listener), 540-582
(`cache_chunk_data` with the write task it spawns).

`Store/Cache.lean` takes what write tasks do to the cache as single events.  Here they are taken apart:
every await point of a write task and of the eviction listener is a step, and steps of any number of
tasks interleave freely.  One chunk is modelled, with the file it has in the cache directory (file names
contain the hash of the location and the range, so different chunks have different files).  The file
system keeps contents by inode: removing a file takes away its name, a task that has it open goes on
writing.  moka makes an operation on a key wait for the listener of this key; this is left out, so the
model has more interleavings than the program.
-/
namespace Seafowl.Store.Files

/-- `CacheValue` (119-132); the path is that of the chunk. -/
inductive Entry where
  | mem (data : List Nat)
  | file (size : Nat)
  deriving DecidableEq, Repr

/-- `size` (126-131). -/
def Entry.size : Entry → Nat
  | .mem data => data.length
  | .file size => size

/-- The weigher (380): `as u32`. -/
def Entry.weight (e : Entry) : Nat := e.size % 2 ^ 32

/-- Where a write task is (557-580, 48-65). -/
inductive Phase where
  /-- spawned, `path.exists()` not asked yet -/
  | start
  /-- there was no file -/
  | absent
  /-- `tokio::fs::write` has opened the file, `off` bytes are written -/
  | writing (ino off : Nat)
  /-- `write_file` returned the path -/
  | written
  deriving DecidableEq, Repr

structure Task where
  data : List Nat
  phase : Phase
  deriving DecidableEq, Repr

/-- A chunk: its entry in the cache, its file, and what is running.  `dels` are listener calls that have
not removed the file yet. -/
structure Chunk where
  entry : Option Entry
  link : Option Nat
  inodes : List (List Nat)
  tasks : List Task
  dels : Nat
  deriving DecidableEq, Repr

def Chunk.empty : Chunk := ⟨none, none, [], [], 0⟩

/-- What can happen next; `i` is the number of a write task. -/
inductive Step where
  /-- a reader caches what it fetched -/
  | cache (data : List Nat)
  | check (i : Nat)
  | openFile (i : Nat)
  | put (i n : Nat)
  | close (i : Nat)
  | publish (i : Nat)
  /-- creating or writing the file fails -/
  | writeErr (i : Nat)
  /-- expiration or eviction -/
  | evict
  | delete
  | deleteErr
  deriving DecidableEq, Repr

/-- An entry goes: the listener is called with it and removes the file if it was one (314-344).  Memory
needs no removal. -/
def pendingDelete : Option Entry → Nat
  | some (.file _) => 1
  | _ => 0

/-- `pwrite` of `bs` at `off`; a gap reads as zeros. -/
def writeAt (c : List Nat) (off : Nat) (bs : List Nat) : List Nat :=
  (c ++ List.replicate (off - c.length) 0).take off ++ bs ++ c.drop (off + bs.length)

/-- Content of an inode. -/
def Chunk.content (s : Chunk) (ino : Nat) : List Nat := s.inodes.getD ino []

/-- `cache_chunk_data` (540-558): `or_insert`, and a write task if the entry is new. -/
def cacheStep (s : Chunk) (data : List Nat) : Chunk :=
  match s.entry with
  | none => { s with entry := some (.mem data), tasks := s.tasks ++ [⟨data, .start⟩] }
  | some _ => s

/-- `path.exists()` (52-57): a file that is there is not written. -/
def checkStep (s : Chunk) (i : Nat) (t : Task) : Chunk :=
  match t.phase with
  | .start => { s with tasks := s.tasks.set i { t with phase := if s.link.isSome then .written else .absent } }
  | _ => s

/-- `tokio::fs::write` (60), first part: create the file, or truncate the one that is there. -/
def openStep (s : Chunk) (i : Nat) (t : Task) : Chunk :=
  match t.phase with
  | .absent =>
    match s.link with
    | none =>
      { s with link := some s.inodes.length, inodes := s.inodes ++ [[]],
               tasks := s.tasks.set i { t with phase := .writing s.inodes.length 0 } }
    | some ino =>
      { s with inodes := s.inodes.set ino [], tasks := s.tasks.set i { t with phase := .writing ino 0 } }
  | _ => s

/-- `tokio::fs::write` (60), second part: some more bytes get written. -/
def putStep (s : Chunk) (i : Nat) (t : Task) (n : Nat) : Chunk :=
  match t.phase with
  | .writing ino off =>
    let bs := (t.data.drop off).take n
    { s with inodes := s.inodes.set ino (writeAt (s.content ino) off bs),
             tasks := s.tasks.set i { t with phase := .writing ino (off + bs.length) } }
  | _ => s

/-- `tokio::fs::write` (60), last part: everything is written. -/
def closeStep (s : Chunk) (i : Nat) (t : Task) : Chunk :=
  match t.phase with
  | .writing _ off =>
    if off = t.data.length then { s with tasks := s.tasks.set i { t with phase := .written } } else s
  | _ => s

/-- The entry becomes a file pointer (561-567); the listener gets the old entry (`Replaced`). -/
def publishStep (s : Chunk) (i : Nat) (t : Task) : Chunk :=
  match t.phase with
  | .written =>
    { s with entry := some (.file t.data.length), tasks := s.tasks.eraseIdx i,
             dels := s.dels + pendingDelete s.entry }
  | _ => s

/-- Creating or writing the file failed: the entry is invalidated (568-576).  What is written stays. -/
def writeErrStep (s : Chunk) (i : Nat) (t : Task) : Chunk :=
  match t.phase with
  | .absent | .writing _ _ =>
    { s with entry := none, tasks := s.tasks.eraseIdx i, dels := s.dels + pendingDelete s.entry }
  | _ => s

/-- A step of task `i`, if there is one. -/
def withTask (s : Chunk) (i : Nat) (f : Task → Chunk) : Chunk :=
  match s.tasks[i]? with
  | some t => f t
  | none => s

/-- One step.  `remove_file` (336-342) may fail, which is logged only. -/
def step (s : Chunk) : Step → Chunk
  | .cache data => cacheStep s data
  | .check i => withTask s i (checkStep s i)
  | .openFile i => withTask s i (openStep s i)
  | .put i n => withTask s i (putStep s i · n)
  | .close i => withTask s i (closeStep s i)
  | .publish i => withTask s i (publishStep s i)
  | .writeErr i => withTask s i (writeErrStep s i)
  | .evict => { s with entry := none, dels := s.dels + pendingDelete s.entry }
  | .delete => if s.dels = 0 then s else { s with link := none, dels := s.dels - 1 }
  | .deleteErr => { s with dels := s.dels - 1 }

def steps (s : Chunk) (l : List Step) : Chunk := l.foldl step s

/-- What a reader gets from the cache (466-485); `none`: it asks the object store. -/
def readChunk (s : Chunk) : Option (List Nat) :=
  match s.entry with
  | none => none
  | some (.mem data) => some data
  | some (.file _) => s.link.map s.content

/-- Bytes the file takes. -/
def Chunk.disk (s : Chunk) : Nat :=
  match s.link with
  | none => 0
  | some ino => (s.content ino).length

end Seafowl.Store.Files
