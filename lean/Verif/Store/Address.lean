/-!
# Where a table is, and what it is called

Modelled: /repo/src/object_store/wrapped.rs 33-78 (`InternalObjectStore::new`: the root URI), 80-87 (`local_table_dir`),
89-103 (`table_prefix`), 105-122 (`get_log_store`); /repo/src/object_store/factory.rs 139-155 (the prefix and the URL of a
table with a location of its own); /repo/object_store_factory/src/lib.rs 129-172 (the part of the URL that becomes a prefix);
/repo/src/sync/writer.rs 164-169, 210-258 (the queue of a change is found by the URI of its table, and a new queue writes to
the table it was made for).

Library behaviour, written out: `Url` (`url` 2.5.4) for URLs with an authority, whose path consists of characters that are
neither escaped nor special; `object_store::path::Path::from`; `PrefixStore`; the addresses understood by `parse_url_opts`.
-/
namespace Seafowl.Address

abbrev Text := List Char

/-- `str::split('/')`: there is always at least one part. -/
def split : Text → List Text
  | [] => [[]]
  | c :: cs =>
    if c = '/' then [] :: split cs
    else
      match split cs with
      | s :: rest => (c :: s) :: rest
      | [] => [[c]]

/-- A URL with an authority: its path is `/` and the segments with `/` in between; no segments is the empty path. -/
structure Url where
  scheme : Text
  host : Text
  segs : List Text
  deriving DecidableEq, Repr

/-- The `..` and `.` of a path are resolved when a URL is parsed (library behaviour, "path state"): `acc` is the path so
far. -/
def norm (acc : List Text) : List Text → List Text
  | [] => acc
  | [s] =>
    if s = ['.', '.'] then acc.dropLast ++ [[]]
    else if s = ['.'] then acc ++ [[]]
    else acc ++ [s]
  | s :: t :: rest =>
    if s = ['.', '.'] then norm acc.dropLast (t :: rest)
    else if s = ['.'] then norm acc (t :: rest)
    else norm (acc ++ [s]) (t :: rest)

/-- The URL of `scheme://host` followed by `rest`, which is empty or begins with `/`. -/
def parse (scheme host : Text) : Text → Url
  | [] => ⟨scheme, host, []⟩
  | _ :: cs => ⟨scheme, host, norm [] (split cs)⟩

/-- `Url::join` with a relative path: an absolute path replaces the path, any other is resolved against the directory of
the base.  Simplified: references with a scheme, an authority, a query or a fragment are not covered. -/
def join (base : Url) : Text → Url
  | [] => base
  | '/' :: cs => { base with segs := norm [] (split cs) }
  | cs => { base with segs := norm base.segs.dropLast (split cs) }

/-- `ObjectStoreConfig`, with the fields that say where things are.  An endpoint is `scheme://host` and what follows. -/
inductive Config where
  /-- the canonical path of the data directory -/
  | localFs (dir : List Text)
  | memory
  | s3 (endpoint : Option (Text × Text × Text)) (bucket : Text) (pre : Option Text)
  | gcs (bucket : Text) (pre : Option Text)
  deriving DecidableEq, Repr

/-- `format!("{base_url}/{prefix}")` if there is a prefix (wrapped.rs 49-51, 57-59). -/
def withPrefix (base : Text) : Option Text → Text
  | none => base
  | some p => base ++ '/' :: p

/-- The root URI as configured (wrapped.rs 34-63). -/
def baseUri : Config → Url
  | .localFs dir => ⟨['f', 'i', 'l', 'e'], [], dir ++ [[]]⟩
  | .memory => ⟨['m', 'e', 'm', 'o', 'r', 'y'], [], []⟩
  | .s3 (some (sch, host, rest)) bucket pre => parse sch host (withPrefix (rest ++ '/' :: bucket) pre)
  | .s3 none bucket pre => parse ['s', '3'] bucket (withPrefix [] pre)
  | .gcs bucket pre => parse ['g', 's'] bucket (withPrefix [] pre)

/-- A slash is added at the end of the path if there is none (wrapped.rs 65-68). -/
def withSlash (u : Url) : Url :=
  if u.segs.getLast? = some [] then u else { u with segs := u.segs ++ [[]] }

/-- `InternalObjectStore::root_uri`. -/
def rootUri (c : Config) : Url := withSlash (baseUri c)

/-- `PathPart::from`: a part that consists of dots is escaped.  Simplified: so are some characters; they are left out. -/
def part (s : Text) : Text :=
  if s = ['.'] then ['%', '2', 'E']
  else if s = ['.', '.'] then ['%', '2', 'E', '%', '2', 'E']
  else s

/-- `object_store::path::Path::from`: empty parts are dropped. -/
def pathFrom (t : Text) : List Text := ((split t).filter (fun s => decide (s ≠ []))).map part

/-- `table_prefix` (wrapped.rs 89-103): the directory of a table in the store. -/
def tablePrefix (c : Config) (name : Text) : List Text :=
  match c with
  | .s3 _ _ (some p) => pathFrom (p ++ '/' :: name)
  | .gcs _ (some p) => pathFrom (p ++ '/' :: name)
  | _ => pathFrom name

/-- `get_log_store` (wrapped.rs 112-122): the directory of the table, and its URI. -/
def logStore (c : Config) (name : Text) : List Text × Url := (tablePrefix c name, join (rootUri c) name)

/-- `local_table_dir` (wrapped.rs 80-87), as parts of a path: files are moved there instead of being uploaded. -/
def localTableDir (c : Config) (name : Text) : Option (List Text) :=
  match c with
  | .localFs dir => some (dir ++ split name)
  | _ => none

/-! ## Tables with a location of their own -/

/-- What `parse_url_opts` reads from a URL (library behaviour): the bucket.  For addresses of the services in the path style
it is the first part of the path. -/
inductive Style where
  /-- `s3://bucket/…`, `gs://bucket/…`, `https://bucket.s3.region.amazonaws.com/…` -/
  | hostIsBucket
  /-- `https://s3.region.amazonaws.com/bucket/…`, `https://account.r2.cloudflarestorage.com/bucket/…` -/
  | pathHasBucket
  deriving DecidableEq, Repr

/-- The store of a location in a bucket (lib.rs 152-172): the bucket, and the prefix all paths get, the path of the URL. -/
def customStore (st : Style) (u : Url) : Text × List Text :=
  (match st with
    | .hostIsBucket => u.host
    | .pathHasBucket => u.segs.headD [],
   (u.segs.filter (fun s => decide (s ≠ []))).map part)

/-- The place of the file with the given path in a table with a location of its own (factory.rs 139-141): bucket and key. -/
def customKey (st : Style) (u : Url) (table : Text) (file : List Text) : Text × List Text :=
  ((customStore st u).1, (customStore st u).2 ++ (pathFrom table ++ file))

/-- `pop_if_empty().extend(table_path.split("/"))` (factory.rs 144-152): `extend` leaves out `.` and `..`. -/
def customUrl (u : Url) (table : Text) : Url :=
  { u with segs := (if u.segs.getLast? = some [] then u.segs.dropLast else u.segs) ++
      (split table).filter (fun s => decide (s ≠ ['.'] ∧ s ≠ ['.', '.'])) }

/-! ## The queues of changes -/

/-- A queue: the URI it is found by, and the directory its changes are written to (writer.rs 164-169, 210-258). -/
structure Queue where
  uri : Url
  dir : List Text
  changes : List Nat
  deriving DecidableEq, Repr

/-- A change of the table with the given path is put into its queue; the target of an existing queue stays. -/
def enqueue (c : Config) (name : Text) (x : Nat) : List Queue → List Queue
  | [] => [⟨(logStore c name).2, (logStore c name).1, [x]⟩]
  | q :: qs =>
    if q.uri = (logStore c name).2 then { q with changes := q.changes ++ [x] } :: qs
    else q :: enqueue c name x qs

/-- Changes of several tables, one after the other. -/
def enqueueAll (c : Config) (qs : List Queue) (xs : List (Text × Nat)) : List Queue :=
  xs.foldl (fun qs x => enqueue c x.1 x.2 qs) qs

/-- What a flush of all queues writes to each directory. -/
def written (qs : List Queue) (dir : List Text) : List Nat :=
  (qs.filter (fun q => decide (q.dir = dir))).flatMap (·.changes)

end Seafowl.Address
