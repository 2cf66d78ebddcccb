# Formal model of seafowl in Lean 4: design

The model is in `lean/Verif/`. Each source area has

* a *model* file: total, computable Lean functions that follow the Rust code
  function by function; every definition cites file and lines of `/repo` and says
  where it is simplified,
* *lemma* files where needed,
* a *property* file (`…Props.lean`): the specification vocabulary of the properties
  and the theorems that are listed in `MANIFEST.json`, each with an `example`
  showing that its hypotheses are met by a concrete, non-trivial case.

Errors and panics are explicit results of the model functions. Where the code
violates a property as stated in English, the negation is proved with a concrete
witness (`…_violated…`) and theorems with the suffix `_partial` state what does
hold and under which hypotheses.

`seeded/LOG.jsonl` records the wrong programs the theorems were tested against: one
line per edit of a model definition with the theorems that then failed.

## Trusted base

* The Lean 4.33.0 kernel. Every theorem of `MANIFEST.json` depends on a subset of
  `propext`, `Classical.choice`, `Quot.sound` (checked with `#print axioms`). No own
  axioms, no `sorry`, no `native_decide`, no `bv_decide`.
* The reading of the Rust code: the model is written by hand from the text of
  `/repo`; nothing is extracted or executed.
* The specification vocabulary in the property files says what the English says.
* Library and environment behaviour, listed per area below. It enters the model as
  parameters (proved for every choice of them), as hypotheses of the theorems, or as
  the modelled behaviour itself.

### Assumptions per area

* **Sync writer** (`sync/writer.rs`, `sync/mod.rs`, `frontend/flight/sync` parts).
  Commands are processed one at a time by the writer task; a Delta commit is atomic
  (it happened or not; the writer may not be told); sizes and clocks are arbitrary
  numbers; the data content of batches is opaque there. Counters and
  gauges are modelled beside it (C113) as integers; log output is left out.
* **Sync data path** (`sync/utils.rs`, `sync/schema`, `sync/planner.rs`). Columns are
  addressed by descriptor; no descriptor or field name occurs twice in a batch; Arrow
  kernels (`take`, `filter`, `concat_batches`, row converter equality) behave as on
  row lists; DataFusion's full join on the key columns, projection and `CASE` behave
  as the relational operations; NULL flags in `Changed` columns count as false;
  `PruningPredicate` keeps a container exactly if the three-valued evaluation on
  min/max statistics is not false; statistics are sound bounds (hypothesis); null
  count guards are left out. Over a history of flushes (C105, C106 with files)
  a flush may divide its rows into files in any way, with any sound statistics.
* **Object stores** (`object_store/*.rs`). Operations of backing stores are atomic;
  the inner `get_range` clips at the end of the object; one location of the cache is
  modelled (cache keys of different locations differ, SHA-256 taken as injective
  there); file writes of the cache are atomic except where C22 says otherwise; moka
  entries can vanish at any time. For HTTP, the server's answers are arbitrary.
* **DML** (`context/physical.rs`, `context/delta.rs`, `provider.rs`). The scan of a
  kept file returns all its rows (C25 shows this is needed); the prune map is aligned
  with the file actions; expressions are functions of the row that may fail; UUIDs of
  files and tables are fresh; a Delta commit is atomic.
* **Catalog** (`repository/default.rs`, `sqlite.rs`, `catalog/repository.rs`,
  migrations). SQL statements and transactions are atomic; unique and foreign key
  constraints are enforced; ids are allocated as SQLite does (in PostgreSQL: any id larger
  than those in use, C139); bound parameters that the
  SQL does not mention are ignored; ORDER BY yields some order of the rows; table
  UUIDs are unique (hypothesis where used). Garbage collection lists a snapshot and
  prefixes are matched by path segment.
  On PostgreSQL names contain no NUL and no statement has more parameters than
  the protocol allows; a CAST from numeric to INT8 rounds; concurrency is not compared (C139).
* **Frontend** (`frontend/http.rs`, `auth.rs`, `flight`, `config`). SHA-256, header
  parsing, percent-decoding and SQL planning are parameters; DataFusion plans
  `SELECT … INTO` as `CREATE TABLE AS`; `EXPLAIN ANALYZE` runs its plan when the
  stream is read; `TreeNode::visit` does not enter subqueries in expressions; version
  numbers are 8 bytes little endian below 2^56; a Delta version is immutable; map
  operations and atomic loads/stores are single steps; UUID v4 are fresh. The 503 of
  the health check is left out.
* **SQL layer** (`context/logical.rs`, `datafusion/parser.rs`, `version.rs`).
  sqlparser is a parameter; delta-rs `load_with_datetime` does its binary search as
  modelled; cloning a session state shares the catalog list; timestamp parsing is a
  parameter; a Delta vacuum deletes only tombstones of the loaded snapshot that are not
  live in it.
* **Remote tables** (`datafusion_remote_tables`). The precedence tables of DataFusion
  operators and of the three SQL dialects, the lexical rules of the remote databases,
  chrono formatting and `Display` of literals are given; comparison semantics,
  collations and integer division of the remote database are out of scope.
* **WASM** (`wasm_udf/wasm.rs`, `data_types.rs`). MessagePack encoding and float
  conversions are parameters, the host is little endian, the guest is a function of
  its input; JSON text round-trips as values; the legacy `wasm` language is modelled
  only in its type checks.
* **Types, configuration, memory pool, object store options** (`datafusion/utils.rs`,
  `config`, `memory_pool.rs`, `object_store_factory`, `object_store/factory.rs`). SQL
  integer ranges and DataFusion's default time zone are given; the wrapped pools are
  atomic counters; the f64 gauge is exact below 2^53; sqlx's reading of a DSN is the
  specification; names of S3 options, the S3 builder and Iceberg property names are
  given; region detection and environment variables are parameters.
* **DDL** (`context/physical.rs`, `context/mod.rs`, `context/delta.rs`, `provider.rs`,
  `system_tables.rs`). `TableReference::from` is a parameter; DataFusion checks the
  existence of external tables and registers them; only the current database is
  registered in a session; `information_schema` is served by DataFusion first;
  deregistering a missing table is no error; no concurrent statement; every table is a
  Delta table in the default store; what is left after a failed deletion is arbitrary.
* **Metastores and sessions** (`catalog/metastore.rs`, `memory.rs`, `provider.rs`,
  `context/mod.rs`). URL parsing and the building of object stores are parameters;
  `collect` into a map keeps the last of equal keys; the clones of a `SessionContext`
  share its list of catalogs, `with_new_state`/`scope_to` makes a new one; the steps
  between two `await`s are atomic; listing and loading do not fail in the interleaving
  model.
* **Iceberg INSERT** (`context/iceberg.rs`). `write_exclusive` creates a file or reports
  that it exists; single reads and writes are atomic; UUIDs of data files, manifests and
  manifest lists are new; `add_snapshot` refuses a known snapshot id, sets the last
  sequence number and keeps everything else; a scan uses the schema named by the current
  snapshot and applies equality deletes to older data files (Iceberg specification);
  the conversion of types is a parameter; version numbers do not overflow `u64`.
* **Plans of DML statements** (`context/logical.rs`, `context/physical.rs`). DataFusion
  plans `DELETE` as a filter on a scan and `UPDATE ... FROM` as a filter on a join; its
  optimizer keeps the meaning of plans, its rules EliminateFilter,
  DecorrelatePredicateSubquery and PushDownFilter rewrite as modelled; subqueries have no
  physical expression; values of subqueries are not NULL.
* **Start of the server** (`main.rs`, `config/context.rs`). The `config` crate lets the
  source added last win, key by key; arithmetic wraps in release builds (the profile in
  Cargo.toml sets no overflow checks); `tokio::time::interval` panics for a period of 0;
  single accesses to the catalog are atomic and refuse duplicate names.
* **Scripts and the PostgreSQL protocol** (`utils.rs`, `cli`, `frontend/postgres.rs`). A
  planned query keeps the list of files of its tables; files are immutable; UPDATE and
  DELETE are any function of the rows (see C25, C26); the library `convergence` calls
  `prepare` for Parse, `create_portal` for Bind, `fetch` for Execute and all three for a
  simple query; `rustyline` adds lines until the validator accepts; `char::is_whitespace`
  is a parameter that holds for the space and not for `;` and the backslash.
* **CONVERT TO DELTA** (`context/delta.rs`). `ConvertToDeltaBuilder` refuses a location with
  a log, a directory without Parquet files, with partition directories or with schemas
  that do not merge, and otherwise writes one commit that adds all Parquet files; the
  reading of UUIDs and the merge of schemas are parameters.
* **HTTP layers** (`frontend/http.rs`, C114–C116). Warp's `with(cors)`, `with(log)` and `map`
  act on replies; a rejection passes them (the log sees the status warp would give it, 500 for a
  custom one) until `recover`. Caches follow RFC 9111; whether an answer is fresh is a parameter.
  A gRPC failure at once is a header, one of a stream a trailer.
* **Text of HTTP answers** (`frontend/http.rs`, C121, C122). The line writer of arrow-json 53.3 and the
  string escapes of serde_json are as modelled, with explicit nulls; fractional numbers are printed as
  JSON numbers that determine them; `ArrowError` messages begin with the name of their kind; a schema
  is serialised with the members of the derived serialiser.
* **Addresses** (`Store/Address`): `Url` for URLs with an authority and characters that need no escaping (splitting, dot segments,
  relative references), `Path::from`, `PrefixStore`, and that `parse_url_opts` takes the bucket from the host or, for addresses in
  the path style, from the first part of the path. Not covered: escapes, references with a scheme, query or fragment.
* **Conversion of types** (`Context/Coerce`): Arrow's cast from nanoseconds to microseconds is a division that drops the fraction;
  Delta tables have timestamps in microseconds only; which time zones and which other types they have is a parameter.
* **Migrations** (`Catalog/Upgrade`): sqlx applies the migrations that are missing in order, each in a transaction, and refuses a
  catalog with unknown ones; the SQL of the migrations does what it says, the same on SQLite and PostgreSQL.
* **Column names in plans** (`Sync/Names`): `Column::from(&str)` reads a text as identifiers separated by dots, folds those without quotes to lower case
  (the hypothesis `FoldsWords`, for ASCII words only), and takes the text as it is if it cannot be read; a reference that is not found, or found twice, is an
  error while the plan is built.  Where in the planning the error comes up is not modelled; it is before anything is written.
* **PostgreSQL schemas** (`Catalog/PgSchema`): identifiers without quotes are folded to lower case and cut after 63 bytes, tables
  are looked up along the search path and created in its first schema; names with quotes or blanks are left out.
* **Concurrent catalog operations** (`Catalog/Concurrent`): one call of the repository (a statement or a transaction) is atomic;
  isolation anomalies inside PostgreSQL transactions are not modelled; identifiers are allocated as SQLite does.
* **Concurrent statements on a table** (`Dml/Races`): the commit of delta-rs writes the next entry of the log if nobody else does,
  and fails if a file it removes was removed since the version the statement loaded; other conflicts need a declared read set, a
  change of the metadata or of the protocol, none of which occurs. Names of new files are unique. Predicates are true or false
  for every row, pruning skips only files without qualifying rows, and no row is lost when files are written.
* **Statements and names** (`Context/Lookups`): one schema of one database; the metastore executes each query at once; UUIDs of
  tables and files are unique; VACUUM of delta-rs deletes exactly the tombstones of the version it is given; the files of a dropped
  table are deleted in one step. The conflict check of commits is simplified (removed files must still be there).
* **The server as a database** (`Context/Database`): one client and one schema; queries are functions of the rows of their tables that
  do not depend on their order; rows may be distributed over files in any way that keeps them (C27) and files skipped if no row
  satisfies the predicate (C25); commits to a log happen at different milliseconds; the log of a dropped table is deleted before its
  data files; VACUUM deletes the tombstones and may enter its start and end in the log.
* **Stopping** (C141). `Toplevel` of tokio-graceful-shutdown 0.15 as documented: all subsystems are told to stop when a signal arrives or one
  of them panics; if they have not ended within the given time they are aborted and an error is returned. warp and tonic end after the
  requests under way. Connections of the PostgreSQL frontend are tasks spawned by convergence. The runtime drops its tasks when main ends.
* **Socket addresses** (C132). `SocketAddr::from_str` of the Rust standard library as documented: four decimal numbers below 256 without
  leading zeros, or an IPv6 address in brackets (its text is a parameter), then a colon and a decimal number below 65536, to the end.
* **HTTP routes** (`frontend/http.rs`). Warp cuts the path at slashes, ignores one slash at
  the end, hands segments over undecoded, refuses empty parameters, and answers 405 if
  another method has the path, else 404; a body that is no JSON with a `query` counts as
  absent on GET; validity of UTF-8, reading a schema and writing the temporary file are
  parameters; the hash is injective where stated.
* **Options and environment** (`aws.rs`, `google.rs`). The names of the options are those of
  the `object_store` crate; variables are looked at in the order of `vars_os`.

## Properties

Modules are relative to `lean/Verif/`; the theorems are those of `MANIFEST.json`. "full" means the statement in `properties.jsonl` is proved as it stands, "part" means the theorems with suffix `_partial` give the part that holds and the `_violated…` theorems refute the rest (or the note says what is missing).

| id | claim | model | how proved | |
|----|-------|-------|------------|--|
| C01 | Durable sequence numbers are never ahead of storage | Sync/Writer | state machine of requests, background flushes, storage failures, lost acknowledgements and foreign commits; inductive invariants over all histories (`Closed` in WriterClosed lists the elementary changes), vocabulary of the claims in WriterSpec | full |
| C02 | Transactions become durable in arrival order | Sync/Writer | state machine of requests, background flushes, storage failures, lost acknowledgements and foreign commits; inductive invariants over all histories (`Closed` in WriterClosed lists the elementary changes), vocabulary of the claims in WriterSpec | full |
| C03 | Reported sequence numbers move forward and durable never exceeds memory | Sync/Writer | state machine of requests, background flushes, storage failures, lost acknowledgements and foreign commits; inductive invariants over all histories (`Closed` in WriterClosed lists the elementary changes), vocabulary of the claims in WriterSpec | full |
| C04 | No accepted message is lost or written twice | Sync/Writer | state machine of requests, background flushes, storage failures, lost acknowledgements and foreign commits; inductive invariants over all histories (`Closed` in WriterClosed lists the elementary changes), vocabulary of the claims in WriterSpec | full |
| C05 | A refused message has no effect | Sync/Writer | state machine of requests, background flushes, storage failures, lost acknowledgements and foreign commits; inductive invariants over all histories (`Closed` in WriterClosed lists the elementary changes), vocabulary of the claims in WriterSpec | full |
| C06 | Only one open transaction, never mixing origins | Sync/Writer | state machine of requests, background flushes, storage failures, lost acknowledgements and foreign commits; inductive invariants over all histories (`Closed` in WriterClosed lists the elementary changes), vocabulary of the claims in WriterSpec | full |
| C07 | Buffer accounting is exact | Sync/Writer | state machine of requests, background flushes, storage failures, lost acknowledgements and foreign commits; inductive invariants over all histories (`Closed` in WriterClosed lists the elementary changes), vocabulary of the claims in WriterSpec | full |
| C08 | A successful flush terminates and leaves nothing overdue | Sync/Writer | termination measure of the flush loop and its post-condition (WriterFlush) | full |
| C09 | A failed flush loses nothing | Sync/Writer | state machine of requests, background flushes, storage failures, lost acknowledgements and foreign commits; inductive invariants over all histories (`Closed` in WriterClosed lists the elementary changes), vocabulary of the claims in WriterSpec | full |
| C10 | Commit metadata stored in the table is sound | Sync/Writer | state machine of requests, background flushes, storage failures, lost acknowledgements and foreign commits; inductive invariants over all histories (`Closed` in WriterClosed lists the elementary changes), vocabulary of the claims in WriterSpec | full |
| C100 | The address of a request names the database, schema and table it works on | Frontend/Routes, Frontend/RoutesProps | the segments of an encoded address by induction; inversion of the routes | part |
| C101 | A GET request answers the query it carries | Frontend/Routes, Frontend/RoutesProps | percent decoding as the inverse of encoding; cutting at a dot commutes with encoding; witnesses | part |
| C102 | An upload loads the file that was sent | Frontend/Routes, Frontend/RoutesProps | induction over the parts of the form against the last part of each name | part |
| C103 | The status of an HTTP answer tells what is wrong | Frontend/StatusProps | inversion of the handlers of C39-C43 and of the routes, both directions | part |
| C104 | Sending changes again does no harm | Sync/ResendProps | net effect of a flush on an arbitrary table; induction over the flushes with the set of keys seen at a flush point; equivalence in both directions; witness | part |
| C105 | A synced table holds a point of the change stream | Sync/EndToEnd, Sync/EndToEndProps, Sync/FileHistory, FileHistoryProps | the writer with real batches; invariant that committed items are squashed data of their messages; C04 for the order; C61 and C16 for the effect; a dying flush has the log of a flush that goes on to fail; with files: induction over the commits, each flush by flushFiles_eq (C17) | part |
| C106 | A restart in the middle of a change stream loses and invents nothing | Sync/EndToEndProps, FileHistoryProps | C105 for the first process, C104 for the second one; witness on two full histories | part |
| C107 | A sync request changes the table it names and no other | Sync/Target, Sync/TargetProps | product of the writer with the handles of its entries; invariant that a handle is that of an accepted message for the URL, flushes write only where there is an entry; witness | part |
| C108 | Functions in the language wasm return what the guest returns | Misc/WasmLegacy, Misc/WasmLegacyProps | a module is a state machine with typed exports; induction over the rows against the answers of one instance; witnesses | part |
| C109 | The cache directory holds whole chunks and stays within the capacity | Store/CacheFiles, Store/CacheFilesProps | transition system of one chunk with inodes and any number of write tasks; invariants: every file is accounted for; every inode agrees with the chunk up to the position of a task at work; without overlap a file entry excludes a running task; witnesses | part |
| C11 | Everything received eventually becomes durable | Sync/Writer | liveness step theorems under "flushes succeed"; the negation by a concrete history | part |
| C110 | An external table is read with the options it was created with | Context/External, Context/ExternalProps | state machine of the shared store registry and the staging schema; invariant over the statements after the creation: the table keeps its location, its bucket keeps the meant store; witnesses | part |
| C111 | CREATE EXTERNAL TABLE is read as written | Sql/ExternalStmt, Sql/ExternalStmtProps | relational grammar over tokens as specification; the recursive descent parser is shown sound and complete for it (induction over the fuel of its loops), the builder by an invariant over the clauses read; witnesses | part |
| C112 | The answer to a Flight request tells what became of it | Frontend/FlightReq, Frontend/FlightReqProps | case analysis of a request into five outcomes, each tied to the step of the writer model (Sync/Writer); exactness of invalid_argument through C05_refusal_exact on reachable states; witnesses | part |
| C113 | The metrics of the sync writer show what it holds and did | Sync/Metrics, Sync/MetricsInv, Sync/MetricsProps | metric updates as functions beside the functions of the writer; invariants over all histories (MetClosed: preserved by every elementary change) relating gauges and counters to sums over held batches, accepted messages and commits; witnesses | part |
| C114 | An HTTP cache in front of the server answers as the server would | Frontend/Outer, Frontend/OuterProps | a specification of a shared cache by RFC 9111 runs beside the model of the GET route with its layers; invariant: every kept answer is an answer of the server in a past state; equality of answers by case analysis of the query of a request; witness | part |
| C115 | Each request is counted once, under its route and the status the client gets | Frontend/Outer, Frontend/OuterProps | the layers as functions from reply or rejection to answer and counted status; equivalences by cases; the label of a route through an inverse of the splitting of paths; witnesses | part |
| C116 | Pages of any origin can use the HTTP frontend and read its answers | Frontend/Outer, Frontend/OuterProps | the same layers; equivalences by cases; witness | part |
| C117 | A WASM function can be called for any number of rows in the memory one row needs | Misc/WasmCall, Misc/WasmCallProps | the guest as an arbitrary state machine with a memory; the contract as a separate structure; refinement of the loop over rows with state to the stateless function of C67 by induction; a concrete module that keeps the contract as example and witness | part |
| C118 | The metrics of the object cache account for every read and every request | Store/CacheMetrics, Store/CacheMetricsProps | the read of Store/Cache with counters that survive failures, refined to it; a relation between counters and the log of the backend, kept by every step; bytes by the invariant that counted bytes and collected bytes grow alike, with the content from C22; hits by induction over the chunks | part |
| C119 | A statement that a read-only metastore refuses leaves the tables alone | Context/Foreign, Context/ForeignProps | statement semantics over all objects of all stores, with the metastore as the answers of its methods; per statement the set of objects it may change, from its text; case analysis; the violations as theorems about every table concerned | part |
| C12 | Physical squashing preserves the net effect | Sync/Data | refinement of the hash-map squash to sequential application of row changes (DataSpec), induction over the rows; Resquash for repeated squashing | part |
| C120 | A query of an earlier version of a table reads that table | Context/Foreign, Context/ForeignProps | the same model; the version of a table at a time as the commits up to it; equality of takeWhile and filter on ordered times | part |
| C121 | The answer to a query over HTTP can be read back row by row | Frontend/Json, Frontend/JsonProps | encoders of the library as functions on values; an independent JSON reader (RFC 8259, with white space) and a reader of lines as specification; round trip by induction on values, failures by the first letter of the message | part |
| C122 | The Content-Type of an answer tells the columns of the result | Frontend/Json, Frontend/JsonProps | the same encoders for the serialised schema, UTF-8 and percent encoding; reader as specification, composed round trip; size by counting | full |
| C123 | The address of a table names the directory its files are in | Store/Address, Store/AddressProps | splitting, dot segments, joining and Path::from as functions on text; a separate table of home addresses as specification; lemmas on split/glue/norm, then invariant of the queues by induction over the changes | part |
| C124 | CREATE TABLE AS stores what the query returns | Context/Coerce, Context/CoerceProps | the projection per column and value; the moment a value stands for as specification; both branches of coerce_plan shown to be the projection, arithmetic of truncated division | part |
| C125 | A catalog survives the start of a newer version | Catalog/Upgrade, Catalog/UpgradeProps | content of the catalog as specification; an invariant on levels kept by each migration, induction over the number of migrations applied before an interruption | part |
| C126 | Catalogs in different schemas of one PostgreSQL database are separate | Catalog/PgSchema, Catalog/PgSchemaProps | search path resolution and identifiers of PostgreSQL; noninterference of two servers by induction over the interleaving | part |
| C127 | Concurrent changes of the catalog take effect one after the other | Catalog/Concurrent, Catalog/ConcurrentProps | operations as sequences of repository calls in any interleaving; linearization at the call that changes the row, by induction over the schedule; stability of lookups for operations that only add; counterexample schedules for the rest | part |
| C128 | Statements that write to a table at the same time have the effect of one after the other | Dml/Races, Dml/RacesProps | statements as snapshot and commit in any interleaving; serial order by the moment of the snapshot (UPDATE, DELETE) or of the commit (INSERT); invariant that follows every row through the files it is rewritten to | part |
| C129 | A table in the catalog can be read, whatever statements run at the same time | Context/Lookups, Context/LookupsProps | statements as programs of lookups, writes and commits over a shared metastore, object store and sessions; invariant over all interleavings: what a pair of name and table once seen still says, that the two lookups agree, that files are written before they are committed and only tombstones are deleted | part |
| C13 | Squash output is canonical | Sync/Data | refinement of the hash-map squash to sequential application of row changes (DataSpec), induction over the rows; Resquash for repeated squashing | full |
| C130 | For a client the server is a database, whatever it sends and whatever goes wrong | Context/Database, Context/DatabaseSpec, Context/DatabaseInv, Context/DatabaseProps | statements as sequences of operations on metastore, logs and files; simulation relation to tables with histories, kept by every operation prefix; second refinement of the fault-free part to a function; witnesses for the failures | part |
| C131 | The versions listed for a table exist and can be queried | Context/Database, Context/VersionsProps | invariant on the recorded versions kept by every operation prefix, on top of the simulation of C130; second invariant for complete statements: the last recorded version has the files of the newest one, which VACUUM keeps; witnesses | part |
| C132 | A frontend listens exactly where the configuration says | Misc/Listen, Misc/ListenProps | the parser of the standard library on the pasted text: round trip for decimal numbers, and conversely canonical form of what it accepts plus uniqueness of the last colon | part |
| C133 | Replicated changes are in the table after the configured lag | Sync/Writer, Sync/LagProps | invariant "committed, or buffered in an entry that is at least as old as the message" over all elementary changes of the service, with the post-condition of a flush (C08); for the violation an invariant on the oldest entry | part |
| C134 | No column of a replicated change gets lost | Sync/Columns, Sync/ColumnsProps | equality of replay with and without restriction to the columns of the table, and C16; for the violation a non-interference proof (wiping the column commutes with union, join, normalisation and application) | part |
| C135 | Replication into a table that others write to at the same time | Sync/Shared, Sync/SharedProps | invariant over all interleavings of load and commit: the files a writer rewrites are still there and no other file has rows that concern it, or the commit will be rejected; pruning (C17) and the application of changes (C16) are those of the flush model | part |
| C136 | A change set that passes the validation is replicated under the keys it was sent with | Sync/AcceptedProps (Sync/Schema, Sync/Data) | equivalence of the accepted wire descriptors with SchemaOk, composed with C15; the violation by following one inserted row through normalisation, join and projection | part |
| C137 | Replication works whatever the columns are called | Sync/Names, NamesProps | every reference of the plan as a lookup in the columns below it; induction over the merged items with the invariant that fields are canonical and found once; the violations by showing one lookup that fails for all inputs | part |
| C138 | A WASM function cannot put a value outside the declared type into a column | Misc/Wasm, WasmResultProps | case analysis on type and returned value; the range of decimals by integer arithmetic | part |
| C139 | A catalog in PostgreSQL shows what one in SQLite shows | Catalog/Pg, PgInv, PgProps | simulation: the SQLite catalog is the PostgreSQL one with identifiers renamed by a map that rises on those in use, and times cut to seconds; every repository function commutes with the renaming, insertions extend it; induction over the history | part |
| C14 | Merging pending items with different column sets preserves the net effect | Sync/Data, Sync/MergeCols, Sync/MergeNet | algebra of net change sets: merge = composition; C16 composes squash, merge, prune, normalise, apply | part |
| C140 | ALTER TABLE ... RENAME TO gives the named table the new name and does nothing else | Context/Ddl, Alter, AlterProps | lookups before and after are compared through the rename of the catalog (C32, C33); uniqueness of names from the invariant of C31 | part |
| C141 | A server that is told to stop answers the requests under way and ends without an error | Misc/Startup, Misc/Shutdown, ShutdownProps | end times of subsystems as maxima over their requests; induction over subsystems and requests; composed with the modes of main (C93) | part |
| C142 | Replication writes into each column the values sent for that column | Sync/Names, Sync/NameValues, Sync/NameFlush, Sync/NamePrune, NameValuesProps, NameFlushProps, NamePruneProps | position of the column that a reference resolves to; uniqueness of names; the specification speaks of positions in the message; refinement of the flush by names (flushNamed) to the flush on values (flushRows) by induction over the items, with the joins related by a map lemma; the choice of files depends on the statistics of the key columns only (SameStats), hence refines flushFiles of C17; a history of flushes by names (Sync/NameHistory, NameHistoryProps) by induction with the invariant that rows are keyed, complete and bounded by the statistics | part |
| C143 | Nothing stays behind in the object store | Context/Database, StorageProps | invariants over all histories with faults (directories without table are never touched; files named by no log entry are never removed), on the end-to-end model of C130 | part |
| C15 | Applying a squashed change set is exactly upsert/delete by key | Sync/Data, Sync/Normalize | refinement of join-based upsert to a keyed map update | part |
| C16 | Flushing equals replaying the change stream | Sync/Data, Sync/MergeCols, Sync/MergeNet | algebra of net change sets: merge = composition; C16 composes squash, merge, prune, normalise, apply | part |
| C17 | Files that are not rewritten contain no affected key | Sync/Prune | soundness of the qualifier under three-valued evaluation on min/max statistics | full |
| C18 | Replaying already applied changes is idempotent | Sync/Data, Sync/Normalize | refinement of join-based upsert to a keyed map update | full |
| C19 | Sync schema validation is exact | Sync/Schema | decision procedures, iff-theorems against a declarative schema specification | part |
| C20 | Only batches with identical layout are concatenated | Sync/Schema | decision procedures, iff-theorems against a declarative schema specification | part |
| C21 | A temporary row never blocks replication | Sync/Prune | characterisation of the panic; witness | part |
| C22 | The object cache is transparent | Store/Cache | invariant "cached bytes are bytes of the object" under arbitrary interference events between the steps of a read; step theorems | part |
| C23 | The cache never fetches a byte it already holds and never fetches a chunk twice per read | Store/Cache | invariant "cached bytes are bytes of the object" under arbitrary interference events between the steps of a read; step theorems | full |
| C24 | Reads after overwrite or delete through the cache see the new state | Store/Cache | invariant "cached bytes are bytes of the object" under arbitrary interference events between the steps of a read; step theorems | part |
| C25 | UPDATE changes exactly the qualifying rows | Dml/Dml, Dml/RowGroups | multiset equations over files and rows with three-valued predicates; step theorem for commits; scans that skip row groups reduced to whole scans of a trimmed table | part |
| C26 | DELETE removes exactly the qualifying rows | Dml/Dml, Dml/RowGroups | multiset equations over files and rows with three-valued predicates; step theorem for commits; scans that skip row groups reduced to whole scans of a trimmed table | part |
| C27 | Splitting into partition files loses no row and respects the size limit | Dml/Rechunk | induction over batches and over short reads | full |
| C28 | Multipart upload reassembles the file | Dml/Rechunk | induction over batches and over short reads | full |
| C29 | A statement either commits its files atomically or changes nothing visible | Dml/Dml, Dml/RowGroups | multiset equations over files and rows with three-valued predicates; step theorem for commits; scans that skip row groups reduced to whole scans of a trimmed table | full |
| C30 | Concurrent commits never overwrite each other | Store/Wrapped | interleaving semantics of conditional writes; invariant and witnesses | part |
| C31 | Names in the catalog are unique and references intact | Catalog/Catalog | SQL tables as lists of rows with constraints; inductive invariant `WF`, exact outcome of each operation against a declarative reading (`IsDb`, `IsSchema`, `IsTable`, `IsFn`) | full |
| C32 | Catalog operations report exactly the right error and then change nothing | Catalog/Catalog | SQL tables as lists of rows with constraints; inductive invariant `WF`, exact outcome of each operation against a declarative reading (`IsDb`, `IsSchema`, `IsTable`, `IsFn`) | part |
| C33 | Renaming or moving a table keeps its identity | Catalog/Catalog | SQL tables as lists of rows with constraints; inductive invariant `WF`, exact outcome of each operation against a declarative reading (`IsDb`, `IsSchema`, `IsTable`, `IsFn`) | full |
| C34 | Version history: newest is current, vacuum keeps it | Catalog/Catalog | SQL tables as lists of rows with constraints; inductive invariant `WF`, exact outcome of each operation against a declarative reading (`IsDb`, `IsSchema`, `IsTable`, `IsFn`) | part |
| C35 | Dropping removes the object and everything below it, and nothing else | Catalog/Catalog | SQL tables as lists of rows with constraints; inductive invariant `WF`, exact outcome of each operation against a declarative reading (`IsDb`, `IsSchema`, `IsTable`, `IsFn`) | full |
| C36 | The catalog listing is faithful | Catalog/Catalog | SQL tables as lists of rows with constraints; inductive invariant `WF`, exact outcome of each operation against a declarative reading (`IsDb`, `IsSchema`, `IsTable`, `IsFn`) | full |
| C37 | Function catalog: create, replace and drop do what they say | Catalog/Catalog | SQL tables as lists of rows with constraints; inductive invariant `WF`, exact outcome of each operation against a declarative reading (`IsDb`, `IsSchema`, `IsTable`, `IsFn`) | part |
| C38 | Garbage collection of dropped tables | Catalog/Gc | step theorems over failing environments | part |
| C39 | No write without write permission | Frontend/Auth, Frontend/Http | policy as a separate decision table; induction over statement lists | part |
| C40 | The cached GET endpoint is read-only | Frontend/Auth, Frontend/Http | policy as a separate decision table; induction over statement lists | full |
| C41 | POST gating of multi-statement queries | Frontend/Auth, Frontend/Http | policy as a separate decision table; induction over statement lists | part |
| C42 | A 304 answer is only given for unchanged data | Frontend/Http | injectivity of the ETag input, induction over plans | part |
| C43 | Errors never look like success | Frontend/Auth, Frontend/Http | policy as a separate decision table; induction over statement lists | part |
| C44 | A Flight result stream is handed out at most once | Frontend/Flight | invariant over request sequences | full |
| C45 | Time travel refers to the right table version | Sql/TimeTravel | list lemmas about version choice, rewriting of table names, small-step concurrency for the registered versions | part |
| C46 | SQL text splitting | Sql/Parser | recursion over token lists with the library parser as a parameter | part |
| C47 | VACUUM and TRUNCATE are never confused | Sql/Parser, Sql/VacTrunc | dispatch theorems and the effect on live files | full |
| C48 | Filters pushed to a remote database mean the same there | Remote/Pushdown | printer against a reference precedence-climbing parser for three dialects; round trip | part |
| C49 | Literals and identifiers cannot break out of their quotes | Remote/Quote | printer against a reference lexer; round trip and injectivity | part |
| C50 | WASM UDF values survive the call interface | Misc/Wasm | arithmetic of the two 64-bit halves, row loop, memory as a byte function | part |
| C51 | Declared decimal types are stored as declared or rejected | Misc/Types | exhaustive case analysis with arithmetic on casts | part |
| C52 | Memory pool accounting | Misc/MemPool | invariant over sequential calls; small-step semantics for the concurrent case | part |
| C53 | Configuration validation | Misc/Config | iff-theorem with the DSN interpretation as specification | part |
| C54 | HTTP range requests ask for exactly the requested bytes | Store/Http | arithmetic on ranges; round trip of percent-encoding | part |
| C55 | URLs of HTTP tables round-trip | Store/Http | arithmetic on ranges; round trip of percent-encoding | part |
| C56 | Reserved schemas cannot be shadowed | Context/Ddl | statement semantics over catalog, object store, staging tables and session; case analysis per statement, induction over statement lists and over the tables of a schema | full |
| C57 | Upload adds rows to the right table exactly once | Context/Ddl | post-condition of upload against the independent reading of the catalog | part |
| C58 | IF NOT EXISTS / IF EXISTS clauses are honoured | Context/Ddl | statement semantics over catalog, object store, staging tables and session; case analysis per statement, induction over statement lists and over the tables of a schema | part |
| C59 | Object store options survive their map form | Misc/StoreOpts | round trip of option maps, permutation lemmas | part |
| C60 | A first-request flag is reported exactly once | Frontend/Flight | interleaving semantics of atomic loads and stores | part |
| C61 | Squashing a buffer repeatedly preserves the net effect | Sync/Data | refinement of the hash-map squash to sequential application of row changes (DataSpec), induction over the rows; Resquash for repeated squashing | part |
| C62 | Key columns are matched by name | Sync/Schema | decision procedures, iff-theorems against a declarative schema specification | part |
| C63 | Commit info is as new as the commit | Sync/Writer | invariants over all histories (WriterMore) | part |
| C64 | Planned items are single batches of bounded size | Sync/Writer | invariants over all histories (WriterMore) | full |
| C65 | The right table is flushed | Sync/Writer | invariants over all histories (WriterMore) | full |
| C66 | CREATE OR REPLACE is not executed as CREATE | Sql/Parser | recursion over token lists with the library parser as a parameter | part |
| C67 | WASM UDFs are applied row by row | Misc/Wasm | arithmetic of the two 64-bit halves, row loop, memory as a byte function | part |
| C68 | WASM UDF calls stay inside their buffers | Misc/Wasm | arithmetic of the two 64-bit halves, row loop, memory as a byte function | part |
| C69 | A created table has the declared columns | Misc/Types | exhaustive case analysis with arithmetic on casts | part |
| C70 | Tables share an object store exactly if location and options agree | Misc/StoreFactory | invariant over request sequences; hash lemma over permutations; interleaving for the race | part |
| C71 | Storage options reach Iceberg tables | Misc/StoreOpts | round trip of option maps, permutation lemmas | part |
| C72 | A session can call exactly the functions of its database | Context/Ddl | statement semantics over catalog, object store, staging tables and session; case analysis per statement, induction over statement lists and over the tables of a schema | part |
| C73 | A failed DDL statement changes nothing | Context/Ddl | statement semantics over catalog, object store, staging tables and session; case analysis per statement, induction over statement lists and over the tables of a schema | part |
| C74 | A stored function is the function that was created | Misc/FnDetails | round trip through the stored columns | part |
| C75 | DROP TABLE removes exactly the named table | Context/Ddl | statement semantics over catalog, object store, staging tables and session; case analysis per statement, induction over statement lists and over the tables of a schema | part |
| C76 | DROP SCHEMA removes exactly the schema and its tables | Context/Ddl | statement semantics over catalog, object store, staging tables and session; case analysis per statement, induction over statement lists and over the tables of a schema | part |
| C77 | CREATE TABLE AS stores exactly the query's result | Context/Ddl | statement semantics over catalog, object store, staging tables and session; case analysis per statement, induction over statement lists and over the tables of a schema | part |
| C78 | Databases are separate | Context/Ddl | statement semantics over catalog, object store, staging tables and session; case analysis per statement, induction over statement lists and over the tables of a schema | part |
| C79 | The HTTP store reports sizes and ranges of objects correctly | Store/HttpMeta | parsing of header texts against their decimal rendering; a standard-conforming server as specification | part |
| C80 | Data read over https comes from the https location | Store/Cache, Store/CacheMore | invariant over request sequences through the shared cache; witness | part |
| C81 | Seafowl's own statements are read as written | Sql/Parser, Sql/GrammarProps | parser = inductive grammar, both directions, over all token lists | full |
| C82 | A remote table shows the rows of the table it stands for | Remote/Scan, Remote/ScanProps | scan = the remote rows by column name, for every database that answers SQL as specified; witnesses for the positional case | part |
| C83 | The system tables show exactly the versions and dropped tables of the database | Catalog/SysTables, Catalog/SysTablesProps | invariant of the catalog (C01) plus list reasoning on the joins | part |
| C84 | A table name leads to the place the metastore gives for it | Catalog/Meta, Catalog/MetaProps | independent relation At (last entry of each name, place of a table) = the maps built by the code; with C36 for the catalog database | part |
| C85 | A statement sees one version of each table | Context/Session, Context/SessionProps | interleaving semantics; invariant that the catalog of a scoped statement belongs to it alone, by induction over all event sequences; witnesses for the shared session | part |
| C86 | A statement resolves its tables in its own metastore | Context/Session, Context/SessionProps | same invariant; the listing is the content at a prefix of the events; witnesses for the shared session | part |
| C87 | INSERT into an Iceberg table adds exactly its rows | Iceberg/Iceberg, Iceberg/IcebergProps | exact outcome of the five accesses of an INSERT that runs alone; sequence numbers against deletions; witnesses | part |
| C88 | Concurrent INSERTs into an Iceberg table do not overwrite each other | Iceberg/Iceberg, Iceberg/IcebergProps | invariant over all events (access, failure, lost answer): versions written in order, hint on the last or the one before; stuck states are closed under all events | part |
| C89 | DELETE removes only rows that satisfy its WHERE clause | Dml/Plan, Dml/PlanProps | optimizer rules of the library that matter for the shape, proved to keep the meaning; dispatch on the shape; exact result from C26 | part |
| C90 | Each kind of INSERT does what it says | Dml/Plan, Dml/PlanProps | rows after the commit against the meaning of the three kinds of INSERT | part |
| C91 | UPDATE ... FROM joins or is refused | Dml/Plan, Dml/PlanProps | expressions over two tables; result of C25 lifted to pairs of rows; witness with an empty table | part |
| C92 | The settings in force are those of the environment, the file and the defaults, in this order | Misc/Startup, Misc/StartupProps | lookup in environment, file, default, against a separate specification; starting twice; witness for a missing file | part |
| C93 | Garbage is collected at the configured interval | Misc/Startup, Misc/StartupProps | arithmetic modulo 2^16; case analysis of the modes of main | part |
| C94 | Any number of servers can start on one catalog | Misc/Startup, Misc/StartupProps | invariant over all interleavings of the accesses of n servers; witness schedules | part |
| C95 | A script does what its statements say, in order | Script/Script, Script/ScriptProps | each statement against its meaning on tables with rows (simulation with an invariant on files and directories); induction over scripts; files captured at planning stay unless removed | part |
| C96 | Over the PostgreSQL protocol a statement takes effect when it is executed | Script/Script, Script/ScriptProps | the same simulation for messages of the protocol; witnesses | part |
| C97 | The command line does with a line what its help text says | Script/Cli, Script/CliProps | words of a line against any spacing; shortest complete beginning of the lines by induction | part |
| C98 | CONVERT TO DELTA makes a table of exactly the files of the directory | Context/Convert, Context/ConvertProps | case analysis of the statement over the catalog model of C31; invariant over sequences of CONVERTs; witnesses | part |
| C99 | Options given for a location win over the environment | Misc/StoreEnv, Misc/StoreEnvProps | fold over the variables of the environment against the first variable that stands for a key; given options by induction; witnesses | part |

## What the code gets wrong (proved)

* **C100** The address of a request names the database, schema and table it works on. Proved: names of unreserved characters lead to exactly what they name, a request works on nothing else, other addresses and methods are refused. Violated: paths are not percent-decoded, so every other name denotes another database or table. (`C100_violated`)
* **C101** A GET request answers the query it carries. Proved: for queries without a dot in the path, for queries under their hash, order of body, header and path, permission. Violated: a query in the path is cut at its first dot (SELECT 1.5 is answered as SELECT 1); a query in the body is percent-decoded, and then refused under its own hash. (`C101_violated_dot`, `C101_violated_body`, `C101_violated_body_always`)
* **C102** An upload loads the file that was sent. Proved: the file sent last is loaded byte for byte with its settings, proper forms are accepted, permission and table. Violated: of several files only the last is loaded and the answer is success; has_header=True is read as false. (`C102_violated`, `C102_violated_always`)
* **C103** The status of an HTTP answer tells what is wrong. Proved: 401, 403, 405 are given exactly in their cases, 5xx only for failures of the server, 400 for faulty requests. Violated: failures of the server while a statement is executed are answered with 400, and with 200 once the result is being sent (the failure is then in the body). (`C103_violated`, `C103_violated_stream`)
* **C104** Sending changes again does no harm. Proved exactly: the table is right if and only if every row it had is present in the right table at one of the new flush points (one key column with moving keys, several key columns without). Hence right without deletions and right if flushed at the same point. Violated: an insertion flushed before the restart, sent again in one flush with its deletion, cancels out and the row stays for ever. (`C104_violated`)
* **C105** A synced table holds a point of the change stream. Proved for messages that carry all columns and do not move rows to other keys, any number of key columns, every history, crashes in the middle of a flush included. Also with the choice of files in each flush, among the files the flushes before left, however rows are divided into files (C105_files_partial). Missing: key-moving updates and Changed columns, for which the claim is false (C16, C61), and lost acknowledgements the process survives (C04). ()
* **C106** A restart in the middle of a change stream loses and invents nothing. Proved exactly for messages as in C105: when the table is right after the restart; always right without deletions. The same for the files that the two processes leave (C106_files_partial). Violated: as in C104, on a full history of two processes. (`C106_violated`)
* **C107** A sync request changes the table it names and no other. Proved: every commit goes to a table named by some request for the URL; every change goes to its own table if requests with the same URL name the same table, which holds for the tables of one store with plain paths. Violated: the buffer is found by a URL without the options of the store, so a request for a bucket of the same name at another endpoint has its changes written to the first table and reported durable. (`C107_violated`, `C107_violated_internal`, `C107_violated_always`)
* **C108** Functions in the language wasm return what the guest returns. Proved for entry points with the declared types, batches without NULLs and at least one argument: results are the answers of a fresh instance asked row by row, independent of batches if the guest keeps no state. Violated: NULLs are passed as whatever the slot holds; the declared types are not compared with the entry point (calls fail or panic); argument types the machine lacks panic in CREATE FUNCTION; no arguments panic. (`C108_violated_null`, `C108_violated_state`, `C108_violated_signature`, `C108_violated_result`, `C108_violated_create`, `C108_violated_nullary`, `C108_violated_null_always`, `C108_violated_create_always`, `C108_violated_nullary_always`, `C108_violated_signature_always`)
* **C109** The cache directory holds whole chunks and stays within the capacity. Proved for all interleavings of readers, write tasks, evictions and removals: if no write fails half way and files can be removed, every file belongs to an entry or to something under way, and the directory is bounded by the capacity; readers get whole chunks if also tasks of one chunk do not overlap. Violated: a write that fails half way leaves a file that is later served as the whole chunk; overlapping tasks let readers see an unfinished file or leave an entry without a file; chunks of 4 GiB weigh nothing. (`C109_violated_failed_write`, `C109_violated_overlap`, `C109_violated_replaced`, `C109_violated_removal`, `C109_violated_weight`, `C109_violated_torn_always`, `C109_violated_found_always`)
* **C11** Everything received eventually becomes durable. The property as stated is violated by the code (C11_violated); the partial theorems cover all cases except an empty closing message after the last table commit. (`C11_violated`)
* **C110** An external table is read with the options it was created with. Proved: the statement that creates a table finds its files in the store it asks for; later statements do not change what the table shows unless they name the same bucket with other settings. Violated: stores are found by the bucket alone and shared by all sessions, so any later statement for the bucket (also a failing one) redirects the table. (`C110_violated`, `C110_violated_failed`, `C110_violated_public`, `C110_violated_panic`, `C110_violated_always`)
* **C111** CREATE EXTERNAL TABLE is read as written. Proved for all token sequences: the parser accepts exactly the grammar and builds what the clauses say; the order of the clauses is irrelevant. Violated for partition columns: those defined with quotes or capitals are not named like the columns they define; PARTITIONED BY without a list is accepted. ()
* **C112** The answer to a Flight request tells what became of it. Proved for all requests and reachable states: accepted requests are taken once, refused ones have no effect, invalid_argument is exact. Violated: internal is also sent for changes that have been taken (the flush after acceptance failed) and for mistakes of the client (locations); a query with a metastore but without its list of schemas panics. (`C112_violated_internal`, `C112_violated_location`, `C112_violated_panic`, `C112_violated_location_always`)
* **C113** The metrics of the sync writer show what it holds and did. Proved for all histories: gauge of bytes, sequence gauges, request and flush counters, conservation. Violated: squashing adds the removed rows to in_memory_rows instead of subtracting them, so the gauge is off by twice the squashed rows for good (exact drift proved); in_memory_oldest is stale after a failed flush. (`C113_rows_gauge_violated`, `C113_rows_gauge_violated_empty`, `C113_oldest_violated`)
* **C114** An HTTP cache in front of the server answers as the server would. Proved for all histories. Violated: an answer whose stream broke off has status 200, an ETag and Cache-Control, so caches hand out the broken answer as long as it is fresh. Assumes the query hash is injective and no hash is itself a SQL query. (`C114_violated`, `C114_violated_always`)
* **C115** Each request is counted once, under its route and the status the client gets. Counting once proved; exact conditions for the labels proved. Violated: refusals for lack of permission (401, 403, 405, 400) are counted as 500; queries in a database named upload are counted as uploads; unknown paths are labels, so the number of series is unbounded; gRPC streams that fail are counted as successes. (`C115_violated_status`, `C115_violated_route`, `C115_violated_series`, `C115_violated_grpc`, `C115_violated_route_always`)
* **C116** Pages of any origin can use the HTTP frontend and read its answers. Exact condition proved. Violated: refusals bypass the CORS layer, so a page cannot read a 401, 403, 404 or 405. (`C116_violated`)
* **C117** A WASM function can be called for any number of rows in the memory one row needs. Proved for arguments of at least four bytes and buffers below 2 GiB. Violated: the length is written as eight bytes, which overwrites memory of the guest behind a short buffer, so a module that keeps the contract returns wrong values; a pointer from 2 GiB on panics. (`C117_violated`, `C117_violated_pointer`)
* **C118** The metrics of the object cache account for every read and every request. Reads proved for all histories. Violated: of an upload in parts only the start is counted, and not even that if it has options (put_multipart_opts). (`C118_violated`, `C118_violated_always`)
* **C119** A statement that a read-only metastore refuses leaves the tables alone. Frame and refusals proved for all metastores. Violated, for every table concerned: DROP TABLE and DROP SCHEMA delete the objects and then fail with not implemented; INSERT, UPDATE, DELETE of tables whose location ends with a UUID commit and then fail, UPDATE of a table outside the default store makes it unreadable; DROP SCHEMA staging deletes the objects of an external Delta table. (`C119_drop_violated`, `C119_drop_schema_violated`, `C119_insert_violated`, `C119_update_violated`, `C119_delete_violated`, `C119_function_violated`, `C119_staging_violated`, `C119_staging_insert_violated`)
* **C12** Physical squashing preserves the net effect. Full for at most one Changed column and for update rows whose flags agree; with two Changed columns the code loses updates (C12_violated). (`C12_violated`, `C12_violated_always`)
* **C120** A query of an earlier version of a table reads that table. Proved for tables in the default store under their identifier, which all tables of the catalog database are. Violated: a table elsewhere whose location ends with a UUID is read from the directory of that name in the default store. (`C120_violated_same`, `C120_violated`)
* **C121** The answer to a query over HTTP can be read back row by row. Proved: one line per row, each read as an object with the columns in order; a failed answer is never readable as rows; with different column names each value is found under its name; apart from NaN and infinities two results with the same body and types are the same. Violated: of two columns with one name a client sees only the second; NaN and infinities are sent as null. (`C121_violated_names`, `C121_violated_nan`)
* **C123** The address of a table names the directory its files are in. Proved for paths of named parts and for prefixes that do not begin with a slash; in particular for all tables that Seafowl creates. Violated: a path with .. has the URI of another table, whose changes are then written to the wrong directory; a trailing slash gives one table two URIs; a leading slash in a path or prefix; locations with the bucket in the path of an https address. (`C123_violated_dots`, `C123_violated_up`, `C123_violated_slash`, `C123_violated_absolute`, `C123_violated_prefix`, `C123_violated_path_style`, `C123_violated_prefix_always`, `C123_violated_endpoint_always`)
* **C124** CREATE TABLE AS stores what the query returns. Proved: columns, and all values but timestamps in nanoseconds; those are stored within a microsecond, in order. Violated: they are changed without notice, and those before 1970 become later; inside lists and structs, and in uploaded files, they are refused. (`C124_violated`, `C124_violated_refused`)
* **C125** A catalog survives the start of a newer version. Proved: names, versions, columns and types, and all that belongs to Delta tables, for every version, interruption and failed update. Violated: tables of the time before Delta lose the list of their files and share one UUID, without a check or notice; types of the first version are in the new format after the second start only. (`C125_violated`, `C125_violated_order`)
* **C126** Catalogs in different schemas of one PostgreSQL database are separate. Proved: servers that have started with different schemas do not affect each other; starting leaves all catalogs alone but that in public. Violated: the name is used without quotes, so names that differ in case, or after 63 bytes, share a catalog and names that need quotes are refused; the first start rewrites types in public. (`C126_violated_case`, `C126_violated_long`, `C126_violated_public`, `C126_violated_refused`)
* **C127** Concurrent changes of the catalog take effect one after the other. Proved: names stay unique and references intact in every interleaving; creations, function changes and writes always take effect one after the other; so do all operations whose looked up names are not changed before they act. Violated: two renames of one table both succeed, DROP TABLE removes the table under the name a concurrent rename gave it, and with SQLite (which reuses identifiers) a delayed DROP removes an unrelated new table and CREATE TABLE creates it in another schema. (`C127_violated_rename`, `C127_violated_drop`, `C127_violated_reuse`, `C127_violated_schema`, `C127_violated_columns`, `C127_violated_rename_always`, `C127_violated_drop_always`)
* **C128** Statements that write to a table at the same time have the effect of one after the other. Proved for INSERTs that do not read the table and UPDATEs/DELETEs none of which makes rows qualify for another one that runs at the same time; in particular for INSERT and DELETE statements, for UPDATEs that do not assign columns used to select rows, and for one UPDATE or DELETE at a time. Violated: two UPDATEs of each other's values both succeed and swap them, and INSERT ... SELECT of the table itself during a DELETE leaves copies of the deleted rows, because the commit does not tell the library what the statement has read. (`C128_violated_update`, `C128_violated_copy`)
* **C129** A table in the catalog can be read, whatever statements run at the same time. Proved if no dropped name is taken away by a RENAME and each UPDATE or DELETE runs in its own session or on a name that is neither renamed nor dropped; INSERT, TRUNCATE, VACUUM, CREATE and RENAME are always safe. The part about names holds in every interleaving. Violated otherwise: an UPDATE or DELETE in the shared session writes to the directory of one table and commits to the log of another; a DROP deletes the files of one table and the entry of another. (`C129_violated_update`, `C129_violated_delete`, `C129_violated_drop`, `C129_violated_stale`)
* **C130** For a client the server is a database, whatever it sends and whatever goes wrong. Proved: the answers to all histories are those of a database with versioned tables (trace inclusion); without failures and time travel they are those of a map from names to rows; the past of a table stays as it was until it is vacuumed, dropped or renamed. Violated only by failures: CREATE TABLE AS may leave an empty table, DROP TABLE one that cannot be used. A statement that reports a failure may have had its effect. (`C130_violated_create_as`, `C130_violated_drop`, `C130_violated_create_as_always`, `C130_violated_drop_always`)
* **C131** The versions listed for a table exist and can be queried. Proved: the listed versions always are versions of the table (all histories, all failures); without TRUNCATE and failures all of them can be read and the last one is current. Violated: TRUNCATE never records its version (for every state), so that after a VACUUM the only listed version cannot be read; likewise when the record in the metastore fails. (`C131_violated_truncate`, `C131_violated_vacuum`, `C131_violated_record`, `C131_violated_vacuum_always`, `C131_violated_record_always`)
* **C132** A frontend listens exactly where the configuration says. Proved: addresses give exactly this address and port, and nothing is ever listened at that the configuration does not say. Violated: every host name ("localhost") and every IPv6 address without brackets makes the frontend panic at its start. (`C132_violated_names`)
* **C133** Replicated changes are in the table after the configured lag. Proved: the bound, for every history. Violated: one table that cannot be written blocks all others - the oldest entry is tried first and its failure ends the flush, so as long as it fails nothing else is ever written and every request with changes is answered with an error, although its changes have been taken. (`C133_violated_blocked`)
* **C134** No column of a replicated change gets lost. Proved: which columns a new table gets; that nothing is lost if no change set has a column that the table lacks. Violated: the columns come from the first buffered change set only, and a column the table lacks is dropped without an error - its values are not even looked at. (`C134_violated_dropped`, `C134_violated_ignored`, `C134_violated_example`)
* **C135** Replication into a table that others write to at the same time. Proved if no writer makes rows that concern another one at work, in particular for servers with different keys; a commit replays its changes on the table as it is at that moment; of two that rewrite a common file at most one commits. Violated: two servers that insert the same key at the same time both succeed and the row is there twice. (`C135_violated_twice`, `C135_violated_example`)
* **C136** A change set that passes the validation is replicated under the keys it was sent with. Proved: an accepted flat schema meets the hypothesis of all replication theorems iff the client observed three rules that are not checked (no column twice, one order of the key columns, no key among the values); from the wire to the table for one key. Violated: a key that is a value too is accepted, and the value is stored in place of the key for every insertion. (`C136_violated_value_key`, `C136_violated_lost`, `C136_violated_example`)
* **C137** Replication works whatever the columns are called. Proved: if the names of keys and fields (and, once two items are merged, of all columns) read as SQL stand for themselves, and nothing is nested, every flush is planned and writes exactly the columns of the table. Violated for all others: a key column like userId is never replicated; a value column like userName is until two items have to be merged; a field not in lower case fails; tables or messages with struct, list or map columns are accepted but can never be flushed; nor can tables with a column called __upsert_col or __lower_rel. (`C137_violated_key`, `C137_violated_value`, `C137_violated_field`, `C137_violated_nested_table`, `C137_violated_nested_field`, `C137_violated_reserved`, `C137_violated_flag`)
* **C138** A WASM function cannot put a value outside the declared type into a column. Proved for all types but decimals. Decimals get the declared precision as a label only: for every DECIMAL(p, s) there are accepted results with more than p digits. (`C138_violated_decimal`)
* **C139** A catalog in PostgreSQL shows what one in SQLite shows. Proved for all operations if the clock does not go back: the same errors, listing, functions, tables and versions, and the times agree up to fractions (for any identifiers larger than those in use). Violated: for every version created in the second half of a second PostgreSQL shows a creation time one second later than SQLite (CAST rounds); if the clock goes back within a second VACUUM keeps different versions. (`C139_violated_time`, `C139_violated_clock`)
* **C14** Merging pending items with different column sets preserves the net effect. Full for items with the same columns and for any two items without Changed columns in the first; violated for three items with three different column sets and for Changed columns in the first item, both for every such items. For two items the condition is necessary and sufficient (C14_two_items_iff). (`C14_violated_three_columns`, `C14_violated_changed_column`, `C14_violated_changed_column_always`, `C14_violated_three_columns_always`)
* **C140** ALTER TABLE ... RENAME TO gives the named table the new name and does nothing else. Proved between ordinary schemas: exact effect, exactly when it succeeds, undoing, failures. Violated: IF EXISTS is ignored; a new name without a schema is taken in the default schema of the session, so that s.t renamed to u leaves s; a table can be moved into a schema called system or information_schema, after which no name leads to it and it cannot be renamed back. (`C140_violated_if_exists_always`, `C140_violated_schema_always`, `C140_violated_hidden_always`, `C140_violated`, `C140_violated_hidden`)
* **C141** A server that is told to stop answers the requests under way and ends without an error. Proved: the limit of five seconds, exactly when the exit is clean, and that requests of the HTTP and Flight frontends are waited for. Violated: the garbage collection task does not look at the request to stop, so that with a gc_interval every stop takes five seconds and ends in a panic; requests over PostgreSQL are not waited for and are cut off although the exit is clean. (`C141_violated_gc_always`, `C141_violated_gc_configured`, `C141_violated_long_always`, `C141_violated_postgres_always`)
* **C142** Replication writes into each column the values sent for that column. Proved if the field names read as SQL stand for themselves: the flush that reads every cell through the names in the plan, with all merging, joining and normalising, writes exactly the rows of the flush on the values as sent (C142_flush_partial), and so the replayed table in the situation of C16 (C142_replicates_partial). Violated: a field called like another one but for the case is read as that one, so the column gets the values of the other without an error (for every such change set and row); the same for columns once items are merged. For keys: with the key columns Id and id an update of the row (1, 5) overwrites the row (2, 5) too (C142_violated_keys_always). The choice of the files to rewrite is covered too (C142_files_partial, with C16 and C17 in C142_replicates_files_partial); for a key column that is not in lower case it reads the statistics of the column in lower case, so a file whose rows are to be changed may be left alone (C142_violated_pruning_always): the update of the row (1, 5) then leaves it and adds a row (5, 5). (`C142_violated`, `C142_violated_merged`, `C142_violated_keys_always`, `C142_violated_keys`, `C142_violated_pruning_always`, `C142_violated_pruning`)
* **C143** Nothing stays behind in the object store. Proved for all histories in which nothing fails and no CREATE TABLE is refused; DROP TABLE frees the directory after any history. Violated, always: a CREATE TABLE of a name that is taken leaves a Delta log in a directory of its own that no later statement ever removes; so does a DROP TABLE in which a deletion fails (it is reported as a success); files uploaded by a statement that fails stay until the table is dropped, VACUUM does not see them. Statements one after the other, one schema; CONVERT (which could adopt a directory whose UUID one knows) is not among them. (`C143_violated_create_always`, `C143_violated_create_as_always`, `C143_violated_create_failed_always`, `C143_violated_drop_always`, `C143_violated_insert_always`, `C143_violated_modify_always`)
* **C15** Applying a squashed change set is exactly upsert/delete by key. Full for one key column and changes that carry all columns. Without the condition on key-moving changes the result is determined exactly (C15_exact) and the condition under which it is right is necessary (C15_iff). Two violations are proved for every such change set: an update of a later key column leaves the old row, and a key-moving update that leaves columns alone sets them to NULL. (`C15_violated_second_key_column`, `C15_violated_partial_move`, `C15_violated_second_key_column_always`, `C15_violated_partial_move_always`)
* **C16** Flushing equals replaying the change stream. Flush (squash, merge, prune, normalise, apply) equals replay of the stream for one key column and full rows, and for any number of key columns and partial rows when no change moves a row to another key (conditions on the received changes only); in general under the hypotheses of C12/C14/C15, whose violations are proved there. ()
* **C19** Sync schema validation is exact. Exact for flat fields; with nested Arrow fields the count check compares with flattened fields, so valid schemas are refused and surplus descriptors dropped (C19_violated_nested). (`C19_violated_nested`)
* **C20** Only batches with identical layout are concatenated. Only the common prefix of two schemas is compared; exact for schemas of equal length. (`C20_violated`, `C20_violated_always`)
* **C21** A temporary row never blocks replication. Flush planning of squashed items panics exactly if all keys are NULL; this happens when only temporary rows are buffered. (`C21_violated`, `C21_violated_always`)
* **C22** The object cache is transparent. Holds for every history and every interference when cache files are written atomically; a reader that holds a file entry while the file is being rewritten returns truncated data (C22_violated_partial_write). Also shown: reads past the end poison the cache. (`C22_violated_partial_write`)
* **C24** Reads after overwrite or delete through the cache see the new state. Violated: put and delete do not touch the cache. Holds for ranges with no cached chunk. (`C24_violated_overwrite`, `C24_violated_delete`, `C24_violated_always`)
* **C25** UPDATE changes exactly the qualifying rows. Exact, given that the scan of a kept file returns all its rows; the filter passed to the scan only promises the matching ones. If the scan leaves out the row groups that the filter refutes (default of the Parquet reader): exact for files of at most 65536 rows, and precisely the rows of the refuted row groups are lost otherwise (C25_large_file_loss: 65536 of 65537 rows). (`C25_needs_whole_files`)
* **C26** DELETE removes exactly the qualifying rows. Violated: rows of rewritten files for which the predicate is NULL are deleted too. C26_exact says exactly which rows are lost. Same assumption on scans as C25. (`C26_violated`)
* **C30** Concurrent commits never overwrite each other. Holds exactly for the combinations that are not turned into overwrites; violated (with a witness for each) for local stores with disable_hardlinks and for renames on S3. Backing store operations are assumed atomic. (`C30_violated`)
* **C32** Catalog operations report exactly the right error and then change nothing. Exact outcome per operation. Violated: create_table inserts the columns after committing the table, so an error (repeated column name, lost connection) leaves a table behind and repeated columns are reported as an existing table; an unknown UUID gives a generic SQL error. (`C32_violated_columns`, `C32_violated_uuid`, `C32_violated_always`)
* **C34** Version history: newest is current, vacuum keeps it. The vacuum keeps the newest version by creation time, lookups use the largest id: they agree in all histories with a clock that never steps back (C34_times); C34_vacuum_iff says exactly when they differ. (`C34_violated_clock`)
* **C37** Function catalog: create, replace and drop do what they say. Violated: DROP FUNCTION with several names only drops the first. (`C37_violated`, `C37_violated_always`)
* **C38** Garbage collection of dropped tables. Violated: listing errors are ignored; the retry logic is inverted (first failure is final, a table in status retry is never given up). (`C38_violated_listing`, `C38_violated_no_retry`, `C38_violated_forever`)
* **C39** No write without write permission. The decision is exactly the policy. Violated at the request level: SELECT … INTO and EXPLAIN ANALYZE of a write need only read permission through POST, and a write statement in front of a SELECT replaces the read check by the write check. (`C39_violated_read`, `C41_violated_select_into`)
* **C41** POST gating of multi-statement queries. Violated: SELECT … INTO and EXPLAIN ANALYZE INSERT count as reading statements. (`C41_violated_select_into`, `C41_violated_explain_analyze`)
* **C42** A 304 answer is only given for unchanged data. Holds for queries over Delta tables without subqueries in expressions and with unchanged functions; violated otherwise: the ETag covers none of the three. (`C42_violated_subquery`, `C42_violated_external`, `C42_violated_function`)
* **C43** Errors never look like success. Every ApiError has a 4xx/5xx status; violated for errors while streaming the result, which come with status 200. (`C43_violated_stream`)
* **C45** Time travel refers to the right table version. Right table, right version, no mixing within a query, for lower-case names without colons and default schema public. Violated otherwise: quoted mixed-case names read another table, another default schema fails, a table named "t:ts" wins, timestamps before the first version read the first version, a concurrent statement removes the registered version. (`C45_violated_before_creation`, `C45_violated_case`, `C45_violated_schema`, `C45_violated_colon`, `C45_violated_race`, `C45_violated_case_always`, `C45_violated_schema_always`, `C45_violated_race_always`)
* **C46** SQL text splitting. Violated: COPY swallows the semicolon after it, so "COPY …; SELECT 1" is rejected. (`C46_violated_copy`)
* **C48** Filters pushed to a remote database mean the same there. Proved for Boolean combinations of comparisons, IS, IN and their negations over arithmetic without right operands of the same precedence, in all three dialects. Violated otherwise: only binary operands of lower precedence are parenthesised. (`C48_violated_minus`, `C48_violated_not`, `C48_violated_isNull`, `C48_violated_isOperand`, `C48_violated_in`, `C48_violated_negative`, `C48_violated_distinct`, `C48_violated_concat`, `C48_violated_syntax`, `C48_violated_mysql_distinct`, `C48_violated_bits`)
* **C49** Literals and identifiers cannot break out of their quotes. Proved for strings, integers, Booleans, NULL, dates and time stamps without time zone. Violated for MySQL strings with backslashes and for kinds of literals that fall through to Display (Utf8View, decimals). (`C49_violated_backslash`, `C49_violated_escape`, `C49_violated_view`, `C49_violated_decimal`, `C49_violated_view_always`, `C49_violated_decimal_always`, `C49_violated_injection`, `C49_violated_inject`)
* **C50** WASM UDF values survive the call interface. Every value that is not NULL and, for decimals, whose low 64 bits have the top bit clear comes back unchanged or fails. Violated: other decimals come back as another number, NULL comes back as the stored slot value. (`C50_violated_decimal`, `C50_violated_decimal_positive`, `C50_violated_null`, `C50_violated_decimal_always`, `C50_violated_null_always`)
* **C51** Declared decimal types are stored as declared or rejected. Legal types are always stored as declared; illegal ones are rejected for precision < 256 and scale < 218. Violated: larger numbers lose their high bits before the check, so DECIMAL(266, 2) is DECIMAL(10, 2). (`C51_violated_precision`, `C51_violated_scale`)
* **C52** Memory pool accounting. Proved for sequential calls. Violated under concurrency: the gauge can stay behind after all calls are done; the pool size overflows for limits of 2^44 MiB and more. (`C52_violated_race`, `C52_violated_size`, `C52_violated_race_always`)
* **C53** Configuration validation. Exact for every configuration whose SQLite DSN is in memory iff it contains ":memory:". Violated for mode=memory DSNs and file paths containing ":memory:". (`C53_violated_mode`, `C53_violated_path`, `C53_violated_always`)
* **C54** HTTP range requests ask for exactly the requested bytes. Exact for servers that honour ranges; an error for servers that ignore them; a 206 answer for another range is not detected. (`C54_violated_other_range`, `C54_violated_always`)
* **C55** URLs of HTTP tables round-trip. Exact if the library hands over the URL path verbatim; if it percent-decodes the path itself the second decoding corrupts URLs with escapes. (`C55_violated_if_decoded`)
* **C57** Upload adds rows to the right table exactly once. Every successful upload is exact; success is proved for the default schema and for new schemas. Violated: the existence check looks the table up by its bare name, so uploads to other existing schemas read the file with the wrong schema or fail. (`C57_violated`, `C57_violated_always`, `C57_violated_existing_always`, `C57_violated_missing_always`, `C57_violated_columns_always`)
* **C58** IF NOT EXISTS / IF EXISTS clauses are honoured. Violated: CREATE SCHEMA and CREATE TABLE ignore IF NOT EXISTS, CREATE TABLE IF NOT EXISTS AS over an external table fails, DROP SCHEMA IF EXISTS of another database fails. (`C58_violated`)
* **C59** Object store options survive their map form. Local options round-trip. Violated for S3 and GCS: the map is written with other names than it is read with, loses bucket and prefix, and with the default skip_signature describes an anonymous store although credentials are configured. (`C59_violated_s3`, `C59_violated_gcs`, `C59_violated_signature`, `C59_violated_region`, `C59_violated_prefix`, `C59_violated_gcs_prefix`)
* **C60** A first-request flag is reported exactly once. Violated: load and store are separate steps, so concurrent first requests both report first; a failing first request loses the flag. (`C60_violated_race`, `C60_violated_error`, `C60_violated_race_always`)
* **C61** Squashing a buffer repeatedly preserves the net effect. Holds for any number of squashes when no change moves a row to another key; with key-moving updates a second squash links unrelated rows. (`C61_violated`, `C61_violated_always`)
* **C62** Key columns are matched by name. Holds when old and new key columns come in the same order; the accepted permuted order links unrelated rows. (`C62_violated`)
* **C63** Commit info is as new as the commit. Violated when changes of an open transaction are appended to the item of a completed one: the commit then does not mention the completed transaction. The partial theorem: newest among the transactions that end an item. (`C63_violated`)
* **C66** CREATE OR REPLACE is not executed as CREATE. Violated for everything but functions: the words are dropped before the library parser runs. (`C66_violated`)
* **C67** WASM UDFs are applied row by row. Proved for calls with at least one argument on non-empty batches or with a column first. Violated: an empty batch with a constant first panics, functions without arguments panic. (`C67_violated_empty`, `C67_violated_nullary`)
* **C68** WASM UDF calls stay inside their buffers. Proved for arguments of at least 4 bytes. Violated: shorter encodings overrun the buffer, or fail at the end of memory. (`C68_violated`, `C68_violated_end`, `C68_violated_always`)
* **C69** A created table has the declared columns. Violated: FLOAT(p) is single precision for every p; column options other than NOT NULL (PRIMARY KEY, DEFAULT, …) are dropped silently. (`C69_violated_float`, `C69_violated_options`, `C69_violated_float_always`)
* **C70** Tables share an object store exactly if location and options agree. Proved for sequential requests. Violated by concurrent first requests, which build two stores. (`C70_violated_url`, `C70_violated_race`, `C70_violated_url_always`, `C70_violated_race_always`)
* **C71** Storage options reach Iceberg tables. Proved for option sets without aliases of the same option. Violated: session tokens are passed under a name Iceberg does not know; aliases win at random. (`C71_violated_token`, `C71_violated_order`, `C71_violated_token_always`)
* **C72** A session can call exactly the functions of its database. Violated: the session that dropped a function can still call it. (`C72_violated`, `C72_violated_always`)
* **C73** A failed DDL statement changes nothing. Violated: CREATE TABLE in schema system or in another database reports an error and keeps the table; CREATE TABLE AS whose write fails leaves an empty table; DROP SCHEMA: see C76. (`C73_violated`, `C73_violated_register`, `C73_violated_write`)
* **C74** A stored function is the function that was created. All SQL definitions survive. Violated: a DECIMAL return type loses precision and scale, and SQL cannot give a DECIMAL a precision at all, so no usable DECIMAL function can be created. (`C74_violated`)
* **C75** DROP TABLE removes exactly the named table. Violated: DROP TABLE IF EXISTS silently skips external tables and tables that do not load; DROP TABLE of a missing staging table succeeds. (`C75_violated`, `C75_violated_always`)
* **C76** DROP SCHEMA removes exactly the schema and its tables. Violated: a failure midway leaves the tables already removed removed; a schema named system cannot be dropped. (`C76_violated`, `C76_violated_system`, `C76_violated_midway`)
* **C77** CREATE TABLE AS stores exactly the query's result. Violated: OR REPLACE is ignored. (`C77_violated`, `C77_violated_always`)
* **C78** Databases are separate. Proved for all statements but DROP TABLE with the name of another database. Violated: that drops the catalog entry but not the data; CREATE TABLE other.public.x creates x in the current database; external tables are shared by all databases. (`C78_violated`, `C78_violated_create`, `C78_violated_drop`, `C78_violated_external`)
* **C79** The HTTP store reports sizes and ranges of objects correctly. Exact for servers that follow the standard. Violated: the size of an empty object cannot be found if HEAD is forbidden; a Content-Range without complete length panics; get_opts accepts any range that the server answers with. (`C79_violated_empty`, `C79_violated_panic`, `C79_violated_other_range`)
* **C80** Data read over https comes from the https location. Holds if the schemes that are used serve the same bytes. Violated: http and https share one cache whose keys have no scheme, so bytes fetched over http are returned for https. (`C80_violated_http_poisons_https`, `C80_violated_always`)
* **C82** A remote table shows the rows of the table it stands for. Proved for scans with a non-empty list of columns (what the query planner sends) and for filters in the ordinary forms of C48. Without a list of columns the values are assigned by position: violated if the declared columns are in another order or more than the remote ones. A scan of no columns asks for an empty list of columns. (`C82_violated_star`, `C82_violated_missing`, `C82_violated_star_always`)
* **C83** The system tables show exactly the versions and dropped tables of the database. Contents proved for all catalog histories. Violated in one detail: a system table whose name is in capital letters is reported as existing but is not found. Nothing in the code base inserts into dropped_table any more, so that table only shows old entries. (`C83_violated_case`)
* **C84** A table name leads to the place the metastore gives for it. Names and places proved for every listing and every catalog history. Violated: one table that cannot be resolved makes all tables unavailable; tables in a schema called system can be created but never read. (`C84_violated_other`, `C84_violated_system`)
* **C85** A statement sees one version of each table. Proved in every interleaving for statements with a search path or in another database, and for the others if no other statement makes a step in the session of the server meanwhile. Violated otherwise: another statement replaces the catalog in the shared session. (`C85_violated`, `C85_violated_always`)
* **C86** A statement resolves its tables in its own metastore. Proved in every interleaving for statements with their own session. Violated in the shared session: a statement reads tables of the metastore sent with another statement, misses a table created before it was sent, or loses the version of a table it asked for. (`C86_violated_inline`, `C86_violated_mixed`, `C86_violated_stale`, `C86_violated_travel`, `C86_violated_inline_always`, `C86_violated_stale_always`, `C86_violated_travel_always`)
* **C87** INSERT into an Iceberg table adds exactly its rows. Proved for an INSERT that runs alone into a table with a version hint. Violated for tables without version-hint.text (rows go to a new table, columns unchecked), when an answer is lost (error although the rows are there), and for tables whose current schema id is not 0 (old columns are shown or the table cannot be read). A name of a catalog never shows the inserted rows until it is given the new metadata file. (`C87_violated_no_hint`, `C87_violated_retry`, `C87_violated_columns`, `C87_violated_retry_always`)
* **C88** Concurrent INSERTs into an Iceberg table do not overwrite each other. Proved in every interleaving with failures: successful INSERTs are in the table once, in commit order. Violated as to usability: an INSERT that ends between writing metadata and hint blocks the table for ever. (`C88_violated`)
* **C89** DELETE removes only rows that satisfy its WHERE clause. Proved for every optimizer that keeps the meaning of plans and leaves a filter on the table. Violated: whenever the optimized input is no filter the whole table is emptied, as for WHERE FALSE, WHERE NULL and WHERE col IN (SELECT ...). (`C89_violated_false`, `C89_violated_subquery`, `C89_violated_and_subquery`)
* **C90** Each kind of INSERT does what it says. Proved for INSERT INTO. Violated: INSERT OVERWRITE and REPLACE INTO are executed as INSERT INTO on every table. (`C90_violated_overwrite`, `C90_violated_replace`)
* **C91** UPDATE ... FROM joins or is refused. Proved if the other table has rows and is not mentioned; refused if it is mentioned. Violated: with an empty table after FROM rows are changed although none matches. (`C91_violated`, `C91_violated_always`)
* **C92** The settings in force are those of the environment, the file and the defaults, in this order. Proved for files that exist and for the default path. Violated: a configuration file that was given by name and does not exist is no error (required(false)), although the comment in main.rs promises one; the server runs with the environment only. (`C92_violated`, `C92_violated_read`)
* **C93** Garbage is collected at the configured interval. Proved for intervals up to 18 hours. Violated above: the number of seconds is computed in u16 and wraps around in release builds (24 h become 20864 s; multiples of 4096 h stop the server). (`C93_violated`)
* **C94** Any number of servers can start on one catalog. Proved: the catalog stays consistent, at least one server comes up, all come up if the default entries exist. Violated on a fresh catalog: one of two servers panics. (`C94_violated`, `C94_violated_db`, `C94_violated_schema`, `C94_violated_always`)
* **C95** A script does what its statements say, in order. Proved for one-off commands and HTTP without conditions, and for the command line if no statement fails and none after a query removes files. Violated on the command line: all statements are planned (and changes executed) before the first result is read, so SELECT ...; DROP TABLE fails, an error takes the output of earlier queries, and statements after a query that fails at run time are executed. (`C95_violated`, `C95_violated_drop`, `C95_violated_output`, `C95_violated_goes_on`)
* **C96** Over the PostgreSQL protocol a statement takes effect when it is executed. Proved for simple queries and for binds that are followed at once by their execution. Violated: a change is made when it is bound, not when it is executed; a query shows the rows of the moment it was bound. (`C96_violated_bind`, `C96_violated_read`, `C96_violated_stale`, `C96_violated_gone`)
* **C97** The command line does with a line what its help text says. Proved: commands with any spacing, statements verbatim, lines in order, none lost. Violated: backslash-d executes statements after a semicolon in its argument; completeness is decided by the last character, also inside literals and comments. (`C97_violated`, `C97_violated_describe`, `C97_violated_literal`, `C97_violated_comment`)
* **C98** CONVERT TO DELTA makes a table of exactly the files of the directory. Proved: a first conversion makes a table of exactly the rows of the files, all other tables stay, unsuitable directories are refused without an effect, repeating a success is harmless, conversions never share a directory if all tables can be loaded. Violated: a CONVERT of a directory that is a Delta table reports success whatever the name and enters nothing, so a second name, or a retry after the name was taken, denotes no table. (`C98_violated_already`, `C98_violated_retry`, `C98_violated_second_name`, `C98_violated_shared`, `C98_violated_name`)
* **C99** Options given for a location win over the environment. Proved: a given option wins under any spelling, other settings come from the environment, unknown options are errors, writes stay conditional, Google service accounts are never mixed. Violated: the region of the environment is ignored and region detection panics although it is set; session token, half a key pair and AWS_SKIP_SIGNATURE of the environment are mixed with given keys; two spellings of one option depend on hash order; GOOGLE_SERVICE_ACCOUNT_PATH is ignored. (`C99_violated_region`, `C99_violated_credentials`, `C99_violated_spelling`, `C99_violated_google_path`, `C99_violated_token`, `C99_violated_half`, `C99_violated_skip`, `C99_violated_order`)

Further findings, noted in comments of the model or visible in examples:

* `POST` of `SHOW`/`DESCRIBE` needs write permission; `GET` truncates the path at the
  first dot; a token that itself starts with `Bearer ` cannot be used; a read that is
  forbidden through `POST` is reported as a forbidden write.
* `get_wasm_type(t).unwrap()` panics for non-native types of the legacy language; a
  function whose stored definition no longer parses makes every statement of the
  database fail; quoted or mixed-case function names are stored verbatim and cannot be
  called.
* Reads past the end of an object poison the chunk cache; `in_memory_rows` has a sign
  error; unsigned subtractions in `planner.rs` 617 and in a log message can underflow.
* A message whose flush fails is answered with an error although it stays accepted; a
  commit whose acknowledgement is lost is written again (at-least-once).
* Changes that reached a table before a restart and are sent again are applied again
  (there is no check against the sequence in the table). This is harmless except for a
  row that was flushed and whose deletion comes in the same flush as its repeated
  insertion: both cancel out and the row stays (C104, C106).
* The sync writer finds its buffer by the URL of the table. The options of the store are not
  part of it, so tables told apart by the endpoint only share a buffer and the changes of the
  second go to the first (C107). C01-C07, C105 and C106 speak of tables with different URLs.
* A write of a cache file that fails half way (a full disk) leaves the file. When the chunk is
  cached again, `write_file` finds the file and takes it for the chunk: from then on the object
  cache serves a truncated chunk until the entry expires (C109).
* CREATE EXTERNAL TABLE registers its store under the name of the bucket for the whole server
  before anything else is checked. A second statement for a bucket of this name with another
  endpoint or other credentials, even a failing one, redirects the external tables that are
  there (C110).
* UPDATE and DELETE with a WHERE clause read the files they rewrite through a scan that
  has the WHERE clause as its filter, and take the result for all rows of those files. A
  scan that leaves out row groups refuted by their statistics (what the Parquet reader
  does by default with a predicate) loses the rows of those row groups: files of more
  than 65536 rows (C25_row_groups, C25_large_file_loss, C26_large_file_loss). Whether the
  pinned Delta library hands the filter to the reader is not visible in /repo.
* `CREATE EXTERNAL TABLE … PARTITIONED BY ("p q" TEXT)` defines the column `p q` but declares the partition column `"p q"`
  with its quotes (`to_string`), and `(P TEXT)` defines `p` but declares `P`: neither names a column (C111).
* A Flight query with an inlined metastore panics (`expect`) if the message leaves out the list of schemas; a sync request with
  a location that does not parse is answered `internal`, as is one whose changes were taken (C112).
* `physical_squashing` calls `in_memory_rows.increment(rows_delta)` with the number of rows it
  removed (writer.rs 559; the line above uses `decrement` for the bytes), so the gauge of rows
  in memory is too high by twice the squashed rows from then on, also with nothing in memory
  (C113). `in_memory_oldest` is only set by requests with rows and at the end of a flush
  without errors, so it is stale after a failed one (C113).
* A GET answer whose stream breaks off carries status 200, an ETag and `Cache-Control`, so HTTP
  caches hand it out for the whole `max-age` (C114).
* `http_requests` counts refusals for lack of permission as 500, whatever the client gets, because
  the counting layer sits inside `recover`; queries in a database named `upload` count as uploads;
  unknown paths become labels, so a client can make any number of series; gRPC streams that fail
  count as successes (C115).
* Refusals bypass the CORS layer and `Vary`: a page cannot read a 401, 403, 404 or 405 (C116).
* Through the eight-byte length a module that keeps its contract returns wrong values: one small integer as argument
  gives a buffer of six bytes, and two bytes of the module's own data behind it become zero (C117). A pointer from
  2 GiB on is negative as an `i32` and panics.
* `requests_total` of the object cache, documented as the number of calls to the actual object store, misses the parts,
  the completion and the abort of multipart uploads and uploads started with options (C118).
* With an external or inline metastore, `DROP TABLE t` deletes every object in the directory of the table
  (`delete_delta_table`) and then fails with "not implemented", since the metastore cannot drop it; `DROP SCHEMA`
  does the same with the first table of the schema (C119). The table stays listed and is unreadable.
* INSERT, UPDATE and DELETE on such a table work on the directory of the *default store* named by the last part of
  the table's location, if that is a UUID: INSERT adds the rows to whatever table is there, UPDATE writes the new
  file there but commits it to the table itself, which cannot be read any more. Then they fail with "not
  implemented" (C119). Time travel reads that other directory too (C120).
* `DROP SCHEMA staging` deletes the objects of an external Delta table (`STORED AS DELTATABLE`), also with the
  catalog database, and then fails; `DROP TABLE staging.t` keeps them (C119).
* Over HTTP, NaN and the infinities are sent as `null` (`C121_violated_nan`), and of two columns with
  the same name (`SELECT a.x, b.x FROM a JOIN b ...`) JSON clients see only the second
  (`C121_violated_names`). The schema in the `Content-Type` takes at least 140 bytes per column, so that
  wide results exceed the header limits of common proxies (`C122_size`).
* **C123**: the path in a sync request is joined to the root URI by the rules for URLs, but turned into a directory by those of
  the object store. `a/../t` gets the URI of `t` and the directory `a/%2E%2E/t`; as queues are found by URI, changes of `t` are then
  written to that other directory (`C123_violated_dots`). `t/` is a second queue for `t` (`C123_violated_slash`). `/t` ignores
  the prefix in the URI only. For `https://s3.region.amazonaws.com/bucket/path` the whole path becomes the prefix, including
  the bucket: files are looked for in `bucket/path` inside the bucket (`C123_violated_path_style`).
* **C124**: `CREATE TABLE … AS` converts timestamps from nanoseconds to microseconds without notice; the fraction is dropped
  towards 1970, so that earlier moments become later ones and different ones equal. The conversion is only applied to whole
  columns: in a list or struct, or in an uploaded file, such timestamps make the statement fail (`C124_violated_refused`).
* **C125**: on the first start with a catalog from before Delta tables, the lists of files of all tables are deleted and the
  tables stay, all with the UUID zero, with nothing to tell them by; their data cannot be reached any more (`C125_violated`). The
  loop that converts types runs before the migration that writes the types it converts (`C125_violated_order`).
* **C126**: the name of the PostgreSQL schema is put into SQL without quotes. `Sales` and `sales` are one catalog, as are names that
  agree in the first 63 bytes; `my-catalog` is refused. As `public` is in the search path and the loop over column types runs before the
  tables are created, the first start with a new schema updates the catalog in `public` (`C126_violated_public`).
* **C127**: catalog operations are a lookup by name and a change by identifier, without a transaction around them. Two sessions that
  rename the same table both succeed (`C127_violated_rename`); `DROP TABLE t` removes `b` if another session renames `t` to `b` in
  between (`C127_violated_drop`). With SQLite, where identifiers of deleted rows are reused, a delayed `DROP TABLE` removes an
  unrelated table created meanwhile (`C127_violated_reuse`), and `CREATE TABLE s2.x` can create `z.x` (`C127_violated_schema`).
  Columns are written after the transaction that creates the table, so that a write in between leaves a version without columns
  (`C127_violated_columns`).
* **C128**: UPDATE and DELETE commit as operations without a predicate (physical.rs 354-358, 473), so that the conflict check of
  delta-rs sees only files that both statements remove. `UPDATE t SET c = 2 WHERE c = 1` and `UPDATE t SET c = 1 WHERE c = 2` at the
  same time, on rows in different files, both succeed and swap the values (`C128_violated_update`); `INSERT INTO t SELECT * FROM t`
  while `DELETE FROM t` runs leaves a copy of every row (`C128_violated_copy`).
* **C129**: a statement resolves the name of its table at each use. UPDATE finds the table at physical.rs 231 and the directory for the
  new files at 301, DELETE in the opposite order at 378 and 380, both in the catalog registered in the session *then*, which every
  other statement of that session replaces. If the table is renamed and another gets its name in between, the new rows go to the
  directory of one table and the commit to the log of the other, which can not be read any more (`C129_violated_update`,
  `C129_violated_delete`); the statement succeeds. `DROP TABLE a` deletes the files of the table its session has as `a` and the entry
  that is called `a` in the metastore later (physical.rs 504-515): a RENAME in between costs both tables their data or their entry
  (`C129_violated_drop`). Even without RENAME, DROP in a session with an old catalog forgets a table and keeps its files, and a later
  UPDATE may write there (`C129_violated_stale`).
* **C130**: the server as a whole behaves like a database for one client, except after failures: CREATE TABLE AS is not atomic (the
  table exists before its rows, physical.rs 159-191), DROP TABLE deletes the files before the entry (physical.rs 504-515), so that a crash
  leaves an entry without files, and INSERT, UPDATE and DELETE report a failure although their rows are there if only the record in
  the metastore failed (`C130_violated_create_as`, `C130_violated_drop`, `C130_late`).
* **C131**: TRUNCATE commits a version and does not record it (physical.rs 666-704, unlike 365, 481 and delta.rs 422).  VACUUM then deletes
  the files of the last recorded version and keeps only this version in `system.table_versions` (`C131_violated_vacuum`): the single
  listed version cannot be read.
* **C132**: host names are not resolved: `bind_host = "localhost"` (or `::1` without brackets) passes the configuration and then panics when
  the frontend starts (http.rs 663-665, flight/mod.rs 27-29, config/context.rs 122-124).
* **C133**: `flush` tries the oldest entry first and gives up at the first failure (writer.rs 321-324, 340-351).  A table that can never be
  written (deleted bucket, incompatible schema) therefore blocks replication to all tables of the process for ever.
* **C134**: a new table gets the columns of the first change set in the buffer only (writer.rs 415-421), and `apply_syncs` projects only
  the columns of the table (planner.rs 487-540).  Values sent for other columns are dropped; the change counts as durable.
* **C135**: a flush commits as an append without a predicate (writer.rs 480-485), so that the library checks only for files removed
  by both.  Two servers that insert the same key while both have loaded a version without it both commit: the key is duplicated,
  a later update changes both rows, only a deletion removes them.
* **C136**: `try_new` does not check that a key column is not a value column too (the TODO at sync/schema/mod.rs 33).  `apply_syncs` looks for the
  value column first (planner.rs 495-497), so the value is stored in place of the key, and later changes to the key find no row.
* **C137**: `col(name)` and the keys of `join` read a name as SQL, so letters become lower case (sync/utils.rs 304, planner.rs 308, 357-361, 388, 465-479,
  union.rs).  A table with a key column `userId` is accepted and buffered, but each of its flushes fails while planning.  The other columns are referred
  to exactly in `apply_syncs`, but by canonical name after a merge (`col("value_userName")`), so they work until two items have to be merged.
  `flattened_fields` lists the fields inside struct, list and map columns, which are no columns of the table (planner.rs 485), and `try_new` on the
  normalised changes expects a descriptor for each of them (planner.rs 418): nothing nested can be flushed.
  A table column called `__upsert_col` makes the filter of `apply_syncs` (planner.rs 480) ambiguous, and one called `__lower_rel` is replaced by the
  flag of the base scan (planner.rs 467).
* **C138**: the precision a decimal result carries is compared with the declared one, the number itself is not (wasm.rs 499-520), and
  `with_precision_and_scale` does not validate values.
* `system.table_versions` on PostgreSQL shows creation times rounded to the nearest second
  (`CAST(EXTRACT(EPOCH …) AS INT8)`), up to half a second in the future; SQLite cuts the fraction off (C139).
* The latest version of a table is the one with the largest time on PostgreSQL, the one with the largest
  identifier on SQLite; after a clock that went back they differ, and VACUUM keeps different versions (C139).
* `ALTER TABLE IF EXISTS missing RENAME TO x` is an error (`if_exists` is not looked at, logical.rs 190); `ALTER TABLE s.t RENAME TO u`
  moves the table to the default schema of the session; after `CREATE SCHEMA system` a table renamed to `system.t` cannot be
  reached by any name, not even to rename it back (C140).
* With `gc_interval` set every stop of the server takes five seconds and ends in a panic: the task of the garbage collection does not
  listen for the request to stop (main.rs 247-251), and the error of `handle_shutdown_requests` is unwrapped (C141).
* **C142**: `normalize_syncs` reads columns with `col(field name)` (planner.rs 296-314, 356-361, 388), which folds letters to lower case. In a message with the fields
  `value_Total` and `value_total` the column `Total` gets the values of `total`; a composite key of `Id` and `id` loses its first part. The flush succeeds, no error is shown.
  The keys of the joins are read in the same way (planner.rs 237-249, 465-479): in a table with the key columns `Id` and `id` an update of the row (1, 5) is joined with every row (x, 5), and all of them are overwritten by it.
  So are the columns whose statistics decide which files are rewritten (utils.rs 304, 344-345): a file with the row (1, 5) alone is passed over by that update, since 1 is not among its values of `id`; the row stays and another one is added.
* **C143**: `create_delta_table` writes the Delta log (delta.rs 303-350) before the metastore refuses the name (delta.rs 360-374); nothing removes it. DROP TABLE logs an error of
  `delete_delta_table` and forgets the table all the same (physical.rs 486-519), so the rest of the files is unreachable. VACUUM deletes the files that the log removed (tombstones), not those
  uploaded by a statement that failed before its commit.
* `CREATE SCHEMA a.b` creates a schema literally called `a.b`; an upload creates the
  schema before it rejects the file.

## Modelled and not modelled

Modelled, function by function: the sync writer, its squash, merge, prune and apply
path and its schema checks; the caching, HTTP and wrapped object stores; INSERT,
UPDATE and DELETE planning, partition file writing and multipart upload; the SQL
repository (SQLite flavour), the catalog stores and garbage collection; access policy,
HTTP routes, ETags and Flight tickets; time travel rewriting, statement parsing and
dispatch; filter push-down and literal quoting of remote tables; the WASM function
interface and stored function definitions; column types, memory pool, configuration
validation, object store options and factory; DDL statements, name resolution and
uploads; building of catalogs from metastores, statements that run at the same time,
remote scans, system tables, INSERT into Iceberg tables; the start of the server,
scripts, the command line and the PostgreSQL frontend; the writer together with the
data it writes, over restarts; upload forms and options from the environment.

Not modelled: async scheduling inside one request (except where an interleaving
semantics is stated), memory safety, performance and histograms, floating point, Parquet
and Arrow encodings, SQL planning and execution inside DataFusion, TLS and gRPC
framing, the PostgreSQL wire encoding, position
deletes and partitions of Iceberg tables, the builder of delta-rs behind CONVERT TO DELTA.
