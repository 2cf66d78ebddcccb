{"id": "C01", "title": "Durable sequence numbers are never ahead of storage", "statement": "Whenever the sync endpoint reports durable_sequence_number = s for an origin, every row-change message of every transaction that was accepted up to and including that origin's transaction s has been committed to the Delta log of the table it targets; nothing of it exists only in memory.", "quantifier": "every history of sync messages (any origins, tables, sequence numbers, empty or not), lock timeouts, flushes in any order, flush failures at any table", "why_tests_cant": "The claim ranges over unbounded interleavings of messages to several tables with partial flushes and failures; a test fixes one schedule.", "anchors": ["src/sync/writer.rs: enqueue_sync, flush, flush_syncs, remove_tx_locations, advance_durable, stored_sequences", "src/frontend/flight/handler.rs: process_sync_cmd"]}
{"id": "C02", "title": "Transactions become durable in arrival order", "statement": "The set of transactions that have been declared durable is always a prefix of the accepted transactions in arrival order (over all origins); a transaction is never declared durable while an earlier accepted one is not.", "quantifier": "every history of messages, flushes and failures", "why_tests_cant": "Needs all flush orders relative to all arrival orders.", "anchors": ["src/sync/writer.rs: advance_durable, Transaction"]}
{"id": "C03", "title": "Reported sequence numbers move forward and durable never exceeds memory", "statement": "If a client sends strictly increasing sequence numbers per origin, then the memory and the durable number reported for an origin never decrease, and the durable number never exceeds the memory number (and is reported only if a memory number is).", "quantifier": "every history whose closing messages carry increasing sequence numbers per origin", "why_tests_cant": "Monotonicity over all histories cannot be sampled.", "anchors": ["src/sync/writer.rs: stored_sequences, enqueue_sync, advance_durable", "clade/proto/sync.proto: DataSyncResponse"]}
{"id": "C04", "title": "No accepted message is lost or written twice", "statement": "At every moment, for every table, the messages committed to its Delta log followed by the messages still buffered are exactly the accepted non-empty messages for that table, in acceptance order, each once.", "quantifier": "every history of messages, flushes, failing flushes and lock timeouts, every table", "why_tests_cant": "Conservation is a statement on every reachable state of an unbounded queue.", "anchors": ["src/sync/writer.rs: enqueue_sync, flush_syncs, remove_sync, physical_squashing"]}
{"id": "C05", "title": "A refused message has no effect", "statement": "If a sync message is refused (open transaction of another origin, empty transaction, Iceberg target, lock timeout) or is a probe (no rows and no sequence number), then buffered data, transaction bookkeeping and every reported sequence number are exactly as before.", "quantifier": "every reachable state and every message", "why_tests_cant": "Every state/message combination, including half-open transactions.", "anchors": ["src/sync/writer.rs: enqueue_sync", "src/frontend/flight/handler.rs: process_sync_cmd"]}
{"id": "C06", "title": "Only one open transaction, never mixing origins", "statement": "At any time at most one accepted transaction is open (its sequence number unknown) and it is the most recent one; all messages assigned to one transaction come from one origin.", "quantifier": "every history", "why_tests_cant": "Invariant over unbounded histories.", "anchors": ["src/sync/writer.rs: enqueue_sync, txs"]}
{"id": "C07", "title": "Buffer accounting is exact", "statement": "The total in-memory size used for the flush decision equals the sum of the sizes of all buffered batches, per table and in total, and the per-table row count equals the number of buffered rows, after any history; subtractions in the accounting never underflow.", "quantifier": "every history, every batch size, squashing that shrinks or grows a batch", "why_tests_cant": "An off-by-one drift only shows after long histories.", "anchors": ["src/sync/writer.rs: enqueue_sync, physical_squashing, remove_sync", "src/sync/utils.rs: get_size_and_rows"]}
{"id": "C08", "title": "A successful flush terminates and leaves nothing overdue", "statement": "The flush loop terminates after committing each buffered table at most once, and when it returns successfully no buffered table is older than max_replication_lag_s, the total size is below max_in_memory_bytes (or nothing is buffered) and no table has max_syncs_per_url or more pending items.", "quantifier": "every buffer content, every configuration and every clock value", "why_tests_cant": "Termination and a universally quantified post-condition.", "anchors": ["src/sync/writer.rs: flush, flush_ready, flush_syncs"]}
{"id": "C09", "title": "A failed flush loses nothing", "statement": "If a flush fails at any point before the table commit succeeds, all buffered messages remain buffered in order, no sequence number becomes durable, and a later successful flush commits each of them exactly once.", "quantifier": "every reachable state and every failure point", "why_tests_cant": "Crash/failure point is universally quantified.", "anchors": ["src/sync/writer.rs: flush_syncs", "src/sync/mod.rs: flush_task"]}
{"id": "C10", "title": "Commit metadata stored in the table is sound", "statement": "If the newest commit of a table carries sync info (origin, sequence, new_tx), then every accepted change to that table from transactions accepted up to and including the named transaction is in the table; and new_tx is false only if the table contains no change of a transaction that is still open at commit time.", "quantifier": "every history, every flush schedule", "why_tests_cant": "Relates log contents to unbounded histories.", "anchors": ["src/sync/writer.rs: commit_info, table_sequence, flush_syncs", "src/sync/mod.rs: SyncCommitInfo"]}
{"id": "C11", "title": "Everything received eventually becomes durable", "statement": "If all accepted transactions are closed and every buffered table has been flushed, then the durable number reported for each origin equals its memory number.", "quantifier": "every history ending with closed transactions and an empty buffer", "why_tests_cant": "Liveness claim over all histories; the failing schedule needs an unusual flush/empty-message order.", "anchors": ["src/sync/writer.rs: advance_durable, enqueue_sync, flush"]}
{"id": "C12", "title": "Physical squashing preserves the net effect", "statement": "Squashing the buffered batches of one table into one batch and applying it gives the same table as applying the original row changes one by one in order (inserts, updates incl. key changes, deletes, per-column Changed flags).", "quantifier": "every valid sequence of row changes on every table content, any number of rows and columns", "why_tests_cant": "Chains of key changes of unbounded length and all interleavings.", "anchors": ["src/sync/utils.rs: squash_batches"]}
{"id": "C13", "title": "Squash output is canonical", "statement": "The squashed batch never has more rows than its input, contains no row that was both created and deleted inside the batch, and for valid input no two of its rows share an old key or share a new key.", "quantifier": "every (valid) input batch", "why_tests_cant": "Universally quantified over change chains.", "anchors": ["src/sync/utils.rs: squash_batches"]}
{"id": "C14", "title": "Merging pending items with different column sets preserves the net effect", "statement": "Combining an earlier and a later squashed item of the same table (full join on keys, or union when the later one is append-only) and applying the result equals applying the earlier item and then the later item.", "quantifier": "every pair of squashed items with arbitrary column sets, Changed flags and rows", "why_tests_cant": "All combinations of schema overlap, matched/unmatched rows and flags.", "anchors": ["src/sync/planner.rs: merge_syncs, join_syncs, union_syncs", "src/sync/schema/join.rs", "src/sync/schema/union.rs", "src/sync/schema/merge.rs: merge_schemas"]}
{"id": "C15", "title": "Applying a squashed change set is exactly upsert/delete by key", "statement": "After a flush, a key that the net change set writes has exactly one row with the new values (unchanged columns keep their stored value), a key it deletes or moves away from is gone, and every other row is untouched.", "quantifier": "every base table and every net change set", "why_tests_cant": "Quantifies over all tables and change sets.", "anchors": ["src/sync/planner.rs: normalize_syncs, apply_syncs"]}
{"id": "C16", "title": "Flushing equals replaying the change stream", "statement": "For a valid change stream, the table content after flushing any buffered list of messages equals the content obtained by applying every row change one at a time in order, no matter how the messages were grouped into items, squashed, merged and split into files.", "quantifier": "every table, every valid change stream, every grouping into items", "why_tests_cant": "End-to-end refinement over unbounded streams.", "anchors": ["src/sync/planner.rs: plan_delta_syncs, squash_syncs", "src/sync/writer.rs: flush_syncs, physical_squashing", "src/sync/utils.rs: squash_batches"]}
{"id": "C17", "title": "Files that are not rewritten contain no affected key", "statement": "Every data file that the flush leaves in place (because min/max pruning excluded it) contains no row whose primary key occurs as an old or new key of the flushed changes, in both the coarse and the fine-grained pruning mode.  Conversely a file whose recorded range of some key column lies entirely below or above all changed values of that column is left in place.", "quantifier": "every table layout with sound (or missing) file statistics, every change set", "why_tests_cant": "A wrong boundary loses or duplicates rows only for particular key/statistics combinations.", "anchors": ["src/sync/planner.rs: prune_partitions", "src/sync/utils.rs: construct_qualifier, get_prune_map"]}
{"id": "C18", "title": "Replaying already applied changes is idempotent", "statement": "Applying the same net change set to a table a second time (e.g. a client resending after a restart) leaves the table unchanged.", "quantifier": "every table and every net change set", "why_tests_cant": "All tables and change sets.", "anchors": ["src/sync/planner.rs: normalize_syncs, apply_syncs, prune_partitions (\"only needed for idempotence\")"]}
{"id": "C19", "title": "Sync schema validation is exact", "statement": "A sync schema is accepted iff the number of descriptors equals the number of fields, every role is known, each Changed column is boolean and names an existing Value column, and the old and new key columns are the same non-empty set of (name, type).", "quantifier": "every list of column descriptors and fields", "why_tests_cant": "Unbounded descriptor lists; tests list a few.", "anchors": ["src/sync/schema/mod.rs: SyncSchema::try_new"]}
{"id": "C20", "title": "Only batches with identical layout are concatenated", "statement": "Batches of a message are appended to the previous pending item only if their columns have the same names, roles and types in the same order and number.", "quantifier": "every pair of sync schemas", "why_tests_cant": "All pairs of schemas incl. prefixes.", "anchors": ["src/sync/schema/mod.rs: is_compatible_with", "src/sync/writer.rs: enqueue_sync"]}
{"id": "C21", "title": "A temporary row never blocks replication", "statement": "If every row created in the buffered changes of a table is also deleted there (so the net change is empty), the flush still succeeds and the sequence becomes durable.", "quantifier": "every buffered change stream with empty net effect", "why_tests_cant": "Needs reasoning on the fixed point: every retry behaves the same.", "anchors": ["src/sync/utils.rs: squash_batches, construct_qualifier", "src/sync/planner.rs: prune_partitions"]}
{"id": "C22", "title": "The object cache is transparent", "statement": "A ranged read through the caching object store returns exactly the bytes of the object at that range, for any cache state reached by earlier reads, evictions, expirations, failed or slow disk writes and deleted cache files, provided the object is immutable and the range is inside it.", "quantifier": "every object, every range, chunk size and every history of reads/evictions/disk events", "why_tests_cant": "All alignments of ranges and chunk sizes times all cache histories.", "anchors": ["src/object_store/cache.rs: get_range, get_chunk_range, cache_chunk_data, on_evict"]}
{"id": "C23", "title": "The cache never fetches a byte it already holds and never fetches a chunk twice per read", "statement": "For one read, the ranges requested from the backing store are chunk-aligned, pairwise disjoint, and cover exactly the chunks that were not cached; a fully cached range causes no backend request.", "quantifier": "every range and every cache content", "why_tests_cant": "All cache occupancy patterns.", "anchors": ["src/object_store/cache.rs: get_chunk_range"]}
{"id": "C24", "title": "Reads after overwrite or delete through the cache see the new state", "statement": "After an object is overwritten or deleted through the caching store, later reads return the new bytes (or not-found).", "quantifier": "every history of put/delete/get", "why_tests_cant": "Depends on cache occupancy at the time of the write.", "anchors": ["src/object_store/cache.rs: put_opts, delete, get_range"]}
{"id": "C25", "title": "UPDATE changes exactly the qualifying rows", "statement": "UPDATE t SET ... WHERE p rewrites exactly the rows for which p is true (not false, not NULL) with the assigned expressions and leaves every other row, with its multiplicity, unchanged, including rows in files the statistics pruned away.", "quantifier": "every table layout, predicate, assignment and sound pruning decision", "why_tests_cant": "All layouts, three-valued predicates and pruning outcomes.", "anchors": ["src/context/physical.rs: create_physical_plan (Dml Update)", "src/provider.rs: project_expressions"]}
{"id": "C26", "title": "DELETE removes exactly the qualifying rows", "statement": "DELETE FROM t WHERE p removes exactly the rows for which p is true and keeps rows for which p is false or NULL; DELETE without predicate removes all rows.", "quantifier": "every table layout, predicate and sound pruning decision", "why_tests_cant": "Three-valued logic over every row and layout.", "anchors": ["src/context/physical.rs: create_physical_plan (Dml Delete)"]}
{"id": "C27", "title": "Splitting into partition files loses no row and respects the size limit", "statement": "Writing a stream of record batches into files of at most max_partition_size rows stores exactly the input rows in order, every file except the last has exactly max_partition_size rows, none has more, and the reported per-file metadata correspond one-to-one to the files.", "quantifier": "every list of batches (any sizes incl. empty) and every positive limit", "why_tests_cant": "Boundary arithmetic over all batch-size sequences.", "anchors": ["src/context/delta.rs: plan_to_delta_adds (109-160)"]}
{"id": "C28", "title": "Multipart upload reassembles the file", "statement": "The parts uploaded for a file concatenate to exactly the file's bytes for every way the reads are split, and every part but the last meets the 5 MiB minimum; on a failed part the upload is aborted and an error is returned, never a partial object.", "quantifier": "every file and every sequence of short reads", "why_tests_cant": "Short-read patterns are unbounded.", "anchors": ["src/context/delta.rs: plan_to_delta_adds (199-241)"]}
{"id": "C29", "title": "A statement either commits its files atomically or changes nothing visible", "statement": "INSERT/UPDATE/DELETE make their new files visible only through one Delta log commit: if any upload or the commit fails the visible table content is unchanged.", "quantifier": "every failure point of every DML statement", "why_tests_cant": "Failure point universally quantified.", "anchors": ["src/context/delta.rs: plan_to_delta_adds, plan_to_delta_table, commit_delta_table", "src/context/physical.rs"]}
{"id": "C30", "title": "Concurrent commits never overwrite each other", "statement": "When several writers commit the same table version concurrently through the wrapped object store at most one succeeds and the log entry that was written first is never replaced.", "quantifier": "every interleaving of writers and every store configuration", "why_tests_cant": "All interleavings.", "anchors": ["src/object_store/wrapped.rs: put_opts, rename_if_not_exists, copy_if_not_exists"]}
{"id": "C31", "title": "Names in the catalog are unique and references intact", "statement": "After any sequence of catalog operations, database names, schema names per database and table names per schema are unique, and every schema, table, table version, column and function refers to an existing parent.", "quantifier": "every sequence of catalog operations incl. failing ones", "why_tests_cant": "Invariant over all operation sequences.", "anchors": ["src/repository/default.rs", "migrations/sqlite", "src/catalog/repository.rs"]}
{"id": "C32", "title": "Catalog operations report exactly the right error and then change nothing", "statement": "Creating an existing database/schema/table/function, or dropping/renaming/looking up a missing one, yields the documented error for that object kind and leaves the catalog unchanged; otherwise the operation succeeds.", "quantifier": "every catalog state and operation", "why_tests_cant": "All states.", "anchors": ["src/catalog/repository.rs", "src/repository/default.rs"]}
{"id": "C33", "title": "Renaming or moving a table keeps its identity", "statement": "A successful ALTER TABLE ... RENAME keeps the table's id, storage UUID, columns and version history, removes the old name, and affects no other table.", "quantifier": "every catalog state and target name", "why_tests_cant": "All states.", "anchors": ["src/repository/default.rs: rename_table", "src/catalog/repository.rs: move_table", "src/context/physical.rs (RenameTable)"]}
{"id": "C34", "title": "Version history: newest is current, vacuum keeps it", "statement": "Each recorded change appends one version with the table's columns; lookups see the newest version; VACUUM TABLE removes all versions of that table except the one lookups use and touches no other table.", "quantifier": "every history of writes, vacuums and clock readings", "why_tests_cant": "Clock-dependent ordering over histories.", "anchors": ["src/repository/default.rs: create_new_version, delete_old_versions, list_collections", "src/repository/sqlite.rs"]}
{"id": "C35", "title": "Dropping removes the object and everything below it, and nothing else", "statement": "DROP TABLE / DROP SCHEMA / dropping a database removes that object with all dependants and leaves every unrelated object as it was.", "quantifier": "every catalog state", "why_tests_cant": "All states.", "anchors": ["src/repository/default.rs: delete_table, delete_collection, delete_database", "src/context/physical.rs (DropTable, DropCatalogSchema)"]}
{"id": "C36", "title": "The catalog listing is faithful", "statement": "Listing a database returns every schema once and under it every table once with its storage location, and nothing else; the underlying query returns exactly the columns of each table's newest version.", "quantifier": "every catalog state", "why_tests_cant": "Grouping logic over arbitrary states.", "anchors": ["src/repository/default.rs: list_collections", "src/catalog/repository.rs: list, build_functions", "src/catalog/metastore.rs"]}
{"id": "C37", "title": "Function catalog: create, replace and drop do what they say", "statement": "CREATE FUNCTION fails iff the name exists in the database, CREATE OR REPLACE overwrites exactly that function, DROP FUNCTION f1, f2, ... removes exactly the named functions.", "quantifier": "every catalog state and every list of names", "why_tests_cant": "List argument unbounded.", "anchors": ["src/repository/default.rs: create_function, drop_function"]}
{"id": "C38", "title": "Garbage collection of dropped tables", "statement": "The vacuum of dropped tables deletes storage only under the prefixes of dropped tables that are not marked failed, forgets a dropped table only after its storage was deleted, retries a table after a first failure and gives up (marks failed) only after a retry failed.", "quantifier": "every list of dropped tables and every pattern of storage failures over repeated runs", "why_tests_cant": "Unbounded sequence of runs and failures.", "anchors": ["src/utils.rs: gc_databases", "src/object_store/wrapped.rs: delete_in_prefix"]}
{"id": "C39", "title": "No write without write permission", "statement": "A request can change data only if its principal is allowed to write: write access is Any, or a password is set and the token hashes to it; and a request can read only if reading is Any or a valid read or write token was given.", "quantifier": "every access policy and every token", "why_tests_cant": "Security decision over all policies/tokens.", "anchors": ["src/auth.rs: token_to_principal, can_perform_action"]}
{"id": "C40", "title": "The cached GET endpoint is read-only", "statement": "A statement that writes (DML, DDL, COPY, extension) is never executed through the GET endpoint, whatever the path, header, body or token, and the endpoint executes only a query whose hash matches the requested path.", "quantifier": "every request", "why_tests_cant": "Security property over all requests.", "anchors": ["src/frontend/http.rs: cached_read_query, cached_read_query_authz", "src/context/logical.rs: is_read_only"]}
{"id": "C41", "title": "POST gating of multi-statement queries", "statement": "Through POST, if any statement of the request is not a read-only statement then nothing is executed unless the principal may write; a read statement is only accepted alone at the end; the statements run in order and an error stops execution.", "quantifier": "every list of statements and every principal", "why_tests_cant": "Unbounded statement lists.", "anchors": ["src/frontend/http.rs: uncached_read_write_query", "src/context/logical.rs: is_statement_read_only"]}
{"id": "C42", "title": "A 304 answer is only given for unchanged data", "statement": "If the GET endpoint answers 304 Not Modified, the result of the query is the same as when the client received the matching ETag.", "quantifier": "every query plan and every pair of database states (hash assumed injective)", "why_tests_cant": "All pairs of states.", "anchors": ["src/frontend/http.rs: ETagBuilderVisitor, plan_to_etag, cached_read_query"]}
{"id": "C43", "title": "Errors never look like success", "statement": "Every API error is answered with a 4xx or 5xx status, authentication failures with 401/403/400 as documented.", "quantifier": "every error value", "why_tests_cant": "Finite table, but must hold for each variant and payload.", "anchors": ["src/frontend/http_utils.rs: ApiError::status_code_body"]}
{"id": "C44", "title": "A Flight result stream is handed out at most once", "statement": "A query ticket yields its stream to at most one fetch; fetching an unknown or already fetched ticket is an error; fetching one ticket never affects another.", "quantifier": "every interleaving of query and fetch requests", "why_tests_cant": "Interleavings unbounded.", "anchors": ["src/frontend/flight/handler.rs: query_to_stream, fetch_stream"]}
{"id": "C45", "title": "Time travel refers to the right table version", "statement": "For a table with recorded history, a query on table('timestamp') reads the newest version created at or before the timestamp; other tables and versions in the same query are unaffected and two different (table, version) pairs never collide.", "quantifier": "every query and version history", "why_tests_cant": "All histories and timestamps.", "anchors": ["src/version.rs", "src/context/logical.rs: rewrite_time_travel_query"]}
{"id": "C46", "title": "SQL text splitting", "statement": "A script of statements separated by semicolons is parsed into exactly these statements in order; empty statements are ignored; a missing separator is an error.", "quantifier": "every statement list", "why_tests_cant": "Unbounded scripts.", "anchors": ["src/datafusion/parser.rs: parse_sql_with_dialect, parse_copy"]}
{"id": "C47", "title": "VACUUM and TRUNCATE are never confused", "statement": "A TRUNCATE statement only ever removes all rows of the named table, and a VACUUM statement never removes live rows (VACUUM TABLE deletes exactly the files of the named table that were removed and are not live), although both share one AST node.", "quantifier": "every identifier and every form of the statements", "why_tests_cant": "All identifier shapes.", "anchors": ["src/datafusion/parser.rs: parse_vacuum, parse_truncate", "src/context/logical.rs", "src/context/physical.rs (Vacuum, Truncate)"]}
{"id": "C48", "title": "Filters pushed to a remote database mean the same there", "statement": "The SQL text produced for a filter, parsed with standard operator precedence, denotes the same filter.", "quantifier": "every filter expression", "why_tests_cant": "All expression trees.", "anchors": ["datafusion_remote_tables/src/filter_pushdown.rs"]}
{"id": "C49", "title": "Literals and identifiers cannot break out of their quotes", "statement": "A string literal or identifier inserted in pushed-down SQL is read back by the remote SQL dialect as exactly that string; no content can terminate the quote early.", "quantifier": "every string, every dialect", "why_tests_cant": "All strings.", "anchors": ["datafusion_remote_tables/src/filter_pushdown.rs", "datafusion_remote_tables/src/provider.rs"]}
{"id": "C50", "title": "WASM UDF values survive the call interface", "statement": "Encoding a SQL value for a WASM function and decoding it with the same declared type returns the same value, or an error if it does not fit, never a different value.", "quantifier": "every value of every supported type", "why_tests_cant": "Bit-level corner cases in 2^128 values.", "anchors": ["src/wasm_udf/wasm.rs: messagepack_encode_input_value, messagepack_decode"]}
{"id": "C51", "title": "Declared decimal types are stored as declared or rejected", "statement": "For DECIMAL(p, s), the column type has exactly precision p and scale s if 1 <= p <= 38 and s <= p, and the statement is rejected otherwise.", "quantifier": "every pair of numbers", "why_tests_cant": "All integers, incl. those that overflow 8 bits.", "anchors": ["src/datafusion/utils.rs: make_decimal_type"]}
{"id": "C52", "title": "Memory pool accounting", "statement": "The reserved gauge equals the bytes actually reserved in the wrapped pool after every operation, a failed reservation changes nothing but the error counter, and counters only grow.", "quantifier": "every sequence of grow/shrink/try_grow", "why_tests_cant": "Unbounded sequences.", "anchors": ["src/memory_pool.rs"]}
{"id": "C53", "title": "Configuration validation", "statement": "A configuration is accepted iff its catalog and object store are both in-memory or both persistent, an S3 store has a region or an endpoint, and a memory limit is at least 64 MB.", "quantifier": "every configuration", "why_tests_cant": "All combinations.", "anchors": ["src/config/schema.rs: validate_config"]}
{"id": "C54", "title": "HTTP range requests ask for exactly the requested bytes", "statement": "A ranged read of an HTTP object requests and returns exactly bytes [start, end) and fails when the server does not honour the range.", "quantifier": "every range and every server answer", "why_tests_cant": "All ranges incl. empty.", "anchors": ["src/object_store/http.rs: get_range"]}
{"id": "C55", "title": "URLs of HTTP tables round-trip", "statement": "The percent-encoding used to turn a URL into an object path is undone exactly when requests are made, for every URL.", "quantifier": "every string", "why_tests_cant": "All strings.", "anchors": ["src/object_store/http.rs: try_prepare_http_url, get_uri"]}
{"id": "C56", "title": "Reserved schemas cannot be shadowed", "statement": "Names in the staging and system schemas always resolve to the in-memory staging tables and system tables, for every catalog content.", "quantifier": "every catalog content and name", "why_tests_cant": "All catalog contents.", "anchors": ["src/provider.rs: SeafowlDatabase::schema", "src/context/mod.rs: resolve_staging_ref"]}
{"id": "C57", "title": "Upload adds rows to the right table exactly once", "statement": "Uploading a file to schema.table creates the table in that schema if it does not exist and otherwise appends to it; it never depends on a same-named table in another schema.", "quantifier": "every catalog state and schema/table name", "why_tests_cant": "All catalog states.", "anchors": ["src/context/physical.rs: file_to_table", "src/frontend/http.rs: upload"]}
{"id": "C58", "title": "IF NOT EXISTS / IF EXISTS clauses are honoured", "statement": "CREATE ... IF NOT EXISTS on an existing object and DROP ... IF EXISTS on a missing one succeed without changing anything.", "quantifier": "every catalog state and object kind", "why_tests_cant": "All states.", "anchors": ["src/context/physical.rs: create_physical_plan"]}
{"id": "C59", "title": "Object store options survive their map form", "statement": "Storage options converted to the key/value map form and back describe the same store.", "quantifier": "every option combination", "why_tests_cant": "All combinations.", "anchors": ["object_store_factory/src/local.rs", "object_store_factory/src/aws.rs"]}
{"id": "C60", "title": "A first-request flag is reported exactly once", "statement": "Among all sync responses of one server process, exactly the first processed request reports first = true.", "quantifier": "every interleaving of concurrent requests", "why_tests_cant": "All interleavings.", "anchors": ["src/frontend/flight/handler.rs: process_sync_cmd"]}
{"id": "C61", "title": "Squashing a buffer repeatedly preserves the net effect", "statement": "When changes keep arriving for a buffered item that has already been compacted, compacting the compacted rows together with the new rows still has the effect of all original row changes applied in order.", "quantifier": "every valid change stream and every choice of the moments at which the buffer is compacted", "why_tests_cant": "The number and placement of compactions is unbounded; the bug needs a rotation of keys followed by another compaction.", "anchors": ["src/sync/writer.rs: enqueue_sync, physical_squashing", "src/sync/utils.rs: squash_batches"]}
{"id": "C62", "title": "Key columns are matched by name", "statement": "Whatever order the old-key and the new-key columns have in an accepted change batch, a change is linked to an earlier change of the same batch only if the key values agree column by column by name.", "quantifier": "every accepted sync schema with several key columns", "why_tests_cant": "All permutations of key columns and all key values.", "anchors": ["src/sync/schema/mod.rs: try_new", "src/sync/utils.rs: squash_batches"]}
{"id": "C63", "title": "Commit info is as new as the commit", "statement": "The sync info of a commit names the newest completed transaction that has a change in the commit.", "quantifier": "every history, every flush schedule", "why_tests_cant": "Depends on how messages of different transactions are grouped into items.", "anchors": ["src/sync/writer.rs: commit_info, enqueue_sync"]}
{"id": "C64", "title": "Planned items are single batches of bounded size", "statement": "Every item a flush commits is exactly one record batch (the planner reads only the first batch of an item), and an item put together from several messages never exceeds 100000 rows.", "quantifier": "every history, every flush schedule, every storage outcome", "why_tests_cant": "Invariant over all interleavings of enqueueing, squashing and failing flushes.", "anchors": ["src/sync/writer.rs: enqueue_sync, physical_squashing, flush_syncs, MAX_ROWS_PER_SYNC", "src/sync/planner.rs: squash_syncs"]}
{"id": "C65", "title": "The right table is flushed", "statement": "A flush picks the oldest buffered table if it is overdue, otherwise under memory pressure a table of maximal size (only if squashing it did not release enough memory), otherwise a table with too many pending items.", "quantifier": "every buffer content, configuration and clock value", "why_tests_cant": "Decision over all buffer contents.", "anchors": ["src/sync/writer.rs: flush_ready"]}
{"id": "C66", "title": "CREATE OR REPLACE is not executed as CREATE", "statement": "A CREATE OR REPLACE statement either carries its OR REPLACE to execution or is rejected; it is never taken for the same statement without OR REPLACE.", "quantifier": "every statement", "why_tests_cant": "All object kinds and all token sequences after the words.", "anchors": ["src/datafusion/parser.rs: parse_create, parse_create_function"]}
{"id": "C67", "title": "WASM UDFs are applied row by row", "statement": "A call of a WASM function over a batch returns as many results as the batch has rows, and result i is the function applied to the arguments of row i, whether the arguments are columns or constants.", "quantifier": "every batch, every mix of column and constant arguments, every guest function", "why_tests_cant": "All batch sizes including zero, all argument shapes.", "anchors": ["src/wasm_udf/wasm.rs: make_scalar_function_wasm_messagepack, columnar_values_to_array"]}
{"id": "C68", "title": "WASM UDF calls stay inside their buffers", "statement": "The host writes a call's input only inside the buffer the guest allocated for it, with the length and the arguments where the guest looks for them, and reads the result back byte for byte.", "quantifier": "every input, every buffer address, every memory content", "why_tests_cant": "All sizes and addresses, including very short inputs and buffers at the end of memory.", "anchors": ["src/wasm_udf/wasm.rs: write_udf_input, read_udf_output"]}
{"id": "C69", "title": "A created table has the declared columns", "statement": "An accepted CREATE TABLE gives one column per declared column, in the declared order, under the declared name (lower case unless quoted), nullable exactly if NOT NULL is not declared, able to hold exactly the integers of the declared integer type and with at least the declared floating point precision; other column options are honoured or rejected.", "quantifier": "every list of column definitions", "why_tests_cant": "All column lists, all types and widths.", "anchors": ["src/datafusion/utils.rs: build_schema, convert_simple_data_type, normalize_ident"]}
{"id": "C70", "title": "Tables share an object store exactly if location and options agree", "statement": "The object store used for a table with its own location is built from exactly that location and those options; two tables get the same store if and only if location and options agree, in whatever order the options are given; failed builds are not remembered.", "quantifier": "every sequence (and interleaving) of requests", "why_tests_cant": "Unbounded request sequences, all iteration orders of the hash map.", "anchors": ["src/object_store/factory.rs: StoreCacheKey, get_log_store_for_table"]}
{"id": "C71", "title": "Storage options reach Iceberg tables", "statement": "Every S3 credential, region, endpoint or anonymous-access option of a location reaches Iceberg's file access under the name it looks for, unknown options are passed on unchanged, and the result does not depend on the order of the options.", "quantifier": "every option map and iteration order", "why_tests_cant": "All option sets and all iteration orders of the hash map.", "anchors": ["object_store_factory/src/lib.rs: object_store_opts_to_file_io_props", "object_store_factory/src/aws.rs: s3_opts_to_file_io_props"]}
{"id": "C72", "title": "A session can call exactly the functions of its database", "statement": "After CREATE [OR REPLACE] FUNCTION succeeds, the next statement of every session of that database calls the new definition and no statement starts failing because of it; a failed CREATE FUNCTION changes nothing; after DROP FUNCTION no session can call the function; a fresh session calls exactly the functions stored in its database.", "quantifier": "every catalog state, session and sequence of function statements", "why_tests_cant": "All combinations of stored functions, sessions and histories.", "anchors": ["src/context/physical.rs: CreateFunction, DropFunction", "src/context/mod.rs: reload_schema, register_function, scope_to"]}
{"id": "C73", "title": "A failed DDL statement changes nothing", "statement": "A DDL statement that reports an error leaves all databases, schemas, tables, functions, staging tables and table data as they were (objects under a never published table UUID excepted).", "quantifier": "every statement, state and failure point", "why_tests_cant": "Every statement in every catalog state with every failure of the object store.", "anchors": ["src/context/physical.rs: create_physical_plan", "src/context/delta.rs: create_delta_table, plan_to_delta_table, delete_delta_table"]}
{"id": "C74", "title": "A stored function is the function that was created", "statement": "A function definition accepted by CREATE FUNCTION is read back by every later session with exactly the entry point, language, argument types, return type, code and volatility it was created with, and type names are accepted in any case.", "quantifier": "every function definition", "why_tests_cant": "All definitions with all types.", "anchors": ["src/wasm_udf/data_types.rs: CreateFunctionDetails", "src/repository/default.rs: create_function", "src/catalog/metastore.rs: parse_create_function_details"]}
{"id": "C75", "title": "DROP TABLE removes exactly the named table", "statement": "DROP TABLE removes the named table and its data (for staging tables, its registration) and nothing else, whatever the outcome; without IF EXISTS a name that denotes no table is an error; with IF EXISTS an existing table is dropped all the same.", "quantifier": "every state, name and failure of the object store", "why_tests_cant": "All catalogs, names and failures.", "anchors": ["src/context/physical.rs: DropTable", "src/context/delta.rs: delete_delta_table"]}
{"id": "C76", "title": "DROP SCHEMA removes exactly the schema and its tables", "statement": "A successful DROP SCHEMA removes the schema, all its tables and their data and nothing else; it succeeds for every existing ordinary schema if the data can be deleted; if it fails nothing is removed.", "quantifier": "every state and schema", "why_tests_cant": "Any number of tables, failures at any point.", "anchors": ["src/context/physical.rs: DropCatalogSchema"]}
{"id": "C77", "title": "CREATE TABLE AS stores exactly the query's result", "statement": "A successful CREATE TABLE AS makes the name denote a table with the schema and exactly the rows of the query, without touching any other table or data; it succeeds if the name denotes no table; CREATE OR REPLACE TABLE succeeds also if it does, replacing it.", "quantifier": "every state, name and query result", "why_tests_cant": "All states and results.", "anchors": ["src/context/physical.rs: CreateMemoryTable", "src/context/delta.rs: create_delta_table, plan_to_delta_table"]}
{"id": "C78", "title": "Databases are separate", "statement": "A statement run in one database creates, drops, renames and writes tables of that database only, whatever its outcome: the tables and data of every other database are the same before and after.", "quantifier": "every statement, state and failure", "why_tests_cant": "All statements in all multi-database states, including failing ones.", "anchors": ["src/context/physical.rs: create_physical_plan", "src/context/mod.rs: resolve_table_ref"]}
{"id": "C79", "title": "The HTTP store reports sizes and ranges of objects correctly", "statement": "For a remote object reachable over HTTP, the size reported for it is its real size (also if the server forbids HEAD), a ranged or whole read reports the positions and bytes that were asked for, and no answer of a server makes the request panic.", "quantifier": "every object, range and server answer", "why_tests_cant": "All header texts and server behaviours; tests use one mock server.", "anchors": ["src/object_store/http.rs: head, head_via_get, get_opts, header_meta, CONTENT_RANGE_RE"]}
{"id": "C80", "title": "Data read over https comes from the https location", "statement": "A read of a table at an https:// location returns the bytes that the server has at that https location, whatever other locations were read before.", "quantifier": "every sequence of reads over http and https and every cache state", "why_tests_cant": "All interleavings of reads through the shared cache.", "anchors": ["src/object_store/http.rs: add_http_object_store", "src/object_store/cache.rs: new_from_sibling, get_range"]}
{"id": "C81", "title": "Seafowl's own statements are read as written", "statement": "TRUNCATE, VACUUM, CONVERT, COPY, CREATE FUNCTION and CREATE EXTERNAL TABLE statements are accepted exactly in the forms of their grammar and carry exactly the names, locations and clauses that were written; COPY takes its clauses in any order, each at most once, and needs TO.", "quantifier": "every token sequence", "why_tests_cant": "All clause orders and repetitions, and every text that must be rejected.", "anchors": ["src/datafusion/parser.rs: parse_statement, parse_convert, parse_vacuum, parse_truncate, parse_copy, parse_create, parse_create_function"]}
{"id": "C82", "title": "A remote table shows the rows of the table it stands for", "statement": "A scan of a table of a remote database returns the rows of the remote table that satisfy the filters, at most as many as the limit, each value under the name of the column it has in the remote table and in the declared type of that column; an unknown column or a value that cannot be cast is an error.", "quantifier": "every remote table, declared schema, projection, filter list and limit", "why_tests_cant": "Depends on all combinations of declared and actual columns and on what the remote database answers to generated SQL.", "anchors": ["datafusion_remote_tables/src/provider.rs: RemoteTable::new, scan, supports_filters_pushdown"]}
{"id": "C83", "title": "The system tables show exactly the versions and dropped tables of the database", "statement": "system.table_versions has exactly one row for each version of each table of the database and no others, with schema, name, identifier, version and time in the columns of these names; system.dropped_tables likewise; tables of other databases never appear and projections pick the named columns.", "quantifier": "every history of the catalog, database and projection", "why_tests_cant": "Quantifies over all catalog histories; tests look at a few versions of one table.", "anchors": ["src/system_tables.rs: SystemSchemaProvider, SystemTable, TableVersionsTable, DroppedTablesTable", "src/repository/default.rs: get_all_versions, get_dropped_tables"]}
{"id": "C84", "title": "A table name leads to the place the metastore gives for it", "statement": "In the catalog built from the listing of a metastore, a name stands for a table exactly if the listing has it, and then for the data at the storage location, options and path that the listing gives; a table of the catalog database stands for the table in the default store under its identifier. A table that cannot be resolved is an error of its own and does not affect other tables.", "quantifier": "every listing (schemas, tables, formats, storage locations), every source of listings and every catalog history", "why_tests_cant": "The number of schemas, tables and locations is unbounded, names may repeat, and the mapping goes through several maps.", "anchors": ["src/catalog/metastore.rs: Metastore::build_catalog, build_schema, build_table", "src/catalog/repository.rs: list", "src/catalog/memory.rs: list", "src/provider.rs: SeafowlDatabase::schema, SeafowlSchema::table"]}
{"id": "C85", "title": "A statement sees one version of each table", "statement": "All lookups of one table in one statement give the same version, which is at least as new as those committed before the statement arrived, whatever other statements run at the same time.", "quantifier": "every interleaving of the steps of any number of statements, with commits and DDL in between", "why_tests_cant": "A race between asynchronous steps of concurrent statements; tests run statements one after another.", "anchors": ["src/context/mod.rs: reload_schema, scope_to, with_metastore", "src/provider.rs: SeafowlSchema::table"]}
{"id": "C86", "title": "A statement resolves its tables in its own metastore", "statement": "A statement finds exactly the tables of the metastore that belongs to it (the one sent with it, or the catalog database) as it was at one moment while the statement ran, and explicit versions of them; statements that run at the same time do not influence which tables it finds.", "quantifier": "every interleaving of the steps of any number of statements, with DDL in between", "why_tests_cant": "Depends on the interleaving of listing, registering and looking up in concurrent statements that may share a session.", "anchors": ["src/context/mod.rs: reload_schema, scope_to, with_metastore", "src/context/logical.rs: rewrite_time_travel_query", "src/frontend/flight/handler.rs: query_to_stream", "src/frontend/http.rs: uncached_read_write_query", "src/provider.rs: SeafowlSchema::table"]}
{"id": "C87", "title": "INSERT into an Iceberg table adds exactly its rows", "statement": "A successful INSERT into an Iceberg table makes the rows of the table those from before followed by the inserted ones, with the same columns; it succeeds exactly if the columns of the data fit those of the table by position and the query runs; a failed INSERT changes nothing.", "quantifier": "every table state, schema, query result and failure", "why_tests_cant": "Needs tables with deletions, changed schemas, other catalogs and failures at every access.", "anchors": ["src/context/iceberg.rs: record_batches_to_iceberg, is_schema_aligned, update_metadata_snapshot, get_manifest_files", "src/catalog/metastore.rs: build_table"]}
{"id": "C88", "title": "Concurrent INSERTs into an Iceberg table do not overwrite each other", "statement": "Whatever the interleaving of INSERTs into an Iceberg table, from any number of processes and with any failures, every INSERT that succeeded is in the table exactly once, those that were refused are not, metadata files are never replaced, and the table stays usable.", "quantifier": "every number of INSERTs, interleaving and failure", "why_tests_cant": "All interleavings of the accesses to the hint and the metadata files, with crashes between them.", "anchors": ["src/context/iceberg.rs: record_batches_to_iceberg (version hint, write_exclusive)"]}
{"id": "C89", "title": "DELETE removes only rows that satisfy its WHERE clause", "statement": "Whatever the condition of a DELETE statement (comparisons, literals, AND, subqueries), and whatever the optimizer makes of its plan without changing its meaning, the rows removed are exactly those on which the condition is true; a statement that cannot be carried out fails and removes nothing.", "quantifier": "every condition, table layout, content of the other tables, prune map and optimizer that keeps the meaning of plans", "why_tests_cant": "The shape of the optimized plan depends on the condition and on optimizer rules of the library; tests use a few conditions.", "anchors": ["src/context/logical.rs: create_logical_plan (Statement::Delete)", "src/context/physical.rs: create_physical_plan (WriteOp::Delete)"]}
{"id": "C90", "title": "Each kind of INSERT does what it says", "statement": "INSERT INTO adds the rows of its source, INSERT OVERWRITE leaves exactly the rows of its source, REPLACE INTO leaves no second copy of a row that is inserted again; or the statement is refused.", "quantifier": "every table, every source and every kind of INSERT", "why_tests_cant": "All tables and sources; no test uses the other kinds of INSERT.", "anchors": ["src/context/logical.rs: create_logical_plan (Statement::Insert)", "src/context/physical.rs: create_physical_plan (WriteOp::Insert)"]}
{"id": "C91", "title": "UPDATE ... FROM joins or is refused", "statement": "UPDATE t SET ... FROM s WHERE c changes exactly the rows of t that have a matching row in s, as the assignments say on the pair of rows, or it is refused.", "quantifier": "every table, every other table, every condition and every assignment", "why_tests_cant": "All contents of both tables; the outcome depends on which columns the condition and the assignments mention.", "anchors": ["src/context/logical.rs: create_logical_plan (Statement::Update)", "src/context/physical.rs: create_physical_plan (WriteOp::Update)"]}
{"id": "C92", "title": "The settings in force are those of the environment, the file and the defaults, in this order", "statement": "After the start every setting has the value of the environment, else of the configuration file, else the default; a configuration file given by name that does not exist is an error; without any configuration a default file is written once; writes over HTTP stay off unless a setting turns them on.", "quantifier": "every content of the file system, every environment, every path of the configuration file", "why_tests_cant": "The number of combinations of sources is unbounded; tests parse a few files.", "anchors": ["src/main.rs: main", "src/config/schema.rs: build_default_config, load_config, AccessSettings::deserialize"]}
{"id": "C93", "title": "Garbage is collected at the configured interval", "statement": "A server with frontends and a default object store collects garbage every gc_interval hours and never if it is 0; one-off commands, the command line and a server without frontends start neither.", "quantifier": "every interval that the configuration can express, every combination of arguments and frontends", "why_tests_cant": "65536 intervals that would have to be waited for; the product is computed in 16 bits.", "anchors": ["src/main.rs: main"]}
{"id": "C94", "title": "Any number of servers can start on one catalog", "statement": "Servers that start at the same time on one catalog all come up, find the default database and schema there once, and leave all other entries as they are.", "quantifier": "every catalog, every number of servers, every interleaving of their accesses", "why_tests_cant": "Interleavings of several processes on one catalog database.", "anchors": ["src/config/context.rs: build_context"]}
{"id": "C95", "title": "A script does what its statements say, in order", "statement": "Several statements in one go (one-off command, command line, HTTP) have the effect and show the results of executing them one after the other until the first error.", "quantifier": "every database, every list of statements (queries, INSERT, UPDATE, DELETE, CREATE, DROP, VACUUM, RENAME), every query that may fail at run time", "why_tests_cant": "The effect depends on the order of planning and reading across statements; the number of scripts is unbounded.", "anchors": ["src/utils.rs: run_one_off_command", "src/cli/mod.rs: exec_and_print", "src/frontend/http.rs: uncached_read_write_query", "src/context/physical.rs: plan_query, create_physical_plan"]}
{"id": "C96", "title": "Over the PostgreSQL protocol a statement takes effect when it is executed", "statement": "Preparing and binding a statement change nothing; each execution has the effect and the result of the statement on the database of that moment.", "quantifier": "every database, every sequence of parse, bind, execute and simple query messages", "why_tests_cant": "Sequences of messages are unbounded; usual drivers bind and execute at once.", "anchors": ["src/frontend/postgres.rs: prepare, create_portal, fetch"]}
{"id": "C97", "title": "The command line does with a line what its help text says", "statement": "A line with a backslash is the named command however it is spaced, and reads only; statements are executed as typed, once each, when they are complete.", "quantifier": "every sequence of lines", "why_tests_cant": "Input is unbounded; there are no tests of the interactive loop.", "anchors": ["src/cli/mod.rs: command_loop, handle_command", "src/cli/commands.rs: Command::from_str", "src/cli/helper.rs: validate_input"]}
{"id": "C98", "title": "CONVERT TO DELTA makes a table of exactly the files of the directory", "statement": "A CONVERT that is reported as done leaves the given name denoting a table with exactly the rows of the Parquet files of the directory; every table that existed stays as it was; a directory that is no such table is refused without an effect; a CONVERT that failed can be repeated; no two tables share a directory.", "quantifier": "every catalog, session, directory content and sequence of CONVERT statements", "why_tests_cant": "The tests convert one directory of three files under one name; they do not try a second name, a taken name or a directory left by a failed statement.", "anchors": ["src/context/delta.rs: create_delta_table", "src/context/physical.rs: create_physical_plan (ConvertTable)", "src/datafusion/parser.rs: parse_convert"]}
{"id": "C99", "title": "Options given for a location win over the environment", "statement": "A setting given with a location (in CREATE EXTERNAL TABLE, CONVERT, COPY or a metastore) is in force whatever the environment of the server holds; a setting that is not given is taken from the environment; an unknown option is an error; credentials given with the location are used alone, not mixed with those of the environment.", "quantifier": "every set of options under every spelling, every environment", "why_tests_cant": "Environments and spellings are unbounded; the tests set one option at a time, in a process whose environment they share.", "anchors": ["object_store_factory/src/aws.rs: map_options_into_amazon_s3_config_keys, add_amazon_s3_specific_options, add_amazon_s3_environment_variables", "object_store_factory/src/google.rs: map_options_into_google_config_keys, add_google_cloud_storage_environment_variables", "object_store_factory/src/lib.rs: build_object_store_from_opts"]}
{"id": "C100", "title": "The address of a request names the database, schema and table it works on", "statement": "A request to /[database]/q, /[database]/q/[query] or /[database]/upload/[schema]/[table] works on exactly the database, schema and table of its address, on the default database if none is given, and every other address or method is refused.", "quantifier": "every path and method, every name", "why_tests_cant": "All names and paths, including those that need encoding; the tests use plain names.", "anchors": ["src/frontend/http.rs: filters, upload"]}
{"id": "C101", "title": "A GET request answers the query it carries", "statement": "The query that is answered is the one in the body, else the one in the header, else the one in the path; a query in the body or header is only answered under its own hash.", "quantifier": "every query, every combination of path, header and body", "why_tests_cant": "All query texts; the tests use queries without dots or percent signs.", "anchors": ["src/frontend/http.rs: cached_read_query, filters"]}
{"id": "C102", "title": "An upload loads the file that was sent", "statement": "A form that is accepted loads exactly the bytes of its file, as the type of its name, with the schema and the header setting sent with it; a form without a proper file is refused; only a caller with write permission loads anything, and into the table of the address.", "quantifier": "every sequence of form parts, every address, every caller", "why_tests_cant": "All sequences of parts; the tests send one file in one order.", "anchors": ["src/frontend/http.rs: upload, load_part, filters"]}
{"id": "C103", "title": "The status of an HTTP answer tells what is wrong", "statement": "401 means that the caller did not authenticate, 403 that the caller lacks the permission, 405 that the method does not suit the statement or the address, 400 that the request is at fault, and 5xx that the server failed; each is given exactly then.", "quantifier": "every request, policy and database state", "why_tests_cant": "All combinations of policies, tokens, statements and failures.", "anchors": ["src/frontend/http_utils.rs: ApiError::status_code_body, handle_rejection", "src/frontend/http.rs: filters", "src/auth.rs: token_to_principal"]}
{"id": "C104", "title": "Sending changes again does no harm", "statement": "A client that resumes after a restart sends again all changes after the last durable number. Whatever part of them had already reached the table before the restart, and however they are grouped into flushes this time, the table afterwards equals the result of applying every change exactly once.", "quantifier": "every table, every valid change stream, every point up to which it had been flushed, every grouping of the changes that are sent again", "why_tests_cant": "Depends on which prefix had been flushed and on how the changes are grouped the second time; no finite set of restarts covers it.", "anchors": ["src/sync/writer.rs: flush_syncs, enqueue_sync", "src/sync/utils.rs: squash_batches", "src/sync/planner.rs: plan_delta_syncs"]}
{"id": "C105", "title": "A synced table holds a point of the change stream", "statement": "After any history of requests, background flushes, storage failures and foreign commits, and also if the process dies in the middle of a flush, a synced table holds exactly the result of the changes accepted for it, in order, up to some point; this point lies after everything reported as durable, and it is the end of the stream if nothing is buffered.", "quantifier": "every history of one process, every table, every configuration, every valid change stream", "why_tests_cant": "Composes acceptance, buffering, any number of rounds of squashing, merging and applying over unbounded histories and crash points.", "anchors": ["src/sync/writer.rs: enqueue_sync, flush, flush_syncs, physical_squashing, remove_sync", "src/sync/utils.rs: squash_batches", "src/sync/planner.rs: plan_delta_syncs", "src/frontend/flight/handler.rs: process_sync_cmd"]}
{"id": "C106", "title": "A restart in the middle of a change stream loses and invents nothing", "statement": "A process dies, a new one starts with the tables as they are, and the client sends again all messages after the last durable number and then goes on. Once the new process has flushed what was sent again, the table equals the result of all changes, each applied once.", "quantifier": "every two histories, every crash point, every configuration, every valid change stream", "why_tests_cant": "Two lives of the server with arbitrary crash points and flush boundaries cannot be enumerated.", "anchors": ["src/sync/writer.rs: enqueue_sync, flush, flush_syncs", "src/sync/planner.rs: plan_delta_syncs", "src/frontend/flight/handler.rs: process_sync_cmd"]}
{"id": "C107", "title": "A sync request changes the table it names and no other", "statement": "Whatever requests are interleaved, every change a sync request brings is written to the table that the request names by store and path, and to no other table; the buffered changes of different tables are never mixed.", "quantifier": "every history of requests and flushes, every table, every configuration", "why_tests_cant": "Whether changes of two tables get mixed depends on which requests meet in the buffer between two flushes.", "anchors": ["src/frontend/flight/handler.rs: process_sync_cmd", "src/sync/writer.rs: enqueue_sync, flush_syncs", "src/object_store/factory.rs: get_log_store_for_table"]}
{"id": "C108", "title": "Functions in the language wasm return what the guest returns", "statement": "A function that CREATE FUNCTION accepted can be called: over a batch it returns one value per row, the value the entry point returns for the arguments of this row, whatever batches the rows come in; if the entry point traps the statement fails; the server never panics.", "quantifier": "every module, every declaration, every batch of columns and constants", "why_tests_cant": "All modules, all declared signatures against all actual ones, all batch boundaries.", "anchors": ["src/wasm_udf/wasm.rs: make_scalar_function_from_wasm, create_udf_from_wasm, get_arrow_value", "src/wasm_udf/data_types.rs: get_wasm_type"]}
{"id": "C109", "title": "The cache directory holds whole chunks and stays within the capacity", "statement": "Whatever readers, write tasks, evictions and failures interleave, a file in the directory of the object cache belongs to an entry of the cache, so the directory takes at most the configured capacity (plus what is being written), and what a reader gets from it is the whole chunk.", "quantifier": "every interleaving of readers, write tasks, evictions, removals and I/O errors, every chunk", "why_tests_cant": "The outcome depends on the order of the await points of several tasks and on I/O errors at arbitrary positions.", "anchors": ["src/object_store/cache.rs: write_file, remove_file, on_evict, cache_chunk_data, get_chunk_range"]}
{"id": "C110", "title": "An external table is read with the options it was created with", "statement": "CREATE EXTERNAL TABLE with a location in a bucket makes a table that shows the files at this location in the store that the options of the statement describe (without options, with the settings of the internal store), whatever external tables are created, attempted or dropped later, in this or another session.", "quantifier": "every history of statements of all sessions, every location and set of options", "why_tests_cant": "Depends on which statements for the same bucket come later; the tests create one external table per server.", "anchors": ["src/context/physical.rs: prepare_create_external_table, create_physical_plan", "object_store_factory/src/aws.rs: from_bucket_and_options, build_amazon_s3", "object_store_factory/src/google.rs: from_bucket_and_options", "src/context/mod.rs: scope_to"]}
{"id": "C111", "title": "CREATE EXTERNAL TABLE is read as written", "statement": "The statement is accepted exactly if it follows the grammar (table name, optional column list, then clauses with exactly one STORED AS and one LOCATION, at most one PARTITIONED BY and OPTIONS and any number of WITH ORDER); the table gets the columns, format, location, partition columns, sort orders and options that were written, in whatever order the clauses stand; columns defined in PARTITIONED BY are the partition columns.", "quantifier": "every sequence of tokens, every behaviour of the library's parsers of names, types and expressions", "why_tests_cant": "All sequences of clauses with all combinations of lists, trailing commas and repeated clauses.", "anchors": ["src/datafusion/parser.rs: parse_create_external_table, parse_partitions, parse_columns, parse_column_def, parse_order_by_exprs, parse_value_options, parse_option_key, parse_option_value"]}
{"id": "C112", "title": "The answer to a Flight request tells what became of it", "statement": "A sync request answered with accepted: true has been taken exactly once; accepted: false and invalid_argument mean that it had no effect, the latter exactly if it cannot be read or is out of turn; any other error also means that it had no effect. A query that gets a ticket has its result, run in the schema and with the metastore the request names, behind this ticket; one that does not leaves nothing behind; unknown tickets are not_found; no request makes the server panic.", "quantifier": "every request, every reachable state of the writer and the result map, every outcome of storage, locks and planning", "why_tests_cant": "Which status is sent depends on the state the earlier requests left, on lock timeouts and on failures after the point of acceptance.", "anchors": ["src/frontend/flight/sql.rs: do_put_fallback, get_flight_info_statement, get_flight_info_fallback, do_get_statement", "src/frontend/flight/handler.rs: process_sync_cmd, query_to_stream, fetch_stream"]}
{"id": "C113", "title": "The metrics of the sync writer show what it holds and did", "statement": "At every moment the in-memory gauges are the bytes and rows of the batches waiting in memory and the time of the oldest one, the request counters are what the accepted messages carried, the flush counters are what was committed, the time of the last flush is that of the last event that flushed, requests = pending + flushed + squashed away, and the gauges per origin are the sequence numbers reported to clients.", "quantifier": "every history of requests, flush iterations, storage failures, commits of others and every behaviour of squashing", "why_tests_cant": "A gauge is right or wrong depending on the whole history of increments and decrements; the tests never look at metrics.", "anchors": ["src/sync/metrics.rs: SyncWriterMetrics", "src/sync/writer.rs: enqueue_sync, physical_squashing, remove_sync, flush_syncs, flush"]}
{"id": "C114", "title": "An HTTP cache in front of the server answers as the server would", "statement": "A cache that keeps answers as RFC 9111 allows (status 200, Cache-Control, Vary, freshness) gives every request an answer the server itself would have given to that very request at a moment within the freshness time, and never an answer made for another address, query, Authorization, content type or origin; answers that are errors are not kept.", "quantifier": "every history of requests, of choices of the cache, of other changes of the databases and of passing time; every cache_control setting and engine whose query hash is injective", "why_tests_cant": "Which answers a cache may hand out depends on the headers of all routes together and on the histories in between; tests look at one answer's headers.", "anchors": ["src/frontend/http.rs: cached_read_query, filters", "src/frontend/http_utils.rs: handle_rejection"]}
{"id": "C115", "title": "Each request is counted once, under its route and the status the client gets", "statement": "Every HTTP request adds one to the series of http_requests with its method, the route that answers it (/upload, /q or the probe's path) and the status the client gets; every gRPC call adds one under its path and the status the client gets.", "quantifier": "every request, answer and rejection; every sequence of them", "why_tests_cant": "The order of warp's layers decides what the counter sees; no test compares metrics with answers.", "anchors": ["src/frontend/http.rs: filters", "src/frontend/flight/metrics.rs: MetricsService::call"]}
{"id": "C116", "title": "Pages of any origin can use the HTTP frontend and read its answers", "statement": "A page of any origin may send queries and uploads with the headers the interface knows and can read every answer, including refusals; an answer marked for one origin is not given to another one by caches.", "quantifier": "every request, origin and answer", "why_tests_cant": "The marking is added by a layer that refusals bypass; tests do not act as a browser.", "anchors": ["src/frontend/http.rs: filters", "src/frontend/http_utils.rs: handle_rejection"]}
{"id": "C117", "title": "A WASM function can be called for any number of rows in the memory one row needs", "statement": "If a MessagePack module keeps the documented contract (alloc hands out a block, the function reads length and arguments there and returns a block with length and result, dealloc takes a block with its size), then every row gets what the function computes from its arguments, whatever the earlier rows were, and after each row all blocks have been given back with the sizes they have; a module that breaks the contract makes the statement fail.", "quantifier": "every module (any state machine with memory) that keeps the contract, every number of rows and all values; for failures every module at all", "why_tests_cant": "Needs every possible guest; the tests use one module with plenty of memory.", "anchors": ["src/wasm_udf/wasm.rs: WasmMessagePackUDFInstance::call, write_udf_input, read_udf_output, make_scalar_function_wasm_messagepack"]}
{"id": "C118", "title": "The metrics of the object cache account for every read and every request", "statement": "After any history of reads, failures and interference the counters show each incoming read once with the bytes it asked for, and of the requests to the backend how many were answered, how many failed and how many bytes came back; a successful read counts exactly the existing bytes of its chunks, each as a hit or a miss, and as hits exactly what the cache held; requests_total has one increment per call to the backend under its operation and outcome.", "quantifier": "every history of reads, every cache content, every interference of other tasks and every failure; every history of other calls", "why_tests_cant": "Sums over whole histories with failures in the middle; the tests assert single values after one scripted run.", "anchors": ["src/object_store/cache.rs: CachingObjectStoreMetrics, get_range_inner, get_chunk_range, impl ObjectStore for CachingObjectStore"]}
{"id": "C119", "title": "A statement that a read-only metastore refuses leaves the tables alone", "statement": "With a metastore that Seafowl does not own (a remote one, or the list sent with a query) statements that would change the metastore fail, and a statement that fails has changed no object of any table; statements on external Delta tables in the staging schema that fail do not change them either. Without a metastore every statement fails and changes nothing.", "quantifier": "every metastore, listing, set of objects in all stores, and statement", "why_tests_cant": "The refusal comes after the stores have been changed, in some statements only, and depends on where a table is; the tests run no such statement on an external metastore.", "anchors": ["src/catalog/mod.rs: CatalogStore, SchemaStore, TableStore, FunctionStore", "src/catalog/external.rs", "src/catalog/memory.rs", "src/catalog/empty.rs", "src/context/physical.rs: create_physical_plan", "src/context/delta.rs: plan_to_delta_table, delete_delta_table, create_delta_table", "src/context/mod.rs: get_table_uuid"]}
{"id": "C120", "title": "A query of an earlier version of a table reads that table", "statement": "SELECT from t('time') gives the rows that the table t, wherever the metastore says it is, had at that time; if it cannot, it fails.", "quantifier": "every metastore, table location, history of commits and time", "why_tests_cant": "Only tables of the catalog database are tested, which all are in the default store.", "anchors": ["src/context/logical.rs: rewrite_time_travel_query", "src/context/mod.rs: get_table_uuid", "src/object_store/wrapped.rs: get_log_store"]}
{"id": "C121", "title": "The answer to a query over HTTP can be read back row by row", "statement": "The body of an answer has one line per row, in order, however the result is cut into batches; every line is a JSON object with the columns under their names and their values, so that a client gets back the rows that were computed, whatever characters names and strings contain. If the query fails while rows are sent, the body cannot be taken for a complete result.", "quantifier": "every result: any number of batches, rows and columns, all names and strings, nested lists and structs, every failure message and place", "why_tests_cant": "Names, strings and messages are arbitrary text and the line structure depends on all of them; tests compare single bodies.", "anchors": ["src/frontend/http.rs: batch_to_json, plan_to_response"]}
{"id": "C122", "title": "The Content-Type of an answer tells the columns of the result", "statement": "The header of the answer to a query carries the names, types and nullability of the columns; it is a valid header for every schema, a client can decode it back, and different columns give different headers.", "quantifier": "every schema, all names and metadata", "why_tests_cant": "Needs the composition of JSON, UTF-8 and percent encoding for all names; the fallback without a schema cannot be excluded by examples.", "anchors": ["src/frontend/http.rs: content_type_with_schema"]}
{"id": "C123", "title": "The address of a table names the directory its files are in", "statement": "The URI of a table, by which queued changes and cached answers are told apart, is the address of the object store followed by the directory in which the files of the table are; two tables have the same URI exactly if they have the same directory, no file belongs to two tables, and every change reaches the directory of its own table.", "quantifier": "every configuration of the store (local, memory, S3 with and without endpoint, GCS, any prefix), every path of a table, every sequence of changes", "why_tests_cant": "The URI is put together from text by the rules for URLs, the directory by other rules; that they agree depends on every combination of endpoint, bucket, prefix and path.", "anchors": ["src/object_store/wrapped.rs: InternalObjectStore::new, table_prefix, get_log_store, local_table_dir", "src/object_store/factory.rs: get_log_store_for_table", "object_store_factory/src/lib.rs: build_object_store_from_opts", "src/sync/writer.rs: enqueue_sync"]}
{"id": "C124", "title": "CREATE TABLE AS stores what the query returns", "statement": "A table created from a query has the columns of its result, with the same names, order, types and nullability, and holds exactly its values; a value that cannot be stored as it is makes the statement fail instead of being changed.", "quantifier": "every schema, including nested types, every list of rows, every moment in time", "why_tests_cant": "Which types are converted, which are refused and what a conversion does to a value depends on type and value; a test with round numbers sees none of it.", "anchors": ["src/context/physical.rs: coerce_plan, create_physical_plan (CreateMemoryTable), file_to_table"]}
{"id": "C125", "title": "A catalog survives the start of a newer version", "statement": "Starting the server on the catalog of any earlier version keeps all databases, schemas, functions, tables, their versions and columns with their types, and the data of the tables; a start that is cut off at any point is completed by the next one; starting again changes nothing; a catalog of a later version is refused.", "quantifier": "every catalog of every version, every point of interruption, every set of failing updates", "why_tests_cant": "The tests start on empty catalogs only; no catalog of an earlier version is among the fixtures, and no start is interrupted.", "anchors": ["src/repository/default.rs: setup", "src/repository/sqlite.rs: try_new, try_new_read_only", "migrations/sqlite", "migrations/postgres"]}
{"id": "C126", "title": "Catalogs in different schemas of one PostgreSQL database are separate", "statement": "Servers configured with different schemas of one PostgreSQL database work on separate catalogs: whatever they do, in whatever order, each catalog is as if the other servers were not there, and starting a server touches no catalog but its own.", "quantifier": "every pair of schema names, every state of the database, every interleaving of statements", "why_tests_cant": "A test has one catalog in one schema; whether a table is found in the schema or, behind it in the search path, in public, and which names are the same schema, shows with two.", "anchors": ["src/repository/postgres.rs: try_new, connect", "src/repository/default.rs: setup"]}
{"id": "C127", "title": "Concurrent changes of the catalog take effect one after the other", "statement": "However many sessions create, rename and drop schemas, tables and functions and write to tables at the same time, the catalog and the answers they get are those of executing the operations one after the other, in an order that agrees with real time; of several creations of one name at most one succeeds, and names stay unique.", "quantifier": "every catalog, every number of concurrent operations, every order in which their database calls take place", "why_tests_cant": "Every operation looks up an identifier by name and then changes the row with that identifier in a second call; what another session does in between depends on timing that a test does not control.", "anchors": ["src/catalog/repository.rs: create, delete, update, delete_old_versions", "src/repository/default.rs: create_table, create_new_version, rename_table, delete_table", "migrations/sqlite"]}
{"id": "C128", "title": "Statements that write to a table at the same time have the effect of one after the other", "statement": "If INSERT, UPDATE and DELETE statements of several clients run at the same time on one table, its rows are those of executing the statements that succeeded one after the other, in an order that agrees with real time; a statement that fails has no effect, and an INSERT never fails because of other statements.", "quantifier": "every table, every distribution of rows over files, every number of statements, every order of their steps, interruptions at any point", "why_tests_cant": "Whether two statements disturb each other depends on the order of their reads and commits, on the files the rows are in, and on what they select and assign.", "anchors": ["src/context/physical.rs: Dml Insert, Update, Delete", "src/context/delta.rs: plan_to_delta_table, commit_delta_table"]}
{"id": "C129", "title": "A table in the catalog can be read, whatever statements run at the same time", "statement": "At every moment, each table that the catalog lists has a Delta log and every file that its log names exists in its directory, no matter how INSERT, UPDATE, DELETE, TRUNCATE, VACUUM, CREATE, RENAME and DROP statements of several clients are interleaved and where they fail; the only exception is a table whose DROP is under way. No two tables in the catalog ever have the same name, and CREATE, RENAME and DROP report success exactly if the names in the catalog allowed the change, which has then been made.", "quantifier": "every catalog and store, every number of statements on any names and sessions, every interleaving of their steps, failures at any step", "why_tests_cant": "UPDATE, DELETE and DROP resolve a name more than once, in the catalog registered in the session at that moment or in the metastore; only particular interleavings with RENAME, DROP and CREATE make the answers differ.", "anchors": ["src/context/mod.rs: reload_schema, try_get_delta_table, get_table_uuid", "src/context/physical.rs: Dml Update, Delete, DropTable, RenameTable, Vacuum", "src/context/delta.rs: create_delta_table, plan_to_delta_table, delete_delta_table"]}
{"id": "C130", "title": "For a client the server is a database, whatever it sends and whatever goes wrong", "statement": "Take any sequence of CREATE TABLE, CREATE TABLE AS, INSERT, UPDATE, DELETE, TRUNCATE, VACUUM, DROP TABLE, ALTER TABLE RENAME and SELECT statements of one client, in which any step on the metastore or the object store may fail or be the last before the server stops and is started again. Every statement that succeeds has had exactly its effect, every statement that is refused could not be executed on the tables as they were and has no effect, and every SELECT returns exactly the rows that the tables have, or had at the times it names. A statement that fails has had no effect or its whole effect.", "quantifier": "every sequence of statements, every query and predicate, every distribution of rows over files, every failure or crash at every step", "why_tests_cant": "Tests run a few statements and look at the tables; here arbitrary histories, failures between any two steps and time travel into all of the past are compared with a database that knows nothing of logs, files and versions.", "anchors": ["src/context/physical.rs: create_physical_plan", "src/context/delta.rs: create_delta_table, plan_to_delta_table, delete_delta_table", "src/context/logical.rs: rewrite_time_travel_query", "src/repository/default.rs: create_table, create_new_version, delete_old_versions"]}
{"id": "C131", "title": "The versions listed for a table exist and can be queried", "statement": "`system.table_versions` lists for every table only versions that its Delta log really has, each once and in order, whatever statements are executed and whatever fails; and every version it lists can be read, the last one giving the current rows of the table - in particular after VACUUM, which is why VACUUM deletes the older versions from the list.", "quantifier": "every sequence of statements, every query and predicate, every distribution of rows over files; existence also for every failure or crash at every step", "why_tests_cant": "The list is kept in the metastore, the versions in the object store; tests look at the list after a few statements and do not read every version in it after every history.", "anchors": ["src/context/physical.rs: create_physical_plan (TRUNCATE, VACUUM)", "src/context/delta.rs: plan_to_delta_table, create_delta_table", "src/repository/default.rs: create_new_version, delete_old_versions, get_all_versions", "src/system_tables.rs: TableVersionsTable"]}
{"id": "C132", "title": "A frontend listens exactly where the configuration says", "statement": "The HTTP frontend, the Arrow Flight frontend and the metrics endpoint listen at the host and port of the configuration: with any IPv4 address, or any IPv6 address in brackets, at exactly this address and port; whatever the host is, they never listen at another address or port, for instance because part of the host is read as the port; and any host name that resolves can be used.", "quantifier": "every host text, every port, every meaning of IPv6 texts", "why_tests_cant": "Host and port are pasted together and parsed again; tests use 127.0.0.1 and a few ports, not hosts that themselves contain colons, leading zeros or numbers out of range.", "anchors": ["src/frontend/http.rs: run_server", "src/frontend/flight/mod.rs: run_flight_server", "src/config/context.rs: setup_metrics", "src/config/schema.rs: HttpFrontend, FlightFrontend, Metrics"]}
{"id": "C133", "title": "Replicated changes are in the table after the configured lag", "statement": "A change that the server took at some time is in its table as soon as a flush - of the background task or of any request - ends successfully at least max_replication_lag_s later, whatever happened in between and to whichever table; and a table that cannot be written does not keep the changes of other tables from being written.", "quantifier": "every history of requests, flushes, failures of the storage and commits of others with a clock that does not go back; every configuration, every table", "why_tests_cant": "It is a bound on time over whole histories: tests flush one or two tables by hand and do not combine waiting, failing and several tables.", "anchors": ["src/sync/writer.rs: enqueue_sync, flush, flush_ready, flush_syncs", "src/sync/mod.rs: flush_task", "src/config/schema.rs: DataSyncConfig"]}
{"id": "C134", "title": "No column of a replicated change gets lost", "statement": "A table that does not exist yet is created with the key and value columns of the changes sent for it, and after a successful flush every column of every change has in the table the value that was sent.", "quantifier": "every table or none at the location, every buffer of change sets with any columns", "why_tests_cant": "Which columns are dropped depends on how change sets of different shape happen to be buffered together before the first flush; tests send change sets whose columns the table has.", "anchors": ["src/sync/writer.rs: create_table, flush_syncs", "src/sync/planner.rs: plan_delta_syncs, squash_syncs, apply_syncs"]}
{"id": "C135", "title": "Replication into a table that others write to at the same time", "statement": "If several servers replicate changes into one table, or statements change it while changes are flushed, its rows are those of executing the flushes and statements that succeeded one after the other, each at the moment of its commit; one that fails has no effect.", "quantifier": "every table, every distribution of rows over files, every number of flushes and statements, every order of their steps, interruptions at any point", "why_tests_cant": "Whether a flush disturbs another writer depends on the order of loads and commits, on the keys in both, and on the files that pruning selects.", "anchors": ["src/sync/writer.rs: flush_syncs", "src/sync/planner.rs: plan_delta_syncs, prune_partitions", "src/context/delta.rs: commit_delta_table"]}
{"id": "C136", "title": "A change set that passes the validation is replicated under the keys it was sent with", "statement": "Every change set whose schema SyncSchema::try_new accepts is applied to the table as sent: the rows it writes have the keys given in the key columns, and a later change addressed to such a key finds the row.", "quantifier": "every list of column descriptors and fields, every change set, every table", "why_tests_cant": "The validation and the planner are far apart; that an accepted schema makes the planner store something else than the key shows only for schemas nobody would write as a test (the key repeated as a value, the key columns in another order).", "anchors": ["src/sync/schema/mod.rs: try_new", "src/sync/planner.rs: normalize_syncs, apply_syncs"]}
{"id": "C137", "title": "Replication works whatever the columns are called", "statement": "For every table and every accepted change set, a flush finds the columns it works with: it is planned without error and writes files with exactly the columns of the table, in the order of the table, whatever the names of the columns, of the fields in the messages, and whatever their types.", "quantifier": "every table, every sequence of buffered items with any column and field names, every reader of SQL identifiers that folds words to lower case", "why_tests_cant": "The tests use names in lower case (c1, old_pk_c1) only. Which of the some twenty references to a column in the plan are exact and which are read as SQL shows only for names where the two differ, and for merged items differently than for a single one.", "anchors": ["src/sync/planner.rs: plan_delta_syncs, join_syncs, union_syncs, normalize_syncs, apply_syncs, prune_partitions", "src/sync/utils.rs: construct_qualifier", "src/sync/schema/union.rs", "src/sync/schema/join.rs", "src/sync/schema/merge.rs"]}
{"id": "C138", "title": "A WASM function cannot put a value outside the declared type into a column", "statement": "Whatever a WASM function returns, the value that arrives in the result column is one of the declared return type, or the query fails.", "quantifier": "every return type and every MessagePack value a function can return", "why_tests_cant": "The functions in the tests are well-behaved; the functions of a user are not under Seafowl's control.", "anchors": ["src/wasm_udf/wasm.rs: messagepack_decode_results"]}
{"id": "C139", "title": "A catalog in PostgreSQL shows what one in SQLite shows", "statement": "For every sequence of catalog operations (creating, renaming, dropping databases, schemas, tables, functions, recording and vacuuming versions), a catalog in PostgreSQL gives the same errors as one in SQLite and shows the same schemas, tables, columns, functions, versions and creation times, whatever the clock does and whatever numbers the sequences give.", "quantifier": "every sequence of operations, every choice of rising identifiers with gaps, every clock", "why_tests_cant": "The repository tests run fixed scripts on both databases, with a handful of rows and a few milliseconds of clock; they compare neither the two databases with each other nor times.", "anchors": ["src/repository/default.rs: implement_repository", "src/repository/postgres.rs: QUERIES, interpret_error", "src/repository/sqlite.rs: QUERIES, interpret_error", "src/catalog/repository.rs", "migrations"]}
{"id": "C140", "title": "ALTER TABLE ... RENAME TO gives the named table the new name and does nothing else", "statement": "After a successful ALTER TABLE [IF EXISTS] a RENAME TO b, what was read as a is read as b, a denotes nothing, and every other name of the database denotes what it did; a table renamed without naming a schema stays in its schema. It succeeds for every table that can be read and every free name in an existing schema of the database, can be undone by renaming back, and with IF EXISTS a missing table is not an error. If it fails nothing has changed; statements with other changes are refused.", "quantifier": "every catalog, object store, session and pair of names, with and without schemas, every list of changes", "why_tests_cant": "What a name means afterwards depends on the whole catalog, on the schemas that are not served from the catalog, and on the default schema of the session; tests rename one table in one schema.", "anchors": ["src/context/logical.rs: create_logical_plan_from_statement (AlterTable)", "src/context/physical.rs: RenameTable", "src/catalog/repository.rs: TableStore::update"]}
{"id": "C141", "title": "A server that is told to stop answers the requests under way and ends without an error", "statement": "After SIGINT or SIGTERM the server takes no new requests, answers every request that is under way on any frontend if it is done within five seconds, and then exits with success; it never takes longer than five seconds to exit.", "quantifier": "every combination of frontends and settings, every number of requests under way with any remaining time", "why_tests_cant": "Tests stop an idle server, if at all; which request is cut off and how the process exits depends on all requests and background tasks at the moment of the signal.", "anchors": ["src/main.rs: main", "src/frontend/http.rs: run_server", "src/frontend/flight/mod.rs: run_flight_server", "src/frontend/postgres.rs: run_pg_server"]}
{"id": "C142", "title": "Replication writes into each column the values sent for that column", "statement": "For every change set whose flush succeeds, each column of the table gets, in each inserted or updated row, exactly the value sent for the column of that name, or keeps its value if none was sent or the value is marked as not changed.", "quantifier": "every table, every change set with any column and field names, every row, every reader of SQL identifiers that folds words to lower case", "why_tests_cant": "Tests use one table whose columns are all in lower case; a value in the wrong column needs two columns whose names differ only in case, and then no error shows it.", "anchors": ["src/sync/planner.rs: normalize_syncs, apply_syncs", "src/sync/schema/merge.rs", "src/sync/schema/mod.rs: SyncSchema::column, canonical_field_name"]}
{"id": "C143", "title": "Nothing stays behind in the object store", "statement": "At any time all that is stored in the object store belongs to a table of the catalog and to a version of it: DROP TABLE frees the whole directory, VACUUM everything but the newest version, and statements that fail or are refused leave nothing that no later statement removes.", "quantifier": "every history of statements, every distribution of rows over files, every operation at which a statement fails or the server stops, every later history", "why_tests_cant": "Tests look at the results of queries; what is left in the object store shows only as growing cost, after failures that tests do not provoke and after every further statement has been tried in vain.", "anchors": ["src/context/delta.rs: create_delta_table, plan_to_delta_table, delete_delta_table", "src/context/physical.rs: DROP TABLE, VACUUM, INSERT, UPDATE, DELETE"]}
