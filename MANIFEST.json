{
 "claims": [
  {
   "property": "C01",
   "status": "proved",
   "theorems": [
    "Seafowl.Sync.C01_durable_is_committed",
    "Seafowl.Sync.C01_durable_is_committed_increasing",
    "Seafowl.Sync.C01_response"
   ],
   "note": "All histories, storage outcomes and initial logs. The client-visible number in a response is covered by C01_response."
  },
  {
   "property": "C02",
   "status": "proved",
   "theorems": [
    "Seafowl.Sync.C02_durable_prefix"
   ],
   "note": ""
  },
  {
   "property": "C03",
   "status": "proved",
   "theorems": [
    "Seafowl.Sync.C03_monotone"
   ],
   "note": "Monotonicity for clients whose sequence numbers increase per origin."
  },
  {
   "property": "C04",
   "status": "proved",
   "theorems": [
    "Seafowl.Sync.C04_exactly_once",
    "Seafowl.Sync.C04_at_least_once",
    "Seafowl.Sync.C04_lost_ack_duplicates"
   ],
   "note": "Exactly once unless a commit is written without the writer being told; then at least once, and a witness shows that duplication really occurs."
  },
  {
   "property": "C05",
   "status": "proved",
   "theorems": [
    "Seafowl.Sync.C05_refused_no_effect",
    "Seafowl.Sync.C05_refusal_exact",
    "Seafowl.Sync.C05_flush_error_keeps_message"
   ],
   "note": "Finding: a message whose flush fails is answered with an error although it stays accepted."
  },
  {
   "property": "C06",
   "status": "proved",
   "theorems": [
    "Seafowl.Sync.C06_one_open_transaction"
   ],
   "note": ""
  },
  {
   "property": "C07",
   "status": "proved",
   "theorems": [
    "Seafowl.Sync.C07_accounting",
    "Seafowl.Sync.C07_no_underflow"
   ],
   "note": ""
  },
  {
   "property": "C08",
   "status": "proved",
   "theorems": [
    "Seafowl.Sync.C08_terminates",
    "Seafowl.Sync.C08_post",
    "Seafowl.Sync.C08_nothing_overdue",
    "Seafowl.Sync.C08_clock",
    "Seafowl.Sync.C08_one_commit_per_table"
   ],
   "note": ""
  },
  {
   "property": "C09",
   "status": "proved",
   "theorems": [
    "Seafowl.Sync.C09_failed_flush_step",
    "Seafowl.Sync.C09_flush_conserves"
   ],
   "note": ""
  },
  {
   "property": "C10",
   "status": "proved",
   "theorems": [
    "Seafowl.Sync.C10_commit_info_sound",
    "Seafowl.Sync.C10_newest_commit",
    "Seafowl.Sync.C10_commit_info_total",
    "Seafowl.Sync.C10_no_empty_items"
   ],
   "note": ""
  },
  {
   "property": "C11",
   "status": "partial",
   "theorems": [
    "Seafowl.Sync.C11_drained_partial",
    "Seafowl.Sync.C11_response_partial",
    "Seafowl.Sync.C11_violated"
   ],
   "note": "The property as stated is violated by the code (C11_violated); the partial theorems cover all cases except an empty closing message after the last table commit."
  },
  {
   "property": "C12",
   "status": "partial",
   "theorems": [
    "Seafowl.Sync.C12_squash_effect_partial",
    "Seafowl.Sync.C12_one_changed_column",
    "Seafowl.Sync.C12_squash_defined",
    "Seafowl.Sync.C12_violated",
    "Seafowl.Sync.C12_violated_always"
   ],
   "note": "Full for at most one Changed column and for update rows whose flags agree; with two Changed columns the code loses updates (C12_violated)."
  },
  {
   "property": "C13",
   "status": "proved",
   "theorems": [
    "Seafowl.Sync.C13_no_growth",
    "Seafowl.Sync.C13_no_temporary",
    "Seafowl.Sync.C13_distinct_keys"
   ],
   "note": ""
  },
  {
   "property": "C14",
   "status": "partial",
   "theorems": [
    "Seafowl.Sync.C14_merge_partial",
    "Seafowl.Sync.C14_same_columns",
    "Seafowl.Sync.C14_insertions",
    "Seafowl.Sync.C14_two_items",
    "Seafowl.Sync.C14_violated_three_columns",
    "Seafowl.Sync.C14_violated_changed_column",
    "Seafowl.Sync.C14_two_items_iff",
    "Seafowl.Sync.C14_violated_changed_column_always",
    "Seafowl.Sync.C14_violated_three_columns_always"
   ],
   "note": "Full for items with the same columns and for any two items without Changed columns in the first; violated for three items with three different column sets and for Changed columns in the first item, both for every such items. For two items the condition is necessary and sufficient (C14_two_items_iff)."
  },
  {
   "property": "C15",
   "status": "partial",
   "theorems": [
    "Seafowl.Sync.C15_apply_partial",
    "Seafowl.Sync.C15_rows_partial",
    "Seafowl.Sync.C15_single_key_full_rows",
    "Seafowl.Sync.C15_violated_second_key_column",
    "Seafowl.Sync.C15_violated_partial_move",
    "Seafowl.Sync.C15_exact",
    "Seafowl.Sync.C15_iff",
    "Seafowl.Sync.C15_violated_second_key_column_always",
    "Seafowl.Sync.C15_violated_partial_move_always"
   ],
   "note": "Full for one key column and changes that carry all columns. Without the condition on key-moving changes the result is determined exactly (C15_exact) and the condition under which it is right is necessary (C15_iff). Two violations are proved for every such change set: an update of a later key column leaves the old row, and a key-moving update that leaves columns alone sets them to NULL."
  },
  {
   "property": "C16",
   "status": "partial",
   "theorems": [
    "Seafowl.Sync.C16_full_rows",
    "Seafowl.Sync.C16_full_rows_files",
    "Seafowl.Sync.C16_stable_keys",
    "Seafowl.Sync.C16_stable_keys_files",
    "Seafowl.Sync.C16_flush_partial",
    "Seafowl.Sync.C16_files_partial"
   ],
   "note": "Flush (squash, merge, prune, normalise, apply) equals replay of the stream for one key column and full rows, and for any number of key columns and partial rows when no change moves a row to another key (conditions on the received changes only); in general under the hypotheses of C12/C14/C15, whose violations are proved there."
  },
  {
   "property": "C17",
   "status": "proved",
   "theorems": [
    "Seafowl.Sync.C17_untouched",
    "Seafowl.Sync.C17_prunes"
   ],
   "note": "For all snapshots whose file statistics are sound; conversely a file whose recorded range of a key column lies entirely on one side of the changed keys is left alone (C17_prunes); PruningPredicate semantics is the three-valued evaluation in Prune.lean."
  },
  {
   "property": "C18",
   "status": "proved",
   "theorems": [
    "Seafowl.Sync.C18_idempotent",
    "Seafowl.Sync.C18_idempotent_items"
   ],
   "note": ""
  },
  {
   "property": "C19",
   "status": "partial",
   "theorems": [
    "Seafowl.Sync.C19_accepted_general",
    "Seafowl.Sync.C19_accepted_exact_partial",
    "Seafowl.Sync.C19_columns",
    "Seafowl.Sync.C19_with_fields",
    "Seafowl.Sync.C19_column",
    "Seafowl.Sync.C19_violated_nested"
   ],
   "note": "Exact for flat fields; with nested Arrow fields the count check compares with flattened fields, so valid schemas are refused and surplus descriptors dropped (C19_violated_nested)."
  },
  {
   "property": "C20",
   "status": "partial",
   "theorems": [
    "Seafowl.Sync.C20_compatible_partial",
    "Seafowl.Sync.C20_prefix",
    "Seafowl.Sync.C20_violated",
    "Seafowl.Sync.C20_violated_always"
   ],
   "note": "Only the common prefix of two schemas is compared; exact for schemas of equal length."
  },
  {
   "property": "C21",
   "status": "partial",
   "theorems": [
    "Seafowl.Sync.C21_flush_fails_iff_partial",
    "Seafowl.Sync.C21_violated",
    "Seafowl.Sync.C21_violated_always"
   ],
   "note": "Flush planning of squashed items panics exactly if all keys are NULL; this happens when only temporary rows are buffered."
  },
  {
   "property": "C22",
   "status": "partial",
   "theorems": [
    "Seafowl.Store.C22_transparent_partial",
    "Seafowl.Store.C22_no_spurious_error_partial",
    "Seafowl.Store.C22_violated_partial_write",
    "Seafowl.Store.C22_past_end_poisons",
    "Seafowl.Store.C22_empty_range_panics",
    "Seafowl.Store.C22_malformed_panics"
   ],
   "note": "Holds for every history and every interference when cache files are written atomically; a reader that holds a file entry while the file is being rewritten returns truncated data (C22_violated_partial_write). Also shown: reads past the end poison the cache."
  },
  {
   "property": "C23",
   "status": "proved",
   "theorems": [
    "Seafowl.Store.C23_exactly_missing",
    "Seafowl.Store.C23_coalesced",
    "Seafowl.Store.C23_reread",
    "Seafowl.Store.C23_lost_file_never_repaired",
    "Seafowl.Store.C23_failed"
   ],
   "note": "For reads without interference by other tasks, also for those that fail; this is how \"the chunks that were not cached\" is well defined."
  },
  {
   "property": "C24",
   "status": "partial",
   "theorems": [
    "Seafowl.Store.C24_fresh_partial",
    "Seafowl.Store.C24_evicted_partial",
    "Seafowl.Store.C24_violated_overwrite",
    "Seafowl.Store.C24_violated_delete",
    "Seafowl.Store.C24_violated_always"
   ],
   "note": "Violated: put and delete do not touch the cache. Holds for ranges with no cached chunk."
  },
  {
   "property": "C25",
   "status": "partial",
   "theorems": [
    "Seafowl.Dml.C25_update_partial",
    "Seafowl.Dml.C25_statement_partial",
    "Seafowl.Dml.C25_fails_only_on_qualifying",
    "Seafowl.Dml.C25_needs_whole_files",
    "Seafowl.Dml.C25_row_groups",
    "Seafowl.Dml.C25_no_loss_iff",
    "Seafowl.Dml.C25_small_files",
    "Seafowl.Dml.C25_large_file_loss"
   ],
   "note": "Exact, given that the scan of a kept file returns all its rows; the filter passed to the scan only promises the matching ones. If the scan leaves out the row groups that the filter refutes (default of the Parquet reader): exact for files of at most 65536 rows, and precisely the rows of the refuted row groups are lost otherwise (C25_large_file_loss: 65536 of 65537 rows)."
  },
  {
   "property": "C26",
   "status": "partial",
   "theorems": [
    "Seafowl.Dml.C26_delete_partial",
    "Seafowl.Dml.C26_exact",
    "Seafowl.Dml.C26_all",
    "Seafowl.Dml.C26_violated",
    "Seafowl.Dml.C26_row_groups",
    "Seafowl.Dml.C26_large_file_loss"
   ],
   "note": "Violated: rows of rewritten files for which the predicate is NULL are deleted too. C26_exact says exactly which rows are lost. Same assumption on scans as C25."
  },
  {
   "property": "C27",
   "status": "proved",
   "theorems": [
    "Seafowl.Dml.C27_rechunk",
    "Seafowl.Dml.C27_zero_limit"
   ],
   "note": "For every positive limit; C27_zero_limit shows that a limit of 0, which the configuration accepts, never terminates."
  },
  {
   "property": "C28",
   "status": "proved",
   "theorems": [
    "Seafowl.Dml.C28_upload",
    "Seafowl.Dml.C28_succeeds"
   ],
   "note": ""
  },
  {
   "property": "C29",
   "status": "proved",
   "theorems": [
    "Seafowl.Dml.C29_failure_invisible",
    "Seafowl.Dml.C29_commit_visible",
    "Seafowl.Dml.C29_recorded",
    "Seafowl.Dml.C29_distinct",
    "Seafowl.Dml.C29_insert",
    "Seafowl.Dml.C29_error_after_commit"
   ],
   "note": "File names contain a fresh UUID (assumed fresh). Remark: an error may also be reported after the commit took effect, when only the catalog record fails."
  },
  {
   "property": "C30",
   "status": "partial",
   "theorems": [
    "Seafowl.Store.Wrapped.C30_at_most_one_partial",
    "Seafowl.Store.Wrapped.C30_never_replaced_partial",
    "Seafowl.Store.Wrapped.C30_commit_effect",
    "Seafowl.Store.Wrapped.C30_violated"
   ],
   "note": "Holds exactly for the combinations that are not turned into overwrites; violated (with a witness for each) for local stores with disable_hardlinks and for renames on S3. Backing store operations are assumed atomic."
  },
  {
   "property": "C31",
   "status": "proved",
   "theorems": [
    "Seafowl.Catalog.C31_step",
    "Seafowl.Catalog.C31_intact"
   ],
   "note": "SQL statements and transactions are atomic and foreign keys are enforced (trusted base)."
  },
  {
   "property": "C32",
   "status": "partial",
   "theorems": [
    "Seafowl.Catalog.C32_createDb",
    "Seafowl.Catalog.C32_deleteDb",
    "Seafowl.Catalog.C32_createSchema",
    "Seafowl.Catalog.C32_deleteSchema",
    "Seafowl.Catalog.C32_createTable",
    "Seafowl.Catalog.C32_deleteTable",
    "Seafowl.Catalog.C32_rename",
    "Seafowl.Catalog.C32_createFunction",
    "Seafowl.Catalog.C32_error_unchanged_partial",
    "Seafowl.Catalog.C32_violated_columns",
    "Seafowl.Catalog.C32_violated_uuid",
    "Seafowl.Catalog.C32_violated_always",
    "Seafowl.Catalog.C32_uuid_always",
    "Seafowl.Catalog.C32_createTable_error"
   ],
   "note": "Exact outcome per operation. Violated: create_table inserts the columns after committing the table, so an error (repeated column name, lost connection) leaves a table behind and repeated columns are reported as an existing table; an unknown UUID gives a generic SQL error."
  },
  {
   "property": "C33",
   "status": "proved",
   "theorems": [
    "Seafowl.Catalog.C33_rename",
    "Seafowl.Ddl.C33_statement",
    "Seafowl.Ddl.C33_succeeds",
    "Seafowl.Ddl.C33_refused",
    "Seafowl.Ddl.C33_system"
   ],
   "note": "Catalog operation; the statement ALTER TABLE RENAME below for ordinary schemas. A table moved to a schema called system keeps its identity but can no longer be read (C33_system)."
  },
  {
   "property": "C34",
   "status": "partial",
   "theorems": [
    "Seafowl.Catalog.C34_current",
    "Seafowl.Catalog.C34_newVersion",
    "Seafowl.Catalog.C34_vacuum_partial",
    "Seafowl.Catalog.C34_times",
    "Seafowl.Catalog.C34_vacuum_exact",
    "Seafowl.Catalog.C34_vacuum_iff",
    "Seafowl.Catalog.C34_violated_clock"
   ],
   "note": "The vacuum keeps the newest version by creation time, lookups use the largest id: they agree in all histories with a clock that never steps back (C34_times); C34_vacuum_iff says exactly when they differ."
  },
  {
   "property": "C35",
   "status": "proved",
   "theorems": [
    "Seafowl.Catalog.C35_table",
    "Seafowl.Catalog.C35_schema",
    "Seafowl.Catalog.C35_database",
    "Seafowl.Catalog.C35_other_tables"
   ],
   "note": ""
  },
  {
   "property": "C36",
   "status": "proved",
   "theorems": [
    "Seafowl.Catalog.C36_rows",
    "Seafowl.Catalog.C36_listing"
   ],
   "note": "The order of the rows asked for by ORDER BY is a hypothesis."
  },
  {
   "property": "C37",
   "status": "partial",
   "theorems": [
    "Seafowl.Catalog.C37_create",
    "Seafowl.Catalog.C37_drop_partial",
    "Seafowl.Catalog.C37_violated",
    "Seafowl.Catalog.C37_first_only",
    "Seafowl.Catalog.C37_violated_always"
   ],
   "note": "Violated: DROP FUNCTION with several names only drops the first."
  },
  {
   "property": "C38",
   "status": "partial",
   "theorems": [
    "Seafowl.Gc.C38_only_dropped",
    "Seafowl.Gc.C38_objs_shrink",
    "Seafowl.Gc.C38_forget_partial",
    "Seafowl.Gc.C38_failed_kept",
    "Seafowl.Gc.C38_healthy",
    "Seafowl.Gc.C38_violated_listing",
    "Seafowl.Gc.C38_violated_no_retry",
    "Seafowl.Gc.C38_violated_forever",
    "Seafowl.Gc.C38_exact",
    "Seafowl.Gc.C38_never_retried",
    "Seafowl.Gc.C38_retried_forever"
   ],
   "note": "Violated: listing errors are ignored; the retry logic is inverted (first failure is final, a table in status retry is never given up)."
  },
  {
   "property": "C39",
   "status": "partial",
   "theorems": [
    "Seafowl.Front.C39_write_iff",
    "Seafowl.Front.C39_read_iff",
    "Seafowl.Front.C39_rejected_iff",
    "Seafowl.Front.C39_password_works",
    "Seafowl.Front.C39_write_partial",
    "Seafowl.Front.C39_read_partial",
    "Seafowl.Front.C39_violated_read",
    "Seafowl.Front.C41_violated_select_into"
   ],
   "note": "The decision is exactly the policy. Violated at the request level: SELECT … INTO and EXPLAIN ANALYZE of a write need only read permission through POST, and a write statement in front of a SELECT replaces the read check by the write check."
  },
  {
   "property": "C40",
   "status": "proved",
   "theorems": [
    "Seafowl.Front.C40_unchanged",
    "Seafowl.Front.C40_only_reads",
    "Seafowl.Front.C40_hash"
   ],
   "note": "For all requests, policies and effects of writing statements."
  },
  {
   "property": "C41",
   "status": "partial",
   "theorems": [
    "Seafowl.Front.C41_in_order",
    "Seafowl.Front.C41_read_last",
    "Seafowl.Front.C41_gate",
    "Seafowl.Front.C41_violated_select_into",
    "Seafowl.Front.C41_violated_explain_analyze",
    "Seafowl.Front.C41_readers_write"
   ],
   "note": "Violated: SELECT … INTO and EXPLAIN ANALYZE INSERT count as reading statements."
  },
  {
   "property": "C42",
   "status": "partial",
   "theorems": [
    "Seafowl.Front.C42_partial",
    "Seafowl.Front.C42_bytes_injective",
    "Seafowl.Front.C42_hit",
    "Seafowl.Front.C42_sent",
    "Seafowl.Front.C42_violated_subquery",
    "Seafowl.Front.C42_violated_external",
    "Seafowl.Front.C42_violated_function",
    "Seafowl.Front.C42_blind",
    "Seafowl.Front.C42_304_iff",
    "Seafowl.Front.C42_explain_partial"
   ],
   "note": "Holds for queries over Delta tables without subqueries in expressions and with unchanged functions; violated otherwise: the ETag covers none of the three."
  },
  {
   "property": "C43",
   "status": "partial",
   "theorems": [
    "Seafowl.Front.C43_error_status",
    "Seafowl.Front.C43_auth",
    "Seafowl.Front.C43_post_partial",
    "Seafowl.Front.C43_violated_stream",
    "Seafowl.Front.C43_status_table"
   ],
   "note": "Every ApiError has a 4xx/5xx status; violated for errors while streaming the result, which come with status 200."
  },
  {
   "property": "C44",
   "status": "proved",
   "theorems": [
    "Seafowl.Flight.C44_fetch",
    "Seafowl.Flight.C44_at_most_once",
    "Seafowl.Flight.C44_independent"
   ],
   "note": "Query ids are fresh (UUID v4)."
  },
  {
   "property": "C45",
   "status": "partial",
   "theorems": [
    "Seafowl.TimeTravel.C45_newest_partial",
    "Seafowl.TimeTravel.C45_partial",
    "Seafowl.TimeTravel.C45_sequential",
    "Seafowl.TimeTravel.C45_violated_before_creation",
    "Seafowl.TimeTravel.C45_violated_case",
    "Seafowl.TimeTravel.C45_violated_schema",
    "Seafowl.TimeTravel.C45_violated_colon",
    "Seafowl.TimeTravel.C45_violated_race",
    "Seafowl.TimeTravel.C45_before_creation",
    "Seafowl.TimeTravel.C45_one_factor",
    "Seafowl.TimeTravel.C45_violated_case_always",
    "Seafowl.TimeTravel.C45_violated_schema_always",
    "Seafowl.TimeTravel.C45_violated_race_always"
   ],
   "note": "Right table, right version, no mixing within a query, for lower-case names without colons and default schema public. Violated otherwise: quoted mixed-case names read another table, another default schema fails, a table named \"t:ts\" wins, timestamps before the first version read the first version, a concurrent statement removes the registered version."
  },
  {
   "property": "C46",
   "status": "partial",
   "theorems": [
    "Seafowl.Sql.C46_split_partial",
    "Seafowl.Sql.C46_copy_partial",
    "Seafowl.Sql.C46_sound",
    "Seafowl.Sql.C46_empty",
    "Seafowl.Sql.C46_error",
    "Seafowl.Sql.C46_statements",
    "Seafowl.Sql.C46_violated_copy",
    "Seafowl.Sql.C46_copy_rejected"
   ],
   "note": "Violated: COPY swallows the semicolon after it, so \"COPY …; SELECT 1\" is rejected."
  },
  {
   "property": "C47",
   "status": "proved",
   "theorems": [
    "Seafowl.Sql.C47_planned",
    "Seafowl.Sql.C47_truncate",
    "Seafowl.Sql.C47_truncate_empty",
    "Seafowl.Sql.C47_truncate_failed",
    "Seafowl.Sql.C47_truncate_unrecorded",
    "Seafowl.Sql.C47_vacuum_table",
    "Seafowl.Sql.C47_vacuum_reclaims",
    "Seafowl.Sql.C47_vacuum_recorded",
    "Seafowl.Sql.C47_vacuum_answer",
    "Seafowl.Sql.C47_vacuum_database"
   ],
   "note": "Which files a Delta vacuum deletes is library behaviour (tombstones of the loaded snapshot that are not live in it)."
  },
  {
   "property": "C48",
   "status": "partial",
   "theorems": [
    "Seafowl.Remote.C48_visitor",
    "Seafowl.Remote.C48_partial",
    "Seafowl.Remote.C48_operators_partial",
    "Seafowl.Remote.C48_simple_partial",
    "Seafowl.Remote.C48_where_partial",
    "Seafowl.Remote.C48_exact",
    "Seafowl.Remote.C48_violated_minus",
    "Seafowl.Remote.C48_violated_not",
    "Seafowl.Remote.C48_violated_isNull",
    "Seafowl.Remote.C48_violated_isOperand",
    "Seafowl.Remote.C48_violated_in",
    "Seafowl.Remote.C48_violated_negative",
    "Seafowl.Remote.C48_violated_distinct",
    "Seafowl.Remote.C48_violated_concat",
    "Seafowl.Remote.C48_violated_syntax",
    "Seafowl.Remote.C48_violated_mysql_distinct",
    "Seafowl.Remote.C48_violated_bits",
    "Seafowl.Remote.C48_compared_partial",
    "Seafowl.Remote.C48_loose_operand_partial"
   ],
   "note": "Proved for Boolean combinations of comparisons, IS, IN and their negations over arithmetic without right operands of the same precedence, in all three dialects. Violated otherwise: only binary operands of lower precedence are parenthesised."
  },
  {
   "property": "C49",
   "status": "partial",
   "theorems": [
    "Seafowl.Remote.C49_string_partial",
    "Seafowl.Remote.C49_identifier",
    "Seafowl.Remote.C49_literal_partial",
    "Seafowl.Remote.C49_filter_partial",
    "Seafowl.Remote.C49_columns",
    "Seafowl.Remote.C49_injective_partial",
    "Seafowl.Remote.C49_violated_backslash",
    "Seafowl.Remote.C49_violated_escape",
    "Seafowl.Remote.C49_violated_view",
    "Seafowl.Remote.C49_violated_decimal",
    "Seafowl.Remote.C49_violated_view_always",
    "Seafowl.Remote.C49_violated_decimal_always",
    "Seafowl.Remote.C49_mysql_exact",
    "Seafowl.Remote.C49_violated_injection",
    "Seafowl.Remote.C49_string_exact",
    "Seafowl.Remote.C49_violated_inject"
   ],
   "note": "Proved for strings, integers, Booleans, NULL, dates and time stamps without time zone. Violated for MySQL strings with backslashes and for kinds of literals that fall through to Display (Utf8View, decimals)."
  },
  {
   "property": "C50",
   "status": "partial",
   "theorems": [
    "Seafowl.Wasm.C50_value",
    "Seafowl.Wasm.C50_partial",
    "Seafowl.Wasm.C50_fits",
    "Seafowl.Wasm.C50_violated_decimal",
    "Seafowl.Wasm.C50_violated_decimal_positive",
    "Seafowl.Wasm.C50_violated_null",
    "Seafowl.Wasm.C50_violated_decimal_always",
    "Seafowl.Wasm.C50_negative_broken",
    "Seafowl.Wasm.C50_violated_null_always"
   ],
   "note": "Every value that is not NULL and, for decimals, whose low 64 bits have the top bit clear comes back unchanged or fails. Violated: other decimals come back as another number, NULL comes back as the stored slot value."
  },
  {
   "property": "C51",
   "status": "partial",
   "theorems": [
    "Seafowl.Types.C51_legal",
    "Seafowl.Types.C51_partial",
    "Seafowl.Types.C51_columns_partial",
    "Seafowl.Types.C51_defaults",
    "Seafowl.Types.C51_storable",
    "Seafowl.Types.C51_general",
    "Seafowl.Types.C51_violated_precision",
    "Seafowl.Types.C51_violated_scale",
    "Seafowl.Types.C51_partial_tight"
   ],
   "note": "Legal types are always stored as declared; illegal ones are rejected for precision < 256 and scale < 218. Violated: larger numbers lose their high bits before the check, so DECIMAL(266, 2) is DECIMAL(10, 2)."
  },
  {
   "property": "C52",
   "status": "partial",
   "theorems": [
    "Seafowl.MemPool.C52_names",
    "Seafowl.MemPool.C52_gauge",
    "Seafowl.MemPool.C52_counters",
    "Seafowl.MemPool.C52_balance",
    "Seafowl.MemPool.C52_gauge_balance",
    "Seafowl.MemPool.C52_limit",
    "Seafowl.MemPool.C52_failed",
    "Seafowl.MemPool.C52_monotone",
    "Seafowl.MemPool.C52_recovers",
    "Seafowl.MemPool.C52_inner_exact",
    "Seafowl.MemPool.C52_size_partial",
    "Seafowl.MemPool.C52_violated_race",
    "Seafowl.MemPool.C52_violated_size",
    "Seafowl.MemPool.C52_violated_race_always",
    "Seafowl.MemPool.C52_gauge_undisturbed"
   ],
   "note": "Proved for sequential calls. Violated under concurrency: the gauge can stay behind after all calls are done; the pool size overflows for limits of 2^44 MiB and more."
  },
  {
   "property": "C53",
   "status": "partial",
   "theorems": [
    "Seafowl.Config.C53_partial",
    "Seafowl.Config.C53_recognised",
    "Seafowl.Config.C53_typical",
    "Seafowl.Config.C53_error",
    "Seafowl.Config.C53_violated_mode",
    "Seafowl.Config.C53_violated_path",
    "Seafowl.Config.C53_checked",
    "Seafowl.Config.C53_violated_always",
    "Seafowl.Config.C53_mode_wrong"
   ],
   "note": "Exact for every configuration whose SQLite DSN is in memory iff it contains \":memory:\". Violated for mode=memory DSNs and file paths containing \":memory:\"."
  },
  {
   "property": "C54",
   "status": "partial",
   "theorems": [
    "Seafowl.Store.Http.C54_header",
    "Seafowl.Store.Http.C54_exact_partial",
    "Seafowl.Store.Http.C54_past_end",
    "Seafowl.Store.Http.C54_only_partial_content",
    "Seafowl.Store.Http.C54_violated_other_range",
    "Seafowl.Store.Http.C54_empty_range",
    "Seafowl.Store.Http.C54_violated_always"
   ],
   "note": "Exact for servers that honour ranges; an error for servers that ignore them; a 206 answer for another range is not detected."
  },
  {
   "property": "C55",
   "status": "partial",
   "theorems": [
    "Seafowl.Store.Http.C55_roundtrip_partial",
    "Seafowl.Store.Http.C55_one_segment",
    "Seafowl.Store.Http.C55_other_schemes",
    "Seafowl.Store.Http.C55_injective",
    "Seafowl.Store.Http.C55_decoded_twice",
    "Seafowl.Store.Http.C55_violated_if_decoded",
    "Seafowl.Store.Http.C55_decoded_iff"
   ],
   "note": "Exact if the library hands over the URL path verbatim; if it percent-decodes the path itself the second decoding corrupts URLs with escapes."
  },
  {
   "property": "C56",
   "status": "proved",
   "theorems": [
    "Seafowl.Ddl.C56_staging",
    "Seafowl.Ddl.C56_system",
    "Seafowl.Ddl.C56_run",
    "Seafowl.Ddl.C56_unique",
    "Seafowl.Ddl.C56_external",
    "Seafowl.Ddl.C56_information_schema"
   ],
   "note": "Names of the staging and system schemas are served without the catalog, after any sequence of statements."
  },
  {
   "property": "C57",
   "status": "partial",
   "theorems": [
    "Seafowl.Ddl.C57_success",
    "Seafowl.Ddl.C57_default_schema_partial",
    "Seafowl.Ddl.C57_new_schema_partial",
    "Seafowl.Ddl.C57_violated",
    "Seafowl.Ddl.C57_violated_always",
    "Seafowl.Ddl.C57_wrong_schema",
    "Seafowl.Ddl.C57_iff",
    "Seafowl.Ddl.C57_violated_existing_always",
    "Seafowl.Ddl.C57_violated_missing_always",
    "Seafowl.Ddl.C57_violated_columns_always"
   ],
   "note": "Every successful upload is exact; success is proved for the default schema and for new schemas. Violated: the existence check looks the table up by its bare name, so uploads to other existing schemas read the file with the wrong schema or fail."
  },
  {
   "property": "C58",
   "status": "partial",
   "theorems": [
    "Seafowl.Ddl.C58_create_database",
    "Seafowl.Ddl.C58_create_external",
    "Seafowl.Ddl.C58_ctas_partial",
    "Seafowl.Ddl.C58_drop_table",
    "Seafowl.Ddl.C58_drop_schema_partial",
    "Seafowl.Ddl.C58_drop_function",
    "Seafowl.Ddl.C58_violated",
    "Seafowl.Ddl.C58_create_schema_fails",
    "Seafowl.Ddl.C58_create_table_fails",
    "Seafowl.Ddl.C58_ctas_external_fails",
    "Seafowl.Ddl.C58_drop_schema_fails"
   ],
   "note": "Violated: CREATE SCHEMA and CREATE TABLE ignore IF NOT EXISTS, CREATE TABLE IF NOT EXISTS AS over an external table fails, DROP SCHEMA IF EXISTS of another database fails."
  },
  {
   "property": "C59",
   "status": "partial",
   "theorems": [
    "Seafowl.StoreOpts.C59_local",
    "Seafowl.StoreOpts.C59_local_read",
    "Seafowl.StoreOpts.C59_s3_fields",
    "Seafowl.StoreOpts.C59_s3_partial",
    "Seafowl.StoreOpts.C59_s3_known",
    "Seafowl.StoreOpts.C59_unknown",
    "Seafowl.StoreOpts.C59_half",
    "Seafowl.StoreOpts.C59_external",
    "Seafowl.StoreOpts.C59_gcs_partial",
    "Seafowl.StoreOpts.C59_violated_s3",
    "Seafowl.StoreOpts.C59_violated_gcs",
    "Seafowl.StoreOpts.C59_violated_signature",
    "Seafowl.StoreOpts.C59_violated_region",
    "Seafowl.StoreOpts.C59_violated_prefix",
    "Seafowl.StoreOpts.C59_violated_gcs_prefix",
    "Seafowl.StoreOpts.C59_s3_read",
    "Seafowl.StoreOpts.C59_gcs_read"
   ],
   "note": "Local options round-trip. Violated for S3 and GCS: the map is written with other names than it is read with, loses bucket and prefix, and with the default skip_signature describes an anonymous store although credentials are configured."
  },
  {
   "property": "C60",
   "status": "partial",
   "theorems": [
    "Seafowl.Flight.C60_first_reports",
    "Seafowl.Flight.C60_later",
    "Seafowl.Flight.C60_sequential_partial",
    "Seafowl.Flight.C60_violated_race",
    "Seafowl.Flight.C60_errors",
    "Seafowl.Flight.C60_violated_error",
    "Seafowl.Flight.C60_violated_race_always"
   ],
   "note": "Violated: load and store are separate steps, so concurrent first requests both report first; a failing first request loses the flag."
  },
  {
   "property": "C61",
   "status": "partial",
   "theorems": [
    "Seafowl.Sync.C61_resquash_partial",
    "Seafowl.Sync.C61_violated",
    "Seafowl.Sync.C61_first_squash",
    "Seafowl.Sync.C61_violated_always"
   ],
   "note": "Holds for any number of squashes when no change moves a row to another key; with key-moving updates a second squash links unrelated rows."
  },
  {
   "property": "C62",
   "status": "partial",
   "theorems": [
    "Seafowl.Sync.C62_by_name_partial",
    "Seafowl.Sync.C62_violated",
    "Seafowl.Sync.C62_exact"
   ],
   "note": "Holds when old and new key columns come in the same order; the accepted permuted order links unrelated rows."
  },
  {
   "property": "C63",
   "status": "partial",
   "theorems": [
    "Seafowl.Sync.C63_newest_partial",
    "Seafowl.Sync.C63_violated"
   ],
   "note": "Violated when changes of an open transaction are appended to the item of a completed one: the commit then does not mention the completed transaction. The partial theorem: newest among the transactions that end an item."
  },
  {
   "property": "C64",
   "status": "proved",
   "theorems": [
    "Seafowl.Sync.C64_one_batch_per_item"
   ],
   "note": "Assumes that squashing does not add rows (proved for the model of squash_batches: C13_no_growth)."
  },
  {
   "property": "C65",
   "status": "proved",
   "theorems": [
    "Seafowl.Sync.C65_choice"
   ],
   "note": ""
  },
  {
   "property": "C66",
   "status": "partial",
   "theorems": [
    "Seafowl.Sql.C66_function_partial",
    "Seafowl.Sql.C66_violated"
   ],
   "note": "Violated for everything but functions: the words are dropped before the library parser runs."
  },
  {
   "property": "C67",
   "status": "partial",
   "theorems": [
    "Seafowl.Wasm.C67_partial",
    "Seafowl.Wasm.C67_violated_empty",
    "Seafowl.Wasm.C67_violated_nullary",
    "Seafowl.Wasm.C67_empty_exact"
   ],
   "note": "Proved for calls with at least one argument on non-empty batches or with a column first. Violated: an empty batch with a constant first panics, functions without arguments panic."
  },
  {
   "property": "C68",
   "status": "partial",
   "theorems": [
    "Seafowl.Wasm.C68_partial",
    "Seafowl.Wasm.C68_readable",
    "Seafowl.Wasm.C68_result",
    "Seafowl.Wasm.C68_bounds",
    "Seafowl.Wasm.C68_violated",
    "Seafowl.Wasm.C68_violated_end",
    "Seafowl.Wasm.C68_violated_always",
    "Seafowl.Wasm.C68_exact"
   ],
   "note": "Proved for arguments of at least 4 bytes. Violated: shorter encodings overrun the buffer, or fail at the end of memory."
  },
  {
   "property": "C69",
   "status": "partial",
   "theorems": [
    "Seafowl.Types.C69_columns",
    "Seafowl.Types.C69_rejected",
    "Seafowl.Types.C69_integers",
    "Seafowl.Types.C69_floats_partial",
    "Seafowl.Types.C69_timestamp",
    "Seafowl.Types.C69_violated_float",
    "Seafowl.Types.C69_violated_options",
    "Seafowl.Types.C69_violated_float_always",
    "Seafowl.Types.C69_others",
    "Seafowl.Types.C69_time"
   ],
   "note": "Violated: FLOAT(p) is single precision for every p; column options other than NOT NULL (PRIMARY KEY, DEFAULT, …) are dropped silently."
  },
  {
   "property": "C70",
   "status": "partial",
   "theorems": [
    "Seafowl.StoreFactory.C70_hash",
    "Seafowl.StoreFactory.C70",
    "Seafowl.StoreFactory.C70_failed",
    "Seafowl.StoreFactory.C70_cached",
    "Seafowl.StoreFactory.C70_url_partial",
    "Seafowl.StoreFactory.C70_url_join_partial",
    "Seafowl.StoreFactory.C70_violated_url",
    "Seafowl.StoreFactory.C70_race_partial",
    "Seafowl.StoreFactory.C70_violated_race",
    "Seafowl.StoreFactory.C70_url_exact",
    "Seafowl.StoreFactory.C70_violated_url_always",
    "Seafowl.StoreFactory.C70_violated_race_always"
   ],
   "note": "Proved for sequential requests. Violated by concurrent first requests, which build two stores."
  },
  {
   "property": "C71",
   "status": "partial",
   "theorems": [
    "Seafowl.StoreOpts.C71_partial",
    "Seafowl.StoreOpts.C71_spellings",
    "Seafowl.StoreOpts.C71_order",
    "Seafowl.StoreOpts.C71_violated_token",
    "Seafowl.StoreOpts.C71_violated_order",
    "Seafowl.StoreOpts.C71_violated_token_always"
   ],
   "note": "Proved for option sets without aliases of the same option. Violated: session tokens are passed under a name Iceberg does not know; aliases win at random."
  },
  {
   "property": "C72",
   "status": "partial",
   "theorems": [
    "Seafowl.Ddl.C72_fresh",
    "Seafowl.Ddl.C72_created",
    "Seafowl.Ddl.C72_failed",
    "Seafowl.Ddl.C72_dropped_partial",
    "Seafowl.Ddl.C72_violated",
    "Seafowl.Ddl.C72_violated_always"
   ],
   "note": "Violated: the session that dropped a function can still call it."
  },
  {
   "property": "C73",
   "status": "partial",
   "theorems": [
    "Seafowl.Ddl.C73_partial",
    "Seafowl.Ddl.C73_create_table_partial",
    "Seafowl.Ddl.C73_ctas_partial",
    "Seafowl.Ddl.C73_violated",
    "Seafowl.Ddl.C73_violated_register",
    "Seafowl.Ddl.C73_violated_write"
   ],
   "note": "Violated: CREATE TABLE in schema system or in another database reports an error and keeps the table; CREATE TABLE AS whose write fails leaves an empty table; DROP SCHEMA: see C76."
  },
  {
   "property": "C74",
   "status": "partial",
   "theorems": [
    "Seafowl.FnDetails.C74_load",
    "Seafowl.FnDetails.C74_sql",
    "Seafowl.FnDetails.C74_accepts",
    "Seafowl.FnDetails.C74_partial",
    "Seafowl.FnDetails.C74_case",
    "Seafowl.FnDetails.C74_violated"
   ],
   "note": "All SQL definitions survive. Violated: a DECIMAL return type loses precision and scale, and SQL cannot give a DECIMAL a precision at all, so no usable DECIMAL function can be created."
  },
  {
   "property": "C75",
   "status": "partial",
   "theorems": [
    "Seafowl.Ddl.C75_others",
    "Seafowl.Ddl.C75_drop_partial",
    "Seafowl.Ddl.C75_missing",
    "Seafowl.Ddl.C75_staging",
    "Seafowl.Ddl.C75_violated",
    "Seafowl.Ddl.C75_violated_always",
    "Seafowl.Ddl.C75_undeleted"
   ],
   "note": "Violated: DROP TABLE IF EXISTS silently skips external tables and tables that do not load; DROP TABLE of a missing staging table succeeds."
  },
  {
   "property": "C76",
   "status": "partial",
   "theorems": [
    "Seafowl.Ddl.C76_success",
    "Seafowl.Ddl.C76_succeeds_partial",
    "Seafowl.Ddl.C76_violated",
    "Seafowl.Ddl.C76_violated_system",
    "Seafowl.Ddl.C76_violated_midway"
   ],
   "note": "Violated: a failure midway leaves the tables already removed removed; a schema named system cannot be dropped."
  },
  {
   "property": "C77",
   "status": "partial",
   "theorems": [
    "Seafowl.Ddl.C77_success",
    "Seafowl.Ddl.C77_succeeds_partial",
    "Seafowl.Ddl.C77_violated",
    "Seafowl.Ddl.C77_violated_always"
   ],
   "note": "Violated: OR REPLACE is ignored."
  },
  {
   "property": "C78",
   "status": "partial",
   "theorems": [
    "Seafowl.Ddl.C78_partial",
    "Seafowl.Ddl.C78_violated",
    "Seafowl.Ddl.C78_violated_create",
    "Seafowl.Ddl.C78_violated_drop",
    "Seafowl.Ddl.C78_violated_external"
   ],
   "note": "Proved for all statements but DROP TABLE with the name of another database. Violated: that drops the catalog entry but not the data; CREATE TABLE other.public.x creates x in the current database; external tables are shared by all databases."
  },
  {
   "property": "C79",
   "status": "partial",
   "theorems": [
    "Seafowl.Store.Http.C79_head",
    "Seafowl.Store.Http.C79_head_forbidden_partial",
    "Seafowl.Store.Http.C79_size_from_server",
    "Seafowl.Store.Http.C79_get_whole",
    "Seafowl.Store.Http.C79_get_range",
    "Seafowl.Store.Http.C79_list",
    "Seafowl.Store.Http.C79_violated_empty",
    "Seafowl.Store.Http.C79_violated_panic",
    "Seafowl.Store.Http.C79_violated_other_range",
    "Seafowl.Store.Http.C79_padding",
    "Seafowl.Store.Http.C79_panic_only",
    "Seafowl.Store.Http.C79_head_case"
   ],
   "note": "Exact for servers that follow the standard. Violated: the size of an empty object cannot be found if HEAD is forbidden; a Content-Range without complete length panics; get_opts accepts any range that the server answers with."
  },
  {
   "property": "C80",
   "status": "partial",
   "theorems": [
    "Seafowl.Store.C80_same_content_partial",
    "Seafowl.Store.C80_violated_http_poisons_https",
    "Seafowl.Store.C80_violated_always"
   ],
   "note": "Holds if the schemes that are used serve the same bytes. Violated: http and https share one cache whose keys have no scheme, so bytes fetched over http are returned for https."
  },
  {
   "property": "C81",
   "status": "proved",
   "theorems": [
    "Seafowl.Sql.C81_grammar",
    "Seafowl.Sql.C81_copy"
   ],
   "note": "The grammar is an independent inductive relation; the clause values and names are read by the library parser (parameter)."
  },
  {
   "property": "C82",
   "status": "partial",
   "theorems": [
    "Seafowl.Remote.C82_positional",
    "Seafowl.Remote.C82_partial",
    "Seafowl.Remote.C82_star_partial",
    "Seafowl.Remote.C82_introspected",
    "Seafowl.Remote.C82_declared",
    "Seafowl.Remote.C82_violated_star",
    "Seafowl.Remote.C82_violated_missing",
    "Seafowl.Remote.C82_empty_projection",
    "Seafowl.Remote.C82_violated_star_always",
    "Seafowl.Remote.C82_star_exact",
    "Seafowl.Remote.C82_filters_kept"
   ],
   "note": "Proved for scans with a non-empty list of columns (what the query planner sends) and for filters in the ordinary forms of C48. Without a list of columns the values are assigned by position: violated if the declared columns are in another order or more than the remote ones. A scan of no columns asks for an empty list of columns."
  },
  {
   "property": "C83",
   "status": "partial",
   "theorems": [
    "Seafowl.Catalog.C83_versions",
    "Seafowl.Catalog.C83_drop",
    "Seafowl.Catalog.C83_dropped",
    "Seafowl.Catalog.C83_columns",
    "Seafowl.Catalog.C83_projection",
    "Seafowl.Catalog.C83_names",
    "Seafowl.Catalog.C83_exists_partial",
    "Seafowl.Catalog.C83_other",
    "Seafowl.Catalog.C83_named",
    "Seafowl.Catalog.C83_violated_case",
    "Seafowl.Catalog.C83_no_names",
    "Seafowl.Catalog.C83_by_name",
    "Seafowl.Catalog.C83_exists_exact"
   ],
   "note": "Contents proved for all catalog histories. Violated in one detail: a system table whose name is in capital letters is reported as existing but is not found. Nothing in the code base inserts into dropped_table any more, so that table only shows old entries."
  },
  {
   "property": "C84",
   "status": "partial",
   "theorems": [
    "Seafowl.Meta.C84_resolves",
    "Seafowl.Meta.C84_distinct",
    "Seafowl.Meta.C84_builds",
    "Seafowl.Meta.C84_no_place",
    "Seafowl.Meta.C84_inline",
    "Seafowl.Meta.C84_catalog_partial",
    "Seafowl.Meta.C84_violated_other",
    "Seafowl.Meta.C84_violated_system",
    "Seafowl.Meta.C84_external"
   ],
   "note": "Names and places proved for every listing and every catalog history. Violated: one table that cannot be resolved makes all tables unavailable; tables in a schema called system can be created but never read."
  },
  {
   "property": "C85",
   "status": "partial",
   "theorems": [
    "Seafowl.Session.C85_scoped",
    "Seafowl.Session.C85_alone_partial",
    "Seafowl.Session.C85_violated",
    "Seafowl.Session.C85_violated_always"
   ],
   "note": "Proved in every interleaving for statements with a search path or in another database, and for the others if no other statement makes a step in the session of the server meanwhile. Violated otherwise: another statement replaces the catalog in the shared session."
  },
  {
   "property": "C86",
   "status": "partial",
   "theorems": [
    "Seafowl.Session.C86_scoped",
    "Seafowl.Session.C86_complete",
    "Seafowl.Session.C86_alone_partial",
    "Seafowl.Session.C86_violated_inline",
    "Seafowl.Session.C86_violated_mixed",
    "Seafowl.Session.C86_violated_stale",
    "Seafowl.Session.C86_violated_travel",
    "Seafowl.Session.C86_violated_inline_always",
    "Seafowl.Session.C86_violated_stale_always",
    "Seafowl.Session.C86_violated_travel_always"
   ],
   "note": "Proved in every interleaving for statements with their own session. Violated in the shared session: a statement reads tables of the metastore sent with another statement, misses a table created before it was sent, or loses the version of a table it asked for."
  },
  {
   "property": "C87",
   "status": "partial",
   "theorems": [
    "Seafowl.Iceberg.C87_insert_partial",
    "Seafowl.Iceberg.C87_conforms",
    "Seafowl.Iceberg.C87_columns_partial",
    "Seafowl.Iceberg.C87_select_stable",
    "Seafowl.Iceberg.C87_no_hint",
    "Seafowl.Iceberg.C87_violated_no_hint",
    "Seafowl.Iceberg.C87_violated_retry",
    "Seafowl.Iceberg.C87_violated_columns",
    "Seafowl.Iceberg.C87_columns_always",
    "Seafowl.Iceberg.C87_violated_retry_always",
    "Seafowl.Iceberg.C87_rows_meaning",
    "Seafowl.Iceberg.C87_damaged"
   ],
   "note": "Proved for an INSERT that runs alone into a table with a version hint. Violated for tables without version-hint.text (rows go to a new table, columns unchecked), when an answer is lost (error although the rows are there), and for tables whose current schema id is not 0 (old columns are shown or the table cannot be read). A name of a catalog never shows the inserted rows until it is given the new metadata file."
  },
  {
   "property": "C88",
   "status": "partial",
   "theorems": [
    "Seafowl.Iceberg.C88_serial",
    "Seafowl.Iceberg.C88_immutable",
    "Seafowl.Iceberg.C88_grows",
    "Seafowl.Iceberg.C88_rest",
    "Seafowl.Iceberg.C88_blocked",
    "Seafowl.Iceberg.C88_violated"
   ],
   "note": "Proved in every interleaving with failures: successful INSERTs are in the table once, in commit order. Violated as to usability: an INSERT that ends between writing metadata and hint blocks the table for ever."
  },
  {
   "property": "C89",
   "status": "partial",
   "theorems": [
    "Seafowl.Dml.C89_where_partial",
    "Seafowl.Dml.C89_simple_partial",
    "Seafowl.Dml.C89_no_where",
    "Seafowl.Dml.C89_truncates",
    "Seafowl.Dml.C89_violated_false",
    "Seafowl.Dml.C89_violated_subquery",
    "Seafowl.Dml.C89_violated_and_subquery",
    "Seafowl.Dml.C89_refused"
   ],
   "note": "Proved for every optimizer that keeps the meaning of plans and leaves a filter on the table. Violated: whenever the optimized input is no filter the whole table is emptied, as for WHERE FALSE, WHERE NULL and WHERE col IN (SELECT ...)."
  },
  {
   "property": "C90",
   "status": "partial",
   "theorems": [
    "Seafowl.Dml.C90_insert_partial",
    "Seafowl.Dml.C90_violated_overwrite",
    "Seafowl.Dml.C90_violated_replace"
   ],
   "note": "Proved for INSERT INTO. Violated: INSERT OVERWRITE and REPLACE INTO are executed as INSERT INTO on every table."
  },
  {
   "property": "C91",
   "status": "partial",
   "theorems": [
    "Seafowl.Dml.C91_update_from_partial",
    "Seafowl.Dml.C91_other_fails",
    "Seafowl.Dml.C91_assign_fails",
    "Seafowl.Dml.C91_violated",
    "Seafowl.Dml.C91_untouched",
    "Seafowl.Dml.C91_empty_exact",
    "Seafowl.Dml.C91_violated_always"
   ],
   "note": "Proved if the other table has rows and is not mentioned; refused if it is mentioned. Violated: with an empty table after FROM rows are changed although none matches."
  },
  {
   "property": "C92",
   "status": "partial",
   "theorems": [
    "Seafowl.Startup.C92_in_force",
    "Seafowl.Startup.C92_default",
    "Seafowl.Startup.C92_again",
    "Seafowl.Startup.C92_writes_off",
    "Seafowl.Startup.C92_access",
    "Seafowl.Startup.C92_violated",
    "Seafowl.Startup.C92_violated_read"
   ],
   "note": "Proved for files that exist and for the default path. Violated: a configuration file that was given by name and does not exist is no error (required(false)), although the comment in main.rs promises one; the server runs with the environment only."
  },
  {
   "property": "C93",
   "status": "partial",
   "theorems": [
    "Seafowl.Startup.C93_interval_partial",
    "Seafowl.Startup.C93_violated",
    "Seafowl.Startup.C93_panics",
    "Seafowl.Startup.C93_modes"
   ],
   "note": "Proved for intervals up to 18 hours. Violated above: the number of seconds is computed in u16 and wraps around in release builds (24 h become 20864 s; multiples of 4096 h stop the server)."
  },
  {
   "property": "C94",
   "status": "partial",
   "theorems": [
    "Seafowl.Startup.C94_catalog",
    "Seafowl.Startup.C94_starts_partial",
    "Seafowl.Startup.C94_one_starts",
    "Seafowl.Startup.C94_alone",
    "Seafowl.Startup.C94_violated",
    "Seafowl.Startup.C94_violated_db",
    "Seafowl.Startup.C94_violated_schema",
    "Seafowl.Startup.C94_violated_always"
   ],
   "note": "Proved: the catalog stays consistent, at least one server comes up, all come up if the default entries exist. Violated on a fresh catalog: one of two servers panics."
  },
  {
   "property": "C95",
   "status": "partial",
   "theorems": [
    "Seafowl.Script.C95_one_off",
    "Seafowl.Script.C95_cli_effects",
    "Seafowl.Script.C95_cli_partial",
    "Seafowl.Script.C95_http",
    "Seafowl.Script.C95_http_refused",
    "Seafowl.Script.C95_violated",
    "Seafowl.Script.C95_violated_drop",
    "Seafowl.Script.C95_violated_output",
    "Seafowl.Script.C95_violated_goes_on",
    "Seafowl.Script.C95_cli_fails"
   ],
   "note": "Proved for one-off commands and HTTP without conditions, and for the command line if no statement fails and none after a query removes files. Violated on the command line: all statements are planned (and changes executed) before the first result is read, so SELECT ...; DROP TABLE fails, an error takes the output of earlier queries, and statements after a query that fails at run time are executed."
  },
  {
   "property": "C96",
   "status": "partial",
   "theorems": [
    "Seafowl.Script.C96_request_partial",
    "Seafowl.Script.C96_session_partial",
    "Seafowl.Script.C96_no_effect",
    "Seafowl.Script.C96_violated_bind",
    "Seafowl.Script.C96_violated_read",
    "Seafowl.Script.C96_violated_stale",
    "Seafowl.Script.C96_violated_gone"
   ],
   "note": "Proved for simple queries and for binds that are followed at once by their execution. Violated: a change is made when it is bound, not when it is executed; a query shows the rows of the moment it was bound."
  },
  {
   "property": "C97",
   "status": "partial",
   "theorems": [
    "Seafowl.Cli.C97_commands",
    "Seafowl.Cli.C97_verbatim",
    "Seafowl.Cli.C97_session",
    "Seafowl.Cli.C97_violated",
    "Seafowl.Cli.C97_violated_describe",
    "Seafowl.Cli.C97_violated_literal",
    "Seafowl.Cli.C97_violated_comment"
   ],
   "note": "Proved: commands with any spacing, statements verbatim, lines in order, none lost. Violated: backslash-d executes statements after a semicolon in its argument; completeness is decided by the last character, also inside literals and comments."
  },
  {
   "property": "C98",
   "status": "partial",
   "theorems": [
    "Seafowl.Ddl.C98_converted",
    "Seafowl.Ddl.C98_others",
    "Seafowl.Ddl.C98_failed_partial",
    "Seafowl.Ddl.C98_succeeds",
    "Seafowl.Ddl.C98_refused",
    "Seafowl.Ddl.C98_repeat",
    "Seafowl.Ddl.C98_separate",
    "Seafowl.Ddl.C98_violated_already",
    "Seafowl.Ddl.C98_violated_retry",
    "Seafowl.Ddl.C98_violated_second_name",
    "Seafowl.Ddl.C98_violated_shared",
    "Seafowl.Ddl.C98_violated_name"
   ],
   "note": "Proved: a first conversion makes a table of exactly the rows of the files, all other tables stay, unsuitable directories are refused without an effect, repeating a success is harmless, conversions never share a directory if all tables can be loaded. Violated: a CONVERT of a directory that is a Delta table reports success whatever the name and enters nothing, so a second name, or a retry after the name was taken, denotes no table."
  },
  {
   "property": "C99",
   "status": "partial",
   "theorems": [
    "Seafowl.StoreOpts.C99_given",
    "Seafowl.StoreOpts.C99_environment_partial",
    "Seafowl.StoreOpts.C99_conditional_put",
    "Seafowl.StoreOpts.C99_known",
    "Seafowl.StoreOpts.C99_same",
    "Seafowl.StoreOpts.C99_violated_region",
    "Seafowl.StoreOpts.C99_violated_credentials",
    "Seafowl.StoreOpts.C99_violated_spelling",
    "Seafowl.StoreOpts.C99_google",
    "Seafowl.StoreOpts.C99_google_names",
    "Seafowl.StoreOpts.C99_variables",
    "Seafowl.StoreOpts.C99_google_account",
    "Seafowl.StoreOpts.C99_violated_google_path",
    "Seafowl.StoreOpts.C99_violated_token",
    "Seafowl.StoreOpts.C99_violated_half",
    "Seafowl.StoreOpts.C99_violated_skip",
    "Seafowl.StoreOpts.C99_violated_order"
   ],
   "note": "Proved: a given option wins under any spelling, other settings come from the environment, unknown options are errors, writes stay conditional, Google service accounts are never mixed. Violated: the region of the environment is ignored and region detection panics although it is set; session token, half a key pair and AWS_SKIP_SIGNATURE of the environment are mixed with given keys; two spellings of one option depend on hash order; GOOGLE_SERVICE_ACCOUNT_PATH is ignored."
  },
  {
   "property": "C100",
   "status": "partial",
   "theorems": [
    "Seafowl.Routes.C100_address_partial",
    "Seafowl.Routes.C100_only",
    "Seafowl.Routes.C100_refused",
    "Seafowl.Routes.C100_violated",
    "Seafowl.Ddl.C100_scope"
   ],
   "note": "Proved: names of unreserved characters lead to exactly what they name, a request works on nothing else, other addresses and methods are refused. Violated: paths are not percent-decoded, so every other name denotes another database or table."
  },
  {
   "property": "C101",
   "status": "partial",
   "theorems": [
    "Seafowl.Routes.C101_path_partial",
    "Seafowl.Routes.C101_path_encoded",
    "Seafowl.Routes.C101_hash",
    "Seafowl.Routes.C101_raw",
    "Seafowl.Routes.C101_request",
    "Seafowl.Routes.C101_violated_dot",
    "Seafowl.Routes.C101_violated_body",
    "Seafowl.Routes.C101_violated_body_always",
    "Seafowl.Routes.C101_escapes"
   ],
   "note": "Proved: for queries without a dot in the path, for queries under their hash, order of body, header and path, permission. Violated: a query in the path is cut at its first dot (SELECT 1.5 is answered as SELECT 1); a query in the body is percent-decoded, and then refused under its own hash."
  },
  {
   "property": "C102",
   "status": "partial",
   "theorems": [
    "Seafowl.Routes.C102_file_partial",
    "Seafowl.Routes.C102_accepted",
    "Seafowl.Routes.C102_request",
    "Seafowl.Routes.C102_violated",
    "Seafowl.Routes.C102_violated_always"
   ],
   "note": "Proved: the file sent last is loaded byte for byte with its settings, proper forms are accepted, permission and table. Violated: of several files only the last is loaded and the answer is success; has_header=True is read as false."
  },
  {
   "property": "C103",
   "status": "partial",
   "theorems": [
    "Seafowl.Front.C103_unauthorized",
    "Seafowl.Front.C103_forbidden",
    "Seafowl.Front.C103_not_allowed",
    "Seafowl.Front.C103_upload",
    "Seafowl.Front.C103_missing_table",
    "Seafowl.Front.C103_violated",
    "Seafowl.Front.C103_violated_stream",
    "Seafowl.Routes.C103_server",
    "Seafowl.Routes.C103_bad_request"
   ],
   "note": "Proved: 401, 403, 405 are given exactly in their cases, 5xx only for failures of the server, 400 for faulty requests. Violated: failures of the server while a statement is executed are answered with 400, and with 200 once the result is being sent (the failure is then in the body)."
  },
  {
   "property": "C104",
   "status": "partial",
   "theorems": [
    "Seafowl.Sync.C104_resend_partial",
    "Seafowl.Sync.C104_resend_keys_partial",
    "Seafowl.Sync.C104_no_deletes",
    "Seafowl.Sync.C104_same_point",
    "Seafowl.Sync.C104_violated"
   ],
   "note": "Proved exactly: the table is right if and only if every row it had is present in the right table at one of the new flush points (one key column with moving keys, several key columns without). Hence right without deletions and right if flushed at the same point. Violated: an insertion flushed before the restart, sent again in one flush with its deletion, cancels out and the row stays for ever."
  },
  {
   "property": "C105",
   "status": "partial",
   "theorems": [
    "Seafowl.Sync.C105_content_partial",
    "Seafowl.Sync.C105_durable",
    "Seafowl.Sync.C105_flushed_partial",
    "Seafowl.Sync.C105_crash_partial",
    "Seafowl.Sync.C105_files_partial",
    "Seafowl.Sync.C105_files_crash_partial",
    "Seafowl.Sync.C105_files_exist",
    "Seafowl.Sync.C105_files_converge_partial"
   ],
   "note": "Proved for messages that carry all columns and do not move rows to other keys, any number of key columns, every history, crashes in the middle of a flush included. Also with the choice of files in each flush, among the files the flushes before left, however rows are divided into files (C105_files_partial). Missing: key-moving updates and Changed columns, for which the claim is false (C16, C61), and lost acknowledgements the process survives (C04)."
  },
  {
   "property": "C106",
   "status": "partial",
   "theorems": [
    "Seafowl.Sync.C106_restart_partial",
    "Seafowl.Sync.C106_no_deletes",
    "Seafowl.Sync.C106_violated",
    "Seafowl.Sync.C106_files_partial"
   ],
   "note": "Proved exactly for messages as in C105: when the table is right after the restart; always right without deletions. The same for the files that the two processes leave (C106_files_partial). Violated: as in C104, on a full history of two processes."
  },
  {
   "property": "C107",
   "status": "partial",
   "theorems": [
    "Seafowl.Sync.C107_named",
    "Seafowl.Sync.C107_target_partial",
    "Seafowl.Sync.C107_url_partial",
    "Seafowl.Sync.C107_place_partial",
    "Seafowl.Sync.C107_violated",
    "Seafowl.Sync.C107_violated_internal",
    "Seafowl.Sync.C107_violated_always"
   ],
   "note": "Proved: every commit goes to a table named by some request for the URL; every change goes to its own table if requests with the same URL name the same table, which holds for the tables of one store with plain paths. Violated: the buffer is found by a URL without the options of the store, so a request for a bucket of the same name at another endpoint has its changes written to the first table and reported durable."
  },
  {
   "property": "C108",
   "status": "partial",
   "theorems": [
    "Seafowl.Wasm.C108_types",
    "Seafowl.Wasm.C108_mismatch",
    "Seafowl.Wasm.C108_created",
    "Seafowl.Wasm.C108_rows_partial",
    "Seafowl.Wasm.C108_pure_partial",
    "Seafowl.Wasm.C108_violated_null",
    "Seafowl.Wasm.C108_violated_state",
    "Seafowl.Wasm.C108_violated_signature",
    "Seafowl.Wasm.C108_violated_result",
    "Seafowl.Wasm.C108_violated_create",
    "Seafowl.Wasm.C108_violated_nullary",
    "Seafowl.Wasm.C108_violated_null_always",
    "Seafowl.Wasm.C108_violated_create_always",
    "Seafowl.Wasm.C108_violated_nullary_always",
    "Seafowl.Wasm.C108_violated_signature_always"
   ],
   "note": "Proved for entry points with the declared types, batches without NULLs and at least one argument: results are the answers of a fresh instance asked row by row, independent of batches if the guest keeps no state. Violated: NULLs are passed as whatever the slot holds; the declared types are not compared with the entry point (calls fail or panic); argument types the machine lacks panic in CREATE FUNCTION; no arguments panic."
  },
  {
   "property": "C109",
   "status": "partial",
   "theorems": [
    "Seafowl.Store.Files.C109_accounted_partial",
    "Seafowl.Store.Files.C109_quiet_partial",
    "Seafowl.Store.Files.C109_reader_partial",
    "Seafowl.Store.Files.C109_bound_partial",
    "Seafowl.Store.Files.C109_capacity_partial",
    "Seafowl.Store.Files.C109_violated_failed_write",
    "Seafowl.Store.Files.C109_violated_overlap",
    "Seafowl.Store.Files.C109_violated_replaced",
    "Seafowl.Store.Files.C109_violated_removal",
    "Seafowl.Store.Files.C109_violated_weight",
    "Seafowl.Store.Files.C109_violated_torn_always",
    "Seafowl.Store.Files.C109_violated_found_always",
    "Seafowl.Store.Files.C109_one_removal"
   ],
   "note": "Proved for all interleavings of readers, write tasks, evictions and removals: if no write fails half way and files can be removed, every file belongs to an entry or to something under way, and the directory is bounded by the capacity; readers get whole chunks if also tasks of one chunk do not overlap. Violated: a write that fails half way leaves a file that is later served as the whole chunk; overlapping tasks let readers see an unfinished file or leave an entry without a file; chunks of 4 GiB weigh nothing."
  },
  {
   "property": "C110",
   "status": "partial",
   "theorems": [
    "Seafowl.External.C110_created",
    "Seafowl.External.C110_gcs",
    "Seafowl.External.C110_reads_partial",
    "Seafowl.External.C110_builtin",
    "Seafowl.External.C110_violated",
    "Seafowl.External.C110_violated_failed",
    "Seafowl.External.C110_violated_public",
    "Seafowl.External.C110_violated_panic",
    "Seafowl.External.C110_violated_always"
   ],
   "note": "Proved: the statement that creates a table finds its files in the store it asks for; later statements do not change what the table shows unless they name the same bucket with other settings. Violated: stores are found by the bucket alone and shared by all sessions, so any later statement for the bucket (also a failing one) redirects the table."
  },
  {
   "property": "C111",
   "status": "partial",
   "theorems": [
    "Seafowl.SqlExt.C111_grammar",
    "Seafowl.SqlExt.C111_order",
    "Seafowl.SqlExt.C111_required",
    "Seafowl.SqlExt.C111_partition_columns_partial",
    "Seafowl.SqlExt.C111_quoted_partition_column",
    "Seafowl.SqlExt.C111_capital_partition_column",
    "Seafowl.SqlExt.C111_bare_partitioned_by",
    "Seafowl.SqlExt.C111_partition_exact"
   ],
   "note": "Proved for all token sequences: the parser accepts exactly the grammar and builds what the clauses say; the order of the clauses is irrelevant. Violated for partition columns: those defined with quotes or capitals are not named like the columns they define; PARTITIONED BY without a list is accepted."
  },
  {
   "property": "C112",
   "status": "partial",
   "theorems": [
    "Seafowl.Flight.C112_put_accepted",
    "Seafowl.Flight.C112_put_refused",
    "Seafowl.Flight.C112_put_invalid",
    "Seafowl.Flight.C112_put_internal_partial",
    "Seafowl.Flight.C112_put_no_panic",
    "Seafowl.Flight.C112_query",
    "Seafowl.Flight.C112_inline_partial",
    "Seafowl.Flight.C112_get",
    "Seafowl.Flight.C112_violated_internal",
    "Seafowl.Flight.C112_violated_location",
    "Seafowl.Flight.C112_violated_panic",
    "Seafowl.Flight.C112_violated_location_always",
    "Seafowl.Flight.C112_get_once"
   ],
   "note": "Proved for all requests and reachable states: accepted requests are taken once, refused ones have no effect, invalid_argument is exact. Violated: internal is also sent for changes that have been taken (the flush after acceptance failed) and for mistakes of the client (locations); a query with a metastore but without its list of schemas panics."
  },
  {
   "property": "C113",
   "status": "partial",
   "theorems": [
    "Seafowl.Sync.C113_bytes_gauge",
    "Seafowl.Sync.C113_sequence_gauges",
    "Seafowl.Sync.C113_request_totals",
    "Seafowl.Sync.C113_rows_conserved",
    "Seafowl.Sync.C113_bytes_conserved",
    "Seafowl.Sync.C113_rows_gauge_drift",
    "Seafowl.Sync.C113_rows_gauge_partial",
    "Seafowl.Sync.C113_flushed_rows",
    "Seafowl.Sync.C113_oldest_partial",
    "Seafowl.Sync.C113_rows_gauge_violated",
    "Seafowl.Sync.C113_rows_gauge_violated_empty",
    "Seafowl.Sync.C113_oldest_violated",
    "Seafowl.Sync.C113_last_flush",
    "Seafowl.Sync.C113_oldest_history_partial"
   ],
   "note": "Proved for all histories: gauge of bytes, sequence gauges, request and flush counters, conservation. Violated: squashing adds the removed rows to in_memory_rows instead of subtracting them, so the gauge is off by twice the squashed rows for good (exact drift proved); in_memory_oldest is stale after a failed flush."
  },
  {
   "property": "C114",
   "status": "partial",
   "theorems": [
    "Seafowl.Front.C114_handler",
    "Seafowl.Front.C114_no_leak",
    "Seafowl.Front.C114_transparent",
    "Seafowl.Front.C114_errors",
    "Seafowl.Front.C114_violated",
    "Seafowl.Front.C114_violated_always"
   ],
   "note": "Proved for all histories. Violated: an answer whose stream broke off has status 200, an ETag and Cache-Control, so caches hand out the broken answer as long as it is fresh. Assumes the query hash is injective and no hash is itself a SQL query."
  },
  {
   "property": "C115",
   "status": "partial",
   "theorems": [
    "Seafowl.Front.C115_count",
    "Seafowl.Front.C115_status_partial",
    "Seafowl.Front.C115_route_partial",
    "Seafowl.Front.C115_grpc_partial",
    "Seafowl.Front.C115_violated_status",
    "Seafowl.Front.C115_violated_route",
    "Seafowl.Front.C115_violated_series",
    "Seafowl.Front.C115_violated_grpc",
    "Seafowl.Front.C115_violated_route_always"
   ],
   "note": "Counting once proved; exact conditions for the labels proved. Violated: refusals for lack of permission (401, 403, 405, 400) are counted as 500; queries in a database named upload are counted as uploads; unknown paths are labels, so the number of series is unbounded; gRPC streams that fail are counted as successes."
  },
  {
   "property": "C116",
   "status": "partial",
   "theorems": [
    "Seafowl.Front.C116_preflight",
    "Seafowl.Front.C116_readable_partial",
    "Seafowl.Front.C116_get_partial",
    "Seafowl.Front.C116_violated"
   ],
   "note": "Exact condition proved. Violated: refusals bypass the CORS layer, so a page cannot read a 401, 403, 404 or 405."
  },
  {
   "property": "C117",
   "status": "partial",
   "theorems": [
    "Seafowl.Wasm.Msg.C117_call_partial",
    "Seafowl.Wasm.Msg.C117_rows_partial",
    "Seafowl.Wasm.Msg.C117_given_back",
    "Seafowl.Wasm.Msg.C117_violated",
    "Seafowl.Wasm.Msg.C117_violated_pointer"
   ],
   "note": "Proved for arguments of at least four bytes and buffers below 2 GiB. Violated: the length is written as eight bytes, which overwrites memory of the guest behind a short buffer, so a module that keeps the contract returns wrong values; a pointer from 2 GiB on panics."
  },
  {
   "property": "C118",
   "status": "partial",
   "theorems": [
    "Seafowl.Store.C118_same_read",
    "Seafowl.Store.C118_history",
    "Seafowl.Store.C118_bytes",
    "Seafowl.Store.C118_hits",
    "Seafowl.Store.C118_requests_partial",
    "Seafowl.Store.C118_names",
    "Seafowl.Store.C118_violated",
    "Seafowl.Store.C118_violated_always",
    "Seafowl.Store.C118_sent"
   ],
   "note": "Reads proved for all histories. Violated: of an upload in parts only the start is counted, and not even that if it has options (put_multipart_opts)."
  },
  {
   "property": "C119",
   "status": "partial",
   "theorems": [
    "Seafowl.Foreign.C119_frame",
    "Seafowl.Foreign.C119_refused",
    "Seafowl.Foreign.C119_none",
    "Seafowl.Foreign.C119_unlisted",
    "Seafowl.Foreign.C119_no_uuid_partial",
    "Seafowl.Foreign.C119_no_store_partial",
    "Seafowl.Foreign.C119_truncate",
    "Seafowl.Foreign.C119_vacuum",
    "Seafowl.Foreign.C119_staging_drop",
    "Seafowl.Foreign.C119_drop_violated",
    "Seafowl.Foreign.C119_drop_unreadable",
    "Seafowl.Foreign.C119_drop_missing",
    "Seafowl.Foreign.C119_drop_schema_violated",
    "Seafowl.Foreign.C119_insert_violated",
    "Seafowl.Foreign.C119_update_violated",
    "Seafowl.Foreign.C119_delete_violated",
    "Seafowl.Foreign.C119_function_violated",
    "Seafowl.Foreign.C119_staging_violated",
    "Seafowl.Foreign.C119_staging_insert_violated"
   ],
   "note": "Frame and refusals proved for all metastores. Violated, for every table concerned: DROP TABLE and DROP SCHEMA delete the objects and then fail with not implemented; INSERT, UPDATE, DELETE of tables whose location ends with a UUID commit and then fail, UPDATE of a table outside the default store makes it unreadable; DROP SCHEMA staging deletes the objects of an external Delta table."
  },
  {
   "property": "C120",
   "status": "partial",
   "theorems": [
    "Seafowl.Foreign.C120_own_partial",
    "Seafowl.Foreign.C120_refused",
    "Seafowl.Foreign.C120_listed",
    "Seafowl.Foreign.C120_violated_same",
    "Seafowl.Foreign.C120_violated"
   ],
   "note": "Proved for tables in the default store under their identifier, which all tables of the catalog database are. Violated: a table elsewhere whose location ends with a UUID is read from the directory of that name in the default store."
  },
  {
   "property": "C121",
   "status": "partial",
   "theorems": [
    "Seafowl.HttpJson.C121_rows",
    "Seafowl.HttpJson.C121_lines",
    "Seafowl.HttpJson.C121_failure",
    "Seafowl.HttpJson.C121_columns_partial",
    "Seafowl.HttpJson.C121_integers",
    "Seafowl.HttpJson.C121_lossless_partial",
    "Seafowl.HttpJson.C121_violated_names",
    "Seafowl.HttpJson.C121_violated_nan"
   ],
   "note": "Proved: one line per row, each read as an object with the columns in order; a failed answer is never readable as rows; with different column names each value is found under its name; apart from NaN and infinities two results with the same body and types are the same. Violated: of two columns with one name a client sees only the second; NaN and infinities are sent as null."
  },
  {
   "property": "C122",
   "status": "proved",
   "theorems": [
    "Seafowl.HttpJson.C122_header",
    "Seafowl.HttpJson.C122_schema",
    "Seafowl.HttpJson.C122_distinct",
    "Seafowl.HttpJson.C122_size",
    "Seafowl.HttpJson.C122_metadata"
   ],
   "note": "The header is valid for every schema, reading it gives names, types and nullability back, different columns give different headers; each column takes at least 140 bytes."
  },
  {
   "property": "C123",
   "status": "partial",
   "theorems": [
    "Seafowl.Address.C123_address_partial",
    "Seafowl.Address.C123_same_partial",
    "Seafowl.Address.C123_disjoint",
    "Seafowl.Address.C123_queues_partial",
    "Seafowl.Address.C123_custom_partial",
    "Seafowl.Address.C123_violated_dots",
    "Seafowl.Address.C123_violated_up",
    "Seafowl.Address.C123_violated_slash",
    "Seafowl.Address.C123_violated_absolute",
    "Seafowl.Address.C123_violated_prefix",
    "Seafowl.Address.C123_violated_path_style",
    "Seafowl.Address.C123_violated_prefix_always",
    "Seafowl.Address.C123_violated_endpoint_always"
   ],
   "note": "Proved for paths of named parts and for prefixes that do not begin with a slash; in particular for all tables that Seafowl creates. Violated: a path with .. has the URI of another table, whose changes are then written to the wrong directory; a trailing slash gives one table two URIs; a leading slash in a path or prefix; locations with the bucket in the path of an https address."
  },
  {
   "property": "C124",
   "status": "partial",
   "theorems": [
    "Seafowl.Coerce.C124_columns",
    "Seafowl.Coerce.C124_values_partial",
    "Seafowl.Coerce.C124_moments",
    "Seafowl.Coerce.C124_accepted",
    "Seafowl.Coerce.C124_violated",
    "Seafowl.Coerce.C124_violated_refused"
   ],
   "note": "Proved: columns, and all values but timestamps in nanoseconds; those are stored within a microsecond, in order. Violated: they are changed without notice, and those before 1970 become later; inside lists and structs, and in uploaded files, they are refused."
  },
  {
   "property": "C125",
   "status": "partial",
   "theorems": [
    "Seafowl.Upgrade.C125_kept_partial",
    "Seafowl.Upgrade.C125_interrupted",
    "Seafowl.Upgrade.C125_later",
    "Seafowl.Upgrade.C125_again",
    "Seafowl.Upgrade.C125_violated",
    "Seafowl.Upgrade.C125_violated_order",
    "Seafowl.Upgrade.C125_read_only"
   ],
   "note": "Proved: names, versions, columns and types, and all that belongs to Delta tables, for every version, interruption and failed update. Violated: tables of the time before Delta lose the list of their files and share one UUID, without a check or notice; types of the first version are in the new format after the second start only."
  },
  {
   "property": "C126",
   "status": "partial",
   "theorems": [
    "Seafowl.PgSchema.C126_separate",
    "Seafowl.PgSchema.C126_view",
    "Seafowl.PgSchema.C126_start_partial",
    "Seafowl.PgSchema.C126_names",
    "Seafowl.PgSchema.C126_violated_case",
    "Seafowl.PgSchema.C126_violated_long",
    "Seafowl.PgSchema.C126_violated_public",
    "Seafowl.PgSchema.C126_violated_refused",
    "Seafowl.PgSchema.C126_starts_iff"
   ],
   "note": "Proved: servers that have started with different schemas do not affect each other; starting leaves all catalogs alone but that in public. Violated: the name is used without quotes, so names that differ in case, or after 63 bytes, share a catalog and names that need quotes are refused; the first start rewrites types in public."
  },
  {
   "property": "C127",
   "status": "partial",
   "theorems": [
    "Seafowl.Catalog.Concurrent.C127_intact",
    "Seafowl.Catalog.Concurrent.C127_serial_partial",
    "Seafowl.Catalog.Concurrent.C127_creations",
    "Seafowl.Catalog.Concurrent.C127_one_creator",
    "Seafowl.Catalog.Concurrent.C127_alone",
    "Seafowl.Catalog.Concurrent.C127_violated_rename",
    "Seafowl.Catalog.Concurrent.C127_violated_drop",
    "Seafowl.Catalog.Concurrent.C127_violated_reuse",
    "Seafowl.Catalog.Concurrent.C127_violated_schema",
    "Seafowl.Catalog.Concurrent.C127_violated_columns",
    "Seafowl.Catalog.Concurrent.C127_violated_rename_always",
    "Seafowl.Catalog.Concurrent.C127_violated_drop_always"
   ],
   "note": "Proved: names stay unique and references intact in every interleaving; creations, function changes and writes always take effect one after the other; so do all operations whose looked up names are not changed before they act. Violated: two renames of one table both succeed, DROP TABLE removes the table under the name a concurrent rename gave it, and with SQLite (which reuses identifiers) a delayed DROP removes an unrelated new table and CREATE TABLE creates it in another schema."
  },
  {
   "property": "C128",
   "status": "partial",
   "theorems": [
    "Seafowl.Races.C128_serial_partial",
    "Seafowl.Races.C128_inserts_deletes",
    "Seafowl.Races.C128_keys",
    "Seafowl.Races.C128_one_writer",
    "Seafowl.Races.C128_failure",
    "Seafowl.Races.C128_violated_update",
    "Seafowl.Races.C128_violated_copy"
   ],
   "note": "Proved for INSERTs that do not read the table and UPDATEs/DELETEs none of which makes rows qualify for another one that runs at the same time; in particular for INSERT and DELETE statements, for UPDATEs that do not assign columns used to select rows, and for one UPDATE or DELETE at a time. Violated: two UPDATEs of each other's values both succeed and swap them, and INSERT ... SELECT of the table itself during a DELETE leaves copies of the deleted rows, because the commit does not tell the library what the statement has read."
  },
  {
   "property": "C129",
   "status": "partial",
   "theorems": [
    "Seafowl.Lookups.C129_partial",
    "Seafowl.Lookups.C129_end",
    "Seafowl.Lookups.C129_safe",
    "Seafowl.Lookups.C129_violated_update",
    "Seafowl.Lookups.C129_violated_delete",
    "Seafowl.Lookups.C129_violated_drop",
    "Seafowl.Lookups.C129_violated_stale",
    "Seafowl.Lookups.C129_create",
    "Seafowl.Lookups.C129_drop",
    "Seafowl.Lookups.C129_rename",
    "Seafowl.Lookups.C129_names",
    "Seafowl.Lookups.C129_modify",
    "Seafowl.Lookups.C129_failed"
   ],
   "note": "Proved if no dropped name is taken away by a RENAME and each UPDATE or DELETE runs in its own session or on a name that is neither renamed nor dropped; INSERT, TRUNCATE, VACUUM, CREATE and RENAME are always safe. The part about names holds in every interleaving. Violated otherwise: an UPDATE or DELETE in the shared session writes to the directory of one table and commits to the log of another; a DROP deletes the files of one table and the entry of another."
  },
  {
   "property": "C130",
   "status": "partial",
   "theorems": [
    "Seafowl.Database.C130_partial",
    "Seafowl.Database.C130_ideal",
    "Seafowl.Database.C130_travel",
    "Seafowl.Database.C130_violated_create_as",
    "Seafowl.Database.C130_violated_drop",
    "Seafowl.Database.C130_late",
    "Seafowl.Database.C130_violated_create_as_always",
    "Seafowl.Database.C130_violated_drop_always",
    "Seafowl.Database.C130_late_always",
    "Seafowl.Database.C130_late_insert",
    "Seafowl.Database.C130_late_modify"
   ],
   "note": "Proved: the answers to all histories are those of a database with versioned tables (trace inclusion); without failures and time travel they are those of a map from names to rows; the past of a table stays as it was until it is vacuumed, dropped or renamed. Violated only by failures: CREATE TABLE AS may leave an empty table, DROP TABLE one that cannot be used. A statement that reports a failure may have had its effect."
  },
  {
   "property": "C131",
   "status": "partial",
   "theorems": [
    "Seafowl.Database.C131_real",
    "Seafowl.Database.C131_partial",
    "Seafowl.Database.C131_violated_truncate",
    "Seafowl.Database.C131_violated_vacuum",
    "Seafowl.Database.C131_violated_record",
    "Seafowl.Database.C131_violated_vacuum_always",
    "Seafowl.Database.C131_violated_record_always"
   ],
   "note": "Proved: the listed versions always are versions of the table (all histories, all failures); without TRUNCATE and failures all of them can be read and the last one is current. Violated: TRUNCATE never records its version (for every state), so that after a VACUUM the only listed version cannot be read; likewise when the record in the metastore fails."
  },
  {
   "property": "C132",
   "status": "partial",
   "theorems": [
    "Seafowl.Listen.C132_listens",
    "Seafowl.Listen.C132_exact",
    "Seafowl.Listen.C132_violated_names"
   ],
   "note": "Proved: addresses give exactly this address and port, and nothing is ever listened at that the configuration does not say. Violated: every host name (\"localhost\") and every IPv6 address without brackets makes the frontend panic at its start."
  },
  {
   "property": "C133",
   "status": "partial",
   "theorems": [
    "Seafowl.Sync.C133_within_lag",
    "Seafowl.Sync.C133_violated_blocked"
   ],
   "note": "Proved: the bound, for every history. Violated: one table that cannot be written blocks all others - the oldest entry is tried first and its failure ends the flush, so as long as it fails nothing else is ever written and every request with changes is answered with an error, although its changes have been taken."
  },
  {
   "property": "C134",
   "status": "partial",
   "theorems": [
    "Seafowl.Sync.C134_columns",
    "Seafowl.Sync.C134_known_columns_partial",
    "Seafowl.Sync.C134_existing_partial",
    "Seafowl.Sync.C134_new_table_partial",
    "Seafowl.Sync.C134_violated_dropped",
    "Seafowl.Sync.C134_violated_ignored",
    "Seafowl.Sync.C134_violated_example"
   ],
   "note": "Proved: which columns a new table gets; that nothing is lost if no change set has a column that the table lacks. Violated: the columns come from the first buffered change set only, and a column the table lacks is dropped without an error - its values are not even looked at."
  },
  {
   "property": "C135",
   "status": "partial",
   "theorems": [
    "Seafowl.Shared.C135_serial_partial",
    "Seafowl.Shared.C135_disjoint",
    "Seafowl.Shared.C135_replay_partial",
    "Seafowl.Shared.C135_conflict",
    "Seafowl.Shared.C135_violated_twice",
    "Seafowl.Shared.C135_violated_example"
   ],
   "note": "Proved if no writer makes rows that concern another one at work, in particular for servers with different keys; a commit replays its changes on the table as it is at that moment; of two that rewrite a common file at most one commits. Violated: two servers that insert the same key at the same time both succeed and the row is there twice."
  },
  {
   "property": "C136",
   "status": "partial",
   "theorems": [
    "Seafowl.Sync.C136_accepted_partial",
    "Seafowl.Sync.C136_wire",
    "Seafowl.Sync.C136_violated_value_key",
    "Seafowl.Sync.C136_violated_lost",
    "Seafowl.Sync.C136_violated_example"
   ],
   "note": "Proved: an accepted flat schema meets the hypothesis of all replication theorems iff the client observed three rules that are not checked (no column twice, one order of the key columns, no key among the values); from the wire to the table for one key. Violated: a key that is a value too is accepted, and the value is stored in place of the key for every insertion."
  },
  {
   "property": "C137",
   "status": "partial",
   "theorems": [
    "Seafowl.Names.C137_plans_partial",
    "Seafowl.Names.C137_unreadable",
    "Seafowl.Names.C137_violated_key",
    "Seafowl.Names.C137_violated_value",
    "Seafowl.Names.C137_violated_field",
    "Seafowl.Names.C137_violated_nested_table",
    "Seafowl.Names.C137_violated_nested_field",
    "Seafowl.Names.C137_violated_reserved",
    "Seafowl.Names.C137_violated_flag",
    "Seafowl.Names.C137_other_key"
   ],
   "note": "Proved: if the names of keys and fields (and, once two items are merged, of all columns) read as SQL stand for themselves, and nothing is nested, every flush is planned and writes exactly the columns of the table. Violated for all others: a key column like userId is never replicated; a value column like userName is until two items have to be merged; a field not in lower case fails; tables or messages with struct, list or map columns are accepted but can never be flushed; nor can tables with a column called __upsert_col or __lower_rel."
  },
  {
   "property": "C138",
   "status": "partial",
   "theorems": [
    "Seafowl.Wasm.C138_partial",
    "Seafowl.Wasm.C138_decimal",
    "Seafowl.Wasm.C138_any_decimal",
    "Seafowl.Wasm.C138_nil",
    "Seafowl.Wasm.C138_violated_decimal",
    "Seafowl.Wasm.C138_exact"
   ],
   "note": "Proved for all types but decimals. Decimals get the declared precision as a label only: for every DECIMAL(p, s) there are accepted results with more than p digits."
  },
  {
   "property": "C139",
   "status": "partial",
   "theorems": [
    "Seafowl.Catalog.C139_partial",
    "Seafowl.Catalog.C139_step_partial",
    "Seafowl.Catalog.C139_histories",
    "Seafowl.Catalog.C139_violated_time",
    "Seafowl.Catalog.C139_violated_clock",
    "Seafowl.Catalog.sqlite_exec"
   ],
   "note": "Proved for all operations if the clock does not go back: the same errors, listing, functions, tables and versions, and the times agree up to fractions (for any identifiers larger than those in use). Violated: for every version created in the second half of a second PostgreSQL shows a creation time one second later than SQLite (CAST rounds); if the clock goes back within a second VACUUM keeps different versions."
  },
  {
   "property": "C140",
   "status": "partial",
   "theorems": [
    "Seafowl.Ddl.C140_renamed_partial",
    "Seafowl.Ddl.C140_failed",
    "Seafowl.Ddl.C140_exact",
    "Seafowl.Ddl.C140_back",
    "Seafowl.Ddl.C140_other_refused",
    "Seafowl.Ddl.C140_violated_if_exists_always",
    "Seafowl.Ddl.C140_violated_schema_always",
    "Seafowl.Ddl.C140_violated_hidden_always",
    "Seafowl.Ddl.C140_violated",
    "Seafowl.Ddl.C140_violated_hidden"
   ],
   "note": "Proved between ordinary schemas: exact effect, exactly when it succeeds, undoing, failures. Violated: IF EXISTS is ignored; a new name without a schema is taken in the default schema of the session, so that s.t renamed to u leaves s; a table can be moved into a schema called system or information_schema, after which no name leads to it and it cannot be renamed back."
  },
  {
   "property": "C141",
   "status": "partial",
   "theorems": [
    "Seafowl.Startup.C141_stops",
    "Seafowl.Startup.C141_exact",
    "Seafowl.Startup.C141_answered_partial",
    "Seafowl.Startup.C141_short_partial",
    "Seafowl.Startup.C141_default",
    "Seafowl.Startup.C141_violated_gc_always",
    "Seafowl.Startup.C141_violated_gc_configured",
    "Seafowl.Startup.C141_violated_long_always",
    "Seafowl.Startup.C141_violated_postgres_always"
   ],
   "note": "Proved: the limit of five seconds, exactly when the exit is clean, and that requests of the HTTP and Flight frontends are waited for. Violated: the garbage collection task does not look at the request to stop, so that with a gc_interval every stop takes five seconds and ends in a panic; requests over PostgreSQL are not waited for and are cut off although the exit is clean."
  },
  {
   "property": "C142",
   "status": "partial",
   "theorems": [
    "Seafowl.Names.C142_own_values_partial",
    "Seafowl.Names.C142_flush_partial",
    "Seafowl.Names.C142_replicates_partial",
    "Seafowl.Names.C142_violated",
    "Seafowl.Names.C142_violated_merged",
    "Seafowl.Names.C142_violated_keys_always",
    "Seafowl.Names.FlushDemo.C142_violated_keys",
    "Seafowl.Names.C142_files_partial",
    "Seafowl.Names.C142_violated_pruning_always",
    "Seafowl.Names.PruneDemo.C142_violated_pruning",
    "Seafowl.Names.C142_replicates_files_partial",
    "Seafowl.Names.C142_history_partial",
    "Seafowl.Names.C142_history_exists",
    "Seafowl.Names.C142_history_converge_partial"
   ],
   "note": "Proved if the field names read as SQL stand for themselves: the flush that reads every cell through the names in the plan, with all merging, joining and normalising, writes exactly the rows of the flush on the values as sent (C142_flush_partial), and so the replayed table in the situation of C16 (C142_replicates_partial). Violated: a field called like another one but for the case is read as that one, so the column gets the values of the other without an error (for every such change set and row); the same for columns once items are merged. For keys: with the key columns Id and id an update of the row (1, 5) overwrites the row (2, 5) too (C142_violated_keys_always). The choice of the files to rewrite is covered too (C142_files_partial, with C16 and C17 in C142_replicates_files_partial); for a key column that is not in lower case it reads the statistics of the column in lower case, so a file whose rows are to be changed may be left alone (C142_violated_pruning_always): the update of the row (1, 5) then leaves it and adds a row (5, 5)."
  },
  {
   "property": "C143",
   "status": "partial",
   "theorems": [
    "Seafowl.Database.C143_partial",
    "Seafowl.Database.C143_vacuum_partial",
    "Seafowl.Database.C143_drop",
    "Seafowl.Database.C143_stray_forever",
    "Seafowl.Database.C143_violated_create_always",
    "Seafowl.Database.C143_violated_create_as_always",
    "Seafowl.Database.C143_violated_create_failed_always",
    "Seafowl.Database.C143_violated_drop_always",
    "Seafowl.Database.C143_violated_insert_always",
    "Seafowl.Database.C143_violated_modify_always",
    "Seafowl.Gc.C143_gc"
   ],
   "note": "Proved for all histories in which nothing fails and no CREATE TABLE is refused; DROP TABLE frees the directory after any history. Violated, always: a CREATE TABLE of a name that is taken leaves a Delta log in a directory of its own that no later statement ever removes; so does a DROP TABLE in which a deletion fails (it is reported as a success); files uploaded by a statement that fails stay until the table is dropped, VACUUM does not see them. Statements one after the other, one schema; CONVERT (which could adopt a directory whose UUID one knows) is not among them."
  }
 ]
}