# Design: a Lean 4 model of amelielabs/amelie

## Method
Every area of the code has a directory `lean/Verif/<Area>/` with
* model files (`Model.lean`, `Tree.lean`, `Timestamp.lean`, ...): definitions, one per C function, each citing file and lines;
* `Spec.lean` (or the head of the Props file): the small independent specification a property is stated against;
* `*Proofs.lean`: lemmas;
* `Props*.lean`: the property theorems (named `C<nn>_...`), with examples beside them that meet their hypotheses.

When the code violates a property, the refutation is proved with a concrete execution of the model (`C<nn>_..._false`), and what does
hold is kept as `C<nn>_..._partial`, whose docstring or manifest note says what is missing.

`notes/COVERAGE.md` (generated by `tools/coverage.py`) lists, for every file of /repo, the lines each definition models.
`notes/AXIOMS.txt` lists the axioms of every property theorem. `seeded/LOG.jsonl` is the log of wrong programs tried.

## Trusted base
* Lean 4.33.0's kernel, and the axioms `propext`, `Classical.choice`, `Quot.sound` only. No axiom is added; no compiled evaluation is
  trusted (`decide +kernel` is evaluated by the kernel). `notes/AXIOMS.txt` gives the axioms per theorem.
* The reading of the C source: nothing of /repo is compiled or run. A definition of the model is right if it computes what the cited
  lines compute; the comment at the definition says where it simplifies.
* C semantics: integers are `Nat`/`Int` with explicit wrap-around (`toSigned`, `toUnsigned`, `wrap32`, `wrap64`) where an overflow is
  reachable; signed overflow, reads outside of an object and use of freed memory are the outcome `Fail.ub`; `error()`/exceptions are the
  outcome `Fail.err`. Pointers are positions, ids, or the rest of a byte list. Compilers, memory model of threads, allocation failure
  (except where modelled: heap) are not modelled.
* libc and kernel contracts: memcmp, strtod/printf of reals are not modelled (reals are their bit patterns; printing of reals is left out); gmtime_r and mktime are
  modelled by the proleptic Gregorian calendar with TZ=UTC (runtime.c:75); tolower/isalpha are those of the C locale; write, fsync,
  rename, unlink and crashes follow the contract at the head of `Recover/FilesModel.lean` and `Wal/Model.lean`.
* Concurrency: threads that exchange messages (frontends, executor, partitions, WAL worker) are interleavings of atomic steps; a step
  is the code between two points where the thread waits. The steps are listed at the head of each area's model.

## What is modelled
| area | code | what |
|------|------|------|
| Common | - | bytes, little endian numbers, results |
| Json | runtime/json, runtime/lib/str.h (escapes), vm/value/update.c, json_array.h, vm/func/fn_json.c | binary JSON, parser, export, comparison, functions |
| Codec | runtime/lib base64.c, uuid.h, overflow.h; like matching | encodings |
| Store | runtime/lib/id_mgr.h, db/storage/id.h, db/part/part_mapping.h, db/object/mapping.h | ids, file names, partition ranges |
| Row | db/row, vm/value/row.c, hash.h | stored rows, keys, comparison, hash |
| Index | db/index, runtime/lib rbtree | tree index, hash index, merges over partitions |
| Object | db/object, db/storage, db/tier | object files: regions, search; the bytes of files, writing, reading and opening them |
| Part | db/part, db/transaction | statements on a partition, undo log, commit/abort tracking |
| Heap | db/heap, refresh/snapshot | allocator, scans, snapshots, checkpoint and restart of a heap |
| Lock | runtime/runtime locks, system/session | lock manager, catalog and DDL locks |
| Wal | db/wal | write-ahead log: write, rotate, read, truncate, gc |
| Recover | db/db/recover.c, db/service, db/catalog | restart: catalog file, checkpoints, replay, crash points of the file set |
| Exec | vm/executor, system/backend | the order of distributed transactions |
| Query | compiler, vm/set, vm/value, vm/vm | ORDER BY/LIMIT/GROUP BY/aggregates/conditions/index paths |
| Seq | db/row/sequence.h, vm/value/row.h, db/part/part_op.c | identity columns |
| Func | vm/func, runtime/lib date.c interval.c timestamp.c timezone.c, vm/value/like.c | SQL functions |
| Repl | sync/repl/streamer.c, primary.c, system/session/session_replay.c | replication |
| Net | server/http/http.c, server/http/uri.c, server/auth, server/user/user_cache.h, decode.h (decode_obj: strings and integers), readahead.h, runtime/lib/hash_table.h, function_mgr.c, timezone_mgr.c | HTTP messages, addresses, registries, authentication (HMAC is a parameter) |
| Compile | compiler/compiler/emit_expr.c, scan.c, emit_select.c (on_match, cmd_scan), cast.c, rmap.h, compiler_op.h, vm/vm/vm.c (expression instructions), vm/value (value.h, null.h, compare.h, stack.h), vm/set/in.c | code of scalar expressions and of scans (joins, WHERE, LIMIT, OFFSET); float, time, vector and JSON operations are parameters |
| Catalog | db/catalog (catalog.c, cascade.c, database_mgr.c, table_mgr.c, table_mgr_alter.c, table_index.c, table_tier.c, udf_mgr.c), db/storage/storage_mgr.c, db/transaction/relation_mgr.c, commit.c, system/session/session.c (session_execute_utility), db/db/recover.c (recover_next), db/catalog/catalog_file.c and the config writers and readers, runtime/json/decode.h | DDL statements on the catalog with their undo log; opening files, compiling functions and reference counts of storages are parameters |
| Output | vm/output (output_json.c, output.h), vm/value/json.h (value_export) | the body of a response |
| Insert | compiler/parser (parse_insert.c, parse_row.c, parse_value.c), vm/vm/command.c (csend_shard), vm/value/row.h (row_get_identity) | INSERT … VALUES from the text to the requests of the partitions |
| Dml | compiler/parser/parse_update.c, compiler/compiler (emit_update.c, emit_delete.c, emit_upsert.c), vm/vm/command.c (cupdate, cdelete, cupsert), vm/value/row.c, db/part/part_op.c | UPDATE, DELETE, INSERT … ON CONFLICT on a partition, on rows as lists of values |
| Import | compiler/parser/parse_endpoint.c | CSV, JSONL and JSON requests to a table or function, from bytes to rows |
| Bus | runtime/base (ring.h, bus.h, ipc.h, notify.c, main loop of task.c) | messages from any number of threads to a task, and its wake-up |
| Timer | runtime/base (timer_mgr.c, timer_mgr.h, wait.h, main loop of task.c), vm/func/fn_misc.c (sleep) | timers of a task, the cached time, sleep() |
| Backup | db/db/snapshot_mgr.c, db/catalog/catalog_snapshot.c, db/wal/wal.c (wal_snapshot, wal_gc), sync/backup (backup.c, restore.c) | backups and restores beside a working server |
| Cli | runtime/lib/separator.h, main/main/main_cli.c (main_console) | the division of the client's input into statements |
| Crc | runtime/lib/crc.c (tables, crc32, crc32_sse) | checksums on different machines |
| Config | runtime/runtime/opt.h, opts.c, config.c, state.c, lib/arg.h; server/user/user_config.h, user_cache.h, user_mgr.c; sync/repl/repl.c; system/system/repo.c | options, state file, users |
| Coro | runtime/base (coroutine_mgr.h, coroutine.h, event.h, wait.h, runtime.h, task.c, mailbox.h) | coroutines of a thread, events, kills and joins |
| ServiceLock | db/service/service_lock_mgr.h | locks of background jobs by partition |
| Buf | runtime/base/buf.h, buf_cache.h, buf_mgr.h, runtime.h (buf_free) | growing buffers, their references and caches |
| Parse | compiler/parser/parse_expr.c, ast_stack.h, lex.c, keyword.c | expressions, tokens |

## What is not modelled
Most of the SQL parser (the model has the lexer and expressions, and starts from parsed statements elsewhere), the TLS and socket layer, machine contexts, memory
arenas, thread start/stop, metrics, configuration files, backup streaming, the benchmark and test programs, regular expressions and
trigonometric functions, the printing and reading of reals, vectors (float arithmetic). refresh.c, flush.c and service_recover.c use the
types ID_PART and ID_SERVICE that db/storage/id.h does not define at this commit; they are modelled as they are written.


## The properties: model, proof, state

### C01 JSON values survive storage - proved
*Plan.* Byte-list encoder/decoder, json_skip with its level counter, the find functions; structural induction on documents with a continuation.
*Theorems* (Json/Props.lean): `C01_read_back`, `C01_roundtrip`, `C01_injective`.

### C02 Skipping a stored JSON value lands exactly on the next one - proved
*Plan.* Byte-list encoder/decoder, json_skip with its level counter, the find functions; structural induction on documents with a continuation.
*Theorems* (Json/Props.lean): `C02_skip`, `C02_sizeof`, `C02_skip_eq_read`.

### C03 JSON comparison is a total order that agrees with equality - proved
*Plan.* json_compare walking two encodings; it is simulated by a comparison of trees, then the order laws follow by induction.
*Theorems* (Json/Props.lean): `C03_total_antisymm`, `C03_trans`, `C03_eq`, `C03_is_lexicographic`, `C03_nan_not_transitive`.
*State.* NaN reals are excluded (JSON text cannot express them); C03_nan_not_transitive shows why.

### C04 JSON path access finds the field that is there - proved
*Plan.* Byte-list encoder/decoder, json_skip with its level counter, the find functions; structural induction on documents with a continuation.
*Theorems* (Json/Props.lean): `C04_obj_find`, `C04_obj_find_read`, `C04_array_find`, `C04_array_last`, `C04_array_size`, `C04_obj_size`, `C04_path`.

### C05 Escaped text reads back as the original string - proved
*Plan.* Byte-level escape/unescape and the parser of strings; list induction.
*Theorems* (Json/PropsText.lean): `C05_unescape_escape`, `C05_quoted_read_back`, `C05_no_bare_quote`, `C05_unknown_escape_reads_unwritten`, `C05_escapes_read`, `C05_raw_newline_refused`.
*State.* strings are valid UTF-8 for the parser (it rejects others); escape/unescape alone for all bytes

### C06 Base64 and base64url round-trip, and reject foreign characters safely - partial
*Plan.* 3-byte groups, 4-character groups, the decode table of 128 entries (reads past it are ub); bit arithmetic and induction by groups.
*Theorems* (Codec/Props.lean): `C06_base64_roundtrip`, `C06_base64url_roundtrip`, `C06_text_rfc4648`, `C06_base64_rejects_ascii`, `C06_base64url_rejects_ascii`, `C06_high_byte_false`.
*State.* round trips and rejection of 7-bit foreign characters are proved; bytes >= 128 read past the table (C06_high_byte_false)

### C07 UUID text round-trip - partial
*Plan.* Nibble printing and parsing; per-nibble lemma on the fixed layout.
*Theorems* (Codec/Props.lean): `C07_uuid_roundtrip`, `C07_uuid_accepts_iff`, `C07_length_false`.
*State.* round trip and the exact acceptance condition are proved; the "exactly 36 characters" part is violated (C07_length_false)

### C08 A stored row returns the column values it was built from - proved
*Plan.* Byte-level row with header, size and offset table widths; induction on columns.
*Theorems* (Row/Props.lean): `C08_create`, `C08_not_null`, `C08_column`, `C08_read_back`, `C08_missing_column`, `C08_size`.
*State.* Byte-level row model: creation succeeds for acceptable values whatever the memory held, every column reads back its bytes/value, NULL iff NULL, recorded size = bytes. Rows below 2^31 bytes and fewer than 65536 columns (the C types).

### C09 Key comparison is a lexicographic total order - proved
*Plan.* Lexicographic fold of column comparisons on stored rows; list induction.
*Theorems* (Row/Props.lean): `C09_lexicographic`, `C09_total_order`, `C09_equal_iff`.
*State.* Key comparison of stored rows equals the lexicographic order of key values; total order laws; equal iff all key columns equal. Key types int32, int64, timestamp, text, uuid (the ones the parser admits). DESC is not consulted by compare().

### C10 An ordered index behaves as a sorted map - partial
*Plan.* Pages with binary search and split, red-black tree of pages; invariant over all histories, refinement to a sorted association list.
*Theorems* (Index/Props.lean, Index/PropsText.lean): `C10_sorted_map_partial`, `C10_table_index_partial`, `C10_text_false`.
*State.* proved for every history with comparisons returning -1/0/1 (integer, timestamp and uuid keys, composite); for text keys the claim is false of the code: tree_search_page_for_write tests page_rel == 1 but text comparison returns memcmp's value (C10_text_false)

### C11 An ordered index range scan returns every row at or above the start key - partial
*Plan.* Pages with binary search and split, red-black tree of pages; invariant over all histories, refinement to a sorted association list.
*Theorems* (Index/Props.lean): `C11_range_partial`, `C11_range_false`.
*State.* a scan from a key returns exactly the rows at or above it or nothing; exact when a row has the key; false in general: tree_iterator_open stops when the key is past the end of its page (C11_range_false)

### C12 A hash index behaves as a map - partial
*Plan.* Slots with empty/deleted/row, two stores, incremental rehash; histories; witnesses of violations, and the fragment in which it is a map.
*Theorems* (Index/PropsHash.lean): `C12_map_partial`, `C12_table_index_partial`, `C12_replace_after_delete_false`, `C12_resize_false`, `C12_upsert_cursor_false`, `C12_resize_partial`, `C12_load_partial`, `C12_overflow_false`.
*State.* map semantics proved for histories without resize where replace_by hits an existing key only before deletes; false in general: three counterexample theorems with the real hash (duplicate after delete, miss during resize, overflow with tombstones)

### C13 A hash index scan over partitions returns every row once - partial
*Plan.* Merges of per-partition iterators; witnesses, and the exact result for the other cases by induction on steps.
*Theorems* (Index/PropsHash.lean): `C13_scan_one_partial`, `C13_merge_false`, `C13_merge_partial`.
*State.* scan of one partition is exact in any state; the merge over partitions is false (exact characterisation C13_merge_false): ends after the first non-empty partition or reads out of bounds

### C14 An ordered index scan over partitions is a sorted merge - partial
*Plan.* Merges of per-partition iterators; witnesses, and the exact result for the other cases by induction on steps.
*Theorems* (Index/PropsMerge.lean): `C14_merge_partial`, `C14_text_false`.
*State.* proved for keys without text columns; C14_text_false: with text keys the merged scan is out of order

### C15 Reading through layered storage returns the newest version of each key - proved
*Plan.* Merge iterator of layers, binary search over regions; induction over sources and over the search interval.
*Theorems* (Index/PropsMerge.lean): `C15_newest`.
*State.* any number of layers, any comparison that is a total preorder

### C16 Searching a stored region or object finds the first row at or above a key - proved
*Plan.* Merge iterator of layers, binary search over regions; induction over sources and over the search interval.
*Theorems* (Object/Props.lean): `C16_region`, `C16_object`, `C16_mismatch`.
*State.* Any total order on keys (text included), any number and size of regions, key present, absent or missing. Byte layout of regions is not part of this claim.

### C17 Memory handed out for live rows never overlaps - partial
*Plan.* Pages, buckets, free lists, snapshot mode; invariant over operation histories; restart from the written pages.
*Theorems* (Heap/Props.lean): `C17_partial`, `C17_size`, `C17_large_false`, `C17_small_false`.
*State.* Proved for requests up to 516071 bytes and 2^19 pages; larger requests are accepted by the code and leave the page (C17_large_false, C17_small_false).

### C18 Rolling back a transaction restores exactly the rows before it - partial
*Plan.* Statements over several indexes with the undo log; invariant on (indexes, log), reverse induction on the log.
*Theorems* (Part/Props.lean): `C18_rollback_partial`, `C18_secondary_cursor_false`.
*State.* Rollback restores every index exactly, for all statement sequences, failure points and any number of indexes, when UPDATE/DELETE cursors stand on the primary index and UPDATE keeps the primary key; C18_secondary_cursor_false proves that it fails when the planner's cursor stands on a secondary index. Indexes are modelled as keyed sets (C10, C12 connect them with the implementations).

### C19 A unique key never has two rows, and inserting a duplicate fails without effect - partial
*Plan.* Statements over several indexes with the undo log; invariant on (indexes, log), reverse induction on the log.
*Theorems* (Part/Props.lean): `C19_statement_partial`, `C19_duplicate_fails`, `C19_history_partial`, `C19_secondary_cursor_false`.
*State.* Every statement ends and changes the rows as on a plain set of rows with unique keys; after any history all indexes hold the same rows without duplicate keys (cursors on the primary index). INSERT replace=true (replay) is not covered by the history theorem. False for cursors on a secondary index (C19_secondary_cursor_false).

### C20 A committed transaction stays and an aborted one disappears, on every partition - partial
*Plan.* Prepared transactions and watermarks of a partition; histories of decisions; cursors between them.
*Theorems* (Part/Props.lean): `C20_outcomes_partial`, `C20_pending_partial`, `C20_committed_lost_false`, `C20_built_on_aborted_false`.
*State.* Proved for histories where every notification brings only commits or only aborts covering everything that ran; two witnesses prove that the general claim is false (commit and abort noticed at once; transaction built on one aborted later).

### C21 Every submitted transaction is eventually decided - partial
*Plan.* Executor groups, queue and attach; inductive invariants over all histories of send/ready/commit.
*Theorems* (Exec/Props.lean): `C21_sound`, `C21_chain_partial`, `C21_common_partial`, `C21_gc_false`, `C21_fork_false`, `C21_fork_batch_false`.
*State.* Safe half (C21_sound) for all histories; completeness when a transaction overlaps with the last running one (C21_chain_partial, C21_common_partial). In general false: C21_gc_false (a group that still has transactions is forgotten, the transaction is never decided whatever happens later), C21_fork_false (two transactions with one position).

### C22 Conflicting transactions commit in submission order - partial
*Plan.* Executor groups, queue and attach; inductive invariants over all histories of send/ready/commit.
*Theorems* (Exec/Props.lean): `C22_chain_partial`, `C22_chain_log_partial`, `C22_common_partial`, `C22_single_partial`, `C22_fork_false`, `C22_groups_false`.
*State.* Proved for chained histories, for transactions with a common partition and for transactions on one partition each. In general false: C22_fork_false, C22_groups_false.

### C23 The log is read back as written - partial
*Plan.* Files as byte lists, append with failures at any byte, rotation, cursor, truncation; induction over appended records, cut-point lemma.
*Theorems* (Wal/Props.lean): `C23_read_partial`, `C23_recover_partial`, `C23_4gib_false`, `C23_rotation_race_false`.
*State.* For all sequences of append requests (with any failures) and atomic rotations, reading from any position and recovery return exactly the transactions expected, for sizes within 32 bit arithmetic. False as stated: at 4 GiB the end check wraps (C23_4gib_false); a write racing with the worker's rotation is missed by a cursor (C23_rotation_race_false).

### C24 A failed log append leaves the log as it was - partial
*Plan.* Files as byte lists, append with failures at any byte, rotation, cursor, truncation; induction over appended records, cut-point lemma.
*Theorems* (Wal/Props.lean): `C24_write_partial`, `C24_history_partial`, `C24_false`, `C24_false_always`.
*State.* For a failure of the write itself (at any byte) the log is unchanged and the failure is reported; no transaction of it is ever recovered. False for a failing sync or creation of the next file after the write (C24_false, C24_false_always).

### C25 Crash recovery keeps every durable record and drops only a torn tail - partial
*Plan.* Files as byte lists, append with failures at any byte, rotation, cursor, truncation; induction over appended records, cut-point lemma.
*Theorems* (Wal/Props.lean): `C25_recover_partial`, `C25_complete_spec`, `C25_append_partial`, `C25_append_false`.
*State.* Recovery of a log cut at any byte returns exactly the complete transactions. Appending after recovery: proved when the log is truncated with the wal_truncate option; false otherwise (C25_append_false: a committed transaction is lost silently).

### C26 Replaying the log rebuilds the committed state and is idempotent - partial
*Plan.* Catalog, heap files and log replay with lsn skipping; simulation between the lost and the recovered state over histories.
*Theorems* (Recover/Props.lean): `C26_recovery_partial`, `C26_running_partial`, `C26_idempotent_partial`.
*State.* Proved for histories of DML, CREATE/DROP TABLE, checkpoints, catalog writes and cleaning outside a refresh; excludes TRUNCATE and UNLOGGED toggles, for which C26's conclusion fails (C51_checkpoint_false, C55_unlogged_false).

### C27 The log describes the transaction's row changes in order - proved
*Plan.* Merging of row changes into log records and decoding; the flattened log is the history.
*Theorems* (Wal/Props.lean): `C27_changes`, `C27_rows_valid`.
*State.* All lists of row changes and DDL operations, any number of partitions; record size below 4 GiB.

### C28 Conflicting relation locks are never held together - proved
*Plan.* State machine over lock/unlock events; inductive invariant; order argument for cycles.
*Theorems* (Lock/Props.lean): `C28_no_conflict`, `C28_exclusive_alone`, `C28_counters`.
*State.* any run of lock, create lock and unlock operations; a coroutine that waits does nothing, and named locks are not dropped while they wait (ddl lock).

### C29 Lock waiters are never forgotten - proved
*Plan.* State machine over lock/unlock events; inductive invariant; order argument for cycles.
*Theorems* (Lock/Props.lean): `C29_first_waiter`, `C29_arrival_order`, `C29_granted_when_free`, `C29_no_overtaking`, `C29_wait_list`.
*State.* the first waiter is blocked by a granted conflicting lock, grants follow the order of arrival, nothing overtakes.

### C30 Ordered acquisition cannot deadlock - proved
*Plan.* State machine over lock/unlock events; inductive invariant; order argument for cycles.
*Theorems* (Lock/Props.lean): `C30_no_cycle`, `C30_someone_runs`, `C30_statement_ordered`, `C30_sessions_finish`.
*State.* no cycle for coroutines that take locks in the global order; access lists of statements are in that order; any number of sessions finish in exactly two steps per lock.

### C31 Every key belongs to exactly one partition - proved
*Plan.* Ranges of part_mgr_create and the mapping array; arithmetic.
*Theorems* (Store/Props.lean): `C31_ranges_partition`, `C31_route`, `C31_rejects`, `C31_remove`.

### C32 The set of log/storage files is kept sorted and searchable - proved
*Plan.* Sorted list of ids; list induction.
*Theorems* (Store/Props.lean): `C32_sorted`, `C32_contents`, `C32_find`, `C32_next`, `C32_gc`.
*State.* ids added once (callers never add an id twice)

### C33 LIKE matches exactly the SQL patterns - partial
*Plan.* The LIKE matcher (first version of the model); superseded in scope by C70.
*Theorems* (Codec/Props.lean): `C33_like_sound`, `C33_like_exact_partial`, `C33_like_no_backtrack_false`, `C33_like_any_one_false`.
*State.* violated in general: no backtracking (C33_like_no_backtrack_false), %_ (C33_like_any_one_false); exact for the patterns of C33_like_exact_partial, sound when % is not followed by _

### C34 Integer arithmetic is exact or an error - partial
*Plan.* Overflow-checked arithmetic on 64 bits.
*Theorems* (Codec/Props.lean): `C34_add_sub_mul`, `C34_div_mod_partial`, `C34_min_false`, `C34_neg_abs_partial`.
*State.* add/sub/mul exact; div, mod, neg, abs violated for -2^63 (C34_min_false) and exact otherwise

### C35 Storage file names identify files uniquely - partial
*Plan.* Names of files and their parsing; decimal round trip.
*Theorems* (Store/Props.lean): `C35_name_roundtrip_partial`, `C35_unversioned_state_false`, `C35_unique`, `C35_overflow_refused`.
*State.* violated for unversioned incomplete/snapshot names (C35_unversioned_state_false)

### C36 A crash during background compaction never loses data - partial
*Plan.* File set with system calls as steps, a crash between any two; invariant over all runs.
*Theorems* (Recover/Props.lean): `C36_partial`, `C36_refresh_false`, `C36_flush_false`.
*State.* Proved unless a refresh stops between the removal of the old file and the renaming of the new one (C36_refresh_false, C36_flush_false show the loss in that window).

### C37 Log garbage collection keeps what replicas still need - partial
*Plan.* wal_slots and wal_gc; which files survive.
*Theorems* (Wal/Props.lean): `C37_keep_partial`, `C37_false`, `C37_recovery_false`.
*State.* Proved when no slot is ahead of the position recovery needs. False as stated: wal_slots takes the largest slot (C37_false, C37_recovery_false).

### C38 JSON real numbers keep their value - partial
*Plan.* Numbers as JSON and as text: single precision storage, decimal digits, checks of the parsers.
*Theorems* (Json/Props.lean): `C38_real_roundtrip_false`, `C38_real_roundtrip_partial`.
*State.* violated by the code (single precision storage): C38_real_roundtrip_false; what holds is C38_real_roundtrip_partial

### C39 JSON text round-trip - partial
*Plan.* Numbers as JSON and as text: single precision storage, decimal digits, checks of the parsers.
*Theorems* (Json/PropsParse.lean, Json/PropsText.lean): `C39_parsed_document`, `C39_any_text`, `C39_skip_agrees`, `C39_text_roundtrip_partial`, `C39_int_min_false`.
*State.* violated for the smallest integer (C39_int_min_false); text round trip excludes reals (printf %g is not modelled); C39_parsed_document and C39_any_text hold for any text with known escapes

### C40 Casting text to an integer is exact or an error - partial
*Plan.* Numbers as JSON and as text: single precision storage, decimal digits, checks of the parsers.
*Theorems* (Codec/Props.lean): `C40_text_to_int`, `C40_negative_and_empty_false`.
*State.* digit texts exact; negative numbers and the empty text violate the round trip (C40_negative_and_empty_false)

### C41 A row and its key are always routed to the same partition - proved
*Plan.* Values to rows: hash equality of three routes, narrowing, key prefixes, updates of columns.
*Theorems* (Row/Props.lean): `C41_routing`.
*State.* Hash from values = hash of the stored row = hash of the key values (concrete murmur3).

### C42 An integer column holds the number it was given or rejects it - partial
*Plan.* Values to rows: hash equality of three routes, narrowing, key prefixes, updates of columns.
*Theorems* (Row/Props.lean): `C42_in_range_partial`, `C42_no_silent_truncation_false`.
*State.* In-range integers kept; false in general: 300 in TINYINT reads back as 44 (C42_no_silent_truncation_false).

### C43 A search by key or key prefix starts at or before every matching row - partial
*Plan.* Values to rows: hash equality of three routes, narrowing, key prefixes, updates of columns.
*Theorems* (Row/Props.lean): `C43_full_key`, `C43_prefix_partial`, `C43_prefix_false`.
*State.* Full keys proved; prefixes proved unless a timestamp key column is before 1970, where the claim is false (C43_prefix_false).

### C44 An UPDATE changes exactly the columns it sets - partial
*Plan.* Values to rows: hash equality of three routes, narrowing, key prefixes, updates of columns.
*Theorems* (Row/Props.lean): `C44_update_partial`, `C44_identity_false`.
*State.* Proved for non-identity columns; updating an identity column that is no key follows a NULL pointer (C44_identity_false).

### C45 A statement that changes rows while scanning an ordered index visits each row once - proved
*Plan.* Scans in both kinds of index while rows change between steps; invariant of iterator and index.
*Theorems* (Index/Props.lean): `C45_scan_and_change`.
*State.* all histories, normalised comparisons

### C46 An ordered index stays balanced - proved
*Plan.* Scans in both kinds of index while rows change between steps; invariant of iterator and index.
*Theorems* (Index/Props.lean): `C46_balanced`.
*State.* all histories, normalised comparisons

### C47 Row memory is released exactly once - partial
*Plan.* Prepared transactions and watermarks of a partition; histories of decisions; cursors between them.
*Theorems* (Part/Props.lean): `C47_memory_partial`, `C47_secondary_cursor_false`.
*State.* Proved for all histories of transactions decided one after another with cursors on the primary index; C47_secondary_cursor_false and C20_built_on_aborted_false are witnesses of double release / release of a live row.

### C48 A restart brings the table back - partial
*Plan.* Pages, buckets, free lists, snapshot mode; invariant over operation histories; restart from the written pages.
*Theorems* (Heap/Props.lean): `C48_partial`.
*State.* Proved for rows up to 516071 bytes and up to 2^19 pages.

### C49 A checkpoint that runs while statements change the table is consistent and invisible - partial
*Plan.* Pages, buckets, free lists, snapshot mode; invariant over operation histories; restart from the written pages.
*Theorems* (Heap/Props.lean): `C49_partial`.
*State.* Proved for rows up to 516071 bytes and up to 2^19 pages; the race on the file header's crc (counters updated during heap_create) is not modelled.

### C50 An index built while statements run holds exactly the rows of the table - partial
*Plan.* Index build over a partition concurrent with DML.
*Theorems* (Heap/Props.lean): `C50_partial`, `C50_delete_false`, `C50_update_false`.
*State.* Holds if no row of the table is deleted or updated during the build. Fails otherwise: C50_delete_false (released row stays in the new index), C50_update_false (spurious duplicate error).

### C51 TRUNCATE is permanent - partial
*Plan.* Sequences of DDL, locks and restarts; state machines with witnesses.
*Theorems* (Heap/Props.lean, Recover/Props.lean): `C51_partial`, `C51_restart_false`, `C51_checkpoint_false`, `C51_insert_lost_false`.
*State.* Holds until a restart; fails after checkpoint and restart (C51_restart_false, C51_checkpoint_false, C51_insert_lost_false).

### C52 A failed CREATE INDEX leaves the table as it was - partial
*Plan.* Pages, buckets, free lists, snapshot mode; invariant over operation histories; restart from the written pages.
*Theorems* (Heap/Props.lean): `C52_partial`, `C52_false`.
*State.* The failed statement itself changes nothing visible (C52_partial); afterwards rows are lost and deletes undone by the next checkpoint and restart (C52_false).

### C53 A lock covers every use of the relation in the statement - partial
*Plan.* Sequences of DDL, locks and restarts; state machines with witnesses.
*Theorems* (Lock/Props.lean): `C53_false`, `C53_both_granted`, `C53_covers_partial`.
*State.* C53_false, C53_both_granted: a relation both written and read in a subquery gets exclusive_ro, which two such statements hold together. Proved for the other combinations.

### C54 DDL commands never block each other forever - partial
*Plan.* Sequences of DDL, locks and restarts; state machines with witnesses.
*Theorems* (Lock/Props.lean): `C54_false`, `C54_forever`, `C54_ddl_partial`.
*State.* C54_false, C54_forever: CREATE INDEX takes the ddl lock before the catalog lock, other DDL the other way round. Proved for ordered acquisition.

### C55 The database can be restarted after any history - partial
*Plan.* Whole-system histories of DDL, DML, checkpoint, cleaning, crash and restart over the Recover model.
*Theorems* (Recover/Props.lean): `C55_partial`, `C55_drop_false`, `C55_unlogged_false`.
*State.* Proved for regular histories; C55_drop_false and C55_unlogged_false are reachable histories after which recovery fails.

### C56 Removing old log files never loses data - partial
*Plan.* Whole-system histories of DDL, DML, checkpoint, cleaning, crash and restart over the Recover model.
*Theorems* (Recover/Props.lean): `C56_partial`, `C56_refresh_false`.
*State.* Proved when no checkpoint is in progress; C56_refresh_false shows the loss when cleaning runs during a refresh.

### C57 After a power failure the contents are those of a prefix of the transactions - partial
*Plan.* Whole-system histories of DDL, DML, checkpoint, cleaning, crash and restart over the Recover model.
*Theorems* (Recover/Props.lean): `C57_partial`, `C57_torn_false`.
*State.* Proved when no file is newer than the surviving log; C57_torn_false shows a half recovered transaction otherwise.

### C58 The catalog file survives a stop at any point - partial
*Plan.* Whole-system histories of DDL, DML, checkpoint, cleaning, crash and restart over the Recover model.
*Theorems* (Recover/Props.lean): `C58_catalog`, `C58_bootstrap_false`.
*State.* Proved once a catalog file exists; the very first write is not protected (C58_bootstrap_false).

### C59 ORDER BY with LIMIT and OFFSET over partitions - partial
*Plan.* Sets, sort, union of partition results, limit/offset push down; list permutation and sortedness.
*Theorems* (Query/Props.lean): `C59_order_partial`, `C59_main_partial`, `C59_text_false`.
*State.* Proved for any number of partitions, keys of all modelled types but text (C59_order_partial), and for one set also text (C59_main_partial). False for text keys over partitions (C59_text_false): the comparison of text returns a byte difference, and the merge tests for exactly 1. JSON and vector keys are not modelled.

### C60 SELECT DISTINCT returns one row per key - partial
*Plan.* Sets, sort, union of partition results, limit/offset push down; list permutation and sortedness.
*Theorems* (Query/Props.lean): `C60_distinct_partial`, `C60_text_false`.
*State.* Proved for keys of all modelled types but text; false for text keys (C60_text_false).

### C61 LIMIT and OFFSET without ORDER BY - proved
*Plan.* Sets, sort, union of partition results, limit/offset push down; list permutation and sortedness.
*Theorems* (Query/Props.lean): `C61_limit`, `C61_scan`.
*State.* Union over partitions with limit+offset pushed down, and the counters of the scan in one set.

### C62 GROUP BY returns one row per group - partial
*Plan.* Group-by hash table and aggregates over partitions; fold over rows against counting/summing lists.
*Theorems* (Query/PropsAgg.lean): `C62_groups_partial`, `C62_zero_false`.
*State.* One row per key for keys whose canonical values coincide with equality. False for groups 0.0 and -0.0, which compare equal but hash differently (C62_zero_false). JSON and vector keys and integer overflow of table sizes are not modelled.

### C63 Aggregates are computed over all rows of the group - partial
*Plan.* Group-by hash table and aggregates over partitions; fold over rows against counting/summing lists.
*Theorems* (Query/PropsAgg.lean): `C63_values_partial`, `C63_avg_false`.
*State.* COUNT, MIN, MAX, SUM and AVG over integers without overflow, COUNT(DISTINCT). AVG of negative integers is false (C63_avg_false). SUM and AVG over doubles and lambda aggregates are not modelled.

### C64 IN, ANY, ALL and EXISTS - partial
*Plan.* Conditions in three-valued logic, IN/ANY/ALL/EXISTS, comparison operators per pair of types, against truth tables and orders on values.
*Theorems* (Query/PropsLogic.lean): `C64_any_partial`, `C64_all_partial`, `C64_in_partial`, `C64_not_in_partial`, `C64_exists`, `C64_null_false`, `C64_empty_false`.
*State.* IN, NOT IN, ANY, ALL for a non-NULL left value and same-typed values; EXISTS in full. False for NULL on the left of ANY and ALL (C64_null_false) and for NULL IN an empty subquery (C64_empty_false).

### C65 WHERE selects the rows for which the condition is true - partial
*Plan.* Conditions in three-valued logic, IN/ANY/ALL/EXISTS, comparison operators per pair of types, against truth tables and orders on values.
*Theorems* (Query/PropsLogic.lean): `C65_where_partial`, `C65_no_nulls_partial`, `C65_not_false`, `C65_between_false`, `C65_between`.
*State.* Conditions whose NOTs stand only before simple conditions, and every condition on rows without NULLs. False for NOT over AND or OR with NULLs (C65_not_false) and for NOT BETWEEN (C65_between_false).

### C66 Comparisons and the sort order follow the natural order of the values - partial
*Plan.* Conditions in three-valued logic, IN/ANY/ALL/EXISTS, comparison operators per pair of types, against truth tables and orders on values.
*Theorems* (Query/PropsCompare.lean): `C66_order`, `C66_sort_order`, `C66_null`, `C66_operators`, `C66_int_like`, `C66_mixed_partial`, `C66_mixed_false`, `C66_in_false`.
*State.* Operators and sort order for values of one type and for integer-like values (int, bool, date, timestamp) among each other; integers of at most 53 bits with doubles. False for larger integers with doubles (C66_mixed_false), and IN disagrees with = on an integer and a double (C66_in_false). JSON and vector comparisons are not modelled here.

### C67 The access path does not change the result - partial
*Plan.* Index path choice (start and stop conditions) and the scan it runs; equals the filter over all rows.
*Theorems* (Query/PropsPath.lean): `C67_scan_partial`, `C67_table_partial`, `C67_subquery_partial`, `C67_double_false`, `C67_int32_false`, `C67_between_false`, `C67_abort_false`, `C67_subquery_false`.
*State.* Proved for key columns compared with values that fit their type and, for lookups, can be hashed, over an index that returns its rows in key order (C10-C13). False otherwise: `id > 0.5` (C67_double_false) and `id > -3000000000` on a 32-bit key (C67_int32_false) lose rows, a row-dependent bound of BETWEEN reads through a missing cursor (C67_between_false), `id = NULL` and `id = 1.5` abort the process (C67_abort_false), a lookup through a secondary index in a subquery reads missing columns (C67_subquery_false).

### C68 set() and unset() change exactly one field of a document - partial
*Plan.* JSON update functions on encodings, against set/unset on trees.
*Theorems* (Json/PropsUpdate.lean): `C68_set_partial`, `C68_set_error`, `C68_set_get`, `C68_set_nested_false`, `C68_unset`, `C68_unset_get`, `C68_empty_name`.
*State.* Proved except for adding a new field to a nested object, where set() also adds a field with the value to every enclosing object (C68_set_nested_false); unset() for documents without duplicate names. The encoding of the new value is that of C01.

### C69 JSON array functions - partial
*Plan.* JSON update functions on encodings, against set/unset on trees.
*Theorems* (Json/PropsUpdate.lean): `C69_append`, `C69_push`, `C69_pop`, `C69_pop_back`, `C69_put_partial`, `C69_remove_partial`, `C69_index_false`.
*State.* Proved for indexes that fit 32 bits; a larger index is truncated and accepted (C69_index_false).

### C70 LIKE matches patterns - partial
*Plan.* LIKE as written over UTF-8 characters, against an inductive matching relation.
*Theorems* (Func/PropsLike.lean): `C70_sound_partial`, `C70_shape_partial`, `C70_total`, `C70_first_false`, `C70_one_false`, `C70_escape_false`.
*State.* Soundness for patterns without `_` after `%`, exactness for patterns of single characters separated by `%` (C70_shape_partial), no reads outside of the strings; the general statement is false of the code (C70_first_false, C70_one_false, C70_escape_false).

### C71 String functions work on characters - partial
*Plan.* String functions on bytes against functions on lists of characters.
*Theorems* (Func/PropsText.lean): `C71_length`, `C71_substr_partial`, `C71_substr_rest_partial`, `C71_substr_false`, `C71_strpos`, `C71_replace`, `C71_replace_unique`, `C71_ltrim`, `C71_rtrim`, `C71_trim`, `C71_lower`, `C71_upper`.
*State.* All functions are exact on characters; substr is proved for positions ≥ 0 and counts in the range of int, for a negative position it reads outside of the string (C71_substr_false).

### C72 Dates are days of the Gregorian calendar - partial
*Plan.* Day numbers with C division, against a calendar of valid dates and the next day.
*Theorems* (Func/PropsDate.lean): `C72_get`, `C72_set`, `C72_count`, `C72_order`, `C72_text`, `C72_literal`, `C72_extract`, `C72_add_partial`, `C72_invalid_false`, `C72_add_false`.
*State.* Calendar, order, text and extract are proved for all dates; the general statement is false of the code: days that do not exist are accepted (C72_invalid_false), the number of days is cut to 32 bits (C72_add_false).

### C73 Intervals - partial
*Plan.* Intervals: text, fields, arithmetic with C division and wrap-around.
*Theorems* (Func/PropsInterval.lean, Func/PropsIvUnits.lean): `C73_text`, `C73_extract_partial`, `C73_trunc_partial`, `C73_arith_partial`, `C73_negative_false`, `C73_overflow_false`, `C73_literal`, `C73_compare`.
*State.* Proved: text round trip, literals with any units, order, sums, extract and trunc of times that are not negative. Refuted: extract and trunc of negative times; overflow of literals is not refused.

### C74 Timestamps as text - partial
*Plan.* Timestamps: fields of gmtime/mktime by the calendar, text, arithmetic, truncation; linear arithmetic over the fields.
*Theorems* (Func/PropsTime.lean): `C74_literal`, `C74_print`, `C74_roundtrip_partial`, `C74_invalid_false`, `C74_seconds_false`, `C74_bounds_false`.
*State.* Literals with valid fields and an offset are exactly that moment and errors outside of the range (C74_literal); the printed text (C74_print) reads back in every session time zone (C74_roundtrip_partial) for offsets of whole minutes and local times within 1970..9999. False: hours over 23, 31 February and so on are accepted and carried (C74_invalid_false), seconds of offsets are dropped in the text (C74_seconds_false), a text with leading spaces is read behind its end (C74_bounds_false).

### C75 Timestamp arithmetic - partial
*Plan.* Timestamps: fields of gmtime/mktime by the calendar, text, arithmetic, truncation; linear arithmetic over the fields.
*Theorems* (Func/PropsTime.lean): `C75_plus_partial`, `C75_minus_partial`, `C75_diff`, `C75_months_partial`, `C75_minus_months_partial`, `C75_month_false`, `C75_epoch_false`, `C75_inverse`, `C75_dates`.
*State.* Exact for days and microseconds (C75_plus_partial, C75_minus_partial, C75_inverse, C75_diff) and for months if the target month has the day (C75_months_partial, C75_minus_months_partial), and for dates (C75_dates). False: 31 January + 1 month is 2 March (C75_month_false); in the first second of 1970 a valid result may be an error (C75_epoch_false). Missing: intervals that mix months with days and time.

### C76 date_trunc, date_bin and extract of timestamps - partial
*Plan.* Timestamps: fields of gmtime/mktime by the calendar, text, arithmetic, truncation; linear arithmetic over the fields.
*Theorems* (Func/PropsTime.lean): `C76_trunc`, `C76_zone_false`, `C76_bin`, `C76_extract`.
*State.* date_trunc in UTC (C76_trunc), date_bin (C76_bin), extract in all time zones (C76_extract). False: date_trunc in other time zones (C76_zone_false).

### C77 The offset of a time zone - partial
*Plan.* Binary search of timezone_match with explicit reads; loop invariant.
*Theorems* (Func/PropsZone.lean): `C77_near_partial`, `C77_search_false`, `C77_bounds_false`.
*State.* At most one transition between the found one and the time; reads outside only after the last transition (C77_near_partial). False: C77_search_false, C77_bounds_false.

### C78 Generated identity values are unique - partial
*Plan.* Sequence with the two steps of a sync as separate steps, rows, heap files and log records; invariant over all histories.
*Theorems* (Seq/Props.lean): `C78_unique_partial`, `C78_restart_partial`, `C78_explicit_false`, `C78_negative_false`, `C78_reuse_false`, `C78_race_false`, `C78_set_false`, `C78_set_back_false`.
*State.* Proved for histories in which all values are generated (C78_unique_partial) and, for explicit values that are not negative, right after a restart (C78_restart_partial). False: explicit values do not move the sequence (C78_explicit_false), negative values move it below zero at a restart (C78_negative_false), values of deleted rows are generated again after a restart (C78_reuse_false), a refresh can set the sequence back (C78_race_false), SET IDENTITY is lost (C78_set_false).

### C79 Expressions are read by precedence - partial
*Plan.* The two stacks of the parser over a token list, with its recursion (fuel that provably suffices), against an inductive grammar of precedence levels and a printer with the fewest parentheses.
*Theorems* (Parse/Props.lean): `C79_read_partial`, `C79_unambiguous`, `C79_write_partial`, `C79_alias`, `C79_alias_false`, `C79_like_false`, `C79_not_false`, `C79_unary_false`, `C79_between_false`, `C79_any_false`.
*State.* Proved for the grammar of precedence levels (read, unambiguous, write, alias). Counterexamples are proved for LIKE, NOT, repeated prefix operators, BETWEEN, ANY/ALL and a name after an operator; CASE, CAST, sub-queries and methods are not modelled.

### C80 Text is read as the tokens it is written in - partial
*Plan.* The lexer over bytes (digits, symbols, names with the keyword table, quoted strings, comments), against an inductive relation between texts and token lists; composed with C79 for whole expressions.
*Theorems* (Parse/PropsLex.lean, Parse/PropsText.lean): `C80_token`, `C80_text`, `C80_string`, `C80_two_dots`, `C80_keyword`, `C80_quote_false`, `C80_number_false`, `C80_expression`, `C80_roundtrip`.
*State.* Proved for all texts of integers, names, keywords, paths, symbols and strings, and for whole expressions. Counterexamples are proved for single quotes inside single quotes and for large numbers; the value of a real (strtod) is not modelled.

### C81 A replica has a prefix of the history of its primary - partial
*Plan.* Two logs, the streamer, requests and sessions as a transition system with explicit failures; the prefix is an invariant of all histories that keep four conditions, each of which is shown to be needed by a counterexample the code allows.
*Theorems* (Repl/Props.lean): `C81_prefix_partial`, `C81_content_partial`, `C81_reported_partial`, `C81_catch_up_partial`, `C81_aborted_false`, `C81_twice_false`, `C81_gap_false`, `C81_lost_false`, `C81_stuck_false`.
*State.* Proved for histories in which the log is not read while a batch is unpublished, requests are not replayed at the same time, the log is cleaned only below the slot and the primary loses nothing. The code ensures none of the four; a counterexample is proved for each, and for a new replica that stays empty with no error.

### C82 HTTP messages are read whole, whatever the network does - partial
*Plan.* The readahead buffer with pushback and the reader of http.c over a stream cut into arbitrary pieces; the reader's view (pending bytes) is an abstraction that each operation respects; induction over the messages.
*Theorems* (Net/PropsHttp.lean): `C82_messages`, `C82_truncated`, `C82_limit`, `C82_memory_safe`, `C82_long_head`, `C82_head_limit_false`, `C82_huge_body_false`, `C82_reply`, `C82_own_requests`.
*State.* Proved for heads up to 512 bytes and limits up to 2 GB; heads of 513-767 bytes are accepted or refused depending on the cuts, and a body of 4 GB is taken for the next requests: both are proved as counterexamples.

### C83 Only holders of a valid token are let in - partial
*Plan.* Tokens as bytes through base64url, the JSON parser and decode_obj; HMAC is a parameter; the cache is the table of C85; an invariant over all histories says where each cache entry came from; the specification of a valid token mentions only JSON values and base64.
*Theorems* (Net/PropsAuth.lean): `C83_sound`, `C83_new_token`, `C83_after_sync`, `C83_accepted`, `C83_gate`, `C83_safe`, `C83_created`, `C83_no_secret_no_token`, `C83_forged_false`, `C83_empty_secret_false`, `C83_own_client_false`, `C83_high_byte_false`.
*State.* violated: anything in front of a cached digest is accepted (C83_forged_false), a user without a secret is open to everybody (C83_empty_secret_false), the own client's header is refused (C83_own_client_false), bytes over 127 in a token read beyond a table (C83_high_byte_false); HMAC-SHA256 itself is a parameter, hash collisions are not excluded by the cache

### C84 Addresses and request targets mean what is written - partial
*Plan.* uri.c over bytes, the string options as a map by name; an address is a record with a printer (RFC 3986 percent-encoding) and a list of assignments; one lemma for each part, composed.
*Theorems* (Net/PropsUri.lean): `C84_percent`, `C84_decode`, `C84_address`, `C84_target`, `C84_service`, `C84_own_request`, `C84_export`, `C84_safe`, `C84_uri_argument_false`, `C84_secret_false`, `C84_ipv6_false`, `C84_encoding_false`, `C84_at_false`, `C84_service_false`.
*State.* Addresses over http/https with any parts that do not contain their separators are read exactly as written (C84_address), request targets as well (C84_target), the client's own targets without `&`, `%` (C84_own_request); written addresses are read back without a secret and with plain parts (C84_export); any text gives an answer or an error unless an argument is named uri (C84_safe). Violated by the code: an argument named uri frees the text being read and an empty address reads NULL (C84_uri_argument_false); the secret is written as the user name (C84_secret_false); IPv6 hosts are written without brackets (C84_ipv6_false); arguments are not percent-encoded when written (C84_encoding_false); an @ in an argument is taken for a user (C84_at_false); services with arguments are refused (C84_service_false). amelie:// addresses are in the model and in C84_safe but not in the round trips.

### C85 Functions and time zones are found by name - partial
*Plan.* The open-addressing table with NULL for free and deleted slots; chains invariant shared with the hash index; induction over the registrations.
*Theorems* (Net/PropsTable.lean): `C85_functions`, `C85_timezones`, `C85_delete_false`.
*State.* Registration and search are proved for all names; removal is not safe (hashtable_delete breaks the chain): counterexample proved.

### C86 A compiled expression computes what it says - partial
*Plan.* The compiler's register map and emitted code, the machine's registers with buffer ownership and jumps; the meaning of an expression is a recursive function over values; a simulation, one lemma per form of expression, by induction over the tree.
*Theorems* (Compile/Props.lean, Compile/PropsOps.lean): `C86_value_partial`, `C86_error_partial`, `C86_only_partial`, `C86_register_partial`, `C86_bounds`, `C86_memory_partial`, `C86_like_false`, `C86_trap_false`, `C86_in_leak_false`, `C86_volatile_false`, `C86_mirror_false`, `C86_truth_partial`, `C86_integers_partial`, `C86_in_partial`, `C86_compare_partial`, `C86_nan`.
*State.* Proved for all expressions of operators, CASE, BETWEEN, IN, ANY/ALL, calls, arrays and objects. Missing: LIKE as an operand (C86_like_false), volatile functions in BETWEEN and CASE (C86_volatile_false), the buffer of the left side of IN (C86_in_leak_false), operations without a result (C86_trap_false). Subqueries, aggregates and user functions are not in the model.

### C87 Functions that choose a value choose the right one - partial
*Plan.* The loops over the arguments with the comparison of values of C60; the order of the specification is defined by type; invariant of the loop.
*Theorems* (Func/PropsChoose.lean): `C87_greatest_partial`, `C87_least_partial`, `C87_coalesce`, `C87_nullif_partial`, `C87_integers_partial`, `C87_sign_double`, `C87_text_false`, `C87_nan_false`, `C87_trap_false`.
*State.* Proved for all values except: text in GREATEST and LEAST (C87_text_false), NaN (C87_nan_false), the least integer (C87_trap_false).

### C88 A compiled SELECT returns the rows the query says - partial
*Plan.* The scan compiler (nested tables, patched jumps, LIMIT/OFFSET counters) on top of the expression compiler of C86, and the machine with cursors and a result set; the meaning is nested loops over lists of rows; simulation by induction over the tables and, within, over the rows; a second theorem turns nested loops into filter, drop, take and map.
*Theorems* (Compile/PropsScan.lean): `C88_scan_partial`, `C88_error_partial`, `C88_only_partial`, `C88_select_partial`, `C88_path_partial`, `C88_hash_stop_false`, `C88_limit_cursor_false`, `C88_order_width_false`.
*State.* Proved for every list of tables, every expression C86 covers and every LIMIT and OFFSET, with what an index returns as a parameter (C10 to C15, C67). Missing: stop conditions on hash indexes (C88_hash_stop_false), cursors of inner tables after LIMIT (C88_limit_cursor_false), result sets narrower than what is pushed (C88_order_width_false). Subqueries, functions and JSON in FROM, grouping and sorting are not in the model.

### C89 A failed DDL transaction changes nothing - partial
*Plan.* The catalog as lists of addressed records, every DDL statement with the undo entries it logs, commit and abort as folds over the log; each statement is shown to be undone by its entries in any catalog with the same objects, composed over the log; the five ways it fails are counterexamples.
*Theorems* (Catalog/PropsDdl.lean): `C89_abort_partial`, `C89_session_partial`, `C89_replay_partial`, `C89_read_only_false`, `C89_wal_false`, `C89_unlogged_false`, `C89_spelling_false`, `C89_index_false`.
*State.* proved for all histories and transactions without SET [UN]LOGGED to the same value, CREATE INDEX, and database/storage renames typed in another case, and for errors raised before the WAL step; false otherwise (five counterexamples)

### C90 Names are unique and DDL statements mean what they say - partial
*Plan.* Unique names as an invariant of all reachable catalogs, kept by every statement, commit action and rollback; the loops of DROP and RENAME DATABASE are computed exactly; the meaning of statements is stated on lookups.
*Theorems* (Catalog/PropsDdl.lean): `C90_unique_partial`, `C90_home_partial`, `C90_orphan_false`, `C90_drop_table`, `C90_create_table`, `C90_rename_table`, `C90_drop_database`, `C90_rename_database`, `C90_add_column`, `C90_drop_column`, `C90_rename_column`.
*State.* unique names for all histories whose rolled back transactions keep to the statements of C89; databases of objects under the check of session_set still holding (counterexample otherwise); meaning of table, database and column statements, not of index, tier, storage and function ones

### C91 A restart brings the catalog back - partial
*Plan.* Writers as JSON trees, readers on bytes (decode_obj and the loops), composed with the proved JSON text round trip, base64 and UUID codecs; the re-creation of the objects by induction over the lists, uniqueness of names from C90.
*Theorems* (Catalog/PropsFile.lean): `C91_restart_partial`, `C91_names_partial`, `C91_dropped_false`, `C91_identity_false`, `C91_replace_false`, `C91_utf8_false`.
*State.* proved for every reachable catalog with UTF-8 texts, no dropped column and functions that compile in file order. Each condition is needed: C91_utf8_false, C91_dropped_false (a dropped column comes back), C91_replace_false (the server does not start), and the identity counter is not in the file (C91_identity_false). Writing and renaming the file is C58.

### C92 A SELECT returns what its clauses say - partial
*Plan.* A statement as clauses over expressions; resolving of labels and positions, both planners, and every plan command run on rows, on top of the unions of C59-C61 and the aggregation of C62-C63; the answer is defined clause by clause without plans; proved by cases over the plans.
*Theorems* (Query/PropsSelect.lean): `C92_pushdown_partial`, `C92_main_partial`, `C92_alias_false`, `C92_order_distinct_false`, `C92_limit_false`, `C92_position_false`.
*State.* Proved for both planners. Excluded: text or NaN keys in a pushed-down ORDER BY, LIMIT + OFFSET over 64 bits, DISTINCT of a column whose name is the label of another column, DISTINCT aggregates only in ORDER BY (all four proved to fail), errors of expressions, lambda aggregates, double sums, SELECT without FROM.

### C93 The body of a response is the JSON of the result - partial
*Plan.* The writers of output_json.c over the proved JSON printer; an independent inductive grammar of RFC 8259 relates values and texts; each writer appends the text of the document or hits the limit; the printed text is in the grammar by induction over the value.
*Theorems* (Output/Props.lean): `C93_body_partial`, `C93_reads_back_partial`, `C93_control_false`, `C93_nan_false`, `C93_error`, `C93_error_cut_false`, `C93_document`.
*State.* C93_body_partial: for all results with printable strings and reals that printf prints as JSON numbers, the body is an RFC 8259 text for the rows (or the limit error, and then the text reaches the limit); C93_reads_back_partial: the server's own parser reads the rows back (no reals, no -2^63); C93_error, C93_document. Not so: control characters other than \b \f \n \r \t are written raw (C93_control_false), nan and inf are written as such (C93_nan_false), errors over 512 bytes are cut inside of a UTF-8 character (C93_error_cut_false). Missing: the decimal value of reals, results without columns, TIMESTAMP offsets are given.

### C94 INSERT … VALUES puts each value in its column - partial
*Plan.* The parser on bytes over the proved lexer of C80 and JSON parser of C39; literals, lists and rows of the language as separate relations of texts and values; each reader is shown to consume exactly the text and give its value, by induction over columns and rows; the requests of csend_shard by induction over the rows.
*Theorems* (Insert/Props.lean): `C94_values_partial`, `C94_list_partial`, `C94_list_order`, `C94_count`, `C94_generate_partial`, `C94_shard_partial`, `C94_escape_false`, `C94_comma_false`, `C94_default_false`, `C94_min_false`, `C94_generate_false`, `C94_identity_false`, `C94_typed`.
*State.* C94_values_partial and C94_list_partial: texts of rows with the literals of every type (reals with a point, strings without backslashes, JSON without reals) are read into the rows they say, or refused for a NULL in a NOT NULL column; C94_list_order, C94_count: wrong lists and counts are refused; C94_generate_partial for counts below 2^31; C94_shard_partial for tables with at most one identity column. Missing: reals with exponents, strings with escapes (false: C94_escape_false), INSERT … SELECT, evaluation of generated columns. The claim is false for C94_comma_false, C94_default_false, C94_min_false, C94_generate_false, C94_identity_false.

### C95 UPDATE, DELETE and INSERT … ON CONFLICT change exactly the rows they name - partial
*Plan.* The compiled SET list (ordered insertion, type checks), row_update and the scan loops over the B-tree of C10 and C45; a row is the list of its values; expressions are functions of the row; the meaning is stated per column and per row without order or cursors; simulation by induction over the rows under the tree invariant, and over histories.
*Theorems* (Dml/Props.lean): `C95_accept`, `C95_order`, `C95_row`, `C95_update_partial`, `C95_delete_partial`, `C95_upsert_partial`, `C95_history_partial`, `C95_where`, `C95_identity_false`, `C95_generated_false`, `C95_excluded_false`, `C95_narrow_false`.
*State.* Expressions are functions of the row and of EXCLUDED without effects; one partition, primary ordered index only; rows as lists of values (bytes: C44); a statement that fails is undone by C47. False in the code: SET of an identity column reads a NULL pointer, generated columns are not recomputed, EXCLUDED shows the values as given, integers are cut to the width of the column without an error.

### C96 The rows sent to an endpoint are the rows stored - partial
*Plan.* The reader on bytes over the lexer and the proved parse_value of C94; records, lines and bodies of the three formats as separate inductive relations of texts and rows; each reader consumes exactly the text and gives its rows, by induction over columns, members and lines; for texts in no format, the shape of any row that is taken.
*Theorems* (Import/Props.lean): `C96_columns`, `C96_columns_only`, `C96_rows_partial`, `C96_listed_partial`, `C96_args_partial`, `C96_typed`, `C96_dropped_false`, `C96_syntax_false`, `C96_empty_false`, `C96_lines_false`, `C96_escape_false`, `C96_csv_false`, `C96_columns_false`, `C96_endless_false`.
*State.* Proved for CSV, JSONL and JSON with and without a list of columns, arguments of functions, lists of columns (exactly which texts are taken), shape of any row taken. Strings without escapes; the last column of the table is not a dropped one. False cases proved: dropped last column, non-JSON syntax taken, empty bodies refused, lines, escapes, CSV quoting, lists with an empty name, endless loop for functions without arguments.

### C97 Messages between tasks arrive once, in order, and wake up the task - partial
*Plan.* Every access to shared memory is a step of a transition system with one program counter per sender and one for the task; histories of sends, slots and messages handed over; three inductive invariants (ring contents and slot ownership, reference counts and messages in flight, sleep flag and eventfd) over all reachable states.
*Theorems* (Bus/Props.lean): `C97_fifo`, `C97_nothing_lost`, `C97_capacity`, `C97_coalesced`, `C97_once`, `C97_wake`, `C97_asleep`, `C97_progress`.
*State.* Memory is sequentially consistent (the x86 instructions used are full fences; atomic_u32_set is only an acquire operation on other processors), the positions do not wrap, and the main loop is modelled at the grain of its accesses to shared variables. Eventual delivery under a fair scheduler is not stated as such: C97_progress and C97_wake say that nothing is stuck. What a coroutine does with the mailbox is not modelled.

### C98 sleep() takes its time, and timers fire in order - partial
*Plan.* The timer array, the cached time and the phases of the main loop as a transition system with a real clock; qsort is any function that gives the sorted permutation; one invariant over all histories (sorted, each sequence number once, deadline = start + interval - age of the cached time); the ways it fails are explicit runs.
*Theorems* (Timer/Props.lean): `C98_fires`, `C98_once`, `C98_capacity`, `C98_start`, `C98_duration_partial`, `C98_not_overslept_partial`, `C98_early_false`, `C98_time_false`, `C98_time_partial`, `C98_negative_false`, `C98_cut_false`, `C98_jump_false`.
*State.* The duration holds up to the age of the cached time (C98_duration_partial); C98_early_false is a run where sleep(1000) ends at once since another session of the task sleeps; C98_time_false, C98_negative_false, C98_cut_false (argument cut to 32 bits) and C98_jump_false are further failures. The clock is taken not to go backwards; qsort is trusted to sort.

### C99 A backup holds the database as it was when the backup began - partial
*Plan.* The directory as names and inodes, contents as bytes behind inodes, backups as registered listings; every change of files by the server is a step of a transition system, as are other backups; one invariant over all reachable states (links and wal files of a listing keep their bytes or a prefix), then induction over the requests of a restore; the ways it fails are explicit runs.
*Theorems* (Backup/Props.lean): `C99_restore`, `C99_listing`, `C99_files`, `C99_wal_partial`, `C99_begins_partial`, `C99_no_links_partial`, `C99_drop_keeps`, `C99_gc_false`, `C99_two_false`, `C99_leak_false`, `C99_path_false`.
*State.* A restore that gets all its answers writes exactly the database as it was when the backup began (C99_restore), partition files are always sent (C99_files), the end of a backup touches nothing (C99_drop_keeps); wal files only while they are there (C99_wal_partial: wal_slots takes the maximum, so garbage collection removes listed files, C99_gc_false), a backup begins only without another one (C99_begins_partial, C99_no_links_partial): a second fails and its links stay (C99_two_false, C99_leak_false); any path is sent (C99_path_false). The four JSON files inside the first reply and disk errors are not modelled.

### C100 The command line client sends whole statements, in order - partial
*Plan.* The separator on bytes, with the character before the position; statements are a separate inductive relation over the tokens of the SQL lexer of C80, with the nesting of blocks and CASE; the separator passes over each token as the lexer reads it, by the kinds of tokens, then induction over the relation; reading a prefix made of whole lines does not depend on the lines that follow, which gives all divisions into lines; the ways it fails are explicit inputs.
*Theorems* (Cli/Props.lean): `C100_lossless`, `C100_ends`, `C100_statement`, `C100_lines_partial`, `C100_more_lines`, `C100_if_not_false`, `C100_case_false`, `C100_end_comma_false`, `C100_if_comment_false`, `C100_comment_false`.
*State.* Nothing is lost or reordered for all lines (C100_lossless), complete blocks never wait (C100_ends); every text of statements is cut into exactly its statements in any division into lines (C100_statement, C100_lines_partial, C100_more_lines), where keywords of blocks have white space or ';' on both sides and IF is followed by a condition that does not begin with NOT. Without this it is false: C100_if_not_false, C100_case_false, C100_end_comma_false, C100_if_comment_false, C100_comment_false.

### C101 Checksums are the same on every machine, and damage of up to 32 bits is found - proved
*Plan.* The eight tables as they are in the file (2048 numbers), the loops with alignment, and the CRC32 instruction as the manual of the processor defines it (bit reflection and division of polynomials); one step of the shift register is linear, so the tables are steps of one byte (all entries checked by the kernel) and blocks of bytes are steps on one number; the remainder is the only one, by division; damage shifts out to a number below 2^32 on which each step is injective.
*Theorems* (Crc/Props.lean): `C101_same`, `C101_pieces`, `C101_remainder`, `C101_range`, `C101_burst`, `C101_bytes`, `C101_record`, `C101_rows`, `C101_zeros_false`, `C101_zero_record_false`, `C101_wal_crc_false`.
*State.* For all bytes, addresses and pieces (C101_same, C101_pieces, C101_remainder, C101_range), all damages of up to 32 bits in a row (C101_burst, C101_bytes) and log records (C101_record, C101_rows; the checksum itself and the number of commands intact). The instruction is modelled as the manual defines it (x86_64, little endian). Shown not to be found or not to be valid: zero bytes before a text (C101_zeros_false), a record of zeros (C101_zero_record_false), records written with wal_crc off after it is on again (C101_wal_crc_false).

### C102 Users, options and replication settings survive a restart - partial
*Plan.* Options as typed cells, the file as bytes written by the proved JSON exporter and read by the proved parser; one theorem says that what is saved is read, by induction over the options; users as a document in an option; the server is memory and a directory, statements and starts are steps, one invariant over all histories (the file in the directory is the state in memory); each write of a file is a list of directories, one per byte, and the crash points are its elements.
*Theorems* (Config/Props.lean): `C102_restart_partial`, `C102_save_read`, `C102_same_file`, `C102_crash_kept`, `C102_crash_false`, `C102_bootstrap_false`, `C102_argv_false`, `C102_subscribe_empty_false`, `C102_arg_int`, `C102_arg_str`, `C102_arg_bool`, `C102_set_one`, `C102_daemon_false`, `C102_negative_false`, `C102_utf8_false`, `C102_names_once`, `C102_create_user`, `C102_drop_user`, `C102_alter_user`, `C102_sync`, `C102_repl`, `C102_first`, `C102_argv_used`.
*State.* Proved for all histories of first start, statements and restarts (C102_restart_partial), all lists of options (C102_save_read, C102_same_file), the options of a first start (C102_first) and of a later start (C102_argv_used), the arguments (C102_set_one, C102_arg_int, C102_arg_str, C102_arg_bool), the statements (C102_names_once, C102_create_user, C102_drop_user, C102_alter_user, C102_repl), the copies of the frontends (C102_sync) and all crash points for the previous file (C102_crash_kept). Restricted to texts that are UTF-8 and shorter than 2 GB, numbers other than -2^63, documents without reals; the lock of the directory, the log, TLS and the contents of the replicas document are left out, and restarts that give another uuid than the first start. The claim does not hold for: a crash while the state is saved (C102_crash_false: every save passes through a directory with which no server starts, state.json.old is never read) and during the first start (C102_bootstrap_false); options of a later start (C102_argv_false: used, not saved); REPL SUBSCRIBE with an empty id (C102_subscribe_empty_false); option strings that are not UTF-8 (C102_utf8_false); negative numbers in documents (C102_negative_false); --daemon=true (C102_daemon_false: refused).

### C103 What is written into an object file is read from it - partial
*Plan.* The file as bytes; writer and reader function by function, with the layout of regions, index and header as fields of given widths; the compression library is a pair of functions that are inverse; one invariant of the writer over the rows (regions cut so far, their references, the bytes of the file), then each field is found where the reader looks; composed with the search of C16 for queries. What fails without compression, beyond 4 GB and on opening is proved as well.
*Theorems* (Object/PropsFile.lean): `C103_read_partial`, `C103_query_partial`, `C103_append`, `C103_open_partial`, `C103_open_false`, `C103_crc`, `C103_branches_partial`, `C103_raw_false`, `C103_4gb_false`, `C103_truncate_false`, `C103_row`, `C103_raw_read_false`.
*State.* Proved for all rows, limits, file contents before and after, and all compression functions that give back what they were given, with files below 4 GB: reading through the index of the writer gives the rows, with right references and regions cut at the limit (C103_read_partial), queries from any key (C103_query_partial, with C16), earlier bytes are kept (C103_append), rows that are created for tables are of the kind asked for (C103_row), opening gives the index of the writer if the checksum of the compressed index is that of no bytes (C103_open_partial, C103_crc for the checksum of the program), also with any number of branches (C103_branches_partial). Violated, with proofs: in every other case a file cannot be opened, since the checksum is compared before the index is decompressed (C103_open_false); without compression no file can be opened and regions are read past their end (C103_raw_false, C103_raw_read_false: only the first of two buffers is counted); the place of a region is kept modulo 2^32 (C103_4gb_false); bytes after the last complete branch are never cut (C103_truncate_false). Not modelled: failing writes, the compression library itself, heaps of the same storage.

### C104 The coroutines of a thread wake up, take turns and end - partial
*Plan.* Coroutines named by their memory, with the lists of the manager, the flags of each coroutine, the signal and the waiter of each event; every function is a step of a transition system, what coroutines compute in between is arbitrary; one invariant over all histories in which the callers keep to six rules that release builds do not check; turns by induction over the history on the ready list, kills and joins over numbers that are never used twice. Without the rules, and in three cases within them, explicit runs show what goes wrong.
*Theorems* (Coro/Props.lean): `C104_no_lost_signal_partial`, `C104_signal_wakes_partial`, `C104_where_partial`, `C104_once_partial`, `C104_memory_partial`, `C104_order`, `C104_turn`, `C104_kill_partial`, `C104_unpause`, `C104_awake_partial`, `C104_cancel_kept_partial`, `C104_join_partial`, `C104_join_returns_partial`, `C104_shutdown_partial`, `C104_shutdown_returns_partial`, `C104_timeout_partial`, `C104_undisturbed_partial`, `C104_sample_partial`, `C104_two_joiners_false`, `C104_reuse_false`, `C104_self_kill_false`, `C104_stale_shutdown_false`, `C104_mailbox_false`, `C104_timeout_takes_signal_false`, `C104_born_partial`, `C104_taken_partial`.
*State.* Proved for all histories in which callers keep to six rules (one waiter per event, no kill or join of oneself, balanced pauses, no event initialised under a waiter, no memory used again while a joiner has not run); turns (C104_turn, C104_order) and C104_unpause hold for all histories. Without the rules: two joiners (C104_two_joiners_false), memory used again before a joiner ran, after which a new joiner sleeps for ever (C104_reuse_false), self kill and abort (C104_self_kill_false). Within the rules: a stale signal ends a shutdown early (C104_stale_shutdown_false), mailbox_pop ignores kills (C104_mailbox_false), a timeout takes a signal away (C104_timeout_takes_signal_false). That a sleep ends when the event is never signalled is not claimed; the thread's main coroutine is proved alone only if it was not cancelled itself.

### C105 Background jobs on the same partition take turns - partial
*Plan.* The entries with their lists and reference counts over the proved lock manager of C28 to C30; the spinlocked parts are atomic steps, jobs stop between them; one invariant over all histories ties jobs, entries, counts and lock records, other locks of the server are arbitrary steps on other relations.
*Theorems* (ServiceLock/Props.lean): `C105_has_alone_partial`, `C105_alone_partial`, `C105_waits_partial`, `C105_in_order_partial`, `C105_free_partial`, `C105_memory_partial`, `C105_clean_partial`, `C105_sample`, `C105_sample_next`.
*State.* All histories of jobs and of other locks: alone, in order, only behind jobs on the same partition, at once when free, entries and clean end. Not modelled: a job has one of these locks at a time; waits are not cancelled (jobs run with cancellation paused); lock() does not fail for lack of memory.

### C106 Buffers hold what was written into them and are shared safely - partial
*Plan.* The block, the position and the int arithmetic of buf.h; the meaning is a separate relation on texts with unknown places, without capacities; simulation by induction over histories, with a potential argument for the copies. References, counters and the eight caches as a transition system with one invariant. A write that overflows int and the limit of the cache that is never applied are explicit theorems.
*Theorems* (Buf/Props.lean, Buf/PropsMgr.lean): `C106_content`, `C106_known`, `C106_writes`, `C106_cost`, `C106_wraps_false`, `C106_wraps_data`, `C106_sample`, `C106_kept_partial`, `C106_fresh_partial`, `C106_undisturbed_partial`, `C106_last_partial`, `C106_no_leak_partial`, `C106_limit_false`, `C106_limit_sample`.
*State.* Content, bounds and cost for all histories below 2^31 bytes; references and caches for all interleavings. Fails: one write that makes the size 2^31 or more overwrites memory behind the block (C106_wraps_false); the 32 KiB limit of the caches is never applied, because the comparison is outside of unlikely(), so memory of large buffers is never given back (C106_limit_false). Not modelled: failing realloc (the process ends), 2^32 references, the end of the process.
