{
 "claims": [
  {
   "property": "C01",
   "status": "proved",
   "theorems": [
    "Verif.Json.C01_read_back",
    "Verif.Json.C01_roundtrip",
    "Verif.Json.C01_injective"
   ],
   "note": ""
  },
  {
   "property": "C02",
   "status": "proved",
   "theorems": [
    "Verif.Json.C02_skip",
    "Verif.Json.C02_sizeof",
    "Verif.Json.C02_skip_eq_read"
   ],
   "note": ""
  },
  {
   "property": "C03",
   "status": "proved",
   "theorems": [
    "Verif.Json.C03_total_antisymm",
    "Verif.Json.C03_trans",
    "Verif.Json.C03_eq",
    "Verif.Json.C03_is_lexicographic",
    "Verif.Json.C03_nan_not_transitive"
   ],
   "note": "NaN reals are excluded (JSON text cannot express them); C03_nan_not_transitive shows why."
  },
  {
   "property": "C04",
   "status": "proved",
   "theorems": [
    "Verif.Json.C04_obj_find",
    "Verif.Json.C04_obj_find_read",
    "Verif.Json.C04_array_find",
    "Verif.Json.C04_array_last",
    "Verif.Json.C04_array_size",
    "Verif.Json.C04_obj_size",
    "Verif.Json.C04_path"
   ],
   "note": ""
  },
  {
   "property": "C05",
   "status": "proved",
   "theorems": [
    "Verif.Json.Text.C05_unescape_escape",
    "Verif.Json.Text.C05_quoted_read_back",
    "Verif.Json.Text.C05_no_bare_quote",
    "Verif.Json.Text.C05_unknown_escape_reads_unwritten",
    "Verif.Json.Text.C05_escapes_read",
    "Verif.Json.Text.C05_raw_newline_refused"
   ],
   "note": "strings are valid UTF-8 for the parser (it rejects others); escape/unescape alone for all bytes"
  },
  {
   "property": "C06",
   "status": "partial",
   "theorems": [
    "Verif.Codec.C06_base64_roundtrip",
    "Verif.Codec.C06_base64url_roundtrip",
    "Verif.Codec.C06_text_rfc4648",
    "Verif.Codec.C06_base64_rejects_ascii",
    "Verif.Codec.C06_base64url_rejects_ascii",
    "Verif.Codec.C06_high_byte_false"
   ],
   "note": "round trips and rejection of 7-bit foreign characters are proved; bytes >= 128 read past the table (C06_high_byte_false)"
  },
  {
   "property": "C07",
   "status": "partial",
   "theorems": [
    "Verif.Codec.C07_uuid_roundtrip",
    "Verif.Codec.C07_uuid_accepts_iff",
    "Verif.Codec.C07_length_false"
   ],
   "note": "round trip and the exact acceptance condition are proved; the \"exactly 36 characters\" part is violated (C07_length_false)"
  },
  {
   "property": "C08",
   "status": "proved",
   "theorems": [
    "Verif.Row.C08_create",
    "Verif.Row.C08_not_null",
    "Verif.Row.C08_column",
    "Verif.Row.C08_read_back",
    "Verif.Row.C08_missing_column",
    "Verif.Row.C08_size"
   ],
   "note": "Byte-level row model: creation succeeds for acceptable values whatever the memory held, every column reads back its bytes/value, NULL iff NULL, recorded size = bytes. Rows below 2^31 bytes and fewer than 65536 columns (the C types)."
  },
  {
   "property": "C09",
   "status": "proved",
   "theorems": [
    "Verif.Row.C09_lexicographic",
    "Verif.Row.C09_total_order",
    "Verif.Row.C09_equal_iff"
   ],
   "note": "Key comparison of stored rows equals the lexicographic order of key values; total order laws; equal iff all key columns equal. Key types int32, int64, timestamp, text, uuid (the ones the parser admits). DESC is not consulted by compare()."
  },
  {
   "property": "C10",
   "status": "partial",
   "theorems": [
    "Verif.Index.C10_sorted_map_partial",
    "Verif.Index.C10_table_index_partial",
    "Verif.Index.C10_text_false"
   ],
   "note": "proved for every history with comparisons returning -1/0/1 (integer, timestamp and uuid keys, composite); for text keys the claim is false of the code: tree_search_page_for_write tests page_rel == 1 but text comparison returns memcmp's value (C10_text_false)"
  },
  {
   "property": "C11",
   "status": "partial",
   "theorems": [
    "Verif.Index.C11_range_partial",
    "Verif.Index.C11_range_false"
   ],
   "note": "a scan from a key returns exactly the rows at or above it or nothing; exact when a row has the key; false in general: tree_iterator_open stops when the key is past the end of its page (C11_range_false)"
  },
  {
   "property": "C12",
   "status": "partial",
   "theorems": [
    "Verif.Index.Hash.C12_map_partial",
    "Verif.Index.Hash.C12_table_index_partial",
    "Verif.Index.Hash.C12_replace_after_delete_false",
    "Verif.Index.Hash.C12_resize_false",
    "Verif.Index.Hash.C12_upsert_cursor_false",
    "Verif.Index.Hash.C12_resize_partial",
    "Verif.Index.Hash.C12_load_partial",
    "Verif.Index.Hash.C12_overflow_false"
   ],
   "note": "map semantics proved for histories without resize where replace_by hits an existing key only before deletes; false in general: three counterexample theorems with the real hash (duplicate after delete, miss during resize, overflow with tombstones)"
  },
  {
   "property": "C13",
   "status": "partial",
   "theorems": [
    "Verif.Index.Hash.C13_scan_one_partial",
    "Verif.Index.Hash.C13_merge_false",
    "Verif.Index.Hash.C13_merge_partial"
   ],
   "note": "scan of one partition is exact in any state; the merge over partitions is false (exact characterisation C13_merge_false): ends after the first non-empty partition or reads out of bounds"
  },
  {
   "property": "C14",
   "status": "partial",
   "theorems": [
    "Verif.Index.Merge.C14_merge_partial",
    "Verif.Index.Merge.C14_text_false"
   ],
   "note": "proved for keys without text columns; C14_text_false: with text keys the merged scan is out of order"
  },
  {
   "property": "C15",
   "status": "proved",
   "theorems": [
    "Verif.Index.Merge.C15_newest"
   ],
   "note": "any number of layers, any comparison that is a total preorder"
  },
  {
   "property": "C16",
   "status": "proved",
   "theorems": [
    "Verif.Object.C16_region",
    "Verif.Object.C16_object",
    "Verif.Object.C16_mismatch"
   ],
   "note": "Any total order on keys (text included), any number and size of regions, key present, absent or missing. Byte layout of regions is not part of this claim."
  },
  {
   "property": "C17",
   "status": "partial",
   "theorems": [
    "Verif.Heap.C17_partial",
    "Verif.Heap.C17_size",
    "Verif.Heap.C17_large_false",
    "Verif.Heap.C17_small_false"
   ],
   "note": "Proved for requests up to 516071 bytes and 2^19 pages; larger requests are accepted by the code and leave the page (C17_large_false, C17_small_false)."
  },
  {
   "property": "C18",
   "status": "partial",
   "theorems": [
    "Verif.Part.C18_rollback_partial",
    "Verif.Part.C18_secondary_cursor_false"
   ],
   "note": "Rollback restores every index exactly, for all statement sequences, failure points and any number of indexes, when UPDATE/DELETE cursors stand on the primary index and UPDATE keeps the primary key; C18_secondary_cursor_false proves that it fails when the planner's cursor stands on a secondary index. Indexes are modelled as keyed sets (C10, C12 connect them with the implementations)."
  },
  {
   "property": "C19",
   "status": "partial",
   "theorems": [
    "Verif.Part.C19_statement_partial",
    "Verif.Part.C19_duplicate_fails",
    "Verif.Part.C19_history_partial",
    "Verif.Part.C19_secondary_cursor_false"
   ],
   "note": "Every statement ends and changes the rows as on a plain set of rows with unique keys; after any history all indexes hold the same rows without duplicate keys (cursors on the primary index). INSERT replace=true (replay) is not covered by the history theorem. False for cursors on a secondary index (C19_secondary_cursor_false)."
  },
  {
   "property": "C20",
   "status": "partial",
   "theorems": [
    "Verif.Part.C20_outcomes_partial",
    "Verif.Part.C20_pending_partial",
    "Verif.Part.C20_committed_lost_false",
    "Verif.Part.C20_built_on_aborted_false"
   ],
   "note": "Proved for histories where every notification brings only commits or only aborts covering everything that ran; two witnesses prove that the general claim is false (commit and abort noticed at once; transaction built on one aborted later)."
  },
  {
   "property": "C21",
   "status": "partial",
   "theorems": [
    "Verif.Exec.C21_sound",
    "Verif.Exec.C21_chain_partial",
    "Verif.Exec.C21_common_partial",
    "Verif.Exec.C21_gc_false",
    "Verif.Exec.C21_fork_false",
    "Verif.Exec.C21_fork_batch_false"
   ],
   "note": "Safe half (C21_sound) for all histories; completeness when a transaction overlaps with the last running one (C21_chain_partial, C21_common_partial). In general false: C21_gc_false (a group that still has transactions is forgotten, the transaction is never decided whatever happens later), C21_fork_false (two transactions with one position)."
  },
  {
   "property": "C22",
   "status": "partial",
   "theorems": [
    "Verif.Exec.C22_chain_partial",
    "Verif.Exec.C22_chain_log_partial",
    "Verif.Exec.C22_common_partial",
    "Verif.Exec.C22_single_partial",
    "Verif.Exec.C22_fork_false",
    "Verif.Exec.C22_groups_false"
   ],
   "note": "Proved for chained histories, for transactions with a common partition and for transactions on one partition each. In general false: C22_fork_false, C22_groups_false."
  },
  {
   "property": "C23",
   "status": "partial",
   "theorems": [
    "Verif.Wal.C23_read_partial",
    "Verif.Wal.C23_recover_partial",
    "Verif.Wal.C23_4gib_false",
    "Verif.Wal.C23_rotation_race_false"
   ],
   "note": "For all sequences of append requests (with any failures) and atomic rotations, reading from any position and recovery return exactly the transactions expected, for sizes within 32 bit arithmetic. False as stated: at 4 GiB the end check wraps (C23_4gib_false); a write racing with the worker's rotation is missed by a cursor (C23_rotation_race_false)."
  },
  {
   "property": "C24",
   "status": "partial",
   "theorems": [
    "Verif.Wal.C24_write_partial",
    "Verif.Wal.C24_history_partial",
    "Verif.Wal.C24_false",
    "Verif.Wal.C24_false_always"
   ],
   "note": "For a failure of the write itself (at any byte) the log is unchanged and the failure is reported; no transaction of it is ever recovered. False for a failing sync or creation of the next file after the write (C24_false, C24_false_always)."
  },
  {
   "property": "C25",
   "status": "partial",
   "theorems": [
    "Verif.Wal.C25_recover_partial",
    "Verif.Wal.C25_complete_spec",
    "Verif.Wal.C25_append_partial",
    "Verif.Wal.C25_append_false"
   ],
   "note": "Recovery of a log cut at any byte returns exactly the complete transactions. Appending after recovery: proved when the log is truncated with the wal_truncate option; false otherwise (C25_append_false: a committed transaction is lost silently)."
  },
  {
   "property": "C26",
   "status": "partial",
   "theorems": [
    "Verif.Recover.C26_recovery_partial",
    "Verif.Recover.C26_running_partial",
    "Verif.Recover.C26_idempotent_partial"
   ],
   "note": "Proved for histories of DML, CREATE/DROP TABLE, checkpoints, catalog writes and cleaning outside a refresh; excludes TRUNCATE and UNLOGGED toggles, for which C26's conclusion fails (C51_checkpoint_false, C55_unlogged_false)."
  },
  {
   "property": "C27",
   "status": "proved",
   "theorems": [
    "Verif.Wal.C27_changes",
    "Verif.Wal.C27_rows_valid"
   ],
   "note": "All lists of row changes and DDL operations, any number of partitions; record size below 4 GiB."
  },
  {
   "property": "C28",
   "status": "proved",
   "theorems": [
    "Verif.Lock.C28_no_conflict",
    "Verif.Lock.C28_exclusive_alone",
    "Verif.Lock.C28_counters"
   ],
   "note": "any run of lock, create lock and unlock operations; a coroutine that waits does nothing, and named locks are not dropped while they wait (ddl lock)."
  },
  {
   "property": "C29",
   "status": "proved",
   "theorems": [
    "Verif.Lock.C29_first_waiter",
    "Verif.Lock.C29_arrival_order",
    "Verif.Lock.C29_granted_when_free",
    "Verif.Lock.C29_no_overtaking",
    "Verif.Lock.C29_wait_list"
   ],
   "note": "the first waiter is blocked by a granted conflicting lock, grants follow the order of arrival, nothing overtakes."
  },
  {
   "property": "C30",
   "status": "proved",
   "theorems": [
    "Verif.Lock.C30_no_cycle",
    "Verif.Lock.C30_someone_runs",
    "Verif.Lock.C30_statement_ordered",
    "Verif.Lock.C30_sessions_finish"
   ],
   "note": "no cycle for coroutines that take locks in the global order; access lists of statements are in that order; any number of sessions finish in exactly two steps per lock."
  },
  {
   "property": "C31",
   "status": "proved",
   "theorems": [
    "Verif.Store.C31_ranges_partition",
    "Verif.Store.C31_route",
    "Verif.Store.C31_rejects",
    "Verif.Store.C31_remove"
   ],
   "note": ""
  },
  {
   "property": "C32",
   "status": "proved",
   "theorems": [
    "Verif.Store.C32_sorted",
    "Verif.Store.C32_contents",
    "Verif.Store.C32_find",
    "Verif.Store.C32_next",
    "Verif.Store.C32_gc"
   ],
   "note": "ids added once (callers never add an id twice)"
  },
  {
   "property": "C33",
   "status": "partial",
   "theorems": [
    "Verif.Codec.C33_like_sound",
    "Verif.Codec.C33_like_exact_partial",
    "Verif.Codec.C33_like_no_backtrack_false",
    "Verif.Codec.C33_like_any_one_false"
   ],
   "note": "violated in general: no backtracking (C33_like_no_backtrack_false), %_ (C33_like_any_one_false); exact for the patterns of C33_like_exact_partial, sound when % is not followed by _"
  },
  {
   "property": "C34",
   "status": "partial",
   "theorems": [
    "Verif.Codec.C34_add_sub_mul",
    "Verif.Codec.C34_div_mod_partial",
    "Verif.Codec.C34_min_false",
    "Verif.Codec.C34_neg_abs_partial"
   ],
   "note": "add/sub/mul exact; div, mod, neg, abs violated for -2^63 (C34_min_false) and exact otherwise"
  },
  {
   "property": "C35",
   "status": "partial",
   "theorems": [
    "Verif.Store.C35_name_roundtrip_partial",
    "Verif.Store.C35_unversioned_state_false",
    "Verif.Store.C35_unique",
    "Verif.Store.C35_overflow_refused"
   ],
   "note": "violated for unversioned incomplete/snapshot names (C35_unversioned_state_false)"
  },
  {
   "property": "C36",
   "status": "partial",
   "theorems": [
    "Verif.Recover.C36_partial",
    "Verif.Recover.C36_refresh_false",
    "Verif.Recover.C36_flush_false"
   ],
   "note": "Proved unless a refresh stops between the removal of the old file and the renaming of the new one (C36_refresh_false, C36_flush_false show the loss in that window)."
  },
  {
   "property": "C37",
   "status": "partial",
   "theorems": [
    "Verif.Wal.C37_keep_partial",
    "Verif.Wal.C37_false",
    "Verif.Wal.C37_recovery_false"
   ],
   "note": "Proved when no slot is ahead of the position recovery needs. False as stated: wal_slots takes the largest slot (C37_false, C37_recovery_false)."
  },
  {
   "property": "C38",
   "status": "partial",
   "theorems": [
    "Verif.Json.C38_real_roundtrip_false",
    "Verif.Json.C38_real_roundtrip_partial"
   ],
   "note": "violated by the code (single precision storage): C38_real_roundtrip_false; what holds is C38_real_roundtrip_partial"
  },
  {
   "property": "C39",
   "status": "partial",
   "theorems": [
    "Verif.Json.Text.C39_parsed_document",
    "Verif.Json.Text.C39_any_text",
    "Verif.Json.Text.C39_skip_agrees",
    "Verif.Json.Text.C39_text_roundtrip_partial",
    "Verif.Json.Text.C39_int_min_false"
   ],
   "note": "violated for the smallest integer (C39_int_min_false); text round trip excludes reals (printf %g is not modelled); C39_parsed_document and C39_any_text hold for any text with known escapes"
  },
  {
   "property": "C40",
   "status": "partial",
   "theorems": [
    "Verif.Codec.C40_text_to_int",
    "Verif.Codec.C40_negative_and_empty_false"
   ],
   "note": "digit texts exact; negative numbers and the empty text violate the round trip (C40_negative_and_empty_false)"
  },
  {
   "property": "C41",
   "status": "proved",
   "theorems": [
    "Verif.Row.C41_routing"
   ],
   "note": "Hash from values = hash of the stored row = hash of the key values (concrete murmur3)."
  },
  {
   "property": "C42",
   "status": "partial",
   "theorems": [
    "Verif.Row.C42_in_range_partial",
    "Verif.Row.C42_no_silent_truncation_false"
   ],
   "note": "In-range integers kept; false in general: 300 in TINYINT reads back as 44 (C42_no_silent_truncation_false)."
  },
  {
   "property": "C43",
   "status": "partial",
   "theorems": [
    "Verif.Row.C43_full_key",
    "Verif.Row.C43_prefix_partial",
    "Verif.Row.C43_prefix_false"
   ],
   "note": "Full keys proved; prefixes proved unless a timestamp key column is before 1970, where the claim is false (C43_prefix_false)."
  },
  {
   "property": "C44",
   "status": "partial",
   "theorems": [
    "Verif.Row.C44_update_partial",
    "Verif.Row.C44_identity_false"
   ],
   "note": "Proved for non-identity columns; updating an identity column that is no key follows a NULL pointer (C44_identity_false)."
  },
  {
   "property": "C45",
   "status": "proved",
   "theorems": [
    "Verif.Index.C45_scan_and_change"
   ],
   "note": "all histories, normalised comparisons"
  },
  {
   "property": "C46",
   "status": "proved",
   "theorems": [
    "Verif.Index.C46_balanced"
   ],
   "note": "all histories, normalised comparisons"
  },
  {
   "property": "C47",
   "status": "partial",
   "theorems": [
    "Verif.Part.C47_memory_partial",
    "Verif.Part.C47_secondary_cursor_false"
   ],
   "note": "Proved for all histories of transactions decided one after another with cursors on the primary index; C47_secondary_cursor_false and C20_built_on_aborted_false are witnesses of double release / release of a live row."
  },
  {
   "property": "C48",
   "status": "partial",
   "theorems": [
    "Verif.Heap.C48_partial"
   ],
   "note": "Proved for rows up to 516071 bytes and up to 2^19 pages."
  },
  {
   "property": "C49",
   "status": "partial",
   "theorems": [
    "Verif.Heap.C49_partial"
   ],
   "note": "Proved for rows up to 516071 bytes and up to 2^19 pages; the race on the file header's crc (counters updated during heap_create) is not modelled."
  },
  {
   "property": "C50",
   "status": "partial",
   "theorems": [
    "Verif.Heap.C50_partial",
    "Verif.Heap.C50_delete_false",
    "Verif.Heap.C50_update_false"
   ],
   "note": "Holds if no row of the table is deleted or updated during the build. Fails otherwise: C50_delete_false (released row stays in the new index), C50_update_false (spurious duplicate error)."
  },
  {
   "property": "C51",
   "status": "partial",
   "theorems": [
    "Verif.Heap.C51_partial",
    "Verif.Heap.C51_restart_false",
    "Verif.Recover.C51_checkpoint_false",
    "Verif.Recover.C51_insert_lost_false"
   ],
   "note": "Holds until a restart; fails after checkpoint and restart (C51_restart_false, C51_checkpoint_false, C51_insert_lost_false)."
  },
  {
   "property": "C52",
   "status": "partial",
   "theorems": [
    "Verif.Heap.C52_partial",
    "Verif.Heap.C52_false"
   ],
   "note": "The failed statement itself changes nothing visible (C52_partial); afterwards rows are lost and deletes undone by the next checkpoint and restart (C52_false)."
  },
  {
   "property": "C53",
   "status": "partial",
   "theorems": [
    "Verif.Lock.C53_false",
    "Verif.Lock.C53_both_granted",
    "Verif.Lock.C53_covers_partial"
   ],
   "note": "C53_false, C53_both_granted: a relation both written and read in a subquery gets exclusive_ro, which two such statements hold together. Proved for the other combinations."
  },
  {
   "property": "C54",
   "status": "partial",
   "theorems": [
    "Verif.Lock.C54_false",
    "Verif.Lock.C54_forever",
    "Verif.Lock.C54_ddl_partial"
   ],
   "note": "C54_false, C54_forever: CREATE INDEX takes the ddl lock before the catalog lock, other DDL the other way round. Proved for ordered acquisition."
  },
  {
   "property": "C55",
   "status": "partial",
   "theorems": [
    "Verif.Recover.C55_partial",
    "Verif.Recover.C55_drop_false",
    "Verif.Recover.C55_unlogged_false"
   ],
   "note": "Proved for regular histories; C55_drop_false and C55_unlogged_false are reachable histories after which recovery fails."
  },
  {
   "property": "C56",
   "status": "partial",
   "theorems": [
    "Verif.Recover.C56_partial",
    "Verif.Recover.C56_refresh_false"
   ],
   "note": "Proved when no checkpoint is in progress; C56_refresh_false shows the loss when cleaning runs during a refresh."
  },
  {
   "property": "C57",
   "status": "partial",
   "theorems": [
    "Verif.Recover.C57_partial",
    "Verif.Recover.C57_torn_false"
   ],
   "note": "Proved when no file is newer than the surviving log; C57_torn_false shows a half recovered transaction otherwise."
  },
  {
   "property": "C58",
   "status": "partial",
   "theorems": [
    "Verif.Recover.C58_catalog",
    "Verif.Recover.C58_bootstrap_false"
   ],
   "note": "Proved once a catalog file exists; the very first write is not protected (C58_bootstrap_false)."
  },
  {
   "property": "C59",
   "status": "partial",
   "theorems": [
    "Verif.Query.C59_order_partial",
    "Verif.Query.C59_main_partial",
    "Verif.Query.C59_text_false"
   ],
   "note": "Proved for any number of partitions, keys of all modelled types but text (C59_order_partial), and for one set also text (C59_main_partial). False for text keys over partitions (C59_text_false): the comparison of text returns a byte difference, and the merge tests for exactly 1. JSON and vector keys are not modelled."
  },
  {
   "property": "C60",
   "status": "partial",
   "theorems": [
    "Verif.Query.C60_distinct_partial",
    "Verif.Query.C60_text_false"
   ],
   "note": "Proved for keys of all modelled types but text; false for text keys (C60_text_false)."
  },
  {
   "property": "C61",
   "status": "proved",
   "theorems": [
    "Verif.Query.C61_limit",
    "Verif.Query.C61_scan"
   ],
   "note": "Union over partitions with limit+offset pushed down, and the counters of the scan in one set."
  },
  {
   "property": "C62",
   "status": "partial",
   "theorems": [
    "Verif.Query.C62_groups_partial",
    "Verif.Query.C62_zero_false"
   ],
   "note": "One row per key for keys whose canonical values coincide with equality. False for groups 0.0 and -0.0, which compare equal but hash differently (C62_zero_false). JSON and vector keys and integer overflow of table sizes are not modelled."
  },
  {
   "property": "C63",
   "status": "partial",
   "theorems": [
    "Verif.Query.C63_values_partial",
    "Verif.Query.C63_avg_false"
   ],
   "note": "COUNT, MIN, MAX, SUM and AVG over integers without overflow, COUNT(DISTINCT). AVG of negative integers is false (C63_avg_false). SUM and AVG over doubles and lambda aggregates are not modelled."
  },
  {
   "property": "C64",
   "status": "partial",
   "theorems": [
    "Verif.Query.C64_any_partial",
    "Verif.Query.C64_all_partial",
    "Verif.Query.C64_in_partial",
    "Verif.Query.C64_not_in_partial",
    "Verif.Query.C64_exists",
    "Verif.Query.C64_null_false",
    "Verif.Query.C64_empty_false"
   ],
   "note": "IN, NOT IN, ANY, ALL for a non-NULL left value and same-typed values; EXISTS in full. False for NULL on the left of ANY and ALL (C64_null_false) and for NULL IN an empty subquery (C64_empty_false)."
  },
  {
   "property": "C65",
   "status": "partial",
   "theorems": [
    "Verif.Query.C65_where_partial",
    "Verif.Query.C65_no_nulls_partial",
    "Verif.Query.C65_not_false",
    "Verif.Query.C65_between_false",
    "Verif.Query.C65_between"
   ],
   "note": "Conditions whose NOTs stand only before simple conditions, and every condition on rows without NULLs. False for NOT over AND or OR with NULLs (C65_not_false) and for NOT BETWEEN (C65_between_false)."
  },
  {
   "property": "C66",
   "status": "partial",
   "theorems": [
    "Verif.Query.C66_order",
    "Verif.Query.C66_sort_order",
    "Verif.Query.C66_null",
    "Verif.Query.C66_operators",
    "Verif.Query.C66_int_like",
    "Verif.Query.C66_mixed_partial",
    "Verif.Query.C66_mixed_false",
    "Verif.Query.C66_in_false"
   ],
   "note": "Operators and sort order for values of one type and for integer-like values (int, bool, date, timestamp) among each other; integers of at most 53 bits with doubles. False for larger integers with doubles (C66_mixed_false), and IN disagrees with = on an integer and a double (C66_in_false). JSON and vector comparisons are not modelled here."
  },
  {
   "property": "C67",
   "status": "partial",
   "theorems": [
    "Verif.Query.C67_scan_partial",
    "Verif.Query.C67_table_partial",
    "Verif.Query.C67_subquery_partial",
    "Verif.Query.C67_double_false",
    "Verif.Query.C67_int32_false",
    "Verif.Query.C67_between_false",
    "Verif.Query.C67_abort_false",
    "Verif.Query.C67_subquery_false"
   ],
   "note": "Proved for key columns compared with values that fit their type and, for lookups, can be hashed, over an index that returns its rows in key order (C10-C13). False otherwise: `id > 0.5` (C67_double_false) and `id > -3000000000` on a 32-bit key (C67_int32_false) lose rows, a row-dependent bound of BETWEEN reads through a missing cursor (C67_between_false), `id = NULL` and `id = 1.5` abort the process (C67_abort_false), a lookup through a secondary index in a subquery reads missing columns (C67_subquery_false)."
  },
  {
   "property": "C68",
   "status": "partial",
   "theorems": [
    "Verif.Json.C68_set_partial",
    "Verif.Json.C68_set_error",
    "Verif.Json.C68_set_get",
    "Verif.Json.C68_set_nested_false",
    "Verif.Json.C68_unset",
    "Verif.Json.C68_unset_get",
    "Verif.Json.C68_empty_name"
   ],
   "note": "Proved except for adding a new field to a nested object, where set() also adds a field with the value to every enclosing object (C68_set_nested_false); unset() for documents without duplicate names. The encoding of the new value is that of C01."
  },
  {
   "property": "C69",
   "status": "partial",
   "theorems": [
    "Verif.Json.C69_append",
    "Verif.Json.C69_push",
    "Verif.Json.C69_pop",
    "Verif.Json.C69_pop_back",
    "Verif.Json.C69_put_partial",
    "Verif.Json.C69_remove_partial",
    "Verif.Json.C69_index_false"
   ],
   "note": "Proved for indexes that fit 32 bits; a larger index is truncated and accepted (C69_index_false)."
  },
  {
   "property": "C70",
   "status": "partial",
   "theorems": [
    "Verif.Func.C70_sound_partial",
    "Verif.Func.C70_shape_partial",
    "Verif.Func.C70_total",
    "Verif.Func.C70_first_false",
    "Verif.Func.C70_one_false",
    "Verif.Func.C70_escape_false"
   ],
   "note": "Soundness for patterns without `_` after `%`, exactness for patterns of single characters separated by `%` (C70_shape_partial), no reads outside of the strings; the general statement is false of the code (C70_first_false, C70_one_false, C70_escape_false)."
  },
  {
   "property": "C71",
   "status": "partial",
   "theorems": [
    "Verif.Func.C71_length",
    "Verif.Func.C71_substr_partial",
    "Verif.Func.C71_substr_rest_partial",
    "Verif.Func.C71_substr_false",
    "Verif.Func.C71_strpos",
    "Verif.Func.C71_replace",
    "Verif.Func.C71_replace_unique",
    "Verif.Func.C71_ltrim",
    "Verif.Func.C71_rtrim",
    "Verif.Func.C71_trim",
    "Verif.Func.C71_lower",
    "Verif.Func.C71_upper"
   ],
   "note": "All functions are exact on characters; substr is proved for positions \u2265 0 and counts in the range of int, for a negative position it reads outside of the string (C71_substr_false)."
  },
  {
   "property": "C72",
   "status": "partial",
   "theorems": [
    "Verif.Func.C72_get",
    "Verif.Func.C72_set",
    "Verif.Func.C72_count",
    "Verif.Func.C72_order",
    "Verif.Func.C72_text",
    "Verif.Func.C72_literal",
    "Verif.Func.C72_extract",
    "Verif.Func.C72_add_partial",
    "Verif.Func.C72_invalid_false",
    "Verif.Func.C72_add_false"
   ],
   "note": "Calendar, order, text and extract are proved for all dates; the general statement is false of the code: days that do not exist are accepted (C72_invalid_false), the number of days is cut to 32 bits (C72_add_false)."
  },
  {
   "property": "C73",
   "status": "partial",
   "theorems": [
    "Verif.Func.C73_text",
    "Verif.Func.C73_extract_partial",
    "Verif.Func.C73_trunc_partial",
    "Verif.Func.C73_arith_partial",
    "Verif.Func.C73_negative_false",
    "Verif.Func.C73_overflow_false",
    "Verif.Func.C73_literal",
    "Verif.Func.C73_compare"
   ],
   "note": "Proved: text round trip, literals with any units, order, sums, extract and trunc of times that are not negative. Refuted: extract and trunc of negative times; overflow of literals is not refused."
  },
  {
   "property": "C74",
   "status": "partial",
   "theorems": [
    "Verif.Func.C74_literal",
    "Verif.Func.C74_print",
    "Verif.Func.C74_roundtrip_partial",
    "Verif.Func.C74_invalid_false",
    "Verif.Func.C74_seconds_false",
    "Verif.Func.C74_bounds_false"
   ],
   "note": "Literals with valid fields and an offset are exactly that moment and errors outside of the range (C74_literal); the printed text (C74_print) reads back in every session time zone (C74_roundtrip_partial) for offsets of whole minutes and local times within 1970..9999. False: hours over 23, 31 February and so on are accepted and carried (C74_invalid_false), seconds of offsets are dropped in the text (C74_seconds_false), a text with leading spaces is read behind its end (C74_bounds_false)."
  },
  {
   "property": "C75",
   "status": "partial",
   "theorems": [
    "Verif.Func.C75_plus_partial",
    "Verif.Func.C75_minus_partial",
    "Verif.Func.C75_diff",
    "Verif.Func.C75_months_partial",
    "Verif.Func.C75_minus_months_partial",
    "Verif.Func.C75_month_false",
    "Verif.Func.C75_epoch_false",
    "Verif.Func.C75_inverse",
    "Verif.Func.C75_dates"
   ],
   "note": "Exact for days and microseconds (C75_plus_partial, C75_minus_partial, C75_inverse, C75_diff) and for months if the target month has the day (C75_months_partial, C75_minus_months_partial), and for dates (C75_dates). False: 31 January + 1 month is 2 March (C75_month_false); in the first second of 1970 a valid result may be an error (C75_epoch_false). Missing: intervals that mix months with days and time."
  },
  {
   "property": "C76",
   "status": "partial",
   "theorems": [
    "Verif.Func.C76_trunc",
    "Verif.Func.C76_zone_false",
    "Verif.Func.C76_bin",
    "Verif.Func.C76_extract"
   ],
   "note": "date_trunc in UTC (C76_trunc), date_bin (C76_bin), extract in all time zones (C76_extract). False: date_trunc in other time zones (C76_zone_false)."
  },
  {
   "property": "C77",
   "status": "partial",
   "theorems": [
    "Verif.Func.C77_near_partial",
    "Verif.Func.C77_search_false",
    "Verif.Func.C77_bounds_false"
   ],
   "note": "At most one transition between the found one and the time; reads outside only after the last transition (C77_near_partial). False: C77_search_false, C77_bounds_false."
  },
  {
   "property": "C78",
   "status": "partial",
   "theorems": [
    "Verif.Seq.C78_unique_partial",
    "Verif.Seq.C78_restart_partial",
    "Verif.Seq.C78_explicit_false",
    "Verif.Seq.C78_negative_false",
    "Verif.Seq.C78_reuse_false",
    "Verif.Seq.C78_race_false",
    "Verif.Seq.C78_set_false",
    "Verif.Seq.C78_set_back_false"
   ],
   "note": "Proved for histories in which all values are generated (C78_unique_partial) and, for explicit values that are not negative, right after a restart (C78_restart_partial). False: explicit values do not move the sequence (C78_explicit_false), negative values move it below zero at a restart (C78_negative_false), values of deleted rows are generated again after a restart (C78_reuse_false), a refresh can set the sequence back (C78_race_false), SET IDENTITY is lost (C78_set_false)."
  },
  {
   "property": "C79",
   "status": "partial",
   "theorems": [
    "Verif.Parse.C79_read_partial",
    "Verif.Parse.C79_unambiguous",
    "Verif.Parse.C79_write_partial",
    "Verif.Parse.C79_alias",
    "Verif.Parse.C79_alias_false",
    "Verif.Parse.C79_like_false",
    "Verif.Parse.C79_not_false",
    "Verif.Parse.C79_unary_false",
    "Verif.Parse.C79_between_false",
    "Verif.Parse.C79_any_false"
   ],
   "note": "Proved for the grammar of precedence levels (read, unambiguous, write, alias). Counterexamples are proved for LIKE, NOT, repeated prefix operators, BETWEEN, ANY/ALL and a name after an operator; CASE, CAST, sub-queries and methods are not modelled."
  },
  {
   "property": "C80",
   "status": "partial",
   "theorems": [
    "Verif.Parse.Lex.C80_token",
    "Verif.Parse.Lex.C80_text",
    "Verif.Parse.Lex.C80_string",
    "Verif.Parse.Lex.C80_two_dots",
    "Verif.Parse.Lex.C80_keyword",
    "Verif.Parse.Lex.C80_quote_false",
    "Verif.Parse.Lex.C80_number_false",
    "Verif.Parse.C80_expression",
    "Verif.Parse.C80_roundtrip"
   ],
   "note": "Proved for all texts of integers, names, keywords, paths, symbols and strings, and for whole expressions. Counterexamples are proved for single quotes inside single quotes and for large numbers; the value of a real (strtod) is not modelled."
  },
  {
   "property": "C81",
   "status": "partial",
   "theorems": [
    "Verif.Repl.C81_prefix_partial",
    "Verif.Repl.C81_content_partial",
    "Verif.Repl.C81_reported_partial",
    "Verif.Repl.C81_catch_up_partial",
    "Verif.Repl.C81_aborted_false",
    "Verif.Repl.C81_twice_false",
    "Verif.Repl.C81_gap_false",
    "Verif.Repl.C81_lost_false",
    "Verif.Repl.C81_stuck_false"
   ],
   "note": "Proved for histories in which the log is not read while a batch is unpublished, requests are not replayed at the same time, the log is cleaned only below the slot and the primary loses nothing. The code ensures none of the four; a counterexample is proved for each, and for a new replica that stays empty with no error."
  },
  {
   "property": "C82",
   "status": "partial",
   "theorems": [
    "Verif.Net.C82_messages",
    "Verif.Net.C82_truncated",
    "Verif.Net.C82_limit",
    "Verif.Net.C82_memory_safe",
    "Verif.Net.C82_long_head",
    "Verif.Net.C82_head_limit_false",
    "Verif.Net.C82_huge_body_false",
    "Verif.Net.C82_reply",
    "Verif.Net.C82_own_requests"
   ],
   "note": "Proved for heads up to 512 bytes and limits up to 2 GB; heads of 513-767 bytes are accepted or refused depending on the cuts, and a body of 4 GB is taken for the next requests: both are proved as counterexamples."
  },
  {
   "property": "C85",
   "status": "partial",
   "theorems": [
    "Verif.Net.Table.C85_functions",
    "Verif.Net.Table.C85_timezones",
    "Verif.Net.Table.C85_delete_false"
   ],
   "note": "Registration and search are proved for all names; removal is not safe (hashtable_delete breaks the chain): counterexample proved."
  },
  {
   "property": "C83",
   "status": "partial",
   "theorems": [
    "Verif.Net.Auth.C83_sound",
    "Verif.Net.Auth.C83_new_token",
    "Verif.Net.Auth.C83_after_sync",
    "Verif.Net.Auth.C83_accepted",
    "Verif.Net.Auth.C83_gate",
    "Verif.Net.Auth.C83_safe",
    "Verif.Net.Auth.C83_created",
    "Verif.Net.Auth.C83_no_secret_no_token",
    "Verif.Net.Auth.C83_forged_false",
    "Verif.Net.Auth.C83_empty_secret_false",
    "Verif.Net.Auth.C83_own_client_false",
    "Verif.Net.Auth.C83_high_byte_false"
   ],
   "note": "violated: anything in front of a cached digest is accepted (C83_forged_false), a user without a secret is open to everybody (C83_empty_secret_false), the own client's header is refused (C83_own_client_false), bytes over 127 in a token read beyond a table (C83_high_byte_false); HMAC-SHA256 itself is a parameter, hash collisions are not excluded by the cache"
  },
  {
   "property": "C84",
   "status": "partial",
   "theorems": [
    "Verif.Net.Uri.C84_percent",
    "Verif.Net.Uri.C84_decode",
    "Verif.Net.Uri.C84_address",
    "Verif.Net.Uri.C84_target",
    "Verif.Net.Uri.C84_service",
    "Verif.Net.Uri.C84_own_request",
    "Verif.Net.Uri.C84_export",
    "Verif.Net.Uri.C84_safe",
    "Verif.Net.Uri.C84_uri_argument_false",
    "Verif.Net.Uri.C84_secret_false",
    "Verif.Net.Uri.C84_ipv6_false",
    "Verif.Net.Uri.C84_encoding_false",
    "Verif.Net.Uri.C84_at_false",
    "Verif.Net.Uri.C84_service_false"
   ],
   "note": "Addresses over http/https with any parts that do not contain their separators are read exactly as written (C84_address), request targets as well (C84_target), the client's own targets without `&`, `%` (C84_own_request); written addresses are read back without a secret and with plain parts (C84_export); any text gives an answer or an error unless an argument is named uri (C84_safe). Violated by the code: an argument named uri frees the text being read and an empty address reads NULL (C84_uri_argument_false); the secret is written as the user name (C84_secret_false); IPv6 hosts are written without brackets (C84_ipv6_false); arguments are not percent-encoded when written (C84_encoding_false); an @ in an argument is taken for a user (C84_at_false); services with arguments are refused (C84_service_false). amelie:// addresses are in the model and in C84_safe but not in the round trips."
  },
  {
   "property": "C86",
   "status": "partial",
   "theorems": [
    "Verif.Compile.C86_value_partial",
    "Verif.Compile.C86_error_partial",
    "Verif.Compile.C86_only_partial",
    "Verif.Compile.C86_register_partial",
    "Verif.Compile.C86_bounds",
    "Verif.Compile.C86_memory_partial",
    "Verif.Compile.C86_like_false",
    "Verif.Compile.C86_trap_false",
    "Verif.Compile.C86_in_leak_false",
    "Verif.Compile.C86_volatile_false",
    "Verif.Compile.C86_mirror_false",
    "Verif.Compile.C86_truth_partial",
    "Verif.Compile.C86_integers_partial",
    "Verif.Compile.C86_in_partial",
    "Verif.Compile.C86_compare_partial",
    "Verif.Compile.C86_nan"
   ],
   "note": "Proved for all expressions of operators, CASE, BETWEEN, IN, ANY/ALL, calls, arrays and objects. Missing: LIKE as an operand (C86_like_false), volatile functions in BETWEEN and CASE (C86_volatile_false), the buffer of the left side of IN (C86_in_leak_false), operations without a result (C86_trap_false). Subqueries, aggregates and user functions are not in the model."
  },
  {
   "property": "C87",
   "status": "partial",
   "theorems": [
    "Verif.Func.Choose.C87_greatest_partial",
    "Verif.Func.Choose.C87_least_partial",
    "Verif.Func.Choose.C87_coalesce",
    "Verif.Func.Choose.C87_nullif_partial",
    "Verif.Func.Choose.C87_integers_partial",
    "Verif.Func.Choose.C87_sign_double",
    "Verif.Func.Choose.C87_text_false",
    "Verif.Func.Choose.C87_nan_false",
    "Verif.Func.Choose.C87_trap_false"
   ],
   "note": "Proved for all values except: text in GREATEST and LEAST (C87_text_false), NaN (C87_nan_false), the least integer (C87_trap_false)."
  },
  {
   "property": "C88",
   "status": "partial",
   "theorems": [
    "Verif.Compile.C88_scan_partial",
    "Verif.Compile.C88_error_partial",
    "Verif.Compile.C88_only_partial",
    "Verif.Compile.C88_select_partial",
    "Verif.Compile.C88_path_partial",
    "Verif.Compile.C88_hash_stop_false",
    "Verif.Compile.C88_limit_cursor_false",
    "Verif.Compile.C88_order_width_false"
   ],
   "note": "Proved for every list of tables, every expression C86 covers and every LIMIT and OFFSET, with what an index returns as a parameter (C10 to C15, C67). Missing: stop conditions on hash indexes (C88_hash_stop_false), cursors of inner tables after LIMIT (C88_limit_cursor_false), result sets narrower than what is pushed (C88_order_width_false). Subqueries, functions and JSON in FROM, grouping and sorting are not in the model."
  },
  {
   "property": "C89",
   "status": "partial",
   "theorems": [
    "Verif.Catalog.C89_abort_partial",
    "Verif.Catalog.C89_session_partial",
    "Verif.Catalog.C89_replay_partial",
    "Verif.Catalog.C89_read_only_false",
    "Verif.Catalog.C89_wal_false",
    "Verif.Catalog.C89_unlogged_false",
    "Verif.Catalog.C89_spelling_false",
    "Verif.Catalog.C89_index_false"
   ],
   "note": "proved for all histories and transactions without SET [UN]LOGGED to the same value, CREATE INDEX, and database/storage renames typed in another case, and for errors raised before the WAL step; false otherwise (five counterexamples)"
  },
  {
   "property": "C90",
   "status": "partial",
   "theorems": [
    "Verif.Catalog.C90_unique_partial",
    "Verif.Catalog.C90_home_partial",
    "Verif.Catalog.C90_orphan_false",
    "Verif.Catalog.C90_drop_table",
    "Verif.Catalog.C90_create_table",
    "Verif.Catalog.C90_rename_table",
    "Verif.Catalog.C90_drop_database",
    "Verif.Catalog.C90_rename_database",
    "Verif.Catalog.C90_add_column",
    "Verif.Catalog.C90_drop_column",
    "Verif.Catalog.C90_rename_column"
   ],
   "note": "unique names for all histories whose rolled back transactions keep to the statements of C89; databases of objects under the check of session_set still holding (counterexample otherwise); meaning of table, database and column statements, not of index, tier, storage and function ones"
  },
  {
   "property": "C91",
   "status": "partial",
   "theorems": [
    "Verif.Catalog.C91_restart_partial",
    "Verif.Catalog.C91_names_partial",
    "Verif.Catalog.C91_dropped_false",
    "Verif.Catalog.C91_identity_false",
    "Verif.Catalog.C91_replace_false",
    "Verif.Catalog.C91_utf8_false"
   ],
   "note": "proved for every reachable catalog with UTF-8 texts, no dropped column and functions that compile in file order. Each condition is needed: C91_utf8_false, C91_dropped_false (a dropped column comes back), C91_replace_false (the server does not start), and the identity counter is not in the file (C91_identity_false). Writing and renaming the file is C58."
  },
  {
   "property": "C92",
   "status": "partial",
   "theorems": [
    "Verif.Query.Select.C92_pushdown_partial",
    "Verif.Query.Select.C92_main_partial",
    "Verif.Query.Select.C92_alias_false",
    "Verif.Query.Select.C92_order_distinct_false",
    "Verif.Query.Select.C92_limit_false",
    "Verif.Query.Select.C92_position_false"
   ],
   "note": "Proved for both planners. Excluded: text or NaN keys in a pushed-down ORDER BY, LIMIT + OFFSET over 64 bits, DISTINCT of a column whose name is the label of another column, DISTINCT aggregates only in ORDER BY (all four proved to fail), errors of expressions, lambda aggregates, double sums, SELECT without FROM."
  },
  {
   "property": "C93",
   "status": "partial",
   "theorems": [
    "Verif.Output.C93_body_partial",
    "Verif.Output.C93_reads_back_partial",
    "Verif.Output.C93_control_false",
    "Verif.Output.C93_nan_false",
    "Verif.Output.C93_error",
    "Verif.Output.C93_error_cut_false",
    "Verif.Output.C93_document"
   ],
   "note": "C93_body_partial: for all results with printable strings and reals that printf prints as JSON numbers, the body is an RFC 8259 text for the rows (or the limit error, and then the text reaches the limit); C93_reads_back_partial: the server's own parser reads the rows back (no reals, no -2^63); C93_error, C93_document. Not so: control characters other than \\b \\f \\n \\r \\t are written raw (C93_control_false), nan and inf are written as such (C93_nan_false), errors over 512 bytes are cut inside of a UTF-8 character (C93_error_cut_false). Missing: the decimal value of reals, results without columns, TIMESTAMP offsets are given."
  },
  {
   "property": "C94",
   "status": "partial",
   "theorems": [
    "Verif.Insert.C94_values_partial",
    "Verif.Insert.C94_list_partial",
    "Verif.Insert.C94_list_order",
    "Verif.Insert.C94_count",
    "Verif.Insert.C94_generate_partial",
    "Verif.Insert.C94_shard_partial",
    "Verif.Insert.C94_escape_false",
    "Verif.Insert.C94_comma_false",
    "Verif.Insert.C94_default_false",
    "Verif.Insert.C94_min_false",
    "Verif.Insert.C94_generate_false",
    "Verif.Insert.C94_identity_false",
    "Verif.Insert.C94_typed"
   ],
   "note": "C94_values_partial and C94_list_partial: texts of rows with the literals of every type (reals with a point, strings without backslashes, JSON without reals) are read into the rows they say, or refused for a NULL in a NOT NULL column; C94_list_order, C94_count: wrong lists and counts are refused; C94_generate_partial for counts below 2^31; C94_shard_partial for tables with at most one identity column. Missing: reals with exponents, strings with escapes (false: C94_escape_false), INSERT \u2026 SELECT, evaluation of generated columns. The claim is false for C94_comma_false, C94_default_false, C94_min_false, C94_generate_false, C94_identity_false."
  },
  {
   "property": "C95",
   "status": "partial",
   "theorems": [
    "Verif.Dml.C95_accept",
    "Verif.Dml.C95_order",
    "Verif.Dml.C95_row",
    "Verif.Dml.C95_update_partial",
    "Verif.Dml.C95_delete_partial",
    "Verif.Dml.C95_upsert_partial",
    "Verif.Dml.C95_history_partial",
    "Verif.Dml.C95_where",
    "Verif.Dml.C95_identity_false",
    "Verif.Dml.C95_generated_false",
    "Verif.Dml.C95_excluded_false",
    "Verif.Dml.C95_narrow_false"
   ],
   "note": "Expressions are functions of the row and of EXCLUDED without effects; one partition, primary ordered index only; rows as lists of values (bytes: C44); a statement that fails is undone by C47. False in the code: SET of an identity column reads a NULL pointer, generated columns are not recomputed, EXCLUDED shows the values as given, integers are cut to the width of the column without an error."
  },
  {
   "property": "C96",
   "status": "partial",
   "theorems": [
    "Verif.Import.C96_columns",
    "Verif.Import.C96_columns_only",
    "Verif.Import.C96_rows_partial",
    "Verif.Import.C96_listed_partial",
    "Verif.Import.C96_args_partial",
    "Verif.Import.C96_typed",
    "Verif.Import.C96_dropped_false",
    "Verif.Import.C96_syntax_false",
    "Verif.Import.C96_empty_false",
    "Verif.Import.C96_lines_false",
    "Verif.Import.C96_escape_false",
    "Verif.Import.C96_csv_false",
    "Verif.Import.C96_columns_false",
    "Verif.Import.C96_endless_false"
   ],
   "note": "Proved for CSV, JSONL and JSON with and without a list of columns, arguments of functions, lists of columns (exactly which texts are taken), shape of any row taken. Strings without escapes; the last column of the table is not a dropped one. False cases proved: dropped last column, non-JSON syntax taken, empty bodies refused, lines, escapes, CSV quoting, lists with an empty name, endless loop for functions without arguments."
  },
  {
   "property": "C97",
   "status": "partial",
   "theorems": [
    "Verif.Bus.C97_fifo",
    "Verif.Bus.C97_nothing_lost",
    "Verif.Bus.C97_capacity",
    "Verif.Bus.C97_coalesced",
    "Verif.Bus.C97_once",
    "Verif.Bus.C97_wake",
    "Verif.Bus.C97_asleep",
    "Verif.Bus.C97_progress"
   ],
   "note": "Memory is sequentially consistent (the x86 instructions used are full fences; atomic_u32_set is only an acquire operation on other processors), the positions do not wrap, and the main loop is modelled at the grain of its accesses to shared variables. Eventual delivery under a fair scheduler is not stated as such: C97_progress and C97_wake say that nothing is stuck. What a coroutine does with the mailbox is not modelled."
  },
  {
   "property": "C98",
   "status": "partial",
   "theorems": [
    "Verif.Timer.C98_fires",
    "Verif.Timer.C98_once",
    "Verif.Timer.C98_capacity",
    "Verif.Timer.C98_start",
    "Verif.Timer.C98_duration_partial",
    "Verif.Timer.C98_not_overslept_partial",
    "Verif.Timer.C98_early_false",
    "Verif.Timer.C98_time_false",
    "Verif.Timer.C98_time_partial",
    "Verif.Timer.C98_negative_false",
    "Verif.Timer.C98_cut_false",
    "Verif.Timer.C98_jump_false"
   ],
   "note": "The duration holds up to the age of the cached time (C98_duration_partial); C98_early_false is a run where sleep(1000) ends at once since another session of the task sleeps; C98_time_false, C98_negative_false, C98_cut_false (argument cut to 32 bits) and C98_jump_false are further failures. The clock is taken not to go backwards; qsort is trusted to sort."
  },
  {
   "property": "C99",
   "status": "partial",
   "theorems": [
    "Verif.Backup.C99_restore",
    "Verif.Backup.C99_listing",
    "Verif.Backup.C99_files",
    "Verif.Backup.C99_wal_partial",
    "Verif.Backup.C99_begins_partial",
    "Verif.Backup.C99_no_links_partial",
    "Verif.Backup.C99_drop_keeps",
    "Verif.Backup.C99_gc_false",
    "Verif.Backup.C99_two_false",
    "Verif.Backup.C99_leak_false",
    "Verif.Backup.C99_path_false"
   ],
   "note": "A restore that gets all its answers writes exactly the database as it was when the backup began (C99_restore), partition files are always sent (C99_files), the end of a backup touches nothing (C99_drop_keeps); wal files only while they are there (C99_wal_partial: wal_slots takes the maximum, so garbage collection removes listed files, C99_gc_false), a backup begins only without another one (C99_begins_partial, C99_no_links_partial): a second fails and its links stay (C99_two_false, C99_leak_false); any path is sent (C99_path_false). The four JSON files inside the first reply and disk errors are not modelled."
  },
  {
   "property": "C100",
   "status": "partial",
   "theorems": [
    "Verif.Cli.C100_lossless",
    "Verif.Cli.C100_ends",
    "Verif.Cli.C100_statement",
    "Verif.Cli.C100_lines_partial",
    "Verif.Cli.C100_more_lines",
    "Verif.Cli.C100_if_not_false",
    "Verif.Cli.C100_case_false",
    "Verif.Cli.C100_end_comma_false",
    "Verif.Cli.C100_if_comment_false",
    "Verif.Cli.C100_comment_false"
   ],
   "note": "Nothing is lost or reordered for all lines (C100_lossless), complete blocks never wait (C100_ends); every text of statements is cut into exactly its statements in any division into lines (C100_statement, C100_lines_partial, C100_more_lines), where keywords of blocks have white space or ';' on both sides and IF is followed by a condition that does not begin with NOT. Without this it is false: C100_if_not_false, C100_case_false, C100_end_comma_false, C100_if_comment_false, C100_comment_false."
  },
  {
   "property": "C101",
   "status": "proved",
   "theorems": [
    "Verif.Crc.C101_same",
    "Verif.Crc.C101_pieces",
    "Verif.Crc.C101_remainder",
    "Verif.Crc.C101_range",
    "Verif.Crc.C101_burst",
    "Verif.Crc.C101_bytes",
    "Verif.Crc.C101_record",
    "Verif.Crc.C101_rows",
    "Verif.Crc.C101_zeros_false",
    "Verif.Crc.C101_zero_record_false",
    "Verif.Crc.C101_wal_crc_false"
   ],
   "note": "For all bytes, addresses and pieces (C101_same, C101_pieces, C101_remainder, C101_range), all damages of up to 32 bits in a row (C101_burst, C101_bytes) and log records (C101_record, C101_rows; the checksum itself and the number of commands intact). The instruction is modelled as the manual defines it (x86_64, little endian). Shown not to be found or not to be valid: zero bytes before a text (C101_zeros_false), a record of zeros (C101_zero_record_false), records written with wal_crc off after it is on again (C101_wal_crc_false)."
  },
  {
   "property": "C102",
   "status": "partial",
   "theorems": [
    "Verif.Config.C102_restart_partial",
    "Verif.Config.C102_save_read",
    "Verif.Config.C102_same_file",
    "Verif.Config.C102_crash_kept",
    "Verif.Config.C102_crash_false",
    "Verif.Config.C102_bootstrap_false",
    "Verif.Config.C102_argv_false",
    "Verif.Config.C102_subscribe_empty_false",
    "Verif.Config.C102_arg_int",
    "Verif.Config.C102_arg_str",
    "Verif.Config.C102_arg_bool",
    "Verif.Config.C102_set_one",
    "Verif.Config.C102_daemon_false",
    "Verif.Config.C102_negative_false",
    "Verif.Config.C102_utf8_false",
    "Verif.Config.C102_names_once",
    "Verif.Config.C102_create_user",
    "Verif.Config.C102_drop_user",
    "Verif.Config.C102_alter_user",
    "Verif.Config.C102_sync",
    "Verif.Config.C102_repl",
    "Verif.Config.C102_first",
    "Verif.Config.C102_argv_used"
   ],
   "note": "Proved for all histories of first start, statements and restarts (C102_restart_partial), all lists of options (C102_save_read, C102_same_file), the options of a first start (C102_first) and of a later start (C102_argv_used), the arguments (C102_set_one, C102_arg_int, C102_arg_str, C102_arg_bool), the statements (C102_names_once, C102_create_user, C102_drop_user, C102_alter_user, C102_repl), the copies of the frontends (C102_sync) and all crash points for the previous file (C102_crash_kept). Restricted to texts that are UTF-8 and shorter than 2 GB, numbers other than -2^63, documents without reals; the lock of the directory, the log, TLS and the contents of the replicas document are left out, and restarts that give another uuid than the first start. The claim does not hold for: a crash while the state is saved (C102_crash_false: every save passes through a directory with which no server starts, state.json.old is never read) and during the first start (C102_bootstrap_false); options of a later start (C102_argv_false: used, not saved); REPL SUBSCRIBE with an empty id (C102_subscribe_empty_false); option strings that are not UTF-8 (C102_utf8_false); negative numbers in documents (C102_negative_false); --daemon=true (C102_daemon_false: refused)."
  },
  {
   "property": "C103",
   "status": "partial",
   "theorems": [
    "Verif.Object.File.C103_read_partial",
    "Verif.Object.File.C103_query_partial",
    "Verif.Object.File.C103_append",
    "Verif.Object.File.C103_open_partial",
    "Verif.Object.File.C103_open_false",
    "Verif.Object.File.C103_crc",
    "Verif.Object.File.C103_branches_partial",
    "Verif.Object.File.C103_raw_false",
    "Verif.Object.File.C103_4gb_false",
    "Verif.Object.File.C103_truncate_false",
    "Verif.Object.File.C103_row",
    "Verif.Object.File.C103_raw_read_false"
   ],
   "note": "Proved for all rows, limits, file contents before and after, and all compression functions that give back what they were given, with files below 4 GB: reading through the index of the writer gives the rows, with right references and regions cut at the limit (C103_read_partial), queries from any key (C103_query_partial, with C16), earlier bytes are kept (C103_append), rows that are created for tables are of the kind asked for (C103_row), opening gives the index of the writer if the checksum of the compressed index is that of no bytes (C103_open_partial, C103_crc for the checksum of the program), also with any number of branches (C103_branches_partial). Violated, with proofs: in every other case a file cannot be opened, since the checksum is compared before the index is decompressed (C103_open_false); without compression no file can be opened and regions are read past their end (C103_raw_false, C103_raw_read_false: only the first of two buffers is counted); the place of a region is kept modulo 2^32 (C103_4gb_false); bytes after the last complete branch are never cut (C103_truncate_false). Not modelled: failing writes, the compression library itself, heaps of the same storage."
  },
  {
   "property": "C104",
   "status": "partial",
   "theorems": [
    "Verif.Coro.C104_no_lost_signal_partial",
    "Verif.Coro.C104_signal_wakes_partial",
    "Verif.Coro.C104_where_partial",
    "Verif.Coro.C104_once_partial",
    "Verif.Coro.C104_memory_partial",
    "Verif.Coro.C104_order",
    "Verif.Coro.C104_turn",
    "Verif.Coro.C104_kill_partial",
    "Verif.Coro.C104_unpause",
    "Verif.Coro.C104_awake_partial",
    "Verif.Coro.C104_cancel_kept_partial",
    "Verif.Coro.C104_join_partial",
    "Verif.Coro.C104_join_returns_partial",
    "Verif.Coro.C104_shutdown_partial",
    "Verif.Coro.C104_shutdown_returns_partial",
    "Verif.Coro.C104_timeout_partial",
    "Verif.Coro.C104_undisturbed_partial",
    "Verif.Coro.C104_sample_partial",
    "Verif.Coro.C104_two_joiners_false",
    "Verif.Coro.C104_reuse_false",
    "Verif.Coro.C104_self_kill_false",
    "Verif.Coro.C104_stale_shutdown_false",
    "Verif.Coro.C104_mailbox_false",
    "Verif.Coro.C104_timeout_takes_signal_false",
    "Verif.Coro.C104_born_partial",
    "Verif.Coro.C104_taken_partial"
   ],
   "note": "Proved for all histories in which callers keep to six rules (one waiter per event, no kill or join of oneself, balanced pauses, no event initialised under a waiter, no memory used again while a joiner has not run); turns (C104_turn, C104_order) and C104_unpause hold for all histories. Without the rules: two joiners (C104_two_joiners_false), memory used again before a joiner ran, after which a new joiner sleeps for ever (C104_reuse_false), self kill and abort (C104_self_kill_false). Within the rules: a stale signal ends a shutdown early (C104_stale_shutdown_false), mailbox_pop ignores kills (C104_mailbox_false), a timeout takes a signal away (C104_timeout_takes_signal_false). That a sleep ends when the event is never signalled is not claimed; the thread's main coroutine is proved alone only if it was not cancelled itself."
  },
  {
   "property": "C105",
   "status": "partial",
   "theorems": [
    "Verif.ServiceLock.C105_has_alone_partial",
    "Verif.ServiceLock.C105_alone_partial",
    "Verif.ServiceLock.C105_waits_partial",
    "Verif.ServiceLock.C105_in_order_partial",
    "Verif.ServiceLock.C105_free_partial",
    "Verif.ServiceLock.C105_memory_partial",
    "Verif.ServiceLock.C105_clean_partial",
    "Verif.ServiceLock.C105_sample",
    "Verif.ServiceLock.C105_sample_next"
   ],
   "note": "All histories of jobs and of other locks: alone, in order, only behind jobs on the same partition, at once when free, entries and clean end. Not modelled: a job has one of these locks at a time; waits are not cancelled (jobs run with cancellation paused); lock() does not fail for lack of memory."
  },
  {
   "property": "C106",
   "status": "partial",
   "theorems": [
    "Verif.Buf.C106_content",
    "Verif.Buf.C106_known",
    "Verif.Buf.C106_writes",
    "Verif.Buf.C106_cost",
    "Verif.Buf.C106_wraps_false",
    "Verif.Buf.C106_wraps_data",
    "Verif.Buf.C106_sample",
    "Verif.Buf.C106_kept_partial",
    "Verif.Buf.C106_fresh_partial",
    "Verif.Buf.C106_undisturbed_partial",
    "Verif.Buf.C106_last_partial",
    "Verif.Buf.C106_no_leak_partial",
    "Verif.Buf.C106_limit_false",
    "Verif.Buf.C106_limit_sample"
   ],
   "note": "Content, bounds and cost for all histories below 2^31 bytes; references and caches for all interleavings. Fails: one write that makes the size 2^31 or more overwrites memory behind the block (C106_wraps_false); the 32 KiB limit of the caches is never applied, because the comparison is outside of unlikely(), so memory of large buffers is never given back (C106_limit_false). Not modelled: failing realloc (the process ends), 2^32 references, the end of the process."
  }
 ]
}