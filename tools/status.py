STATUS={
'C01':('proved', ''),
'C02':('proved', ''),
'C03':('proved', 'NaN reals are excluded (JSON text cannot express them); C03_nan_not_transitive shows why.'),
'C04':('proved', ''),
'C05':('proved', 'strings are valid UTF-8 for the parser (it rejects others); escape/unescape alone for all bytes'),
'C06':('partial', 'round trips and rejection of 7-bit foreign characters are proved; bytes >= 128 read past the table (C06_high_byte_false)'),
'C07':('partial', 'round trip and the exact acceptance condition are proved; the "exactly 36 characters" part is violated (C07_length_false)'),
'C08':('proved', 'Byte-level row model: creation succeeds for acceptable values whatever the memory held, every column reads back its bytes/value, NULL iff NULL, recorded size = bytes. Rows below 2^31 bytes and fewer than 65536 columns (the C types).'),
'C09':('proved', 'Key comparison of stored rows equals the lexicographic order of key values; total order laws; equal iff all key columns equal. Key types int32, int64, timestamp, text, uuid (the ones the parser admits). DESC is not consulted by compare().'),
'C10':('partial', "proved for every history with comparisons returning -1/0/1 (integer, timestamp and uuid keys, composite); for text keys the claim is false of the code: tree_search_page_for_write tests page_rel == 1 but text comparison returns memcmp's value (C10_text_false)"),
'C100':('partial', "Nothing is lost or reordered for all lines (C100_lossless), complete blocks never wait (C100_ends); every text of statements is cut into exactly its statements in any division into lines (C100_statement, C100_lines_partial, C100_more_lines), where keywords of blocks have white space or ';' on both sides and IF is followed by a condition that does not begin with NOT. Without this it is false: C100_if_not_false, C100_case_false, C100_end_comma_false, C100_if_comment_false, C100_comment_false."),
'C101':('proved', 'For all bytes, addresses and pieces (C101_same, C101_pieces, C101_remainder, C101_range), all damages of up to 32 bits in a row (C101_burst, C101_bytes) and log records (C101_record, C101_rows; the checksum itself and the number of commands intact). The instruction is modelled as the manual defines it (x86_64, little endian). Shown not to be found or not to be valid: zero bytes before a text (C101_zeros_false), a record of zeros (C101_zero_record_false), records written with wal_crc off after it is on again (C101_wal_crc_false).'),
'C102':('partial', 'Proved for all histories of first start, statements and restarts (C102_restart_partial), all lists of options (C102_save_read, C102_same_file), the options of a first start (C102_first) and of a later start (C102_argv_used), the arguments (C102_set_one, C102_arg_int, C102_arg_str, C102_arg_bool), the statements (C102_names_once, C102_create_user, C102_drop_user, C102_alter_user, C102_repl), the copies of the frontends (C102_sync) and all crash points for the previous file (C102_crash_kept). Restricted to texts that are UTF-8 and shorter than 2 GB, numbers other than -2^63, documents without reals; the lock of the directory, the log, TLS and the contents of the replicas document are left out, and restarts that give another uuid than the first start. The claim does not hold for: a crash while the state is saved (C102_crash_false: every save passes through a directory with which no server starts, state.json.old is never read) and during the first start (C102_bootstrap_false); options of a later start (C102_argv_false: used, not saved); REPL SUBSCRIBE with an empty id (C102_subscribe_empty_false); option strings that are not UTF-8 (C102_utf8_false); negative numbers in documents (C102_negative_false); --daemon=true (C102_daemon_false: refused).'),
'C103':('partial', 'Proved for all rows, limits, file contents before and after, and all compression functions that give back what they were given, with files below 4 GB: reading through the index of the writer gives the rows, with right references and regions cut at the limit (C103_read_partial), queries from any key (C103_query_partial, with C16), earlier bytes are kept (C103_append), rows that are created for tables are of the kind asked for (C103_row), opening gives the index of the writer if the checksum of the compressed index is that of no bytes (C103_open_partial, C103_crc for the checksum of the program), also with any number of branches (C103_branches_partial). Violated, with proofs: in every other case a file cannot be opened, since the checksum is compared before the index is decompressed (C103_open_false); without compression no file can be opened and regions are read past their end (C103_raw_false, C103_raw_read_false: only the first of two buffers is counted); the place of a region is kept modulo 2^32 (C103_4gb_false); bytes after the last complete branch are never cut (C103_truncate_false). Not modelled: failing writes, the compression library itself, heaps of the same storage.'),
'C104':('partial', "Proved for all histories in which callers keep to six rules (one waiter per event, no kill or join of oneself, balanced pauses, no event initialised under a waiter, no memory used again while a joiner has not run); turns (C104_turn, C104_order) and C104_unpause hold for all histories. Without the rules: two joiners (C104_two_joiners_false), memory used again before a joiner ran, after which a new joiner sleeps for ever (C104_reuse_false), self kill and abort (C104_self_kill_false). Within the rules: a stale signal ends a shutdown early (C104_stale_shutdown_false), mailbox_pop ignores kills (C104_mailbox_false), a timeout takes a signal away (C104_timeout_takes_signal_false). That a sleep ends when the event is never signalled is not claimed; the thread's main coroutine is proved alone only if it was not cancelled itself."),
'C105':('partial', 'All histories of jobs and of other locks: alone, in order, only behind jobs on the same partition, at once when free, entries and clean end. Not modelled: a job has one of these locks at a time; waits are not cancelled (jobs run with cancellation paused); lock() does not fail for lack of memory.'),
'C106':('partial', 'Content, bounds and cost for all histories below 2^31 bytes; references and caches for all interleavings. Fails: one write that makes the size 2^31 or more overwrites memory behind the block (C106_wraps_false); the 32 KiB limit of the caches is never applied, because the comparison is outside of unlikely(), so memory of large buffers is never given back (C106_limit_false). Not modelled: failing realloc (the process ends), 2^32 references, the end of the process.'),
'C11':('partial', 'a scan from a key returns exactly the rows at or above it or nothing; exact when a row has the key; false in general: tree_iterator_open stops when the key is past the end of its page (C11_range_false)'),
'C12':('partial', 'map semantics proved for histories without resize where replace_by hits an existing key only before deletes; false in general: three counterexample theorems with the real hash (duplicate after delete, miss during resize, overflow with tombstones)'),
'C13':('partial', 'scan of one partition is exact in any state; the merge over partitions is false (exact characterisation C13_merge_false): ends after the first non-empty partition or reads out of bounds'),
'C14':('partial', 'proved for keys without text columns; C14_text_false: with text keys the merged scan is out of order'),
'C15':('proved', 'any number of layers, any comparison that is a total preorder'),
'C16':('proved', 'Any total order on keys (text included), any number and size of regions, key present, absent or missing. Byte layout of regions is not part of this claim.'),
'C17':('partial', 'Proved for requests up to 516071 bytes and 2^19 pages; larger requests are accepted by the code and leave the page (C17_large_false, C17_small_false).'),
'C18':('partial', "Rollback restores every index exactly, for all statement sequences, failure points and any number of indexes, when UPDATE/DELETE cursors stand on the primary index and UPDATE keeps the primary key; C18_secondary_cursor_false proves that it fails when the planner's cursor stands on a secondary index. Indexes are modelled as keyed sets (C10, C12 connect them with the implementations)."),
'C19':('partial', 'Every statement ends and changes the rows as on a plain set of rows with unique keys; after any history all indexes hold the same rows without duplicate keys (cursors on the primary index). INSERT replace=true (replay) is not covered by the history theorem. False for cursors on a secondary index (C19_secondary_cursor_false).'),
'C20':('partial', 'Proved for histories where every notification brings only commits or only aborts covering everything that ran; two witnesses prove that the general claim is false (commit and abort noticed at once; transaction built on one aborted later).'),
'C21':('partial', 'Safe half (C21_sound) for all histories; completeness when a transaction overlaps with the last running one (C21_chain_partial, C21_common_partial). In general false: C21_gc_false (a group that still has transactions is forgotten, the transaction is never decided whatever happens later), C21_fork_false (two transactions with one position).'),
'C22':('partial', 'Proved for chained histories, for transactions with a common partition and for transactions on one partition each. In general false: C22_fork_false, C22_groups_false.'),
'C23':('partial', "For all sequences of append requests (with any failures) and atomic rotations, reading from any position and recovery return exactly the transactions expected, for sizes within 32 bit arithmetic. False as stated: at 4 GiB the end check wraps (C23_4gib_false); a write racing with the worker's rotation is missed by a cursor (C23_rotation_race_false)."),
'C24':('partial', 'For a failure of the write itself (at any byte) the log is unchanged and the failure is reported; no transaction of it is ever recovered. False for a failing sync or creation of the next file after the write (C24_false, C24_false_always).'),
'C25':('partial', 'Recovery of a log cut at any byte returns exactly the complete transactions. Appending after recovery: proved when the log is truncated with the wal_truncate option; false otherwise (C25_append_false: a committed transaction is lost silently).'),
'C26':('partial', "Proved for histories of DML, CREATE/DROP TABLE, checkpoints, catalog writes and cleaning outside a refresh; excludes TRUNCATE and UNLOGGED toggles, for which C26's conclusion fails (C51_checkpoint_false, C55_unlogged_false)."),
'C27':('proved', 'All lists of row changes and DDL operations, any number of partitions; record size below 4 GiB.'),
'C28':('proved', 'any run of lock, create lock and unlock operations; a coroutine that waits does nothing, and named locks are not dropped while they wait (ddl lock).'),
'C29':('proved', 'the first waiter is blocked by a granted conflicting lock, grants follow the order of arrival, nothing overtakes.'),
'C30':('proved', 'no cycle for coroutines that take locks in the global order; access lists of statements are in that order; any number of sessions finish in exactly two steps per lock.'),
'C31':('proved', ''),
'C32':('proved', 'ids added once (callers never add an id twice)'),
'C33':('partial', 'violated in general: no backtracking (C33_like_no_backtrack_false), %_ (C33_like_any_one_false); exact for the patterns of C33_like_exact_partial, sound when % is not followed by _'),
'C34':('partial', 'add/sub/mul exact; div, mod, neg, abs violated for -2^63 (C34_min_false) and exact otherwise'),
'C35':('partial', 'violated for unversioned incomplete/snapshot names (C35_unversioned_state_false)'),
'C36':('partial', 'Proved unless a refresh stops between the removal of the old file and the renaming of the new one (C36_refresh_false, C36_flush_false show the loss in that window).'),
'C37':('partial', 'Proved when no slot is ahead of the position recovery needs. False as stated: wal_slots takes the largest slot (C37_false, C37_recovery_false).'),
'C38':('partial', 'violated by the code (single precision storage): C38_real_roundtrip_false; what holds is C38_real_roundtrip_partial'),
'C39':('partial', 'violated for the smallest integer (C39_int_min_false); text round trip excludes reals (printf %g is not modelled); C39_parsed_document and C39_any_text hold for any text with known escapes'),
'C40':('partial', 'digit texts exact; negative numbers and the empty text violate the round trip (C40_negative_and_empty_false)'),
'C41':('proved', 'Hash from values = hash of the stored row = hash of the key values (concrete murmur3).'),
'C42':('partial', 'In-range integers kept; false in general: 300 in TINYINT reads back as 44 (C42_no_silent_truncation_false).'),
'C43':('partial', 'Full keys proved; prefixes proved unless a timestamp key column is before 1970, where the claim is false (C43_prefix_false).'),
'C44':('partial', 'Proved for non-identity columns; updating an identity column that is no key follows a NULL pointer (C44_identity_false).'),
'C45':('proved', 'all histories, normalised comparisons'),
'C46':('proved', 'all histories, normalised comparisons'),
'C47':('partial', 'Proved for all histories of transactions decided one after another with cursors on the primary index; C47_secondary_cursor_false and C20_built_on_aborted_false are witnesses of double release / release of a live row.'),
'C48':('partial', 'Proved for rows up to 516071 bytes and up to 2^19 pages.'),
'C49':('partial', "Proved for rows up to 516071 bytes and up to 2^19 pages; the race on the file header's crc (counters updated during heap_create) is not modelled."),
'C50':('partial', 'Holds if no row of the table is deleted or updated during the build. Fails otherwise: C50_delete_false (released row stays in the new index), C50_update_false (spurious duplicate error).'),
'C51':('partial', 'Holds until a restart; fails after checkpoint and restart (C51_restart_false, C51_checkpoint_false, C51_insert_lost_false).'),
'C52':('partial', 'The failed statement itself changes nothing visible (C52_partial); afterwards rows are lost and deletes undone by the next checkpoint and restart (C52_false).'),
'C53':('partial', 'C53_false, C53_both_granted: a relation both written and read in a subquery gets exclusive_ro, which two such statements hold together. Proved for the other combinations.'),
'C54':('partial', 'C54_false, C54_forever: CREATE INDEX takes the ddl lock before the catalog lock, other DDL the other way round. Proved for ordered acquisition.'),
'C55':('partial', 'Proved for regular histories; C55_drop_false and C55_unlogged_false are reachable histories after which recovery fails.'),
'C56':('partial', 'Proved when no checkpoint is in progress; C56_refresh_false shows the loss when cleaning runs during a refresh.'),
'C57':('partial', 'Proved when no file is newer than the surviving log; C57_torn_false shows a half recovered transaction otherwise.'),
'C58':('partial', 'Proved once a catalog file exists; the very first write is not protected (C58_bootstrap_false).'),
'C59':('partial', 'Proved for any number of partitions, keys of all modelled types but text (C59_order_partial), and for one set also text (C59_main_partial). False for text keys over partitions (C59_text_false): the comparison of text returns a byte difference, and the merge tests for exactly 1. JSON and vector keys are not modelled.'),
'C60':('partial', 'Proved for keys of all modelled types but text; false for text keys (C60_text_false).'),
'C61':('proved', 'Union over partitions with limit+offset pushed down, and the counters of the scan in one set.'),
'C62':('partial', 'One row per key for keys whose canonical values coincide with equality. False for groups 0.0 and -0.0, which compare equal but hash differently (C62_zero_false). JSON and vector keys and integer overflow of table sizes are not modelled.'),
'C63':('partial', 'COUNT, MIN, MAX, SUM and AVG over integers without overflow, COUNT(DISTINCT). AVG of negative integers is false (C63_avg_false). SUM and AVG over doubles and lambda aggregates are not modelled.'),
'C64':('partial', 'IN, NOT IN, ANY, ALL for a non-NULL left value and same-typed values; EXISTS in full. False for NULL on the left of ANY and ALL (C64_null_false) and for NULL IN an empty subquery (C64_empty_false).'),
'C65':('partial', 'Conditions whose NOTs stand only before simple conditions, and every condition on rows without NULLs. False for NOT over AND or OR with NULLs (C65_not_false) and for NOT BETWEEN (C65_between_false).'),
'C66':('partial', 'Operators and sort order for values of one type and for integer-like values (int, bool, date, timestamp) among each other; integers of at most 53 bits with doubles. False for larger integers with doubles (C66_mixed_false), and IN disagrees with = on an integer and a double (C66_in_false). JSON and vector comparisons are not modelled here.'),
'C67':('partial', 'Proved for key columns compared with values that fit their type and, for lookups, can be hashed, over an index that returns its rows in key order (C10-C13). False otherwise: `id > 0.5` (C67_double_false) and `id > -3000000000` on a 32-bit key (C67_int32_false) lose rows, a row-dependent bound of BETWEEN reads through a missing cursor (C67_between_false), `id = NULL` and `id = 1.5` abort the process (C67_abort_false), a lookup through a secondary index in a subquery reads missing columns (C67_subquery_false).'),
'C68':('partial', 'Proved except for adding a new field to a nested object, where set() also adds a field with the value to every enclosing object (C68_set_nested_false); unset() for documents without duplicate names. The encoding of the new value is that of C01.'),
'C69':('partial', 'Proved for indexes that fit 32 bits; a larger index is truncated and accepted (C69_index_false).'),
'C70':('partial', 'Soundness for patterns without `_` after `%`, exactness for patterns of single characters separated by `%` (C70_shape_partial), no reads outside of the strings; the general statement is false of the code (C70_first_false, C70_one_false, C70_escape_false).'),
'C71':('partial', 'All functions are exact on characters; substr is proved for positions ≥ 0 and counts in the range of int, for a negative position it reads outside of the string (C71_substr_false).'),
'C72':('partial', 'Calendar, order, text and extract are proved for all dates; the general statement is false of the code: days that do not exist are accepted (C72_invalid_false), the number of days is cut to 32 bits (C72_add_false).'),
'C73':('partial', 'Proved: text round trip, literals with any units, order, sums, extract and trunc of times that are not negative. Refuted: extract and trunc of negative times; overflow of literals is not refused.'),
'C74':('partial', 'Literals with valid fields and an offset are exactly that moment and errors outside of the range (C74_literal); the printed text (C74_print) reads back in every session time zone (C74_roundtrip_partial) for offsets of whole minutes and local times within 1970..9999. False: hours over 23, 31 February and so on are accepted and carried (C74_invalid_false), seconds of offsets are dropped in the text (C74_seconds_false), a text with leading spaces is read behind its end (C74_bounds_false).'),
'C75':('partial', 'Exact for days and microseconds (C75_plus_partial, C75_minus_partial, C75_inverse, C75_diff) and for months if the target month has the day (C75_months_partial, C75_minus_months_partial), and for dates (C75_dates). False: 31 January + 1 month is 2 March (C75_month_false); in the first second of 1970 a valid result may be an error (C75_epoch_false). Missing: intervals that mix months with days and time.'),
'C76':('partial', 'date_trunc in UTC (C76_trunc), date_bin (C76_bin), extract in all time zones (C76_extract). False: date_trunc in other time zones (C76_zone_false).'),
'C77':('partial', 'At most one transition between the found one and the time; reads outside only after the last transition (C77_near_partial). False: C77_search_false, C77_bounds_false.'),
'C78':('partial', 'Proved for histories in which all values are generated (C78_unique_partial) and, for explicit values that are not negative, right after a restart (C78_restart_partial). False: explicit values do not move the sequence (C78_explicit_false), negative values move it below zero at a restart (C78_negative_false), values of deleted rows are generated again after a restart (C78_reuse_false), a refresh can set the sequence back (C78_race_false), SET IDENTITY is lost (C78_set_false).'),
'C79':('partial', 'Proved for the grammar of precedence levels (read, unambiguous, write, alias). Counterexamples are proved for LIKE, NOT, repeated prefix operators, BETWEEN, ANY/ALL and a name after an operator; CASE, CAST, sub-queries and methods are not modelled.'),
'C80':('partial', 'Proved for all texts of integers, names, keywords, paths, symbols and strings, and for whole expressions. Counterexamples are proved for single quotes inside single quotes and for large numbers; the value of a real (strtod) is not modelled.'),
'C81':('partial', 'Proved for histories in which the log is not read while a batch is unpublished, requests are not replayed at the same time, the log is cleaned only below the slot and the primary loses nothing. The code ensures none of the four; a counterexample is proved for each, and for a new replica that stays empty with no error.'),
'C82':('partial', 'Proved for heads up to 512 bytes and limits up to 2 GB; heads of 513-767 bytes are accepted or refused depending on the cuts, and a body of 4 GB is taken for the next requests: both are proved as counterexamples.'),
'C83':('partial', "violated: anything in front of a cached digest is accepted (C83_forged_false), a user without a secret is open to everybody (C83_empty_secret_false), the own client's header is refused (C83_own_client_false), bytes over 127 in a token read beyond a table (C83_high_byte_false); HMAC-SHA256 itself is a parameter, hash collisions are not excluded by the cache"),
'C84':('partial', "Addresses over http/https with any parts that do not contain their separators are read exactly as written (C84_address), request targets as well (C84_target), the client's own targets without `&`, `%` (C84_own_request); written addresses are read back without a secret and with plain parts (C84_export); any text gives an answer or an error unless an argument is named uri (C84_safe). Violated by the code: an argument named uri frees the text being read and an empty address reads NULL (C84_uri_argument_false); the secret is written as the user name (C84_secret_false); IPv6 hosts are written without brackets (C84_ipv6_false); arguments are not percent-encoded when written (C84_encoding_false); an @ in an argument is taken for a user (C84_at_false); services with arguments are refused (C84_service_false). amelie:// addresses are in the model and in C84_safe but not in the round trips."),
'C85':('partial', 'Registration and search are proved for all names; removal is not safe (hashtable_delete breaks the chain): counterexample proved.'),
'C86':('partial', 'Proved for all expressions of operators, CASE, BETWEEN, IN, ANY/ALL, calls, arrays and objects. Missing: LIKE as an operand (C86_like_false), volatile functions in BETWEEN and CASE (C86_volatile_false), the buffer of the left side of IN (C86_in_leak_false), operations without a result (C86_trap_false). Subqueries, aggregates and user functions are not in the model.'),
'C87':('partial', 'Proved for all values except: text in GREATEST and LEAST (C87_text_false), NaN (C87_nan_false), the least integer (C87_trap_false).'),
'C88':('partial', 'Proved for every list of tables, every expression C86 covers and every LIMIT and OFFSET, with what an index returns as a parameter (C10 to C15, C67). Missing: stop conditions on hash indexes (C88_hash_stop_false), cursors of inner tables after LIMIT (C88_limit_cursor_false), result sets narrower than what is pushed (C88_order_width_false). Subqueries, functions and JSON in FROM, grouping and sorting are not in the model.'),
'C89':('partial', 'proved for all histories and transactions without SET [UN]LOGGED to the same value, CREATE INDEX, and database/storage renames typed in another case, and for errors raised before the WAL step; false otherwise (five counterexamples)'),
'C90':('partial', 'unique names for all histories whose rolled back transactions keep to the statements of C89; databases of objects under the check of session_set still holding (counterexample otherwise); meaning of table, database and column statements, not of index, tier, storage and function ones'),
'C91':('partial', 'proved for every reachable catalog with UTF-8 texts, no dropped column and functions that compile in file order. Each condition is needed: C91_utf8_false, C91_dropped_false (a dropped column comes back), C91_replace_false (the server does not start), and the identity counter is not in the file (C91_identity_false). Writing and renaming the file is C58.'),
'C92':('partial', 'Proved for both planners. Excluded: text or NaN keys in a pushed-down ORDER BY, LIMIT + OFFSET over 64 bits, DISTINCT of a column whose name is the label of another column, DISTINCT aggregates only in ORDER BY (all four proved to fail), errors of expressions, lambda aggregates, double sums, SELECT without FROM.'),
'C93':('partial', "C93_body_partial: for all results with printable strings and reals that printf prints as JSON numbers, the body is an RFC 8259 text for the rows (or the limit error, and then the text reaches the limit); C93_reads_back_partial: the server's own parser reads the rows back (no reals, no -2^63); C93_error, C93_document. Not so: control characters other than \\b \\f \\n \\r \\t are written raw (C93_control_false), nan and inf are written as such (C93_nan_false), errors over 512 bytes are cut inside of a UTF-8 character (C93_error_cut_false). Missing: the decimal value of reals, results without columns, TIMESTAMP offsets are given."),
'C94':('partial', 'C94_values_partial and C94_list_partial: texts of rows with the literals of every type (reals with a point, strings without backslashes, JSON without reals) are read into the rows they say, or refused for a NULL in a NOT NULL column; C94_list_order, C94_count: wrong lists and counts are refused; C94_generate_partial for counts below 2^31; C94_shard_partial for tables with at most one identity column. Missing: reals with exponents, strings with escapes (false: C94_escape_false), INSERT … SELECT, evaluation of generated columns. The claim is false for C94_comma_false, C94_default_false, C94_min_false, C94_generate_false, C94_identity_false.'),
'C95':('partial', 'Expressions are functions of the row and of EXCLUDED without effects; one partition, primary ordered index only; rows as lists of values (bytes: C44); a statement that fails is undone by C47. False in the code: SET of an identity column reads a NULL pointer, generated columns are not recomputed, EXCLUDED shows the values as given, integers are cut to the width of the column without an error.'),
'C96':('partial', 'Proved for CSV, JSONL and JSON with and without a list of columns, arguments of functions, lists of columns (exactly which texts are taken), shape of any row taken. Strings without escapes; the last column of the table is not a dropped one. False cases proved: dropped last column, non-JSON syntax taken, empty bodies refused, lines, escapes, CSV quoting, lists with an empty name, endless loop for functions without arguments.'),
'C97':('partial', 'Memory is sequentially consistent (the x86 instructions used are full fences; atomic_u32_set is only an acquire operation on other processors), the positions do not wrap, and the main loop is modelled at the grain of its accesses to shared variables. Eventual delivery under a fair scheduler is not stated as such: C97_progress and C97_wake say that nothing is stuck. What a coroutine does with the mailbox is not modelled.'),
'C98':('partial', 'The duration holds up to the age of the cached time (C98_duration_partial); C98_early_false is a run where sleep(1000) ends at once since another session of the task sleeps; C98_time_false, C98_negative_false, C98_cut_false (argument cut to 32 bits) and C98_jump_false are further failures. The clock is taken not to go backwards; qsort is trusted to sort.'),
'C99':('partial', 'A restore that gets all its answers writes exactly the database as it was when the backup began (C99_restore), partition files are always sent (C99_files), the end of a backup touches nothing (C99_drop_keeps); wal files only while they are there (C99_wal_partial: wal_slots takes the maximum, so garbage collection removes listed files, C99_gc_false), a backup begins only without another one (C99_begins_partial, C99_no_links_partial): a second fails and its links stay (C99_two_false, C99_leak_false); any path is sent (C99_path_false). The four JSON files inside the first reply and disk errors are not modelled.'),
}
