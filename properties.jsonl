{"id": "C01", "title": "JSON values survive storage", "statement": "A JSON value (null, booleans, 64-bit signed integers, strings, arrays and objects nested to any depth) that is written in the binary document format and read back is the same value, and reading it consumes exactly the bytes that were written, whatever bytes follow it.", "quantifier": "every JSON value of any depth and width (strings below 2^32 bytes, integers in the int64 range) and every following byte string", "why_tests_cant": "nesting depth, sizes at each encoding boundary and following bytes are unbounded", "anchors": ["amelie/runtime/json/json.h: json_write_integer, json_write_raw, json_read_integer, json_read_string", "amelie/runtime/json/encode.h"]}
{"id": "C02", "title": "Skipping a stored JSON value lands exactly on the next one", "statement": "Skipping over one stored JSON value placed anywhere in a buffer moves to the first byte after it; so a sequence of values is walked one value at a time and the size reported for a value is its number of bytes.", "quantifier": "every JSON value of any depth, every continuation of the buffer", "why_tests_cant": "values nest to unbounded depth; an off-by-one in the level counter shows only on particular shapes", "anchors": ["amelie/runtime/json/json.h: json_skip", "amelie/runtime/json/json_op.h"]}
{"id": "C03", "title": "JSON comparison is a total order that agrees with equality", "statement": "Comparing two stored JSON values gives a result that is antisymmetric and transitive, and says equal exactly when the two values are the same value; sorting and grouping by JSON columns rely on it.", "quantifier": "all pairs and triples of JSON values of any depth", "why_tests_cant": "order laws range over all pairs and triples", "anchors": ["amelie/runtime/json/json_compare.h: json_compare"]}
{"id": "C04", "title": "JSON path access finds the field that is there", "statement": "Looking up a key in a stored object returns the value of the first field with that key and fails exactly when no field has it; indexing a stored array returns the element at that position and fails exactly when the index is out of range.", "quantifier": "all objects and arrays of any size with any nested contents, all keys and indices", "why_tests_cant": "the walk must skip arbitrary nested values correctly", "anchors": ["amelie/runtime/json/json_op.h: json_obj_find, json_array_find, json_array_last, json_array_size, json_obj_size"]}
{"id": "C05", "title": "Escaped text reads back as the original string", "statement": "Any string printed with escapes inside quotes and parsed back gives the same bytes; the printed form contains no unescaped quote so the parser stops at the closing quote.", "quantifier": "all byte strings", "why_tests_cant": "every byte value in every position and adjacency of backslashes and quotes", "anchors": ["amelie/runtime/lib/escape.h: escape_str, unescape_str"]}
{"id": "C06", "title": "Base64 and base64url round-trip, and reject foreign characters safely", "statement": "Decoding the encoding of any byte string returns that byte string, for both alphabets; decoding text with a character outside the alphabet reports failure.", "quantifier": "all byte strings of any length; all texts", "why_tests_cant": "lengths modulo 3 and all byte values combine; the failing input is a byte >= 128", "anchors": ["amelie/runtime/lib/base64.c", "amelie/runtime/lib/base64url.c"]}
{"id": "C07", "title": "UUID text round-trip", "statement": "Printing a UUID and parsing the text gives the same 128-bit value; parsing accepts exactly 36-character canonical texts with hexadecimal digits and dashes in the fixed places.", "quantifier": "all 2^128 UUIDs and all texts", "why_tests_cant": "the domain has 2^128 elements", "anchors": ["amelie/runtime/lib/uuid.c: uuid_set, uuid_get"]}
{"id": "C08", "title": "A stored row returns the column values it was built from", "statement": "For a row built from any list of column values, reading column i gives exactly the bytes of value i, or NULL exactly when value i was NULL, and the row's recorded size is the number of bytes it occupies.", "quantifier": "all lists of column values of any sizes (including the 1/2/4-byte offset width boundaries)", "why_tests_cant": "boundary sizes of the offset encoding depend on the total row size including the offset table itself", "anchors": ["amelie/db/row/row.h: row_measure, row_allocate, row_column, row_set", "amelie/vm/value/row.c"]}
{"id": "C09", "title": "Key comparison is a lexicographic total order", "statement": "Comparing rows by their key columns is a total order: reflexive, antisymmetric on keys, transitive, total, and it is the lexicographic order of the key columns.", "quantifier": "all rows and all key definitions", "why_tests_cant": "order laws range over all triples of rows and any number of key columns", "anchors": ["amelie/db/row/compare.h: compare", "amelie/runtime/lib/str compare", "amelie/vm/value/compare.h"]}
{"id": "C10", "title": "An ordered index behaves as a sorted map", "statement": "After any sequence of inserts, upserts, replacements and deletes, an ordered (tree) index answers a key lookup with the last row stored under that key (or nothing if none or deleted), insert-if-absent reports a conflict exactly when the key is present, the row count is the number of keys, and a full scan yields every live row once in increasing key order.", "quantifier": "all operation histories of any length, all page sizes >= 2, all keys", "why_tests_cant": "page splits and deletes interact over unbounded histories", "anchors": ["amelie/db/index/tree.c: tree_set, tree_set_or_get, tree_unset, tree_seek", "amelie/db/index/tree_iterator.h"]}
{"id": "C11", "title": "An ordered index range scan returns every row at or above the start key", "statement": "Opening an ordered index at a key and iterating yields exactly the live rows whose key is greater than or equal to the start key, in order.", "quantifier": "all reachable trees and all start keys, present or absent", "why_tests_cant": "the failing case needs a start key falling in the gap between two pages", "anchors": ["amelie/db/index/tree_iterator.h: tree_iterator_open", "amelie/db/index/tree.h: tree_search"]}
{"id": "C12", "title": "A hash index behaves as a map", "statement": "After any sequence of inserts, upserts, replacements and deletes on a hash index, including while it is being resized, a lookup returns the last row stored under the key or nothing if deleted, and no key is stored twice.", "quantifier": "all operation histories of any length, all hash functions, all resize points", "why_tests_cant": "collisions, tombstones and incremental resize interleave over unbounded histories", "anchors": ["amelie/db/index/hash.h", "amelie/db/index/hash_store.h", "amelie/db/index/index_hash.c"]}
{"id": "C13", "title": "A hash index scan over partitions returns every row once", "statement": "A SELECT over a partitioned table using a hash index visits every live row of every partition exactly once.", "quantifier": "any number of partitions with any contents, including empty ones", "why_tests_cant": "depends on which partitions are empty", "anchors": ["amelie/db/index/index_hash_merge.h: index_hash_merge_next", "amelie/db/index/hash_iterator.h"]}
{"id": "C14", "title": "An ordered index scan over partitions is a sorted merge", "statement": "A SELECT over a partitioned table using an ordered index returns every live row of every partition exactly once in global key order.", "quantifier": "any number of partitions with any contents; all key types", "why_tests_cant": "interleavings of partition contents are unbounded; sign/magnitude of comparison results matters", "anchors": ["amelie/db/index/index_tree_merge.h: index_tree_merge_step", "amelie/db/row/compare.h"]}
{"id": "C15", "title": "Reading through layered storage returns the newest version of each key", "statement": "Merging sorted sources in priority order yields each key once, in key order, taking the version of the highest-priority source that has the key.", "quantifier": "any number of sorted sources with any overlap", "why_tests_cant": "overlaps across any number of sources", "anchors": ["amelie/db/object/merge_iterator.h"]}
{"id": "C16", "title": "Searching a stored region or object finds the first row at or above a key", "statement": "Opening a stored region (or object of several regions) at a key positions the reader at the first stored row with key greater than or equal to it, and reading on yields all the later rows in order.", "quantifier": "all sorted regions of any size and all keys", "why_tests_cant": "binary search boundary cases over all sizes", "anchors": ["amelie/db/object/region_iterator.h", "amelie/db/object/meta_iterator.h", "amelie/db/object/branch_iterator.h"]}
{"id": "C17", "title": "Memory handed out for live rows never overlaps", "statement": "The row allocator returns, for every request, a block at least as large as asked, inside one page, and disjoint from every block that is still live, under any sequence of allocations and releases; the reported use matches the live blocks.", "quantifier": "all sequences of allocate/release with all sizes", "why_tests_cant": "reuse of freed blocks over unbounded histories", "anchors": ["amelie/db/heap/heap.c: heap_add, heap_remove", "amelie/db/heap/heap.h", "amelie/db/heap/page_mgr.h"]}
{"id": "C18", "title": "Rolling back a transaction restores exactly the rows before it", "statement": "If a transaction executes any sequence of inserts, upserts, updates and deletes on a table with any number of indexes and is then rolled back (or a statement fails in the middle), every index holds exactly the rows it held before the transaction.", "quantifier": "all operation sequences, all initial contents, any number of indexes, failure at any point", "why_tests_cant": "operation histories and failure points are unbounded", "anchors": ["amelie/db/part/part_op.c", "amelie/db/transaction/commit.c: tr_abort", "amelie/db/transaction/log.h"]}
{"id": "C19", "title": "A unique key never has two rows, and inserting a duplicate fails without effect", "statement": "A plain INSERT of a row whose key exists fails and leaves the table unchanged; ON CONFLICT variants either keep or replace the row; after any committed history each unique index holds at most one row per key and all indexes hold the same row set.", "quantifier": "all histories of statements", "why_tests_cant": "histories are unbounded; secondary indexes multiply the cases", "anchors": ["amelie/db/part/part_op.c: part_insert, part_upsert, part_update, part_delete"]}
{"id": "C20", "title": "A committed transaction stays and an aborted one disappears, on every partition", "statement": "When the coordinator decides the outcome of transactions that already ran on a partition, the partition ends with exactly the effects of the committed ones: committed transactions are never rolled back and aborted ones never kept.", "quantifier": "all sequences of prepared transactions and all outcome notifications, including several outcomes noticed at once", "why_tests_cant": "outcome batching depends on schedule", "anchors": ["amelie/db/transaction/track.h: track_sync", "amelie/db/transaction/commit.c: tr_commit_list, tr_abort_list", "amelie/db/transaction/consensus.h", "amelie/vm/executor/batch.h"]}
{"id": "C21", "title": "Every submitted transaction is eventually decided", "statement": "Every distributed transaction that has been submitted and whose partitions have all finished is eventually picked up by the committer; none is skipped forever.", "quantifier": "all sequences of submissions with any sets of partitions and all completion orders", "why_tests_cant": "depends on overlap pattern between three or more transactions", "anchors": ["amelie/vm/executor/executor.h: executor_attach", "amelie/vm/executor/dtr_group.h", "amelie/vm/executor/dtr_queue.h"]}
{"id": "C22", "title": "Conflicting transactions commit in submission order", "statement": "Two distributed transactions that touch a common partition are committed and logged in the order they were submitted.", "quantifier": "all sequences of submissions and all completion orders", "why_tests_cant": "depends on overlap pattern between several transactions and on the schedule", "anchors": ["amelie/vm/executor/executor.h: executor_attach, executor_detach", "amelie/vm/executor/dtr_group.h"]}
{"id": "C23", "title": "The log is read back as written", "statement": "Reading the write-ahead log from a position returns exactly the records appended from that position on, in order, across file rotation, and stops cleanly at the end.", "quantifier": "all sequences of appends and rotations, all starting positions", "why_tests_cant": "file boundaries and record boundaries combine over unbounded histories", "anchors": ["amelie/db/wal/wal.c: wal_write, wal_rotate", "amelie/db/wal/wal_cursor.c"]}
{"id": "C24", "title": "A failed log append leaves the log as it was", "statement": "If appending to the write-ahead log fails part-way, the log afterwards contains exactly the records it contained before, and the transaction is reported as aborted; in particular no aborted transaction is found in the log after a restart.", "quantifier": "all log states, all failure points (write, sync, rotation)", "why_tests_cant": "failure can hit any system call", "anchors": ["amelie/db/wal/wal.c: wal_write", "amelie/db/wal/wal_mgr.c: wal_mgr_write", "amelie/vm/executor/commit.c"]}
{"id": "C25", "title": "Crash recovery keeps every durable record and drops only a torn tail", "statement": "After a crash that cuts the log at any byte, recovery keeps every completely written record and discards only the incomplete one at the end, and new records appended after recovery are readable.", "quantifier": "all record sequences and all cut points", "why_tests_cant": "a crash may happen at any byte", "anchors": ["amelie/db/wal/wal.c: wal_recover_file, wal_truncate", "amelie/db/wal/wal_file.h", "amelie/db/wal/wal_cursor.c"]}
{"id": "C26", "title": "Replaying the log rebuilds the committed state and is idempotent", "statement": "Starting from partition images each containing all effects up to its own log position, replaying the log yields the state produced by all logged transactions in order; replaying again changes nothing.", "quantifier": "all logs, all per-partition starting positions, any number of partitions", "why_tests_cant": "partitions are checkpointed at different positions; histories are unbounded", "anchors": ["amelie/db/db/recover.c", "amelie/system/backend/replay.c", "amelie/db/wal/wal_cursor.c"]}
{"id": "C27", "title": "The log describes the transaction's row changes in order", "statement": "The sequence of row changes recorded in the log for a transaction, when decoded, is exactly the sequence of changes the transaction made (command, table, row bytes) in order.", "quantifier": "all sequences of row changes over any tables", "why_tests_cant": "adjacent changes are merged into one log command; merging depends on the neighbours", "anchors": ["amelie/db/transaction/write_log.h", "amelie/db/transaction/record.h", "amelie/db/transaction/write.h"]}
{"id": "C28", "title": "Conflicting relation locks are never held together", "statement": "At any time no two different holders hold locks on the same relation in conflicting modes (write vs exclusive, DDL vs anything, ...).", "quantifier": "all interleavings of lock/unlock requests by any number of holders", "why_tests_cant": "schedules are unbounded", "anchors": ["amelie/runtime/runtime/lock_mgr.h", "amelie/runtime/runtime/lock.h", "amelie/runtime/runtime/lock_id"]}
{"id": "C29", "title": "Lock waiters are never forgotten", "statement": "Whenever nobody holds a lock that conflicts with the first waiter of a relation, that waiter has been granted its lock; waiters are granted in arrival order, so each waiter is granted once the earlier ones have released.", "quantifier": "all interleavings of lock/unlock requests", "why_tests_cant": "lost wakeups depend on schedule", "anchors": ["amelie/runtime/runtime/lock_mgr.h"]}
{"id": "C30", "title": "Ordered acquisition cannot deadlock", "statement": "Statements that take all their relation locks in the global relation order never wait for each other in a cycle.", "quantifier": "any number of statements with any access sets in any interleaving", "why_tests_cant": "schedules are unbounded", "anchors": ["amelie/runtime/runtime/access.h", "amelie/runtime/runtime/lock_mgr.h", "amelie/vm/executor"]}
{"id": "C31", "title": "Every key belongs to exactly one partition", "statement": "When a table is created with n partitions, the hash ranges of the partitions are disjoint and cover the whole hash space, so that every row is routed to exactly one partition, always the same one.", "quantifier": "all partition counts from 1 to 8192 and all keys", "why_tests_cant": "division remainder boundaries for each count", "anchors": ["amelie/db/part/part_mgr_recover.c: part_mgr_create", "amelie/db/part/part_mapping.h"]}
{"id": "C32", "title": "The set of log/storage files is kept sorted and searchable", "statement": "The file id registry holds each added id once in increasing order; looking up a position returns the file that contains it, the successor is the next file, and removing ids below a bound leaves exactly the rest.", "quantifier": "all add/delete sequences and all queries", "why_tests_cant": "histories are unbounded", "anchors": ["amelie/runtime/lib/id_mgr.h"]}
{"id": "C33", "title": "LIKE matches exactly the SQL patterns", "statement": "`s LIKE p` is true exactly when s can be split so that % matches any substring and _ any single character.", "quantifier": "all strings and all patterns", "why_tests_cant": "backtracking cases", "anchors": ["amelie/vm/value/like.c: like_match"]}
{"id": "C34", "title": "Integer arithmetic is exact or an error", "statement": "Integer addition, subtraction, multiplication (and division, modulo) in expressions give the mathematically exact result or raise an error; they never wrap around silently.", "quantifier": "all pairs of int64 operands", "why_tests_cant": "2^128 pairs of operands", "anchors": ["amelie/runtime/base/overflow.h", "amelie/vm/vm/vm.c", "amelie/vm/func/fn_math.c"]}
{"id": "C35", "title": "Storage file names identify files uniquely", "statement": "The name written for a storage file (its ids, version and completeness state) parses back to the same identity and state.", "quantifier": "all ids and states", "why_tests_cant": "ids range over all 64-bit values; states and versions combine", "anchors": ["amelie/db/storage/id.h: id_path, id_of"]}
{"id": "C36", "title": "A crash during background compaction never loses data", "statement": "If the system stops at any point while a partition is being refreshed or flushed to new files, recovery ends with either the complete old files or the complete new files.", "quantifier": "all crash points between the individual file operations", "why_tests_cant": "a crash may happen between any two file operations", "anchors": ["amelie/db/service/refresh.c", "amelie/db/service/flush.c", "amelie/db/service/service_recover.c"]}
{"id": "C37", "title": "Log garbage collection keeps what replicas still need", "statement": "Files removed by log garbage collection never contain a record at or above the lowest position that a registered replica (slot) still needs.", "quantifier": "all sets of slots and all file sets", "why_tests_cant": "depends on relative positions of several slots", "anchors": ["amelie/db/wal/wal.c: wal_slots, wal_gc", "amelie/db/wal/wal_slot.h"]}
{"id": "C38", "title": "JSON real numbers keep their value", "statement": "A real number stored inside a JSON document reads back as the same number.", "quantifier": "all double precision numbers", "why_tests_cant": "2^64 values; only values needing more than 24 significant bits fail", "anchors": ["amelie/runtime/json/json.h: json_write_real, json_read_real"]}
{"id": "C39", "title": "JSON text round-trip", "statement": "A stored JSON document printed as text (compact or indented) and parsed again is the same value; printing consumes exactly the document and parsing consumes exactly the printed text.", "quantifier": "all JSON values, nesting depths, strings and indentation modes", "why_tests_cant": "unboundedly many nested values; only special values (e.g. the smallest integer) fail", "anchors": ["amelie/runtime/json/json_export.c: json_export_as", "amelie/runtime/json/json_parser.c: json_parse", "amelie/runtime/json/escape.h: escape_str, unescape_str"]}
{"id": "C40", "title": "Casting text to an integer is exact or an error", "statement": "Casting a text to an integer gives the number written in it or fails; it never wraps around, and a printed integer can be cast back.", "quantifier": "all texts", "why_tests_cant": "unboundedly many texts; overflow only happens for long digit strings", "anchors": ["amelie/runtime/base/str.h: str_toint", "amelie/runtime/base/overflow.h: int64_mul_add_overflow", "amelie/vm/func/fn_cast.c: fn_int"]}
{"id": "C41", "title": "A row and its key are always routed to the same partition", "statement": "The partition an INSERT is routed to (computed from the given values, placeholders and the generated identity) is the partition that a lookup with the key's values is routed to, and the one computed from the stored row.", "quantifier": "all schemas, key column lists, values, placeholders and identities", "why_tests_cant": "Ranges over all key types and values; a mismatch on one value makes the row unreachable.", "anchors": ["amelie/vm/value/value_hash.h:value_hash_row", "amelie/vm/value/value_hash.h:value_hash_keys", "amelie/db/row/row.h:row_hash", "amelie/vm/value/row.h:row_map"]}
{"id": "C42", "title": "An integer column holds the number it was given or rejects it", "statement": "Storing an integer in an integer column keeps its value; a number that does not fit in the column's type is rejected, never silently changed.", "quantifier": "all integer column types and all 64-bit integers", "why_tests_cant": "Ranges over the whole 64-bit domain and all column widths.", "anchors": ["amelie/vm/value/value_data.h:value_data_encode", "amelie/vm/vm/vm.c:ctable_readi8"]}
{"id": "C43", "title": "A search by key or key prefix starts at or before every matching row", "statement": "A search key built from values for all key columns compares with a stored row exactly as the key values do; one built from values for the first key columns only is at or before every row having these values.", "quantifier": "all key lists, all prefixes of values, all stored rows", "why_tests_cant": "Ranges over all composite keys, prefixes and rows; one wrong minimum silently drops rows from a range scan.", "anchors": ["amelie/vm/value/row.c:row_create_key", "amelie/db/row/compare.h:compare"]}
{"id": "C44", "title": "An UPDATE changes exactly the columns it sets", "statement": "After updating a row, each column in the SET list has its new value and every other column has its old value.", "quantifier": "all rows, all schemas, all SET lists", "why_tests_cant": "Ranges over all combinations of updated and kept, NULL and non-NULL, fixed and variable size columns.", "anchors": ["amelie/vm/value/row.c:row_update", "amelie/vm/value/row.c:row_update_prepare", "amelie/compiler/compiler/emit_update.c:emit_update_target"]}
{"id": "C45", "title": "A statement that changes rows while scanning an ordered index visits each row once", "statement": "A statement that scans a table by an ordered index and updates (without changing the key) or deletes the rows it visits sees every row exactly once in key order; afterwards the index holds exactly the kept and the updated rows.", "quantifier": "all histories of the index and all choices of rows to keep, update and delete", "why_tests_cant": "Ranges over all page layouts a history can produce and all subsets of rows deleted under the cursor.", "anchors": ["amelie/db/index/tree_iterator.h:tree_iterator_next,tree_iterator_delete,tree_iterator_replace", "amelie/db/index/tree.c:tree_delete"]}
{"id": "C46", "title": "An ordered index stays balanced", "statement": "After any history of inserts and deletes an ordered index lookup makes at most 2*log2(pages+1) page comparisons, and no page is empty or holds more than 512 rows.", "quantifier": "all histories of operations", "why_tests_cant": "Balance must hold after every sequence of inserts and deletes; adversarial sequences are unbounded.", "anchors": ["amelie/runtime/lib/rbtree.c:rbtree_set,rbtree_remove", "amelie/db/index/tree.c:tree_set,tree_delete"]}
{"id": "C47", "title": "Row memory is released exactly once", "statement": "Every row allocated by a statement is, once its transaction is decided, either in the table or released, and never released twice or while the table still refers to it.", "quantifier": "all histories of transactions, committed, aborted and failed at any statement, any number of indexes", "why_tests_cant": "Ranges over all histories; one double release corrupts an unrelated row later.", "anchors": ["amelie/db/part/part_op.c: log_if_commit, log_if_abort, part_upsert", "amelie/db/transaction/commit.c: tr_commit, tr_abort"]}
{"id": "C48", "title": "A restart brings the table back", "statement": "Reading the file of a partition after a restart gives the table that was written: a lookup by any key finds exactly the row it found when the file was written.", "quantifier": "all histories of inserts, updates and deletes, all row sizes, all keys", "why_tests_cant": "Ranges over all layouts of row memory that histories can produce, including freed and reused space.", "anchors": ["amelie/db/heap/heap_iterator.h", "amelie/db/heap/heap_file.c: heap_create, heap_open", "amelie/db/part/part.c: part_open"]}
{"id": "C49", "title": "A checkpoint that runs while statements change the table is consistent and invisible", "statement": "The file written by a checkpoint contains exactly the table as it was when the checkpoint began, whatever statements run meanwhile; and completing the checkpoint changes no row: every lookup finds what it found before.", "quantifier": "all histories before the checkpoint, all sequences of statements during it, any number of checkpoints", "why_tests_cant": "Statements interleave with the checkpoint in unboundedly many ways; lost or duplicated rows depend on which rows are changed in between.", "anchors": ["amelie/db/heap/heap.c: heap_add, heap_remove, heap_snapshot", "amelie/db/service/refresh.c: refresh_begin, refresh_apply", "amelie/db/part/part_op.c: part_apply"]}
{"id": "C50", "title": "An index built while statements run holds exactly the rows of the table", "statement": "When CREATE INDEX succeeds, the new index refers to every row of the table under its key and to nothing else, whatever statements ran during the build; and it fails only if two rows have the same key.", "quantifier": "all histories, all sequences of inserts, updates and deletes during the build", "why_tests_cant": "Statements interleave with the build in unboundedly many ways.", "anchors": ["amelie/db/service/indexate.c: indexate_begin, indexate_job, indexate_apply", "amelie/db/heap/heap.c: heap_remove"]}
{"id": "C51", "title": "TRUNCATE is permanent", "statement": "Rows removed by TRUNCATE do not come back, in particular not after a checkpoint and a restart.", "quantifier": "all tables, all histories before and after the TRUNCATE", "why_tests_cant": "Needs a history across truncation, checkpoint and restart.", "anchors": ["amelie/db/catalog/table_mgr.c: truncate_if_commit", "amelie/db/part/part.c: part_truncate, part_open"]}
{"id": "C52", "title": "A failed CREATE INDEX leaves the table as it was", "statement": "If CREATE INDEX reports an error, the table behaves afterwards as if the statement had not been issued: later inserts and deletes are kept across checkpoint and restart.", "quantifier": "all tables, all later histories", "why_tests_cant": "The effect of the failure shows only after later statements, a checkpoint and a restart.", "anchors": ["amelie/db/service/indexate.c: indexate_next, indexate_abort", "amelie/db/service/refresh.c: refresh_begin"]}
{"id": "C53", "title": "A lock covers every use of the relation in the statement", "statement": "When a statement uses a relation several times (writing it, reading it, reading it in a subquery), the one lock it takes excludes everything that the lock for each single use would exclude.", "quantifier": "all statements and all combinations of uses of a relation", "why_tests_cant": "The combination of uses and the concurrent statements that should be excluded are unbounded; the effect is a race.", "anchors": ["amelie/runtime/runtime/access.h: access_add, access_merge", "amelie/runtime/runtime/lock_id.h"]}
{"id": "C54", "title": "DDL commands never block each other forever", "statement": "Any DDL commands, including CREATE INDEX, issued at the same time by different sessions all finish: they never wait for each other in a cycle.", "quantifier": "all interleavings of the lock requests of any DDL commands", "why_tests_cant": "Deadlocks depend on the schedule.", "anchors": ["amelie/system/session/session.c: session_execute_utility", "amelie/db/service/op.c: service_create_index", "amelie/compiler/compiler/emit_utility.c"]}
{"id": "C55", "title": "The database can be restarted after any history", "statement": "After any history of committed transactions, DDL, checkpoints, catalog writes and log cleaning, recovery succeeds at the next start.", "quantifier": "all histories, stopped at any point", "why_tests_cant": "The failing histories combine DDL, cleaning and unfinished checkpoints in orders no test enumerates.", "anchors": ["amelie/db/db/recover.c: recover_wal, replay", "amelie/db/catalog/table_mgr.c", "amelie/db/part/part_mgr.c"]}
{"id": "C56", "title": "Removing old log files never loses data", "statement": "Removing the log files that are no longer needed does not change what a restart at any later point recovers.", "quantifier": "all histories, any limit on the number of files, all points at which the system stops", "why_tests_cant": "A file is needed or not depending on the whole history of checkpoints and on the stop.", "anchors": ["amelie/db/service/op.c: service_gc", "amelie/db/service/refresh.c: refresh_begin", "amelie/db/wal/wal_gc.c"]}
{"id": "C57", "title": "After a power failure the contents are those of a prefix of the transactions", "statement": "When a power failure loses the end of the log that had not been synced, the recovered contents are those after a prefix of the committed transactions that includes all those whose records survived: no transaction is half there.", "quantifier": "all histories of transactions over any number of partitions, all lost ends of the log", "why_tests_cant": "Ranges over all combinations of unsynced log records and already written partition files.", "anchors": ["amelie/db/wal/wal_mgr.c", "amelie/db/service/refresh.c: refresh_job", "amelie/db/db/recover.c"]}
{"id": "C58", "title": "The catalog file survives a stop at any point", "statement": "Wherever the process stops while writing or reading the catalog file, the next start reads a complete catalog: the last one written completely or one whose writing was interrupted since.", "quantifier": "all sequences of catalog writes and reads, stopped after any file operation, any number of times", "why_tests_cant": "Ranges over all stop points of repeatedly interrupted writes and recoveries.", "anchors": ["amelie/db/catalog/catalog_file.c: catalog_write, catalog_read"]}
{"id": "C59", "title": "ORDER BY with LIMIT and OFFSET over partitions", "statement": "SELECT \u2026 ORDER BY keys LIMIT n OFFSET k over a partitioned table returns exactly rows k+1 \u2026 k+n of all matching rows arranged in key order, whether the partitions sort their rows or scan an index, and although each partition may return only its first n+k rows.", "quantifier": "all tables, numbers of partitions and distributions of rows over them, all key lists and directions, limits and offsets", "why_tests_cant": "The merge depends on the distribution of the rows over partitions and on ties; the wrong cases are rare combinations.", "anchors": ["amelie/vm/set/union_iterator.h", "amelie/vm/set/set.c: set_sort", "amelie/compiler/compiler/emit_select.c", "amelie/compiler/compiler/scan.c"]}
{"id": "C60", "title": "SELECT DISTINCT returns one row per key", "statement": "SELECT DISTINCT [ON (keys)] \u2026 LIMIT n OFFSET k returns rows k+1 \u2026 k+n of a list with exactly one row for every key that occurs among the matching rows.", "quantifier": "all tables, distributions of rows over partitions, key lists, limits and offsets", "why_tests_cant": "Duplicates may be spread over partitions in any way.", "anchors": ["amelie/vm/set/union_iterator.h: union_iterator_next_distinct", "amelie/compiler/compiler/emit_select.c"]}
{"id": "C61", "title": "LIMIT and OFFSET without ORDER BY", "statement": "SELECT \u2026 LIMIT n OFFSET k without ORDER BY returns rows k+1 \u2026 k+n of some arrangement of all matching rows: no row twice, no row too few, none that does not match.", "quantifier": "all tables, distributions of rows over partitions, limits and offsets", "why_tests_cant": "The counts are split between partitions and the coordinator; ranges over all distributions.", "anchors": ["amelie/vm/set/union_iterator.h: union_iterator_next_all, union_iterator_open", "amelie/compiler/compiler/scan.c"]}
{"id": "C62", "title": "GROUP BY returns one row per group", "statement": "SELECT keys, aggregates \u2026 GROUP BY keys over a partitioned table returns exactly one row for every key that occurs among the matching rows (exactly one row without GROUP BY), wherever the rows of a group are stored.", "quantifier": "all tables, distributions of rows over partitions, group keys, and numbers of groups", "why_tests_cant": "Groups are built per partition in a hash table and merged; wrong cases need particular hash collisions or distributions.", "anchors": ["amelie/vm/set/set.c: set_get, set_upsert", "amelie/vm/set/set_cache.h", "amelie/vm/set/agg.c: agg_merge_sets", "amelie/compiler/compiler/emit_select.c"]}
{"id": "C63", "title": "Aggregates are computed over all rows of the group", "statement": "COUNT, MIN, MAX, SUM, AVG over integers, and COUNT(DISTINCT), in the row of a group are the SQL aggregates of the values of the group's rows (NULLs ignored), wherever these rows are stored.", "quantifier": "all tables, distributions of rows over partitions, lists of aggregates and groups", "why_tests_cant": "The partial aggregates of the partitions are merged in an order that depends on the distribution.", "anchors": ["amelie/vm/set/agg.c: agg_write, agg_merge_sets, agg_merge_set_distinct", "amelie/runtime/lib/avg.h"]}
{"id": "C64", "title": "IN, ANY, ALL and EXISTS", "statement": "`a IN (\u2026)`, `a NOT IN (\u2026)`, `a op ANY (\u2026)`, `a op ALL (\u2026)` and EXISTS have the truth value of the corresponding disjunction or conjunction of comparisons in SQL's three-valued logic.", "quantifier": "all left values, all lists of values and results of subqueries, all six comparison operators", "why_tests_cant": "Ranges over all lists with NULLs in any place.", "anchors": ["amelie/vm/value/array.h", "amelie/vm/vm/command.c", "amelie/vm/value/compare.h", "amelie/compiler/compiler/emit_expr.c"]}
{"id": "C65", "title": "WHERE selects the rows for which the condition is true", "statement": "A WHERE condition built from AND, OR, NOT and simple conditions selects exactly the rows for which it is true in SQL's three-valued logic (unknown does not select, and NOT unknown is unknown).", "quantifier": "all conditions of any depth, all rows with NULLs in any column", "why_tests_cant": "Ranges over all nestings of the operators and all combinations of unknowns.", "anchors": ["amelie/vm/vm/vm.c: cand, cor, cnot", "amelie/vm/value/null.h", "amelie/vm/value/compare.h: value_is_true", "amelie/compiler/compiler/scan.c"]}
{"id": "C66", "title": "Comparisons and the sort order follow the natural order of the values", "statement": "The six comparison operators on two values of one type, and the order of ORDER BY (the first differing key decides, ascending or descending, NULLs first), are those of the numbers, byte strings, times and UUIDs the values stand for; an integer and a double compare as numbers; a comparison with NULL is unknown.", "quantifier": "all pairs of values of every scalar type, all operators, all key lists and directions", "why_tests_cant": "The domain is all pairs of 64-bit patterns and strings of any length.", "anchors": ["amelie/vm/value/compare.h: value_compare, store_compare", "amelie/vm/vm/vm.c: cequii \u2026 cltuu", "amelie/compiler/compiler/cast.c", "amelie/runtime/lib/misc.h"]}
{"id": "C67", "title": "The access path does not change the result", "statement": "SELECT, UPDATE and DELETE see exactly the rows of the table for which WHERE is true, whatever index the planner scans, whatever start key, point lookup or stop condition it derives from WHERE, and whether it asks one partition or all; the same holds for a point lookup in a subquery or join.", "quantifier": "all WHERE expressions (any nesting of AND, OR, comparisons, BETWEEN and other conditions), index definitions, table contents, partitionings", "why_tests_cant": "Ranges over all combinations of conditions, key prefixes and data; a wrong start or stop silently drops rows.", "anchors": ["amelie/compiler/plan/path.c: path_key, path_create", "amelie/compiler/plan/path_op.h: path_ops_add", "amelie/compiler/compiler/scan.c: scan_table", "amelie/vm/value/row.c: row_create_key", "amelie/db/part/cursor.c", "amelie/vm/value/value_hash.h", "amelie/vm/vm/command.c: csend_lookup, csend_all"]}
{"id": "C68", "title": "set() and unset() change exactly one field of a document", "statement": "set(doc, 'a.b.c', v) gives the field at the path the value v, adds it if its object has no such field, fails if the object does not exist, and changes nothing else; unset(doc, path) removes the field and changes nothing else.", "quantifier": "all documents of any depth and size, all paths, all values", "why_tests_cant": "Ranges over all nestings of objects and positions of the field in them.", "anchors": ["amelie/vm/value/update.c: update_set, update_unset", "amelie/vm/func/fn_json.c: fn_set, fn_unset"]}
{"id": "C69", "title": "JSON array functions", "statement": "append, push, pop, pop_back, put and remove return the array with the elements added at the end or the beginning, without its first or last element, with one element replaced or removed; an index outside of the array is an error.", "quantifier": "all arrays of any elements and length, all values and indexes", "why_tests_cant": "Ranges over all documents as elements; elements are found by skipping encoded values.", "anchors": ["amelie/vm/value/json_array.h", "amelie/vm/func/fn_json.c", "amelie/runtime/json/json_op.h: json_array_last"]}
{"id": "C70", "title": "LIKE matches patterns", "statement": "`s LIKE pattern` is true exactly if the characters of s match the pattern: `%` stands for any characters, `_` for one character, `\\\\` takes the special meaning from the next character, everything else stands for itself; no pattern makes the evaluation read outside of the strings.", "quantifier": "all strings and patterns of any UTF-8 characters and length", "why_tests_cant": "Ranges over all pairs of strings and patterns; matching needs backtracking, which a few examples rarely require.", "anchors": ["amelie/vm/value/like.c: value_like", "amelie/runtime/lib/utf8.h"]}
{"id": "C71", "title": "String functions work on characters", "statement": "length, substr, strpos, replace, trim, ltrim, rtrim, lower and upper return what they are defined to return in terms of the characters of the string (positions count characters from 1), never split a character, and fail for positions outside of the string.", "quantifier": "all strings of any UTF-8 characters, positions, counts, filters, replacements", "why_tests_cant": "Ranges over all strings; characters have one to four bytes and the code works on bytes.", "anchors": ["amelie/vm/func/fn_string.c", "amelie/runtime/lib/utf8.h"]}
{"id": "C72", "title": "Dates are days of the Gregorian calendar", "statement": "A date literal or cast yyyy-mm-dd with a day of the calendar from 0001-01-01 to 9999-12-31 is stored as the number of that day and shown as it was written; days that do not exist are refused; comparing dates compares days; date + n and date - n are the days n days later and earlier or an error outside of the calendar; extract returns year, month and day.", "quantifier": "all days of the calendar, all texts, all integers n", "why_tests_cant": "3.6 million days and all pairs of them; leap years and the ends of months interact.", "anchors": ["amelie/runtime/lib/date.c", "amelie/runtime/lib/date.h", "amelie/vm/vm/vm.c: cadddi, csubdi"]}
{"id": "C73", "title": "Intervals", "statement": "The text of an interval reads back as the same interval; extract returns its fields, which together make up the interval; interval_trunc cuts it to a multiple of the field; sums and differences are exact or an error.", "quantifier": "all intervals (32-bit months and days, 64-bit microseconds, of any sign), all texts and fields", "why_tests_cant": "Ranges over all values of three fields with 128 bits.", "anchors": ["amelie/runtime/lib/interval.c", "amelie/runtime/lib/interval.h"]}
{"id": "C74", "title": "Timestamps as text", "statement": "A timestamp literal with a date, a time, an optional fraction of a second and an offset is that moment, whatever the time zone of the session, and invalid dates, times or moments outside of 1970..9999 are errors; the text of a timestamp reads back as the same timestamp.", "quantifier": "all timestamps (microseconds), all offsets of time zones, all texts", "why_tests_cant": "Ranges over 2.5*10^17 timestamps with all offsets, and over all texts.", "anchors": ["amelie/runtime/lib/timestamp.c: timestamp_parse, timestamp_set, timestamp_get, timestamp_get_unixtime"]}
{"id": "C75", "title": "Timestamp arithmetic", "statement": "timestamp + interval and timestamp - interval are the moment that many months, days and microseconds later or earlier, or an error outside of 1970..9999; b + (a - b) = a; adding and subtracting an interval of days and time gives the timestamp back; a date as a timestamp is its midnight and the date of a timestamp is its day.", "quantifier": "all timestamps, dates and intervals", "why_tests_cant": "All pairs of timestamps and intervals; months and leap years carry.", "anchors": ["amelie/runtime/lib/timestamp.c: timestamp_add, timestamp_sub, timestamp_set_unixtime, timestamp_set_date, timestamp_date", "amelie/vm/vm/vm.c: caddtl, csubtl, csubtt, cadddl"]}
{"id": "C76", "title": "date_trunc, date_bin and extract of timestamps", "statement": "date_trunc returns the start of the year, month, day, hour, minute, second or millisecond that the timestamp is in, in the given time zone; date_bin returns the last start of a bin that is not later; extract returns the fields of the local date and time.", "quantifier": "all timestamps, fields, time zones, bin widths and origins", "why_tests_cant": "All timestamps, widths and origins.", "anchors": ["amelie/runtime/lib/timestamp.c: timestamp_trunc, timestamp_extract", "amelie/vm/func/fn_time.c: fn_date_trunc, fn_date_bin"]}
{"id": "C77", "title": "The offset of a time zone", "statement": "The offset that a time zone has at a time is that of its last transition that is not later than the time; looking it up reads only the data of the time zone.", "quantifier": "all time zones (any number of transitions) and times", "why_tests_cant": "A binary search over all tables of transitions.", "anchors": ["amelie/runtime/lib/timezone.c: timezone_match"]}
{"id": "C78", "title": "Generated identity values are unique", "statement": "A value that the server generates for an identity column is not the value of another row and was not generated before, with any number of sessions inserting at the same time, refreshes and index builds running, and across restarts; SET IDENTITY stays in effect.", "quantifier": "all histories of inserts with and without explicit values, deletes, refreshes, checkpoints, SET IDENTITY and restarts, with every interleaving of the steps of the sequence", "why_tests_cant": "Ranges over all histories and interleavings; the sequence is rebuilt from rows and log at restart.", "anchors": ["amelie/db/row/sequence.h", "amelie/vm/value/row.h: row_get_identity", "amelie/db/part/part_op.c: part_sync_sequence, part_insert, part_apply", "amelie/db/catalog/table_mgr_alter.c: table_mgr_set_identity"]}
{"id": "C79", "title": "Expressions are read by precedence", "statement": "An expression is read by the precedence of its operators (OR, AND, comparison, bitwise, shift, sum, product, prefix operators, brackets), operators of one precedence from left to right, parentheses first, whatever operators and however deeply it mixes; no text has two readings, and the text after the expression is left alone.", "quantifier": "all expressions of constants, names, calls, arrays, indexes, prefix and binary operators, BETWEEN, IN, IS, LIKE, AT TIMEZONE, ANY and ALL, of any length and depth", "why_tests_cant": "Ranges over all expressions; tests try a few mixtures.", "anchors": ["amelie/compiler/parser/parse_expr.c: priority_map, expr_pop, expr_operator, expr_value, parse_unary, parse_op, parse_expr, parse_expr_args", "amelie/compiler/parser/ast_stack.h"]}
{"id": "C80", "title": "Text is read as the tokens it is written in", "statement": "Any sequence of numbers, names, keywords (in any case), paths, symbols and strings, with any white space and comments between them, is read as these tokens; a string, escaped and in quotes, is one literal with that value whatever it contains and whatever follows; so every expression written as text is read back as the tree it was written from.", "quantifier": "all texts of tokens of any length, all strings, all trees of operators", "why_tests_cant": "Ranges over all texts; every symbol can be followed by every other.", "anchors": ["amelie/compiler/parser/lex.c: lex_next, lex_keyword_match", "amelie/compiler/parser/keyword.c: keywords, keywords_alpha", "amelie/compiler/emit/emit.h: emit_string"]}
{"id": "C81", "title": "A replica has a prefix of the history of its primary", "statement": "Whatever is written on the primary, however requests are cut, delayed and repeated, whenever connections break, sessions fail and servers stop: the transactions of a replica are the first transactions of the primary, in order, each once; the position that the primary reports has been reached; a replica whose next records are still in the log can catch up.", "quantifier": "all histories of writes, log cleaning, connections, requests, replays, failures and stops, with every interleaving", "why_tests_cant": "Ranges over all interleavings of two servers and all points of failure.", "anchors": ["amelie/sync/repl/streamer.c: streamer_connect, streamer_collect, streamer_write, streamer_next, streamer_process", "amelie/sync/repl/primary.c: primary_next, primary_main", "amelie/system/session/session_replay.c: session_execute_replay", "amelie/db/wal/wal_cursor.c: wal_cursor_open, wal_cursor_readahead"]}
{"id": "C82", "title": "HTTP messages are read whole, whatever the network does", "statement": "Any sequence of well-formed requests on a connection, however the network cuts it into pieces, is read as exactly these requests with exactly their bodies; a message that is cut off is an error and is never processed; a body of the size limit or more is refused; no sequence of bytes makes the reader touch memory that is not its own; replies and the server's own requests are read back as written.", "quantifier": "all sequences of messages of any length, all cuts of the stream, all byte streams", "why_tests_cant": "The number of ways to cut a stream into reads is unbounded; tests send whole messages.", "anchors": ["amelie/server/http/http.c: http_read, http_read_content, http_find, http_begin_request, http_begin_reply", "amelie/runtime/os/readahead.h", "amelie/server/client/client.c"]}
{"id": "C85", "title": "Functions and time zones are found by name", "statement": "Whatever functions and time zones are registered under distinct names, a search for a name ends and returns the one of that name (time zones: without regard to case), or nothing if there is none; removing an entry leaves the others in place.", "quantifier": "all sets of names, all orders of registration, all names searched", "why_tests_cant": "Ranges over all sets of names and their collisions.", "anchors": ["amelie/runtime/lib/hash_table.h", "amelie/vm/func/function_mgr.c", "amelie/runtime/lib/timezone_mgr.c"]}
{"id": "C83", "title": "Only holders of a valid token are let in", "statement": "After any history of requests and changes of users, a client is let in as a user only with a token of that user, signed with the user's secret and not expired (or, from the cache, with the digest of one that was valid since the users last changed); a valid token is always accepted, and one that the server made is valid; when users change, dropped users and old secrets stop working at once; no token makes the server misbehave.", "quantifier": "all histories of requests and user changes, all tokens of any length, all code functions with a 32 byte result", "why_tests_cant": "Ranges over all tokens and all histories of the authentication cache.", "anchors": ["amelie/server/auth/auth.c: auth_run, auth_sync", "amelie/server/auth/auth_cache.c", "amelie/server/auth/jwt_decode.c", "amelie/server/auth/jwt_encode.c", "amelie/server/auth/jwt.c: jwt_create", "amelie/server/user/user_cache.h: user_cache_sync", "amelie/runtime/json/decode.h: decode_obj", "amelie/system/frontend/frontend_client.c: frontend_auth"]}
{"id": "C84", "title": "Addresses and request targets mean what is written", "statement": "Every address of the documented form, with any parts that do not contain the separators and any percent-encoded arguments, sets exactly the options its parts stand for; the server reads the target of a request as the database, relation and arguments that the client wrote; an address written for a connection is read back as that connection; no text makes the reader misbehave.", "quantifier": "all addresses, all arguments of any bytes, all connections, all texts", "why_tests_cant": "Ranges over all texts; every part can contain every character.", "anchors": ["amelie/server/http/uri.c: uri_parse, uri_parse_endpoint, uri_export", "amelie/server/http/endpoint.c: endpoint_init", "amelie/server/http/http.c: http_begin_request"]}
{"id": "C86", "title": "A compiled expression computes what it says", "statement": "For every expression the compiler accepts, over every row, variables and functions, the code it makes computes the value of the expression, or reports the error the expression is; it leaves the registers in use and the stack as they were, uses no register beyond those it asked for, and loses no memory.", "quantifier": "all expressions of any depth, all rows, variables and function results, all code before and after", "why_tests_cant": "Ranges over all nestings of operators and all pairs of operand types; register reuse depends on the whole tree.", "anchors": ["amelie/compiler/compiler/emit_expr.c: emit_expr", "amelie/compiler/compiler/cast.c: cast_operator", "amelie/compiler/compiler/rmap.h", "amelie/compiler/compiler/compiler_op.h", "amelie/vm/vm/vm.c: vm_run", "amelie/vm/value/value.h", "amelie/vm/value/null.h", "amelie/vm/value/compare.h", "amelie/vm/value/stack.h", "amelie/vm/set/in.c: value_in"]}
{"id": "C87", "title": "Functions that choose a value choose the right one", "statement": "GREATEST and LEAST of any number of values of one type are the first argument that no other is above (below), without regard to NULL; COALESCE is the first argument that is not NULL; NULLIF is NULL exactly for equal arguments; ABS, SIGN and MOD of integers are the numbers they are called, and no argument stops the server.", "quantifier": "all lists of arguments of any length and type", "why_tests_cant": "Ranges over all values; the result depends on what the comparison of each type returns.", "anchors": ["amelie/vm/func/fn_math.c: fn_greatest, fn_least, fn_abs, fn_sign, fn_mod, fn_fmod", "amelie/vm/func/fn_null.c: fn_coalesce, fn_nullif", "amelie/vm/value/compare.h: value_compare"]}
{"id": "C88", "title": "A compiled SELECT returns the rows the query says", "statement": "The program of a SELECT over tables (joins, WHERE, OFFSET, LIMIT) returns, in order, the select list of the combinations of rows WHERE holds for, without the first OFFSET and at most LIMIT; an error of an expression is an error of the query; nothing else on the stack, in registers or cursors changes, and cursors of the query are closed. If the index path leaves out no row that could satisfy WHERE, the result is that of the product of the whole tables.", "quantifier": "all queries (tables, joins, keys, stop conditions, WHERE, select list, limits), all contents of tables, all programs around the query", "why_tests_cant": "Quantifies over all queries and all tables: the jumps of nested loops are set after the code, and whether each goes to the right place depends on all the code in between.", "anchors": ["amelie/compiler/compiler/scan.c: scan, scan_table, scan_key, scan_stop, scan_on_match", "amelie/compiler/compiler/emit_select.c: on_match, cmd_scan", "amelie/vm/vm/command.c: ctable_open", "amelie/vm/vm/vm.c: CTABLE_NEXT, CJGTED, CJLTD, CSET_ADD, CFREE"]}
{"id": "C89", "title": "A failed DDL transaction changes nothing", "statement": "When a DDL request is answered with an error, or a replayed DDL record fails, the databases, tables (columns, indexes, tiers), functions and storages are what they were before, and every name resolves to the same object.", "quantifier": "all catalogs reachable by any history of DDL, all sequences of statements, the failure at any statement or after the last one", "why_tests_cant": "Ranges over all histories and all sequences of statements; each undo runs against a catalog the later statements changed.", "anchors": ["amelie/db/transaction/relation_mgr.c", "amelie/db/transaction/commit.c: tr_commit, tr_abort", "amelie/db/catalog/catalog.c: catalog_execute", "amelie/db/catalog/cascade.c", "amelie/db/catalog/database_mgr.c", "amelie/db/catalog/table_mgr.c", "amelie/db/catalog/table_mgr_alter.c", "amelie/db/catalog/table_index.c", "amelie/db/catalog/table_tier.c", "amelie/db/catalog/udf_mgr.c", "amelie/db/storage/storage_mgr.c", "amelie/system/session/session.c: session_execute_utility"]}
{"id": "C90", "title": "Names are unique and DDL statements mean what they say", "statement": "At any time no two databases, storages, tables of a database, functions of a database, columns or indexes of a table share a name (without case), and every table and function is in an existing database. CREATE, DROP and ALTER RENAME of a table, DROP and RENAME of a database, ADD, DROP and RENAME of a column change what the names they mention resolve to in the stated way, and nothing else; DROP DATABASE without CASCADE only drops an empty database.", "quantifier": "all catalogs reachable by any history of DDL, all statements", "why_tests_cant": "Ranges over all histories: whether a name is unique depends on every statement run before, including those rolled back.", "anchors": ["amelie/db/transaction/relation_mgr.c: relation_mgr_get", "amelie/db/catalog/catalog.c: catalog_execute", "amelie/db/catalog/cascade.c", "amelie/db/catalog/table_mgr.c", "amelie/db/catalog/table_mgr_alter.c", "amelie/db/row/columns.h: columns_find", "amelie/system/session/session.c: session_set, session_execute_utility"]}
{"id": "C91", "title": "A restart brings the catalog back", "statement": "Whatever DDL was run, the catalog file a checkpoint writes is read at the next start into the same catalog: the same storages, databases, tables with their columns, constraints, defaults, indexes, partitions and tiers, and functions, and the same lsn; every name means what it meant.", "quantifier": "all catalogs reachable by any history of DDL, all names, texts and values", "why_tests_cant": "Ranges over all catalogs; the file passes through the JSON printer and parser, base64, UUID text and the statements that create each object again in an order.", "anchors": ["amelie/db/catalog/catalog_file.c: catalog_write_prepare, catalog_restore, catalog_read", "amelie/runtime/json/decode.h: decode_obj", "amelie/db/catalog/table_config.h", "amelie/db/catalog/udf_config.h", "amelie/db/row/column.h: column_copy, column_write, column_read", "amelie/db/row/constraints.h: constraints_write, constraints_read", "amelie/db/index/index_config.h", "amelie/db/row/keys.h", "amelie/db/tier/tier_config.h", "amelie/db/storage/volume.h", "amelie/db/storage/storage_config.h", "amelie/db/catalog/database_config.h"]}
{"id": "C92", "title": "A SELECT returns what its clauses say", "statement": "A SELECT over a partitioned table (or over an expression), whatever its clauses and whatever plan is chosen, returns an answer of the statement: the rows that satisfy WHERE, grouped by the GROUP BY keys with their aggregates and filtered by HAVING, the select list of each, one row per key for DISTINCT, in ORDER BY order, then OFFSET and LIMIT. GROUP BY, ORDER BY and DISTINCT ON may use labels and positions of the select list.", "quantifier": "all statements built of these clauses, all contents and all distributions of the rows over partitions, all choices of index, all orders of equal rows", "why_tests_cant": "Quantifies over all statements and all tables: which plan runs, what is pushed down to partitions and which expression a name means depends on all clauses at once.", "anchors": ["amelie/compiler/parser/parse_select.c: parse_select, parse_select_distinct, parse_select_resolve, parse_select_resolve_group_by_alias, parse_select_resolve_order_by", "amelie/compiler/parser/parse_order.h: ast_order_list_match_index", "amelie/compiler/parser/parse_group.h: ast_group_resolve_column", "amelie/compiler/plan/plan.c", "amelie/compiler/plan/plan_pushdown.c", "amelie/compiler/compiler/emit_select.c", "amelie/db/row/columns.h: columns_find_noconflict"]}
{"id": "C93", "title": "The body of a response is the JSON of the result", "statement": "The body of a response to a statement is a JSON text (RFC 8259) for the result: an array with one element per row, in the order of the rows, each an object with the names of the columns (or, in the minimal format, an array of the values, or the value of the only column); each value is the JSON value of the cell. An error is answered with the JSON text of {\"msg\": text}. Larger responses than limit_send are refused with an error.", "quantifier": "all results (any number of rows and columns, all value types), both layouts (pretty and compact), both formats, all limits", "why_tests_cant": "Quantifies over all results; every string, nested document and date is printed by different code into one text that must stay well-formed.", "anchors": ["amelie/vm/output/output_json.c: output_json_write, output_json_row_obj, output_json_row_array, output_json_write_json, output_json_write_error", "amelie/vm/output/output.h: output_ensure_limit", "amelie/vm/value/json.h: value_export", "amelie/runtime/json/json_export.c: json_export_as", "amelie/runtime/json/escape.h: escape_str"]}
{"id": "C94", "title": "INSERT \u2026 VALUES puts each value in its column", "statement": "INSERT INTO t VALUES (\u2026), (\u2026) stores one row per group: without a column list the i-th item is the value of the i-th column that is not dropped; with a list each value goes to the column it is written under and every other column has its default; DEFAULT stands for the default, a literal for its value. A statement with the wrong number of values, a list out of order or with a column twice, or a NULL in a NOT NULL column is refused. GENERATE n inserts n rows of defaults. Every row goes to its partition once, in order; an identity that is not given is the next number of the sequence.", "quantifier": "all tables (types, constraints, defaults, dropped columns), all texts of rows with any white space and comments, all sequences and partition mappings", "why_tests_cant": "Quantifies over all tables and all texts; the parser follows the columns and the text at the same time, and mistakes show only for particular combinations of lists, defaults and dropped columns.", "anchors": ["amelie/compiler/parser/parse_insert.c: parse_insert, parse_column_list", "amelie/compiler/parser/parse_row.c: parse_row, parse_row_list, parse_rows, parse_row_generate", "amelie/compiler/parser/parse_value.c: parse_value, parse_vector, parse_value_default, parse_value_validate", "amelie/vm/vm/command.c: csend_shard", "amelie/vm/value/row.h: row_get_identity, row_map", "amelie/vm/value/value_data.h: value_data_encode"]}
{"id": "C95", "title": "UPDATE, DELETE and INSERT \u2026 ON CONFLICT change exactly the rows they name", "statement": "UPDATE changes exactly the rows its WHERE holds for; in each, every column of a SET has the value of its expression on the row as it was before the statement, all other columns are as they were; the order of the SETs makes no difference. DELETE removes exactly the rows its WHERE holds for. INSERT \u2026 ON CONFLICT adds each row whose key is not there and otherwise does to the row that is there what the clause says (nothing, an error, or the SETs, with EXCLUDED as the row given). RETURNING gives one row per row changed. SET of a key column, of an unknown or dropped column, of a column twice or of a value of another type is refused.", "quantifier": "all tables and contents, all SET lists, WHERE and RETURNING expressions, all histories of statements that succeed", "why_tests_cant": "Quantifies over all contents, expressions and histories; the statement changes the index it is scanning, and each expression must see the row as it was.", "anchors": ["amelie/compiler/parser/parse_update.c: parse_update_expr", "amelie/compiler/compiler/emit_update.c", "amelie/compiler/compiler/emit_delete.c", "amelie/compiler/compiler/emit_upsert.c", "amelie/vm/vm/command.c: cupdate, cdelete, cupsert", "amelie/vm/value/row.c: row_create, row_update", "amelie/db/part/part_op.c: part_update, part_delete, part_upsert"]}
{"id": "C96", "title": "The rows sent to an endpoint are the rows stored", "statement": "A request with text/csv, application/jsonl or application/json to the endpoint of a table stores exactly the rows its text says, in order: an array or a line gives values by position (for all columns that are not dropped, or for those of the list of columns of the request), an object gives values by the names of columns in any order and case, every other column has its default. A request to a function gives it the arguments its text says. A text with an unknown or repeated key, a value that is not of the type of its column, a NULL where it may not be, or with text left over is refused and stores nothing. White space and newlines between the tokens make no difference. Reading ends for every text.", "quantifier": "all tables, all lists of columns, all content types, all texts of any length and nesting", "why_tests_cant": "Quantifies over all tables and texts; three formats are read with the SQL lexer by one row reader that follows columns, list and text at the same time.", "anchors": ["amelie/compiler/parser/parse_endpoint.c: parse_endpoint, parse_endpoint_set_columns, import_row, import_obj, import_json_row, import_jsonl, import_json, import_csv, import_insert, import_execute", "amelie/compiler/parser/parse_value.c: parse_value, parse_value_default, parse_value_validate"]}
{"id": "C97", "title": "Messages between tasks arrive once, in order, and wake up the task", "statement": "Any number of threads send messages to one task. The task gets the messages of each thread in the order in which it sent them, each exactly once, also when more are sent than the ring of 1024 slots holds; no slot is overwritten before it is read. A send that does nothing, because the message is on its way already, happens only while an earlier send of it has not been handed over. A task that waits in epoll while a message is in its bus is woken up: the eventfd is readable or a thread is about to make it so. Senders do not block each other: one of them can go on, or the ring is full and the task is awake or is woken up.", "quantifier": "all interleavings of any number of threads and any number of sends, any number of slots that is a power of two", "why_tests_cant": "Quantifies over all interleavings of lock-free steps of unboundedly many threads; a lost wake-up or an overwritten slot shows up in rare schedules only.", "anchors": ["amelie/runtime/base/ring.h: ring_write, ring_read, ring_pending", "amelie/runtime/base/bus.h: bus_send, bus_step, bus_set_sleep", "amelie/runtime/base/ipc.h: ipc_ref, ipc_unref", "amelie/runtime/base/notify.c: notify_signal, notify_on_read", "amelie/runtime/base/task.c: mainloop"]}
{"id": "C98", "title": "sleep() takes its time, and timers fire in order", "statement": "sleep(ms) returns not before ms milliseconds have passed, and at the first moment after that at which the task has nothing else to do. Timers that are due fire in the order of their time, those of the same time in the order in which they were started, each exactly once unless it is stopped. The task never waits in epoll beyond the first timer. The time a statement sees is the time at which it runs. The array of timers is never written beyond its end.", "quantifier": "all histories of sleeps, cancellations, waits and times that pass, any number of timers, all arguments of sleep", "why_tests_cant": "Quantifies over all histories of timers and all times at which the task waits and wakes; the cached time makes one session's sleep depend on another's.", "anchors": ["amelie/runtime/base/timer_mgr.c: timer_mgr_update, timer_mgr_step, timer_mgr_cmp, timer_mgr_add, timer_mgr_remove", "amelie/runtime/base/timer_mgr.h: timer_mgr_reset, timer_start, timer_stop", "amelie/runtime/base/wait.h: wait_event_time", "amelie/runtime/base/task.c: mainloop", "amelie/vm/func/fn_misc.c: fn_sleep"]}
{"id": "C99", "title": "A backup holds the database as it was when the backup began", "statement": "A backup lists the files of the database in one step and then sends them one by one while the server goes on. A restore that gets an answer to each request writes exactly the files as they were when the backup began, each with its name and bytes, whatever the server did in between: writes, checkpoints and flushes that replace files, DROP TABLE, removal of wal files, other backups. While a backup is at work its files are kept, so each request is answered. A backup can begin at any time, and its end leaves nothing behind and touches no file of the database. It sends no other files.", "quantifier": "all histories of the server before and during the backup, any number of backups that come and go, any number and sizes of files", "why_tests_cant": "Quantifies over all interleavings of a backup with checkpoints, garbage collection and other backups; a test sees a few of them.", "anchors": ["amelie/db/db/snapshot_mgr.c: snapshot_mgr_create, snapshot_mgr_drop, snapshot_mgr_gc", "amelie/db/catalog/catalog_snapshot.c: catalog_snapshot, catalog_snapshot_cleanup", "amelie/db/wal/wal.c: wal_snapshot, wal_gc, wal_slots", "amelie/sync/backup/backup.c: backup_send_file, backup_main", "amelie/sync/backup/restore.c: restore_file_remote, restore_run"]}
{"id": "C100", "title": "The command line client sends whole statements, in order", "statement": "The client reads lines and sends statements. Whatever the lines are, what it sends, with the white space dropped between statements, and what is left at the end, is the input: nothing is lost, changed, repeated or reordered. A text made of statements that the SQL lexer reads is sent statement by statement, however it is divided into lines: a ';' in a string, in a comment or inside BEGIN, IF, FOR, WHILE \u2026 END does not end a statement. After each line the client waits only if the statement is not complete.", "quantifier": "all texts and all divisions into lines, any length, any nesting of blocks", "why_tests_cant": "Quantifies over all texts, nestings and line breaks; a test shows a few statements.", "anchors": ["amelie/runtime/lib/separator.h: separator_skip, separator_skip_string, separator_match, separator_next, separator_read, separator_advance", "amelie/main/main/main_cli.c: main_console, main_execute"]}
{"id": "C101", "title": "Checksums are the same on every machine, and damage of up to 32 bits is found", "statement": "Files written on one machine are verified on another, by other code: with tables, eight bytes at a time from the first word boundary, or with the CRC32 instruction. For all bytes, at all addresses, and however the bytes are divided into pieces, both give the same number: the remainder of CRC-32C. Two texts of the same length whose differences lie in 32 bits in a row have different checksums, so such damage to the header and commands of a log record, or to its rows, is refused.", "quantifier": "all byte strings of any length, all addresses, all divisions into pieces, all damages of up to 32 bits in a row", "why_tests_cant": "Quantifies over all texts and all damages; 2048 table entries, alignments and lengths meet in ways that a test does not enumerate.", "anchors": ["amelie/runtime/lib/crc.c: crc32, crc32_sse, crc32_sse_byte, crc_tableil8_o32 to crc_tableil8_o88", "amelie/runtime/runtime/runtime.c: runtime_init", "amelie/db/transaction/record.h: record_validate, record_validate_cmd", "amelie/db/storage/encoder.h: encoder_iov_crc"]}
{"id": "C102", "title": "Users, options and replication settings survive a restart", "statement": "What was set by options at the first start, by CREATE, ALTER and DROP USER, and by the replication statements is there after a restart, however many statements and restarts there were: the next start succeeds, writes nothing and has the same users with the same secrets, the same options and the same read-only mode. A file of options that was saved is read without an error and gives every option the value it had; saving it again gives the same bytes. --name=value sets the option of that name to that value, or is refused, and changes no other option. CREATE, ALTER and DROP USER change the user of that name and nobody else, and what the frontends check tokens with are the users of the server. While the state is saved the previous file is not lost.", "quantifier": "all histories of first start, statements and restarts; all option values and users that are texts; all lists of options; all crash points while a file is saved", "why_tests_cant": "Quantifies over all histories of statements and restarts, all values of options, users and secrets, and all crash points.", "anchors": ["amelie/runtime/runtime/opt.h: opt_set_json, opt_set, opt_encode", "amelie/runtime/runtime/opts.c: opts_set, opts_set_json, opts_set_argv, opts_list_persistent", "amelie/runtime/runtime/config.c: config_open, config_save", "amelie/runtime/runtime/state.c: state_open, state_save", "amelie/server/user/user_mgr.c: user_mgr_open, user_mgr_save, user_mgr_create, user_mgr_drop, user_mgr_alter", "amelie/server/user/user_cache.h: user_cache_sync, user_cache_dump", "amelie/sync/repl/repl.c: repl_open, repl_subscribe", "amelie/system/system/repo.c: repo_open, repo_version_open"]}
{"id": "C103", "title": "What is written into an object file is read from it", "statement": "Rows that are moved into an object file are all there when it is read: every region read through the index of its branch has the rows that were written, in their order, with the first and the last row and their number in the index, whatever is written into the file after it; a region ends with the row that reaches the size limit of regions. A query on the branch gets the rows from its key on, in order, and hears whether the key is there. What was in the file before stays as it was. A file that was written can be opened again, and then has the index it was written with. Without compression the same holds, for files of any size; what a crash left after the last complete branch is cut off.", "quantifier": "all lists of rows of any sizes, size limits, file contents before and after, compression libraries that give back what they were given, and keys", "why_tests_cant": "Quantifies over all lists of rows, file contents, limits and compression functions.", "anchors": ["amelie/db/object/writer.c: writer_start, writer_add, writer_stop, writer_stop_region", "amelie/db/object/region_writer.h: region_writer_add, region_writer_stop", "amelie/db/object/meta_writer.h: meta_writer_add, meta_writer_stop, meta_writer_copy", "amelie/db/object/reader.h: reader_execute", "amelie/db/object/object.c: object_read, object_read_index, object_validate_index, object_open", "amelie/db/object/region.h: region_row", "amelie/db/object/meta.h: meta_region", "amelie/db/storage/encoder.h: encoder_encode, encoder_iov, encoder_decode"]}
{"id": "C104", "title": "The coroutines of a thread wake up, take turns and end", "statement": "A coroutine that waits is never forgotten: while it sleeps the event it waits for has not been signalled and knows it, and a signal of the event or of one below it wakes it. Every coroutine that has not ended is the one that runs, or in the ready list once, or waits for an event that knows it. Coroutines run in the order in which they became ready: one with k others before it is the next after k others ran, whatever else happens. A coroutine that has ended is never run again, and its memory serves one coroutine at a time. To kill a coroutine tells it to stop, wakes it if it sleeps and may be cancelled, is not lost while it is inside a part that must not be cancelled, and lasts until it ends; a cancelled coroutine does not sleep in a wait that is a point of cancellation. To wait for a coroutine returns after that coroutine has ended and not before, even if the caller is killed meanwhile and the memory is used again. When the main coroutine of a thread ends all others are told to stop and it sleeps until it is the only one. A wait that reports a timeout was not signalled.", "quantifier": "all histories of any number of coroutines that create, wait with and without time limit, signal events with chains of parents, kill, join, enter and leave parts that must not be cancelled, and end", "why_tests_cant": "Quantifies over all histories of creations, waits, signals, timers, kills and ends, and over all orders of them.", "anchors": ["amelie/runtime/base/coroutine_mgr.h: coroutine_mgr_create, coroutine_mgr_scheduler, coroutine_suspend, coroutine_resume, coroutine_cancel", "amelie/runtime/base/coroutine.h: coroutine_cancel_pause, coroutine_cancel_resume", "amelie/runtime/base/wait.h: event_signal_local, wait_event, wait_event_time, wait_event_timer", "amelie/runtime/base/runtime.h: event_wait, coroutine_wait, coroutine_kill, coroutine_kill_nowait", "amelie/runtime/base/task.c: task_shutdown, task_coroutine_main", "amelie/runtime/base/mailbox.h: mailbox_pop"]}
{"id": "C105", "title": "Background jobs on the same partition take turns", "statement": "Refresh, flush and index jobs ask for a partition by its number before they touch it. Two jobs never work on the same partition at the same time; a job waits only for another job that has the same partition and asked for it earlier, so the partition is given in the order in which the jobs asked; a job whose partition no other job has or waits for gets it at once, whatever the jobs on other partitions and the statements of users do. The entries of the lock manager are used for one partition at a time and are reused only when the last job on the partition is done; when all jobs are done nothing is left locked.", "quantifier": "all histories of any number of jobs that ask for, get and give back partitions, interleaved with any use of the other locks of the server", "why_tests_cant": "Quantifies over all interleavings of jobs, between the lookup of the entry and the lock on it as well; the entries are recycled.", "anchors": ["amelie/db/service/service_lock_mgr.h: service_lock_mgr_create, service_lock_mgr_lock, service_lock_mgr_unlock", "amelie/db/service/service.h: service_lock, service_unlock", "amelie/db/service/refresh.c: refresh_run", "amelie/db/service/flush.c: flush_run", "amelie/db/service/indexate.c: indexate_next"]}
{"id": "C106", "title": "Buffers hold what was written into them and are shared safely", "statement": "Everything the server builds, stores and sends goes through growing buffers. The content of a buffer is what was written into it, in order, with places filled in later, cut off and reset as asked, for all sizes below 2 GiB and whatever the allocator gives; no byte outside of the memory of the buffer is touched; the memory is at most twice what was needed, and growing costs no more copies than that. A buffer that somebody has is not given to anybody else and is changed only by those who have it; it goes back to the cache with its last reference and not before; a new buffer is empty; without references every buffer is in one cache, once.", "quantifier": "all histories of operations on a buffer, with all bytes and sizes below 2^31; all interleavings of any number of threads that make, share, write and free buffers", "why_tests_cant": "Quantifies over all histories of sizes, all contents of fresh memory and all interleavings of atomic counters and caches.", "anchors": ["amelie/runtime/base/buf.h: buf_reserve, buf_append, buf_write, buf_emplace, buf_truncate, buf_reset, buf_vprintf, buf_ref", "amelie/runtime/base/buf_cache.h: buf_cache_pop, buf_cache_push, buf_cache_create", "amelie/runtime/base/buf_mgr.h: buf_mgr_create", "amelie/runtime/base/runtime.h: buf_free, buf_create"]}
