#!/usr/bin/env python3
# Generates /verif/properties.jsonl (one JSON object per line).
import json, os
P=[]
def p(id,title,statement,quantifier,why,anchors):
    P.append(dict(id=id,title=title,statement=statement,quantifier=quantifier,why_tests_cant=why,anchors=anchors))

p("C01","JSON values survive storage",
  "A JSON value (null, booleans, 64-bit signed integers, strings, arrays and objects nested to any depth) that is written in the binary document format and read back is the same value, and reading it consumes exactly the bytes that were written, whatever bytes follow it.",
  "every JSON value of any depth and width (strings below 2^32 bytes, integers in the int64 range) and every following byte string",
  "nesting depth, sizes at each encoding boundary and following bytes are unbounded",
  ["amelie/runtime/json/json.h: json_write_integer, json_write_raw, json_read_integer, json_read_string","amelie/runtime/json/encode.h"])
p("C02","Skipping a stored JSON value lands exactly on the next one",
  "Skipping over one stored JSON value placed anywhere in a buffer moves to the first byte after it; so a sequence of values is walked one value at a time and the size reported for a value is its number of bytes.",
  "every JSON value of any depth, every continuation of the buffer",
  "values nest to unbounded depth; an off-by-one in the level counter shows only on particular shapes",
  ["amelie/runtime/json/json.h: json_skip","amelie/runtime/json/json_op.h"])
p("C03","JSON comparison is a total order that agrees with equality",
  "Comparing two stored JSON values gives a result that is antisymmetric and transitive, and says equal exactly when the two values are the same value; sorting and grouping by JSON columns rely on it.",
  "all pairs and triples of JSON values of any depth",
  "order laws range over all pairs and triples",
  ["amelie/runtime/json/json_compare.h: json_compare"])
p("C04","JSON path access finds the field that is there",
  "Looking up a key in a stored object returns the value of the first field with that key and fails exactly when no field has it; indexing a stored array returns the element at that position and fails exactly when the index is out of range.",
  "all objects and arrays of any size with any nested contents, all keys and indices",
  "the walk must skip arbitrary nested values correctly",
  ["amelie/runtime/json/json_op.h: json_obj_find, json_array_find, json_array_last, json_array_size, json_obj_size"])
p("C05","Escaped text reads back as the original string",
  "Any string printed with escapes inside quotes and parsed back gives the same bytes; the printed form contains no unescaped quote so the parser stops at the closing quote.",
  "all byte strings","every byte value in every position and adjacency of backslashes and quotes",
  ["amelie/runtime/lib/escape.h: escape_str, unescape_str"])
p("C06","Base64 and base64url round-trip, and reject foreign characters safely",
  "Decoding the encoding of any byte string returns that byte string, for both alphabets; decoding text with a character outside the alphabet reports failure.",
  "all byte strings of any length; all texts","lengths modulo 3 and all byte values combine; the failing input is a byte >= 128",
  ["amelie/runtime/lib/base64.c","amelie/runtime/lib/base64url.c"])
p("C07","UUID text round-trip",
  "Printing a UUID and parsing the text gives the same 128-bit value; parsing accepts exactly 36-character canonical texts with hexadecimal digits and dashes in the fixed places.",
  "all 2^128 UUIDs and all texts","the domain has 2^128 elements",
  ["amelie/runtime/lib/uuid.c: uuid_set, uuid_get"])
p("C08","A stored row returns the column values it was built from",
  "For a row built from any list of column values, reading column i gives exactly the bytes of value i, or NULL exactly when value i was NULL, and the row's recorded size is the number of bytes it occupies.",
  "all lists of column values of any sizes (including the 1/2/4-byte offset width boundaries)",
  "boundary sizes of the offset encoding depend on the total row size including the offset table itself",
  ["amelie/db/row/row.h: row_measure, row_allocate, row_column, row_set","amelie/vm/value/row.c"])
p("C09","Key comparison is a lexicographic total order",
  "Comparing rows by their key columns is a total order: reflexive, antisymmetric on keys, transitive, total, and it is the lexicographic order of the key columns.",
  "all rows and all key definitions","order laws range over all triples of rows and any number of key columns",
  ["amelie/db/row/compare.h: compare","amelie/runtime/lib/str compare","amelie/vm/value/compare.h"])
p("C10","An ordered index behaves as a sorted map",
  "After any sequence of inserts, upserts, replacements and deletes, an ordered (tree) index answers a key lookup with the last row stored under that key (or nothing if none or deleted), insert-if-absent reports a conflict exactly when the key is present, the row count is the number of keys, and a full scan yields every live row once in increasing key order.",
  "all operation histories of any length, all page sizes >= 2, all keys",
  "page splits and deletes interact over unbounded histories",
  ["amelie/db/index/tree.c: tree_set, tree_set_or_get, tree_unset, tree_seek","amelie/db/index/tree_iterator.h"])
p("C11","An ordered index range scan returns every row at or above the start key",
  "Opening an ordered index at a key and iterating yields exactly the live rows whose key is greater than or equal to the start key, in order.",
  "all reachable trees and all start keys, present or absent",
  "the failing case needs a start key falling in the gap between two pages",
  ["amelie/db/index/tree_iterator.h: tree_iterator_open","amelie/db/index/tree.h: tree_search"])
p("C12","A hash index behaves as a map",
  "After any sequence of inserts, upserts, replacements and deletes on a hash index, including while it is being resized, a lookup returns the last row stored under the key or nothing if deleted, and no key is stored twice.",
  "all operation histories of any length, all hash functions, all resize points",
  "collisions, tombstones and incremental resize interleave over unbounded histories",
  ["amelie/db/index/hash.h","amelie/db/index/hash_store.h","amelie/db/index/index_hash.c"])
p("C13","A hash index scan over partitions returns every row once",
  "A SELECT over a partitioned table using a hash index visits every live row of every partition exactly once.",
  "any number of partitions with any contents, including empty ones",
  "depends on which partitions are empty",
  ["amelie/db/index/index_hash_merge.h: index_hash_merge_next","amelie/db/index/hash_iterator.h"])
p("C14","An ordered index scan over partitions is a sorted merge",
  "A SELECT over a partitioned table using an ordered index returns every live row of every partition exactly once in global key order.",
  "any number of partitions with any contents; all key types",
  "interleavings of partition contents are unbounded; sign/magnitude of comparison results matters",
  ["amelie/db/index/index_tree_merge.h: index_tree_merge_step","amelie/db/row/compare.h"])
p("C15","Reading through layered storage returns the newest version of each key",
  "Merging sorted sources in priority order yields each key once, in key order, taking the version of the highest-priority source that has the key.",
  "any number of sorted sources with any overlap",
  "overlaps across any number of sources",
  ["amelie/db/object/merge_iterator.h"])
p("C16","Searching a stored region or object finds the first row at or above a key",
  "Opening a stored region (or object of several regions) at a key positions the reader at the first stored row with key greater than or equal to it, and reading on yields all the later rows in order.",
  "all sorted regions of any size and all keys","binary search boundary cases over all sizes",
  ["amelie/db/object/region_iterator.h","amelie/db/object/meta_iterator.h","amelie/db/object/branch_iterator.h"])
p("C17","Memory handed out for live rows never overlaps",
  "The row allocator returns, for every request, a block at least as large as asked, inside one page, and disjoint from every block that is still live, under any sequence of allocations and releases; the reported use matches the live blocks.",
  "all sequences of allocate/release with all sizes",
  "reuse of freed blocks over unbounded histories",
  ["amelie/db/heap/heap.c: heap_add, heap_remove","amelie/db/heap/heap.h","amelie/db/heap/page_mgr.h"])
p("C18","Rolling back a transaction restores exactly the rows before it",
  "If a transaction executes any sequence of inserts, upserts, updates and deletes on a table with any number of indexes and is then rolled back (or a statement fails in the middle), every index holds exactly the rows it held before the transaction.",
  "all operation sequences, all initial contents, any number of indexes, failure at any point",
  "operation histories and failure points are unbounded",
  ["amelie/db/part/part_op.c","amelie/db/transaction/commit.c: tr_abort","amelie/db/transaction/log.h"])
p("C19","A unique key never has two rows, and inserting a duplicate fails without effect",
  "A plain INSERT of a row whose key exists fails and leaves the table unchanged; ON CONFLICT variants either keep or replace the row; after any committed history each unique index holds at most one row per key and all indexes hold the same row set.",
  "all histories of statements","histories are unbounded; secondary indexes multiply the cases",
  ["amelie/db/part/part_op.c: part_insert, part_upsert, part_update, part_delete"])
p("C20","A committed transaction stays and an aborted one disappears, on every partition",
  "When the coordinator decides the outcome of transactions that already ran on a partition, the partition ends with exactly the effects of the committed ones: committed transactions are never rolled back and aborted ones never kept.",
  "all sequences of prepared transactions and all outcome notifications, including several outcomes noticed at once",
  "outcome batching depends on schedule",
  ["amelie/db/transaction/track.h: track_sync","amelie/db/transaction/commit.c: tr_commit_list, tr_abort_list","amelie/db/transaction/consensus.h","amelie/vm/executor/batch.h"])
p("C21","Every submitted transaction is eventually decided",
  "Every distributed transaction that has been submitted and whose partitions have all finished is eventually picked up by the committer; none is skipped forever.",
  "all sequences of submissions with any sets of partitions and all completion orders",
  "depends on overlap pattern between three or more transactions",
  ["amelie/vm/executor/executor.h: executor_attach","amelie/vm/executor/dtr_group.h","amelie/vm/executor/dtr_queue.h"])
p("C22","Conflicting transactions commit in submission order",
  "Two distributed transactions that touch a common partition are committed and logged in the order they were submitted.",
  "all sequences of submissions and all completion orders",
  "depends on overlap pattern between several transactions and on the schedule",
  ["amelie/vm/executor/executor.h: executor_attach, executor_detach","amelie/vm/executor/dtr_group.h"])
p("C23","The log is read back as written",
  "Reading the write-ahead log from a position returns exactly the records appended from that position on, in order, across file rotation, and stops cleanly at the end.",
  "all sequences of appends and rotations, all starting positions",
  "file boundaries and record boundaries combine over unbounded histories",
  ["amelie/db/wal/wal.c: wal_write, wal_rotate","amelie/db/wal/wal_cursor.c"])
p("C24","A failed log append leaves the log as it was",
  "If appending to the write-ahead log fails part-way, the log afterwards contains exactly the records it contained before, and the transaction is reported as aborted; in particular no aborted transaction is found in the log after a restart.",
  "all log states, all failure points (write, sync, rotation)",
  "failure can hit any system call",
  ["amelie/db/wal/wal.c: wal_write","amelie/db/wal/wal_mgr.c: wal_mgr_write","amelie/vm/executor/commit.c"])
p("C25","Crash recovery keeps every durable record and drops only a torn tail",
  "After a crash that cuts the log at any byte, recovery keeps every completely written record and discards only the incomplete one at the end, and new records appended after recovery are readable.",
  "all record sequences and all cut points","a crash may happen at any byte",
  ["amelie/db/wal/wal.c: wal_recover_file, wal_truncate","amelie/db/wal/wal_file.h","amelie/db/wal/wal_cursor.c"])
p("C26","Replaying the log rebuilds the committed state and is idempotent",
  "Starting from partition images each containing all effects up to its own log position, replaying the log yields the state produced by all logged transactions in order; replaying again changes nothing.",
  "all logs, all per-partition starting positions, any number of partitions",
  "partitions are checkpointed at different positions; histories are unbounded",
  ["amelie/db/db/recover.c","amelie/system/backend/replay.c","amelie/db/wal/wal_cursor.c"])
p("C27","The log describes the transaction's row changes in order",
  "The sequence of row changes recorded in the log for a transaction, when decoded, is exactly the sequence of changes the transaction made (command, table, row bytes) in order.",
  "all sequences of row changes over any tables",
  "adjacent changes are merged into one log command; merging depends on the neighbours",
  ["amelie/db/transaction/write_log.h","amelie/db/transaction/record.h","amelie/db/transaction/write.h"])
p("C28","Conflicting relation locks are never held together",
  "At any time no two different holders hold locks on the same relation in conflicting modes (write vs exclusive, DDL vs anything, ...).",
  "all interleavings of lock/unlock requests by any number of holders",
  "schedules are unbounded",
  ["amelie/runtime/runtime/lock_mgr.h","amelie/runtime/runtime/lock.h","amelie/runtime/runtime/lock_id"])
p("C29","Lock waiters are never forgotten",
  "Whenever nobody holds a lock that conflicts with the first waiter of a relation, that waiter has been granted its lock; waiters are granted in arrival order, so each waiter is granted once the earlier ones have released.",
  "all interleavings of lock/unlock requests",
  "lost wakeups depend on schedule",
  ["amelie/runtime/runtime/lock_mgr.h"])
p("C30","Ordered acquisition cannot deadlock",
  "Statements that take all their relation locks in the global relation order never wait for each other in a cycle.",
  "any number of statements with any access sets in any interleaving",
  "schedules are unbounded",
  ["amelie/runtime/runtime/access.h","amelie/runtime/runtime/lock_mgr.h","amelie/vm/executor"])
p("C31","Every key belongs to exactly one partition",
  "When a table is created with n partitions, the hash ranges of the partitions are disjoint and cover the whole hash space, so that every row is routed to exactly one partition, always the same one.",
  "all partition counts from 1 to 8192 and all keys",
  "division remainder boundaries for each count",
  ["amelie/db/part/part_mgr_recover.c: part_mgr_create","amelie/db/part/part_mapping.h"])
p("C32","The set of log/storage files is kept sorted and searchable",
  "The file id registry holds each added id once in increasing order; looking up a position returns the file that contains it, the successor is the next file, and removing ids below a bound leaves exactly the rest.",
  "all add/delete sequences and all queries","histories are unbounded",
  ["amelie/runtime/lib/id_mgr.h"])
p("C33","LIKE matches exactly the SQL patterns",
  "`s LIKE p` is true exactly when s can be split so that % matches any substring and _ any single character.",
  "all strings and all patterns","backtracking cases",
  ["amelie/vm/value/like.c: like_match"])
p("C34","Integer arithmetic is exact or an error",
  "Integer addition, subtraction, multiplication (and division, modulo) in expressions give the mathematically exact result or raise an error; they never wrap around silently.",
  "all pairs of int64 operands","2^128 pairs of operands",
  ["amelie/runtime/base/overflow.h","amelie/vm/vm/vm.c","amelie/vm/func/fn_math.c"])
p("C35","Storage file names identify files uniquely",
  "The name written for a storage file (its ids, version and completeness state) parses back to the same identity and state.",
  "all ids and states","ids range over all 64-bit values; states and versions combine",
  ["amelie/db/storage/id.h: id_path, id_of"])
p("C36","A crash during background compaction never loses data",
  "If the system stops at any point while a partition is being refreshed or flushed to new files, recovery ends with either the complete old files or the complete new files.",
  "all crash points between the individual file operations",
  "a crash may happen between any two file operations",
  ["amelie/db/service/refresh.c","amelie/db/service/flush.c","amelie/db/service/service_recover.c"])
p("C37","Log garbage collection keeps what replicas still need",
  "Files removed by log garbage collection never contain a record at or above the lowest position that a registered replica (slot) still needs.",
  "all sets of slots and all file sets","depends on relative positions of several slots",
  ["amelie/db/wal/wal.c: wal_slots, wal_gc","amelie/db/wal/wal_slot.h"])
json_path=os.path.join(os.path.dirname(__file__),"..","properties.jsonl")
exec(open(os.path.join(os.path.dirname(__file__),"props_more.py")).read()) if os.path.exists(os.path.join(os.path.dirname(__file__),"props_more.py")) else None
with open(json_path,"w") as f:
    for x in P: f.write(json.dumps(x)+"\n")
print(len(P))
