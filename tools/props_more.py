p("C38","JSON real numbers keep their value",
  "A real number stored inside a JSON document reads back as the same number.",
  "all double precision numbers","2^64 values; only values needing more than 24 significant bits fail",
  ["amelie/runtime/json/json.h: json_write_real, json_read_real"])
p("C39","JSON text round-trip",
  "A stored JSON document printed as text (compact or indented) and parsed again is the same value; printing consumes exactly the document and parsing consumes exactly the printed text.",
  "all JSON values, nesting depths, strings and indentation modes","unboundedly many nested values; only special values (e.g. the smallest integer) fail",
  ["amelie/runtime/json/json_export.c: json_export_as","amelie/runtime/json/json_parser.c: json_parse","amelie/runtime/json/escape.h: escape_str, unescape_str"])
p("C40","Casting text to an integer is exact or an error",
  "Casting a text to an integer gives the number written in it or fails; it never wraps around, and a printed integer can be cast back.",
  "all texts","unboundedly many texts; overflow only happens for long digit strings",
  ["amelie/runtime/base/str.h: str_toint","amelie/runtime/base/overflow.h: int64_mul_add_overflow","amelie/vm/func/fn_cast.c: fn_int"])
p("C41", "A row and its key are always routed to the same partition",
  "The partition an INSERT is routed to (computed from the given values, placeholders and the generated identity) is the partition that a lookup with the key's values is routed to, and the one computed from the stored row.",
  "all schemas, key column lists, values, placeholders and identities",
  "Ranges over all key types and values; a mismatch on one value makes the row unreachable.",
  ["amelie/vm/value/value_hash.h:value_hash_row", "amelie/vm/value/value_hash.h:value_hash_keys", "amelie/db/row/row.h:row_hash", "amelie/vm/value/row.h:row_map"])
p("C42", "An integer column holds the number it was given or rejects it",
  "Storing an integer in an integer column keeps its value; a number that does not fit in the column's type is rejected, never silently changed.",
  "all integer column types and all 64-bit integers",
  "Ranges over the whole 64-bit domain and all column widths.",
  ["amelie/vm/value/value_data.h:value_data_encode", "amelie/vm/vm/vm.c:ctable_readi8"])
p("C43", "A search by key or key prefix starts at or before every matching row",
  "A search key built from values for all key columns compares with a stored row exactly as the key values do; one built from values for the first key columns only is at or before every row having these values.",
  "all key lists, all prefixes of values, all stored rows",
  "Ranges over all composite keys, prefixes and rows; one wrong minimum silently drops rows from a range scan.",
  ["amelie/vm/value/row.c:row_create_key", "amelie/db/row/compare.h:compare"])
p("C44", "An UPDATE changes exactly the columns it sets",
  "After updating a row, each column in the SET list has its new value and every other column has its old value.",
  "all rows, all schemas, all SET lists",
  "Ranges over all combinations of updated and kept, NULL and non-NULL, fixed and variable size columns.",
  ["amelie/vm/value/row.c:row_update", "amelie/vm/value/row.c:row_update_prepare", "amelie/compiler/compiler/emit_update.c:emit_update_target"])

p("C45", "A statement that changes rows while scanning an ordered index visits each row once",
  "A statement that scans a table by an ordered index and updates (without changing the key) or deletes the rows it visits sees every row exactly once in key order; afterwards the index holds exactly the kept and the updated rows.",
  "all histories of the index and all choices of rows to keep, update and delete",
  "Ranges over all page layouts a history can produce and all subsets of rows deleted under the cursor.",
  ["amelie/db/index/tree_iterator.h:tree_iterator_next,tree_iterator_delete,tree_iterator_replace", "amelie/db/index/tree.c:tree_delete"])
p("C46", "An ordered index stays balanced",
  "After any history of inserts and deletes an ordered index lookup makes at most 2*log2(pages+1) page comparisons, and no page is empty or holds more than 512 rows.",
  "all histories of operations",
  "Balance must hold after every sequence of inserts and deletes; adversarial sequences are unbounded.",
  ["amelie/runtime/lib/rbtree.c:rbtree_set,rbtree_remove", "amelie/db/index/tree.c:tree_set,tree_delete"])
p("C47", "Row memory is released exactly once",
  "Every row allocated by a statement is, once its transaction is decided, either in the table or released, and never released twice or while the table still refers to it.",
  "all histories of transactions, committed, aborted and failed at any statement, any number of indexes",
  "Ranges over all histories; one double release corrupts an unrelated row later.",
  ["amelie/db/part/part_op.c: log_if_commit, log_if_abort, part_upsert", "amelie/db/transaction/commit.c: tr_commit, tr_abort"])
p("C48", "A restart brings the table back",
  "Reading the file of a partition after a restart gives the table that was written: a lookup by any key finds exactly the row it found when the file was written.",
  "all histories of inserts, updates and deletes, all row sizes, all keys",
  "Ranges over all layouts of row memory that histories can produce, including freed and reused space.",
  ["amelie/db/heap/heap_iterator.h", "amelie/db/heap/heap_file.c: heap_create, heap_open", "amelie/db/part/part.c: part_open"])
p("C49", "A checkpoint that runs while statements change the table is consistent and invisible",
  "The file written by a checkpoint contains exactly the table as it was when the checkpoint began, whatever statements run meanwhile; and completing the checkpoint changes no row: every lookup finds what it found before.",
  "all histories before the checkpoint, all sequences of statements during it, any number of checkpoints",
  "Statements interleave with the checkpoint in unboundedly many ways; lost or duplicated rows depend on which rows are changed in between.",
  ["amelie/db/heap/heap.c: heap_add, heap_remove, heap_snapshot", "amelie/db/service/refresh.c: refresh_begin, refresh_apply", "amelie/db/part/part_op.c: part_apply"])
p("C50", "An index built while statements run holds exactly the rows of the table",
  "When CREATE INDEX succeeds, the new index refers to every row of the table under its key and to nothing else, whatever statements ran during the build; and it fails only if two rows have the same key.",
  "all histories, all sequences of inserts, updates and deletes during the build",
  "Statements interleave with the build in unboundedly many ways.",
  ["amelie/db/service/indexate.c: indexate_begin, indexate_job, indexate_apply", "amelie/db/heap/heap.c: heap_remove"])
p("C51", "TRUNCATE is permanent",
  "Rows removed by TRUNCATE do not come back, in particular not after a checkpoint and a restart.",
  "all tables, all histories before and after the TRUNCATE",
  "Needs a history across truncation, checkpoint and restart.",
  ["amelie/db/catalog/table_mgr.c: truncate_if_commit", "amelie/db/part/part.c: part_truncate, part_open"])
p("C52", "A failed CREATE INDEX leaves the table as it was",
  "If CREATE INDEX reports an error, the table behaves afterwards as if the statement had not been issued: later inserts and deletes are kept across checkpoint and restart.",
  "all tables, all later histories",
  "The effect of the failure shows only after later statements, a checkpoint and a restart.",
  ["amelie/db/service/indexate.c: indexate_next, indexate_abort", "amelie/db/service/refresh.c: refresh_begin"])
p("C53", "A lock covers every use of the relation in the statement",
  "When a statement uses a relation several times (writing it, reading it, reading it in a subquery), the one lock it takes excludes everything that the lock for each single use would exclude.",
  "all statements and all combinations of uses of a relation",
  "The combination of uses and the concurrent statements that should be excluded are unbounded; the effect is a race.",
  ["amelie/runtime/runtime/access.h: access_add, access_merge", "amelie/runtime/runtime/lock_id.h"])
p("C54", "DDL commands never block each other forever",
  "Any DDL commands, including CREATE INDEX, issued at the same time by different sessions all finish: they never wait for each other in a cycle.",
  "all interleavings of the lock requests of any DDL commands",
  "Deadlocks depend on the schedule.",
  ["amelie/system/session/session.c: session_execute_utility", "amelie/db/service/op.c: service_create_index", "amelie/compiler/compiler/emit_utility.c"])
p("C55", "The database can be restarted after any history",
  "After any history of committed transactions, DDL, checkpoints, catalog writes and log cleaning, recovery succeeds at the next start.",
  "all histories, stopped at any point",
  "The failing histories combine DDL, cleaning and unfinished checkpoints in orders no test enumerates.",
  ["amelie/db/db/recover.c: recover_wal, replay", "amelie/db/catalog/table_mgr.c", "amelie/db/part/part_mgr.c"])
p("C56", "Removing old log files never loses data",
  "Removing the log files that are no longer needed does not change what a restart at any later point recovers.",
  "all histories, any limit on the number of files, all points at which the system stops",
  "A file is needed or not depending on the whole history of checkpoints and on the stop.",
  ["amelie/db/service/op.c: service_gc", "amelie/db/service/refresh.c: refresh_begin", "amelie/db/wal/wal_gc.c"])
p("C57", "After a power failure the contents are those of a prefix of the transactions",
  "When a power failure loses the end of the log that had not been synced, the recovered contents are those after a prefix of the committed transactions that includes all those whose records survived: no transaction is half there.",
  "all histories of transactions over any number of partitions, all lost ends of the log",
  "Ranges over all combinations of unsynced log records and already written partition files.",
  ["amelie/db/wal/wal_mgr.c", "amelie/db/service/refresh.c: refresh_job", "amelie/db/db/recover.c"])
p("C58", "The catalog file survives a stop at any point",
  "Wherever the process stops while writing or reading the catalog file, the next start reads a complete catalog: the last one written completely or one whose writing was interrupted since.",
  "all sequences of catalog writes and reads, stopped after any file operation, any number of times",
  "Ranges over all stop points of repeatedly interrupted writes and recoveries.",
  ["amelie/db/catalog/catalog_file.c: catalog_write, catalog_read"])
p("C59", "ORDER BY with LIMIT and OFFSET over partitions",
  "SELECT … ORDER BY keys LIMIT n OFFSET k over a partitioned table returns exactly rows k+1 … k+n of all matching rows arranged in key order, whether the partitions sort their rows or scan an index, and although each partition may return only its first n+k rows.",
  "all tables, numbers of partitions and distributions of rows over them, all key lists and directions, limits and offsets",
  "The merge depends on the distribution of the rows over partitions and on ties; the wrong cases are rare combinations.",
  ["amelie/vm/set/union_iterator.h", "amelie/vm/set/set.c: set_sort", "amelie/compiler/compiler/emit_select.c", "amelie/compiler/compiler/scan.c"])
p("C60", "SELECT DISTINCT returns one row per key",
  "SELECT DISTINCT [ON (keys)] … LIMIT n OFFSET k returns rows k+1 … k+n of a list with exactly one row for every key that occurs among the matching rows.",
  "all tables, distributions of rows over partitions, key lists, limits and offsets",
  "Duplicates may be spread over partitions in any way.",
  ["amelie/vm/set/union_iterator.h: union_iterator_next_distinct", "amelie/compiler/compiler/emit_select.c"])
p("C61", "LIMIT and OFFSET without ORDER BY",
  "SELECT … LIMIT n OFFSET k without ORDER BY returns rows k+1 … k+n of some arrangement of all matching rows: no row twice, no row too few, none that does not match.",
  "all tables, distributions of rows over partitions, limits and offsets",
  "The counts are split between partitions and the coordinator; ranges over all distributions.",
  ["amelie/vm/set/union_iterator.h: union_iterator_next_all, union_iterator_open", "amelie/compiler/compiler/scan.c"])
p("C62", "GROUP BY returns one row per group",
  "SELECT keys, aggregates … GROUP BY keys over a partitioned table returns exactly one row for every key that occurs among the matching rows (exactly one row without GROUP BY), wherever the rows of a group are stored.",
  "all tables, distributions of rows over partitions, group keys, and numbers of groups",
  "Groups are built per partition in a hash table and merged; wrong cases need particular hash collisions or distributions.",
  ["amelie/vm/set/set.c: set_get, set_upsert", "amelie/vm/set/set_cache.h", "amelie/vm/set/agg.c: agg_merge_sets", "amelie/compiler/compiler/emit_select.c"])
p("C63", "Aggregates are computed over all rows of the group",
  "COUNT, MIN, MAX, SUM, AVG over integers, and COUNT(DISTINCT), in the row of a group are the SQL aggregates of the values of the group's rows (NULLs ignored), wherever these rows are stored.",
  "all tables, distributions of rows over partitions, lists of aggregates and groups",
  "The partial aggregates of the partitions are merged in an order that depends on the distribution.",
  ["amelie/vm/set/agg.c: agg_write, agg_merge_sets, agg_merge_set_distinct", "amelie/runtime/lib/avg.h"])
p("C64", "IN, ANY, ALL and EXISTS",
  "`a IN (…)`, `a NOT IN (…)`, `a op ANY (…)`, `a op ALL (…)` and EXISTS have the truth value of the corresponding disjunction or conjunction of comparisons in SQL's three-valued logic.",
  "all left values, all lists of values and results of subqueries, all six comparison operators",
  "Ranges over all lists with NULLs in any place.",
  ["amelie/vm/value/array.h", "amelie/vm/vm/command.c", "amelie/vm/value/compare.h", "amelie/compiler/compiler/emit_expr.c"])
p("C65", "WHERE selects the rows for which the condition is true",
  "A WHERE condition built from AND, OR, NOT and simple conditions selects exactly the rows for which it is true in SQL's three-valued logic (unknown does not select, and NOT unknown is unknown).",
  "all conditions of any depth, all rows with NULLs in any column",
  "Ranges over all nestings of the operators and all combinations of unknowns.",
  ["amelie/vm/vm/vm.c: cand, cor, cnot", "amelie/vm/value/null.h", "amelie/vm/value/compare.h: value_is_true", "amelie/compiler/compiler/scan.c"])
p("C66", "Comparisons and the sort order follow the natural order of the values",
  "The six comparison operators on two values of one type, and the order of ORDER BY (the first differing key decides, ascending or descending, NULLs first), are those of the numbers, byte strings, times and UUIDs the values stand for; an integer and a double compare as numbers; a comparison with NULL is unknown.",
  "all pairs of values of every scalar type, all operators, all key lists and directions",
  "The domain is all pairs of 64-bit patterns and strings of any length.",
  ["amelie/vm/value/compare.h: value_compare, store_compare", "amelie/vm/vm/vm.c: cequii … cltuu", "amelie/compiler/compiler/cast.c", "amelie/runtime/lib/misc.h"])
p("C67", "The access path does not change the result",
  "SELECT, UPDATE and DELETE see exactly the rows of the table for which WHERE is true, whatever index the planner scans, whatever start key, point lookup or stop condition it derives from WHERE, and whether it asks one partition or all; the same holds for a point lookup in a subquery or join.",
  "all WHERE expressions (any nesting of AND, OR, comparisons, BETWEEN and other conditions), index definitions, table contents, partitionings",
  "Ranges over all combinations of conditions, key prefixes and data; a wrong start or stop silently drops rows.",
  ["amelie/compiler/plan/path.c: path_key, path_create", "amelie/compiler/plan/path_op.h: path_ops_add", "amelie/compiler/compiler/scan.c: scan_table", "amelie/vm/value/row.c: row_create_key", "amelie/db/part/cursor.c", "amelie/vm/value/value_hash.h", "amelie/vm/vm/command.c: csend_lookup, csend_all"])
p("C68", "set() and unset() change exactly one field of a document",
  "set(doc, 'a.b.c', v) gives the field at the path the value v, adds it if its object has no such field, fails if the object does not exist, and changes nothing else; unset(doc, path) removes the field and changes nothing else.",
  "all documents of any depth and size, all paths, all values",
  "Ranges over all nestings of objects and positions of the field in them.",
  ["amelie/vm/value/update.c: update_set, update_unset", "amelie/vm/func/fn_json.c: fn_set, fn_unset"])
p("C69", "JSON array functions",
  "append, push, pop, pop_back, put and remove return the array with the elements added at the end or the beginning, without its first or last element, with one element replaced or removed; an index outside of the array is an error.",
  "all arrays of any elements and length, all values and indexes",
  "Ranges over all documents as elements; elements are found by skipping encoded values.",
  ["amelie/vm/value/json_array.h", "amelie/vm/func/fn_json.c", "amelie/runtime/json/json_op.h: json_array_last"])
p("C70", "LIKE matches patterns",
  "`s LIKE pattern` is true exactly if the characters of s match the pattern: `%` stands for any characters, `_` for one character, `\\\\` takes the special meaning from the next character, everything else stands for itself; no pattern makes the evaluation read outside of the strings.",
  "all strings and patterns of any UTF-8 characters and length",
  "Ranges over all pairs of strings and patterns; matching needs backtracking, which a few examples rarely require.",
  ["amelie/vm/value/like.c: value_like", "amelie/runtime/lib/utf8.h"])
p("C71", "String functions work on characters",
  "length, substr, strpos, replace, trim, ltrim, rtrim, lower and upper return what they are defined to return in terms of the characters of the string (positions count characters from 1), never split a character, and fail for positions outside of the string.",
  "all strings of any UTF-8 characters, positions, counts, filters, replacements",
  "Ranges over all strings; characters have one to four bytes and the code works on bytes.",
  ["amelie/vm/func/fn_string.c", "amelie/runtime/lib/utf8.h"])
p("C72", "Dates are days of the Gregorian calendar",
  "A date literal or cast yyyy-mm-dd with a day of the calendar from 0001-01-01 to 9999-12-31 is stored as the number of that day and shown as it was written; days that do not exist are refused; comparing dates compares days; date + n and date - n are the days n days later and earlier or an error outside of the calendar; extract returns year, month and day.",
  "all days of the calendar, all texts, all integers n",
  "3.6 million days and all pairs of them; leap years and the ends of months interact.",
  ["amelie/runtime/lib/date.c", "amelie/runtime/lib/date.h", "amelie/vm/vm/vm.c: cadddi, csubdi"])
p("C73", "Intervals",
  "The text of an interval reads back as the same interval; extract returns its fields, which together make up the interval; interval_trunc cuts it to a multiple of the field; sums and differences are exact or an error.",
  "all intervals (32-bit months and days, 64-bit microseconds, of any sign), all texts and fields",
  "Ranges over all values of three fields with 128 bits.",
  ["amelie/runtime/lib/interval.c", "amelie/runtime/lib/interval.h"])

p("C74", "Timestamps as text",
  "A timestamp literal with a date, a time, an optional fraction of a second and an offset is that moment, whatever the time zone of the session, and invalid dates, times or moments outside of 1970..9999 are errors; the text of a timestamp reads back as the same timestamp.",
  "all timestamps (microseconds), all offsets of time zones, all texts",
  "Ranges over 2.5*10^17 timestamps with all offsets, and over all texts.",
  ["amelie/runtime/lib/timestamp.c: timestamp_parse, timestamp_set, timestamp_get, timestamp_get_unixtime"])
p("C75", "Timestamp arithmetic",
  "timestamp + interval and timestamp - interval are the moment that many months, days and microseconds later or earlier, or an error outside of 1970..9999; b + (a - b) = a; adding and subtracting an interval of days and time gives the timestamp back; a date as a timestamp is its midnight and the date of a timestamp is its day.",
  "all timestamps, dates and intervals",
  "All pairs of timestamps and intervals; months and leap years carry.",
  ["amelie/runtime/lib/timestamp.c: timestamp_add, timestamp_sub, timestamp_set_unixtime, timestamp_set_date, timestamp_date", "amelie/vm/vm/vm.c: caddtl, csubtl, csubtt, cadddl"])
p("C76", "date_trunc, date_bin and extract of timestamps",
  "date_trunc returns the start of the year, month, day, hour, minute, second or millisecond that the timestamp is in, in the given time zone; date_bin returns the last start of a bin that is not later; extract returns the fields of the local date and time.",
  "all timestamps, fields, time zones, bin widths and origins",
  "All timestamps, widths and origins.",
  ["amelie/runtime/lib/timestamp.c: timestamp_trunc, timestamp_extract", "amelie/vm/func/fn_time.c: fn_date_trunc, fn_date_bin"])
p("C77", "The offset of a time zone",
  "The offset that a time zone has at a time is that of its last transition that is not later than the time; looking it up reads only the data of the time zone.",
  "all time zones (any number of transitions) and times",
  "A binary search over all tables of transitions.",
  ["amelie/runtime/lib/timezone.c: timezone_match"])

p("C78", "Generated identity values are unique",
  "A value that the server generates for an identity column is not the value of another row and was not generated before, with any number of sessions inserting at the same time, refreshes and index builds running, and across restarts; SET IDENTITY stays in effect.",
  "all histories of inserts with and without explicit values, deletes, refreshes, checkpoints, SET IDENTITY and restarts, with every interleaving of the steps of the sequence",
  "Ranges over all histories and interleavings; the sequence is rebuilt from rows and log at restart.",
  ["amelie/db/row/sequence.h", "amelie/vm/value/row.h: row_get_identity", "amelie/db/part/part_op.c: part_sync_sequence, part_insert, part_apply", "amelie/db/catalog/table_mgr_alter.c: table_mgr_set_identity"])

p("C79", "Expressions are read by precedence",
  "An expression is read by the precedence of its operators (OR, AND, comparison, bitwise, shift, sum, product, prefix operators, brackets), operators of one precedence from left to right, parentheses first, whatever operators and however deeply it mixes; no text has two readings, and the text after the expression is left alone.",
  "all expressions of constants, names, calls, arrays, indexes, prefix and binary operators, BETWEEN, IN, IS, LIKE, AT TIMEZONE, ANY and ALL, of any length and depth",
  "Ranges over all expressions; tests try a few mixtures.",
  ["amelie/compiler/parser/parse_expr.c: priority_map, expr_pop, expr_operator, expr_value, parse_unary, parse_op, parse_expr, parse_expr_args", "amelie/compiler/parser/ast_stack.h"])
p("C80", "Text is read as the tokens it is written in",
  "Any sequence of numbers, names, keywords (in any case), paths, symbols and strings, with any white space and comments between them, is read as these tokens; a string, escaped and in quotes, is one literal with that value whatever it contains and whatever follows; so every expression written as text is read back as the tree it was written from.",
  "all texts of tokens of any length, all strings, all trees of operators",
  "Ranges over all texts; every symbol can be followed by every other.",
  ["amelie/compiler/parser/lex.c: lex_next, lex_keyword_match", "amelie/compiler/parser/keyword.c: keywords, keywords_alpha", "amelie/compiler/emit/emit.h: emit_string"])
p("C81", "A replica has a prefix of the history of its primary",
  "Whatever is written on the primary, however requests are cut, delayed and repeated, whenever connections break, sessions fail and servers stop: the transactions of a replica are the first transactions of the primary, in order, each once; the position that the primary reports has been reached; a replica whose next records are still in the log can catch up.",
  "all histories of writes, log cleaning, connections, requests, replays, failures and stops, with every interleaving",
  "Ranges over all interleavings of two servers and all points of failure.",
  ["amelie/sync/repl/streamer.c: streamer_connect, streamer_collect, streamer_write, streamer_next, streamer_process", "amelie/sync/repl/primary.c: primary_next, primary_main", "amelie/system/session/session_replay.c: session_execute_replay", "amelie/db/wal/wal_cursor.c: wal_cursor_open, wal_cursor_readahead"])

p("C82", "HTTP messages are read whole, whatever the network does",
  "Any sequence of well-formed requests on a connection, however the network cuts it into pieces, is read as exactly these requests with exactly their bodies; a message that is cut off is an error and is never processed; a body of the size limit or more is refused; no sequence of bytes makes the reader touch memory that is not its own; replies and the server's own requests are read back as written.",
  "all sequences of messages of any length, all cuts of the stream, all byte streams",
  "The number of ways to cut a stream into reads is unbounded; tests send whole messages.",
  ["amelie/server/http/http.c: http_read, http_read_content, http_find, http_begin_request, http_begin_reply", "amelie/runtime/os/readahead.h", "amelie/server/client/client.c"])
p("C85", "Functions and time zones are found by name",
  "Whatever functions and time zones are registered under distinct names, a search for a name ends and returns the one of that name (time zones: without regard to case), or nothing if there is none; removing an entry leaves the others in place.",
  "all sets of names, all orders of registration, all names searched",
  "Ranges over all sets of names and their collisions.",
  ["amelie/runtime/lib/hash_table.h", "amelie/vm/func/function_mgr.c", "amelie/runtime/lib/timezone_mgr.c"])
p("C83", "Only holders of a valid token are let in",
  "After any history of requests and changes of users, a client is let in as a user only with a token of that user, signed with the user's secret and not expired (or, from the cache, with the digest of one that was valid since the users last changed); a valid token is always accepted, and one that the server made is valid; when users change, dropped users and old secrets stop working at once; no token makes the server misbehave.",
  "all histories of requests and user changes, all tokens of any length, all code functions with a 32 byte result",
  "Ranges over all tokens and all histories of the authentication cache.",
  ["amelie/server/auth/auth.c: auth_run, auth_sync", "amelie/server/auth/auth_cache.c", "amelie/server/auth/jwt_decode.c", "amelie/server/auth/jwt_encode.c", "amelie/server/auth/jwt.c: jwt_create", "amelie/server/user/user_cache.h: user_cache_sync", "amelie/runtime/json/decode.h: decode_obj", "amelie/system/frontend/frontend_client.c: frontend_auth"])
p("C84", "Addresses and request targets mean what is written",
  "Every address of the documented form, with any parts that do not contain the separators and any percent-encoded arguments, sets exactly the options its parts stand for; the server reads the target of a request as the database, relation and arguments that the client wrote; an address written for a connection is read back as that connection; no text makes the reader misbehave.",
  "all addresses, all arguments of any bytes, all connections, all texts",
  "Ranges over all texts; every part can contain every character.",
  ["amelie/server/http/uri.c: uri_parse, uri_parse_endpoint, uri_export", "amelie/server/http/endpoint.c: endpoint_init", "amelie/server/http/http.c: http_begin_request"])
p("C86", "A compiled expression computes what it says",
  "For every expression the compiler accepts, over every row, variables and functions, the code it makes computes the value of the expression, or reports the error the expression is; it leaves the registers in use and the stack as they were, uses no register beyond those it asked for, and loses no memory.",
  "all expressions of any depth, all rows, variables and function results, all code before and after",
  "Ranges over all nestings of operators and all pairs of operand types; register reuse depends on the whole tree.",
  ["amelie/compiler/compiler/emit_expr.c: emit_expr", "amelie/compiler/compiler/cast.c: cast_operator", "amelie/compiler/compiler/rmap.h", "amelie/compiler/compiler/compiler_op.h", "amelie/vm/vm/vm.c: vm_run", "amelie/vm/value/value.h", "amelie/vm/value/null.h", "amelie/vm/value/compare.h", "amelie/vm/value/stack.h", "amelie/vm/set/in.c: value_in"])
p("C87", "Functions that choose a value choose the right one",
  "GREATEST and LEAST of any number of values of one type are the first argument that no other is above (below), without regard to NULL; COALESCE is the first argument that is not NULL; NULLIF is NULL exactly for equal arguments; ABS, SIGN and MOD of integers are the numbers they are called, and no argument stops the server.",
  "all lists of arguments of any length and type",
  "Ranges over all values; the result depends on what the comparison of each type returns.",
  ["amelie/vm/func/fn_math.c: fn_greatest, fn_least, fn_abs, fn_sign, fn_mod, fn_fmod", "amelie/vm/func/fn_null.c: fn_coalesce, fn_nullif", "amelie/vm/value/compare.h: value_compare"])
p("C88", "A compiled SELECT returns the rows the query says",
  "The program of a SELECT over tables (joins, WHERE, OFFSET, LIMIT) returns, in order, the select list of the combinations of rows WHERE holds for, without the first OFFSET and at most LIMIT; an error of an expression is an error of the query; nothing else on the stack, in registers or cursors changes, and cursors of the query are closed. If the index path leaves out no row that could satisfy WHERE, the result is that of the product of the whole tables.",
  "all queries (tables, joins, keys, stop conditions, WHERE, select list, limits), all contents of tables, all programs around the query",
  "Quantifies over all queries and all tables: the jumps of nested loops are set after the code, and whether each goes to the right place depends on all the code in between.",
  ["amelie/compiler/compiler/scan.c: scan, scan_table, scan_key, scan_stop, scan_on_match", "amelie/compiler/compiler/emit_select.c: on_match, cmd_scan", "amelie/vm/vm/command.c: ctable_open", "amelie/vm/vm/vm.c: CTABLE_NEXT, CJGTED, CJLTD, CSET_ADD, CFREE"])
p("C89", "A failed DDL transaction changes nothing",
  "When a DDL request is answered with an error, or a replayed DDL record fails, the databases, tables (columns, indexes, tiers), functions and storages are what they were before, and every name resolves to the same object.",
  "all catalogs reachable by any history of DDL, all sequences of statements, the failure at any statement or after the last one",
  "Ranges over all histories and all sequences of statements; each undo runs against a catalog the later statements changed.",
  ["amelie/db/transaction/relation_mgr.c", "amelie/db/transaction/commit.c: tr_commit, tr_abort", "amelie/db/catalog/catalog.c: catalog_execute", "amelie/db/catalog/cascade.c", "amelie/db/catalog/database_mgr.c", "amelie/db/catalog/table_mgr.c", "amelie/db/catalog/table_mgr_alter.c", "amelie/db/catalog/table_index.c", "amelie/db/catalog/table_tier.c", "amelie/db/catalog/udf_mgr.c", "amelie/db/storage/storage_mgr.c", "amelie/system/session/session.c: session_execute_utility"])
p("C90", "Names are unique and DDL statements mean what they say",
  "At any time no two databases, storages, tables of a database, functions of a database, columns or indexes of a table share a name (without case), and every table and function is in an existing database. CREATE, DROP and ALTER RENAME of a table, DROP and RENAME of a database, ADD, DROP and RENAME of a column change what the names they mention resolve to in the stated way, and nothing else; DROP DATABASE without CASCADE only drops an empty database.",
  "all catalogs reachable by any history of DDL, all statements",
  "Ranges over all histories: whether a name is unique depends on every statement run before, including those rolled back.",
  ["amelie/db/transaction/relation_mgr.c: relation_mgr_get", "amelie/db/catalog/catalog.c: catalog_execute", "amelie/db/catalog/cascade.c", "amelie/db/catalog/table_mgr.c", "amelie/db/catalog/table_mgr_alter.c", "amelie/db/row/columns.h: columns_find", "amelie/system/session/session.c: session_set, session_execute_utility"])
p("C91", "A restart brings the catalog back",
  "Whatever DDL was run, the catalog file a checkpoint writes is read at the next start into the same catalog: the same storages, databases, tables with their columns, constraints, defaults, indexes, partitions and tiers, and functions, and the same lsn; every name means what it meant.",
  "all catalogs reachable by any history of DDL, all names, texts and values",
  "Ranges over all catalogs; the file passes through the JSON printer and parser, base64, UUID text and the statements that create each object again in an order.",
  ["amelie/db/catalog/catalog_file.c: catalog_write_prepare, catalog_restore, catalog_read", "amelie/runtime/json/decode.h: decode_obj", "amelie/db/catalog/table_config.h", "amelie/db/catalog/udf_config.h", "amelie/db/row/column.h: column_copy, column_write, column_read", "amelie/db/row/constraints.h: constraints_write, constraints_read", "amelie/db/index/index_config.h", "amelie/db/row/keys.h", "amelie/db/tier/tier_config.h", "amelie/db/storage/volume.h", "amelie/db/storage/storage_config.h", "amelie/db/catalog/database_config.h"])
p("C92", "A SELECT returns what its clauses say",
  "A SELECT over a partitioned table (or over an expression), whatever its clauses and whatever plan is chosen, returns an answer of the statement: the rows that satisfy WHERE, grouped by the GROUP BY keys with their aggregates and filtered by HAVING, the select list of each, one row per key for DISTINCT, in ORDER BY order, then OFFSET and LIMIT. GROUP BY, ORDER BY and DISTINCT ON may use labels and positions of the select list.",
  "all statements built of these clauses, all contents and all distributions of the rows over partitions, all choices of index, all orders of equal rows",
  "Quantifies over all statements and all tables: which plan runs, what is pushed down to partitions and which expression a name means depends on all clauses at once.",
  ["amelie/compiler/parser/parse_select.c: parse_select, parse_select_distinct, parse_select_resolve, parse_select_resolve_group_by_alias, parse_select_resolve_order_by", "amelie/compiler/parser/parse_order.h: ast_order_list_match_index", "amelie/compiler/parser/parse_group.h: ast_group_resolve_column", "amelie/compiler/plan/plan.c", "amelie/compiler/plan/plan_pushdown.c", "amelie/compiler/compiler/emit_select.c", "amelie/db/row/columns.h: columns_find_noconflict"])
p("C93", "The body of a response is the JSON of the result",
  "The body of a response to a statement is a JSON text (RFC 8259) for the result: an array with one element per row, in the order of the rows, each an object with the names of the columns (or, in the minimal format, an array of the values, or the value of the only column); each value is the JSON value of the cell. An error is answered with the JSON text of {\"msg\": text}. Larger responses than limit_send are refused with an error.",
  "all results (any number of rows and columns, all value types), both layouts (pretty and compact), both formats, all limits",
  "Quantifies over all results; every string, nested document and date is printed by different code into one text that must stay well-formed.",
  ["amelie/vm/output/output_json.c: output_json_write, output_json_row_obj, output_json_row_array, output_json_write_json, output_json_write_error", "amelie/vm/output/output.h: output_ensure_limit", "amelie/vm/value/json.h: value_export", "amelie/runtime/json/json_export.c: json_export_as", "amelie/runtime/json/escape.h: escape_str"])
p("C94", "INSERT … VALUES puts each value in its column",
  "INSERT INTO t VALUES (…), (…) stores one row per group: without a column list the i-th item is the value of the i-th column that is not dropped; with a list each value goes to the column it is written under and every other column has its default; DEFAULT stands for the default, a literal for its value. A statement with the wrong number of values, a list out of order or with a column twice, or a NULL in a NOT NULL column is refused. GENERATE n inserts n rows of defaults. Every row goes to its partition once, in order; an identity that is not given is the next number of the sequence.",
  "all tables (types, constraints, defaults, dropped columns), all texts of rows with any white space and comments, all sequences and partition mappings",
  "Quantifies over all tables and all texts; the parser follows the columns and the text at the same time, and mistakes show only for particular combinations of lists, defaults and dropped columns.",
  ["amelie/compiler/parser/parse_insert.c: parse_insert, parse_column_list", "amelie/compiler/parser/parse_row.c: parse_row, parse_row_list, parse_rows, parse_row_generate", "amelie/compiler/parser/parse_value.c: parse_value, parse_vector, parse_value_default, parse_value_validate", "amelie/vm/vm/command.c: csend_shard", "amelie/vm/value/row.h: row_get_identity, row_map", "amelie/vm/value/value_data.h: value_data_encode"])
p("C95", "UPDATE, DELETE and INSERT … ON CONFLICT change exactly the rows they name",
  "UPDATE changes exactly the rows its WHERE holds for; in each, every column of a SET has the value of its expression on the row as it was before the statement, all other columns are as they were; the order of the SETs makes no difference. DELETE removes exactly the rows its WHERE holds for. INSERT … ON CONFLICT adds each row whose key is not there and otherwise does to the row that is there what the clause says (nothing, an error, or the SETs, with EXCLUDED as the row given). RETURNING gives one row per row changed. SET of a key column, of an unknown or dropped column, of a column twice or of a value of another type is refused.",
  "all tables and contents, all SET lists, WHERE and RETURNING expressions, all histories of statements that succeed",
  "Quantifies over all contents, expressions and histories; the statement changes the index it is scanning, and each expression must see the row as it was.",
  ["amelie/compiler/parser/parse_update.c: parse_update_expr", "amelie/compiler/compiler/emit_update.c", "amelie/compiler/compiler/emit_delete.c", "amelie/compiler/compiler/emit_upsert.c", "amelie/vm/vm/command.c: cupdate, cdelete, cupsert", "amelie/vm/value/row.c: row_create, row_update", "amelie/db/part/part_op.c: part_update, part_delete, part_upsert"])
p("C96", "The rows sent to an endpoint are the rows stored",
  "A request with text/csv, application/jsonl or application/json to the endpoint of a table stores exactly the rows its text says, in order: an array or a line gives values by position (for all columns that are not dropped, or for those of the list of columns of the request), an object gives values by the names of columns in any order and case, every other column has its default. A request to a function gives it the arguments its text says. A text with an unknown or repeated key, a value that is not of the type of its column, a NULL where it may not be, or with text left over is refused and stores nothing. White space and newlines between the tokens make no difference. Reading ends for every text.",
  "all tables, all lists of columns, all content types, all texts of any length and nesting",
  "Quantifies over all tables and texts; three formats are read with the SQL lexer by one row reader that follows columns, list and text at the same time.",
  ["amelie/compiler/parser/parse_endpoint.c: parse_endpoint, parse_endpoint_set_columns, import_row, import_obj, import_json_row, import_jsonl, import_json, import_csv, import_insert, import_execute", "amelie/compiler/parser/parse_value.c: parse_value, parse_value_default, parse_value_validate"])
p("C97", "Messages between tasks arrive once, in order, and wake up the task",
  "Any number of threads send messages to one task. The task gets the messages of each thread in the order in which it sent them, each exactly once, also when more are sent than the ring of 1024 slots holds; no slot is overwritten before it is read. A send that does nothing, because the message is on its way already, happens only while an earlier send of it has not been handed over. A task that waits in epoll while a message is in its bus is woken up: the eventfd is readable or a thread is about to make it so. Senders do not block each other: one of them can go on, or the ring is full and the task is awake or is woken up.",
  "all interleavings of any number of threads and any number of sends, any number of slots that is a power of two",
  "Quantifies over all interleavings of lock-free steps of unboundedly many threads; a lost wake-up or an overwritten slot shows up in rare schedules only.",
  ["amelie/runtime/base/ring.h: ring_write, ring_read, ring_pending", "amelie/runtime/base/bus.h: bus_send, bus_step, bus_set_sleep", "amelie/runtime/base/ipc.h: ipc_ref, ipc_unref", "amelie/runtime/base/notify.c: notify_signal, notify_on_read", "amelie/runtime/base/task.c: mainloop"])
p("C98", "sleep() takes its time, and timers fire in order",
  "sleep(ms) returns not before ms milliseconds have passed, and at the first moment after that at which the task has nothing else to do. Timers that are due fire in the order of their time, those of the same time in the order in which they were started, each exactly once unless it is stopped. The task never waits in epoll beyond the first timer. The time a statement sees is the time at which it runs. The array of timers is never written beyond its end.",
  "all histories of sleeps, cancellations, waits and times that pass, any number of timers, all arguments of sleep",
  "Quantifies over all histories of timers and all times at which the task waits and wakes; the cached time makes one session's sleep depend on another's.",
  ["amelie/runtime/base/timer_mgr.c: timer_mgr_update, timer_mgr_step, timer_mgr_cmp, timer_mgr_add, timer_mgr_remove", "amelie/runtime/base/timer_mgr.h: timer_mgr_reset, timer_start, timer_stop", "amelie/runtime/base/wait.h: wait_event_time", "amelie/runtime/base/task.c: mainloop", "amelie/vm/func/fn_misc.c: fn_sleep"])
p("C99", "A backup holds the database as it was when the backup began",
  "A backup lists the files of the database in one step and then sends them one by one while the server goes on. A restore that gets an answer to each request writes exactly the files as they were when the backup began, each with its name and bytes, whatever the server did in between: writes, checkpoints and flushes that replace files, DROP TABLE, removal of wal files, other backups. While a backup is at work its files are kept, so each request is answered. A backup can begin at any time, and its end leaves nothing behind and touches no file of the database. It sends no other files.",
  "all histories of the server before and during the backup, any number of backups that come and go, any number and sizes of files",
  "Quantifies over all interleavings of a backup with checkpoints, garbage collection and other backups; a test sees a few of them.",
  ["amelie/db/db/snapshot_mgr.c: snapshot_mgr_create, snapshot_mgr_drop, snapshot_mgr_gc", "amelie/db/catalog/catalog_snapshot.c: catalog_snapshot, catalog_snapshot_cleanup", "amelie/db/wal/wal.c: wal_snapshot, wal_gc, wal_slots", "amelie/sync/backup/backup.c: backup_send_file, backup_main", "amelie/sync/backup/restore.c: restore_file_remote, restore_run"])
p("C100", "The command line client sends whole statements, in order",
  "The client reads lines and sends statements. Whatever the lines are, what it sends, with the white space dropped between statements, and what is left at the end, is the input: nothing is lost, changed, repeated or reordered. A text made of statements that the SQL lexer reads is sent statement by statement, however it is divided into lines: a ';' in a string, in a comment or inside BEGIN, IF, FOR, WHILE … END does not end a statement. After each line the client waits only if the statement is not complete.",
  "all texts and all divisions into lines, any length, any nesting of blocks",
  "Quantifies over all texts, nestings and line breaks; a test shows a few statements.",
  ["amelie/runtime/lib/separator.h: separator_skip, separator_skip_string, separator_match, separator_next, separator_read, separator_advance", "amelie/main/main/main_cli.c: main_console, main_execute"])
p("C101", "Checksums are the same on every machine, and damage of up to 32 bits is found",
  "Files written on one machine are verified on another, by other code: with tables, eight bytes at a time from the first word boundary, or with the CRC32 instruction. For all bytes, at all addresses, and however the bytes are divided into pieces, both give the same number: the remainder of CRC-32C. Two texts of the same length whose differences lie in 32 bits in a row have different checksums, so such damage to the header and commands of a log record, or to its rows, is refused.",
  "all byte strings of any length, all addresses, all divisions into pieces, all damages of up to 32 bits in a row",
  "Quantifies over all texts and all damages; 2048 table entries, alignments and lengths meet in ways that a test does not enumerate.",
  ["amelie/runtime/lib/crc.c: crc32, crc32_sse, crc32_sse_byte, crc_tableil8_o32 to crc_tableil8_o88", "amelie/runtime/runtime/runtime.c: runtime_init", "amelie/db/transaction/record.h: record_validate, record_validate_cmd", "amelie/db/storage/encoder.h: encoder_iov_crc"])
p("C102", "Users, options and replication settings survive a restart",
  "What was set by options at the first start, by CREATE, ALTER and DROP USER, and by the replication statements is there after a restart, however many statements and restarts there were: the next start succeeds, writes nothing and has the same users with the same secrets, the same options and the same read-only mode. A file of options that was saved is read without an error and gives every option the value it had; saving it again gives the same bytes. --name=value sets the option of that name to that value, or is refused, and changes no other option. CREATE, ALTER and DROP USER change the user of that name and nobody else, and what the frontends check tokens with are the users of the server. While the state is saved the previous file is not lost.",
  "all histories of first start, statements and restarts; all option values and users that are texts; all lists of options; all crash points while a file is saved",
  "Quantifies over all histories of statements and restarts, all values of options, users and secrets, and all crash points.",
  ["amelie/runtime/runtime/opt.h: opt_set_json, opt_set, opt_encode", "amelie/runtime/runtime/opts.c: opts_set, opts_set_json, opts_set_argv, opts_list_persistent", "amelie/runtime/runtime/config.c: config_open, config_save", "amelie/runtime/runtime/state.c: state_open, state_save", "amelie/server/user/user_mgr.c: user_mgr_open, user_mgr_save, user_mgr_create, user_mgr_drop, user_mgr_alter", "amelie/server/user/user_cache.h: user_cache_sync, user_cache_dump", "amelie/sync/repl/repl.c: repl_open, repl_subscribe", "amelie/system/system/repo.c: repo_open, repo_version_open"])
p("C103", "What is written into an object file is read from it",
  "Rows that are moved into an object file are all there when it is read: every region read through the index of its branch has the rows that were written, in their order, with the first and the last row and their number in the index, whatever is written into the file after it; a region ends with the row that reaches the size limit of regions. A query on the branch gets the rows from its key on, in order, and hears whether the key is there. What was in the file before stays as it was. A file that was written can be opened again, and then has the index it was written with. Without compression the same holds, for files of any size; what a crash left after the last complete branch is cut off.",
  "all lists of rows of any sizes, size limits, file contents before and after, compression libraries that give back what they were given, and keys",
  "Quantifies over all lists of rows, file contents, limits and compression functions.",
  ["amelie/db/object/writer.c: writer_start, writer_add, writer_stop, writer_stop_region", "amelie/db/object/region_writer.h: region_writer_add, region_writer_stop", "amelie/db/object/meta_writer.h: meta_writer_add, meta_writer_stop, meta_writer_copy", "amelie/db/object/reader.h: reader_execute", "amelie/db/object/object.c: object_read, object_read_index, object_validate_index, object_open", "amelie/db/object/region.h: region_row", "amelie/db/object/meta.h: meta_region", "amelie/db/storage/encoder.h: encoder_encode, encoder_iov, encoder_decode"])
p("C104", "The coroutines of a thread wake up, take turns and end",
  "A coroutine that waits is never forgotten: while it sleeps the event it waits for has not been signalled and knows it, and a signal of the event or of one below it wakes it. Every coroutine that has not ended is the one that runs, or in the ready list once, or waits for an event that knows it. Coroutines run in the order in which they became ready: one with k others before it is the next after k others ran, whatever else happens. A coroutine that has ended is never run again, and its memory serves one coroutine at a time. To kill a coroutine tells it to stop, wakes it if it sleeps and may be cancelled, is not lost while it is inside a part that must not be cancelled, and lasts until it ends; a cancelled coroutine does not sleep in a wait that is a point of cancellation. To wait for a coroutine returns after that coroutine has ended and not before, even if the caller is killed meanwhile and the memory is used again. When the main coroutine of a thread ends all others are told to stop and it sleeps until it is the only one. A wait that reports a timeout was not signalled.",
  "all histories of any number of coroutines that create, wait with and without time limit, signal events with chains of parents, kill, join, enter and leave parts that must not be cancelled, and end",
  "Quantifies over all histories of creations, waits, signals, timers, kills and ends, and over all orders of them.",
  ["amelie/runtime/base/coroutine_mgr.h: coroutine_mgr_create, coroutine_mgr_scheduler, coroutine_suspend, coroutine_resume, coroutine_cancel", "amelie/runtime/base/coroutine.h: coroutine_cancel_pause, coroutine_cancel_resume", "amelie/runtime/base/wait.h: event_signal_local, wait_event, wait_event_time, wait_event_timer", "amelie/runtime/base/runtime.h: event_wait, coroutine_wait, coroutine_kill, coroutine_kill_nowait", "amelie/runtime/base/task.c: task_shutdown, task_coroutine_main", "amelie/runtime/base/mailbox.h: mailbox_pop"])
p("C105", "Background jobs on the same partition take turns",
  "Refresh, flush and index jobs ask for a partition by its number before they touch it. Two jobs never work on the same partition at the same time; a job waits only for another job that has the same partition and asked for it earlier, so the partition is given in the order in which the jobs asked; a job whose partition no other job has or waits for gets it at once, whatever the jobs on other partitions and the statements of users do. The entries of the lock manager are used for one partition at a time and are reused only when the last job on the partition is done; when all jobs are done nothing is left locked.",
  "all histories of any number of jobs that ask for, get and give back partitions, interleaved with any use of the other locks of the server",
  "Quantifies over all interleavings of jobs, between the lookup of the entry and the lock on it as well; the entries are recycled.",
  ["amelie/db/service/service_lock_mgr.h: service_lock_mgr_create, service_lock_mgr_lock, service_lock_mgr_unlock", "amelie/db/service/service.h: service_lock, service_unlock", "amelie/db/service/refresh.c: refresh_run", "amelie/db/service/flush.c: flush_run", "amelie/db/service/indexate.c: indexate_next"])
p("C106", "Buffers hold what was written into them and are shared safely",
  "Everything the server builds, stores and sends goes through growing buffers. The content of a buffer is what was written into it, in order, with places filled in later, cut off and reset as asked, for all sizes below 2 GiB and whatever the allocator gives; no byte outside of the memory of the buffer is touched; the memory is at most twice what was needed, and growing costs no more copies than that. A buffer that somebody has is not given to anybody else and is changed only by those who have it; it goes back to the cache with its last reference and not before; a new buffer is empty; without references every buffer is in one cache, once.",
  "all histories of operations on a buffer, with all bytes and sizes below 2^31; all interleavings of any number of threads that make, share, write and free buffers",
  "Quantifies over all histories of sizes, all contents of fresh memory and all interleavings of atomic counters and caches.",
  ["amelie/runtime/base/buf.h: buf_reserve, buf_append, buf_write, buf_emplace, buf_truncate, buf_reset, buf_vprintf, buf_ref", "amelie/runtime/base/buf_cache.h: buf_cache_pop, buf_cache_push, buf_cache_create", "amelie/runtime/base/buf_mgr.h: buf_mgr_create", "amelie/runtime/base/runtime.h: buf_free, buf_create"])
