# Design: a Lean 4 model of amelielabs/amelie

## Method
Every area of the code has a directory `lean/Verif/<Area>/` with
* model files (`Model.lean`, `Tree.lean`, `Timestamp.lean`, ...): definitions, one per C function, each citing file and lines;
* `Spec.lean` (or the head of the Props file): the small independent specification a property is stated against;
* `*Proofs.lean`: lemmas;
* `Props*.lean`: the property theorems (named `C<nn>_...`), with examples beside them that meet their hypotheses.

When the code violates a property, the refutation is proved with a concrete execution of the model (`C<nn>_..._false`), and what does
hold is kept as `C<nn>_..._partial`, whose docstring or manifest note says what is missing.

`notes/COVERAGE.md` (generated by `tools/coverage.py`) lists, for every file of /repo, the lines each definition models.
`notes/AXIOMS.txt` lists the axioms of every property theorem. `seeded/LOG.jsonl` is the log of wrong programs tried.

## Trusted base
* Lean 4.33.0's kernel, and the axioms `propext`, `Classical.choice`, `Quot.sound` only. No axiom is added; no compiled evaluation is
  trusted (`decide +kernel` is evaluated by the kernel). `notes/AXIOMS.txt` gives the axioms per theorem.
* The reading of the C source: nothing of /repo is compiled or run. A definition of the model is right if it computes what the cited
  lines compute; the comment at the definition says where it simplifies.
* C semantics: integers are `Nat`/`Int` with explicit wrap-around (`toSigned`, `toUnsigned`, `wrap32`, `wrap64`) where an overflow is
  reachable; signed overflow, reads outside of an object and use of freed memory are the outcome `Fail.ub`; `error()`/exceptions are the
  outcome `Fail.err`. Pointers are positions, ids, or the rest of a byte list. Compilers, memory model of threads, allocation failure
  (except where modelled: heap) are not modelled.
* libc and kernel contracts: memcmp, strtod/printf of reals are not modelled (reals are their bit patterns; printing of reals is left out); gmtime_r and mktime are
  modelled by the proleptic Gregorian calendar with TZ=UTC (runtime.c:75); tolower/isalpha are those of the C locale; write, fsync,
  rename, unlink and crashes follow the contract at the head of `Recover/FilesModel.lean` and `Wal/Model.lean`.
* Concurrency: threads that exchange messages (frontends, executor, partitions, WAL worker) are interleavings of atomic steps; a step
  is the code between two points where the thread waits. The steps are listed at the head of each area's model.

## What is modelled
| area | code | what |
|------|------|------|
| Common | - | bytes, little endian numbers, results |
| Json | runtime/json, runtime/lib/str.h (escapes), vm/value/update.c, json_array.h, vm/func/fn_json.c | binary JSON, parser, export, comparison, functions |
| Codec | runtime/lib base64.c, uuid.h, overflow.h; like matching | encodings |
| Store | runtime/lib/id_mgr.h, db/storage/id.h, db/part/part_mapping.h, db/object/mapping.h | ids, file names, partition ranges |
| Row | db/row, vm/value/row.c, hash.h | stored rows, keys, comparison, hash |
| Index | db/index, runtime/lib rbtree | tree index, hash index, merges over partitions |
| Object | db/object, db/storage, db/tier | object files: regions, search; the bytes of files, writing, reading and opening them |
| Part | db/part, db/transaction | statements on a partition, undo log, commit/abort tracking |
| Heap | db/heap, refresh/snapshot | allocator, scans, snapshots, checkpoint and restart of a heap |
| Lock | runtime/runtime locks, system/session | lock manager, catalog and DDL locks |
| Wal | db/wal | write-ahead log: write, rotate, read, truncate, gc |
| Recover | db/db/recover.c, db/service, db/catalog | restart: catalog file, checkpoints, replay, crash points of the file set |
| Exec | vm/executor, system/backend | the order of distributed transactions |
| Query | compiler, vm/set, vm/value, vm/vm | ORDER BY/LIMIT/GROUP BY/aggregates/conditions/index paths |
| Seq | db/row/sequence.h, vm/value/row.h, db/part/part_op.c | identity columns |
| Func | vm/func, runtime/lib date.c interval.c timestamp.c timezone.c, vm/value/like.c | SQL functions |
| Repl | sync/repl/streamer.c, primary.c, system/session/session_replay.c | replication |
| Net | server/http/http.c, server/http/uri.c, server/auth, server/user/user_cache.h, decode.h (decode_obj: strings and integers), readahead.h, runtime/lib/hash_table.h, function_mgr.c, timezone_mgr.c | HTTP messages, addresses, registries, authentication (HMAC is a parameter) |
| Compile | compiler/compiler/emit_expr.c, scan.c, emit_select.c (on_match, cmd_scan), cast.c, rmap.h, compiler_op.h, vm/vm/vm.c (expression instructions), vm/value (value.h, null.h, compare.h, stack.h), vm/set/in.c | code of scalar expressions and of scans (joins, WHERE, LIMIT, OFFSET); float, time, vector and JSON operations are parameters |
| Catalog | db/catalog (catalog.c, cascade.c, database_mgr.c, table_mgr.c, table_mgr_alter.c, table_index.c, table_tier.c, udf_mgr.c), db/storage/storage_mgr.c, db/transaction/relation_mgr.c, commit.c, system/session/session.c (session_execute_utility), db/db/recover.c (recover_next), db/catalog/catalog_file.c and the config writers and readers, runtime/json/decode.h | DDL statements on the catalog with their undo log; opening files, compiling functions and reference counts of storages are parameters |
| Output | vm/output (output_json.c, output.h), vm/value/json.h (value_export) | the body of a response |
| Insert | compiler/parser (parse_insert.c, parse_row.c, parse_value.c), vm/vm/command.c (csend_shard), vm/value/row.h (row_get_identity) | INSERT … VALUES from the text to the requests of the partitions |
| Dml | compiler/parser/parse_update.c, compiler/compiler (emit_update.c, emit_delete.c, emit_upsert.c), vm/vm/command.c (cupdate, cdelete, cupsert), vm/value/row.c, db/part/part_op.c | UPDATE, DELETE, INSERT … ON CONFLICT on a partition, on rows as lists of values |
| Import | compiler/parser/parse_endpoint.c | CSV, JSONL and JSON requests to a table or function, from bytes to rows |
| Bus | runtime/base (ring.h, bus.h, ipc.h, notify.c, main loop of task.c) | messages from any number of threads to a task, and its wake-up |
| Timer | runtime/base (timer_mgr.c, timer_mgr.h, wait.h, main loop of task.c), vm/func/fn_misc.c (sleep) | timers of a task, the cached time, sleep() |
| Backup | db/db/snapshot_mgr.c, db/catalog/catalog_snapshot.c, db/wal/wal.c (wal_snapshot, wal_gc), sync/backup (backup.c, restore.c) | backups and restores beside a working server |
| Cli | runtime/lib/separator.h, main/main/main_cli.c (main_console) | the division of the client's input into statements |
| Crc | runtime/lib/crc.c (tables, crc32, crc32_sse) | checksums on different machines |
| Config | runtime/runtime/opt.h, opts.c, config.c, state.c, lib/arg.h; server/user/user_config.h, user_cache.h, user_mgr.c; sync/repl/repl.c; system/system/repo.c | options, state file, users |
| Coro | runtime/base (coroutine_mgr.h, coroutine.h, event.h, wait.h, runtime.h, task.c, mailbox.h) | coroutines of a thread, events, kills and joins |
| ServiceLock | db/service/service_lock_mgr.h | locks of background jobs by partition |
| Buf | runtime/base/buf.h, buf_cache.h, buf_mgr.h, runtime.h (buf_free) | growing buffers, their references and caches |
| Parse | compiler/parser/parse_expr.c, ast_stack.h, lex.c, keyword.c | expressions, tokens |

## What is not modelled
Most of the SQL parser (the model has the lexer and expressions, and starts from parsed statements elsewhere), the TLS and socket layer, machine contexts, memory
arenas, thread start/stop, metrics, configuration files, backup streaming, the benchmark and test programs, regular expressions and
trigonometric functions, the printing and reading of reals, vectors (float arithmetic). refresh.c, flush.c and service_recover.c use the
types ID_PART and ID_SERVICE that db/storage/id.h does not define at this commit; they are modelled as they are written.
