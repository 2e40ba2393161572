# Working notes (reading of /repo/amelie)

## Findings / suspected violations (verify + prove negation witness)
- db/index/tree_iterator.h tree_iterator_open: if search lands past end of page (page_pos >= keys_count) iterator ends, although NEXT page has rows > key. Range scan loses rows. (size_page 512, split 256). Happens when key falls in gap between pages.
- db/index/hash_store.h hash_store_set: stops at first tombstone (HT_DELETED) without looking further -> duplicate key entry; later delete resurrects old row. part_insert uses index_replace_by -> hash_set: so unique violation missed.
- hash_store_get: errors "hashtable overflow" if table has no NULL slot (tombstones not counted in count; is_full uses count > size/2).
- hash_rehash: sets prev->rows[pos]=NULL (not tombstone) -> breaks probe chains in prev: lookups in prev miss rows during rehash; duplicates; then hash_store_set(current, old) overwrites new row with old.
- hash_get_or_set non-rehash: returns pos in old current, then rehash_start swaps current -> iterator_open_at(pos) reads wrong table.
- index_hash_merge_next: loop condition inverted (`if (order < list_count) break;`) -> only first nonempty partition is scanned, or OOB read of list[list_count] (UB) on last.
- index_tree_merge_step: switch on rc 0/1/-1 only (check compare returns for strings).
- cursor_lookup/cursor_scan with tiers: `while (branch)` never advances (WIP code).
- heap: page 512KB, buckets up to 1MB: chunk > page => overflow, unless limit elsewhere.
- record_cmd_skip on DDL commands interprets JSON as rows (recover.c).
- wal_slots: computes MAX of slot lsn (if *min < lsn) *min = lsn) => wal_gc min is max; wal_gc could remove files still needed by slot. wal_mgr_gc is todo (check callers).
- executor_attach: group_order duplicates: D1{A,B} g1.0, D2{A} g1.1, D3{B} g1.1 -> D3 never popped (hang).
- executor_attach: D1{A} g1, D2{B} g2, D3{A,B} -> g2.1, may commit before D1.
- batch/track: pending->abort watermark; track_sync aborts all prepared tr <= abort id INCLUDING committed-but-not-yet-synced ones (t1 committed, t2 aborted, both prepared => t1 rolled back). And no cascade: t2 executed over t1 dirty writes, t1 aborts, t2 commits.
- wal_mgr_write: fsync/rotate failure after successful wal_write -> batch_abort but records remain in WAL -> reappear after recovery.
- session_execute_utility: wal write error / read-only error is after error_catch -> tr not aborted (log ops not rolled back) => DDL visible but failed.
- JSON real stored as float32 when FLT_MIN<=v<=FLT_MAX (precision loss).
- decode.h DECODE_REAL checks json_is_bool.
- json order: ARRAY_END tag 81 biggest => shorter array compares greater.
- wal_file_eof takes uint32 offset.
## Good/true candidates
- json encode/decode/skip roundtrip; compare total order; escape/unescape roundtrip
- tree refinement to sorted map (upsert/replace/delete/get/iterate)
- log rollback restores (single tx), id_mgr sorted list, part mapping partition of 8192, row size/measure/roundtrip, heap alloc buckets
- wal cursor / recovery prefix, group ordering for totally overlapping txs, part_mgr_create ranges cover
- str_compare_fn returns raw memcmp (any sign magnitude) -> index_tree_merge_step `switch(rc){case 1}` misses >1 => cross-partition merge on string keys not ordered.
- LIKE (vm/value/like.c): no backtracking: 'abab' LIKE '%ab' = false; '' LIKE '%_' = true (combines %_). Soundness partial provable w/o `%..._`.
- base64/base64url decode table has 128 entries, byte >=128 -> OOB read (UB). Roundtrip provable. uuid roundtrip provable; longer strings accepted.
- lock_mgr: SHARED_RW(2) vs EXCLUSIVE_RO(3) conflict; EXCLUSIVE_RO/EXCLUSIVE_RO don't. access_add takes max => stmt that writes t and subqueries t gets EXCLUSIVE_RO, two such run concurrently (both write) => exclusive-ro promise broken. Lock order by rsn => deadlock freedom provable. FIFO waiters.
- dml takes SHARED_RW; multi-access programs => snapshot (ltr for every partition of accessed tables).
- 41 CREATE INDEX concurrent with DELETE/UPDATE: new index keeps released rows / spurious duplicate error (C50_*_false)
- 42 failed CREATE UNIQUE INDEX leaves partition in snapshot mode -> later checkpoint loses rows (C52_false)
