Verif.Codec.C06_base64_rejects_ascii: propext, Classical.choice, Quot.sound
Verif.Codec.C06_base64_roundtrip: propext, Classical.choice, Quot.sound
Verif.Codec.C06_base64url_rejects_ascii: propext, Classical.choice, Quot.sound
Verif.Codec.C06_base64url_roundtrip: propext, Classical.choice, Quot.sound
Verif.Codec.C06_high_byte_false: propext, Classical.choice, Quot.sound
Verif.Codec.C06_text_rfc4648: propext, Classical.choice, Quot.sound
Verif.Codec.C07_length_false: propext, Classical.choice, Quot.sound
Verif.Codec.C07_uuid_accepts_iff: propext, Classical.choice, Quot.sound
Verif.Codec.C07_uuid_roundtrip: propext, Classical.choice, Quot.sound
Verif.Codec.C33_like_any_one_false: 
Verif.Codec.C33_like_exact_partial: propext, Quot.sound
Verif.Codec.C33_like_no_backtrack_false: 
Verif.Codec.C33_like_sound: propext, Quot.sound
Verif.Codec.C34_add_sub_mul: propext, Classical.choice, Quot.sound
Verif.Codec.C34_div_mod_partial: propext, Classical.choice, Quot.sound
Verif.Codec.C34_min_false: 
Verif.Codec.C34_neg_abs_partial: propext, Classical.choice, Quot.sound
Verif.Codec.C40_negative_and_empty_false: 
Verif.Codec.C40_text_to_int: propext, Classical.choice, Quot.sound
Verif.Exec.C21_chain_partial: propext, Classical.choice, Quot.sound
Verif.Exec.C21_common_partial: propext, Classical.choice, Quot.sound
Verif.Exec.C21_fork_batch_false: propext, Quot.sound
Verif.Exec.C21_fork_false: propext, Quot.sound
Verif.Exec.C21_gc_false: propext, Quot.sound
Verif.Exec.C21_sound: propext, Quot.sound
Verif.Exec.C22_chain_log_partial: propext, Classical.choice, Quot.sound
Verif.Exec.C22_chain_partial: propext, Classical.choice, Quot.sound
Verif.Exec.C22_common_partial: propext, Classical.choice, Quot.sound
Verif.Exec.C22_fork_false: propext, Quot.sound
Verif.Exec.C22_groups_false: propext, Quot.sound
Verif.Exec.C22_single_partial: propext, Classical.choice, Quot.sound
Verif.Func.C70_escape_false: 
Verif.Func.C70_first_false: 
Verif.Func.C70_one_false: propext
Verif.Func.C70_shape_partial: propext, Quot.sound
Verif.Func.C70_sound_partial: propext, Quot.sound
Verif.Func.C70_total: propext, Quot.sound
Verif.Func.C71_length: propext, Classical.choice, Quot.sound
Verif.Func.C71_lower: propext, Classical.choice, Quot.sound
Verif.Func.C71_ltrim: propext, Quot.sound
Verif.Func.C71_replace: propext, Quot.sound
Verif.Func.C71_replace_unique: propext
Verif.Func.C71_rtrim: propext, Classical.choice, Quot.sound
Verif.Func.C71_strpos: propext, Quot.sound
Verif.Func.C71_substr_false: 
Verif.Func.C71_substr_partial: propext, Classical.choice, Quot.sound
Verif.Func.C71_substr_rest_partial: propext, Classical.choice, Quot.sound
Verif.Func.C71_trim: propext, Classical.choice, Quot.sound
Verif.Func.C71_upper: propext, Classical.choice, Quot.sound
Verif.Func.C72_add_false: 
Verif.Func.C72_add_partial: propext, Classical.choice, Quot.sound
Verif.Func.C72_count: propext, Classical.choice, Quot.sound
Verif.Func.C72_extract: propext, Classical.choice, Quot.sound
Verif.Func.C72_get: propext, Classical.choice, Quot.sound
Verif.Func.C72_invalid_false: propext, Classical.choice, Quot.sound
Verif.Func.C72_literal: propext, Classical.choice, Quot.sound
Verif.Func.C72_order: propext, Classical.choice, Quot.sound
Verif.Func.C72_set: propext, Classical.choice, Quot.sound
Verif.Func.C72_text: propext, Classical.choice, Quot.sound
Verif.Func.C73_arith_partial: propext
Verif.Func.C73_extract_partial: propext, Classical.choice, Quot.sound
Verif.Func.C73_negative_false: 
Verif.Func.C73_overflow_false: 
Verif.Func.C73_text: propext, Classical.choice, Quot.sound
Verif.Func.C73_trunc_partial: propext, Quot.sound
Verif.Func.C74_bounds_false: propext, Quot.sound
Verif.Func.C74_invalid_false: propext, Quot.sound
Verif.Func.C74_literal: propext, Classical.choice, Quot.sound
Verif.Func.C74_print: propext, Classical.choice, Quot.sound
Verif.Func.C74_roundtrip_partial: propext, Classical.choice, Quot.sound
Verif.Func.C74_seconds_false: propext, Quot.sound
Verif.Func.C75_dates: propext, Classical.choice, Quot.sound
Verif.Func.C75_diff: propext, Classical.choice, Quot.sound
Verif.Func.C75_epoch_false: 
Verif.Func.C75_inverse: propext, Classical.choice, Quot.sound
Verif.Func.C75_minus_months_partial: propext, Classical.choice, Quot.sound
Verif.Func.C75_minus_partial: propext, Classical.choice, Quot.sound
Verif.Func.C75_month_false: 
Verif.Func.C75_months_partial: propext, Classical.choice, Quot.sound
Verif.Func.C75_plus_partial: propext, Classical.choice, Quot.sound
Verif.Func.C76_bin: propext, Quot.sound
Verif.Func.C76_extract: propext, Classical.choice, Quot.sound
Verif.Func.C76_trunc: propext, Classical.choice, Quot.sound
Verif.Func.C76_zone_false: 
Verif.Func.C77_bounds_false: propext
Verif.Func.C77_near_partial: propext, Classical.choice, Quot.sound
Verif.Func.C77_search_false: propext, Classical.choice, Quot.sound
Verif.Heap.C17_large_false: propext
Verif.Heap.C17_partial: propext, Classical.choice, Quot.sound
Verif.Heap.C17_size: propext, Classical.choice, Quot.sound
Verif.Heap.C17_small_false: propext
Verif.Heap.C48_partial: propext, Classical.choice, Quot.sound
Verif.Heap.C49_partial: propext, Classical.choice, Quot.sound
Verif.Heap.C50_delete_false: propext
Verif.Heap.C50_partial: propext, Classical.choice, Quot.sound
Verif.Heap.C50_update_false: propext
Verif.Heap.C51_partial: propext
Verif.Heap.C51_restart_false: propext
Verif.Heap.C52_false: propext
Verif.Heap.C52_partial: propext
Verif.Index.C10_sorted_map_partial: propext, Classical.choice, Quot.sound
Verif.Index.C10_table_index_partial: propext, Classical.choice, Quot.sound
Verif.Index.C10_text_false: propext, Quot.sound
Verif.Index.C11_range_false: propext, Quot.sound
Verif.Index.C11_range_partial: propext, Classical.choice, Quot.sound
Verif.Index.C45_scan_and_change: propext, Classical.choice, Quot.sound
Verif.Index.C46_balanced: propext, Classical.choice, Quot.sound
Verif.Index.Hash.C12_load_partial: propext, Classical.choice, Quot.sound
Verif.Index.Hash.C12_map_partial: propext, Classical.choice, Quot.sound
Verif.Index.Hash.C12_overflow_false: propext, Quot.sound
Verif.Index.Hash.C12_replace_after_delete_false: propext, Quot.sound
Verif.Index.Hash.C12_resize_false: propext, Quot.sound
Verif.Index.Hash.C12_resize_partial: propext, Classical.choice, Quot.sound
Verif.Index.Hash.C12_table_index_partial: propext, Classical.choice, Quot.sound
Verif.Index.Hash.C12_upsert_cursor_false: propext
Verif.Index.Hash.C13_merge_false: propext, Classical.choice, Quot.sound
Verif.Index.Hash.C13_merge_partial: propext, Classical.choice, Quot.sound
Verif.Index.Hash.C13_scan_one_partial: propext, Classical.choice, Quot.sound
Verif.Index.Merge.C14_merge_partial: propext, Classical.choice, Quot.sound
Verif.Index.Merge.C14_text_false: propext
Verif.Index.Merge.C15_newest: propext, Classical.choice, Quot.sound
Verif.Json.C01_injective: propext, Classical.choice, Quot.sound
Verif.Json.C01_read_back: propext, Classical.choice, Quot.sound
Verif.Json.C01_roundtrip: propext, Classical.choice, Quot.sound
Verif.Json.C02_sizeof: propext, Classical.choice, Quot.sound
Verif.Json.C02_skip: propext, Classical.choice, Quot.sound
Verif.Json.C02_skip_eq_read: propext, Classical.choice, Quot.sound
Verif.Json.C03_eq: propext, Classical.choice, Quot.sound
Verif.Json.C03_is_lexicographic: propext, Classical.choice, Quot.sound
Verif.Json.C03_nan_not_transitive: 
Verif.Json.C03_total_antisymm: propext, Classical.choice, Quot.sound
Verif.Json.C03_trans: propext, Classical.choice, Quot.sound
Verif.Json.C04_array_find: propext, Classical.choice, Quot.sound
Verif.Json.C04_array_last: propext, Classical.choice, Quot.sound
Verif.Json.C04_array_size: propext, Classical.choice, Quot.sound
Verif.Json.C04_obj_find: propext, Classical.choice, Quot.sound
Verif.Json.C04_obj_find_read: propext, Classical.choice, Quot.sound
Verif.Json.C04_obj_size: propext, Classical.choice, Quot.sound
Verif.Json.C04_path: propext, Classical.choice, Quot.sound
Verif.Json.C38_real_roundtrip_false: propext, Classical.choice, Quot.sound
Verif.Json.C38_real_roundtrip_partial: propext, Classical.choice, Quot.sound
Verif.Json.C68_set_error: propext, Classical.choice, Quot.sound
Verif.Json.C68_set_get: propext, Quot.sound
Verif.Json.C68_set_nested_false: propext
Verif.Json.C68_set_partial: propext, Classical.choice, Quot.sound
Verif.Json.C68_unset: propext, Classical.choice, Quot.sound
Verif.Json.C68_unset_get: propext, Quot.sound
Verif.Json.C69_append: propext
Verif.Json.C69_index_false: 
Verif.Json.C69_pop: propext, Classical.choice, Quot.sound
Verif.Json.C69_pop_back: propext, Classical.choice, Quot.sound
Verif.Json.C69_push: propext
Verif.Json.C69_put_partial: propext, Classical.choice, Quot.sound
Verif.Json.C69_remove_partial: propext, Classical.choice, Quot.sound
Verif.Json.Text.C05_escapes_read: propext
Verif.Json.Text.C05_no_bare_quote: propext, Quot.sound
Verif.Json.Text.C05_quoted_read_back: propext, Classical.choice, Quot.sound
Verif.Json.Text.C05_raw_newline_refused: propext, Quot.sound
Verif.Json.Text.C05_unescape_escape: propext
Verif.Json.Text.C05_unknown_escape_reads_unwritten: 
Verif.Json.Text.C39_int_min_false: propext, Classical.choice, Quot.sound
Verif.Json.Text.C39_text_roundtrip_partial: propext, Classical.choice, Quot.sound
Verif.Lock.C28_counters: propext, Classical.choice, Quot.sound
Verif.Lock.C28_exclusive_alone: propext, Classical.choice, Quot.sound
Verif.Lock.C28_no_conflict: propext, Classical.choice, Quot.sound
Verif.Lock.C29_arrival_order: propext, Classical.choice, Quot.sound
Verif.Lock.C29_first_waiter: propext, Classical.choice, Quot.sound
Verif.Lock.C29_granted_when_free: propext, Classical.choice, Quot.sound
Verif.Lock.C29_no_overtaking: propext, Classical.choice, Quot.sound
Verif.Lock.C29_wait_list: propext, Classical.choice, Quot.sound
Verif.Lock.C30_no_cycle: propext, Classical.choice, Quot.sound
Verif.Lock.C30_sessions_finish: propext, Classical.choice, Quot.sound
Verif.Lock.C30_someone_runs: propext, Classical.choice, Quot.sound
Verif.Lock.C30_statement_ordered: propext, Quot.sound
Verif.Lock.C53_both_granted: propext, Quot.sound
Verif.Lock.C53_covers_partial: propext, Quot.sound
Verif.Lock.C53_false: propext
Verif.Lock.C54_ddl_partial: propext, Classical.choice, Quot.sound
Verif.Lock.C54_false: propext
Verif.Lock.C54_forever: propext
Verif.Object.C16_mismatch: propext
Verif.Object.C16_object: propext, Classical.choice, Quot.sound
Verif.Object.C16_region: propext, Classical.choice, Quot.sound
Verif.Part.C18_rollback_partial: propext, Classical.choice, Quot.sound
Verif.Part.C18_secondary_cursor_false: propext, Classical.choice, Quot.sound
Verif.Part.C19_duplicate_fails: propext, Classical.choice, Quot.sound
Verif.Part.C19_history_partial: propext, Classical.choice, Quot.sound
Verif.Part.C19_secondary_cursor_false: propext, Classical.choice, Quot.sound
Verif.Part.C19_statement_partial: propext, Classical.choice, Quot.sound
Verif.Part.C20_built_on_aborted_false: propext, Classical.choice, Quot.sound
Verif.Part.C20_committed_lost_false: propext, Classical.choice, Quot.sound
Verif.Part.C20_outcomes_partial: propext, Classical.choice, Quot.sound
Verif.Part.C20_pending_partial: propext, Classical.choice, Quot.sound
Verif.Part.C47_memory_partial: propext, Classical.choice, Quot.sound
Verif.Part.C47_secondary_cursor_false: propext, Classical.choice, Quot.sound
Verif.Query.C59_main_partial: propext, Classical.choice, Quot.sound
Verif.Query.C59_order_partial: propext, Classical.choice, Quot.sound
Verif.Query.C59_text_false: propext, Classical.choice, Quot.sound
Verif.Query.C60_distinct_partial: propext, Classical.choice, Quot.sound
Verif.Query.C60_text_false: propext, Classical.choice, Quot.sound
Verif.Query.C61_limit: propext, Classical.choice, Quot.sound
Verif.Query.C61_scan: propext, Quot.sound
Verif.Query.C62_groups_partial: propext, Classical.choice, Quot.sound
Verif.Query.C62_zero_false: propext
Verif.Query.C63_avg_false: propext
Verif.Query.C63_values_partial: propext, Classical.choice, Quot.sound
Verif.Query.C64_all_partial: propext, Classical.choice, Quot.sound
Verif.Query.C64_any_partial: propext, Quot.sound
Verif.Query.C64_empty_false: propext
Verif.Query.C64_exists: propext, Quot.sound
Verif.Query.C64_in_partial: propext, Classical.choice, Quot.sound
Verif.Query.C64_not_in_partial: propext, Classical.choice, Quot.sound
Verif.Query.C64_null_false: propext
Verif.Query.C65_between: propext
Verif.Query.C65_between_false: propext
Verif.Query.C65_no_nulls_partial: propext
Verif.Query.C65_not_false: propext
Verif.Query.C65_where_partial: propext
Verif.Query.C66_in_false: propext
Verif.Query.C66_int_like: propext, Classical.choice, Quot.sound
Verif.Query.C66_mixed_false: propext
Verif.Query.C66_mixed_partial: propext, Classical.choice, Quot.sound
Verif.Query.C66_null: propext
Verif.Query.C66_operators: propext, Classical.choice, Quot.sound
Verif.Query.C66_order: propext, Classical.choice, Quot.sound
Verif.Query.C66_sort_order: propext, Classical.choice, Quot.sound
Verif.Query.C67_abort_false: propext, Quot.sound
Verif.Query.C67_between_false: propext, Quot.sound
Verif.Query.C67_double_false: propext, Quot.sound
Verif.Query.C67_int32_false: propext, Quot.sound
Verif.Query.C67_scan_partial: propext, Classical.choice, Quot.sound
Verif.Query.C67_subquery_false: propext, Quot.sound
Verif.Query.C67_subquery_partial: propext, Classical.choice, Quot.sound
Verif.Query.C67_table_partial: propext, Classical.choice, Quot.sound
Verif.Recover.C26_idempotent_partial: propext, Classical.choice, Quot.sound
Verif.Recover.C26_recovery_partial: propext, Classical.choice, Quot.sound
Verif.Recover.C26_running_partial: propext, Classical.choice, Quot.sound
Verif.Recover.C36_flush_false: propext
Verif.Recover.C36_partial: propext, Quot.sound
Verif.Recover.C36_refresh_false: propext
Verif.Recover.C51_checkpoint_false: propext, Quot.sound
Verif.Recover.C51_insert_lost_false: propext, Quot.sound
Verif.Recover.C55_drop_false: propext, Quot.sound
Verif.Recover.C55_partial: propext, Classical.choice, Quot.sound
Verif.Recover.C55_unlogged_false: propext, Quot.sound
Verif.Recover.C56_partial: propext, Classical.choice, Quot.sound
Verif.Recover.C56_refresh_false: propext, Quot.sound
Verif.Recover.C57_partial: propext, Classical.choice, Quot.sound
Verif.Recover.C57_torn_false: propext, Quot.sound
Verif.Recover.C58_bootstrap_false: 
Verif.Recover.C58_catalog: propext, Quot.sound
Verif.Row.C08_column: propext, Classical.choice, Quot.sound
Verif.Row.C08_create: propext, Classical.choice, Quot.sound
Verif.Row.C08_missing_column: propext, Classical.choice, Quot.sound
Verif.Row.C08_not_null: propext
Verif.Row.C08_read_back: propext, Classical.choice, Quot.sound
Verif.Row.C08_size: propext, Classical.choice, Quot.sound
Verif.Row.C09_equal_iff: propext, Classical.choice, Quot.sound
Verif.Row.C09_lexicographic: propext, Classical.choice, Quot.sound
Verif.Row.C09_total_order: propext, Classical.choice, Quot.sound
Verif.Row.C41_routing: propext, Classical.choice, Quot.sound
Verif.Row.C42_in_range_partial: propext, Classical.choice, Quot.sound
Verif.Row.C42_no_silent_truncation_false: propext, Classical.choice, Quot.sound
Verif.Row.C43_full_key: propext, Classical.choice, Quot.sound
Verif.Row.C43_prefix_false: propext, Classical.choice, Quot.sound
Verif.Row.C43_prefix_partial: propext, Classical.choice, Quot.sound
Verif.Row.C44_identity_false: propext, Quot.sound
Verif.Row.C44_update_partial: propext, Classical.choice, Quot.sound
Verif.Store.C31_ranges_partition: propext, Classical.choice, Quot.sound
Verif.Store.C31_rejects: propext, Quot.sound
Verif.Store.C31_remove: propext, Classical.choice, Quot.sound
Verif.Store.C31_route: propext, Classical.choice, Quot.sound
Verif.Store.C32_contents: propext, Classical.choice, Quot.sound
Verif.Store.C32_find: propext, Quot.sound
Verif.Store.C32_gc: propext, Quot.sound
Verif.Store.C32_next: propext, Quot.sound
Verif.Store.C32_sorted: propext, Classical.choice, Quot.sound
Verif.Store.C35_name_roundtrip_partial: propext, Classical.choice, Quot.sound
Verif.Store.C35_overflow_refused: propext, Classical.choice, Quot.sound
Verif.Store.C35_unique: propext, Classical.choice, Quot.sound
Verif.Store.C35_unversioned_state_false: propext, Quot.sound
Verif.Wal.C23_4gib_false: propext, Quot.sound
Verif.Wal.C23_read_partial: propext, Classical.choice, Quot.sound
Verif.Wal.C23_recover_partial: propext, Classical.choice, Quot.sound
Verif.Wal.C23_rotation_race_false: propext, Quot.sound
Verif.Wal.C24_false: propext, Quot.sound
Verif.Wal.C24_false_always: propext, Quot.sound
Verif.Wal.C24_history_partial: propext, Classical.choice, Quot.sound
Verif.Wal.C24_write_partial: propext, Quot.sound
Verif.Wal.C25_append_false: propext, Quot.sound
Verif.Wal.C25_append_partial: propext, Classical.choice, Quot.sound
Verif.Wal.C25_complete_spec: propext, Quot.sound
Verif.Wal.C25_recover_partial: propext, Classical.choice, Quot.sound
Verif.Wal.C27_changes: propext, Classical.choice, Quot.sound
Verif.Wal.C27_rows_valid: propext, Classical.choice, Quot.sound
Verif.Wal.C37_false: propext, Quot.sound
Verif.Wal.C37_keep_partial: propext, Classical.choice, Quot.sound
Verif.Wal.C37_recovery_false: propext, Quot.sound
