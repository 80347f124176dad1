# Axioms of the property theorems

Computed from the environment (all constants reachable from the theorem).

## no axioms

C08_modulo_wrap_fails, C26_printf_ignores_state, C26_printf_truncates, C27_start, C35_backward

## `propext`

C04_parent_first, C08_kserial, C09_remove_own_first_clears, C10_base64_inner_padding_accepted, C11_inner_padding_accepted, C11_order_needs_equal_length, C13_extra_space, C13_flush_assert, C13_forced_flush, C13_gap, C13_merged_cycle, C13_merged_deleted, C13_stuck, C14_lost_removal, C14_lost_ttl, C14_merge_soa, C14_not_removed, C14_skipped, C15_soa_hidden, C16_dname_nested, C16_nsec3_deleted, C16_nsec3param_lost, C16_prereq_any, C16_soa, C16_soa_lower, C16_ttl_kept, C21_cancelled_never_delivered, C21_delivery_due, C21_not_lost, C21_order, C22_begin_consumes, C22_blocking_out_of_bounds, C22_complete_wakes, C22_early_by_cancel, C22_early_by_truncation, C22_freeze_blocking_stuck, C30_range_little_endian_fails, C31_evicted, C31_limited_charged, C31_rounding, C31_slip, C32_slip_wrap, C34_sweep, C35_forced_algorithm, C35_forced_scheme, C43_clear_silent, C43_lost, C43_stolen, C46_any_serials, C46_foreign_soa, C46_no_axfr, C46_nothing_left, C46_other_soa, C55_failed_add_hang, C61_check, C62_range

## `Quot.sound`, `propext`

C01_name_unique, C01_wire_check_safe, C04_canonical_total, C04_to_lower, C05_prefixlen, C05_replace_suffix, C05_replace_suffix_length, C06_nocomp, C06_stale_qname, C06_stale_suffix, C07_begin, C07_question_reserved, C08_compare_total, C08_modulo_not_newer, C09_at, C09_canonical_unique, C09_copy, C09_init, C10_base64_length, C11_base32hex_length, C12_longest_key, C12_nosuffix_fails, C16_cname, C17_yxdomain, C17_yxdomain_lost, C18_contains_safe, C18_size, C19_bare_rrsig, C20_long_name_hides, C20_owner_key_unsigned, C21_cancel_race, C21_cancel_reset_safe, C21_init, C22_next, C22_not_early_partial, C22_plan, C22_ufreeze, C23_init, C25_add, C25_do, C25_ttl_get, C25_ttl_set, C25_whole_rcode, C26_copy, C26_printf_safe, C26_sticky, C27_failed_send, C27_send, C27_timeout, C28_can_send, C28_division, C28_dns_tcp_recv, C28_dns_tcp_send, C28_empty_delayed, C28_outbufs_mss_overflow, C29_deepest, C29_nul_collision, C31_address, C31_fair_decay, C31_memory, C31_prefix, C31_prices, C31_queries, C31_table_size, C31_time_update, C33_crash, C33_lost_removal, C33_nul, C33_stale_group, C34_bad_record, C37_binsearch, C37_empty, C37_init, C37_min, C41_make, C46_axfr_answer, C46_ixfr_answer, C46_ixfr_plan, C47_dnskey, C47_ds, C47_match_ds, C47_params_match, C47_short, C47_signed, C47_zonemd, C47_zonemd_longer, C47_zonemd_verify, C48_fields, C48_long_lifetime_aborts, C48_many_keys, C48_signed_validates, C50_catalog, C50_clean, C50_ext_rcode, C50_ignored, C50_nsid, C50_opt_says, C50_refused_by_module, C50_zone, C50_zone_ds, C50_zone_exact, C51_atomic, C51_crash_member, C51_units, C54_additionals_stale, C54_prevs_stale, C55_failed_add_leak, C55_room, C56_upper_case, C57_short_message

## `Classical.choice`, `Quot.sound`, `propext`

C01_wire_check_exact, C01_wire_check_local, C02_checked_then_unpacked, C02_unpack_exact, C03_from_str_buf_exact, C03_from_str_exact, C03_parse_unique, C03_round_trip, C03_to_str_exact, C03_to_str_maxlen, C04_cmp_canonical, C04_cmp_total, C04_equality, C04_nul_collision, C05_common_suffix_spec, C05_in_bailiwick, C05_matched_labels, C06_decode, C06_earlier_kept, C06_parse, C06_put_safe, C07_counts, C07_limit, C07_put_failed, C07_put_fits, C07_put_ok, C07_question, C07_reserve, C08_compare_antisymm, C08_compare_rfc1982, C08_next_modulo, C08_next_newer, C08_next_value, C09_add, C09_eq, C09_histories, C09_intersect, C09_intersect2, C09_member, C09_merge, C09_remove_foreign, C09_subset, C09_subtract, C10_base64_decode_exact_partial, C10_base64_decode_total, C10_base64_encode, C10_base64_roundtrip, C10_base64url_decode_exact, C10_base64url_encode, C10_base64url_overread, C10_base64url_roundtrip, C11_base32hex_decode_exact, C11_base32hex_encode, C11_base32hex_order, C11_base32hex_roundtrip, C12_apply, C12_cursor, C12_cursor_leq, C12_history, C12_iterate, C12_wildcard, C12_wildcard_empty, C13_insert, C13_restore_partial, C13_retry, C13_walk_partial, C14_merge_partial, C14_rdataset, C14_record_partial, C14_reverse_partial, C15_diff, C15_exact, C15_minimal, C15_no_soa, C15_status, C16_apex, C16_bulk, C16_precheck, C16_prereqs, C16_update, C17_answer_partial, C17_authoritative, C17_direct, C17_find, C17_lookup, C17_nxdomain, C17_referral, C17_space, C17_total, C17_wildcard_dname, C18_contains, C18_fits, C18_write, C19_assert, C19_check, C19_check_fix_partial, C19_create, C19_fix, C19_flags, C19_glue_accepted, C19_history, C19_idempotent, C19_removed_accepted, C19_signed_valid, C20_auto, C20_check, C20_default_deny, C20_first_match, C20_secret, C21_due_delivers, C21_histories, C21_step, C22_due_event_runs, C22_frozen, C22_no_lost_event, C22_one_at_a_time, C22_starts_le_requests, C23_add_head, C23_add_tail, C23_fifo, C23_insert, C23_rem_node, C23_size, C24_accept_partial, C24_algorithm_ignored, C24_badtime, C24_exchange, C24_format, C24_request, C24_reserved, C24_response, C24_signed, C24_signed_next, C24_uninitialised, C24_unsigned_error, C25_add_get, C25_alignment, C25_cookie, C25_cookie_parse, C25_ecs_parse, C25_ecs_write, C25_get_first, C25_get_next, C25_get_options, C25_keepalive, C25_keepalive_parse, C26_histories, C26_printf_partial, C26_step, C26_write_read, C27_failed_end, C27_injective, C27_receive, C27_receive_safe, C27_roundtrip, C28_ack, C28_inbufs, C28_inbufs_nonempty, C28_outbufs, C28_seqno, C29_zonedb, C30_cmp_eq, C30_is_any, C30_net_match, C30_range_big_endian, C30_range_little_endian_partial, C30_range_v6, C31_bound, C31_capacity, C31_create, C31_entry, C31_fair_price, C31_free_network, C31_known, C31_quiet, C31_tally_partial, C31_tick, C31_time_query, C31_valid, C32_check_partial, C32_client, C32_issued, C32_module, C32_renew, C32_safe, C32_slip, C32_wrap, C33_batch_partial, C33_purge, C34_endless, C34_items, C34_malformed, C34_notified, C34_old_record, C34_restart, C35_accepted, C35_chosen, C35_confirm, C35_confirm_safe_partial, C35_forced_zsk, C35_forward, C35_new_keys, C35_progress, C35_quiet, C35_roles, C35_run_partial, C35_signable_partial, C35_state, C35_timeline, C36_changeset, C36_chunks, C36_diff, C36_difference, C36_roundtrip, C36_zone, C37_binsearch_eq, C37_delete, C37_delmin, C37_find, C37_histories, C37_insert, C37_replace, C38_parse_canonical, C38_parse_complete, C38_parse_exact, C38_parse_safe, C38_root_pointer_rejected, C38_trailing, C38_trailing_accepted, C39_complete, C39_flags, C39_safe, C39_sound, C39_tsig_last, C39_written, C40_gap, C40_immediate, C40_last, C40_long, C40_successor, C41_injective, C41_prefix, C41_roundtrip, C41_select, C41_short, C42_roundtrip, C42_zone_keys, C43_drain_partial, C43_fifo, C43_progress_partial, C43_running, C43_stop, C43_suspend, C43_wait, C43_waiter_partial, C44_begin, C44_commit, C44_history, C44_no_leak, C44_readers, C44_rollback, C45_direct_partial, C45_proof_partial, C45_referral, C45_total, C45_wildcard_dname, C45_wildcard_empty, C45_wildcard_name, C46_axfr_answer_ends, C46_axfr_client, C46_axfr_cut, C46_axfr_transfer, C46_axfr_zone, C46_ixfr_answer_ends, C46_ixfr_by_axfr, C46_ixfr_client, C46_ixfr_transfer, C46_ixfr_transfer_by_one, C46_refresh, C47_additional, C47_empty_rrsig, C47_empty_soa, C47_ixfr_query, C47_name, C47_notify, C47_nsec, C47_nsec3, C47_nsec3param, C47_rrsig, C47_soa, C47_soa_answer, C47_soa_set, C47_unchecked, C47_update, C48_again, C48_apex, C48_defined, C48_expired, C48_expired_early, C48_expired_wraps, C48_flag, C48_idle, C48_mark, C48_minimal, C48_next, C48_signed, C48_stray_aborts, C48_threads, C48_valid_until, C48_validate, C49_chain, C49_empty_chain, C49_optout, C49_proof_partial, C49_referral_partial, C49_secure_partial, C49_total_partial, C49_wildcard_dname, C49_wildcard_name, C49_wildcard_optout, C50_badvers, C50_class, C50_expire, C50_expire_partial, C50_formerr, C50_header, C50_no_question, C50_opcode, C50_opt_asked, C50_opt_partial, C50_padded, C50_padding, C50_rcode_partial, C50_size_partial, C51_accepted_partial, C51_changed_then_removed, C51_checked_partial, C51_crash_reloaded, C51_crash_undone, C51_crash_whole, C51_dangling, C51_diff_partial, C51_memory_partial, C51_no_crash_partial, C51_readded, C51_reload_partial, C51_untouched, C51_zones, C52_command, C52_map, C52_no_leftovers, C52_removed, C52_set_get, C53_decreased_taken, C53_difference, C53_edit_changes, C53_file_needed, C53_no_serial, C53_reload_serial, C53_restart_changes_partial, C53_restart_journal, C53_restart_kept_partial, C53_same_serial_lost, C53_two_soas, C53_whole_all_stuck, C54_additionals, C54_additionals_partial, C54_flags, C54_flags_pass, C54_max_ttl, C54_prevs_checked, C54_prevs_load, C54_prevs_update_exact_partial, C54_prevs_update_partial, C54_size, C54_versions_agree, C54_versions_agree_checked, C55_alive_partial, C55_kernel_partial, C55_limit_lowered, C55_limit_partial, C55_listening_partial, C55_round_partial, C55_sweep_partial, C56_buffer, C56_ipv4_text, C56_long_labels, C56_missing_parents, C56_other_names, C56_pair_partial, C56_parents_partial, C56_reverse_types, C56_root_origin, C56_sound, C57_direct, C57_proxied, C57_refused_partial, C57_safe, C57_short_header, C57_trust, C57_written, C58_close_partial, C58_deinit, C58_get, C58_ledger, C58_put, C58_timeout_wrap, C59_records, C59_succeeds, C59_ttl, C59_ttl_mismatch, C59_wildcard, C60_calls, C60_multistring, C60_order, C60_update_partial, C60_verify, C61_rates, C62_filter_partial
