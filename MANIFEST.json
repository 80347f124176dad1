{
 "claims": [
  {
   "property": "C01",
   "status": "proved",
   "theorems": [
    "Knot.C01_wire_check_safe",
    "Knot.C01_wire_check_exact",
    "Knot.C01_name_unique",
    "Knot.C01_wire_check_local"
   ],
   "note": ""
  },
  {
   "property": "C02",
   "status": "proved",
   "theorems": [
    "Knot.C02_unpack_exact",
    "Knot.C02_checked_then_unpacked"
   ],
   "note": ""
  },
  {
   "property": "C03",
   "status": "proved",
   "theorems": [
    "Knot.C03_from_str_exact",
    "Knot.C03_from_str_buf_exact",
    "Knot.C03_to_str_exact",
    "Knot.C03_to_str_maxlen",
    "Knot.C03_round_trip",
    "Knot.C03_parse_unique"
   ],
   "note": ""
  },
  {
   "property": "C04",
   "status": "proved",
   "theorems": [
    "Knot.C04_cmp_canonical",
    "Knot.C04_canonical_total",
    "Knot.C04_parent_first",
    "Knot.C04_cmp_total",
    "Knot.C04_nul_collision",
    "Knot.C04_equality",
    "Knot.C04_to_lower"
   ],
   "note": "The claim excludes zero octets inside labels; C04_nul_collision shows that the exclusion is necessary."
  },
  {
   "property": "C05",
   "status": "proved",
   "theorems": [
    "Knot.C05_matched_labels",
    "Knot.C05_common_suffix_spec",
    "Knot.C05_in_bailiwick",
    "Knot.C05_replace_suffix",
    "Knot.C05_replace_suffix_length",
    "Knot.C05_prefixlen"
   ],
   "note": ""
  },
  {
   "property": "C06",
   "status": "proved",
   "theorems": [
    "Knot.C06_decode",
    "Knot.C06_parse",
    "Knot.C06_earlier_kept",
    "Knot.C06_put_safe",
    "Knot.C06_stale_suffix",
    "Knot.C06_nocomp",
    "Knot.C06_stale_qname"
   ],
   "note": "Whole messages: owner names, names in RDATA and hints, read back by the specification of the format (C06_decode) and by the parser (C06_parse). C06_stale_suffix, C06_nocomp and C06_stale_qname are findings that delimit the contract in Verif/Pkt/Contract.lean. Allocation failure in knot_pkt_put is not modelled."
  },
  {
   "property": "C07",
   "status": "proved",
   "theorems": [
    "Knot.C07_limit",
    "Knot.C07_counts",
    "Knot.C07_put_ok",
    "Knot.C07_put_failed",
    "Knot.C07_put_fits",
    "Knot.C07_reserve",
    "Knot.C07_begin",
    "Knot.C07_question",
    "Knot.C07_question_reserved"
   ],
   "note": "Over all sequences of calls in Verif/Pkt/Contract.lean. C07_question_reserved is a finding: space reserved before the question is not respected."
  },
  {
   "property": "C08",
   "status": "proved",
   "theorems": [
    "Knot.C08_compare_rfc1982",
    "Knot.C08_compare_total",
    "Knot.C08_compare_antisymm",
    "Knot.C08_next_newer",
    "Knot.C08_next_value",
    "Knot.C08_next_modulo",
    "Knot.C08_modulo_wrap_fails",
    "Knot.C08_modulo_not_newer",
    "Knot.C08_kserial"
   ],
   "note": ""
  },
  {
   "property": "C09",
   "status": "proved",
   "theorems": [
    "Knot.C09_canonical_unique",
    "Knot.C09_init",
    "Knot.C09_add",
    "Knot.C09_member",
    "Knot.C09_at",
    "Knot.C09_eq",
    "Knot.C09_subset",
    "Knot.C09_merge",
    "Knot.C09_subtract",
    "Knot.C09_remove_foreign",
    "Knot.C09_remove_own_first_clears",
    "Knot.C09_intersect",
    "Knot.C09_intersect2",
    "Knot.C09_copy",
    "Knot.C09_histories"
   ],
   "note": ""
  },
  {
   "property": "C10",
   "status": "partial",
   "theorems": [
    "Knot.C10_base64_encode",
    "Knot.C10_base64_length",
    "Knot.C10_base64_roundtrip",
    "Knot.C10_base64_decode_total",
    "Knot.C10_base64_decode_exact_partial",
    "Knot.C10_base64_inner_padding_accepted",
    "Knot.C10_base64url_encode",
    "Knot.C10_base64url_roundtrip",
    "Knot.C10_base64url_decode_exact",
    "Knot.C10_base64url_overread"
   ],
   "note": "The decoder accepts exactly the RFC 4648 texts if padding is only in the last four characters; C10_base64_inner_padding_accepted shows that texts with padding elsewhere are accepted too. The base64url decoder is exact; C10_base64url_overread is a finding. Round trips and bounds are proved for all inputs."
  },
  {
   "property": "C11",
   "status": "proved",
   "theorems": [
    "Knot.C11_base32hex_encode",
    "Knot.C11_base32hex_length",
    "Knot.C11_base32hex_roundtrip",
    "Knot.C11_base32hex_order",
    "Knot.C11_order_needs_equal_length",
    "Knot.C11_base32hex_decode_exact",
    "Knot.C11_inner_padding_accepted"
   ],
   "note": ""
  },
  {
   "property": "C12",
   "status": "proved",
   "theorems": [
    "Knot.C12_history",
    "Knot.C12_iterate",
    "Knot.C12_wildcard",
    "Knot.C12_wildcard_empty",
    "Knot.C12_cursor",
    "Knot.C12_cursor_leq",
    "Knot.C12_apply",
    "Knot.C12_nosuffix_fails",
    "Knot.C12_longest_key"
   ],
   "note": "Keys shorter than 2^31 bytes (C12_longest_key shows what happens at the limit). C12_nosuffix_fails is a finding. Copy-on-write is C44; allocation failure is not modelled."
  },
  {
   "property": "C13",
   "status": "partial",
   "theorems": [
    "Knot.C13_restore_partial",
    "Knot.C13_walk_partial",
    "Knot.C13_insert",
    "Knot.C13_retry",
    "Knot.C13_merged_cycle",
    "Knot.C13_forced_flush",
    "Knot.C13_merged_deleted",
    "Knot.C13_flush_assert",
    "Knot.C13_gap",
    "Knot.C13_stuck",
    "Knot.C13_extra_space"
   ],
   "note": "All histories of changes, whole zones, zone file writes and flush marks, with a crash anywhere between transactions, with any limits. Excluded and refuted: serials coming round to the merged one (C13_merged_cycle), forced writing with zonefile-sync disabled (C13_forced_flush), enabling zonefile-sync later (C13_merged_deleted), discontinuous changes after a full eviction (C13_gap). Further findings: C13_flush_assert, C13_stuck, C13_extra_space. Changesets are single records (C36 has the chunks); extra changesets are modelled but not part of the histories; LMDB failures are not modelled."
  },
  {
   "property": "C14",
   "status": "partial",
   "theorems": [
    "Knot.C14_rdataset",
    "Knot.C14_record_partial",
    "Knot.C14_reverse_partial",
    "Knot.C14_merge_partial",
    "Knot.C14_lost_removal",
    "Knot.C14_lost_ttl",
    "Knot.C14_skipped",
    "Knot.C14_not_removed",
    "Knot.C14_merge_soa"
   ],
   "note": "Additions of new records and removals of existing ones, with TTLs that suit their RRsets. Outside of this the code records something else than it does: C14_lost_removal, C14_lost_ttl, C14_skipped, C14_not_removed, C14_merge_soa are findings. Trees, nodes, memory and the limit of records per RRset are not modelled."
  },
  {
   "property": "C15",
   "status": "proved",
   "theorems": [
    "Knot.C15_diff",
    "Knot.C15_exact",
    "Knot.C15_status",
    "Knot.C15_no_soa",
    "Knot.C15_minimal",
    "Knot.C15_soa_hidden"
   ],
   "note": "Zones as trees of nodes with explicit empty nodes; the result is compared through the update of C14. An SOA that changes without its serial is not part of the difference (C15_soa_hidden). TTLs of RRSIG RRsets are ignored. Allocation failures are not modelled."
  },
  {
   "property": "C16",
   "status": "partial",
   "theorems": [
    "Knot.C16_prereqs",
    "Knot.C16_precheck",
    "Knot.C16_update",
    "Knot.C16_apex",
    "Knot.C16_soa",
    "Knot.C16_cname",
    "Knot.C16_bulk",
    "Knot.C16_prereq_any",
    "Knot.C16_nsec3param_lost",
    "Knot.C16_soa_lower",
    "Knot.C16_ttl_kept",
    "Knot.C16_nsec3_deleted",
    "Knot.C16_dname_nested"
   ],
   "note": "Proved for messages whose records are not NSEC3-related and whose owners are not below NSEC3 owner names, with at most one NSEC3PARAM. Outside that range the code differs: C16_prereq_any (assertion), C16_nsec3param_lost, C16_soa_lower, C16_ttl_kept, C16_dname_nested, C16_nsec3_deleted. The signing that follows an update and the TSIG/ACL checks before it are not part of this model."
  },
  {
   "property": "C17",
   "status": "partial",
   "theorems": [
    "Knot.C17_find",
    "Knot.C17_total",
    "Knot.C17_lookup",
    "Knot.C17_answer_partial",
    "Knot.C17_direct",
    "Knot.C17_referral",
    "Knot.C17_authoritative",
    "Knot.C17_nxdomain",
    "Knot.C17_space",
    "Knot.C17_yxdomain",
    "Knot.C17_yxdomain_lost",
    "Knot.C17_wildcard_dname"
   ],
   "note": "The exact response is proved (C17_answer_partial) for all zones and queries but those where a DNAME gives a name that is too long, or where a chain ends in DNAME records of a wildcard; C17_yxdomain, C17_yxdomain_lost and C17_wildcard_dname show what the code does there. Termination, authority, NXDOMAIN, referrals and limited space are proved for all. Not modelled: query modules, RRSIGs, NSEC and NSEC3 proofs, the additional section, allocation failures, upper case in the question and zero octets in labels."
  },
  {
   "property": "C18",
   "status": "proved",
   "theorems": [
    "Knot.C18_write",
    "Knot.C18_size",
    "Knot.C18_contains",
    "Knot.C18_fits",
    "Knot.C18_contains_safe"
   ],
   "note": ""
  },
  {
   "property": "C19",
   "status": "partial",
   "theorems": [
    "Knot.C19_flags",
    "Knot.C19_create",
    "Knot.C19_idempotent",
    "Knot.C19_fix",
    "Knot.C19_history",
    "Knot.C19_check",
    "Knot.C19_signed_valid",
    "Knot.C19_check_fix_partial",
    "Knot.C19_bare_rrsig",
    "Knot.C19_removed_accepted",
    "Knot.C19_glue_accepted",
    "Knot.C19_assert"
   ],
   "note": "Flags, building, fixing over all histories and the check of a whole zone are exact. Incremental validation is proved only for updates in which no node leaves the chain and no changed NSEC points outside it (C19_check_fix_partial); for the others it is false of the code (C19_removed_accepted, C19_glue_accepted). C19_bare_rrsig and C19_assert are further findings. NSEC3 chains are not modelled."
  },
  {
   "property": "C20",
   "status": "proved",
   "theorems": [
    "Knot.C20_first_match",
    "Knot.C20_default_deny",
    "Knot.C20_secret",
    "Knot.C20_auto",
    "Knot.C20_check",
    "Knot.C20_owner_key_unsigned",
    "Knot.C20_long_name_hides"
   ],
   "note": "Decision of acl_allowed over the configuration values as data. C20_owner_key_unsigned and C20_long_name_hides are witnesses of two surprising behaviours of the code."
  },
  {
   "property": "C21",
   "status": "proved",
   "theorems": [
    "Knot.C21_init",
    "Knot.C21_step",
    "Knot.C21_histories",
    "Knot.C21_delivery_due",
    "Knot.C21_cancelled_never_delivered",
    "Knot.C21_not_lost",
    "Knot.C21_due_delivers",
    "Knot.C21_order",
    "Knot.C21_cancel_race",
    "Knot.C21_cancel_reset_safe"
   ],
   "note": ""
  },
  {
   "property": "C22",
   "status": "partial",
   "theorems": [
    "Knot.C22_next",
    "Knot.C22_plan",
    "Knot.C22_one_at_a_time",
    "Knot.C22_no_lost_event",
    "Knot.C22_due_event_runs",
    "Knot.C22_ufreeze",
    "Knot.C22_begin_consumes",
    "Knot.C22_starts_le_requests",
    "Knot.C22_frozen",
    "Knot.C22_not_early_partial",
    "Knot.C22_early_by_truncation",
    "Knot.C22_early_by_cancel",
    "Knot.C22_blocking_out_of_bounds",
    "Knot.C22_freeze_blocking_stuck",
    "Knot.C22_complete_wakes"
   ],
   "note": "Events do not run early if the delay in milliseconds fits in 32 bits (C22_early_by_truncation otherwise) and no cancelled run is taken up (C22_early_by_cancel). C22_blocking_out_of_bounds and C22_freeze_blocking_stuck are findings. Liveness is stated as: a due event runs on the next dispatch; fairness of the scheduler is not modelled."
  },
  {
   "property": "C23",
   "status": "proved",
   "theorems": [
    "Knot.C23_init",
    "Knot.C23_add_tail",
    "Knot.C23_add_head",
    "Knot.C23_insert",
    "Knot.C23_rem_node",
    "Knot.C23_size",
    "Knot.C23_fifo"
   ],
   "note": ""
  },
  {
   "property": "C24",
   "status": "partial",
   "theorems": [
    "Knot.C24_format",
    "Knot.C24_accept_partial",
    "Knot.C24_request",
    "Knot.C24_signed",
    "Knot.C24_signed_next",
    "Knot.C24_reserved",
    "Knot.C24_response",
    "Knot.C24_exchange",
    "Knot.C24_badtime",
    "Knot.C24_unsigned_error",
    "Knot.C24_algorithm_ignored",
    "Knot.C24_uninitialised"
   ],
   "note": "The library functions (serverCheck, clientCheck, clientCheckNext) are characterised exactly for every well-formed record, message, key and clock (C24_accept_partial). The property as stated fails for them: the algorithm in the record is not compared to the one of the key (C24_algorithm_ignored), and a longer one makes them read uninitialised octets (C24_uninitialised). It is proved in full for the server, whose key is selected by name and algorithm (C24_request), and for the client (C24_response, C24_exchange). HMAC is a parameter."
  },
  {
   "property": "C25",
   "status": "proved",
   "theorems": [
    "Knot.C25_add",
    "Knot.C25_get_first",
    "Knot.C25_get_next",
    "Knot.C25_get_options",
    "Knot.C25_ttl_get",
    "Knot.C25_ttl_set",
    "Knot.C25_do",
    "Knot.C25_whole_rcode",
    "Knot.C25_alignment",
    "Knot.C25_keepalive",
    "Knot.C25_keepalive_parse",
    "Knot.C25_cookie",
    "Knot.C25_cookie_parse",
    "Knot.C25_ecs_parse",
    "Knot.C25_ecs_write",
    "Knot.C25_add_get"
   ],
   "note": ""
  },
  {
   "property": "C26",
   "status": "partial",
   "theorems": [
    "Knot.C26_step",
    "Knot.C26_sticky",
    "Knot.C26_printf_safe",
    "Knot.C26_histories",
    "Knot.C26_printf_partial",
    "Knot.C26_printf_truncates",
    "Knot.C26_printf_ignores_state",
    "Knot.C26_write_read",
    "Knot.C26_copy"
   ],
   "note": "All operations but wire_ctx_printf are exact over all histories; for printf the claim fails when the text does not fit with its NUL, on an error, or for a read-only context (C26_printf_truncates, C26_printf_ignores_state). It never writes outside the buffer (C26_printf_safe)."
  },
  {
   "property": "C27",
   "status": "proved",
   "theorems": [
    "Knot.C27_start",
    "Knot.C27_send",
    "Knot.C27_receive",
    "Knot.C27_receive_safe",
    "Knot.C27_roundtrip",
    "Knot.C27_injective",
    "Knot.C27_failed_send",
    "Knot.C27_failed_end",
    "Knot.C27_timeout"
   ],
   "note": "For every buffer size from 65535 octets, every fill level and every way the network cuts the octets. Receiving is memory-safe for every peer (C27_receive_safe). Outside the size limit: a refused item leaves the start of its unit in the buffer and the peer misreads what follows (C27_failed_send, C27_failed_end); after a timeout within a unit the input is misread (C27_timeout). Failures to send are not modelled."
  },
  {
   "property": "C28",
   "status": "proved",
   "theorems": [
    "Knot.C28_inbufs",
    "Knot.C28_inbufs_nonempty",
    "Knot.C28_empty_delayed",
    "Knot.C28_division",
    "Knot.C28_outbufs",
    "Knot.C28_outbufs_mss_overflow",
    "Knot.C28_seqno",
    "Knot.C28_ack",
    "Knot.C28_can_send",
    "Knot.C28_dns_tcp_send",
    "Knot.C28_dns_tcp_recv"
   ],
   "note": ""
  },
  {
   "property": "C29",
   "status": "proved",
   "theorems": [
    "Knot.Zonedb.C29_zonedb",
    "Knot.Zonedb.C29_deepest",
    "Knot.Zonedb.C29_nul_collision"
   ],
   "note": "The claim excludes zero octets inside labels; C29_nul_collision shows that the exclusion is necessary."
  },
  {
   "property": "C30",
   "status": "partial",
   "theorems": [
    "Knot.C30_net_match",
    "Knot.C30_cmp_eq",
    "Knot.C30_range_v6",
    "Knot.C30_range_big_endian",
    "Knot.C30_range_little_endian_fails",
    "Knot.C30_range_little_endian_partial",
    "Knot.C30_is_any"
   ],
   "note": "The IPv4 range claim is false of the code on little-endian hosts (C30_range_little_endian_fails); there it is proved for addresses equal in the bytes that are swapped (partial). IPv6 ranges, prefixes and big-endian hosts are exact."
  },
  {
   "property": "C31",
   "status": "partial",
   "theorems": [
    "Knot.C31_memory",
    "Knot.C31_valid",
    "Knot.C31_tally_partial",
    "Knot.C31_bound",
    "Knot.C31_tick",
    "Knot.C31_known",
    "Knot.C31_entry",
    "Knot.C31_quiet",
    "Knot.C31_fair_price",
    "Knot.C31_fair_decay",
    "Knot.C31_prefix",
    "Knot.C31_create",
    "Knot.C31_capacity",
    "Knot.C31_table_size",
    "Knot.C31_prices",
    "Knot.C31_free_network",
    "Knot.C31_queries",
    "Knot.C31_time_query",
    "Knot.C31_time_update",
    "Knot.C31_address",
    "Knot.C31_slip",
    "Knot.C31_rounding",
    "Knot.C31_evicted",
    "Knot.C31_limited_charged"
   ],
   "note": "Proved for every history of calls, every hash, every ageing function and all random numbers: while a key keeps its counter, the counter is at least the aged sum of its admitted prices, each rounded down to the units of a counter (C31_tally_partial); counters never leave 16 bits (C31_valid, C31_bound); the exact decision and charge of a call (C31_known, C31_entry); rounding is unbiased (C31_fair_price, C31_fair_decay). Missing: the exact, unrounded aged sum, which random rounding may undercut (C31_rounding); concurrent calls; the floating point computation of the ageing factors; the AVX2 variant. Findings: a limited call evicts another key and charges the other keys it asks about (C31_evicted, C31_limited_charged); a table size the configuration accepts aborts the server (C31_table_size); a price of zero for the widest network (C31_free_network)."
  },
  {
   "property": "C32",
   "status": "partial",
   "theorems": [
    "Knot.C32_check_partial",
    "Knot.C32_safe",
    "Knot.C32_wrap",
    "Knot.C32_issued",
    "Knot.C32_client",
    "Knot.C32_module",
    "Knot.C32_renew",
    "Knot.C32_slip",
    "Knot.C32_slip_wrap"
   ],
   "note": "All cookies outside validity windows that contain the wrap of the 32-bit clock; inside such a window every cookie is refused (C32_wrap). SipHash is a parameter of the model. C32_slip_wrap is a finding. Room for the option in the answer is assumed; the counter shared by threads is modelled for one thread."
  },
  {
   "property": "C33",
   "status": "partial",
   "theorems": [
    "Knot.C33_batch_partial",
    "Knot.C33_purge",
    "Knot.C33_crash",
    "Knot.C33_stale_group",
    "Knot.C33_lost_removal",
    "Knot.C33_nul"
   ],
   "note": "All batches except those in which a member of the database gets a group and is later removed and added again (C33_crash: the code follows a null pointer). Calls without a check are covered under what their callers guarantee (Fair); C33_lost_removal shows what happens outside. C33_stale_group and C33_nul are findings. Parsing of the catalog zone and the database encoding (C41) are outside."
  },
  {
   "property": "C34",
   "status": "proved",
   "theorems": [
    "Knot.C34_items",
    "Knot.C34_malformed",
    "Knot.C34_endless",
    "Knot.C34_restart",
    "Knot.C34_notified",
    "Knot.C34_old_record",
    "Knot.C34_bad_record",
    "Knot.C34_sweep"
   ],
   "note": "All timers that are persisted by the current version; the deprecated timers and a master pin of no known address family are not stored. C34_endless is a finding: the reader does not end on a record whose last-master item is cut short. The database is a map from zone names to records (LMDB trusted)."
  },
  {
   "property": "C35",
   "status": "partial",
   "theorems": [
    "Knot.C35_state",
    "Knot.C35_forward",
    "Knot.C35_backward",
    "Knot.C35_timeline",
    "Knot.C35_progress",
    "Knot.C35_confirm",
    "Knot.C35_roles",
    "Knot.C35_accepted",
    "Knot.C35_signable_partial",
    "Knot.C35_run_partial",
    "Knot.C35_confirm_safe_partial",
    "Knot.C35_forced_algorithm",
    "Knot.C35_forced_scheme",
    "Knot.C35_forced_zsk",
    "Knot.C35_chosen",
    "Knot.C35_new_keys",
    "Knot.C35_quiet"
   ],
   "note": "States are characterised exactly and never go back, except for a key with both a retire and a post-active time (C35_backward). For arbitrary keys, policies and flags a run only makes steps whose waiting time is over (C35_timeline), and ends only when nothing is due (C35_progress). Each step is the one of the state of a key that the run may touch (C35_chosen), keys are made exactly for the listed reasons (C35_new_keys), and without a reason or a due step nothing changes (C35_quiet). The key set stays signable at every later time in every history with one algorithm and one scheme, with all other settings, forced rollovers and confirmations arbitrary (C35_signable_partial). Missing: histories in which algorithm or scheme change; with forced rollovers the property fails for them (C35_forced_algorithm, C35_forced_scheme). A forced ZSK rollover in a CSK zone never ends (C35_forced_zsk). Termination of a run is not proved. Shared KSKs and offline KSK are not modelled."
  },
  {
   "property": "C36",
   "status": "proved",
   "theorems": [
    "Knot.C36_chunks",
    "Knot.C36_roundtrip",
    "Knot.C36_changeset",
    "Knot.C36_zone",
    "Knot.C36_diff",
    "Knot.C36_difference"
   ],
   "note": "Chunks without their LMDB headers (serials and counters are C13's); trees of the changeset are the RRsets in order; merging of equal keys in the trees is C14's. Zone differences are per node."
  },
  {
   "property": "C37",
   "status": "proved",
   "theorems": [
    "Knot.C37_init",
    "Knot.C37_min",
    "Knot.C37_empty",
    "Knot.C37_find",
    "Knot.C37_insert",
    "Knot.C37_delmin",
    "Knot.C37_delete",
    "Knot.C37_replace",
    "Knot.C37_histories",
    "Knot.C37_binsearch",
    "Knot.C37_binsearch_eq"
   ],
   "note": ""
  },
  {
   "property": "C38",
   "status": "proved",
   "theorems": [
    "Knot.C38_parse_safe",
    "Knot.C38_parse_exact",
    "Knot.C38_parse_canonical",
    "Knot.C38_parse_complete",
    "Knot.C38_trailing",
    "Knot.C38_trailing_accepted",
    "Knot.C38_root_pointer_rejected"
   ],
   "note": "C38_trailing_accepted and C38_root_pointer_rejected are findings. Writing is covered by C06."
  },
  {
   "property": "C39",
   "status": "proved",
   "theorems": [
    "Knot.C39_safe",
    "Knot.C39_sound",
    "Knot.C39_complete",
    "Knot.C39_flags",
    "Knot.C39_tsig_last",
    "Knot.C39_written"
   ],
   "note": "Fresh packets: knot_pkt_parse does not reset the marks of OPT and TSIG. What is accepted as a record is AcceptAt of C38, including its findings."
  },
  {
   "property": "C40",
   "status": "partial",
   "theorems": [
    "Knot.C40_successor",
    "Knot.C40_immediate",
    "Knot.C40_last",
    "Knot.C40_long",
    "Knot.C40_gap"
   ],
   "note": "The claim is false of the code for names of 254 and 255 octets (C40_gap); for all others it is C40_immediate. C40_long is the exact result for the long names, and C40_successor and C40_last hold for all names."
  },
  {
   "property": "C41",
   "status": "proved",
   "theorems": [
    "Knot.C41_make",
    "Knot.C41_roundtrip",
    "Knot.C41_select",
    "Knot.C41_prefix",
    "Knot.C41_injective",
    "Knot.C41_short"
   ],
   "note": "C41_short is a finding: a record that ends at a field boundary is reported as read although the remaining fields are not set."
  },
  {
   "property": "C42",
   "status": "proved",
   "theorems": [
    "Knot.C42_roundtrip",
    "Knot.C42_zone_keys"
   ],
   "note": "A combined key without the KSK flag is refused on reading. Truncated and hostile records are outside (findings in DESIGN.md)."
  },
  {
   "property": "C43",
   "status": "partial",
   "theorems": [
    "Knot.C43_fifo",
    "Knot.C43_running",
    "Knot.C43_wait",
    "Knot.C43_suspend",
    "Knot.C43_progress_partial",
    "Knot.C43_waiter_partial",
    "Knot.C43_stop",
    "Knot.C43_drain_partial",
    "Knot.C43_lost",
    "Knot.C43_clear_silent",
    "Knot.C43_stolen"
   ],
   "note": "Proved for every run, except that nothing is forgotten (C43_progress, C43_waiter, C43_drain): there the queue must not be cleared, C43_lost and C43_clear_silent show why. C43_stolen is a finding about delayed tasks. Mutex and condition variable are modelled as POSIX specifies them; liveness is stated as: the threads' steps are bounded and when none is possible everything is done."
  },
  {
   "property": "C44",
   "status": "proved",
   "theorems": [
    "Knot.C44_history",
    "Knot.C44_readers",
    "Knot.C44_begin",
    "Knot.C44_rollback",
    "Knot.C44_commit",
    "Knot.C44_no_leak"
   ],
   "note": "Keys shorter than 2^31 bytes. Readers are covered at the grain of objects: nothing reachable from the old root is written or freed. The marks themselves are written in shared arrays, in the same word as the index that readers mask; that this is harmless on the hardware is not modelled. Allocation always succeeds, no callbacks for values."
  },
  {
   "property": "C45",
   "status": "partial",
   "theorems": [
    "Knot.C45_total",
    "Knot.C45_proof_partial",
    "Knot.C45_direct_partial",
    "Knot.C45_referral",
    "Knot.C45_wildcard_empty",
    "Knot.C45_wildcard_name",
    "Knot.C45_wildcard_dname"
   ],
   "note": "Excluded, with findings that show why: a wildcard without records (C45_wildcard_empty), a name that starts with * (C45_wildcard_name), DNAME of a wildcard (C45_wildcard_dname); and ANY. NSEC3, signatures and lack of space are not modelled."
  },
  {
   "property": "C46",
   "status": "proved",
   "theorems": [
    "Knot.C46_axfr_answer",
    "Knot.C46_axfr_answer_ends",
    "Knot.C46_ixfr_plan",
    "Knot.C46_ixfr_answer",
    "Knot.C46_ixfr_answer_ends",
    "Knot.C46_axfr_client",
    "Knot.C46_axfr_zone",
    "Knot.C46_ixfr_client",
    "Knot.C46_refresh",
    "Knot.C46_nothing_left",
    "Knot.C46_axfr_transfer",
    "Knot.C46_axfr_cut",
    "Knot.C46_ixfr_transfer",
    "Knot.C46_ixfr_transfer_by_one",
    "Knot.C46_ixfr_by_axfr",
    "Knot.C46_foreign_soa",
    "Knot.C46_other_soa",
    "Knot.C46_any_serials",
    "Knot.C46_no_axfr"
   ],
   "note": "What fits in a message is any function; knot_pkt_put puts an RRset whole or not at all. C46_axfr_client, C46_ixfr_client and C46_refresh say exactly when the client publishes and what, for every sequence of messages and failures; C46_foreign_soa, C46_other_soa, C46_any_serials, C46_no_axfr are findings: 'complete answer' is weaker in the code than RFC 5936 and RFC 1995 ask. Signing of received zones, ixfr-from-axfr and timers are not modelled; semantic checks and the commit to the journal are parameters."
  },
  {
   "property": "C47",
   "status": "partial",
   "theorems": [
    "Knot.C47_soa",
    "Knot.C47_soa_set",
    "Knot.C47_rrsig",
    "Knot.C47_nsec",
    "Knot.C47_name",
    "Knot.C47_nsec3",
    "Knot.C47_dnskey",
    "Knot.C47_ds",
    "Knot.C47_zonemd",
    "Knot.C47_nsec3param",
    "Knot.C47_notify",
    "Knot.C47_soa_answer",
    "Knot.C47_ixfr_query",
    "Knot.C47_update",
    "Knot.C47_additional",
    "Knot.C47_signed",
    "Knot.C47_params_match",
    "Knot.C47_match_ds",
    "Knot.C47_zonemd_verify",
    "Knot.C47_zonemd_longer",
    "Knot.C47_unchecked",
    "Knot.C47_short",
    "Knot.C47_empty_soa",
    "Knot.C47_empty_rrsig"
   ],
   "note": "For the types whose layout the message parser checks (SOA, RRSIG, NSEC and those with one name), C47_soa, C47_rrsig, C47_nsec and C47_name give every field of every record of every accepted message, except records without RDATA of other classes than IN. The parser does not check the layout of DS, DNSKEY, NSEC3, ZONEMD, SVCB and HTTPS (C47_unchecked); for these the theorems say exactly which RDATA can be read. C47_empty_soa, C47_empty_rrsig, C47_short and C47_zonemd_longer are findings: there the full statement is false of the code."
  },
  {
   "property": "C48",
   "status": "partial",
   "theorems": [
    "Knot.C48_expired",
    "Knot.C48_expired_wraps",
    "Knot.C48_expired_early",
    "Knot.C48_signed",
    "Knot.C48_threads",
    "Knot.C48_defined",
    "Knot.C48_flag",
    "Knot.C48_mark",
    "Knot.C48_idle",
    "Knot.C48_minimal",
    "Knot.C48_again",
    "Knot.C48_next",
    "Knot.C48_apex",
    "Knot.C48_long_lifetime_aborts",
    "Knot.C48_validate",
    "Knot.C48_valid_until",
    "Knot.C48_stray_aborts",
    "Knot.C48_signed_validates",
    "Knot.C48_fields",
    "Knot.C48_many_keys"
   ],
   "note": "Computing and verifying signatures are a parameter of which only soundness is assumed. The hypotheses on times (Timely, Sane) exclude exactly the findings: C48_stray_aborts (validation aborts on an RRSIG of an absent type), C48_long_lifetime_aborts, C48_expired_wraps, C48_expired_early and C48_many_keys show that without them the full statement is false of the code. The choice of nodes for incremental signing and the signing of the DNSKEY set from offline records are not modelled beyond the offline signatures themselves."
  },
  {
   "property": "C49",
   "status": "partial",
   "theorems": [
    "Knot.C49_chain",
    "Knot.C49_total_partial",
    "Knot.C49_proof_partial",
    "Knot.C49_secure_partial",
    "Knot.C49_referral_partial",
    "Knot.C49_optout",
    "Knot.C49_empty_chain",
    "Knot.C49_wildcard_optout",
    "Knot.C49_wildcard_dname",
    "Knot.C49_wildcard_name"
   ],
   "note": "C49_chain is complete for zones whose names have different hashes. C49_total_partial, C49_proof_partial, C49_secure_partial and C49_referral_partial need that the names of importance have different hashes (Apart) and exclude exactly the situations of the findings C49_wildcard_optout, C49_wildcard_dname and C49_wildcard_name, where the full statement is false of the code, wildcard delegations without NSEC3 under opt-out, and ANY. C49_empty_chain shows the abort for a zone without a chain. C49_optout shows that the alternative under opt-out is real. Incremental changes of the chain are not modelled."
  },
  {
   "property": "C50",
   "status": "partial",
   "theorems": [
    "Knot.C50_ignored",
    "Knot.C50_header",
    "Knot.C50_size_partial",
    "Knot.C50_opt_asked",
    "Knot.C50_opt_partial",
    "Knot.C50_rcode_partial",
    "Knot.C50_padded",
    "Knot.C50_formerr",
    "Knot.C50_badvers",
    "Knot.C50_no_question",
    "Knot.C50_class",
    "Knot.C50_opcode",
    "Knot.C50_zone",
    "Knot.C50_zone_ds",
    "Knot.C50_zone_exact",
    "Knot.C50_catalog",
    "Knot.C50_clean",
    "Knot.C50_padding",
    "Knot.C50_expire_partial",
    "Knot.C50_expire",
    "Knot.C50_nsid",
    "Knot.C50_ext_rcode",
    "Knot.C50_opt_says",
    "Knot.C50_refused_by_module"
   ],
   "note": "C50_header holds without exceptions. C50_size_partial needs that question and OPT fit (false otherwise: C50_nsid) and that hooks at the end of modules do not write; C50_opt_partial needs an OPT of at most 200 bytes and leaves out cookies and modules that suppress the response; C50_rcode_partial excludes exactly the failed signature of C50_ext_rcode. C50_expire_partial excludes times in the past (C50_expire). C50_padding gives the exact range of sizes where padding turns an answer into FORMERR. What handlers and modules do is arbitrary."
  },
  {
   "property": "C51",
   "status": "partial",
   "theorems": [
    "Knot.C51_atomic",
    "Knot.C51_zones",
    "Knot.C51_reload_partial",
    "Knot.C51_untouched",
    "Knot.C51_no_crash_partial",
    "Knot.C51_memory_partial",
    "Knot.C51_checked_partial",
    "Knot.C51_diff_partial",
    "Knot.C51_accepted_partial",
    "Knot.C51_units",
    "Knot.C51_changed_then_removed",
    "Knot.C51_crash_whole",
    "Knot.C51_crash_undone",
    "Knot.C51_crash_member",
    "Knot.C51_readded",
    "Knot.C51_dangling",
    "Knot.C51_crash_reloaded"
   ],
   "note": "C51_atomic, C51_zones and C51_untouched hold for all histories. C51_reload_partial excludes exactly zones both removed and added in the transaction (C51_readded). C51_no_crash_partial, C51_memory_partial, C51_checked_partial, C51_accepted_partial and C51_diff_partial are about commands with one value, which includes (C51_units) commands with several values that are all done; for commands undone halfway they are false (C51_dangling, C51_crash_undone). No crash: zones named one by one, no catalog member added; false otherwise (C51_crash_whole, C51_crash_reloaded, C51_crash_member). Accepted: no zone both changed and removed (C51_changed_then_removed). The values of items, zone contents and catalog updates in progress are not modelled."
  },
  {
   "property": "C52",
   "status": "proved",
   "theorems": [
    "Knot.C52_map",
    "Knot.C52_command",
    "Knot.C52_set_get",
    "Knot.C52_removed",
    "Knot.C52_no_leftovers"
   ],
   "note": "C52_map for all histories from an empty database; C52_command says when a command is accepted. The schema may have up to 199 sections, and 199 items of a section, which is the number of codes. The store (LMDB) is a map of keys to values; the order of identifiers, conversion of values and failures of the store are not modelled."
  },
  {
   "property": "C53",
   "status": "partial",
   "theorems": [
    "Knot.C53_restart_journal",
    "Knot.C53_restart_kept_partial",
    "Knot.C53_reload_serial",
    "Knot.C53_no_serial",
    "Knot.C53_difference",
    "Knot.C53_restart_changes_partial",
    "Knot.C53_edit_changes",
    "Knot.C53_file_needed",
    "Knot.C53_same_serial_lost",
    "Knot.C53_decreased_taken",
    "Knot.C53_two_soas",
    "Knot.C53_whole_all_stuck"
   ],
   "note": "C53_restart_journal holds for all lives. C53_restart_kept_partial needs a readable file (C53_file_needed) whose SOA fields fit a stored change that starts from its serial (C53_two_soas); C53_restart_changes_partial and C53_edit_changes are about lives in which the file is edited as the manual says, the others are false (C53_same_serial_lost, C53_decreased_taken). journal-content all with zonefile-load whole is not claimed (C53_whole_all_stuck); the server calls it incompatible. DNSSEC signing, ZONEMD, reverse and generated zones, TTLs and the limits of the journal (C12, C13) are not modelled."
  },
  {
   "property": "C54",
   "status": "partial",
   "theorems": [
    "Knot.C54_flags",
    "Knot.C54_flags_pass",
    "Knot.C54_prevs_load",
    "Knot.C54_prevs_checked",
    "Knot.C54_prevs_update_partial",
    "Knot.C54_prevs_update_exact_partial",
    "Knot.C54_prevs_stale",
    "Knot.C54_size",
    "Knot.C54_max_ttl",
    "Knot.C54_additionals",
    "Knot.C54_additionals_partial",
    "Knot.C54_additionals_stale",
    "Knot.C54_versions_agree",
    "Knot.C54_versions_agree_checked"
   ],
   "note": "Flags, size, TTL, agreement of the versions and the absence of dangling additional nodes hold in all lives. The previous pointers are exact after a load and after checked updates; after other updates C54_prevs_update_partial needs that no node with records comes out of a delegation (C54_prevs_stale). The additional nodes are exact along updates that keep the closest enclosers of the names in rdata (C54_additionals_partial; false otherwise, C54_additionals_stale). The NSEC3 tree is not modelled."
  },
  {
   "property": "C55",
   "status": "partial",
   "theorems": [
    "Knot.C55_round_partial",
    "Knot.C55_sweep_partial",
    "Knot.C55_limit_partial",
    "Knot.C55_listening_partial",
    "Knot.C55_kernel_partial",
    "Knot.C55_alive_partial",
    "Knot.C55_room",
    "Knot.C55_limit_lowered",
    "Knot.C55_failed_add_leak",
    "Knot.C55_failed_add_hang"
   ],
   "note": "All theorems suppose that registering of accepted descriptors with the kernel succeeds; without it the claims are false (C55_failed_add_leak, C55_failed_add_hang). The round needs the number of connections to be within the current limit; a limit lowered by a reload breaks that and the server aborts (C55_limit_lowered)."
  },
  {
   "property": "C56",
   "status": "partial",
   "theorems": [
    "Knot.C56_pair_partial",
    "Knot.C56_reverse_types",
    "Knot.C56_sound",
    "Knot.C56_ipv4_text",
    "Knot.C56_long_labels",
    "Knot.C56_buffer",
    "Knot.C56_parents_partial",
    "Knot.C56_missing_parents",
    "Knot.C56_upper_case",
    "Knot.C56_root_origin",
    "Knot.C56_other_names"
   ],
   "note": "The pairing needs a prefix in lower case (Plain), at most 24 octets, and an origin that leaves room and is not the root; without that it is false (C56_upper_case, C56_root_origin). Parents are proved to exist only within a network given by a prefix length; above it and for ranges it is false (C56_missing_parents). A PTR record for a name that is not the name of an address is possible (C56_other_names), so C56_sound does not say that the name is a reverse name."
  },
  {
   "property": "C57",
   "status": "partial",
   "theorems": [
    "Knot.C57_safe",
    "Knot.C57_direct",
    "Knot.C57_proxied",
    "Knot.C57_trust",
    "Knot.C57_refused_partial",
    "Knot.C57_written",
    "Knot.C57_short_message",
    "Knot.C57_short_header"
   ],
   "note": "The use of addresses (C57_trust, C57_proxied, C57_direct, C57_written) and safety are proved in full. That everything else is ignored or refused is proved except for inner messages of less than 12 octets, where it is false (C57_short_message). The address is the one at its place in the datagram, which is not always within the header (C57_short_header)."
  },
  {
   "property": "C58",
   "status": "partial",
   "theorems": [
    "Knot.C58_ledger",
    "Knot.C58_get",
    "Knot.C58_put",
    "Knot.C58_close_partial",
    "Knot.C58_deinit",
    "Knot.C58_timeout_wrap"
   ],
   "note": "Balance of connections, capacity, requests, replacement of the oldest and the final closing are proved for all histories. The pass of the cleaning thread is proved for timeouts up to the current time; for larger ones it is false (C58_timeout_wrap)."
  },
  {
   "property": "C59",
   "status": "proved",
   "theorems": [
    "Knot.C59_records",
    "Knot.C59_ttl",
    "Knot.C59_succeeds",
    "Knot.C59_ttl_mismatch",
    "Knot.C59_wildcard"
   ],
   "note": "C59_records, C59_ttl and C59_succeeds say it in full: the generation succeeds exactly if the TTLs of records with the same address are equal. That it fails otherwise is a finding (C59_ttl_mismatch)."
  },
  {
   "property": "C60",
   "status": "partial",
   "theorems": [
    "Knot.C60_verify",
    "Knot.C60_calls",
    "Knot.C60_order",
    "Knot.C60_update_partial",
    "Knot.C60_multistring"
   ],
   "note": "Proved: verification, the exact set of calls with the only possible error, their order, and how an update is composed for new zones and changesets. That a rejected zone leaves the members as they are is false (C60_multistring). Missing: the mode without a changeset, and the members that result in the database (C33 has the meaning of calls)."
  },
  {
   "property": "C61",
   "status": "proved",
   "theorems": [
    "Knot.C61_rates",
    "Knot.C61_check"
   ],
   "note": "C61_rates is for all histories and C61_check for all configurations; the lower bound 1 of udp-truncate-rate (noudp.c:24) is a hypothesis."
  },
  {
   "property": "C62",
   "status": "partial",
   "theorems": [
    "Knot.C62_filter_partial",
    "Knot.C62_range"
   ],
   "note": "C62_filter_partial is for all lists and addresses except IPv4 clients with ranges on little-endian hosts, where the property is false (C62_range, the consequence of C30_range_little_endian_fails)."
  }
 ]
}