{
 "C04": {
  "note": "The claim excludes zero octets inside labels; C04_nul_collision shows that the exclusion is necessary."
 },
 "C20": {
  "note": "Decision of acl_allowed over the configuration values as data. C20_owner_key_unsigned and C20_long_name_hides are witnesses of two surprising behaviours of the code."
 },
 "C30": {
  "note": "The IPv4 range claim is false of the code on little-endian hosts (C30_range_little_endian_fails); there it is proved for addresses equal in the bytes that are swapped (partial). IPv6 ranges, prefixes and big-endian hosts are exact."
 },
 "C29": {
  "note": "The claim excludes zero octets inside labels; C29_nul_collision shows that the exclusion is necessary."
 },
 "C12": {
  "note": "Keys shorter than 2^31 bytes (C12_longest_key shows what happens at the limit). C12_nosuffix_fails is a finding. Copy-on-write is C44; allocation failure is not modelled."
 },
 "C38": {
  "note": "C38_trailing_accepted and C38_root_pointer_rejected are findings. Writing is covered by C06."
 },
 "C06": {
  "note": "Whole messages: owner names, names in RDATA and hints, read back by the specification of the format (C06_decode) and by the parser (C06_parse). C06_stale_suffix, C06_nocomp and C06_stale_qname are findings that delimit the contract in Verif/Pkt/Contract.lean. Allocation failure in knot_pkt_put is not modelled."
 },
 "C07": {
  "note": "Over all sequences of calls in Verif/Pkt/Contract.lean. C07_question_reserved is a finding: space reserved before the question is not respected."
 },
 "C39": {
  "note": "Fresh packets: knot_pkt_parse does not reset the marks of OPT and TSIG. What is accepted as a record is AcceptAt of C38, including its findings."
 },
 "C40": {
  "status": "partial",
  "note": "The claim is false of the code for names of 254 and 255 octets (C40_gap); for all others it is C40_immediate. C40_long is the exact result for the long names, and C40_successor and C40_last hold for all names."
 },
 "C34": {
  "note": "All timers that are persisted by the current version; the deprecated timers and a master pin of no known address family are not stored. C34_endless is a finding: the reader does not end on a record whose last-master item is cut short. The database is a map from zone names to records (LMDB trusted)."
 },
 "C41": {
  "note": "C41_short is a finding: a record that ends at a field boundary is reported as read although the remaining fields are not set."
 },
 "C42": {
  "note": "A combined key without the KSK flag is refused on reading. Truncated and hostile records are outside (findings in DESIGN.md)."
 },
 "C33": {
  "note": "All batches except those in which a member of the database gets a group and is later removed and added again (C33_crash: the code follows a null pointer). Calls without a check are covered under what their callers guarantee (Fair); C33_lost_removal shows what happens outside. C33_stale_group and C33_nul are findings. Parsing of the catalog zone and the database encoding (C41) are outside."
 },
 "C32": {
  "note": "All cookies outside validity windows that contain the wrap of the 32-bit clock; inside such a window every cookie is refused (C32_wrap). SipHash is a parameter of the model. C32_slip_wrap is a finding. Room for the option in the answer is assumed; the counter shared by threads is modelled for one thread."
 },
 "C14": {
  "note": "Additions of new records and removals of existing ones, with TTLs that suit their RRsets. Outside of this the code records something else than it does: C14_lost_removal, C14_lost_ttl, C14_skipped, C14_not_removed, C14_merge_soa are findings. Trees, nodes, memory and the limit of records per RRset are not modelled."
 },
 "C15": {
  "note": "Zones as trees of nodes with explicit empty nodes; the result is compared through the update of C14. An SOA that changes without its serial is not part of the difference (C15_soa_hidden). TTLs of RRSIG RRsets are ignored. Allocation failures are not modelled."
 },
 "C16": {
  "status": "partial",
  "note": "Proved for messages whose records are not NSEC3-related and whose owners are not below NSEC3 owner names, with at most one NSEC3PARAM. Outside that range the code differs: C16_prereq_any (assertion), C16_nsec3param_lost, C16_soa_lower, C16_ttl_kept, C16_dname_nested, C16_nsec3_deleted. The signing that follows an update and the TSIG/ACL checks before it are not part of this model."
 },
 "C13": {
  "status": "partial",
  "note": "All histories of changes, whole zones, zone file writes and flush marks, with a crash anywhere between transactions, with any limits. Excluded and refuted: serials coming round to the merged one (C13_merged_cycle), forced writing with zonefile-sync disabled (C13_forced_flush), enabling zonefile-sync later (C13_merged_deleted), discontinuous changes after a full eviction (C13_gap). Further findings: C13_flush_assert, C13_stuck, C13_extra_space. Changesets are single records (C36 has the chunks); extra changesets are modelled but not part of the histories; LMDB failures are not modelled."
 },
 "C36": {
  "note": "Chunks without their LMDB headers (serials and counters are C13's); trees of the changeset are the RRsets in order; merging of equal keys in the trees is C14's. Zone differences are per node."
 },
 "C19": {
  "note": "Flags, building, fixing over all histories and the check of a whole zone are exact. Incremental validation is proved only for updates in which no node leaves the chain and no changed NSEC points outside it (C19_check_fix_partial); for the others it is false of the code (C19_removed_accepted, C19_glue_accepted). C19_bare_rrsig and C19_assert are further findings. NSEC3 chains are not modelled."
 },
 "C17": {
  "status": "partial",
  "note": "The exact response is proved (C17_answer_partial) for all zones and queries but those where a DNAME gives a name that is too long, or where a chain ends in DNAME records of a wildcard; C17_yxdomain, C17_yxdomain_lost and C17_wildcard_dname show what the code does there. Termination, authority, NXDOMAIN, referrals and limited space are proved for all. Not modelled: query modules, RRSIGs, NSEC and NSEC3 proofs, the additional section, allocation failures, upper case in the question and zero octets in labels."
 },
 "C10": {
  "note": "The decoder accepts exactly the RFC 4648 texts if padding is only in the last four characters; C10_base64_inner_padding_accepted shows that texts with padding elsewhere are accepted too. The base64url decoder is exact; C10_base64url_overread is a finding. Round trips and bounds are proved for all inputs."
 },
 "C22": {
  "note": "Events do not run early if the delay in milliseconds fits in 32 bits (C22_early_by_truncation otherwise) and no cancelled run is taken up (C22_early_by_cancel). C22_blocking_out_of_bounds and C22_freeze_blocking_stuck are findings. Liveness is stated as: a due event runs on the next dispatch; fairness of the scheduler is not modelled."
 },
 "C26": {
  "note": "All operations but wire_ctx_printf are exact over all histories; for printf the claim fails when the text does not fit with its NUL, on an error, or for a read-only context (C26_printf_truncates, C26_printf_ignores_state). It never writes outside the buffer (C26_printf_safe)."
 },
 "C24": {
  "status": "partial",
  "note": "The library functions (serverCheck, clientCheck, clientCheckNext) are characterised exactly for every well-formed record, message, key and clock (C24_accept_partial). The property as stated fails for them: the algorithm in the record is not compared to the one of the key (C24_algorithm_ignored), and a longer one makes them read uninitialised octets (C24_uninitialised). It is proved in full for the server, whose key is selected by name and algorithm (C24_request), and for the client (C24_response, C24_exchange). HMAC is a parameter."
 },
 "C27": {
  "status": "proved",
  "note": "For every buffer size from 65535 octets, every fill level and every way the network cuts the octets. Receiving is memory-safe for every peer (C27_receive_safe). Outside the size limit: a refused item leaves the start of its unit in the buffer and the peer misreads what follows (C27_failed_send, C27_failed_end); after a timeout within a unit the input is misread (C27_timeout). Failures to send are not modelled."
 },
 "C35": {
  "status": "partial",
  "note": "States are characterised exactly and never go back, except for a key with both a retire and a post-active time (C35_backward). For arbitrary keys, policies and flags a run only makes steps whose waiting time is over (C35_timeline), and ends only when nothing is due (C35_progress). Each step is the one of the state of a key that the run may touch (C35_chosen), keys are made exactly for the listed reasons (C35_new_keys), and without a reason or a due step nothing changes (C35_quiet). The key set stays signable at every later time in every history with one algorithm and one scheme, with all other settings, forced rollovers and confirmations arbitrary (C35_signable_partial). Missing: histories in which algorithm or scheme change; with forced rollovers the property fails for them (C35_forced_algorithm, C35_forced_scheme). A forced ZSK rollover in a CSK zone never ends (C35_forced_zsk). Termination of a run is not proved. Shared KSKs and offline KSK are not modelled."
 },
 "C31": {
  "status": "partial",
  "note": "Proved for every history of calls, every hash, every ageing function and all random numbers: while a key keeps its counter, the counter is at least the aged sum of its admitted prices, each rounded down to the units of a counter (C31_tally_partial); counters never leave 16 bits (C31_valid, C31_bound); the exact decision and charge of a call (C31_known, C31_entry); rounding is unbiased (C31_fair_price, C31_fair_decay). Missing: the exact, unrounded aged sum, which random rounding may undercut (C31_rounding); concurrent calls; the floating point computation of the ageing factors; the AVX2 variant. Findings: a limited call evicts another key and charges the other keys it asks about (C31_evicted, C31_limited_charged); a table size the configuration accepts aborts the server (C31_table_size); a price of zero for the widest network (C31_free_network)."
 },
 "C43": {
  "note": "Proved for every run, except that nothing is forgotten (C43_progress, C43_waiter, C43_drain): there the queue must not be cleared, C43_lost and C43_clear_silent show why. C43_stolen is a finding about delayed tasks. Mutex and condition variable are modelled as POSIX specifies them; liveness is stated as: the threads' steps are bounded and when none is possible everything is done."
 },
 "C44": {
  "note": "Keys shorter than 2^31 bytes. Readers are covered at the grain of objects: nothing reachable from the old root is written or freed. The marks themselves are written in shared arrays, in the same word as the index that readers mask; that this is harmless on the hardware is not modelled. Allocation always succeeds, no callbacks for values."
 },
 "C45": {
  "note": "Excluded, with findings that show why: a wildcard without records (C45_wildcard_empty), a name that starts with * (C45_wildcard_name), DNAME of a wildcard (C45_wildcard_dname); and ANY. NSEC3, signatures and lack of space are not modelled."
 },
 "C46": {
  "note": "What fits in a message is any function; knot_pkt_put puts an RRset whole or not at all. C46_axfr_client, C46_ixfr_client and C46_refresh say exactly when the client publishes and what, for every sequence of messages and failures; C46_foreign_soa, C46_other_soa, C46_any_serials, C46_no_axfr are findings: 'complete answer' is weaker in the code than RFC 5936 and RFC 1995 ask. Signing of received zones, ixfr-from-axfr and timers are not modelled; semantic checks and the commit to the journal are parameters."
 },
 "C47": {
  "status": "partial",
  "note": "For the types whose layout the message parser checks (SOA, RRSIG, NSEC and those with one name), C47_soa, C47_rrsig, C47_nsec and C47_name give every field of every record of every accepted message, except records without RDATA of other classes than IN. The parser does not check the layout of DS, DNSKEY, NSEC3, ZONEMD, SVCB and HTTPS (C47_unchecked); for these the theorems say exactly which RDATA can be read. C47_empty_soa, C47_empty_rrsig, C47_short and C47_zonemd_longer are findings: there the full statement is false of the code."
 },
 "C48": {
  "status": "partial",
  "note": "Computing and verifying signatures are a parameter of which only soundness is assumed. The hypotheses on times (Timely, Sane) exclude exactly the findings: C48_stray_aborts (validation aborts on an RRSIG of an absent type), C48_long_lifetime_aborts, C48_expired_wraps, C48_expired_early and C48_many_keys show that without them the full statement is false of the code. The choice of nodes for incremental signing and the signing of the DNSKEY set from offline records are not modelled beyond the offline signatures themselves."
 },
 "C49": {
  "status": "partial",
  "note": "C49_chain is complete for zones whose names have different hashes. C49_total_partial, C49_proof_partial, C49_secure_partial and C49_referral_partial need that the names of importance have different hashes (Apart) and exclude exactly the situations of the findings C49_wildcard_optout, C49_wildcard_dname and C49_wildcard_name, where the full statement is false of the code, wildcard delegations without NSEC3 under opt-out, and ANY. C49_empty_chain shows the abort for a zone without a chain. C49_optout shows that the alternative under opt-out is real. Incremental changes of the chain are not modelled."
 },
 "C50": {
  "status": "partial",
  "note": "C50_header holds without exceptions. C50_size_partial needs that question and OPT fit (false otherwise: C50_nsid) and that hooks at the end of modules do not write; C50_opt_partial needs an OPT of at most 200 bytes and leaves out cookies and modules that suppress the response; C50_rcode_partial excludes exactly the failed signature of C50_ext_rcode. C50_expire_partial excludes times in the past (C50_expire). C50_padding gives the exact range of sizes where padding turns an answer into FORMERR. What handlers and modules do is arbitrary."
 },
 "C51": {
  "status": "partial",
  "note": "C51_atomic, C51_zones and C51_untouched hold for all histories. C51_reload_partial excludes exactly zones both removed and added in the transaction (C51_readded). C51_no_crash_partial, C51_memory_partial, C51_checked_partial, C51_accepted_partial and C51_diff_partial are about commands with one value, which includes (C51_units) commands with several values that are all done; for commands undone halfway they are false (C51_dangling, C51_crash_undone). No crash: zones named one by one, no catalog member added; false otherwise (C51_crash_whole, C51_crash_reloaded, C51_crash_member). Accepted: no zone both changed and removed (C51_changed_then_removed). The values of items, zone contents and catalog updates in progress are not modelled."
 },
 "C52": {
  "status": "proved",
  "note": "C52_map for all histories from an empty database; C52_command says when a command is accepted. The schema may have up to 199 sections, and 199 items of a section, which is the number of codes. The store (LMDB) is a map of keys to values; the order of identifiers, conversion of values and failures of the store are not modelled."
 },
 "C53": {
  "status": "partial",
  "note": "C53_restart_journal holds for all lives. C53_restart_kept_partial needs a readable file (C53_file_needed) whose SOA fields fit a stored change that starts from its serial (C53_two_soas); C53_restart_changes_partial and C53_edit_changes are about lives in which the file is edited as the manual says, the others are false (C53_same_serial_lost, C53_decreased_taken). journal-content all with zonefile-load whole is not claimed (C53_whole_all_stuck); the server calls it incompatible. DNSSEC signing, ZONEMD, reverse and generated zones, TTLs and the limits of the journal (C12, C13) are not modelled."
 },
 "C54": {
  "status": "partial",
  "note": "Flags, size, TTL, agreement of the versions and the absence of dangling additional nodes hold in all lives. The previous pointers are exact after a load and after checked updates; after other updates C54_prevs_update_partial needs that no node with records comes out of a delegation (C54_prevs_stale). The additional nodes are exact along updates that keep the closest enclosers of the names in rdata (C54_additionals_partial; false otherwise, C54_additionals_stale). The NSEC3 tree is not modelled."
 },
 "C55": {
  "status": "partial",
  "note": "All theorems suppose that registering of accepted descriptors with the kernel succeeds; without it the claims are false (C55_failed_add_leak, C55_failed_add_hang). The round needs the number of connections to be within the current limit; a limit lowered by a reload breaks that and the server aborts (C55_limit_lowered)."
 },
 "C56": {
  "status": "partial",
  "note": "The pairing needs a prefix in lower case (Plain), at most 24 octets, and an origin that leaves room and is not the root; without that it is false (C56_upper_case, C56_root_origin). Parents are proved to exist only within a network given by a prefix length; above it and for ranges it is false (C56_missing_parents). A PTR record for a name that is not the name of an address is possible (C56_other_names), so C56_sound does not say that the name is a reverse name."
 },
 "C57": {
  "status": "partial",
  "note": "The use of addresses (C57_trust, C57_proxied, C57_direct, C57_written) and safety are proved in full. That everything else is ignored or refused is proved except for inner messages of less than 12 octets, where it is false (C57_short_message). The address is the one at its place in the datagram, which is not always within the header (C57_short_header)."
 },
 "C58": {
  "status": "partial",
  "note": "Balance of connections, capacity, requests, replacement of the oldest and the final closing are proved for all histories. The pass of the cleaning thread is proved for timeouts up to the current time; for larger ones it is false (C58_timeout_wrap)."
 },
 "C59": {
  "status": "proved",
  "note": "C59_records, C59_ttl and C59_succeeds say it in full: the generation succeeds exactly if the TTLs of records with the same address are equal. That it fails otherwise is a finding (C59_ttl_mismatch)."
 },
 "C60": {
  "status": "partial",
  "note": "Proved: verification, the exact set of calls with the only possible error, their order, and how an update is composed for new zones and changesets. That a rejected zone leaves the members as they are is false (C60_multistring). Missing: the mode without a changeset, and the members that result in the database (C33 has the meaning of calls)."
 },
 "C61": {
  "status": "proved",
  "note": "C61_rates is for all histories and C61_check for all configurations; the lower bound 1 of udp-truncate-rate (noudp.c:24) is a hypothesis."
 },
 "C62": {
  "status": "partial",
  "note": "C62_filter_partial is for all lists and addresses except IPv4 clients with ranges on little-endian hosts, where the property is false (C62_range, the consequence of C30_range_little_endian_fails)."
 }
}