{"id": "C01", "title": "Wire name check is safe, terminating and exact", "statement": "knot_dname_wire_check() never reads outside the packet, always terminates, and returns a positive length exactly when the bytes at the given position encode a (possibly compressed) domain name: labels of 1..63 bytes, pointers that point strictly before themselves, total uncompressed length at most 255; the returned length is the number of bytes the name occupies before its first pointer ends.", "quantifier": "every packet content and length, every start position and end bound inside the packet, with or without compression allowed", "why_tests_cant": "The input space is all byte strings with arbitrary pointer graphs; a loop or over-read appears only for adversarial layouts.", "anchors": ["src/libknot/dname.c:knot_dname_wire_check", "src/libknot/packet/wire.h:knot_wire_get_pointer"]}
{"id": "C02", "title": "Decompression of a checked name is faithful", "statement": "After a successful knot_dname_wire_check(), knot_dname_unpack() terminates, stays inside the packet, writes at most 255 bytes, and produces exactly the uncompressed form of the name the wire bytes denote, and knot_dname_realsize()/knot_dname_labels() agree with it.", "quantifier": "every packet and every position accepted by the wire check, every output buffer capacity", "why_tests_cant": "Correctness depends on arbitrary nesting of pointers and label sizes.", "anchors": ["src/libknot/dname.c:knot_dname_unpack", "src/libknot/dname.c:knot_dname_realsize", "src/libknot/packet/wire.h:knot_wire_seek_label"]}
{"id": "C03", "title": "Presentation format of names round-trips", "statement": "Converting any valid wire name to text with knot_dname_to_str() and back with knot_dname_from_str() yields the same wire name; knot_dname_from_str() only ever produces valid wire names of at most 255 bytes with labels of at most 63 bytes and never writes past the buffer size it was given.", "quantifier": "every valid domain name with arbitrary label octets; every input string and output buffer size", "why_tests_cant": "Every octet value in every position, every escape at every buffer boundary.", "anchors": ["src/libknot/dname.c:knot_dname_to_str", "src/libknot/dname.c:knot_dname_from_str"]}
{"id": "C04", "title": "Name comparison is the DNSSEC canonical order", "statement": "For names whose labels contain no zero octet knot_dname_cmp() is a total order that coincides with the canonical ordering of RFC 4034 section 6.1 (on lower-cased names), and returns 0 only for identical names. With zero octets inside labels two different names can compare equal.", "quantifier": "every pair and triple of valid domain names", "why_tests_cant": "Ordering laws quantify over all pairs and triples of names.", "anchors": ["src/libknot/dname.c:knot_dname_cmp", "src/libknot/dname.c:knot_dname_lf"]}
{"id": "C05", "title": "Subdomain tests and suffix replacement", "statement": "knot_dname_in_bailiwick() returns n >= 0 exactly when the first name is the second one with n labels prepended; knot_dname_matched_labels() returns the length of the longest common label suffix; knot_dname_replace_suffix() replaces exactly the requested number of trailing labels.", "quantifier": "every pair of valid names, every label count", "why_tests_cant": "All alignments of label boundaries.", "anchors": ["src/libknot/dname.c:knot_dname_in_bailiwick", "src/libknot/dname.c:knot_dname_matched_labels", "src/libknot/dname.c:knot_dname_replace_suffix"]}
{"id": "C06", "title": "Compressed names written to a message decode to the original", "statement": "A name written into a message by the response writer with compression, using any previously written name as the suffix candidate, decodes (by the wire check and unpack routines) to the same name up to ASCII case, without affecting what earlier names in the message decode to, and every pointer emitted is strictly backwards.", "quantifier": "every message prefix, every suffix context that refers to a valid name inside it, every name written, every remaining capacity", "why_tests_cant": "Depends on every earlier name in the message and every overlap of suffixes.", "anchors": ["src/libknot/packet/rrset-wire.c:compr_put_dname", "src/libknot/packet/rrset-wire.c:write_owner"]}
{"id": "C07", "title": "Message builder never exceeds its limit and fails cleanly", "statement": "For any sequence of begin/reserve/reclaim/put operations size + reserved <= max_size holds, the message never grows past max_size - reserved at the time of the put, a failed put leaves size, section counts and RR count unchanged, and TC is set exactly when a put failed for lack of space without the no-truncation flag.", "quantifier": "every operation sequence and every RRset size", "why_tests_cant": "Operation histories are unbounded; the 16-bit unsigned arithmetic must never wrap.", "anchors": ["src/libknot/packet/pkt.c:knot_pkt_put_rotate", "src/libknot/packet/pkt.c:knot_pkt_reserve", "src/libknot/packet/pkt.c:knot_pkt_reclaim"]}
{"id": "C08", "title": "Serial number arithmetic follows RFC 1982", "statement": "serial_compare() returns EQUAL/LOWER/GREATER/INCOMPARABLE exactly per RFC 1982 with 32-bit serials, it is antisymmetric, and the serial produced by the increment/unixtime/dateserial policies with must_increment=1 is always greater than the current one in that order; with serial-modulo the produced serial is congruent to the configured remainder unless the computation wraps around 2^32.", "quantifier": "all pairs of 32-bit serials, all clock values, all modulo settings", "why_tests_cant": "2^64 pairs, wrap-around corner cases.", "anchors": ["src/knot/zone/serial.c:serial_compare", "src/knot/zone/serial.c:serial_next_generic"]}
{"id": "C09", "title": "RDATA sets behave like sorted sets", "statement": "Any sequence of add/merge/subtract/intersect operations on rdata sets yields a strictly sorted duplicate-free sequence that equals the mathematical set union/difference/intersection, membership, subset and equality tests agree with set semantics, and the only failure is exceeding the count/size limits.", "quantifier": "every rdata set and every operation sequence", "why_tests_cant": "Sortedness is an invariant over unbounded histories.", "anchors": ["src/libknot/rdataset.c:knot_rdataset_add", "src/libknot/rdataset.c:knot_rdataset_merge", "src/libknot/rdataset.c:knot_rdataset_subtract", "src/libknot/rdataset.c:knot_rdataset_intersect", "src/libknot/rdataset.c:knot_rdataset_member"]}
{"id": "C10", "title": "Base64 and base64url encoders are inverted by the decoders", "statement": "Decoding the encoder's output returns the original data for all inputs; the decoder never writes more than the documented maximum and rejects inputs whose length is not a multiple of four or that contain characters outside the alphabet.", "quantifier": "every byte string", "why_tests_cant": "All lengths modulo 3 and all byte values.", "anchors": ["src/contrib/base64.c:knot_base64_encode", "src/contrib/base64.c:knot_base64_decode", "src/contrib/base64url.c:knot_base64url_encode"]}
{"id": "C11", "title": "Base32hex round-trip and order preservation", "statement": "Decoding the base32hex encoding of any byte string returns it, and for hashes of equal length the encoding preserves lexicographic order (so that NSEC3 owner order equals hash order).", "quantifier": "every byte string", "why_tests_cant": "All lengths modulo 5 and all byte values.", "anchors": ["src/contrib/base32hex.c:knot_base32hex_encode", "src/contrib/base32hex.c:knot_base32hex_decode"]}
{"id": "C12", "title": "The key-value trie behaves as an ordered map", "statement": "After any sequence of insertions and deletions, lookup returns the last value stored under the key, less-or-equal search returns the greatest key not above the argument, iteration visits keys in byte order exactly once, and the weight equals the number of keys.", "quantifier": "every operation sequence over arbitrary byte-string keys", "why_tests_cant": "The structure's invariants are over unbounded operation histories and key shapes.", "anchors": ["src/contrib/qp-trie/trie.c:trie_get_ins", "src/contrib/qp-trie/trie.c:trie_del", "src/contrib/qp-trie/trie.c:trie_get_leq"]}
{"id": "C13", "title": "Journal keeps a contiguous, replayable history", "statement": "After any sequence of journal inserts, flushes and crashes between transactions, walking the journal from the special (zone-in-journal or merged) changeset or from the first serial yields a gap-free chain of changesets ending in the last inserted serial, and no changeset that was neither flushed to the zone file nor merged is ever discarded.", "quantifier": "every history of inserts, zone inserts, flush notifications, limits and crash points", "why_tests_cant": "Crash points and eviction interleavings are unbounded.", "anchors": ["src/knot/journal/journal_write.c:journal_insert", "src/knot/journal/journal_write.c:journal_fix_occupation", "src/knot/journal/journal_read.c:journal_walk"]}
{"id": "C14", "title": "Changeset accumulation equals sequential application", "statement": "Adding additions and removals to a changeset with cancel-out and then applying it to a zone gives the same zone as applying the operations one by one; merging two consecutive changesets is equivalent to applying them in turn.", "quantifier": "every zone and every sequence of record additions and removals", "why_tests_cant": "Order-dependence of cancel-out over arbitrary histories.", "anchors": ["src/knot/updates/changesets.c:changeset_add_addition", "src/knot/updates/changesets.c:changeset_add_removal", "src/knot/updates/apply.c:apply_add_rr"]}
{"id": "C15", "title": "Zone difference is exact", "statement": "Applying the computed difference of two zone versions to the first yields exactly the second.", "quantifier": "every pair of zones", "why_tests_cant": "All combinations of node/rrset/TTL changes.", "anchors": ["src/knot/zone/zone-diff.c:zone_contents_diff"]}
{"id": "C16", "title": "Dynamic update semantics", "statement": "Prerequisites are evaluated exactly as RFC 2136 section 3.2 demands against the zone before any update; the update section then has the RFC 2136 section 3.4.2 effect: the apex never loses its SOA or its last NS record, CNAME never coexists with other data, SOA is replaced only by a newer one.", "quantifier": "every zone, every update message", "why_tests_cant": "Interaction of record order, classes and types.", "anchors": ["src/knot/updates/ddns.c:ddns_process_prereqs", "src/knot/updates/ddns.c:ddns_process_update"]}
{"id": "C17", "title": "Answering respects zone cuts, wildcards and terminates", "statement": "For every zone and question the answer algorithm terminates; it never returns authoritative data at or below a delegation (except DS at the cut); a wildcard is used only if the queried name does not exist and the closest encloser has a wildcard child; NXDOMAIN is returned only if neither the name nor a matching wildcard nor DNAME nor delegation exists; a CNAME chain is followed at most a fixed number of times.", "quantifier": "every zone tree, every query name and type", "why_tests_cant": "All zone shapes with loops through wildcards, CNAMEs and DNAMEs.", "anchors": ["src/knot/nameserver/internet.c:solve_answer", "src/knot/nameserver/internet.c:name_not_found", "src/knot/zone/contents.c:zone_contents_find_dname"]}
{"id": "C18", "title": "NSEC type bitmaps are exact", "statement": "Writing a set of types into the RFC 4034 window-block bitmap and testing membership returns exactly the types added; block encoding is minimal and ordered.", "quantifier": "every set of 16-bit types in any insertion order", "why_tests_cant": "2^65536 sets.", "anchors": ["src/libdnssec/nsec/bitmap.c:dnssec_nsec_bitmap_add", "src/libdnssec/nsec/bitmap.c:dnssec_nsec_bitmap_write", "src/libdnssec/nsec/bitmap.c:dnssec_nsec_bitmap_contains"]}
{"id": "C19", "title": "NSEC chain is a single closed cycle over authoritative names", "statement": "Building the NSEC chain over a zone links every authoritative or delegation node, and no other, into one cycle in canonical order, each NSEC listing exactly the types of its node; building it again changes nothing. Fixing the chain after any update yields the same chain as building it. Validation of a zone accepts exactly the valid chains, and incremental validation of an update agrees with it.", "quantifier": "every zone tree, every update and every history of updates", "why_tests_cant": "All subsets of skipped nodes at the beginning and end of the order.", "anchors": ["src/knot/dnssec/nsec-chain.c:knot_nsec_chain_iterate_create", "src/knot/dnssec/nsec-chain.c:knot_nsec_chain_iterate_fix", "src/knot/dnssec/nsec-chain.c:knot_nsec_check_chain", "src/knot/dnssec/nsec-chain.c:knot_nsec_check_chain_fix", "src/knot/zone/adjust.c:adjust_cb_flags"]}
{"id": "C20", "title": "Access control decision", "statement": "A request is allowed iff the first ACL rule that matches address, key/certificate, protocol and action (and for updates the update owner/type restrictions) is not a deny rule; with no matching rule it is denied.", "quantifier": "every ACL list, address, key, action and update content", "why_tests_cant": "Rule interactions over arbitrary lists.", "anchors": ["src/knot/updates/acl.c:acl_allowed"]}
{"id": "C21", "title": "Scheduler fires events in time order and never cancelled ones", "statement": "Events are delivered in order of their deadline, never before it, a cancelled event is never delivered, and no scheduled event is lost.", "quantifier": "every sequence of schedule/cancel/tick operations and clock values", "why_tests_cant": "Heap reorganisations over unbounded histories.", "anchors": ["src/knot/common/evsched.c:evsched_schedule", "src/knot/common/evsched.c:evsched_cancel", "src/contrib/ucw/heap.c:heap_insert"]}
{"id": "C22", "title": "Zone event planner runs one event per zone and loses none", "statement": "At most one event of a zone runs at a time; an event enqueued or scheduled is eventually dispatched at its time unless replanned or the zone is frozen; while frozen no non-allowed event runs and a later thaw restores planning.", "quantifier": "every interleaving of scheduling, freezing and worker completions", "why_tests_cant": "Interleavings.", "anchors": ["src/knot/events/events.c:zone_events_schedule_at", "src/knot/events/events.c:event_wrap", "src/knot/events/events.c:reschedule"]}
{"id": "C23", "title": "Worker queue is FIFO", "statement": "Tasks are dequeued in the order they were enqueued, each exactly once.", "quantifier": "every sequence of enqueue/dequeue", "why_tests_cant": "Unbounded histories.", "anchors": ["src/knot/worker/queue.c:worker_queue_dequeue"]}
{"id": "C24", "title": "TSIG check accepts only fresh, correctly keyed messages", "statement": "TSIG verification succeeds only if key name and algorithm match, the MAC equals the one computed over the prescribed message bytes, and the signing time lies within the fudge window of the current time.", "quantifier": "every message, key, clock value", "why_tests_cant": "Boundary of 48-bit time and fudge.", "anchors": ["src/libknot/tsig-op.c:check_digest", "src/libknot/tsig-op.c:knot_tsig_server_check"]}
{"id": "C25", "title": "EDNS options are preserved and found", "statement": "After adding options to an OPT record, looking up an option code returns the first option of that code with exactly the stored data; malformed option lists are rejected; client-subnet parsing inverts writing.", "quantifier": "every sequence of options and every rdata", "why_tests_cant": "All lengths and truncations.", "anchors": ["src/libknot/rrtype/opt.c:knot_edns_add_option", "src/libknot/rrtype/opt.c:knot_edns_get_option", "src/libknot/rrtype/opt.c:knot_edns_client_subnet_parse"]}
{"id": "C26", "title": "Wire buffer contexts never access memory outside the buffer", "statement": "Every read/write/skip through a wire context either stays inside the buffer or sets a sticky error and leaves buffer and position unchanged; reads return what writes stored.", "quantifier": "every operation sequence and offset", "why_tests_cant": "Unbounded sequences and sizes.", "anchors": ["src/contrib/wire_ctx.h:wire_ctx_write", "src/contrib/wire_ctx.h:wire_ctx_read"]}
{"id": "C27", "title": "Control protocol messages round-trip", "statement": "Any sequence of control units and data items sent through the control buffer is received as the same sequence.", "quantifier": "every unit type and every data item content up to the size limit, every buffer fill level", "why_tests_cant": "All buffer boundaries.", "anchors": ["src/libknot/control/control.c:knot_ctl_send", "src/libknot/control/control.c:knot_ctl_receive"]}
{"id": "C28", "title": "TCP stream segmentation does not change the messages", "statement": "However a TCP byte stream carrying length-prefixed DNS messages is cut into segments, the server extracts exactly the original sequence of messages.", "quantifier": "every message sequence and every segmentation", "why_tests_cant": "Exponentially many segmentations.", "anchors": ["src/libknot/xdp/tcp_iobuf.c:knot_tcp_inbufs_upd"]}
{"id": "C29", "title": "Zone lookup picks the deepest enclosing zone", "statement": "Finding a zone for a name by suffix returns the configured zone with the longest name that is an ancestor-or-self of the queried name, or none if there is none.", "quantifier": "every history of adding and removing zones and every valid name, labels being free of zero octets (the lookup format does not separate labels otherwise)", "why_tests_cant": "All nesting structures.", "anchors": ["src/knot/zone/zonedb.c:knot_zonedb_find_suffix"]}
{"id": "C30", "title": "Address prefix and range matching", "statement": "sockaddr_net_match() holds iff both addresses have the same family and equal first n bits; sockaddr_range_match() iff the address lies between the bounds.", "quantifier": "all addresses, prefix lengths", "why_tests_cant": "2^128 addresses, all bit offsets.", "anchors": ["src/contrib/sockaddr.c:sockaddr_net_match", "src/contrib/sockaddr.c:sockaddr_range_match"]}
{"id": "C31", "title": "Rate limiting counters bound the admitted rate", "statement": "With decay and increments of the rate-limiting table, the load charged to a key is never lower than the decayed sum of its own admitted queries while it stays in the table, and the limit comparison never overflows.", "quantifier": "every query history", "why_tests_cant": "Unbounded histories of probabilistic counters.", "anchors": ["src/knot/modules/rrl/kru.inc.c"]}
{"id": "C32", "title": "DNS cookies are accepted only within their validity window", "statement": "A server cookie is accepted iff version, reserved bytes and hash match for one of the secrets and its timestamp lies in the allowed window under serial arithmetic.", "quantifier": "all cookies, times and secrets", "why_tests_cant": "Wrap-around of 32-bit timestamps.", "anchors": ["src/libknot/cookies.c:knot_edns_cookie_server_check"]}
{"id": "C33", "title": "Catalog zone updates are consistent", "statement": "For any batch of member additions, removals and group changes, after the pending update is finalized and committed the catalog database holds exactly the members (with owner, catalog zone and group) that the operations leave when taken one after another, except that configured zones are never members and newly added members must come from configured catalog zones. Purging a catalog zone removes exactly its members.", "quantifier": "every sequence of catalog operations", "why_tests_cant": "The result depends on the whole history of the batch and on the database before it.", "anchors": ["src/knot/catalog/catalog_update.c:catalog_update_add, catalog_update_finalize, catalog_update_commit, catalog_update_del_all", "src/knot/catalog/catalog_db.c:catalog_add, catalog_del, catalog_contains_exact, catalog_has_member"]}
{"id": "C34", "title": "Zone timers survive a restart", "statement": "Timers written to the timer database and read back are identical, unknown items are ignored.", "quantifier": "all timer values", "why_tests_cant": "All 64-bit values and item orders.", "anchors": ["src/knot/zone/timers.c:zone_timers_write", "src/knot/zone/timers.c:deserialize_timers"]}
{"id": "C35", "title": "Key states follow a safe rollover timeline", "statement": "The state of a DNSSEC key computed from its timers only moves forward with time along the documented order and a signing key set is never empty during an automatic rollover.", "quantifier": "all timer settings and clock values", "why_tests_cant": "All orders of timestamps.", "anchors": ["src/knot/dnssec/kasp/keystate.c:get_key_state"]}
{"id": "C36", "title": "Journal serialization round-trips across chunk boundaries", "statement": "Serialising a changeset into chunks and deserialising returns the same changeset for every chunk size threshold.", "quantifier": "every changeset and every chunk boundary", "why_tests_cant": "All boundaries.", "anchors": ["src/knot/journal/serialization.c:serialize_prepare", "src/knot/journal/serialization.c:serialize_chunk"]}
{"id": "C37", "title": "Heap and binary search primitives", "statement": "The binary heap always returns a minimal element and keeps every element's stored position correct; the binary search macro returns the first index not less than the key.", "quantifier": "every operation sequence, every sorted array", "why_tests_cant": "Unbounded sizes.", "anchors": ["src/contrib/ucw/heap.c", "src/contrib/ucw/binsearch.h"]}
{"id": "C38", "title": "Resource records are parsed from the wire exactly", "statement": "Parsing never reads outside the message; it accepts exactly the encodings of a record of the type's layout and delivers the decompressed record (with names lower-cased for the types of RFC 4034 if the canonical form is asked for). Missing RDATA octets are rejected; surplus octets behind the RDATA are at most as many as decompression added, so none without compression.", "quantifier": "every record of every type, every packet", "why_tests_cant": "All descriptors and name placements.", "anchors": ["src/libknot/packet/rrset-wire.c:knot_rrset_rr_from_wire", "src/libknot/packet/rrset-wire.c:rdata_traverse_parse"]}
{"id": "C39", "title": "Parsed messages obey structural constraints", "statement": "A message accepted by knot_pkt_parse() has exactly the number of records announced in the header, at most one OPT and one TSIG, both only in the additional section and with well-formed RDATA, with TSIG last, and no trailing bytes. Every message so formed is accepted, its records are delivered section by section, and a TSIG is cut off cleanly; in particular every message written with knot_pkt_put() is accepted and yields the records put. No received bytes cause an access outside the buffer.", "quantifier": "every packet", "why_tests_cant": "All header counts versus content.", "anchors": ["src/libknot/packet/pkt.c:knot_pkt_parse"]}
{"id": "C40", "title": "Fetching a name's successor for minimally covering NSEC", "statement": "The online-signing successor of a name is strictly greater than it in canonical order and no existing name lies in between unless it is a subdomain as intended.", "quantifier": "every name and zone apex", "why_tests_cant": "All label lengths near limits.", "anchors": ["src/knot/modules/onlinesign/nsec_next.c"]}
{"id": "C41", "title": "Database records are unambiguous", "statement": "The octets built from typed fields for a database key or value are exactly the concatenation of the fields' encodings, reading them with the matching format returns the fields, two different records of one format never have the same octets, and the records found by a prefix of fields are exactly those whose leading fields are the given ones.", "quantifier": "every format of numbers, names, texts and octets and all field values", "why_tests_cant": "Ambiguity would need two particular values to collide.", "anchors": ["src/knot/journal/knot_lmdb.c:knot_lmdb_make_key", "src/knot/journal/knot_lmdb.c:knot_lmdb_unmake_key"]}
{"id": "C42", "title": "Stored parameters of DNSSEC keys", "statement": "Key parameters (roles, algorithm, tag, public key and all timers) written to the key database are read back identical, and the parameters of the keys of one zone are found without those of any other zone.", "quantifier": "all timer values, flags, public keys, zones", "why_tests_cant": "All combinations of 64-bit timers and key lengths.", "anchors": ["src/knot/dnssec/kasp/kasp_db.c:params_serialize", "src/knot/dnssec/kasp/kasp_db.c:params_deserialize"]}
{"id": "C43", "title": "Worker pool under every schedule", "statement": "Tasks given to a worker pool are each run once and in order, at most one per thread; waiting for the pool returns only when nothing is queued and nothing is running; nothing starts while the pool is suspended or after it was stopped; a queued task is never forgotten, a waiting caller is not left asleep when the pool is quiet, and after a stop every thread ends.", "quantifier": "any number of threads and callers and every interleaving of their critical sections, including spurious wake-ups and every choice of which sleeper a signal wakes", "why_tests_cant": "Lost wake-ups need particular interleavings; tests see only the schedules that happen.", "anchors": ["src/knot/worker/pool.c:worker_main", "src/knot/worker/pool.c:worker_pool_assign", "src/knot/worker/pool.c:worker_pool_wait", "src/knot/worker/pool.c:worker_pool_clear", "src/knot/worker/queue.c:worker_queue_dequeue"]}
{"id": "C44", "title": "Transactions on the trie: isolation of readers", "statement": "While a zone tree is being changed within a copy-on-write transaction, whoever reads the old tree sees exactly the old entries and whoever reads the new one exactly the changed ones; the changes write or free nothing the old tree consists of; commit leaves the new tree and rollback the old one, ready for the next transaction; and over any number of transactions no memory leaks, is freed twice or is used after it was freed.", "quantifier": "all histories of transactions, insertions, replacements and deletions with any keys and values", "why_tests_cant": "Sharing depends on the shapes of both tries and on everything done since the transaction began; a marked node missed in one shape shows only as corruption seen by a concurrent reader.", "anchors": ["src/contrib/qp-trie/trie.c:trie_cow", "src/contrib/qp-trie/trie.c:cow_pushdown", "src/contrib/qp-trie/trie.c:trie_get_cow", "src/contrib/qp-trie/trie.c:trie_del_cow", "src/contrib/qp-trie/trie.c:cow_cleanup", "src/contrib/qp-trie/trie.c:trie_cow_commit", "src/contrib/qp-trie/trie.c:trie_cow_rollback"]}
{"id": "C45", "title": "Authenticated denial of existence with NSEC", "statement": "In a zone signed with NSEC, what a response says is proved by the signed records in it: in every validly signed zone that also has those records, the response is the correct one: a name said not to exist does not exist and no wildcard answers for it, a type said to be missing is missing, an answer made from a wildcard is for a name that does not exist, and a delegation has DS records iff the response has them. Proofs are put together for every query without an error.", "quantifier": "all signed zones, all query names and types, and all other signed zones consistent with the records sent", "why_tests_cant": "A proof is sound only with respect to all the zones it must exclude; a test checks that expected records are sent, for a few zones, not that no other zone has them.", "anchors": ["src/knot/nameserver/nsec_proofs.c:nsec_prove_nxdomain", "src/knot/nameserver/nsec_proofs.c:nsec_prove_nodata", "src/knot/nameserver/nsec_proofs.c:nsec_prove_wildcards", "src/knot/nameserver/nsec_proofs.c:nsec_prove_dp_security", "src/knot/nameserver/internet.c:solve_authority_dnssec", "src/knot/zone/contents.c:zone_contents_find_dname"]}
{"id": "C46", "title": "Zone transfers from server to client", "statement": "An AXFR that the server completes is the SOA, every other RRset of the zone once and the SOA, however it is cut into messages; an IXFR it completes has the differences that lead exactly to the serial of the zone. A client that receives such a transfer ends with the zone of the server (after IXFR: with the differences applied to its own), whether IXFR is answered by differences, by the whole zone or by a lone SOA, and with AXFR as second attempt. Whatever else comes, the zone of the client is replaced only by what a complete answer brings: an answer that stops early, has an error code, does not fit or cannot be applied changes nothing, and nothing undefined happens.", "quantifier": "all zones, journals and ways to fill messages, and on the client all sequences of messages and failures", "why_tests_cant": "Results depend on where message boundaries fall and on what a remote server may send; tests know a few servers and splits.", "anchors": ["src/knot/nameserver/axfr.c:axfr_process_query", "src/knot/nameserver/ixfr.c:ixfr_process_query", "src/knot/nameserver/xfr.c:xfr_process_list", "src/knot/events/handlers/refresh.c:transfer_consume", "src/knot/events/handlers/refresh.c:axfr_consume", "src/knot/events/handlers/refresh.c:ixfr_consume", "src/knot/events/handlers/refresh.c:ixfr_finalize", "src/knot/events/handlers/refresh.c:try_refresh", "src/knot/query/requestor.c:knot_requestor_exec"]}
{"id": "C47", "title": "Fields of the RDATA of received records", "statement": "Whatever message is received, code that takes a field of the RDATA of one of its records (serial and timers of a SOA, type and validity of an RRSIG, next name of an NSEC, parameters of an NSEC3, name of an MX, digest of a ZONEMD or DS) gets the value the RFC of the type puts there, without reading outside the RDATA. So the serial an IXFR query or a NOTIFY carries, the decision whether a SOA in an update is skipped, whether a type is signed, whether an NSEC3 belongs to a chain, whether a DS matches a key and whether ZONEMD confirms the zone depend on these values only.", "quantifier": "all accepted messages, sections, record types with accessors and RDATA", "why_tests_cant": "The accessors do not check lengths; whether they are safe depends on every RDATA the parser lets through, and on the class of the record.", "anchors": ["src/libknot/rrtype/soa.h:knot_soa_serial", "src/libknot/rrtype/rrsig.h:knot_rrsig_signature_len", "src/libknot/rrtype/nsec3.h:knot_nsec3_bitmap", "src/libknot/rrtype/zonemd.h:knot_zonemd_digest_size", "src/libknot/rrtype/rdname.h:knot_rdata_name", "src/knot/nameserver/ixfr.c:ixfr_query_check", "src/knot/events/handlers/refresh.c:soa_query_consume", "src/knot/nameserver/notify.c:notify_process_query", "src/knot/updates/ddns.c:skip_soa", "src/knot/zone/digest.c:zone_contents_digest_verify", "src/knot/zone/adjust.c:nsec3_params_match", "src/knot/dnssec/ds_query.c:match_key_ds"]}
{"id": "C48", "title": "Signing a zone and validating signatures", "statement": "When the server has signed a zone, every RRset that is to be signed has, by every key that is to sign it, a signature that verifies, has begun and lasts longer than the refresh time; delegations, glue and absent types have none; nothing but signatures has changed, and this does not depend on how the nodes are divided among threads. Good signatures are kept: signing a signed zone changes nothing. The next signing is scheduled before any signature has less than the refresh time left. Signing a single apex RRset replaces all its signatures. Validation of a received zone succeeds exactly if every RRset has a good signature and no signature is bad, and gives a time until which this stays so; it never aborts. What the server signs validates.", "quantifier": "all zones, keys, sets of existing signatures, times, policies and numbers of threads", "why_tests_cant": "Signatures in a zone may be of any age, by any keys, duplicated, for absent types or with colliding key tags, and times wrap at 32 bits; a wrong signature is found only by a validating resolver, later.", "anchors": ["src/knot/dnssec/zone-sign.c:knot_zone_sign", "src/knot/dnssec/zone-sign.c:add_missing_rrsigs", "src/knot/dnssec/zone-sign.c:valid_signature_exists", "src/knot/dnssec/zone-sign.c:knot_validate_rrsigs", "src/knot/dnssec/zone-sign.c:remove_standalone_rrsigs", "src/knot/dnssec/zone-sign.c:knot_zone_sign_use_key", "src/knot/dnssec/zone-sign.c:knot_zone_sign_apex_rr", "src/knot/dnssec/rrset-sign.c:knot_sign_rrset", "src/knot/dnssec/rrset-sign.c:knot_check_signature", "src/knot/dnssec/zone-events.c:schedule_next", "src/contrib/time.h:knot_time_from_u32"]}
{"id": "C49", "title": "NSEC3 proofs", "statement": "When a zone with NSEC3 is signed, the chain that is created has exactly one record for every authoritative name and delegation (with opt-out: but for names with nothing but delegations without DS), with the types there and the next hash. A query with DO gets, without any error, the NSEC3 and DS records that prove the response: in every signed zone that has these signed records the response is the correct one too. Only under opt-out there may be, at a name that a record of the response with this flag covers, delegations without DS that the response does not tell about; but a referral always tells whether there is DS.", "quantifier": "all zones, all other zones that agree on the records sent, all names and types asked for", "why_tests_cant": "A wrong or missing proof shows up only in a validating resolver and for special positions of names: closest provable encloser above the closest encloser, empty non-terminals, wildcards, opt-out; what a proof excludes ranges over all zones.", "anchors": ["src/knot/nameserver/nsec_proofs.c:put_nsec3_nxdomain", "src/knot/nameserver/nsec_proofs.c:put_nsec3_nodata", "src/knot/nameserver/nsec_proofs.c:put_closest_encloser_proof", "src/knot/nameserver/nsec_proofs.c:nsec_prove_wildcards", "src/knot/nameserver/nsec_proofs.c:nsec_prove_dp_security", "src/knot/zone/contents.c:zone_contents_find_nsec3", "src/knot/dnssec/nsec3-chain.c:knot_nsec3_create_chain", "src/knot/dnssec/nsec3-chain.c:create_nsec3_nodes"]}
{"id": "C50", "title": "What comes back for a query", "statement": "Whatever handlers and modules do, a response has the identifier, question, operation and RD of the query, QR set and RA, AD, CD, Z clear; a response is never answered. It is not larger than the client and the protocol allow. It has OPT if and only if the query has, and the client reads the code that the server decided on, with the upper bits in OPT. Malformed queries, other EDNS versions, queries without a question, other classes and operations get FORMERR, BADVERS, FORMERR or NOTIMP, REFUSED and NOTIMP. Over QUIC and TLS responses are padded to full blocks. The query is answered from the zone with the longest name that encloses it, DS from the one above, and a catalog is shown to those only who may transfer it.", "quantifier": "all queries, configurations, clients, protocols, and all behaviours of handlers and of module hooks", "why_tests_cant": "The response is assembled under limits of space by handlers and modules in any combination; failures after the OPT record or the signature restart it. Tests see typical sizes and a few modules.", "anchors": ["src/knot/nameserver/process_query.c:process_query_out", "src/knot/nameserver/process_query.c:process_query_err", "src/knot/nameserver/process_query.c:prepare_answer", "src/knot/nameserver/process_query.c:answer_edns_init", "src/knot/nameserver/process_query.c:answer_edns_put", "src/knot/nameserver/process_query.c:answer_zone_find", "src/knot/nameserver/process_query.c:set_rcode_to_packet", "src/knot/nameserver/process_query.c:process_query_sign_response", "src/libknot/packet/pkt.c:knot_pkt_init_response", "src/libknot/rrtype/opt.c:knot_edns_alignment_size"]}
{"id": "C51", "title": "Dynamic configuration takes effect exactly as committed", "statement": "A transaction given through the control interface leaves the configuration that its commands say, each command done as a whole or not at all. After a commit the server has the configured zones and no others, each working with its configured settings; zones that the transaction does not concern keep their objects. No zone object in use is freed and none is lost. Every zone added or changed is checked before the commit, a configuration that passes the checks is accepted, and the comparison shows every difference. The server does not stop on an assertion.", "quantifier": "all servers, all histories of commands of a transaction including refused ones, all schemas of items, all semantic checks", "why_tests_cant": "What is reloaded, checked and freed is decided from flags and per-zone marks accumulated along the whole history; tests try a few short transactions, and the failures need particular sequences (remove and add again, a command undone halfway, an item of all zones after a removal).", "anchors": ["src/knot/conf/confio.c:conf_io_set", "src/knot/conf/confio.c:conf_io_unset", "src/knot/conf/confio.c:upd_changes", "src/knot/conf/confio.c:conf_io_check", "src/knot/conf/confio.c:conf_io_diff", "src/knot/conf/confio.c:conf_io_commit", "src/knot/ctl/commands.c:ctl_conf_modify", "src/knot/ctl/commands.c:ctl_conf_txn", "src/knot/server/server.c:server_reload", "src/knot/zone/zonedb-load.c:zonedb_reload", "src/knot/zone/zonedb-load.c:mark_changed_zones"]}
{"id": "C52", "title": "The configuration database holds what was configured", "statement": "After any history of commands that set and unset sections, identifiers and items, every read of the configuration database gives what the accepted commands say: values in the order they were added and without duplicates, one value where only one is allowed, every identifier once. A command touches only what it names, is refused exactly if it cannot be done or its values do not fit, and a refused one changes nothing. What was removed leaves nothing behind, and the codes by which the database names sections and items never run out or collide.", "quantifier": "all schemas with different names and at most 199 sections and items of a section, all histories of commands, all octet strings as identifiers and values", "why_tests_cant": "Keys are built from codes that are assigned and released along the history, next to identifiers of any octets, and values are kept in arrays of octets searched by content; a collision or a leftover needs a particular history and shows only in a later one.", "anchors": ["src/knot/conf/confdb.c:conf_db_set", "src/knot/conf/confdb.c:conf_db_unset", "src/knot/conf/confdb.c:conf_db_get", "src/knot/conf/confdb.c:conf_db_iter_begin", "src/knot/conf/confdb.c:db_code", "src/knot/conf/confdb.c:find_data", "src/knot/conf/confio.c:conf_io_set", "src/knot/conf/confio.c:conf_io_unset", "src/knot/conf/conf.c:conf_val_next"]}
{"id": "C53", "title": "The zone served before a restart is served after it", "statement": "Whatever happened to a zone before (updates, transfers, reloads, edits of its file, writing of the file, crashes), the start of the server after a crash or a restart serves the contents served last, or newer ones given by the file: with the journal configured to hold the zone always, with the journal holding changes if the file was edited with a new serial. A reload never brings the serial of a zone back, and a failed one changes nothing. The server takes the contents of the zone file according to the settings: with a newer serial, or with any serial, given the next one, and a file that brings nothing new changes nothing.", "quantifier": "all lives of a zone of any length (edits, loads, changes, transfers, writes, stops), all contents, all serials including wrap-around, every combination of the settings journal-content and zonefile-load named in the theorems", "why_tests_cant": "The contents after a start depend on three stores (file, journal, memory) that went apart along an arbitrary history; a lost update needs one of them to be ahead of the others in a particular way when the server stops.", "anchors": ["src/knot/events/handlers/load.c:event_load", "src/knot/zone/zone-load.c:zone_load_journal", "src/knot/zone/zone-load.c:zone_load_from_journal", "src/knot/updates/zone-update.c:zone_update_from_differences", "src/knot/updates/zone-update.c:zone_update_commit", "src/knot/zone/zone-diff.c:zone_contents_diff", "src/knot/journal/journal_write.c:journal_insert", "src/knot/updates/changesets.c:changeset_differs_just_serial"]}
{"id": "C54", "title": "Adjusted zone contents are those of a zone loaded afresh", "statement": "After every load and every incremental update, what the server precomputes about the zone is what the records say: which names are delegations, below one, or have authoritative data at or below them; the nearest authoritative name before each name; the additional nodes of every NS, MX, SRV, SVCB and HTTPS RRset; the size of the zone and its greatest TTL. No RRset points to a node that is not in the zone, and both copies of a node agree.", "quantifier": "all zones of any size and depth, all sequences of loads and updates of any length, any set of changed nodes that covers the differences, any flags left from before", "why_tests_cant": "Each item is kept up incrementally from the changed nodes alone; a missed dependency shows only for a particular shape of zone (delegations, wildcards, empty non-terminals) after a particular sequence of updates.", "anchors": ["src/knot/zone/adjust.c:adjust_cb_flags", "src/knot/zone/adjust.c:adjust_single", "src/knot/zone/adjust.c:discover_additionals", "src/knot/zone/adjust.c:zone_adjust_full", "src/knot/zone/adjust.c:zone_adjust_incremental_update", "src/knot/zone/adds_tree.c:additionals_tree_update_from_binodes", "src/knot/zone/adds_tree.c:additionals_reverse_apply_multi", "src/knot/zone/measure.c:knot_measure_finish_update", "src/knot/zone/contents.c:zone_contents_find_node_or_wildcard", "src/knot/updates/apply.c:apply_cleanup"]}
{"id": "C55", "title": "TCP connections are handled each for itself and within limits", "statement": "In every round of events a TCP thread changes each client's connection only by that client's own event: closed after an error or a failed query, its idle timeout moved after a served query, otherwise untouched; new clients are accepted as long as the limit allows. The periodic sweep closes exactly the clients idle for too long. Every closed descriptor is closed once, its TLS session released before; the listening sockets are never closed and keep their places; an event always reaches the connection it belongs to; the number of connections stays within the limit and no assertion fails.", "quantifier": "all sequences of rounds of events with any outcomes and in any order, sweeps at any times, changes of the settings, any number of clients and listening sockets", "why_tests_cant": "Removal moves the last connection into the freed place and must tell the kernel; whether an event later reaches the wrong connection depends on which connections are closed together and in which order.", "anchors": ["src/knot/common/fdset.c: fdset_add, fdset_remove, fdset_poll, fdset_it_commit, fdset_sweep, fdset_set_watchdog", "src/knot/common/fdset.h: fdset_it_next, fdset_it_remove", "src/knot/server/tcp-handler.c: tcp_wait_for_events, tcp_event_accept, tcp_event_serve, tcp_sweep, tcp_set_ifaces, update_tcp_conf"]}
{"id": "C56", "title": "Synthetic records of addresses match in both directions", "statement": "With a reverse and a forward synthesis template for the same networks and prefix, the reverse name of every covered address has a PTR record in the origin, and the name it points to has exactly that address. Queries for other types have no data, addresses outside of the networks are left to the zone, names between a network and its addresses exist without data. For every query name whatsoever a synthesized address lies in a configured network, a synthesized PTR name is a valid name in the origin, and no buffer or assertion fails.", "quantifier": "all IPv4 and IPv6 addresses, all query names (any labels) and types, all templates with any number of networks and ranges, with short and full writing of IPv6 addresses", "why_tests_cant": "There are 2^128 addresses and the short writing drops zeros in ways that depend on the whole address; names come from clients and may hold any octets.", "anchors": ["src/knot/modules/synthrecord/synthrecord.c: reverse_addr_parse, forward_addr_parse, block_write, synth_ptrname, reverse_rr, forward_rr, template_match, solve_synth_record", "src/contrib/sockaddr.c: sockaddr_set, sockaddr_net_match, sockaddr_range_match"]}
{"id": "C57", "title": "Only trusted proxies can speak for other addresses", "statement": "A message is processed as coming from another address than its sender's only if it came over UDP from an address on the proxy allow list, begins with a PROXY version 2 header, and a complete DNS message follows; the address used is the one in the header. Such messages are processed, headers written by this software are read back for all addresses, plain DNS messages are never taken for proxied ones, and everything else is ignored or refused with the sender's own address. The header is never read beyond the datagram.", "quantifier": "all datagrams, all contents of the receive buffer behind them, all sender addresses, allow lists, addresses in headers and inner messages", "why_tests_cant": "Access rules rest on the address; the header is found by failing to parse the datagram as DNS, so the claim concerns every octet string both as a DNS message and as a header.", "anchors": ["src/knot/server/handler.c: handle_query", "src/knot/server/proxyv2.c: proxyv2_header_strip", "src/contrib/proxyv2/proxyv2.c: proxyv2_header_offset, proxyv2_addr_store, proxyv2_write_header", "src/knot/nameserver/process_query.c: process_query_in, process_query_out"]}
{"id": "C58", "title": "Pooled outgoing connections are never lost, shared or mixed up", "statement": "A connection put into the pool is in it once, until it is handed out once, closed once or returned once to who put another one; a request gets only a connection to the very remote address and port it asks for, made from the local address it asks for, and gets one if there is one in the pool. The pool never exceeds its capacity; from a full pool the oldest connection is returned. The cleaning thread closes exactly the connections that have been in the pool for the timeout, and wakes when the next one will have been.", "quantifier": "all capacities, timeouts, histories of operations by any threads, addresses, times and connections", "why_tests_cant": "The content of the pool depends on the whole history of operations of many threads and on the clock; a lost or shared connection shows only for particular orders.", "anchors": ["src/contrib/conn_pool.c: conn_pool_init, conn_pool_put, conn_pool_get, conn_pool_timeout, conn_pool_deinit, get_old, closing_thread", "src/contrib/conn_pool.h: conn_pool_t", "src/contrib/sockaddr.c: sockaddr_cmp"]}
{"id": "C59", "title": "A generated reverse zone is the reverse of its forward zone", "statement": "When reverse records are generated, the reverse zone gets exactly one PTR record, at the reverse name of the address and with the owner as its target and the same TTL, for each A (or, in ip6.arpa, AAAA) record of the forward zone whose address belongs to the reverse zone; what the zone had before stays. The generation succeeds for every forward zone in which the records with the same address have the same TTL.", "quantifier": "all contents of forward and reverse zones, all reverse zone names, all addresses", "why_tests_cant": "Addresses, owners, zone names and combinations of TTLs are unbounded; that no record is missing or added concerns all of them together.", "anchors": ["src/knot/zone/reverse.c: zone_reverse, reverse_from_node, reverse_owner4, reverse_owner6", "src/knot/events/handlers/load.c: event_load", "src/knot/zone/contents.c: zone_contents_add_rr", "src/knot/zone/node.c: node_add_rrset"]}
{"id": "C60", "title": "Catalog zones are interpreted as they are written", "statement": "A zone is accepted as a catalog zone exactly if it has the version 2 record and no member record set with more than one member. From an accepted zone, or a changeset of it, exactly the members and groups that its records say are added, set or removed, a member before its group; a zone that is rejected leaves the members as they are.", "quantifier": "all zones and changesets, all catalog zone names, all pending updates and catalog databases", "why_tests_cant": "Members, their labels, properties and texts are unbounded, and that nothing else is added or removed concerns all nodes of the zone together.", "anchors": ["src/knot/catalog/interpret.c: catalog_zone_verify, catalog_update_from_zone", "src/knot/updates/zone-update.c: update_catalog", "src/knot/catalog/catalog_update.c: catalog_update_add, catalog_update_del_all"]}
{"id": "C61", "title": "The module noudp truncates exactly the answers it is configured to", "statement": "With udp-allow-rate N, exactly every N-th query over UDP of each server thread is answered and the others get a truncated answer; with udp-truncate-rate N, exactly every N-th is truncated; with neither, or a rate of 0, all are. Queries over other transports are never truncated by the module, and both rates together are refused.", "quantifier": "all rates, all sequences of queries on all numbers of threads in any order", "why_tests_cant": "The counters depend on the whole history of queries and on how the threads interleave; rates go up to 2^32 - 1.", "anchors": ["src/knot/modules/noudp/noudp.c: noudp_begin, noudp_load, noudp_conf_check"]}
{"id": "C62", "title": "The module queryacl lets exactly the configured clients in", "statement": "With the module, a normal query is processed exactly if the client's address is in one of the configured addresses, networks or ranges and the address it came to is in one of the configured interfaces, where an empty list allows all; otherwise it is answered with NOTAUTH. Other messages (transfers, updates, notifications) are not affected.", "quantifier": "all lists of addresses, networks and ranges, all IPv4 and IPv6 addresses, both byte orders of hosts", "why_tests_cant": "Addresses, prefix lengths and bounds of ranges cannot be enumerated, and the answer to a single wrong one is an open door.", "anchors": ["src/knot/modules/queryacl/queryacl.c: queryacl_process", "src/knot/nameserver/query_module.c: knotd_conf_addr_range_match", "src/contrib/sockaddr.c: sockaddr_net_match, sockaddr_range_match"]}
