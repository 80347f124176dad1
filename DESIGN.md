# Formal model of Knot DNS in Lean 4 – design

The model lives in `lean/Verif/`. One directory (or file) per area of the code:
`…/Model.lean` holds the definitions transcribed from the C sources (each one
cites file and lines in `/repo`), `…/Spec.lean` (where needed) holds a small
specification that does not mention the model, `…/Lemmas.lean` holds proofs and
`…/Props.lean` holds only the property theorems together with non-vacuity
`example`s. Property theorems are named `Cnn_…`.

## General modelling rules

* Bytes are `UInt8`, buffers are `List UInt8`. A read outside a buffer, a failed
  `assert`, a signed overflow or any other undefined behaviour is the distinct
  outcome `Res.ub`; a library error code is `Res.err e`; success is `Res.ok x`.
* Machine integers are `UInt8/16/32/64` (or `Nat` with explicit `% 2^n`) where
  wrap-around is observable; `Nat` elsewhere.
* Memory allocation never fails in the model (`KNOT_ENOMEM` is not modelled)
  unless the property is about failure atomicity.
* Loops become structural or well-founded recursion; a loop whose termination is
  itself the claim is modelled with fuel and proved to finish with enough fuel.
* LMDB is trusted: a transaction is atomic and durable; a crash keeps exactly the
  committed transactions.
* Cryptographic primitives (HMAC, SipHash, NSEC3 hash, signatures) are parameters.

## Plan per property

| id | modelled as | proof method |
|----|-------------|--------------|
| C01 | byte-level `wireCheck` over a packet list, UB explicit | well-founded recursion, equivalence with an inductive decompression relation |
| C02 | `unpack` / `seekLabel` | simulation against the same relation |
| C03 | `toStr`, `fromStr` byte machines | induction over labels/characters |
| C04 | `lf`, `cmp` | lookup-format lemma + lexicographic order |
| C05 | label lists | induction |
| C06 | `comprPutDname` on wire + suffix context | invariant on the message prefix |
| C07 | packet state machine | invariant over operation lists |
| C08 | `UInt32` arithmetic | arithmetic |
| C09 | lists of rdata | induction |
| C10, C11 | bit-level encoders | per-group arithmetic, induction over groups |
| C12 | qp-trie tree model | refinement to a finite map |
| C13 | journal state machine over an abstract LMDB | invariant by induction over histories with crash points |
| C14, C15 | zone = finite map, changeset = pair of maps | algebra |
| C16 | decision logic of ddns.c over an abstract zone | case analysis + invariants |
| C17 | zone tree as name-indexed map | induction, fuel-free termination |
| C18 | bitmaps | induction over added types |
| C19 | chain builder over ordered node list | induction |
| C20 | ACL fold | induction |
| C21, C37 | binary heap | invariant |
| C22 | zone-events state machine | invariant over interleavings |
| C23 | queue | refinement to list |
| C24 | TSIG decision logic, MAC as parameter | case analysis |
| C25 | option list bytes | induction |
| C26 | wire_ctx | per-operation theorems |
| C27 | control buffer | round-trip |
| C28 | TCP input buffer | induction over segments |
| C29 | zonedb over trie as map | induction over labels |
| C30 | bit arithmetic | arithmetic |
| C31 | KRU tables | invariant |
| C32 | cookie check | arithmetic |
| C33 | catalog update | refinement |
| C34 | timers | round-trip |
| C35 | key state function | case analysis |
| C36 | chunked serialization | round-trip |
| C38, C39 | record / packet parser | induction |
| C40 | nsec_next | order lemmas |
| C41 | typed record builder and reader over wire_ctx | round-trip, prefix-freeness |
| C42 | key parameter records | round-trip over C41 |
| C43 | worker pool: one step per critical section, any schedule | invariants over runs, measure |
| C44 | copy-on-write trie: arrays and keys as objects in memory with marks, old and new trie sharing them | invariant relating memory to two trees with addresses; simulation by the functional trie of C12 |
| C45 | NSEC proofs on top of the model of answers (C17) and of the chain (C19) | what is said holds in every signed zone that has the signed records of the response: gaps of the chain transfer between zones |
| C46 | Both ends of AXFR and IXFR, message by message, over any division into messages; zone changes are those of C14 | what the server sends; exactly when the client replaces its zone and by what; both put together |
| C47 | The accessors of `libknot/rrtype` on octets, over the messages accepted by the parser of C39; their callers | for checked types: layout of the RFC from the parser's acceptance; for the others: exactly which RDATA can be read; findings with concrete messages |
| C48 | `zone-sign.c` for signing and validating nodes, trees and one apex RRset, with signatures as records of fields and cryptography as parameter; `knot_time_from_u32`, expiry; `schedule_next` | the state of every node after the loop over keys is characterised for any existing signatures; threads by partition of the nodes; validation by an invariant of the map of counters |
| C49 | NSEC3 proofs on top of the models of answers (C17) and NSEC proofs (C45), with the hash as any function; creation of the NSEC3 chain | as C45, by moving matched and covered hashes to another zone; opt-out as an explicit alternative; the chain by induction over the sorted hashes |
| C50 | process_query.c as a whole over a packet with its sizes and its OPT record; handlers and module hooks are arbitrary functions | invariants of the response through every step and every restart after an error; exact evaluation for codes and padding |
| C51 | the configuration transaction with its flags and changed zones, the check, the comparison, the reload of the zone database; settings are lists of values, zones are objects with the number of the reload that made them | invariants along all histories of commands, including those undone; refinement of the committed configuration to the effect of the commands |
| C52 | the store as a list of keys and values, the codes, the arrays of values, the commands on them; the configuration as a user sees it is a separate map | refinement: a relation of the database and the map, with the codes as ghost state, kept by every command; pigeonhole for the codes |
| C53 | the zone as file, journal and memory; `event_load` with the contents from the journal and the file, the update according to the settings, the commit and the insertion to the journal; records are an opaque finite set, the SOA is kept apart | invariants along all lives (the journal holds the contents served last; the file and the journal give them), case analysis of the load |
| C54 | the zone as a sorted list of nodes with RRsets (type, TTL, size, names in rdata); the pass of flags and previous pointers, discovery of additional nodes, the reverse tree, the measures, full and incremental adjusting with and without the pass of the semantic check, the copying of changed nodes to the other version | invariant over the prefix of the pass (done nodes right, others untouched), invariants along all lives; the additional nodes against a search of the whole zone under a condition on closest enclosers, findings for the rest |
| C55 | the set of descriptors (epoll) with the kernel's index per descriptor, the open descriptors and the calls of close; rounds of events with any outcomes, commit of removals, sweep, settings | removal as a permutation of the rest with the first items in place; invariant of the loop over the prefix of events (each item changed by its own event, accepted ones appended, kernel in step); induction over lives; failed registering and a lowered limit as concrete runs |
| C56 | reading of reverse and forward names, writing of addresses with compression, inet_pton(), search of networks, answers | the text of an address is characterized (read back by inet_pton() as the address, no hyphens, number of separators); round trip by composition; truncated addresses for parents; all branches for arbitrary names; wrong behaviour as concrete queries |
| C57 | two parsings of a datagram (model of C39) with the counts of parsed octets, finding of the header, allow list (model of the ACL), address in the header, the first checks of query processing | all cases of the code decided by conditions on the datagram; C39 for the messages; a header would have 13 questions, so it is no message; writing and reading composed; wrong behaviour as concrete datagrams |
| C58 | the array of connections with its count and assertions, the loops of putting, getting and cleaning; a history is a list of the operations, each under the mutex | invariant: the count is the number of used places; a balance of every connection between the pool and the events, by induction on histories; the loops by invariants on the places visited; addresses by C30 |
| C59 | the owners made from addresses, the loop over the records of a node and over nodes, adding of a record with its TTL error (contents as in the model of changesets) | owners by induction on octets, with all 256 octets checked by the kernel; the loops flattened to one over address records, induction with the records and TTLs so far; wrong behaviour as concrete zones |
| C60 | nodes with PTR and TXT records, verification, interpretation of nodes by depth, fallback to the whole zone for members, the calls on the pending update (model of C33) and the cleanup after an error | the loop over nodes by induction, with the nodes classified by where they are below `zones`; lookups by uniqueness of owners; the half-applied update as a concrete zone |
| C61 | the context with 32-bit counters of threads, loading, the hook for a query, sequences of queries of all threads | induction on the sequence; invariant: a counter is the number of queries of its thread modulo the rate |
| C62 | the two conditions of the module over lists of networks and ranges, with the comparisons of C30 | induction on the lists, with the theorems of C30 for one item; equal bits make equal addresses; wrong ranges as concrete addresses |

## Trusted base

* The kernel of Lean 4.33.0 and the parts of its core library and of Mathlib the proofs use.
* The axioms `propext`, `Classical.choice` and `Quot.sound`, no others; `AXIOMS.md` lists what each
  property theorem depends on (written by `tools/axioms.py`). No `sorry`, no axiom of our own, no
  `native_decide`, `bv_decide`, `implemented_by` or `unsafe`.
* That the definitions in the `Model.lean` files are faithful transcriptions of the C functions they
  cite. Nothing checks this mechanically; the code was read, not run. `seeded/LOG.jsonl` shows which
  wrong transcriptions (or wrong programs) the theorems notice.
* That the `Spec.lean` files say what the English property says.
* The C compiler, POSIX threads (mutex and condition variable as specified), LMDB (atomic durable
  transactions), the cryptographic libraries, the operating system. They are parameters or are
  assumed to follow their specification.

## What is modelled, and what is not

Everything is a sequential function or a transition system over data unless said otherwise. Not
modelled anywhere: allocation failure, logging, statistics, the configuration database, query
modules other than those named, XDP and QUIC transport, the utilities.

| area (`lean/Verif/…`) | claims | modelled code | left out |
|---|---|---|---|
| `Dname` | C01–C05 | `libknot/dname.c`: wire check, unpack, text, lookup format, comparison, suffix, wildcard, cat/replace | `knot_dname_get_rnd`-like helpers |
| `Pkt` | C06, C07 | `libknot/packet/pkt.c` writing, `compr.h`, writing side of `rrset-wire.c` | memory context of the packet, TSIG space |
| `Pktparse` | C39 | `pkt.c` parsing, TSIG/OPT marks | packets reused without reset |
| `Rrwire` | C38 | reading side of `rrset-wire.c`, descriptors, NAPTR | – |
| `Rdataset` | C09 | `libknot/rdataset.c` | – |
| `Serial` | C08 | `knot/zone/serial.c` | – |
| `Baseenc` | C10, C11 | `contrib/base64.c`, `base64url.c`, `base32hex.c` | – |
| `Bitmap` | C18 | `libdnssec/nsec/bitmap.c` | – |
| `Edns` | C25 | option list and ECS of `rrtype/opt.c` | EDE, keep-alive values |
| `WireCtx` | C26 | `contrib/wire_ctx.h` | – |
| `Trie` | C12 | `contrib/qp-trie/trie.c` without copy-on-write | `trie_dup` |
| `Zonedb` | C29 | `knot/zone/zonedb.c` over the trie | – |
| `Heap`, `Queue` | C37, C23 | `contrib/ucw/heap.c`, `lists.c`, `worker/queue.c` | – |
| `Evsched` | C21 | `common/evsched.c` with interleavings of its critical sections | the timer thread's system calls |
| `Events` | C22 | `events/events.c`, freeze and thaw, with interleavings | the event handlers |
| `Pool` | C43 | `worker/pool.c`, every schedule | thread creation and joining |
| `Triecow` | C44 | `qp-trie/trie.c` copy-on-write: `trie_cow`, `trie_get_cow`, `trie_del_cow`, commit, rollback, `trie_free`; `trie_get_try` and `trie_apply` on the same memory | allocation failure, callbacks for values, iterators over a trie in a transaction, the word-level race of a mark with a reader of the index |
| `Nsecproof` | C45 | `nameserver/nsec_proofs.c` for NSEC, `solve_authority_dnssec`, previous names of `zone/contents.c`, `zone/zone-tree.c` and `zone/adjust.c` | NSEC3, signatures in the response, lack of space, allocation failure |
| `Xfr` | C46 | `nameserver/xfr.c`, `axfr.c`, `ixfr.c`; `events/handlers/refresh.c` from SOA answer to publication, with the second attempt; the loop of `query/requestor.c` | SOA of the query and access checks, message sizes (any rule for what fits), signing of received zones, `ixfr-from-axfr`, master pinning, timers, logging |
| `Rdfield` | C47 | `libknot/rrtype/{soa,rrsig,nsec,nsec3,nsec3param,dnskey,ds,zonemd,rdname}.h`; the serial in `nameserver/ixfr.c`, `notify.c`, `refresh.c`; `skip_soa`, `node_rrtype_is_signed`, `nsec3_params_match`, `match_key_ds`, `zone/digest.c` verification, `adds_tree.c` name check; `dnssec_nsec3_params_from_rdata` | computing digests and DS records (parameters); NAPTR, SVCB parameters, TSIG, OPT (C40, C41) |
| `Zonesign` | C48 | `zone-sign.c` (`knot_zone_sign`, `knot_zone_sign_apex_rr`, validation, thread division), `rrset-sign.c` (`knot_sign_rrset`, `knot_check_signature`, times), `zone-events.c:schedule_next`, `time.h` (timestamps) | cryptography (a parameter that is sound), octets of RRSIG (C47), allocation failure, hints of validation, signing of DNSKEY/CDS sets themselves, NSEC chains (C45), signatures with reproducible nonces, incremental choice of nodes by changeset |
| `Nsec3proof` | C49 | `nameserver/nsec_proofs.c` for NSEC3, `zone_contents_find_nsec3`, flags of subtrees and wildcard names of `zone/adjust.c`, `dnssec/nsec3-chain.c` (`knot_nsec3_create_chain`) | octets of NSEC3 names and records (C11), incremental fixing of the chain, signatures in the response, lack of space, allocation failure |
| `Query` | C50 | `nameserver/process_query.c` but for `process_query_verify`, the parts of `packet/pkt.c` that reserve, put and restart, `knot_edns_alignment_size` | what handlers and modules do inside (they are arbitrary), octets of records, statistics, logging, allocation failure; ACL and TSIG verification are the given results (C20, C24) |
| `Confio` | C51 | `conf_io_begin/commit/abort/set/unset/check/diff`, `upd_changes`, `ctl_conf_modify`, the reload after a commit (`zonedb-load.c`) | the octets of the configuration database, the checks of single items (arbitrary functions), the zones' contents and events, catalog updates in progress, `conf-import`, server and module reload |
| `Confdb` | C52 | `db_code`, `find_data`, `db_set`, `db_unset`, `conf_db_set/unset/get`, `conf_db_iter_*`, the parts of `conf_io_set/unset` on the database, `conf_val_next` | the store itself (LMDB), the order of identifiers, conversion of values, import and export, memory errors |
| `Zload` | C53 | `event_load`, `zone_load_journal`, `zone_load_from_journal`, `zone_update_from_differences/from_contents/increment_soa/no_change/commit`, `zone_contents_diff` (SOA part), `changeset_differs_just_serial`, `journal_insert`, `journal_insert_zone`, the file written by a flush | DNSSEC signing, ZONEMD, reverse and generated zones, TTLs, validation and semantic checks, limits and merging of the journal (C12, C13), flush and retry after a busy journal, failures of databases and files other than an unreadable zone file |
| `Adjust` | C54 | `adjust_cb_flags`, `adjust_single`, `zone_adjust_tree`, `discover_additionals`, `adjust_cb_additionals`, `zone_adjust_full`, `zone_adjust_incremental_update`, `zone_update_semcheck` (its adjusting), `additionals_tree_from_zone/update_from_binodes/reverse_apply_multi`, `knot_measure_node/finish_zone/finish_update`, `zone_contents_find_node_or_wildcard`, `apply_cleanup` (unifying) | the NSEC3 tree and the pointers to it, threads, memory errors, the tree as a trie (C04), how an update is applied to the nodes (the model takes the new nodes and the set of changed names, closed under ancestors as `zone_tree_insert_with_parents` makes it) |
| `Fdset` | C55 | `fdset_add`, `fdset_remove`, `fdset_poll`, `fdset_it_next`, `fdset_it_remove`, `fdset_it_commit`, `fdset_set_watchdog`, `fdset_sweep` (variant with epoll), `tcp_set_ifaces`, `tcp_event_accept`, `tcp_event_serve` (its effects on the set), `tcp_wait_for_events`, `tcp_sweep`, `update_tcp_conf` | memory errors, sizes of arrays, kqueue and poll variants, processing of queries, the kernel beyond registering and closing |
| `Synth` | C56 | `reverse_addr_parse`, `forward_addr_parse`, `block_write`, `str_subst`, `str_separator`, `query_satisfied_by_family`, `synth_ptrname`, `reverse_rr`, `forward_rr`, `template_match`, `solve_synth_record`, `sockaddr_set` (IPv4, IPv6) | inet_pton() by what it accepts (glibc), backslashes in prefixes, space in the packet, memory errors, TTL and DNSSEC flags of the answer |
| `Proxy` | C57 | `proxyv2_header_offset`, `proxyv2_addr_store`, `proxyv2_write_header`, `proxyv2_header_strip`, `handle_query`, `process_query_in`, the first check of `process_query_out` | memory errors; of a failed parsing only the bounds of the count of parsed octets |
| `Connpool` | C58 | `conn_pool_init`, `pool_pop`, `pool_push`, `get_old`, `closing_thread`, `conn_pool_get`, `conn_pool_put`, `conn_pool_timeout`, the closing of `conn_pool_deinit`, `knot_time_cmp` | mutex and thread cancellation, memory errors, the check of a connection (any result), operations of others during a pass of the thread (in histories they are covered: `C58_ledger`) |
| `Reverse` | C59 | `reverse_owner4`, `reverse_owner6`, `reverse_from_node`, `zone_reverse` (without a zone update), `zone_contents_add_rr`, `node_add_rrset` | wire format of the owners (lists of labels), the tree of nodes, memory errors, the rest of loading |
| `Catint` | C60 | `check_zone_version`, `interpret_node`, `interpret_zone`, `property_get_member`, `cat_update_add_memb`, `cat_update_add_grp`, `catalog_update_from_zone` (without `zone_diff`), `catalog_zone_verify`, `update_catalog` | the mode without a changeset (two versions of the same nodes), counterparts of nodes (taken to have no records), configuration, the signal for reloading, errors other than those of the data |
| `Noudp` | C61 | `noudp_conf_check`, `noudp_load`, `noudp_begin` | the flag in the packet (a Boolean), memory errors, that thread ids are below the number of threads (assumed), configuration lookup |
| `Queryacl` | C62 | `queryacl_process`, `knotd_conf_addr_range_match` | decoding of the configuration (`conf_addr_range`, items are given as addresses), UNIX sockets as clients |
| `Sockaddr` | C30 | address matching of `contrib/sockaddr.c` | text forms |
| `Acl` | C20 | `updates/acl.c` over configuration values | `conf` lookups |
| `Tsig` | C24 | `tsig-op.c`, `rrtype/tsig.c`, key selection of the server | HMAC |
| `Tcp` | C28 | `libknot/xdp/tcp_iobuf.c`, stream reading of `contrib/net.c` | sockets |
| `Ctl` | C27 | `libknot/control/control.c` | socket setup |
| `Cookies` | C32 | `libknot/cookies.c`, module `cookies` | SipHash |
| `Kru` | C31 | module `rrl`: tables, prices, decisions | AVX2 variant, races between threads, floating point of the decay table |
| `Lmdb`, `Kasp`, `Timers` | C41, C42, C34 | record formats of `knot_lmdb.c`, `kasp_db.c`, `timers.c` | LMDB itself |
| `Jserial`, `Journal` | C36, C13 | `journal/serialization.c`, `journal_write.c`, `journal_metadata.c`, `journal_read.c`, loading | see the note of C13 |
| `Changeset`, `Diff` | C14, C15 | `updates/changesets.c`, `zone-update.c`, `apply.c`, `zone/zone-diff.c` | node memory |
| `Ddns` | C16 | `updates/ddns.c` | signing after an update |
| `Answer` | C17 | `nameserver/internet.c`, lookups of `zone/contents.c` | additional section; NSEC proofs are C45 |
| `Nsecchain`, `Nsecnext` | C19, C40 | `dnssec/nsec-chain.c`, `onlinesign/nsec_next.c` | NSEC3 chains |
| `Catalog` | C33 | `catalog/catalog_update.c`, `catalog_db.c` | interpretation of the catalog zone |
| `Keyroll` | C35 | `dnssec/key-events.c`, key states of `zone-keys.c` | shared and offline KSK |

## Findings

Behaviours of the code that contradict the property one would expect. Those with a theorem are
proved of the model by a concrete witness; the others were seen while reading and are not proved.

* Base64 and base32hex decoders accept characters after padding (C10_base64_inner_padding_accepted);
  the base64url decoder reads one octet too far (C10_base64url_overread).
* `wire_ctx_printf` truncates silently and ignores the error state (C26_printf_truncates,
  C26_printf_ignores_state).
* `evsched_cancel` races with a running callback (C21_cancel_race). Zone events may run early after
  a truncated delay or a cancelled run, read `blocking[-1]` and leave the freeze stuck (C22_early_by_truncation, C22_early_by_cancel,
  C22_blocking_out_of_bounds, C22_freeze_blocking_stuck).
* IPv4 range matching compares in host order on little-endian machines (C30_range_little_endian_fails).
* Zero octets inside labels make different names collide in the lookup format (C04_nul_collision,
  C29_nul_collision, C33_nul).
* Packet writing: stale suffix after a failed record (C06_stale_suffix), a hint value treated as an
  offset (C06_nocomp), `knot_pkt_clear` keeps the question's size (C06_stale_qname), the question
  ignores reserved space (C07_question_reserved).
* Record parsing accepts trailing octets and rejects a pointer to the root (C38_trailing_accepted,
  C38_root_pointer_rejected).
* `knot_rdataset_remove` of a set's own first record clears the set (C09_remove_own_first_clears);
  the next serial with a modulus can wrap or not be newer (C08_modulo_wrap_fails, C08_modulo_not_newer).
* qp-trie: `trie_it_next_nosuffix` can fail its assertion (C12_nosuffix_fails); a key of 2^31 octets
  is stored as an empty one (C12_longest_key).
* TCP buffers: an empty message is delayed, and the output size can overflow (C28_empty_delayed, C28_outbufs_mss_overflow).
* ACL: `update-owner key` with an unsigned request (C20_owner_key_unsigned), a long name hides
  others (C20_long_name_hides).
* TSIG: the algorithm in the record is not compared (C24_algorithm_ignored); uninitialised octets
  are compared (C24_uninitialised). The server's own key selection hides both.
* Control protocol: a refused item desynchronises the peer (C27_failed_send, C27_failed_end,
  C27_timeout).
* Cookies: at the wrap of the 32-bit clock all cookies are refused (C32_wrap); C32_slip_wrap.
* Rate limiting: C31_evicted, C31_limited_charged (contradicts kru.h), C31_table_size (a table the
  configuration accepts fails an assertion), C31_free_network (a price of zero), C31_rounding.
* Timers: the reader does not end on a truncated item (C34_endless). Records that end at a field
  boundary are reported as read (C41_short).
* Changesets: C14_lost_removal, C14_lost_ttl, C14_skipped, C14_not_removed, C14_merge_soa; the
  difference of zones hides a changed SOA with equal serial (C15_soa_hidden).
* Dynamic updates: C16_prereq_any, C16_nsec3param_lost, C16_soa_lower, C16_ttl_kept,
  C16_nsec3_deleted, C16_dname_nested.
* Journal: C13_merged_cycle, C13_forced_flush, C13_merged_deleted, C13_flush_assert, C13_gap,
  C13_stuck, C13_extra_space.
* NSEC chain: C19_bare_rrsig, C19_removed_accepted, C19_glue_accepted, C19_assert; online NSEC
  names of 254 and 255 octets (C40_gap).
* Answers: C17_yxdomain, C17_yxdomain_lost, C17_wildcard_dname.
* NSEC proofs that prove too little: C45_wildcard_empty, C45_wildcard_name, C45_wildcard_dname.
* Transfers: any SOA record, even of a name out of the zone, ends an incoming AXFR and the truncated zone is published
  (C46_foreign_soa); the closing SOA is not compared (C46_other_soa); serials of IXFR differences are not checked
  (C46_any_serials); no AXFR is tried when the IXFR began with a message with one record (C46_no_axfr).
- RDATA (C47): a SOA or RRSIG without RDATA is accepted in other classes than IN, and no reader of the field checks the
  class: an IXFR query, a NOTIFY or the answer to a SOA query with such a record makes the server read out of bounds
  (C47_empty_soa; the peer must pass the ACL), and so does `node_rrtype_is_signed` (C47_empty_rrsig). DS, DNSKEY, NSEC3, ZONEMD,
  SVCB and HTTPS records are not checked at all on receipt (C47_unchecked), while adjusting, DS checks, ZONEMD verification and
  the search of additional names expect them to be long enough (C47_short). ZONEMD verification ignores octets behind the
  digest (C47_zonemd_longer).
- Signing (C48): with validation on, a zone whose only fault is an RRSIG covering a type its node does not have makes the server
  abort (C48_stray_aborts: the removal meant for signing is put in the changeset that is asserted to be empty). A signature
  lifetime of 2^31-5400 or more, which the configuration accepts, makes the first signature abort
  (C48_long_lifetime_aborts). Until 2038 a signature with an expiration more than 2^31 ahead, or within the refresh time of 1970,
  never counts as expired (C48_expired_wraps, C48_expired_early). With 128 keys of one tag the counter of failed verifications
  overflows and a bad signature counts as good (C48_many_keys).
- NSEC3 proofs (C49): a zone with NSEC3PARAM and signed SOA but no NSEC3 record, which loading and transfers accept, makes the
  server abort on the first query with DO for a name that does not exist (C49_empty_chain). Under opt-out such a query below an
  empty non-terminal without NSEC3 fails if the closest provable encloser has a wildcard (C49_wildcard_optout), and so does any
  query that meets DNAME at a wildcard name (C49_wildcard_dname). A wildcard answer for a name that itself starts with `*` has
  no proof (C49_wildcard_name, as C45_wildcard_name).
- Processing of a query (C50): the response can exceed the limit of UDP without bound if NSID does not fit with the question
  (C50_nsid). Over QUIC and TLS an answer that cannot be padded within 65535 bytes becomes FORMERR (C50_padding). The option
  EXPIRE says about 136 years if the signatures have expired (C50_expire). An extended code remains in OPT when the signature
  fails afterwards, so that the client reads another code (C50_ext_rcode).
- Dynamic configuration (C51): a command undone halfway restores the database but not the marks of changed zones: after
  `conf-unset zone.domain a b-typo` and a commit the zone `a` is served from a freed object (C51_dangling), and adding a zone
  again after its command failed stops the server (C51_crash_undone). Other sequences that stop it: a zone changed or added,
  all zones removed, the zone added (C51_crash_whole); a zone changed and removed, then an item of all zones set that needs no
  reload (C51_crash_reloaded); adding a zone that is a catalog member (C51_crash_member). A zone changed and then removed makes
  every commit fail (C51_changed_then_removed). A zone removed and added again keeps the settings that were removed
  (C51_readded).
* Catalog: a null pointer is followed (C33_crash), C33_stale_group, C33_lost_removal.
* Key rollovers: C35_backward, C35_forced_algorithm, C35_forced_scheme, C35_forced_zsk.
* Worker pool: C43_lost, C43_clear_silent, C43_stolen.
- Loading of zones (C53): with the whole zone in the journal a missing or unreadable file still prevents the start of the
  zone (`C53_file_needed`). With changes in the journal and `difference`: a file with the old serial is taken by a reload
  but the zone may then fail to load after a restart (`C53_same_serial_lost`); a file with a decreased serial is refused by
  a reload and taken by a restart (`C53_decreased_taken`). With the default settings an edit of the SOA without a new
  serial gives a zone with two SOA records (`C53_two_soas`). With `all` and `whole` a reload of a new file blocks all
  later updates (`C53_whole_all_stuck`).
- Adjusting (C54): whether a node is authoritative is decided by its flags from before the pass, so after a dynamic
  update or a reload with differences that removes a delegation the pointer to the previous node passes over nodes that
  were below it (`C54_prevs_stale`); NSEC proofs for empty non-terminals use that pointer. A node added above a name in rdata
  leaves a wildcard among the additional nodes that does not answer for that name any more (`C54_additionals_stale`).
- TCP (C55): lowering tcp-max-clients by a reload below the number of connected clients makes an assertion fail in the
  next round (`C55_limit_lowered`). When epoll_ctl() fails for an accepted descriptor, its item stays in the set though the
  descriptor is closed: it counts against the limit forever (`C55_failed_add_leak`), and can take over the events of a later
  client with the same descriptor and make the sweep loop without end (`C55_failed_add_hang`).
- Synthetic records (C56): a prefix with a letter in upper case makes a forward template never answer, while the reverse one
  uses it (`C56_upper_case`). With the root as origin every PTR query is answered SERVFAIL (`C56_root_origin`). Parents of existing
  reverse names are denied if they are above the network, or with a range (`C56_missing_parents`). Names that are not names of
  addresses have records (`C56_other_names`).
- PROXY headers (C57): if less than 12 octets follow a header of a trusted proxy, the count of parsed octets wraps below zero and the
  message is processed with a DNS header from old contents of the receive buffer (`C57_short_message`). The length in the header is
  not checked against the addresses: with a short one the client's address is read from the DNS message (`C57_short_header`).
- Connection pool (C58): a timeout larger than the current time, allowed by the configuration, wraps, and all the connections are closed
  in every pass (`C58_timeout_wrap`).
- Reverse zones (C59): two forward names with the same address and different TTLs make the generation fail, so the reverse zone is not
  loaded (`C59_ttl_mismatch`); wildcards get PTR records (`C59_wildcard`).
- Catalog zones (C60): a group in a TXT record of two strings passes verification but not interpretation; the zone is rejected, yet the
  pending update then removes members that are in both versions and adds new ones of the rejected version (`C60_multistring`).
- Module queryacl (C62): the wrong order of IPv4 addresses on little-endian hosts (C30) lets clients outside a configured range in and
  keeps clients inside it out (`C62_range`).

Seen while reading, not proved: `add_tail_list` (lists.c:135) corrupts the list; `heap_replace`
leaves a stale position; a failed reallocation in `heap_insert`, `trie_del` and `tcp_iobuf` loses
data; `journal_read_rrset` reads RDATA before checking how much is there; `params_deserialize` wraps
on truncated records; `knot_pkt_parse` does not reset OPT and TSIG marks; `put_additional` changes a
static list shared by threads; `edns_add` overflows 16 bits; zone-events.c:547 passes an `int` where
a `time_t` is read; `zone_events_deinit` takes locks in the other order; a BADTIME answer needs six
octets more than are reserved; the AVX2 variant of the rate limiter picks another entry than the
generic one when two match.
