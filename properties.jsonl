{"id": "C01", "title": "Text-to-name parsing only ever produces well-formed names", "statement": "Parsing any text as a domain name either reports it invalid, or yields a name whose stored length byte is exact, that is at most 255 bytes on the wire, all of whose labels are 1..63 bytes and contain no ASCII upper-case letters, and whose terminator says whether the text ended in a dot (fully qualified) or not; it never writes outside the 256-byte output.", "quantifier": "every input text and length", "why_tests_cant": "The set of texts (escapes, dots, lengths up to and over the limit) is infinite; tests sample a handful.", "anchors": ["libgdnsd/dname.c:gdnsd_dname_from_string", "libgdnsd/dname.c:gdnsd_dns_unescape", "include/gdnsd/dname.h"]}
{"id": "C02", "title": "Escape decoding is exact", "statement": "Decoding a character-string with \\X and \\DDD escapes fails exactly when an escape is incomplete or its decimal value exceeds 255, otherwise returns byte for byte the text denoted by the escapes, never longer than the input.", "quantifier": "every byte string", "why_tests_cant": "Escapes can occur at any offset including the last byte; only an argument over all strings covers truncated escapes.", "anchors": ["libgdnsd/dname.c:gdnsd_dns_unescape", "libgdnsd/dname.c:unescape_label"]}
{"id": "C03", "title": "Printing a name and reading it back gives the same name", "statement": "For every well-formed fully qualified name, printing it in presentation format and parsing the printed text gives back the same name.", "quantifier": "every well-formed name", "why_tests_cant": "Label bytes range over all 256 values and all label structures.", "anchors": ["libgdnsd/dname.c:gdnsd_dname_to_string", "libgdnsd/dname.c:gdnsd_dname_from_string"]}
{"id": "C04", "title": "In-zone test and zone removal agree with label suffixes", "statement": "A name is reported inside a zone exactly when the zone's labels are a suffix of the name's labels, and removing the zone then leaves exactly the remaining leading labels; two names compare equal exactly when their label lists are equal.", "quantifier": "every pair of well-formed names", "why_tests_cant": "Byte-wise suffixes that are not label suffixes exist for specially chosen names; sampling rarely hits them.", "anchors": ["include/gdnsd/dname.h:dname_isinzone", "include/gdnsd/dname.h:gdnsd_dname_drop_zone", "include/gdnsd/dname.h:gdnsd_dname_cmp"]}
{"id": "C05", "title": "Name concatenation is label concatenation with an exact limit", "statement": "Appending an origin to an unqualified name yields the concatenation of the label lists with the origin's termination, and fails exactly when the result would be longer than 255 bytes on the wire.", "quantifier": "every unqualified name and every origin", "why_tests_cant": "Boundary at 255 bytes must be exact for all combinations of lengths.", "anchors": ["libgdnsd/dname.c:gdnsd_dname_cat"]}
{"id": "C06", "title": "Request parsing never reads outside the received packet", "statement": "For every received packet of every length accepted by the transports, decoding the header, the question and every additional record and EDNS option reads only bytes that were received and writes only inside its fixed-size outputs.", "quantifier": "every packet content and every packet length", "why_tests_cant": "All byte strings up to 1024 bytes; fuzzing can miss an out-of-bounds read, a proof cannot.", "anchors": ["src/dnspacket.c:decode_query", "src/dnspacket.c:parse_first_question", "src/dnspacket.c:parse_query_rrs", "src/dnspacket.c:parse_optrr", "src/dnspacket.c:handle_edns_options"]}
{"id": "C07", "title": "The question decoded is the question sent", "statement": "When a packet whose question section is a legal uncompressed name, type and class is accepted, the server's view of the question is that name (ASCII-lowercased), type and class; a packet with a malformed or compressed question name is never answered as if it were well-formed.", "quantifier": "every packet", "why_tests_cant": "Name encodings are unbounded in structure up to 255 bytes.", "anchors": ["src/dnspacket.c:parse_first_question"]}
{"id": "C08", "title": "Disposition of a request follows the protocol rules", "statement": "A request is silently dropped exactly when it is too short to answer, is itself a response, or breaks the rules of an established DSO session (an EDNS keepalive option there); otherwise unsupported opcodes get NOTIMP, malformed requests get FORMERR, unsupported EDNS versions get BADVERS, zone transfers get NOTIMP, classes other than IN, CH and ANY get REFUSED with no data, and everything else is looked up.", "quantifier": "every packet and transport", "why_tests_cant": "The decision depends on all header bits, counts and sections jointly.", "anchors": ["src/dnspacket.c:decode_query", "src/dnspacket.c:process_dns_query"]}
{"id": "C09", "title": "EDNS Client Subnet options are accepted exactly when legal", "statement": "A client-subnet option is accepted exactly when it has a known family with an in-range source prefix, zero scope, the minimal number of address bytes for that prefix and no bits set beyond the prefix (or is the empty opt-out form); everything else is answered FORMERR, and the address used for the lookup is the one in the option.", "quantifier": "every option payload", "why_tests_cant": "All payload lengths, families, masks and address bytes.", "anchors": ["src/dnspacket.c:handle_edns_client_subnet"]}
{"id": "C10", "title": "Every accepted request gets a response within the negotiated size", "statement": "A UDP response is never longer than 512 bytes without EDNS, nor longer than the smaller of the client's advertised size (at least 512) and the configured limit with EDNS; a response that would not fit is returned truncated with TC set and no answer data; over TCP a response never exceeds the response buffer.", "quantifier": "every request, zone content and configuration", "why_tests_cant": "The bound must hold jointly for all record sets, EDNS options and limits.", "anchors": ["src/dnspacket.c:answer_from_db", "src/dnspacket.c:do_edns_output", "src/dnspacket.c:process_dns_query", "src/dnswire.h"]}
{"id": "C11", "title": "EDNS output always matches the space reserved for it", "statement": "The number of bytes the EDNS section of a response occupies equals the number reserved for it while the answer was built, for every combination of options in the request.", "quantifier": "every sequence of EDNS options in a request, every transport", "why_tests_cant": "Options can repeat and interact; the reservation and the emission are in different functions.", "anchors": ["src/dnspacket.c:handle_edns_option", "src/dnspacket.c:parse_optrr", "src/dnspacket.c:do_edns_output"]}
{"id": "C12", "title": "Padded TCP responses have block-aligned length", "statement": "When padding applies (TCP connection with padding enabled, and a DSO request or a request with EDNS), the length of the response is a multiple of 468 bytes; otherwise no padding option is emitted.", "quantifier": "every response length", "why_tests_cant": "Alignment arithmetic must hold for every length including those close to the maximum.", "anchors": ["src/dnspacket.c:do_edns_output"]}
{"id": "C13", "title": "Response header echoes the request", "statement": "Every response carries the request's ID, opcode, RD bit and (when there is one) question section unchanged, has QR set, never sets RA/AD, and its section counts equal the number of records encoded.", "quantifier": "every request", "why_tests_cant": "Bits are combined from several places.", "anchors": ["src/dnspacket.c:process_dns_query", "src/dnspacket.c:answer_from_db"]}
{"id": "C14", "title": "Name compression is lossless", "statement": "Decompressing any name written into a response with message compression yields exactly the name that was stored (up to the letter case of a suffix shared with the query name, which is echoed as sent), and every compression pointer refers to an earlier offset below 16384.", "quantifier": "every sequence of names written into a message", "why_tests_cant": "Targets depend on the whole history of names written so far.", "anchors": ["src/dnspacket.c:store_dname_comp", "src/dnspacket.c:ctargets_add_qname", "src/dnspacket.c:repeat_name"]}
{"id": "C15", "title": "Address rotation is a permutation and random choices are in range", "statement": "Shuffling the records of an answer returns every record exactly once whatever the random stream, and a bounded random number is always below its bound.", "quantifier": "every random stream, every number of records", "why_tests_cant": "Random streams cannot be enumerated.", "anchors": ["src/dnspacket.c:shuffle_addrs_rdata", "include/gdnsd/rand.h:gdnsd_rand32_bounded"]}
{"id": "C16", "title": "Dynamic TTLs stay within the configured bounds", "statement": "The TTL of a dynamic answer is always the monitored TTL clamped between the record's configured minimum and maximum (each itself limited by the global min_ttl and max_ttl), and it is unchanged when in range. An ordinary rrset is served with its first record's TTL clamped to the global limits.", "quantifier": "every monitored TTL, every configured pair", "why_tests_cant": "Whole 28-bit range of TTLs.", "anchors": ["src/dnspacket.c:do_dyn_callback", "src/ltree.c:clamp_ttl", "src/ltree.c:ltree_add_rec_dynaddr"]}
{"id": "C17", "title": "The zone database behaves as a map from names to data", "statement": "After any sequence of insertions, looking up a label under a node finds exactly the child inserted for that label, whatever the hash values and the order of insertion.", "quantifier": "every insertion sequence and hash function", "why_tests_cant": "Robin-hood displacement and table growth depend on the whole insertion history.", "anchors": ["src/ltree.c:ltree_node_insert", "src/ltree.c:ltree_node_find_or_add_child", "src/ltree.h:ltree_node_find_child"]}
{"id": "C18", "title": "Lookup finds the right node: exact match, wildcard or delegation", "statement": "For every zone database and query name, the lookup returns not-authoritative, delegation at the topmost zone cut at or above the name, the exact node, the wildcard child of the closest encloser, or name-error with the closest encloser, exactly as DNS defines.", "quantifier": "every tree and every query name", "why_tests_cant": "All tree shapes and name depths.", "anchors": ["src/dnspacket.c:search_ltree_for_dname", "src/ltree.c:ltree_search_dname_zone"]}
{"id": "C19", "title": "Zones merge atomically, never overlap and order does not matter", "statement": "Merging a set of zones into the server's database succeeds exactly when no zone duplicates or contains another, and when it succeeds every name in a zone is answered from that zone whichever order the zones were merged in.", "quantifier": "every set and order of zones", "why_tests_cant": "Orders grow factorially and depend on worker scheduling.", "anchors": ["src/ltree.c:ltree_merge_zone", "src/zsrc_rfc1035.c:harvest_zone_worker"]}
{"id": "C20", "title": "A failed zone reload changes nothing and a successful one is all-or-nothing", "statement": "A reload in which any zone file fails leaves the served data untouched, and when a reload succeeds every query is answered entirely from the old or entirely from the new data.", "quantifier": "every reload outcome and every interleaving with queries", "why_tests_cant": "Interleavings of reload and queries.", "anchors": ["src/ltree.c:ltree_zones_reloader_thread", "src/zsrc_rfc1035.c:zones_worker"]}
{"id": "C21", "title": "CNAME chasing terminates within the depth limit", "statement": "For every zone database and query, the server follows at most 16 CNAMEs and then stops; zone loading rejects chains that are longer or that loop.", "quantifier": "every zone and query", "why_tests_cant": "Chains and loops of arbitrary shape.", "anchors": ["src/ltree.c:p1_chase_cname", "src/dnspacket.c:do_auth_response", "src/ltree.c:p1_check_cname"]}
{"id": "C22", "title": "Accepted zone data always fits in a response", "statement": "If a zone passes its load-time checks, then no answer built from its record sets can overflow the response buffer.", "quantifier": "every zone that loads and every query against it", "why_tests_cant": "The worst case is a sum over record sets, glue and CNAME chains.", "anchors": ["src/ltree.c:p1_rrset_size", "src/ltree.c:p1_rsize_base", "src/ltree.c:ltree_postproc_phase1", "src/dnspacket.c:encode_rrs_raw"]}
{"id": "C23", "title": "Record-set rules are enforced at load time", "statement": "A loaded zone never has a CNAME beside other data at one name, duplicate SOA, conflicting static and dynamic data, or more than the limit of name servers per set.", "quantifier": "every sequence of records in a zone", "why_tests_cant": "Order of records within the file is arbitrary.", "anchors": ["src/ltree.c:ltree_add_rec_cname", "src/ltree.c:ltree_add_rec_ns", "src/ltree.c:p1_check_cname"]}
{"id": "C24", "title": "DNS cookies validate exactly in the key-rotation window", "statement": "A server cookie handed out at some time validates for the same client while the key that made it is the previous, current or next key, and a cookie not produced by one of those keys for that client address and client cookie does not validate.", "quantifier": "every client, time, rotation history and key file", "why_tests_cant": "Time and rotations are unbounded.", "anchors": ["src/cookie.c:cookie_process", "src/cookie.c:cookie_runtime_init"]}
{"id": "C25", "title": "Monitor state changes follow the anti-flap thresholds", "statement": "After any history of check results, a monitored resource is down exactly when its failures reached the down threshold (counting without an intervening run of ok-threshold successes) and it has not since had up-threshold consecutive successes.", "quantifier": "every sequence of check results and every threshold setting", "why_tests_cant": "Histories are unbounded.", "anchors": ["src/plugins/mon.c:gdnsd_mon_state_updater"]}
{"id": "C26", "title": "Administrative forcing overrides, and removing it restores the monitored state", "statement": "At every moment the state seen by resolution is the forced state for exactly the resources matched by the administrator's file (last match wins) and the latest monitored state otherwise; an invalid file changes nothing.", "quantifier": "every interleaving of monitor updates and file changes", "why_tests_cant": "Interleavings and histories are unbounded.", "anchors": ["src/plugins/mon.c:admin_process_hash", "src/plugins/mon.c:raw_sttl_update", "src/plugins/mon.c:admin_deleted_file"]}
{"id": "C27", "title": "Combining monitored states takes the worst state and smallest TTL", "statement": "Combining any list of states gives DOWN exactly when one is down, FORCED exactly when one is forced, and the minimum TTL, independent of order.", "quantifier": "every list of states", "why_tests_cant": "Lists are unbounded.", "anchors": ["src/plugins/mon.h:gdnsd_sttl_min2", "src/plugins/mon.h:gdnsd_sttl_min"]}
{"id": "C28", "title": "multifo answers with the healthy addresses, or all of them", "statement": "An answer contains exactly the addresses that are up when at least the threshold share of addresses is up, otherwise all addresses with the result marked down; it is never empty.", "quantifier": "every number of addresses, threshold and state assignment", "why_tests_cant": "All subsets of up addresses.", "anchors": ["src/plugins/multifo.c:resolve", "libgdnsd/misc.c:gdnsd_uscale_ceil"]}
{"id": "C29", "title": "simplefo prefers the primary", "statement": "The answer is the primary address unless the primary is down and the secondary is up, and the result is marked down exactly when both are down.", "quantifier": "every state and TTL of both addresses", "why_tests_cant": "TTL/state combinations.", "anchors": ["src/plugins/simplefo.c:resolve_addr"]}
{"id": "C30", "title": "weighted never selects a down item while enough weight is up", "statement": "A weighted answer is never empty, and contains no address that is down unless the up weight is below the threshold, in which case all are treated as up and the result is marked down; arithmetic never overflows 32 bits.", "quantifier": "every configuration, state assignment and random stream", "why_tests_cant": "Random stream and weights unbounded.", "anchors": ["src/plugins/weighted.c:resolve", "src/plugins/weighted.c:resolve_cname", "src/plugins/weighted.c:plugin_weighted_resolve"]}
{"id": "C31", "title": "Datacenter failover picks the first working datacenter", "statement": "metafo and geoip answer from the first datacenter in the client's list that is up; if none is up they answer from the first with the result marked down; a forced state for a datacenter overrides its computed state.", "quantifier": "every datacenter list, every state assignment", "why_tests_cant": "Lists and states arbitrary; sub-plugins arbitrary.", "anchors": ["src/plugins/meta_core.inc:CB_RES", "src/plugins/meta_core.inc:resolve_dc"]}
{"id": "C32", "title": "Client networks resolve by longest prefix match", "statement": "The datacenter list chosen for a client address is the one of the longest configured network containing it.", "quantifier": "every list of networks and every address", "why_tests_cant": "All network lists (nested, adjacent, overlapping) and all 2^128 addresses.", "anchors": ["libgdmaps/nlist.c:nlist_normalize", "libgdmaps/nlist.c:nlist_xlate_tree", "libgdmaps/ntree.c:ntree_lookup"]}
{"id": "C33", "title": "The scope returned to resolvers is safe to cache", "statement": "Every client address that shares the returned scope prefix with the queried address gets the same datacenter list.", "quantifier": "every tree and every address", "why_tests_cant": "Cache poisoning across clients needs an adversarial pair of addresses.", "anchors": ["libgdmaps/ntree.c:ntree_lookup", "libgdmaps/gdmaps.c:gdmap_lookup"]}
{"id": "C34", "title": "Explicit networks override GeoIP networks", "statement": "When an explicit network list is merged with a GeoIP list, every address covered by an explicit network gets that network's answer and every other address gets the GeoIP answer.", "quantifier": "every pair of network lists", "why_tests_cant": "Nesting and adjacency of both lists.", "anchors": ["libgdmaps/nlist.c:nlist_merge"]}
{"id": "C35", "title": "Database and network reloads never expose an invalid datacenter list index", "statement": "Whatever the interleaving of map updates and lookups, each lookup's list index refers to an existing list that means what it meant when the tree was built.", "quantifier": "every interleaving of updates and readers", "why_tests_cant": "Interleavings.", "anchors": ["libgdmaps/gdmaps.c:gdmap_tree_update", "libgdmaps/gdmaps.c:gdmap_lookup", "libgdmaps/dclists.c:dclists_clone"]}
{"id": "C36", "title": "Automatic datacenter ordering is by distance and capped", "statement": "For a city location the datacenter list is ordered by non-decreasing distance, contains each auto datacenter at most once and is capped at the configured limit.", "quantifier": "every set of datacenters and distances", "why_tests_cant": "Permutations.", "anchors": ["libgdmaps/dclists.c:dclists_city_auto_map"]}
{"id": "C37", "title": "ACME challenges are served until they expire and never after", "statement": "After any sequence of additions, flushes and clock advances, the challenges answered for a name are exactly those added and neither expired nor flushed.", "quantifier": "every operation history", "why_tests_cant": "Histories and collisions unbounded.", "anchors": ["src/chal.c:cset_create", "src/chal.c:cset_expire", "src/chal.c:cset_flush", "src/chal.c:chal_respond"]}
{"id": "C38", "title": "ACME challenge hand-off between daemons is lossless", "statement": "Serializing the challenge sets in one daemon and loading them in its replacement gives the same challenges with the same remaining lifetime.", "quantifier": "every set of challenges", "why_tests_cant": "All payloads.", "anchors": ["src/chal.c:csets_serialize", "src/chal.c:cset_create"]}
{"id": "C39", "title": "TCP framing is independent of segmentation", "statement": "The sequence of requests extracted from a TCP stream depends only on the bytes sent, not on how they are split into segments, and an illegal size prefix always closes the connection.", "quantifier": "every byte stream and every split of it", "why_tests_cant": "Splits are exponential in number.", "anchors": ["src/dnsio_tcp.c:conn_check_next_req", "src/dnsio_tcp.c:read_handler", "src/dnsio_tcp.c:conn_do_recv"]}
{"id": "C40", "title": "TCP connection limits and idle closing are fair", "statement": "The number of connections of a thread never exceeds its limit; when the limit is reached the most idle connection is closed; a timeout closes exactly the connections idle for at least the timeout.", "quantifier": "every sequence of connects, requests, closes and clock advances", "why_tests_cant": "Histories.", "anchors": ["src/dnsio_tcp.c:connq_append_new_conn", "src/dnsio_tcp.c:connq_refresh_conn", "src/dnsio_tcp.c:timeout_handler"]}
{"id": "C41", "title": "PROXY protocol headers are parsed within bounds", "statement": "For every data received at the start of a proxied connection the parser either rejects the connection or consumes exactly the header, never more than was received nor more than the protocol maximum, and never fails an internal assertion.", "quantifier": "every byte string", "why_tests_cant": "All inputs.", "anchors": ["src/proxy.c:parse_proxy", "src/dnsio_tcp.c:read_handler"]}
{"id": "C42", "title": "DNS Stateful Operations follow the session state machine", "statement": "A DSO request is answered as RFC 8490 prescribes: malformed or inappropriate ones abort the connection or get FORMERR, unknown types get DSOTYPENI, and a valid keepalive is answered with the server's timeouts; over any history of requests the session is established exactly when some earlier request was a valid keepalive.", "quantifier": "every DSO message sequence", "why_tests_cant": "Sequences.", "anchors": ["src/dnspacket.c:handle_dso", "src/dnspacket.c:handle_dso_with_padding"]}
{"id": "C43", "title": "External monitor commands survive the pipe unchanged", "statement": "A command written to the helper process is read back identically, and every malformed byte string is rejected rather than misread.", "quantifier": "every command, every byte string", "why_tests_cant": "Unbounded argument lists.", "anchors": ["src/plugins/extmon_comms.c:emc_write_command", "src/plugins/extmon_comms.c:emc_read_command"]}
{"id": "C44", "title": "Remote control clients cannot exceed their permissions", "statement": "A TCP control client can never stop, take over or hand off the daemon, and can add challenges or reload/replace only when the address is configured to allow it.", "quantifier": "every request byte", "why_tests_cant": "All 256 keys and all permission settings, over histories.", "anchors": ["src/css.c:tcp_req_allowed", "src/css.c:css_conn_read"]}
{"id": "C45", "title": "Daemon takeover is exclusive", "statement": "At most one replacement process is accepted at a time; while it is in progress all other state-changing requests are deferred, the sockets are handed only to that process, and if it dies normal service resumes.", "quantifier": "every interleaving of control requests", "why_tests_cant": "Interleavings.", "anchors": ["src/css.c:handle_req_tak1", "src/css.c:handle_req_take", "src/css.c:handle_req_stop", "src/css.c:css_watch_replace"]}
{"id": "C46", "title": "A zone-reload acknowledgement means a reload that started after the request", "statement": "Every reload request is eventually answered once, and a success answer is only sent when a complete load that began after the request arrived has succeeded.", "quantifier": "every interleaving of requests, reload completions and replacements", "why_tests_cant": "Interleavings.", "anchors": ["src/css.c:handle_req_zrel", "src/css.c:css_notify_zone_reloaders", "src/css.c:latr_all_reloaders", "src/main.c:reload_zones_done"]}
{"id": "C47", "title": "Statistics continue across a replacement", "statement": "Over any number of replacements, the running daemon's JSON report is a well-formed document whose members are the sums of the counters of all its threads and of all threads of the daemons it followed, and its uptime counts from the start of the first of them; the numbers read back as the counters; requests by protocol add up to requests by result; the report always fits its buffer. What the new daemon takes over is exactly what the old one sent, or nothing.", "quantifier": "every counter vector, number of threads, chain of replacements and partial reads and writes", "why_tests_cant": "64-bit counters.", "anchors": ["src/statio.c:statio_serialize", "src/statio.c:statio_deserialize", "src/statio.c:populate_statio"]}
{"id": "C48", "title": "Zone-file preprocessing stays in bounds and preserves line structure", "statement": "For every file ending in a newline, comment and parenthesis removal never touches memory outside the file, changes only comments, parentheses and newlines inside parentheses outside quotes, and keeps the line count.", "quantifier": "every file content", "why_tests_cant": "All files.", "anchors": ["src/zscan_rfc1035.rl:preprocess_buf"]}
{"id": "C49", "title": "Long text is split losslessly into legal chunks", "statement": "The TXT data built from any sequence of text tokens is a sequence of length-prefixed chunks of at most 255 bytes whose concatenation is the unescaped text, at most 16000 bytes in total.", "quantifier": "every token sequence", "why_tests_cant": "All lengths.", "anchors": ["src/zscan_rfc1035.rl:text_add_tok"]}
{"id": "C50", "title": "Relative names in zone files are qualified as documented", "statement": "An unqualified name, '@', '@Z' and '@F' forms are completed with the current origin, the zone name or the file origin respectively, or rejected if too long.", "quantifier": "every name and origin", "why_tests_cant": "All names.", "anchors": ["src/zscan_rfc1035.rl:dn_qualify", "src/zscan_rfc1035.rl:dname_set"]}
{"id": "C51", "title": "Arena allocation never hands out overlapping memory", "statement": "Any two objects allocated from the zone data arena occupy disjoint memory, whatever the sequence of sizes.", "quantifier": "every sequence of allocation sizes", "why_tests_cant": "Histories.", "anchors": ["src/ltarena.c:lta_malloc", "src/ltarena.c:lta_merge"]}
{"id": "C52", "title": "EDNS options in a response are exactly those the request calls for", "statement": "A response carries an OPT record exactly when the request had one, and its options are exactly: the client-subnet option echoing the request's family, source prefix and address with the scope of the answer, the configured NSID when asked for, the cookie pair when a cookie was sent, the TCP keepalive on plain TCP, and padding on padded connections; nothing else.", "quantifier": "every request, configuration and connection", "why_tests_cant": "All combinations of options, configurations and transports.", "anchors": ["src/dnspacket.c:do_edns_output", "src/dnspacket.c:handle_edns_option"]}
{"id": "C53", "title": "State strings mean exactly what the documentation says", "statement": "A state string is accepted exactly when it is UP or DOWN in any letter case, optionally followed by a slash and a decimal TTL of at most 2^28-1, and then means that state with that TTL (the maximum when absent).", "quantifier": "every byte string", "why_tests_cant": "Strings are unbounded; libc number parsing accepts more than digits.", "anchors": ["src/plugins/mon.c:gdnsd_mon_parse_sttl"]}
{"id": "C54", "title": "The state dump is complete and stays inside its buffer", "statement": "For any resources and states the dump lists every resource once, in registration order, with its effective and monitored state, and never overruns the buffer sized at startup.", "quantifier": "every set of resources and every reachable state", "why_tests_cant": "Numbers and lengths of resource names are unbounded.", "anchors": ["src/plugins/mon.c:gdnsd_mon_states_get_json", "src/plugins/mon.c:init_max_states_len"]}
{"id": "C55", "title": "Random choices are unbiased and the generator never degenerates", "statement": "Each outcome of a bounded draw is produced by exactly the same number of raw generator values, each order of an address set is produced by exactly one sequence of draws, and a seeded generator never reaches the absorbing zero word.", "quantifier": "every bound, every raw value, every generator state, every number of draws", "why_tests_cant": "Statistical tests only sample the raw values; equality of the counts is a claim about all 2^32 of them for every bound.", "anchors": ["include/gdnsd/rand.h:gdnsd_rand32_bounded", "include/gdnsd/rand.h:gdnsd_rand32_get", "src/dnspacket.c:shuffle_addrs_rdata"]}
{"id": "C56", "title": "Weighted choices are exactly proportional to the weights", "statement": "Among the equally likely draws of a weighted choice, exactly as many select a given set of entries as those entries weigh together, and every draw selects some entry.", "quantifier": "every list of weights and every subset of entries", "why_tests_cant": "Sampling can only estimate frequencies; an off-by-one in the running total shifts one part in the total weight.", "anchors": ["src/plugins/weighted.c:resolve", "src/plugins/weighted.c:resolve_cname"]}
{"id": "C57", "title": "metafo considers every configured datacenter in order", "statement": "The failover list of a metafo resource names every configured datacenter exactly once, in configuration order.", "quantifier": "every number of datacenters", "why_tests_cant": "The numbers are stored in bytes; only very large configurations show the wrap.", "anchors": ["src/plugins/metafo.c:res_get_mapnum"]}
{"id": "C58", "title": "Synthetic per-datacenter names reach exactly that datacenter", "statement": "A name resource/datacenter of a meta plugin is accepted for every configured datacenter and resolves to that resource restricted to that datacenter.", "quantifier": "every resource index and datacenter number", "why_tests_cant": "Large datacenter numbers take the sign bit of the returned value.", "anchors": ["src/plugins/meta_core.inc:map_res_inner", "src/plugins/meta_core.inc:CB_RES"]}
{"id": "C59", "title": "Every zone-file TTL respects the global limits, SOA and ACME included", "statement": "Any TTL found in a zone file, including the SOA's and those of ACME challenge TXT records, is served within [min_ttl, max_ttl].", "quantifier": "every accepted configuration, every TTL", "why_tests_cant": "The limits interact: whether one rule can undo another depends on every combination of settings.", "anchors": ["src/ltree.c:ltree_add_rec_soa_args", "src/ltree.c:ltree_add_rec_txt", "docs/gdnsd.config.podin:max_ttl"]}
{"id": "C60", "title": "Every query is answered exactly from the zone data", "statement": "For every name, type and zone database, the reply consists of exactly the records DNS prescribes: the followed CNAMEs, then the data of the name (or of the covering wildcard), a referral with its glue, a negative answer with the zone's SOA and the right response code, or a refusal; the counts and the authority bit agree with the records, which can be read back from the message.", "quantifier": "every zone tree loading may leave behind, every query name and type, every plugin result, every random draw", "why_tests_cant": "The number of trees, names and compression states is unbounded, and the answer depends on all of them.", "anchors": ["src/dnspacket.c:db_lookup", "src/dnspacket.c:do_auth_response", "src/dnspacket.c:do_final_auth_response", "src/dnspacket.c:chase_auth_ptr"]}
{"id": "C61", "title": "Letter case in the query does not change the answer", "statement": "Two queries whose names differ only in ASCII letter case get the same records.", "quantifier": "every query name, every spelling of it, every zone tree", "why_tests_cant": "Which comparison sees the original spelling depends on where the name lies in the tree and on CNAMEs.", "anchors": ["src/dnspacket.c:dname_is_in_wire_zone", "src/dnspacket.c:parse_query_name"]}
{"id": "C62", "title": "ACME challenges of a name are answered completely or with TC", "statement": "A TXT reply for a challenge name holds every challenge registered for the name, or is marked as truncated.", "quantifier": "every set of challenges, every size limit, every zone tree", "why_tests_cant": "Whether a set is cut depends on the sizes of everything before it in the reply.", "anchors": ["src/chal.c:chal_respond", "src/dnspacket.c:do_final_auth_response"]}
{"id": "C63", "title": "Loading zones never crashes", "statement": "For every directory of zone files, whatever names and records they hold, loading either produces data to serve or rejects the directory; it has no undefined behaviour and fails no internal assertion.", "quantifier": "every set of zone files, as sequences of the records their text spells, and every number of loader threads", "why_tests_cant": "The checks interact across records, names and zones in any order.", "anchors": ["src/ltree.c:ltree_postproc_zone", "src/ltree.c:p1_rrset_size", "src/ltree.c:ltree_add_rec_rfc3597"]}
{"id": "C64", "title": "Replies hold exactly the records of the zone files", "statement": "A query is answered with exactly the records that the zone files give for it: refusals outside all zones, referrals with all glue in delegations, own or wildcard data elsewhere, CNAMEs followed inside the zone and listed first, SOA records for negative answers, with the right counts, code and authority flag. For each query there is exactly one such reply.", "quantifier": "every directory of zone files that loads, every query name and type", "why_tests_cant": "The combinations of zone contents and queries are unbounded.", "anchors": ["src/dnspacket.c:db_lookup", "src/dnspacket.c:do_auth_response", "src/ltree.c:ltree_search_dname_zone", "src/zsrc_rfc1035.c:zsrc_rfc1035_load_zones"]}
{"id": "C65", "title": "The reply message to a request packet", "statement": "For every request packet that asks one question in class IN or ANY, a server with loaded zone files sends a message with the request's identification, the authority bit, response code and section counts of the one reply the zone files give, the question repeated, exactly the records of that reply, and an OPT record answering the request's options exactly if it has one. Over UDP the message is within the limit in force, or truncation is marked and no records are sent because they would not fit.", "quantifier": "every directory of zone files that loads, every request packet, UDP and TCP, every plugin result, random stream and challenge table", "why_tests_cant": "It ranges over all zone contents and all packets together.", "anchors": ["src/dnspacket.c:process_dns_query", "src/dnspacket.c:answer_from_db", "src/dnspacket.c:do_edns_output", "src/ltree.c"]}
{"id": "C66", "title": "Challenge replies stay in the buffer", "statement": "However many ACME challenges are registered for a name, and however large the zone's own TXT set there, answering a query is safe and the reply fits into the response buffer.", "quantifier": "every challenge table, zone and request", "why_tests_cant": "The overflow depends on the sum of the sizes of the zone's records, the challenges and the EDNS options.", "anchors": ["src/chal.c:chal_respond", "src/dnspacket.c:answer_from_db", "src/dnspacket.c:do_edns_output"]}
{"id": "C67", "title": "Idle TCP connections are closed promptly", "statement": "If the event loop runs timers when they are due, a TCP connection without a request is closed at the latest the configured timeout and 0.25 s after it became idle, and after a stop of the daemon every connection is closed at the latest 5 s later.", "quantifier": "every sequence of connects, requests, closes and clock advances", "why_tests_cant": "The worst case is a particular history of closings; no finite set of schedules covers them.", "anchors": ["src/dnsio_tcp.c:connq_adjust_timer", "src/dnsio_tcp.c:TIMEOUT_FUDGE", "src/dnsio_tcp.c:stop_handler"]}
{"id": "C68", "title": "External check results reach the daemon in order and none is lost", "statement": "While the callbacks of the helper process are not late by more than the slack between timeout and interval, the updates the daemon makes because of external checks are the results of the checks, in the order in which they ended, each once and for the right monitor; and when the pipe has taken all that was written, none is missing, however often the pipe was full.", "quantifier": "every set of monitors, every sequence of timer, child and pipe events in both processes, every way of splitting the data in the pipe", "why_tests_cant": "The queue is used only when the pipe is full, grows by copying its ring, and the order of checks' ends is arbitrary.", "anchors": ["src/plugins/extmon_helper.c:sendq_enq", "src/plugins/extmon_helper.c:mon_write_cb", "src/plugins/extmon_comms.c:emc_encode_mon", "src/plugins/extmon.c:helper_read_cb"]}
{"id": "C69", "title": "External checks run one at a time per monitor, within limits and in time", "statement": "The helper starts a check of a monitor only when the check before has its result and the limit of processes allows it; every check gets exactly one result, good only if its own process ended with status 0, and not later than its timeout; only processes of the helper are killed; and no assertion fails.", "quantifier": "every set of monitors that the configuration allows, every sequence of timer, child and signal events", "why_tests_cant": "Processes end at arbitrary times in arbitrary order, and signals and timers interleave with that.", "anchors": ["src/plugins/extmon_helper.c:mon_interval_cb", "src/plugins/extmon_helper.c:mon_timeout_cb", "src/plugins/extmon_helper.c:mon_child_cb", "src/plugins/extmon_helper.c:sig_cb"]}
{"id": "C70", "title": "The daemon does not wait for ever for, nor believe for ever, external checks", "statement": "The start of the daemon waits exactly until every externally monitored resource has a first state or the helper has failed; afterwards, while the helper has not failed, each resource is updated at least once per twice the sum of its timeout and interval, by the helper or else by the plugin as failed; after a failure of the helper the states stay as they are.", "quantifier": "every sequence of words from the helper, including none and an end of the pipe, and every timing", "why_tests_cant": "The helper may hang, end or send anything at any time.", "anchors": ["src/plugins/extmon.c:helper_read_cb", "src/plugins/extmon.c:local_timeout_cb", "src/plugins/extmon.c:plugin_extmon_init_monitors", "src/plugins/extmon.c:plugin_extmon_start_monitors"]}
{"id": "C71", "title": "A zone file means what its syntax says", "statement": "Scanning a zone file succeeds exactly if the file (with the files it includes) is a sequence of directives and records of the documented syntax, and then adds exactly the records it denotes, in order, with the owners, TTLs and data that $ORIGIN, $TTL, $INCLUDE, @, @Z, @F and omitted owners give them; a file denotes one list of records.", "quantifier": "every content of every file, every zone name, every setting", "why_tests_cant": "The texts are unbounded, and the automaton has thousands of paths; tests sample a few.", "anchors": ["src/zscan_rfc1035.rl:_scan_isolate_jmp", "src/zscan_rfc1035.rl:process_include", "src/zscan_rfc1035.rl:dname_set", "src/zscan_rfc1035.rl:rec_*"]}
{"id": "C72", "title": "No zone file can stop the daemon, and what is scanned can be loaded", "statement": "Whatever bytes zone files contain, scanning ends with records or an error message: no access outside of a buffer, no failed assertion, no fatal exit; and the records meet the conditions under which loading and answering are correct.", "quantifier": "every content of every file", "why_tests_cant": "Hostile or broken files are unbounded in number.", "anchors": ["src/zscan_rfc1035.rl:zscan_rfc1035", "src/zscan_rfc1035.rl:text_add_tok", "src/zscan_rfc1035.rl:rfc3597_data_setup", "src/zscan_rfc1035.rl:preprocess_buf"]}
{"id": "C73", "title": "Control clients get exactly their responses, in order", "statement": "What a control client receives is always a part from the start of the sequence of responses to its requests: eight bytes that tell the length of the data or the number of descriptors, then exactly those data or descriptors, with nothing lost, repeated or mixed between clients; before the next request of a client is read, all of it was sent.", "quantifier": "every number of clients, every order of events and every way in which sends are split", "why_tests_cant": "Partial writes and interleavings of clients are unbounded.", "anchors": ["src/css.c:css_conn_write_resp", "src/css.c:css_conn_write_data", "src/css.c:respond"]}
{"id": "C74", "title": "Every control request gets what the protocol says", "statement": "For every request of eight bytes that a client may make, the daemon does exactly what the control protocol says for its key, numbers and the state of replacement and reloads, and sends that answer: information, statistics, states, reload, flush, replacement, the three steps of a takeover, stop, or unknown.", "quantifier": "every request, after every history", "why_tests_cant": "There are 2^64 requests and unboundedly many histories.", "anchors": ["src/css.c:css_conn_read", "src/css.c:handle_req_stop", "src/css.c:handle_req_zrel", "src/css.c:handle_req_repl", "src/css.c:handle_req_tak1", "src/css.c:handle_req_tak2", "src/css.c:handle_req_take"]}
{"id": "C75", "title": "Control clients cannot crash the daemon or harm other processes", "statement": "No sequence of requests, connections, disconnections, process deaths and ends of loads makes the daemon fail an assertion, use a freed connection or join a thread twice; there is at most one load at a time; and only the replacement process is ever killed.", "quantifier": "every interleaving of events", "why_tests_cant": "The failing interleavings are rare combinations of three or more clients and processes.", "anchors": ["src/css.c:css_watch_replace", "src/css.c:css_conn_cleanup", "src/css.c:handle_req_tak1", "src/main.c:reload_zones_done"]}
{"id": "C76", "title": "Configuration files mean what their language says", "statement": "Reading a configuration text, with all files, directories and patterns it includes, gives the tree that the grammar of the configuration language gives it, with strings unescaped, keys in order and included hashes merged; a text the grammar does not accept is refused; a text has at most one meaning; and reading ends in a tree or a reported error without leaving a buffer or failing an assertion.", "quantifier": "every text, every tree of files that do not include themselves, both orders of the generated scanner's actions", "why_tests_cant": "Texts, nesting depth and include structures are unbounded, and the scanner's state is spread over a stack and pointers into the buffer.", "anchors": ["libgdnsd/vscf.rl:vscf_scan_buf", "libgdnsd/vscf.rl:vscf_scan_filename", "libgdnsd/vscf.rl:vscf_include_glob_or_dir", "libgdnsd/vscf.rl:unescape_string"]}
{"id": "C77", "title": "Configuration hashes keep every key, its order and its marks", "statement": "After any sequence of additions, lookups, marks, index queries, walks and sorts, a configuration hash answers as an ordered list of distinct keys would: an added key is found with its value, a key that is there is refused, indexes and walks follow the order of addition or the last sort, marked entries are skipped only when asked for, and growing the table changes nothing.", "quantifier": "every sequence of fewer than 2^31 operations, every hash function, every comparison used for sorting that permutes", "why_tests_cant": "The table grows and rechains at sizes and with collisions that depend on all keys ever added; tests see few of them.", "anchors": ["libgdnsd/vscf.rl:hash_add_val", "libgdnsd/vscf.rl:hash_grow", "libgdnsd/vscf.rl:vscf_hash_get_data_bykey", "libgdnsd/vscf.rl:vscf_hash_iterate", "libgdnsd/vscf.rl:vscf_hash_sort", "include/gdnsd/misc.h:count2mask"]}
{"id": "C78", "title": "Numbers and truth values in the configuration are read exactly or refused", "statement": "A configuration value is converted to a number only if the whole value is a numeral in decimal, octal or hexadecimal notation that fits, and then to that number; to a truth value only if it is `true` or `false` in any case.", "quantifier": "every value, including values with zero bytes and of any length", "why_tests_cant": "All strings are possible values, and overflow depends on length and base.", "anchors": ["libgdnsd/vscf.rl:vscf_simple_get_as_ulong", "libgdnsd/vscf.rl:vscf_simple_get_as_long", "libgdnsd/vscf.rl:vscf_simple_get_as_bool"]}
{"id": "C79", "title": "Copied and inherited configuration is the same configuration", "statement": "A copy of configuration data has the same values, keys and order, without marks and, if asked for, without what was marked. Inheriting gives a hash exactly the keys it does not have, as copies behind its own, and changes nothing it has; handing a key down gives it to exactly the other children that are hashes and do not have it.", "quantifier": "every tree of configuration data with distinct keys, every key without a zero byte, every combination of flags", "why_tests_cant": "Trees are nested to any depth, and handing down reads the data it changes.", "anchors": ["libgdnsd/vscf.rl:vscf_clone", "libgdnsd/vscf.rl:vscf_hash_inherit", "libgdnsd/vscf.rl:vscf_hash_inherit_all", "libgdnsd/vscf.rl:vscf_hash_bequeath_all", "libgdnsd/vscf.rl:vscf_array_get_data"]}
{"id": "C80", "title": "Every UDP reply goes to the sender of its request, from the address it was sent to, in order", "statement": "Whatever the system calls of a UDP thread return, the replies it sends are those the packet code produces for the datagrams received, in order, each once, to the address, port and interface the request came from and with the control data of the request; datagrams from port 0 are dropped and counted, and failures are counted. Both receive paths, one datagram or many at a time, give the same replies.", "quantifier": "every sequence of datagrams and of results of recvmsg, recvmmsg, sendmsg and sendmmsg, including partial batches and failures, on both paths", "why_tests_cant": "Results of system calls and the grouping of datagrams into batches are up to the kernel.", "anchors": ["src/dnsio_udp.c:mainloop", "src/dnsio_udp.c:mainloop_mmsg", "src/dnsio_udp.c:process_msg", "src/dnsio_udp.c:ipv6_pktinfo_ifindex_fixup"]}
{"id": "C81", "title": "UDP threads stop when told to and never hold up reclamation", "statement": "After the daemon tells a UDP thread to stop, at whatever point the thread is, the thread ends after a bounded number of steps with at most one wait of 257 ms; it ends for no other reason. While it handles requests the data it reads is protected; while it waits without limit it is not waited for; and between two bounded waits it passes a quiescent state.", "quantifier": "every interleaving of the steps of the thread with signals sent by the daemon or by others, and every delivery point", "why_tests_cant": "A race between the test of the flag, the signal mask and the wait shows up only in some interleavings.", "anchors": ["src/dnsio_udp.c:slow_idle_poll", "src/dnsio_udp.c:sighand_stop", "src/dnsio_udp.c:mainloop_mmsg", "src/main.c:main"]}
{"id": "C82", "title": "Options are accepted exactly if they are as documented, and mean what they say", "statement": "A configuration is accepted if and only if every name under options is known (including those of older versions, which are ignored), every value has its type and is in its range, the relations between options hold (min_ttl is at most max_ttl and max_ncache_ttl; max_nocookie_response is 0 or at least 128; at most one of nsid and nsid_ascii; lengths of chaos_response and NSIDs), and there is nothing else at the top than options, service_types and plugins. Then each setting is the one given, or its default; the CHAOS answer is a well-formed record with the given text and the NSID is the bytes given. No input makes an assertion fail or a table be read outside its bounds.", "quantifier": "every tree of configuration data, every interpretation of numeric addresses", "why_tests_cant": "About fifty options interact with unknown names, defaults and ranges; that nothing else is accepted is a statement about all inputs.", "anchors": ["src/conf.c:conf_load", "src/conf.c:set_chaos", "src/conf.c:set_nsid", "src/conf.c:set_nsid_ascii", "src/socks.c:socks_conf_load", "libgdnsd/paths.c:gdnsd_init_paths"]}
{"id": "C83", "title": "Listeners and control addresses are those of the configuration", "statement": "The daemon listens on exactly the addresses the configuration names, in order, each with its own numbers or else the global ones; a PROXY listener has no UDP threads and no UDP options and must not have port 53; control addresses need a port and have exactly the rights given. Every listener gets exactly as many UDP and TCP threads as it should have, at least one for TCP, and there are no other threads.", "quantifier": "every tree of configuration data, every interpretation of numeric addresses, both byte orders", "why_tests_cant": "Ranges over all combinations of forms (absent, any, string, list, hash with options) and all ports and byte orders.", "anchors": ["src/socks.c:process_listen", "src/socks.c:fill_dns_addrs", "src/socks.c:process_listen_hashentry", "src/socks.c:process_tcp_control", "src/socks.c:process_control_item"]}
{"id": "C84", "title": "Texts of addresses are read as what they say", "statement": "A text is accepted as an address if and only if it is an IPv4 address with or without a port, an IPv6 address, or an address in brackets with or without a port; its port is used, or the default if it has none; an address the daemon prints is read back as the same address.", "quantifier": "every text, default port and interpretation of numeric addresses", "why_tests_cant": "The space of texts is infinite and the corner cases (colons without ports, brackets) combine.", "anchors": ["libgdnsd/net.c:gdnsd_anysin_fromstr", "libgdnsd/net.c:gdnsd_anysin_getaddrinfo", "libgdnsd/net.c:gdnsd_anysin2str"]}
{"id": "C85", "title": "Every round of an HTTP check has one result", "statement": "For every history of timers, sockets and answers, monitoring over HTTP works as one check after the other: each opens at most one socket and closes it again, sends the request in order without gaps, reads an answer, and reports one result; a round begins a check or is left out because the one before is still under way; a check whose time is up fails.", "quantifier": "every sequence of timer, socket and read/write events, with any partial reads and writes, any errors and any descriptors", "why_tests_cant": "The orders of timers, readiness and short reads and writes are unbounded.", "anchors": ["src/plugins/http_status.c:mon_interval_cb", "src/plugins/http_status.c:mon_write_cb", "src/plugins/http_status.c:mon_read_cb", "src/plugins/http_status.c:mon_timeout_cb"]}
{"id": "C86", "title": "An HTTP check is up only for a wanted status", "statement": "The request sent is the complete request for the path and the host of the service type. An address is reported up only if it answered with an HTTP status line whose code is one of the wanted codes, and is reported up whenever it did.", "quantifier": "every answer, every list of codes, every path and host, any split of the answer into reads", "why_tests_cant": "Answers are arbitrary bytes split in arbitrary ways.", "anchors": ["src/plugins/http_status.c:mon_read_cb", "src/plugins/http_status.c:make_req_data"]}
{"id": "C87", "title": "A server that hangs up has failed", "statement": "When a server closes the connection before it has answered, the check ends with a failure.", "quantifier": "every history of a check and every amount of an incomplete answer", "why_tests_cant": "The end of the connection can come at any point of any history.", "anchors": ["src/plugins/http_status.c:mon_read_cb"]}
{"id": "C88", "title": "Every round of a TCP check has one result", "statement": "For every history, monitoring of connections works as one check after the other: each opens at most one socket and closes it again and reports up exactly if the connection was made; a round begins a check or is left out because the one before is under way; a check whose time is up fails.", "quantifier": "every sequence of timer and socket events with any errors", "why_tests_cant": "The orders of timers and connections are unbounded.", "anchors": ["src/plugins/tcp_connect.c:mon_interval_cb", "src/plugins/tcp_connect.c:mon_connect_cb", "src/plugins/tcp_connect.c:mon_timeout_cb"]}
{"id": "C89", "title": "Service types are what the configuration says", "statement": "A `service_types` stanza is accepted exactly if each of its entries is a service type: a name that is not reserved, a plugin that can monitor, numbers in their ranges, a timeout below the interval, the options of that plugin with data of the right kind and no other options. Then every option has the value that is written or its default. Reading it never goes wrong.", "quantifier": "every configuration tree", "why_tests_cant": "Configurations are unbounded trees; options interact with their defaults and ranges.", "anchors": ["src/plugins/mon.c:gdnsd_mon_cfg_stypes_p1", "src/plugins/mon.c:gdnsd_mon_cfg_stypes_p2", "src/plugins/http_status.c:plugin_http_status_add_svctype", "src/plugins/extmon.c:plugin_extmon_add_svctype", "src/plugins/extfile.c:plugin_extfile_add_svctype", "src/plugins/static.c:plugin_static_add_svctype"]}
{"id": "C90", "title": "What is monitored once has one state", "statement": "Requests for the same service type and the same address or name share one state, all others have different ones. Everything that is requested of a configured service type is monitored exactly once, by the plugin and with the options of that service type; nothing else is monitored. A configuration is accepted exactly if every request can be served.", "quantifier": "every configuration tree and every sequence of requests", "why_tests_cant": "Sharing depends on the whole history of requests.", "anchors": ["src/plugins/mon.c:mon_thing", "src/plugins/mon.c:gdnsd_mon_addr", "src/plugins/mon.c:gdnsd_mon_cname", "src/plugins/mon.c:gdnsd_mon_admin", "src/plugins/mon.c:gdnsd_mon_cfg_stypes_p2"]}
{"id": "C91", "title": "A file of states is taken whole or not at all", "statement": "When a file of states is read, either every resource that is monitored with it gets exactly one update, with the state of its name in the file or the default, or the file has an error and nothing changes. The file is read when it has not changed for 1.02 seconds, once after each burst of changes, or else at every interval.", "quantifier": "every file content, every set of monitored names, every sequence of changes and times", "why_tests_cant": "File contents and the times of changes are unbounded.", "anchors": ["src/plugins/extfile.c:process_file", "src/plugins/extfile.c:process_entry", "src/plugins/extfile.c:file_cb", "src/plugins/extfile.c:timer_cb"]}
{"id": "C92", "title": "Resources of multifo are what the configuration says", "statement": "A configuration of `multifo` is accepted exactly if each resource is a set of addresses of one family, or has one or both of `addrs_v4` and `addrs_v6` and otherwise parameters only, every address is of its family, every parameter has data of the right kind, the share is above 0 and at most 1, and no set has more than 360 addresses. Then each set has its addresses in order, with the service types, share and flag of the innermost hash that has them. The limits on the number of addresses in an answer cover all sets. Reading it never goes wrong.", "quantifier": "every configuration tree", "why_tests_cant": "Configurations are unbounded trees with inheritance over three levels.", "anchors": ["src/plugins/multifo.c:plugin_multifo_load_config", "src/plugins/multifo.c:config_res", "src/plugins/multifo.c:config_auto", "src/plugins/multifo.c:config_addrs", "libgdnsd/vscf.rl:vscf_hash_bequeath_all"]}
{"id": "C93", "title": "Resources of simplefo are what the configuration says", "statement": "A configuration of `simplefo` is accepted exactly if each resource is a pair of a primary and a secondary address of the same family, or has one or both of `addrs_v4` and `addrs_v6` with such pairs, and nothing else except `service_types`. Then each pair has its addresses and the service types of the innermost hash that has them. Reading it never goes wrong.", "quantifier": "every configuration tree", "why_tests_cant": "Configurations are unbounded trees with inheritance over three levels.", "anchors": ["src/plugins/simplefo.c:plugin_simplefo_load_config", "src/plugins/simplefo.c:config_res", "src/plugins/simplefo.c:config_addrs"]}
{"id": "C94", "title": "Failover answers follow from the configuration and the states", "statement": "A resource of `multifo` answers the addresses of its configuration that are up for all of their service types if enough are, otherwise all of them; a resource of `simplefo` answers its primary address unless only the secondary one is up. Each address is judged by its own states only, whatever other resources and plugins ask for monitoring before or after. The TTL is the smallest of those that count. No answer is empty and no assertion fails.", "quantifier": "every configuration, every set of other monitoring requests and every table of states", "why_tests_cant": "Indices of states depend on all of the configuration; states are arbitrary.", "anchors": ["src/plugins/multifo.c:plugin_multifo_resolve", "src/plugins/multifo.c:addr_setup", "src/plugins/simplefo.c:plugin_simplefo_resolve", "src/plugins/mon.c:gdnsd_mon_addr"]}
{"id": "C95", "title": "Resources of weighted are what the configuration says", "statement": "A configuration of `weighted` is accepted exactly if each resource has one or both of `addrs_v4` and `addrs_v6` and otherwise parameters only, or else is itself a set of addresses of one family, of groups of them, or of names; a set has 1 to 64 groups, addresses or names, a group 1 to 64 addresses; each has a weight from 1 to 1048575; names are fully qualified and legal. Then each set has its groups and weights in order, with the service types, share and flag of the innermost hash that has them. The weight that must be up is the share of all the weight, from 1 to all of it, and no sum of weights overflows. Reading it never goes wrong.", "quantifier": "every configuration tree", "why_tests_cant": "Configurations are unbounded trees with inheritance over three levels.", "anchors": ["src/plugins/weighted.c:plugin_weighted_load_config", "src/plugins/weighted.c:config_res", "src/plugins/weighted.c:config_auto", "src/plugins/weighted.c:config_addrset", "src/plugins/weighted.c:config_addr_group_addr", "src/plugins/weighted.c:config_cnameset"]}
{"id": "C96", "title": "Weighted answers follow from the configuration and the states", "statement": "A resource of `weighted` with addresses answers, for each family that it has, at most one address of each group with `multi`, or else addresses of one group; a resource with names answers one of its names. Addresses and names that are down for one of their service types are answered only while the weight of those that are up is below the configured share. Each is judged by its own states only, whatever other resources and plugins ask for monitoring. The TTL is the smallest of all states. No answer is empty and no assertion fails.", "quantifier": "every configuration, every set of other monitoring requests, every table of states and every sequence of random numbers", "why_tests_cant": "Indices of states depend on all of the configuration; states and random numbers are arbitrary.", "anchors": ["src/plugins/weighted.c:plugin_weighted_resolve", "src/plugins/weighted.c:resolve", "src/plugins/weighted.c:resolve_cname", "src/plugins/mon.c:gdnsd_mon_cname"]}
{"id": "C97", "title": "Resources of metafo and geoip are what the configuration says", "statement": "A configuration of `metafo` or `geoip` is accepted exactly if each resource, with what it inherits from the top level, has a list of datacenters (metafo) or the name of a map (geoip), a `dcmap` with known datacenters only (all of them unless `undefined_datacenters_ok`), and each of them is a reference to a resource, a fully qualified legal name, or options from which a resource of another plugin is made. The new resource has the options of the datacenter and those it inherits, under a name that no other has, in the stanza of its plugin; nothing that was there is changed. A reference to the resource itself is refused.", "quantifier": "every configuration tree, and every configuration of the other plugins", "why_tests_cant": "Configurations are unbounded trees with inheritance over several levels, and resources are synthesized into other stanzas.", "anchors": ["src/plugins/meta_core.inc:CB_LOAD_CONFIG", "src/plugins/meta_core.inc:make_resource", "src/plugins/meta_core.inc:config_res_dcmap", "src/plugins/meta_core.inc:config_res_perdc", "src/plugins/meta_core.inc:inject_child_plugin_config", "src/plugins/metafo.c:res_get_mapnum", "src/plugins/geoip.c:res_get_mapnum", "src/plugins/geoip.c:top_config_hook"]}
{"id": "C98", "title": "Datacenter failover follows from the configuration and the states", "statement": "A resource of `metafo` answers with what the first of its datacenters that is up says, in the order of `datacenters`; one of `geoip` does so for the datacenters of the client's list that the resource has. With `skip_first` the first is left out if there is another. If all are down, the first answers and the result is down. A datacenter that is a name is up if the name is for all its service types; one that refers to a resource is as that resource; what the administrator set for the datacenter of the resource, or else of the map, counts instead. Each is judged by its own states only, whatever else is monitored. The TTL is the smallest of those tried. The resource can itself be referred to.", "quantifier": "every configuration, every set of other monitoring requests, every table of states, every list of datacenters for a client, and every behaviour of the resources referred to that satisfies their contract", "why_tests_cant": "Indices of states depend on all of the configuration; states, lists and nesting are arbitrary.", "anchors": ["src/plugins/meta_core.inc:CB_RES", "src/plugins/meta_core.inc:resolve_dc", "src/plugins/meta_core.inc:config_res_perdc", "src/plugins/mon.c:gdnsd_mon_admin", "src/plugins/mon.c:gdnsd_mon_cname"]}
{"id": "C99", "title": "Maps of geoip are what the configuration says", "statement": "A map is accepted exactly if it has between 1 and 254 datacenters none of which is called `auto`, `auto_dc_coords` only for known datacenters with a latitude within 90 and a longitude within 180 degrees, a legal `auto_dc_limit`, `ignore_ecs` and `geoip2_db`, a `map` stanza (only with a database) that consists of lists of known datacenters (or `auto`, if there are coordinates) and of hashes of such, `nets` that are networks outside of the parts of IPv6 that stand for IPv4 with lists of known datacenters, or a file, and no other key. It then has just the datacenters, coordinates, limit and networks that are written there, numbered in their order. The states of datacenters can be set under `geoip/MAP/DATACENTER`. Nothing is written outside of an array.", "quantifier": "every configuration tree of maps, and every C library (numbers and addresses) that gives addresses of the right size", "why_tests_cant": "Configurations are unbounded nested trees; the limits concern any number of entries.", "anchors": ["libgdmaps/gdmaps.c:gdmap_init", "libgdmaps/gdmaps.c:gdmaps_new", "libgdmaps/dcinfo.c:dcinfo_init", "libgdmaps/dcinfo.c:dcinfo_init_auto", "libgdmaps/dclists.c:dclists_xlate_vscf", "libgdmaps/dcmap.c:dcmap_new", "libgdmaps/nets.c:nets_parse"]}
{"id": "C100", "title": "Clients get the datacenters that the map stanza says for their place", "statement": "For every accepted map, database and record in it: the list of datacenters is the one written for the innermost scope of the `map` stanza that mentions the place, where continent, country, subdivisions and city are compared without regard to case, names below the country that are not mentioned are passed over, and `default` counts for all of its scope. If that is `auto`, the list is that of the closest datacenters, as many as the limit says, in order of distance, without those that have no coordinates; if the location is not known, it is the default list. There is one such list for each record, it does not depend on the records before, and whatever the interleaving of reloads and lookups each client that is in none of the `nets` gets that of its address. The lookup ends and writes nothing outside of its buffer.", "quantifier": "every configuration, every record of a database, every comparison of distances that is a weak order, every interleaving", "why_tests_cant": "Stanzas and records are arbitrary; lists are shared by index with automatic ones that are added while the database is walked and while lookups run.", "anchors": ["libgdmaps/gdgeoip2.c:geoip2_get_dclist", "libgdmaps/gdgeoip2.c:geoip2_dcmap_cb", "libgdmaps/dcmap.c:dcmap_lookup_loc_callback", "libgdmaps/dclists.c:dclists_city_auto_map", "libgdmaps/dclists.c:dclists_find_or_add_raw", "libgdmaps/gdmaps.c:gdmap_lookup"]}
{"id": "C101", "title": "gdnsdctl succeeds exactly if the daemon did what was asked", "statement": "If gdnsdctl ends with exit status 0, then what it sent and received on the last connection is exactly one greeting and one acknowledged request of the action (or `-i` was given for stop, replace, reload-zones or acme-dns-01-flush and no daemon answered the greeting). If that connection is one of a daemon of this version, the daemon did between request and answer what was asked: the status is that of its process and version; a reload began after the request and had no errors; challenges were flushed; the daemon stopped; another process that took its sockets stopped it; the statistics or states printed are all of its answer; the challenges of the arguments were handed over, all at once. Conversely, if the calls of the connection work and the daemon acknowledges, the exit status is 0, in whatever pieces data comes and goes, and after any number of answers `later`. No answer of a daemon and no arguments lead to accesses outside of buffers.", "quantifier": "all behaviours of the connections (errors, short transfers, any bytes), all arguments, all runs of the daemon with any other clients", "why_tests_cant": "Other clients, reloads and replacements interleave with the request; the network cuts data anywhere.", "anchors": ["src/gdnsdctl.c:main", "src/gdnsdctl.c:do_action", "src/csc.c:csc_txn", "src/csc.c:csc_txn_getdata", "src/csc.c:csc_txn_senddata", "src/csc.c:csc_new", "src/csc.c:csc_wait_stopping_server", "src/css.c:css_conn_read"]}
{"id": "C102", "title": "acme-dns-01 sends legal challenges only, and the daemon installs just these", "statement": "gdnsdctl sends challenges only if all arguments are legal: pairs of a domain name, with or without `_acme-challenge.` before it, of at most 239 bytes, and 43 characters of base64url, between 1 and 100 pairs. Otherwise nothing but the greeting is sent and the exit status is not 0. What is sent for legal arguments is accepted by the daemon as long as there are no more than 201 challenges in force, and then each name, fully qualified and in lower case, has a TXT record with its text.", "quantifier": "all lists of arguments and all states of the daemon", "why_tests_cant": "Names are arbitrary texts with escapes; the encoding of one program is decoded by the other one.", "anchors": ["src/gdnsdctl.c:action_chal", "src/gdnsdctl.c:b64u_legal", "src/csc.c:csc_txn_senddata", "src/chal.c:cset_create"]}
{"id": "C103", "title": "Starts and replacements of a daemon leave no gap and never harm a running one", "statement": "At every point of a start, wherever it ends: a daemon serves only if its configuration, zones, monitors, sockets and threads are all there and it has the lock, its own or the one it was handed; the control socket on disk is removed only by one that has the lock itself; nothing is sent unless another daemon has the lock. With -R, the old daemon has been stopped by the new one only if the new one already answers on all of its sockets; it has handed out descriptors only if configuration, zones, monitors and privileges are done; and challenges are shared only once the zones are loaded. No other request of the new daemon has an effect. `checkconf` touches no lock or socket and succeeds just if all it checks does. A second daemon without -R ends with status 42, or 0 with -i, and does nothing else.", "quantifier": "all outcomes of the parts of the start, all behaviours of the connection to the old daemon, all runs of that daemon with any other clients, all prefixes of the start (crash points)", "why_tests_cant": "The start may fail or be killed at any point and the other daemon serves other clients at the same time.", "anchors": ["src/main.c:main", "src/main.c:runtime_execute", "src/main.c:do_tak1", "src/main.c:do_tak2", "src/css.c:css_new", "src/css.c:make_lock", "src/csc.c:csc_new", "src/csc.c:csc_stop_server"]}
{"id": "C104", "title": "A replacement takes over all sockets of the old daemon, each exactly once", "statement": "Descriptors that come from the old daemon, in whatever messages, are received all and in order, or none is used. Those a new daemon has got are exactly those of the old one: the lock, the control socket and the sockets of DNS. Each socket of DNS becomes the socket of one listener of its protocol and address (apart from the scope of link-local addresses, see C104_false_scope), or is closed, and is closed only if no such listener is without one; listeners that have a socket keep it. If the listeners of both configurations are the same, in any order, then each gets its socket, none is closed, and none is bound anew.", "quantifier": "all lists of messages, descriptors and listeners, all runs of the old daemon", "why_tests_cant": "Descriptors come in any number of messages and any order relative to the configuration.", "anchors": ["src/csc.c:csc_txn_getfds", "src/csc.c:get_control_fds", "src/css.c:socks_import_fd", "src/css.c:socks_import_fds", "src/css.c:css_new", "libgdnsd/net.c:gdnsd_anysin_cmp"]}
{"id": "C105", "title": "Changes of geoip's files come to be served, and a broken file never is", "statement": "Whatever happens to the database and the `nets` file of a map, and however libev's looks, callbacks and timers interleave with it, what is served for a watched file was once read from it without error; reading something wrong, or nothing, changes nothing. If each write dates the file with the present time, libev's clock is at most four seconds behind and it reports what it saw before it looks again, then a map that is at rest serves exactly the files that are on disk, provided they are right; and this is so twelve seconds and twice the lateness of timers after libev has noticed the last change. Several reloads within seven seconds are put into service together. In general this is false: see C105_false_window, _mtime, _burst, _lag; and a nets file with an unknown datacenter ends a running daemon (C105_false_fatal).", "quantifier": "all contents of files, all histories of writes, removals, looks, callbacks and timers, at all times", "why_tests_cant": "Whether a change is noticed depends on when, relative to the clock's seconds and libev's polls, each write happens.", "anchors": ["libgdmaps/gdmaps.c:gdmap_setup_watchers", "libgdmaps/gdmaps.c:gdmap_geoip_reload_stat_cb", "libgdmaps/gdmaps.c:gdmap_nets_reload_stat_cb", "libgdmaps/gdmaps.c:gdmap_geoip_reload_timer_cb", "libgdmaps/gdmaps.c:gdmap_kick_tree_update", "libgdmaps/gdmaps.c:gdmap_tree_update_cb"]}
{"id": "C106", "title": "A record that refers to a resource is answered from that resource", "statement": "A DYNA or DYNC record is accepted exactly if the plugin it names exists and answers, the resource of that name exists, the same holds for all that the datacenters of the resource refer to in turn, and no CNAME could be the answer where only addresses may or whose target is in the zone itself. References that do not lead back to themselves are accepted or rejected without undefined behaviour. After any number of loads that succeed, each of any number of zones by several threads at once in any order, every accepted record is answered from the resource it names, down to the last plugin; a DYNA never with a name, a DYNC never with one in its own zone. In general this is false: while zones are loaded, and after a load that failed, datacenters may refer to the first resource of their plugin (C106_false_window, C106_false_failed); a plugin that does not exist ends the daemon (C106_false_unknown), and resources that refer to each other overflow the stack (C106_false_cycle).", "quantifier": "all configurations, all references, all histories of loads and all interleavings of the stores of loading threads", "why_tests_cant": "Numbers are stored in memory that all zones and threads share, so what a record is answered with depends on what was loaded when, and with it.", "anchors": ["src/plugins/plugapi.c:gdnsd_plugin_find", "src/plugins/meta_core.inc:map_res_inner", "src/plugins/meta_core.inc:CB_MAP", "src/plugins/meta_core.inc:resolve_dc", "src/ltree.c:ltree_add_rec_dynaddr", "src/ltree.c:ltree_add_rec_dync", "src/plugins/weighted.c:plugin_weighted_map_res", "src/plugins/static.c:plugin_static_map_res"]}
{"id": "C107", "title": "Loading zones neither corrupts memory nor loses any", "statement": "Whatever the zone files contain, whichever of them fail at which point, however many threads load them in whatever order, and whatever was loaded before: no block of memory is freed twice or used after it was freed, no pointer that must be there is missing, and no assertion about it fails. A load that fails leaves the memory of the zones that are served in place; one that succeeds leaves none of the old zones'. At any time the memory for zone data is that of the zones that are served, each block once. The last is false: a zone that was made and then does not load leaves its arena behind (C107_false_leak), so that reloading with an error in a zone file takes more memory each time, without bound (C107_false_bound). Proved instead is that at most one arena is left for each file of the directories that could be read but not loaded, and that there is no other memory; and none at all as long as loads succeed or the directory cannot be read.", "quantifier": "all histories of reloads, all directories and zone files including nested includes, all points of failure, all numbers of threads and orders of their work", "why_tests_cant": "Each record type, error path, and combination of zones, threads and earlier loads frees a different set of blocks, and a leak or a double free is not visible in the answers.", "anchors": ["src/ltree.c:ltree_destroy", "src/ltree.c:ltree_destroy_zone", "src/ltree.c:ltree_merge_zone", "src/ltree.c:ltree_zones_reloader_thread", "src/ltree.c:ltree_add_rec_rfc3597", "src/ltarena.c:lta_merge", "src/zscan_rfc1035.rl:zscan_do", "src/zsrc_rfc1035.c:zones_worker", "src/zsrc_rfc1035.c:harvest_zone_worker", "src/zsrc_rfc1035.c:zf_threads_early_destroy", "libgdnsd/file.c:gdnsd_fmap_new"]}
{"id": "C108", "title": "Messages about clients cannot flood the log", "statement": "Messages that clients can cause are logged for each thread as follows: a message passes exactly if fewer than ten attempts were made in the same second before it, and neither the second before had more than ten, nor the one before that with attempts in between; exactly the eleventh attempt of a second is answered by one message that tells about the suppression. So a thread never logs more than eleven lines in a second. This is so for every history of times that do not go back; a clock that jumps back and forth lets every message through (C108_false_clock).", "quantifier": "all histories of calls and their times", "why_tests_cant": "Whether a message passes depends on the whole history of the last three seconds; the cases are not visible from a few calls.", "anchors": ["libgdnsd/log.c:gdnsd_log_neterr_rate_ok"]}
{"id": "C109", "title": "Names in messages fit and can be read", "statement": "Whatever the labels, the text of a name in a message about a zone stays within its buffer. It has each byte that can be seen as itself and the others as their number in three digits; this is false for bytes above 127, each of which gives other characters (C109_false_high), and proved for all others. The pieces that a message takes from the buffer for texts never overlap and never leave it, the process ends only if a message asks for nothing or for more than there is, and a name with its zone and one more name always fit.", "quantifier": "all names of legal length, all sequences of requests for pieces", "why_tests_cant": "The longest texts and all byte values must be considered at once.", "anchors": ["src/ltree.c:logf_lstack_labels", "libgdnsd/log.c:gdnsd_fmtbuf_alloc", "libgdnsd/log.c:fmtbuf_common"]}
{"id": "C110", "title": "Every %%ITEM%% in the command of a monitor is replaced", "statement": "Replacing a text by another in a third gives the third one with every occurrence replaced, from left to right without overlaps, whatever the texts: no occurrence is missed and no other byte is changed, and nothing is written outside of the result. With texts of less than two gigabytes it never fails, and ends the process exactly if the result has 2^32 - 1 bytes or more. With larger ones that pass the checks the size can overflow (C110_false_overflow).", "quantifier": "all three texts", "why_tests_cant": "Overlapping occurrences, occurrences made by the replacement and sizes are unbounded.", "anchors": ["libgdnsd/misc.c:gdnsd_str_subst", "src/plugins/extmon.c:send_cmd"]}
{"id": "C111", "title": "A file is read completely", "statement": "However the kernel splits and interrupts the reads of a small file, what is used is exactly the bytes of the file, of the size the file had when it was opened, if that does not change and no read fails. A file that got shorter in the meantime makes the loop go on for ever (C111_false_truncated).", "quantifier": "all sequences of results of reads", "why_tests_cant": "Short reads and interruptions are up to the kernel.", "anchors": ["libgdnsd/file.c:gdnsd_fmap_new"]}
{"id": "C112", "title": "The exit status of daemonize tells whether the daemon started", "statement": "Whatever calls fail, whichever of the three processes are killed at which point, and in whatever order they go on: if the foreground process ends with status 0 then the daemon has told that it is ready; if it ends with another, no daemon runs and none was ready, unless someone killed one of the first two processes; it never waits for ever while the daemon goes on; and if it was interrupted, no daemon becomes ready behind its back. With -i it ends with 0 if another daemon runs already. The last is false: the daemon itself ends with 0 then, but without a word to the foreground process, which always fails (C112_false_idempotent). If SIGCHLD is ignored from the start, the foreground process fails although the daemon runs (C112_false_sigchld).", "quantifier": "all schedules of the three processes, all failures and kills at any point, all starts of a daemon", "why_tests_cant": "The outcome depends on the order in which three processes go on and on where one of them dies.", "anchors": ["src/daemon.c:do_daemonize", "src/daemon.c:daemon_fg_waiter", "src/daemon.c:gdnsd_daemon_notify_ready", "src/main.c:main"]}
{"id": "C113", "title": "A stop ends the child processes, and no others", "statement": "When the daemon stops, each child process it has registered gets one SIGTERM; those that are still there after ten seconds, and only those, get SIGKILL; it takes fifteen seconds at most and ends as soon as all were seen to be gone. No other process gets a signal. The last is false: a child that ended while the daemon ran stays registered, and when its number has been given to another process then that one is killed (C113_false_reused). Proved is that only children get signals as long as their numbers are not given to others.", "quantifier": "all sets of children and all times at which processes come and go", "why_tests_cant": "Numbers of processes are reused after a long time, and the times of ends are arbitrary.", "anchors": ["libgdnsd/misc.c:gdnsd_kill_registered_children", "libgdnsd/misc.c:wait_for_children", "libgdnsd/misc.c:gdnsd_register_child_pid", "src/plugins/extmon.c:spawn_helper", "src/plugins/extmon.c:helper_is_dead"]}
{"id": "C114", "title": "The limit of open files is raised as far as needed and allowed", "statement": "At its start the daemon sets its limit of open files such that it is never lower than before, within the hard limit, which is not changed, and at least what the daemon will need by its own estimate, or else the hard limit itself, in which case, and only then, it warns; and it is not raised beyond the estimate.", "quantifier": "all limits, finite or not, and all estimates", "why_tests_cant": "Infinite limits and all orders of the three numbers must be considered.", "anchors": ["src/main.c:try_raise_open_files"]}
{"id": "C115", "title": "The command line means what the usage says", "statement": "A command line is accepted exactly if it consists of the documented options, single or together in one argument, with the directory of -c in the same argument or the next, before or after the action, and of exactly one word that names an action in any case of letters, and has not both of -R and -i. Each option is in effect exactly if it is given, the last -c counts, and daemonize implies -l. Other order or grouping makes no difference.", "quantifier": "all lists of arguments", "why_tests_cant": "There are unboundedly many groupings and orders of options.", "anchors": ["src/main.c:parse_args", "src/main.c:main"]}
{"id": "C116", "title": "The directories of a daemon are there and its own", "statement": "If a daemon goes on after its start, its run directory is a directory with mode 0700 that belongs to the user of the daemon, and its state directory is a directory, which was made with mode 0755 if it was not there and is unchanged otherwise. It goes on exactly if these can be had. A check of the configuration changes nothing. Paths in the configuration that are absolute stand for themselves, others for what is below the directory of their kind and the prefix. The ownership is false for the superuser, who goes on with the directory of somebody else (C116_false_root), and a start that fails can change the mode of what is no directory (C116_false_touched).", "quantifier": "all states of both paths, all users, all texts of paths", "why_tests_cant": "Owners, modes and kinds of what is there combine freely.", "anchors": ["libgdnsd/paths.c:gdnsd_ensure_dir", "libgdnsd/paths.c:gdnsd_init_paths", "libgdnsd/paths.c:gdnsd_resolve_path"]}
{"id": "C117", "title": "Timeouts of connections are compared as the kernel rounds them", "statement": "For every number of seconds, the number expected of the kernel for TCP_DEFER_ACCEPT is the least time that some number of tries lasts and that is not less than asked for, up to the longest possible; and a number that the kernel told is expected as it is. So a timeout that is in effect already is never taken for another.", "quantifier": "all numbers of seconds", "why_tests_cant": "All numbers must be considered, with the rounding of the kernel.", "anchors": ["libgdnsd/net.c:secs_to_retrans", "libgdnsd/net.c:retrans_to_secs", "libgdnsd/net.c:tcpdefaccept_xlate_secs"]}
{"id": "C118", "title": "Sockets have the options of the configuration, new or taken over", "statement": "Whatever options a listening socket had, be it new or taken over from another daemon: if the daemon goes on, the socket has all required options, the sizes of buffers and the timeout of the configuration, and the optional ones unless the kernel refuses. Doing it again sets nothing but the packet size, which the kernel does not tell. An address that is not there is bound with IP_FREEBIND, other failures end the process. False: a size of buffers beyond the limit of the system is cut without a word (C118_false_limit), and a socket that was taken over keeps the old size when the configuration has none any more (C118_false_kept).", "quantifier": "all states of sockets, all configurations, all refusals of the kernel", "why_tests_cant": "Sockets that are taken over can have any options, and the kernel can refuse any call.", "anchors": ["libgdnsd/net.c:gdnsd_sockopt_idem_int_", "src/dnsio_udp.c:udp_sock_setup", "src/dnsio_tcp.c:tcp_dns_listen_setup", "src/socks.c:socks_bind_sock"]}
{"id": "C119", "title": "Memory has the size that was asked for", "statement": "For all numbers and sizes of elements, memory that is given has exactly the size of the product, which never wraps around; otherwise the process ends, which it does only if there is no memory, or the product is 0 or too large for a size. There is no division by zero.", "quantifier": "all pairs of 64-bit numbers", "why_tests_cant": "Overflow has to be excluded for all pairs.", "anchors": ["libgdnsd/alloc.c:mul_ok", "libgdnsd/alloc.c:gdnsd_xmalloc_n", "libgdnsd/alloc.c:gdnsd_xrealloc_n"]}
{"id": "C120", "title": "The threads of listeners start and stop in order", "statement": "For every number of threads for UDP and TCP and however they are scheduled: the daemon tells that it is ready only when every thread serves, and until it is asked to stop no thread stops. When it is asked, every thread is told, none is told after it has ended, and statistics are given to the successor only when all have ended. Starting and stopping cannot get stuck and takes a bounded number of steps, and neither the table of statistics nor that of threads overflows.", "quantifier": "all numbers and kinds of threads, all schedules, all times of a request to stop", "why_tests_cant": "The interleavings of threads are unboundedly many, and lost wakeups are rare.", "anchors": ["src/main.c:start_threads", "src/main.c:request_io_threads_stop", "src/main.c:wait_io_threads_stop", "src/dnspacket.c:dnspacket_wait_stats", "src/dnspacket.c:dnspacket_stats_init", "src/dnsio_tcp.c:register_thread", "src/dnsio_tcp.c:unregister_thread", "src/dnsio_tcp.c:dnsio_tcp_request_threads_stop"]}
{"id": "C121", "title": "The command line of gdnsdctl means what the usage says", "statement": "A command line of gdnsdctl is accepted exactly if it consists of the documented options, single or together in one argument, with arguments in the same or the next one, and of an action; options count only in front of the action, the last of each kind counts, and whatever is behind the action reaches it as it is, also if it begins with a hyphen as payloads of challenges can. The timeout is from 5 to 300 seconds. What is given for the timeout is accepted exactly if it is the decimal form of such a number; this is false for texts with white space or a sign in front or anything behind (C121_false_junk).", "quantifier": "all lists of arguments", "why_tests_cant": "There are unboundedly many groupings of options and texts of arguments.", "anchors": ["src/gdnsdctl.c:parse_args", "src/gdnsdctl.c:main"]}
{"id": "C122", "title": "The event loop of a thread for TCP serves every connection, never waits online and ends when it should", "statement": "For every order of arriving data, accepted and closed connections, timeouts and a stop: no assertion fails, no closed connection is used and zone data is not used while the thread is offline for RCU. Whenever the thread may wait it is offline, and while it is busy it passes a quiescent state in every round, so that it never holds back a reload of zones. A connection waits for data exactly if no complete request is in its buffer; if one is, the loop does not wait, and by the end of the next round the request was handled or the connection is closed. The loop ends only when it was told to stop and no connection is left, after the stop none is accepted, and the round in which the timer of the grace period fires is the last.", "quantifier": "all histories of events and results of system calls, all numbers of connections", "why_tests_cant": "Starvation, lost references of the loop and missing quiescent states depend on the order of events of many connections.", "anchors": ["src/dnsio_tcp.c:conn_respond", "src/dnsio_tcp.c:check_handler", "src/dnsio_tcp.c:read_handler", "src/dnsio_tcp.c:accept_handler", "src/dnsio_tcp.c:prep_handler", "src/dnsio_tcp.c:stop_handler", "src/dnsio_tcp.c:timeout_handler", "src/dnsio_tcp.c:connq_destruct_conn"]}
{"id": "C123", "title": "The tool for testing maps shows what the server does", "statement": "gdnsd_geoip_test accepts exactly the command lines of its usage. For every map and address, the data centers and the scope that it shows are those of the server's lookups for clients with this address, without and with EDNS client subnet; a name of a map is refused exactly if there is no such map. The list of data centers is shown completely, as their names, and written within its buffer. Each line of its input with a map and an address is looked up as it is, in order. This is false of long names (C123_false_long) and lines (C123_false_split), and a map with many data centers makes the program end with a message about a bug (C123_false_names).", "quantifier": "all command lines, inputs, maps, addresses and lists of data centers", "why_tests_cant": "Inputs, trees and lists are unbounded, and the limits of buffers depend on combinations of lengths.", "anchors": ["src/plugins/gdnsd_geoip_test.c:main", "src/plugins/gdnsd_geoip_test.c:do_repl", "src/plugins/gdnsd_geoip_test.c:do_lookup", "libgdmaps/gdmaps.c:gdmaps_logf_dclist", "libgdmaps/gdmaps.c:gdmaps_name2idx"]}
{"id": "C124", "title": "The helper for external monitors gets the commands that are configured", "statement": "When a daemon with 1 to 65535 external monitors starts its helper, and the commands have a form on the wire (C43), then however reads and writes of both are split and interleaved, and with pipes of any capacity: when the helper goes on, it has exactly the commands of the monitors, in their order and with their numbers, with the item in place of %%ITEM%% in every argument; when the daemon goes on, the helper has got all of them. There is no deadlock, also if one of the processes is killed at any point, and it ends after a bounded number of calls. If none is killed, none gives up. With any other process in place of the daemon, the helper goes on only if it was told well-formed commands in this way, each with its number; and with any other in place of the helper, the daemon goes on only if it was given every answer. With more monitors, the count is cut to 16 bits (C124_false_many, C124_false_count).", "quantifier": "all lists of monitors, schedules of both processes, sizes of reads and writes, capacities of pipes and points of death", "why_tests_cant": "The two processes run concurrently, and reads and writes may be split anywhere; a deadlock depends on the schedule.", "anchors": ["src/plugins/extmon.c:spawn_helper", "src/plugins/extmon.c:send_cmd", "src/plugins/extmon_helper.c:main", "src/plugins/extmon_comms.c:emc_read_command", "src/plugins/extmon_comms.c:emc_write_string", "src/plugins/extmon_comms.c:emc_read_exact"]}
{"id": "C125", "title": "TCP clients get whole messages, and only their own", "statement": "All connections of a thread share one buffer for messages. However much the kernel takes of each write, what a client gets is the sequence of the messages for it, each behind its length in two bytes, as long as the connection is open; if it was closed, it is some of them and not all of the next, and nothing follows. A connection is closed exactly if a message was not taken at once. No byte depends on what the buffer held before or on the messages of other clients. The message that tells clients with a DSO session that the thread stops is a unidirectional one of RFC 8490 with a keepalive and an inactivity of zero, and has 468 bytes with padding.", "quantifier": "all sequences of messages to any number of connections, all results of writes and all earlier contents of the buffer", "why_tests_cant": "A leak or a broken stream depends on what was sent to whom before and on how much the kernel takes.", "anchors": ["src/dnsio_tcp.c:conn_write_packet", "src/dnsio_tcp.c:conn_send_dso_uni", "src/dnsio_tcp.c:stop_handler", "src/dnsio_tcp.c:conn_respond"]}
