{
 "claims": [
  {
   "property": "C01",
   "status": "proved",
   "theorems": [
    "Gdnsd.Dname.C01_grammar_functional",
    "Gdnsd.Dname.C01_parse_complete",
    "Gdnsd.Dname.C01_parse_exact",
    "Gdnsd.Dname.C01_parse_status"
   ],
   "note": "Exact characterization of the parser against the presentation grammar; never out of bounds."
  },
  {
   "property": "C02",
   "status": "proved",
   "theorems": [
    "Gdnsd.Dname.C02_grammar_functional",
    "Gdnsd.Dname.C02_unescape_exact",
    "Gdnsd.Dname.C02_unescape_label_exact"
   ],
   "note": "Equality with the RFC 1035 escape grammar; in bounds."
  },
  {
   "property": "C03",
   "status": "partial",
   "theorems": [
    "Gdnsd.Dname.C03_false",
    "Gdnsd.Dname.C03_false_backslash",
    "Gdnsd.Dname.C03_false_root",
    "Gdnsd.Dname.C03_print_fits",
    "Gdnsd.Dname.C03_print_parse_partial",
    "Gdnsd.Dname.C03_print_printable"
   ],
   "note": "Round trip proved for names without '.', '\\\\' or upper case in labels and other than the root; negations with witnesses for the rest."
  },
  {
   "property": "C04",
   "status": "proved",
   "theorems": [
    "Gdnsd.Dname.C04_cmp",
    "Gdnsd.Dname.C04_drop_zone",
    "Gdnsd.Dname.C04_isinzone"
   ],
   "note": "In-zone test is label-suffix; drop_zone leaves leading labels; comparison."
  },
  {
   "property": "C05",
   "status": "proved",
   "theorems": [
    "Gdnsd.Dname.C05_cat",
    "Gdnsd.Dname.C05_cat_wf"
   ],
   "note": "Concatenation is label-list append, fails exactly above 255 bytes."
  },
  {
   "property": "C06",
   "status": "proved",
   "theorems": [
    "Gdnsd.Packet.C06_decode_defined",
    "Gdnsd.Packet.C06_offset_inside"
   ],
   "note": "decode_query has no undefined behaviour for any packet."
  },
  {
   "property": "C07",
   "status": "proved",
   "theorems": [
    "Gdnsd.Packet.C07_malformed_rejected",
    "Gdnsd.Packet.C07_question",
    "Gdnsd.Packet.C07_question_read"
   ],
   "note": "Question decoded is the one sent; malformed ones are rejected."
  },
  {
   "property": "C08",
   "status": "proved",
   "theorems": [
    "Gdnsd.Packet.C08_class",
    "Gdnsd.Packet.C08_dropped",
    "Gdnsd.Packet.C08_plain",
    "Gdnsd.Packet.C08_rcode",
    "Gdnsd.Packet.C08_verdict"
   ],
   "note": "Verdict equals an independent protocol specification; plain corollaries."
  },
  {
   "property": "C09",
   "status": "partial",
   "theorems": [
    "Gdnsd.Packet.C09_accept_iff",
    "Gdnsd.Packet.C09_address_partial",
    "Gdnsd.Packet.C09_false_repeated",
    "Gdnsd.Packet.C09_illegal_formerr"
   ],
   "note": "Acceptance is exactly RFC 7871 legality and the first option's address is exact; with repeated options a mixture of addresses is used (C09_false_repeated)."
  },
  {
   "property": "C10",
   "status": "partial",
   "theorems": [
    "Gdnsd.Packet.C10_buffer",
    "Gdnsd.Packet.C10_false_chaos",
    "Gdnsd.Packet.C10_responds_partial",
    "Gdnsd.Packet.C10_truncation",
    "Gdnsd.Packet.C10_udp_partial"
   ],
   "note": "UDP limits, truncation contents and buffer bound proved for every request, database answer and configuration except: class CH answers ignore the limit (C10_false_chaos); the database answer's own size bound is a hypothesis (DbFits)."
  },
  {
   "property": "C11",
   "status": "partial",
   "theorems": [
    "Gdnsd.Packet.C11_exact_partial",
    "Gdnsd.Packet.C11_false_badvers_tcp",
    "Gdnsd.Packet.C11_false_repeated_ecs",
    "Gdnsd.Packet.C11_false_repeated_nsid",
    "Gdnsd.Packet.C11_reserved"
   ],
   "note": "Emission equals reservation when no option repeats and the version is supported; reservation is bounded always; three negation witnesses."
  },
  {
   "property": "C12",
   "status": "proved",
   "theorems": [
    "Gdnsd.Packet.C12_padded",
    "Gdnsd.Packet.C12_unpadded"
   ],
   "note": "Length of padded replies is a multiple of 468, in the non-padded case no padding option."
  },
  {
   "property": "C13",
   "status": "proved",
   "theorems": [
    "Gdnsd.Packet.C13_counts",
    "Gdnsd.Packet.C13_header",
    "Gdnsd.Packet.C13_question"
   ],
   "note": "Header bits, question echo and section counts of every reply; record counts of the zone answer are a hypothesis about the database part."
  },
  {
   "property": "C14",
   "status": "proved",
   "theorems": [
    "Gdnsd.Enc.C14_lossless",
    "Gdnsd.Enc.C14_unique"
   ],
   "note": "Every sequence of stored and repeated names, with arbitrary data in between, up to 16384 bytes; letter case of a suffix shared with the query may differ."
  },
  {
   "property": "C15",
   "status": "proved",
   "theorems": [
    "Gdnsd.Rand.C15_bound_zero",
    "Gdnsd.Rand.C15_in_range",
    "Gdnsd.Rand.C15_shuffle"
   ],
   "note": "for every generator, state and buffer"
  },
  {
   "property": "C16",
   "status": "proved",
   "theorems": [
    "Gdnsd.Ttl.C16_dynamic",
    "Gdnsd.Ttl.C16_in_range_unchanged",
    "Gdnsd.Ttl.C16_scope",
    "Gdnsd.Ttl.C16_static"
   ],
   "note": "wire bytes of the TTL; every accepted configuration"
  },
  {
   "property": "C17",
   "status": "proved",
   "theorems": [
    "Gdnsd.Table.C17_map"
   ],
   "note": "Child table with an arbitrary hash function; find-or-add sequences of any length up to 2^62."
  },
  {
   "property": "C18",
   "status": "proved",
   "theorems": [
    "Gdnsd.Tree.C18_search",
    "Gdnsd.Tree.C18_unique",
    "Gdnsd.Tree.C18_zone"
   ],
   "note": "Query-time search and load-time in-zone search against a specification by name suffixes; the specification is shown to be unambiguous."
  },
  {
   "property": "C19",
   "status": "proved",
   "theorems": [
    "Gdnsd.Load.C19_accept",
    "Gdnsd.Load.C19_order",
    "Gdnsd.Load.C19_zone"
   ],
   "note": "Directory accepted iff every file loads alone and no zone is at or below another; order and thread count do not matter; names are looked for in their zone."
  },
  {
   "property": "C20",
   "status": "partial",
   "theorems": [
    "Gdnsd.Lookup.C20_false_assert",
    "Gdnsd.Lookup.C20_false_mixed",
    "Gdnsd.Lookup.C20_query_partial",
    "Gdnsd.Load.C20_reload_partial"
   ],
   "note": "Any history of reloads leaves the tree of the last directory that loads. Queries that follow no CNAME are answered from one tree; false for the others (C20_false_mixed, C20_false_assert)."
  },
  {
   "property": "C21",
   "status": "proved",
   "theorems": [
    "Gdnsd.Load.C21_bound",
    "Gdnsd.Load.C21_lookup",
    "Gdnsd.Load.C21_reject"
   ],
   "note": "Bound of 16 on files that load, longer chains and loops rejected, lookup ends within 17 rounds."
  },
  {
   "property": "C22",
   "status": "proved",
   "theorems": [
    "Gdnsd.Load.C22_fits"
   ],
   "note": "Replies from loaded files leave room for all EDNS options; replies with ACME challenges are C66."
  },
  {
   "property": "C23",
   "status": "partial",
   "theorems": [
    "Gdnsd.Load.C23_false",
    "Gdnsd.Load.C23_rules_partial"
   ],
   "note": "All rules for records within 16-bit type numbers; false beyond (C23_false)."
  },
  {
   "property": "C24",
   "status": "proved",
   "theorems": [
    "Gdnsd.Cookie.C24_accepted",
    "Gdnsd.Cookie.C24_autokey",
    "Gdnsd.Cookie.C24_history",
    "Gdnsd.Cookie.C24_keyfile",
    "Gdnsd.Cookie.C24_keyfile_untouched",
    "Gdnsd.Cookie.C24_one_hour",
    "Gdnsd.Cookie.C24_process",
    "Gdnsd.Cookie.C24_rejected"
   ],
   "note": "Exact validity condition, every rotation/request history, cross-server acceptance window, rejection modulo hash collision, one-hour timing guarantee, key files. libsodium primitives are parameters."
  },
  {
   "property": "C25",
   "status": "proved",
   "theorems": [
    "Gdnsd.Mon.C25_fails",
    "Gdnsd.Mon.C25_history",
    "Gdnsd.Mon.C25_initial",
    "Gdnsd.Mon.C25_recovers",
    "Gdnsd.Mon.C25_rule_functional",
    "Gdnsd.Mon.C25_ttl"
   ],
   "note": "Anti-flap rule on histories for any interleaving; the rule is functional; recovery, failure and TTL consequences."
  },
  {
   "property": "C26",
   "status": "proved",
   "theorems": [
    "Gdnsd.Mon.C26_delivered",
    "Gdnsd.Mon.C26_forcing",
    "Gdnsd.Mon.C26_monitored_independent"
   ],
   "note": "For any interleaving of results, direct updates, file loads, deletions and table updates; fnmatch and the file scanner are parameters."
  },
  {
   "property": "C27",
   "status": "proved",
   "theorems": [
    "Gdnsd.Mon.C27_combine",
    "Gdnsd.Mon.C27_order",
    "Gdnsd.Mon.C27_two"
   ],
   "note": ""
  },
  {
   "property": "C28",
   "status": "proved",
   "theorems": [
    "Gdnsd.Plug.C28_multifo",
    "Gdnsd.Plug.C28_share"
   ],
   "note": "all resources, tables; exact answer, down iff below threshold, TTL; threshold share exact to double rounding"
  },
  {
   "property": "C29",
   "status": "proved",
   "theorems": [
    "Gdnsd.Plug.C29_choice",
    "Gdnsd.Plug.C29_simplefo"
   ],
   "note": "state chart proved for one and both families"
  },
  {
   "property": "C30",
   "status": "proved",
   "theorems": [
    "Gdnsd.Plug.C30_cname",
    "Gdnsd.Plug.C30_config",
    "Gdnsd.Plug.C30_served_up",
    "Gdnsd.Plug.C30_weighted"
   ],
   "note": "every random stream; address sets and CNAME sets; sums exact"
  },
  {
   "property": "C31",
   "status": "proved",
   "theorems": [
    "Gdnsd.Plug.C31_all_down",
    "Gdnsd.Plug.C31_first_up",
    "Gdnsd.Plug.C31_forced",
    "Gdnsd.Plug.C31_multifo",
    "Gdnsd.Plug.C31_nested",
    "Gdnsd.Plug.C31_none",
    "Gdnsd.Plug.C31_simplefo",
    "Gdnsd.Plug.C31_static",
    "Gdnsd.Plug.C31_weighted",
    "Gdnsd.Plug.C31_weighted_cname"
   ],
   "note": "sub-resolvers arbitrary under a contract proved of every plugin and preserved by nesting; lists of at most 254 entries when filtering is needed (array bound in the code)"
  },
  {
   "property": "C32",
   "status": "partial",
   "theorems": [
    "Gdnsd.Geo.C32_contains",
    "Gdnsd.Geo.C32_false_hidden",
    "Gdnsd.Geo.C32_longest_match_partial",
    "Gdnsd.Geo.C32_refused"
   ],
   "note": "C32_longest_match_partial: missing are networks entirely covered by smaller ones (false there: C32_false_hidden) and conflicting duplicates. C32_contains: in every legal configuration the answer is the list of some network containing the address, the default only if none does."
  },
  {
   "property": "C33",
   "status": "proved",
   "theorems": [
    "Gdnsd.Plug.C33_false_nested",
    "Gdnsd.Geo.C33_scope_merged",
    "Gdnsd.Geo.C33_scope_nets"
   ],
   "note": "For every legal configuration, with and without a GeoIP database. Beyond the statement: combining several maps in one resource breaks it, C33_false_nested."
  },
  {
   "property": "C34",
   "status": "proved",
   "theorems": [
    "Gdnsd.Geo.C34_database_loads",
    "Gdnsd.Geo.C34_merge",
    "Gdnsd.Geo.C34_override",
    "Gdnsd.Geo.C34_override_longest_partial"
   ],
   "note": "C34_override: for every database and every legal list of explicit networks, covered clients get what they get without the database and all others what the database says; C34_override_longest_partial adds that it is the longest network, where C32 holds. C34_merge: the merge itself."
  },
  {
   "property": "C35",
   "status": "proved",
   "theorems": [
    "Gdnsd.Maps.C35_init_safe",
    "Gdnsd.Maps.C35_meaning",
    "Gdnsd.Maps.C35_not_lost",
    "Gdnsd.Maps.C35_safe"
   ],
   "note": "Every interleaving of a reload thread and any number of readers, sequentially consistent memory; C35_safe: no freed tree, array or list is used and every index is in range (except that building a tree of more than 132000 networks may hit its node limit, before anything is published); C35_meaning: the list that a lookup gets is what its index meant when its tree was built, and what that configuration asks for; C35_not_lost: no reload is lost."
  },
  {
   "property": "C36",
   "status": "partial",
   "theorems": [
    "Gdnsd.Maps.C36_false_default",
    "Gdnsd.Maps.C36_limit",
    "Gdnsd.Maps.C36_only_located_partial",
    "Gdnsd.Maps.C36_order_partial"
   ],
   "note": "C36_order_partial: for a default list with all datacenters, any distances and any limit: exactly limit entries, no duplicates, ordered by distance with ties in default order, nothing closer left out; C36_only_located_partial, C36_limit. False for a default list shorter than the number of datacenters: C36_false_default. The distance formula itself is a parameter."
  },
  {
   "property": "C37",
   "status": "partial",
   "theorems": [
    "Gdnsd.Chal.C37_accepted",
    "Gdnsd.Chal.C37_accepts",
    "Gdnsd.Chal.C37_answers_partial",
    "Gdnsd.Chal.C37_client_sets_partial",
    "Gdnsd.Chal.C37_false_import",
    "Gdnsd.Chal.C37_safe"
   ],
   "note": "Safety (no use after free, for all interleavings, data and hash functions), what is accepted, and the answers of lookups on any thread: all sets accepted since the last flush except oldest ones that expire within 3.2 s; with client sets only and no overdue timer nothing expired is answered. False as stated for handed-over sets (C37_false_import) and by the 3.2 s."
  },
  {
   "property": "C38",
   "status": "proved",
   "theorems": [
    "Gdnsd.Chal.C38_hand_off"
   ],
   "note": "Never undefined; the replacement has the same names and texts in the same order for all sets with more than 3.2 s left, remaining lifetime in full seconds limited by the configured time. The replacement refuses (and exits) only with more than 201 challenges whose hashes collide. At most 151204 sets, beyond which the code hands off a part."
  },
  {
   "property": "C39",
   "status": "partial",
   "theorems": [
    "Gdnsd.Stream.C39_drain",
    "Gdnsd.Stream.C39_false_proxy",
    "Gdnsd.Stream.C39_requests",
    "Gdnsd.Stream.C39_safe_partial",
    "Gdnsd.Stream.C39_segmentation_partial"
   ],
   "note": "Without PROXY headers: no undefined behaviour, the requests processed are exactly those of the stream for every segmentation, all complete requests are processed, an illegal size closes. False for proxied connections whose header is split (C39_false_proxy); safety there excludes C41_false_long."
  },
  {
   "property": "C40",
   "status": "proved",
   "theorems": [
    "Gdnsd.Connq.C40_connect",
    "Gdnsd.Connq.C40_fire",
    "Gdnsd.Connq.C40_full",
    "Gdnsd.Connq.C40_gone",
    "Gdnsd.Connq.C40_grace",
    "Gdnsd.Connq.C40_limit",
    "Gdnsd.Connq.C40_request",
    "Gdnsd.Connq.C40_safe",
    "Gdnsd.Connq.C40_stop",
    "Gdnsd.Connq.C40_timer"
   ],
   "note": "Memory safe and free of assertion failures over all histories; open connections < limit; at the limit, and when descriptors run out, exactly one connection of maximal idle time is closed; the timer closes exactly the connections idle for at least the timeout; a stop closes those that cannot be notified, its end all."
  },
  {
   "property": "C41",
   "status": "partial",
   "theorems": [
    "Gdnsd.Proxy.C41_bounds_partial",
    "Gdnsd.Proxy.C41_false_long",
    "Gdnsd.Proxy.C41_rejects",
    "Gdnsd.Proxy.C41_v1_partial",
    "Gdnsd.Proxy.C41_v2"
   ],
   "note": "Every data: rejected or exactly the header consumed, within bounds, unless a version 1 header longer than 108 bytes with a good address, which fails an assertion (C41_false_long)."
  },
  {
   "property": "C42",
   "status": "proved",
   "theorems": [
    "Gdnsd.Packet.C42_dso",
    "Gdnsd.Packet.C42_history",
    "Gdnsd.Packet.C42_other"
   ],
   "note": "Reply of every DSO request against an RFC 8490 verdict; session state over every history."
  },
  {
   "property": "C43",
   "status": "partial",
   "theorems": [
    "Gdnsd.Extmon.C43_false_long",
    "Gdnsd.Extmon.C43_long",
    "Gdnsd.Extmon.C43_read",
    "Gdnsd.Extmon.C43_round",
    "Gdnsd.Extmon.C43_write"
   ],
   "note": "writing and reading commands: round trip below 64 KiB, only encodings are accepted, nothing is misread; negation for larger commands"
  },
  {
   "property": "C44",
   "status": "proved",
   "theorems": [
    "Gdnsd.Css.C44_denied",
    "Gdnsd.Css.C44_load",
    "Gdnsd.Css.C44_permissions",
    "Gdnsd.Css.C44_remote"
   ],
   "note": "C44_permissions and C44_remote: in every history of callbacks, challenges, replacements, takeovers, stops and descriptors are caused only by clients of the Unix socket or of a listener that allows it. C44_load: the same for reloads. C44_denied: a request that is not allowed gets one D and changes nothing, for all 256 keys."
  },
  {
   "property": "C45",
   "status": "proved",
   "theorems": [
    "Gdnsd.Css.C45_deferred",
    "Gdnsd.Css.C45_end",
    "Gdnsd.Css.C45_exclusive",
    "Gdnsd.Css.C45_handed",
    "Gdnsd.Css.C45_later",
    "Gdnsd.Css.C45_later_data",
    "Gdnsd.Css.C45_nobody_waits",
    "Gdnsd.Css.C45_not_later",
    "Gdnsd.Css.C45_one",
    "Gdnsd.Css.C45_resume"
   ],
   "note": "C45_exclusive, C45_one: one replacement at a time. C45_deferred, C45_later, C45_later_data, C45_not_later: what changes something is deferred with L exactly while there is one. C45_handed: sockets and challenges go to it only. C45_nobody_waits: waiting clients were told. C45_resume: if it dies, service goes on. C45_end: the end of the daemon does not kill it."
  },
  {
   "property": "C46",
   "status": "proved",
   "theorems": [
    "Gdnsd.Css.C46_ack",
    "Gdnsd.Css.C46_bound",
    "Gdnsd.Css.C46_done",
    "Gdnsd.Css.C46_once",
    "Gdnsd.Css.C46_result",
    "Gdnsd.Css.C46_working"
   ],
   "note": "C46_ack: an acknowledged reload started after the request and succeeded. C46_once: no request is answered twice. C46_working, C46_done, C46_bound: while a client waits, a load is under way whose end is noticed; each end answers those before it and starts the next; nobody waits for more than two. That threads end and callbacks run is assumed."
  },
  {
   "property": "C47",
   "status": "proved",
   "theorems": [
    "Gdnsd.Statio.C47_arrives",
    "Gdnsd.Statio.C47_consistent",
    "Gdnsd.Statio.C47_false_length",
    "Gdnsd.Statio.C47_number",
    "Gdnsd.Statio.C47_other_version",
    "Gdnsd.Statio.C47_report",
    "Gdnsd.Statio.C47_transfer"
   ],
   "note": "The report over any chain of replacements is the independently described document (C47_report), numbers (C47_number), consistency, transfer of exactly the data or nothing, arrival, other versions. C47_false_length: the length test lets 1..3 bytes pass and reads out of bounds."
  },
  {
   "property": "C48",
   "status": "proved",
   "theorems": [
    "Gdnsd.Zscan.C48_flat",
    "Gdnsd.Zscan.C48_line",
    "Gdnsd.Zscan.C48_places",
    "Gdnsd.Zscan.C48_safe"
   ],
   "note": "Exact flattening relation, safety for files ending in newline, per-position preservation (line structure), error line numbers."
  },
  {
   "property": "C49",
   "status": "proved",
   "theorems": [
    "Gdnsd.Zscan.C49_lossless",
    "Gdnsd.Zscan.C49_safe",
    "Gdnsd.Zscan.C49_text"
   ],
   "note": "TXT data of every token list: exact chunks, 16000 bytes limit, lossless, no write outside the buffer."
  },
  {
   "property": "C50",
   "status": "proved",
   "theorems": [
    "Gdnsd.Zscan.C50_false_escaped",
    "Gdnsd.Zscan.C50_left",
    "Gdnsd.Zscan.C50_right",
    "Gdnsd.Zscan.C50_unique"
   ],
   "note": "Right- and left-hand names equal the specified completion or are rejected; unique and legal. An escaped at sign still denotes the origin (C50_false_escaped)."
  },
  {
   "property": "C51",
   "status": "proved",
   "theorems": [
    "Gdnsd.Arena.C51_disjoint",
    "Gdnsd.Arena.C51_kept",
    "Gdnsd.Arena.C51_no_leak",
    "Gdnsd.Arena.C51_safe"
   ],
   "note": "Contents of every allocation stay, allocations never overlap, no pool leaks, no undefined access, over every sequence of operations on any number of arenas."
  },
  {
   "property": "C52",
   "status": "proved",
   "theorems": [
    "Gdnsd.Packet.C52_options"
   ],
   "note": "Options of the reply as a function of the request's option list."
  },
  {
   "property": "C53",
   "status": "partial",
   "theorems": [
    "Gdnsd.Mon.C53_accepts",
    "Gdnsd.Mon.C53_false",
    "Gdnsd.Mon.C53_rejects_partial"
   ],
   "note": "Every documented string is accepted with the right meaning; strings without white space and signs are accepted only if documented. False in general: C53_false (libc strtoul accepts white space and signs)."
  },
  {
   "property": "C54",
   "status": "proved",
   "theorems": [
    "Gdnsd.Mon.C54_dump"
   ],
   "note": "Descriptions are copied verbatim; a quote in a configured name would make the JSON invalid."
  },
  {
   "property": "C55",
   "status": "proved",
   "theorems": [
    "Gdnsd.Rand.C55_first_accepted",
    "Gdnsd.Rand.C55_never_degenerate",
    "Gdnsd.Rand.C55_returns",
    "Gdnsd.Rand.C55_seed",
    "Gdnsd.Rand.C55_shuffle_is_code",
    "Gdnsd.Rand.C55_shuffle_uniform",
    "Gdnsd.Rand.C55_unbiased",
    "Gdnsd.Rand.C55_zero_absorbs"
   ],
   "note": "exact counting over all raw values; every order from exactly one draw sequence"
  },
  {
   "property": "C56",
   "status": "proved",
   "theorems": [
    "Gdnsd.Plug.C56_proportional"
   ],
   "note": "exact count over all draws below the total; rand.h itself under C15"
  },
  {
   "property": "C57",
   "status": "partial",
   "theorems": [
    "Gdnsd.Plug.C57_false",
    "Gdnsd.Plug.C57_metafo_list_partial"
   ],
   "note": "at most 255 datacenters; C57_false proves the code violates it beyond"
  },
  {
   "property": "C58",
   "status": "partial",
   "theorems": [
    "Gdnsd.Plug.C58_false",
    "Gdnsd.Plug.C58_synthetic_partial"
   ],
   "note": "datacenter numbers below 128; C58_false proves the code rejects the rest"
  },
  {
   "property": "C59",
   "status": "partial",
   "theorems": [
    "Gdnsd.Ttl.C59_false_acme",
    "Gdnsd.Ttl.C59_false_soa",
    "Gdnsd.Ttl.C59_soa_partial",
    "Gdnsd.Ttl.C59_txt_partial"
   ],
   "note": "false for SOA above max_ttl and ACME below min_ttl; the limits that do hold are proved"
  },
  {
   "property": "C60",
   "status": "proved",
   "theorems": [
    "Gdnsd.Lookup.C60_lookup",
    "Gdnsd.Lookup.C60_unique",
    "Gdnsd.Lookup.C60_verdict"
   ],
   "note": "All replies of db_lookup: refusals, referrals, data, wildcards, CNAME chains, DYNC, ANY, negative answers, ACME challenges. The tree is assumed to be in the form loading leaves behind (DbOk) and all searches of a query find the same tree."
  },
  {
   "property": "C61",
   "status": "partial",
   "theorems": [
    "Gdnsd.Lookup.C61_case_partial",
    "Gdnsd.Lookup.C61_false"
   ],
   "note": "Proved for spellings that agree on the case of the zone's name; false in general (C61_false)."
  },
  {
   "property": "C62",
   "status": "partial",
   "theorems": [
    "Gdnsd.Lookup.C62_challenges_partial",
    "Gdnsd.Lookup.C62_false"
   ],
   "note": "Complete whenever there is room for one more record; false in general (C62_false)."
  },
  {
   "property": "C63",
   "status": "partial",
   "theorems": [
    "Gdnsd.Load.C63_false_mix",
    "Gdnsd.Load.C63_false_type",
    "Gdnsd.Load.C63_safe_partial"
   ],
   "note": "No undefined behaviour unless a name has both CNAME and NS records or a type number exceeds 16 bits; both are counterexamples (C63_false_mix, C63_false_type)."
  },
  {
   "property": "C64",
   "status": "partial",
   "theorems": [
    "Gdnsd.Load.C64_false",
    "Gdnsd.Load.C64_reply_partial"
   ],
   "note": "Proved for data lengths and type numbers of at most 16 bits; false beyond (C64_false)."
  },
  {
   "property": "C65",
   "status": "partial",
   "theorems": [
    "Gdnsd.Server.C65_reply_partial"
   ],
   "note": "Holds for requests for which C11 is not false, RFC 3597 data within 16 bits, and (for TXT over TCP) without challenges; see C11_false_*, C64_false and C66_false."
  },
  {
   "property": "C66",
   "status": "partial",
   "theorems": [
    "Gdnsd.Server.C66_false",
    "Gdnsd.Server.C66_fits_partial"
   ],
   "note": "Proved for UDP with limits below the size of the buffer; false for TCP (C66_false)."
  },
  {
   "property": "C67",
   "status": "partial",
   "theorems": [
    "Gdnsd.Connq.C67_false_fudge",
    "Gdnsd.Connq.C67_idle_partial",
    "Gdnsd.Connq.C67_stop"
   ],
   "note": "Closed within timeout + 0.25 s x limit (C67_idle_partial), all within 5 s of a stop (C67_stop). The 0.25 s of the statement are false (C67_false_fudge)."
  },
  {
   "property": "C68",
   "status": "proved",
   "theorems": [
    "Gdnsd.Extmon.C68_decode",
    "Gdnsd.Extmon.C68_fail_safe",
    "Gdnsd.Extmon.C68_queue",
    "Gdnsd.Extmon.C68_updates",
    "Gdnsd.Extmon.C68_words"
   ],
   "note": "ring queue = list; words = results in order; the daemon's updates are those of the results (helper callbacks late by at most L, timeout + 2 L < interval)"
  },
  {
   "property": "C69",
   "status": "partial",
   "theorems": [
    "Gdnsd.Extmon.C69_false_stall",
    "Gdnsd.Extmon.C69_false_stuck",
    "Gdnsd.Extmon.C69_limit_partial",
    "Gdnsd.Extmon.C69_log_partial",
    "Gdnsd.Extmon.C69_noticed_partial",
    "Gdnsd.Extmon.C69_once_partial",
    "Gdnsd.Extmon.C69_safe_partial",
    "Gdnsd.Extmon.C69_time_partial"
   ],
   "note": "under bounded lateness: no assertion fails, history predicate, one result per check, limit, deadline, ends noticed when processes end before the next check; two negations without these assumptions"
  },
  {
   "property": "C70",
   "status": "proved",
   "theorems": [
    "Gdnsd.Extmon.C70_fresh",
    "Gdnsd.Extmon.C70_initial",
    "Gdnsd.Extmon.C70_safe",
    "Gdnsd.Extmon.C70_stasis"
   ],
   "note": "no assertion fails; start-up wait ends exactly when all are seen or the helper failed; freshness bound; stasis after failure"
  },
  {
   "property": "C71",
   "status": "partial",
   "theorems": [
    "Gdnsd.Zscan.C71_exact_partial",
    "Gdnsd.Zscan.C71_false_comment",
    "Gdnsd.Zscan.C71_false_minimum",
    "Gdnsd.Zscan.C71_false_number",
    "Gdnsd.Zscan.C71_false_owner",
    "Gdnsd.Zscan.C71_false_text",
    "Gdnsd.Zscan.C71_false_weeks",
    "Gdnsd.Zscan.C71_numbers",
    "Gdnsd.Zscan.C71_unique"
   ],
   "note": "Scan result = records of an independent grammar, both directions, for all files. Partial because the grammar deviates from the documentation where C71_false_* show."
  },
  {
   "property": "C72",
   "status": "partial",
   "theorems": [
    "Gdnsd.Zscan.C72_false_cycle",
    "Gdnsd.Zscan.C72_false_empty",
    "Gdnsd.Zscan.C72_false_nothing",
    "Gdnsd.Zscan.C72_false_quotes",
    "Gdnsd.Zscan.C72_false_type",
    "Gdnsd.Zscan.C72_records_partial",
    "Gdnsd.Zscan.C72_safe_partial"
   ],
   "note": "Never ub for files without empty quotes or generic data unless includes nest deeper than any given depth; records satisfy the loader's hypotheses except oversized generic types. Negations C72_false_*."
  },
  {
   "property": "C73",
   "status": "partial",
   "theorems": [
    "Gdnsd.Css.C73_complete",
    "Gdnsd.Css.C73_false_refused",
    "Gdnsd.Css.C73_header",
    "Gdnsd.Css.C73_prefix"
   ],
   "note": "C73_prefix, C73_complete, C73_header: what is sent is a prefix of what is owed, complete before the next request, with right lengths. Missing: the failure that answers an illegal TAK2 or TAKE is never sent (C73_false_refused)."
  },
  {
   "property": "C74",
   "status": "proved",
   "theorems": [
    "Gdnsd.Css.C74_challenges",
    "Gdnsd.Css.C74_reply"
   ],
   "note": "C74_reply: every request that the client may make gives exactly what the inductive protocol Reply says for the history. C74_challenges: the same for the header of challenges."
  },
  {
   "property": "C75",
   "status": "partial",
   "theorems": [
    "Gdnsd.Css.C75_false_dead",
    "Gdnsd.Css.C75_false_join",
    "Gdnsd.Css.C75_false_loads",
    "Gdnsd.Css.C75_false_pid",
    "Gdnsd.Css.C75_false_second",
    "Gdnsd.Css.C75_false_stop",
    "Gdnsd.Css.C75_false_timer",
    "Gdnsd.Css.C75_kill_partial",
    "Gdnsd.Css.C75_one_partial",
    "Gdnsd.Css.C75_safe_partial"
   ],
   "note": "C75_safe_partial: every callback is safe but for the four cases of Fault; C75_one_partial: at most one load unless a replacement was accepted during one; C75_kill_partial: whom the daemon kills. Missing parts are false: C75_false_timer, C75_false_second, C75_false_stop, C75_false_join, C75_false_loads, C75_false_dead, C75_false_pid."
  },
  {
   "property": "C76",
   "status": "partial",
   "theorems": [
    "Gdnsd.Vscf.C76_empty_directory",
    "Gdnsd.Vscf.C76_meaning_unique",
    "Gdnsd.Vscf.C76_plain_text_safe",
    "Gdnsd.Vscf.C76_scan_buf_complete",
    "Gdnsd.Vscf.C76_scan_buf_sound_partial",
    "Gdnsd.Vscf.C76_scan_complete",
    "Gdnsd.Vscf.C76_scan_safe",
    "Gdnsd.Vscf.C76_scan_safe_early_partial",
    "Gdnsd.Vscf.C76_scan_sound_partial",
    "Gdnsd.Vscf.C76_self_include",
    "Gdnsd.Vscf.C76_text_unique",
    "Gdnsd.Vscf.C76_touching"
   ],
   "note": "Complete: every text with a meaning in the grammar is read to that meaning. Sound if no directory without files is included (a witness shows what happens then). Safe for files that do not include themselves; with the other order of Ragel's actions only without quotes (witness)."
  },
  {
   "property": "C77",
   "status": "proved",
   "theorems": [
    "Gdnsd.Vscf.C77_iterate",
    "Gdnsd.Vscf.C77_keys",
    "Gdnsd.Vscf.C77_mask",
    "Gdnsd.Vscf.C77_refines"
   ],
   "note": "Refinement to ordered lists for all sequences of fewer than 2^31 operations and every hash function."
  },
  {
   "property": "C78",
   "status": "proved",
   "theorems": [
    "Gdnsd.Vscf.C78_bool",
    "Gdnsd.Vscf.C78_long",
    "Gdnsd.Vscf.C78_negative",
    "Gdnsd.Vscf.C78_ulong"
   ],
   "note": "Unsigned, signed and truth values; double is not modelled."
  },
  {
   "property": "C79",
   "status": "partial",
   "theorems": [
    "Gdnsd.Vscf.C79_arrays",
    "Gdnsd.Vscf.C79_bequeath_itself",
    "Gdnsd.Vscf.C79_bequeath_partial",
    "Gdnsd.Vscf.C79_clone",
    "Gdnsd.Vscf.C79_clone_clean",
    "Gdnsd.Vscf.C79_files",
    "Gdnsd.Vscf.C79_inherit",
    "Gdnsd.Vscf.C79_inherit_all",
    "Gdnsd.Vscf.C79_inherit_zero"
   ],
   "note": "Handing down is proved if the value of the key is not itself a hash that would get it; negation proved. Keys with zero bytes are not inherited (proved, documented)."
  },
  {
   "property": "C80",
   "status": "proved",
   "theorems": [
    "Gdnsd.Udp.C80_calls",
    "Gdnsd.Udp.C80_replies",
    "Gdnsd.Udp.C80_safe",
    "Gdnsd.Udp.C80_unique"
   ],
   "note": "Both receive paths; the packet code is a parameter, so the theorems hold for every one."
  },
  {
   "property": "C81",
   "status": "partial",
   "theorems": [
    "Gdnsd.Udp.C81_lost_signal",
    "Gdnsd.Udp.C81_only",
    "Gdnsd.Udp.C81_quiet",
    "Gdnsd.Udp.C81_rcu",
    "Gdnsd.Udp.C81_stop_partial"
   ],
   "note": "Missing: nothing in the code can make it hold when another process sends SIGUSR2 to one thread (C81_lost_signal); the theorem excludes that."
  },
  {
   "property": "C82",
   "status": "proved",
   "theorems": [
    "Gdnsd.Conf.C82_files",
    "Gdnsd.Conf.C82_none",
    "Gdnsd.Conf.C82_options",
    "Gdnsd.Conf.C82_root",
    "Gdnsd.Conf.C82_total"
   ],
   "note": "Equivalence of loading with a declarative reading of options (C82_options, C82_root), totality (C82_total), an absent hash is an empty one (C82_none), files give the data assumed (C82_files). Which texts are addresses is C84; which port a PROXY listener must not have is C83. What plugins and service types accept is a parameter."
  },
  {
   "property": "C83",
   "status": "partial",
   "theorems": [
    "Gdnsd.Conf.C83_listen_partial",
    "Gdnsd.Conf.C83_little_endian",
    "Gdnsd.Conf.C83_port53",
    "Gdnsd.Conf.C83_threads"
   ],
   "note": "C83_listen_partial is the equivalence with the documented port rule on big-endian machines. Missing: little-endian machines, where the code refuses 13568 instead of 53 (C83_little_endian, negation C83_port53). C83_threads holds on both."
  },
  {
   "property": "C84",
   "status": "partial",
   "theorems": [
    "Gdnsd.Conf.C84_address_partial",
    "Gdnsd.Conf.C84_complete",
    "Gdnsd.Conf.C84_junk",
    "Gdnsd.Conf.C84_roundtrip"
   ],
   "note": "C84_address_partial excludes texts with something else than a colon behind a bracket, which are accepted and cut off (C84_junk). C84_complete and C84_roundtrip have no such restriction. getaddrinfo is a parameter that refuses texts that are no addresses."
  },
  {
   "property": "C85",
   "status": "proved",
   "theorems": [
    "Gdnsd.Poll.C85_checks",
    "Gdnsd.Poll.C85_drained",
    "Gdnsd.Poll.C85_timeout"
   ],
   "note": "All histories of the callbacks of http_status."
  },
  {
   "property": "C86",
   "status": "partial",
   "theorems": [
    "Gdnsd.Poll.C86_no_blank",
    "Gdnsd.Poll.C86_request",
    "Gdnsd.Poll.C86_status_line",
    "Gdnsd.Poll.C86_status_partial"
   ],
   "note": "Full: up only for a status line. Missing: the byte behind the code is not checked (C86_no_blank proves it). The request and the equivalence for the other bytes are proved."
  },
  {
   "property": "C87",
   "status": "partial",
   "theorems": [
    "Gdnsd.Poll.C87_hangup_partial",
    "Gdnsd.Poll.C87_spins"
   ],
   "note": "The property is false: the end of the connection is noticed only by the timeout (C87_spins). Proved: it never counts as success."
  },
  {
   "property": "C88",
   "status": "partial",
   "theorems": [
    "Gdnsd.Poll.C88_checks_partial",
    "Gdnsd.Poll.C88_silent",
    "Gdnsd.Poll.C88_timeout"
   ],
   "note": "Missing: a round without a socket has no result (C88_silent proves it). All else is proved for all histories."
  },
  {
   "property": "C89",
   "status": "partial",
   "theorems": [
    "Gdnsd.Svc.C89_kinds",
    "Gdnsd.Svc.C89_none",
    "Gdnsd.Svc.C89_static_alone",
    "Gdnsd.Svc.C89_types_partial",
    "Gdnsd.Svc.C89_unused"
   ],
   "note": "Equivalence with the meaning of every entry, for every configuration tree. Missing: data of the wrong kind in ok_codes and direct is read as a string (proved negation C89_kinds), and static needs its own plugins stanza (C89_static_alone)."
  },
  {
   "property": "C90",
   "status": "partial",
   "theorems": [
    "Gdnsd.Svc.C90_accept_partial",
    "Gdnsd.Svc.C90_share",
    "Gdnsd.Svc.C90_states",
    "Gdnsd.Svc.C90_watched"
   ],
   "note": "Sharing, names, thresholds and what is monitored for every sequence of requests; acceptance under the same conditions as C89."
  },
  {
   "property": "C91",
   "status": "partial",
   "theorems": [
    "Gdnsd.Svc.C91_all_or_nothing_partial",
    "Gdnsd.Svc.C91_case",
    "Gdnsd.Svc.C91_default",
    "Gdnsd.Svc.C91_defined",
    "Gdnsd.Svc.C91_loaded",
    "Gdnsd.Svc.C91_monitored",
    "Gdnsd.Svc.C91_repeats",
    "Gdnsd.Svc.C91_settles"
   ],
   "note": "One update for every monitored name or none at all, for every file; timer invariants for every history. Missing: values with signs or white space (C53); names with capitals in the configuration never match (C91_case)."
  },
  {
   "property": "C92",
   "status": "partial",
   "theorems": [
    "Gdnsd.Res.C92_multifo_partial",
    "Gdnsd.Res.C92_nan",
    "Gdnsd.Res.C92_none",
    "Gdnsd.Res.C92_share"
   ],
   "note": "Missing: an up_thresh that is 'not a number', for which the claim is false (C92_nan)."
  },
  {
   "property": "C93",
   "status": "proved",
   "theorems": [
    "Gdnsd.Res.C93_none",
    "Gdnsd.Res.C93_simplefo"
   ],
   "note": ""
  },
  {
   "property": "C94",
   "status": "partial",
   "theorems": [
    "Gdnsd.Res.C94_addr",
    "Gdnsd.Res.C94_multifo_partial",
    "Gdnsd.Res.C94_simplefo"
   ],
   "note": "Proved for simplefo; for multifo without an up_thresh that is 'not a number' (as C92)."
  },
  {
   "property": "C95",
   "status": "partial",
   "theorems": [
    "Gdnsd.Wt.C95_label",
    "Gdnsd.Wt.C95_nan",
    "Gdnsd.Wt.C95_none",
    "Gdnsd.Wt.C95_ranges",
    "Gdnsd.Wt.C95_weighted_partial"
   ],
   "note": "Missing: an up_thresh that is 'not a number' (C95_nan), empty labels in groups (C95_label) and a missing configuration (C95_none), for which assertions fail."
  },
  {
   "property": "C96",
   "status": "partial",
   "theorems": [
    "Gdnsd.Wt.C96_served",
    "Gdnsd.Wt.C96_weighted_partial"
   ],
   "note": "Proved for every configuration within C95, every other request, every table of states and every sequence of random numbers."
  },
  {
   "property": "C97",
   "status": "partial",
   "theorems": [
    "Gdnsd.Meta.C97_geoip",
    "Gdnsd.Meta.C97_geoip_total_partial",
    "Gdnsd.Meta.C97_kept",
    "Gdnsd.Meta.C97_made",
    "Gdnsd.Meta.C97_metafo",
    "Gdnsd.Meta.C97_metafo_total_partial",
    "Gdnsd.Meta.C97_plugin_lost",
    "Gdnsd.Meta.C97_self",
    "Gdnsd.Meta.C97_skip_first",
    "Gdnsd.Meta.C97_stanza"
   ],
   "note": "C97_metafo and C97_geoip: accepted configurations are exactly those the manual describes, with the resources they mean and those they synthesize, for keys without zero bytes. C97_kept, C97_made: what was there stays, and what is synthesized is there. No failed assertion only under Tame and Stanzas (C97_metafo_total_partial, C97_geoip_total_partial); C97_self, C97_skip_first, C97_stanza and C97_plugin_lost show what the code does otherwise."
  },
  {
   "property": "C98",
   "status": "partial",
   "theorems": [
    "Gdnsd.Meta.C98_geoip",
    "Gdnsd.Meta.C98_metafo_partial",
    "Gdnsd.Meta.C98_pick"
   ],
   "note": "C98_metafo_partial for up to 255 datacenters (C57_false shows what happens with more); C98_geoip for all lists of a map with up to 254 datacenters; C98_pick: exactly one datacenter answers. Resources referred to are any resolvers with the contract Healthy, which the resources satisfy themselves."
  },
  {
   "property": "C99",
   "status": "partial",
   "theorems": [
    "Gdnsd.Gmap.C99_admin",
    "Gdnsd.Gmap.C99_count",
    "Gdnsd.Gmap.C99_false_ecs",
    "Gdnsd.Gmap.C99_false_nan",
    "Gdnsd.Gmap.C99_false_no_map",
    "Gdnsd.Gmap.C99_false_overflow",
    "Gdnsd.Gmap.C99_geoip_total_partial",
    "Gdnsd.Gmap.C99_hash",
    "Gdnsd.Gmap.C99_map_partial",
    "Gdnsd.Gmap.C99_maps_partial",
    "Gdnsd.Gmap.C99_maps_total_partial",
    "Gdnsd.Gmap.C99_total_partial"
   ],
   "note": "Partial: lists of at most 255 elements, ignore_ecs a text, keys of auto_dc_coords without zero bytes, fewer than 2^31 entries in map. Counterexamples for the first two are theorems (C99_false_*)."
  },
  {
   "property": "C100",
   "status": "partial",
   "theorems": [
    "Gdnsd.Gmap.C100_client_partial",
    "Gdnsd.Gmap.C100_covers",
    "Gdnsd.Gmap.C100_false_long",
    "Gdnsd.Gmap.C100_list_partial",
    "Gdnsd.Gmap.C100_located",
    "Gdnsd.Gmap.C100_maps_unique",
    "Gdnsd.Gmap.C100_place_unique",
    "Gdnsd.Gmap.C100_stable",
    "Gdnsd.Gmap.C100_total_partial"
   ],
   "note": "Partial: texts of at most 127 bytes in records; with coordinates, a default list that has every datacenter; distances that form a weak order (no NaN). C100_false_long is a counterexample beyond the first."
  },
  {
   "property": "C101",
   "status": "proved",
   "theorems": [
    "Gdnsd.Ctl.C101_effect",
    "Gdnsd.Ctl.C101_false_ignored",
    "Gdnsd.Ctl.C101_false_pipe",
    "Gdnsd.Ctl.C101_false_refused",
    "Gdnsd.Ctl.C101_success",
    "Gdnsd.Ctl.C101_total",
    "Gdnsd.Ctl.C101_works"
   ],
   "note": "Exit status 0 against the bytes of the connections (C101_success), against the runs of the daemon (C101_effect), completeness (C101_works) and absence of undefined behaviour (C101_total). C101_false_* show what is not claimed: a refused acme-dns-01 can have other effects, -i hides daemons that do not acknowledge, SIGPIPE."
  },
  {
   "property": "C102",
   "status": "proved",
   "theorems": [
    "Gdnsd.Ctl.C102_accepted",
    "Gdnsd.Ctl.C102_illegal",
    "Gdnsd.Ctl.C102_installed"
   ],
   "note": "Illegal arguments send nothing (C102_illegal); legal ones are accepted and installed as they were meant (C102_accepted, C102_installed); that they are sent is part of C101_success and C101_works."
  },
  {
   "property": "C103",
   "status": "proved",
   "theorems": [
    "Gdnsd.Take.C103_alone",
    "Gdnsd.Take.C103_checkconf",
    "Gdnsd.Take.C103_false_stop",
    "Gdnsd.Take.C103_idempotent",
    "Gdnsd.Take.C103_no_gap",
    "Gdnsd.Take.C103_refused",
    "Gdnsd.Take.C103_works",
    "Gdnsd.Take.C103_works_alone"
   ],
   "note": "Invariant of every prefix of a start (C103_alone), together with the runs of the old daemon (C103_no_gap), completeness (C103_works, C103_works_alone), checkconf and -i. C103_false_stop: the old daemon need not have been stopped when the new one serves."
  },
  {
   "property": "C104",
   "status": "proved",
   "theorems": [
    "Gdnsd.Take.C104_false_scope",
    "Gdnsd.Take.C104_handed",
    "Gdnsd.Take.C104_import",
    "Gdnsd.Take.C104_received",
    "Gdnsd.Take.C104_received_only",
    "Gdnsd.Take.C104_same"
   ],
   "note": "Receiver sound and complete (C104_received, C104_received_only), the descriptors are those of the old daemon (C104_handed), sockets are permuted over listeners (C104_import, C104_same). C104_false_scope: scopes are ignored."
  },
  {
   "property": "C105",
   "status": "partial",
   "theorems": [
    "Gdnsd.Watch.C105_alive",
    "Gdnsd.Watch.C105_false_burst",
    "Gdnsd.Watch.C105_false_fatal",
    "Gdnsd.Watch.C105_false_lag",
    "Gdnsd.Watch.C105_false_mtime",
    "Gdnsd.Watch.C105_false_window",
    "Gdnsd.Watch.C105_kept",
    "Gdnsd.Watch.C105_quiet",
    "Gdnsd.Watch.C105_safe",
    "Gdnsd.Watch.C105_served_partial",
    "Gdnsd.Watch.C105_settles_partial",
    "Gdnsd.Watch.C105_together"
   ],
   "note": "Safety and what is kept hold in all histories, and only contents that log_fatal is for end the daemon; changes are served under conditions on dates of files and libev's punctuality (C105_settles_partial, C105_served_partial). Each condition has a counterexample (C105_false_window, _mtime, _burst, _lag), and an unknown datacenter in a changed nets file ends the daemon (C105_false_fatal)."
  },
  {
   "property": "C106",
   "status": "partial",
   "theorems": [
    "Gdnsd.Refs.C106_accepts",
    "Gdnsd.Refs.C106_answers",
    "Gdnsd.Refs.C106_between",
    "Gdnsd.Refs.C106_false_cycle",
    "Gdnsd.Refs.C106_false_failed",
    "Gdnsd.Refs.C106_false_unknown",
    "Gdnsd.Refs.C106_false_window",
    "Gdnsd.Refs.C106_names",
    "Gdnsd.Refs.C106_number",
    "Gdnsd.Refs.C106_plugins",
    "Gdnsd.Refs.C106_safe",
    "Gdnsd.Refs.C106_sound"
   ],
   "note": "What is accepted is characterised exactly and mapping is safe for references that are grounded; answers are right after any interleaved loads that succeed (C106_answers), names are allowed (C106_names). False in general: C106_false_window, C106_false_failed (numbers are zero during and after failed loads), C106_false_unknown, C106_false_cycle."
  },
  {
   "property": "C107",
   "status": "partial",
   "theorems": [
    "Gdnsd.Own.C107_clean",
    "Gdnsd.Own.C107_exact_partial",
    "Gdnsd.Own.C107_false_bound",
    "Gdnsd.Own.C107_false_leak",
    "Gdnsd.Own.C107_kept",
    "Gdnsd.Own.C107_safe"
   ],
   "note": "C107_safe, C107_clean and C107_kept are full. Missing in C107_exact_partial: that nothing is left of zones that did not load; it is bounded by the number of their files instead. That nothing is left is false: C107_false_leak, C107_false_bound."
  },
  {
   "property": "C108",
   "status": "proved",
   "theorems": [
    "Gdnsd.Util.C108_bounded",
    "Gdnsd.Util.C108_false_clock",
    "Gdnsd.Util.C108_passes"
   ],
   "note": "C108_passes and C108_bounded are for times that do not go back, as the statement says; for others see C108_false_clock."
  },
  {
   "property": "C109",
   "status": "partial",
   "theorems": [
    "Gdnsd.Util.C109_buffers",
    "Gdnsd.Util.C109_false_high",
    "Gdnsd.Util.C109_names",
    "Gdnsd.Util.C109_text_partial"
   ],
   "note": "C109_buffers and C109_names are full. Missing in C109_text_partial: the text of bytes above 127; it is false for each of them: C109_false_high."
  },
  {
   "property": "C110",
   "status": "partial",
   "theorems": [
    "Gdnsd.Util.C110_false_overflow",
    "Gdnsd.Util.C110_replaced",
    "Gdnsd.Util.C110_total_partial"
   ],
   "note": "C110_replaced is full. C110_total_partial is for texts below two gigabytes; above it is false: C110_false_overflow."
  },
  {
   "property": "C111",
   "status": "proved",
   "theorems": [
    "Gdnsd.Util.C111_complete",
    "Gdnsd.Util.C111_contents",
    "Gdnsd.Util.C111_false_truncated"
   ],
   "note": "C111_contents and C111_complete are full for files whose size stays, as the statement says; for others see C111_false_truncated."
  },
  {
   "property": "C112",
   "status": "partial",
   "theorems": [
    "Gdnsd.Life.C112_ends",
    "Gdnsd.Life.C112_failed_partial",
    "Gdnsd.Life.C112_false_idempotent",
    "Gdnsd.Life.C112_false_sigchld",
    "Gdnsd.Life.C112_orphan",
    "Gdnsd.Life.C112_sound"
   ],
   "note": "C112_sound, C112_ends and C112_orphan are full. C112_failed_partial needs that SIGCHLD is not ignored from the start (else false: C112_false_sigchld). The claim about -i is false: C112_false_idempotent."
  },
  {
   "property": "C113",
   "status": "partial",
   "theorems": [
    "Gdnsd.Life.C113_false_reused",
    "Gdnsd.Life.C113_own_partial",
    "Gdnsd.Life.C113_signals",
    "Gdnsd.Life.C113_time"
   ],
   "note": "C113_signals and C113_time are full. C113_own_partial needs that the numbers of children are not given to other processes; else it is false: C113_false_reused."
  },
  {
   "property": "C114",
   "status": "proved",
   "theorems": [
    "Gdnsd.Life.C114_limit"
   ],
   "note": "Full."
  },
  {
   "property": "C115",
   "status": "proved",
   "theorems": [
    "Gdnsd.Args.C115_exact",
    "Gdnsd.Args.C115_order"
   ],
   "note": "Exact against a grammar of command lines; getopt is modelled as in glibc."
  },
  {
   "property": "C116",
   "status": "partial",
   "theorems": [
    "Gdnsd.Args.C116_false_root",
    "Gdnsd.Args.C116_false_touched",
    "Gdnsd.Args.C116_goes",
    "Gdnsd.Args.C116_paths",
    "Gdnsd.Args.C116_private_partial"
   ],
   "note": "The owner of the run directory is proved for users other than the superuser; counterexamples C116_false_root and C116_false_touched."
  },
  {
   "property": "C117",
   "status": "proved",
   "theorems": [
    "Gdnsd.Sock.C117_least",
    "Gdnsd.Sock.C117_stable"
   ],
   "note": "For all numbers of seconds, with the waits of Linux."
  },
  {
   "property": "C118",
   "status": "partial",
   "theorems": [
    "Gdnsd.Sock.C118_again",
    "Gdnsd.Sock.C118_bind",
    "Gdnsd.Sock.C118_false_kept",
    "Gdnsd.Sock.C118_false_limit",
    "Gdnsd.Sock.C118_tcp",
    "Gdnsd.Sock.C118_udp_partial"
   ],
   "note": "Sizes of buffers are proved within the limit of the system; counterexamples C118_false_limit and C118_false_kept. The kernel is a parameter that behaves as SockSpec.Linux says."
  },
  {
   "property": "C119",
   "status": "proved",
   "theorems": [
    "Gdnsd.Sock.C119_exact"
   ],
   "note": "For all pairs of 64-bit numbers."
  },
  {
   "property": "C120",
   "status": "proved",
   "theorems": [
    "Gdnsd.Threads.C120_bounded",
    "Gdnsd.Threads.C120_final",
    "Gdnsd.Threads.C120_not_stuck",
    "Gdnsd.Threads.C120_ready",
    "Gdnsd.Threads.C120_safe",
    "Gdnsd.Threads.C120_serves",
    "Gdnsd.Threads.C120_stats",
    "Gdnsd.Threads.C120_told"
   ],
   "note": "All schedules and numbers of threads. Spurious wakeups are excluded only in C120_bounded. That a thread that is told to stop gets to know it is assumed (libev, SIGUSR2 with the timeout of recvmsg)."
  },
  {
   "property": "C121",
   "status": "partial",
   "theorems": [
    "Gdnsd.CtlArgs.C121_exact",
    "Gdnsd.CtlArgs.C121_false_junk",
    "Gdnsd.CtlArgs.C121_run",
    "Gdnsd.CtlArgs.C121_seconds_partial",
    "Gdnsd.CtlArgs.C121_timeout",
    "Gdnsd.CtlArgs.C121_usage",
    "Gdnsd.CtlArgs.C121_verbatim"
   ],
   "note": "The grammar, what is handed on and the range are full. C121_seconds_partial is for texts of digits; for others the claim is false: C121_false_junk."
  },
  {
   "property": "C122",
   "status": "proved",
   "theorems": [
    "Gdnsd.Loop.C122_ends",
    "Gdnsd.Loop.C122_fair",
    "Gdnsd.Loop.C122_grace",
    "Gdnsd.Loop.C122_offline",
    "Gdnsd.Loop.C122_one",
    "Gdnsd.Loop.C122_quiescent",
    "Gdnsd.Loop.C122_safe",
    "Gdnsd.Loop.C122_stopped"
   ],
   "note": "Transition system of the handlers of a TCP thread with the watchers, references of the loop and RCU; all histories. libev is assumed as DESIGN.md says."
  },
  {
   "property": "C123",
   "status": "partial",
   "theorems": [
    "Gdnsd.GeoTest.C123_false_long",
    "Gdnsd.GeoTest.C123_false_names",
    "Gdnsd.GeoTest.C123_false_split",
    "Gdnsd.GeoTest.C123_lines_partial",
    "Gdnsd.GeoTest.C123_list",
    "Gdnsd.GeoTest.C123_safe",
    "Gdnsd.GeoTest.C123_same",
    "Gdnsd.GeoTest.C123_usage",
    "Gdnsd.GeoTest.C123_words"
   ],
   "note": "Command line exact; lookups agree with the server's for all maps and addresses; lists written completely within their buffer. Lines: exact up to 253 bytes and names up to 127. Counterexamples: long names, long lines, long lists of names."
  },
  {
   "property": "C124",
   "status": "proved",
   "theorems": [
    "Gdnsd.Hand.C124_calm",
    "Gdnsd.Hand.C124_daemon",
    "Gdnsd.Hand.C124_ends",
    "Gdnsd.Hand.C124_false_count",
    "Gdnsd.Hand.C124_false_many",
    "Gdnsd.Hand.C124_helper",
    "Gdnsd.Hand.C124_live",
    "Gdnsd.Hand.C124_safe",
    "Gdnsd.Hand.C124_same"
   ],
   "note": "For 1 to 65535 monitors whose commands fit (C43); each process also against any peer; false of more monitors (C124_false_many, C124_false_count)."
  },
  {
   "property": "C125",
   "status": "proved",
   "theorems": [
    "Gdnsd.Frames.C125_apart",
    "Gdnsd.Frames.C125_block",
    "Gdnsd.Frames.C125_closed",
    "Gdnsd.Frames.C125_streams"
   ],
   "note": "For all sequences of messages, results of writes and earlier contents of the buffer; that the DNS layer writes every byte of an answer is assumed."
  }
 ]
}
