# Formal model of gdnsd in Lean 4

## Trusted base

* Lean 4.33.0's kernel. Every property theorem is checked to depend on at most
  `propext`, `Classical.choice` and `Quot.sound` (see `Verif/Axioms.lean`, which
  prints the axioms of each property theorem during the build).
* The reading of the C source. The code is not run; each definition in the model
  cites the file and lines it models. Simplifications are stated there.
* No axioms are added, nothing is `sorry`, and neither `native_decide` nor
  `bv_decide` is used.

## Conventions

* A byte is `UInt8`; wire data and memory buffers are `List UInt8`.
* Failing `gdnsd_assert`, reads and writes outside a buffer and unsigned
  overflow on which later code relies are *distinct outcomes* of the model
  (`Outcome.ub`), never assumed away. (`include/gdnsd/log.h:126-140`: a failed
  assertion aborts in debug builds and is undefined behaviour with `NDEBUG`.)
* Each area `X` has `Verif/X/Model.lean` (the code), `Verif/X/Spec.lean` (the
  independent specification, where one is needed), `Verif/X/Lemmas.lean` (proof
  helpers) and `Verif/X/Props.lean` (property theorems plus, next to each, an
  `example` that its hypotheses hold of a concrete non-trivial case).
* A property that the code does not satisfy in full has (a) a theorem proving
  the negation with a concrete witness and (b) a `_partial` theorem with the
  missing part named.

## What is modelled how, property by property

| id | model | proof shape |
|----|-------|-------------|
| C01 | `gdnsd_dname_from_string` and its label unescaper over byte lists | invariant of the scanning loop, output against an inductive well-formedness spec |
| C02 | `gdnsd_dns_unescape` | equality with a grammar-based decoder |
| C03 | `gdnsd_dname_to_string` | round trip; unescaped `.` and `\` make the full claim false: negation + partial |
| C04 | `dname_isinzone`, `gdnsd_dname_drop_zone`, `gdnsd_dname_cmp` | equivalence with list suffix on label lists |
| C05 | `gdnsd_dname_cat` | equality with label-list append |
| C06 | `decode_query` and everything below it with checked reads | outcome is never `ub`, for all packets |
| C07 | `parse_first_question` | refinement to a label-list decoder |
| C08 | `decode_query`, `process_dns_query` dispatch | decision logic |
| C09 | `handle_edns_client_subnet` | iff with a spec predicate |
| C10 | response assembly arithmetic (`answer_from_db`, `do_edns_output`, `process_dns_query`) | inequality for all lengths |
| C11 | option handling + `do_edns_output` | equality by induction over options; negation witnesses for repeated options / BADVERS over TCP |
| C12 | padding part of `do_edns_output` | arithmetic |
| C13 | header construction | bit-level decision logic |
| C14 | `store_dname_comp` & co. over a growing message | invariant on compression targets, decompress∘store = id |
| C15 | `shuffle_addrs_rdata`, `gdnsd_rand32_bounded` | permutation / bound for every random stream |
| C16 | `do_dyn_callback`, `clamp_ttl` | arithmetic |
| C17 | robin-hood table functions with arbitrary hash | refinement to a finite map |
| C18 | `search_ltree_for_dname` on trees | equality with a declarative lookup relation |
| C19 | `ltree_merge_zone`, harvest loop | fold over zones; permutation invariance |
| C20 | reloader thread as state machine | refinement, every interleaving |
| C21 | `p1_chase_cname`, `do_auth_response` | well-founded recursion / counting |
| C22 | size accounting vs. encoders | inequality by induction over record sets |
| C23 | `ltree_add_rec_*`, checks | invariant over record insertion sequences |
| C24 | cookie generation/validation, MAC as parameter | decision logic + time arithmetic |
| C25 | `gdnsd_mon_state_updater` | invariant against a history specification |
| C26 | admin state | invariant over operation sequences |
| C27 | sttl combination | fold laws |
| C28 | multifo | decision logic |
| C29 | simplefo | decision logic |
| C30 | weighted | for every random stream |
| C31 | meta_core | fold over datacenter list, sub-plugins as parameters |
| C32 | nlist normalise + ntree build + lookup | refinement to LPM; full claim false for networks covered by smaller ones: negation + partial; in every legal configuration the answer belongs to a network containing the address |
| C33 | ntree lookup | prefix argument |
| C34 | nlist_merge | refinement |
| C35 | RCU publication of tree and lists | invariant over interleavings |
| C36 | city auto map | sorted + permutation |
| C37 | challenge sets with expiry, hash table, lookups (RCU) | invariant over all interleavings; negation + partial |
| C38 | serialize / create | round trip |
| C39 | TCP read buffer | refinement to stream decoding |
| C40 | connection queue | invariant over histories |
| C41 | PROXY parser | outcome never `ub`; v1 false: negation + partial |
| C42 | DSO | decision logic |
| C43 | extmon codec | round trip and its converse (only encodings are accepted); negation for 64 KiB of arguments + partial |
| C44 | the control socket's state machine | invariant over histories; decision logic for refusals |
| C45 | same | invariants of histories: one replacement, deferral, hand-over, resumption |
| C46 | same, with the reload threads | invariant of histories; bound on the loads a client waits for |
| C47 | stats codec | round trip |
| C48 | preprocess_buf | in-bounds + character-wise spec |
| C49 | text_add_tok | round trip |
| C50 | dn_qualify | equality with spec |
| C51 | ltarena | disjointness invariant |
| C52 | `do_edns_output`, option handling | equality with a list of options |
| C53 | `gdnsd_mon_parse_sttl` | iff with a grammar; signs and white space make it false: negation + partial |
| C54 | state dump | fold; buffer bound |
| C55 | `gdnsd_rand32_get`, `gdnsd_rand32_bounded`, the shuffle | exact counting over all raw values; bijection |
| C56 | running-total choice of weighted.c | exact counting over all draws |
| C57 | `res_get_mapnum` of metafo.c | negation for more than 255 datacenters + partial |
| C58 | `map_res_inner`, resource number split | round trip; negation from 128 on + partial |
| C59 | SOA and TXT TTL rules | negation (SOA above `max_ttl`, ACME below `min_ttl`) + partial |
| C60 | `db_lookup` and the encoders | the messages it builds read back as the reply a specification on trees gives |
| C61 | same | equality of replies; negation for chains + partial |
| C62 | `chal_respond` in the lookup | counting; negation + partial |
| C63 | all of zone loading | outcome is never `ub`; two negations + partial |
| C64 | loading, merging and lookup together | replies equal a specification on the records of the files (no trees); negation for oversized RFC 3597 data + partial |
| C65 | `process_dns_query` with a real lookup over loaded zone files | composition of C10, C13, C52 and C64: the bytes sent read back as the reply of the files |
| C66 | same, with challenges | bound for UDP; negation for TCP + partial |
| C67 | connection queue with a prompt timer | invariant relating the timer to the place of a connection; negation + partial |
| C68 | send queue, result words, both ends of the pipe | refinement of the ring to a list; the daemon's updates are a prefix of the map of the checks' results |
| C69 | helper process: timers, children, signal | inductive predicate on histories; two negations + partial |
| C70 | plugin side of external monitors | invariant over histories |
| C71 | the zone file scanner | equality with a grammar, both directions; six negations + partial |
| C72 | same, with the loader | outcome is never `ub` but for endless includes; negations + partial; its records meet the hypotheses of the loader's theorems |
| C73 | same | what was sent is a prefix of what is owed; negation for refused takeovers |
| C74 | same | refinement: the step of a request gives what an inductive protocol says |
| C75 | same | outcome is `ub` only in four named cases, each with a witness |
| C76 | the configuration scanner | equality with a grammar, both directions; outcome is never `ub` for files that do not include themselves; three negations + partial |
| C77 | the hash table of configuration data | refinement to a list of entries, by an invariant over chains, for every sequence of operations |
| C78 | numbers and truth values in configuration data | equivalence with a grammar; witness for negative numbers taken as unsigned |
| C79 | copies of configuration data, inherited keys | relational specification by mutual induction; two negations + partial |
| C80 | datagrams: each reply goes to its sender, in order | refinement to the replies owed, over every sequence of kernel results, for both receive paths |
| C81 | datagram threads stop, and do not hold up data reclamation | rank function over every interleaving of signals and steps; negation for a directed foreign signal + partial |
| C82 | options: accepted if and only if they are as documented, and used as they say | decision logic: equivalence with a declarative reading of `options`, for every tree of data; totality |
| C83 | listeners, control addresses and their threads | the same equivalence with the documented port rule on big-endian machines (partial), negation elsewhere; thread counts by induction |
| C84 | texts of addresses | equivalence with a grammar (partial: text behind a bracket), round trip with the printed form |
| C85 | HTTP checks | trace invariant over all histories of callbacks; one result per check; counting of rounds |
| C86 | HTTP status line and request | equivalence with a specification of thirteen bytes (partial: the byte behind the code), equality with the lines of a request |
| C87 | a server that hangs up | negation (the event repeats until the timeout) and safety (no success without an answer) |
| C88 | TCP checks | trace invariant over all histories of callbacks (partial: no result without a socket) |
| C89 | service types | equivalence with what entries mean one by one (partial: data of the wrong kind, `static` without its stanza) |
| C90 | monitoring requests | invariant over all sequences of requests; acceptance (partial, as C89) |
| C91 | files of states | refinement to the last entry for each name, all or nothing (partial: signs and white space), invariant of the settling timer |
| C92 | resources of multifo | equivalence with what resources mean, parameters by nearest level (partial: "not a number") |
| C93 | resources of simplefo | equivalence with what resources mean |
| C94 | failover from configuration to answers | composition of C92/C93, C90 and C28/C29 (partial for multifo, as C92) |
| C95 | resources of weighted | equivalence with what resources mean, parameters by nearest level (partial: "not a number", empty labels, no configuration) |
| C96 | weighted from configuration to answers | composition of C95, C90 and C30 (partial as C95) |
| C97 | resources of metafo and geoip | equivalence with what resources mean, for keys without zero bytes; resources of others are kept; no failed assertion for tame configurations (partial) |
| C98 | metafo and geoip from configuration to answers | composition of C97, C90 and C31, with a contract for the resources referred to that they satisfy themselves (partial: 256 or more datacenters of metafo) |
| C99 | maps of geoip | equivalence with what the options mean; no failed assertion (partial: lists of 256 and more, `ignore_ecs` that is not a text, keys with zero bytes) |
| C100 | places of the map stanza | the tree means what the stanza means; lookups in records; composition with C35 and C36 (partial: texts of 128 bytes and more in a database, a `default` without every datacenter together with coordinates) |
| C101 | success of gdnsdctl | what was sent and received for each action; refinement with the runs of the daemon (C44-C46, C73, C74) over a connection; completeness for connections that work |
| C102 | challenges of gdnsdctl | equivalence of the encoder with what arguments mean (C01); composition with C37 |
| C103 | starts and replacements | invariant of all prefixes of the start; composition with the runs of the old daemon (C44, C45) over a connection |
| C104 | sockets of a replacement | soundness and completeness of the receiver; permutation of sockets over listeners; composition with C45 and C73 |
| C105 | watched files of geoip | invariants of a timed transition system; partial: under conditions on dates of files and libev's punctuality, each with a counterexample |
| C106 | references to resources | characterisation of what is accepted; refinement of numbers to names under interleaved stores; partial: only loads that succeed, each gap with a counterexample |
| C107 | memory of zone data | ownership invariant over histories of reloads, for all inputs and orders of threads; partial: arenas of zones that fail are lost (counterexample, unbounded) |
| C108 | rate of messages | exact for all rising histories; counterexample when the clock jumps |
| C109 | names in messages | bounds for all names, text for bytes up to 127; partial: counterexample for all others |
| C110 | replacing text | exact for all texts, total below two gigabytes; partial: overflow above (counterexample) |
| C111 | reading files | exact for all splits of reads; counterexample for files that get shorter |
| C112 | daemonizing | invariants over all schedules, failures and kills; partial: `-i` and ignored SIGCHLD (counterexamples) |
| C113 | end of children | exact for all worlds; partial: reused numbers (counterexample) |
| C114 | limit of open files | decision logic, exact |
| C115 | command line | exact against a grammar, for all lists of arguments |
| C116 | directories | decision logic, exact; partial: the superuser (counterexample) |
| C117 | timeouts of the kernel | exact for all numbers |
| C118 | options of sockets | for all states of sockets and refusals; partial: limits of buffers (counterexamples) |
| C119 | memory | exact for all pairs of sizes |
| C120 | start and stop of threads | invariant over all schedules; no deadlock; bound on the number of steps |
| C121 | command line of gdnsdctl | exact against a grammar, for all lists of arguments; partial: texts of timeouts (counterexample) |
| C122 | event loop of threads for TCP | invariant over all histories of events; progress within one round |
| C123 | gdnsd_geoip_test | exact against the usage; agreement with the server's lookups (`Verif/Geo`); partial: long lines and names (counterexamples) |
| C124 | start of the helper of extmon | invariant of two processes and two pipes, with any schedule and any deaths; a measure for the end; each of the two against any peer; counterexample for 65536 and more monitors |
| C125 | writing to TCP connections | streams of frames for all histories of one buffer and many connections; the notice against RFC 8490 |

## Code covered, area by area

Everything not named here is not modelled. Simplifications are repeated at each definition.

* `Verif/Dname`: `libgdnsd/dname.c` and `include/gdnsd/dname.h` (all functions that
  compute on names), `gdnsd_dns_unescape` of `libgdnsd/misc.c`.
* `Verif/Packet`: `src/dnspacket.c` 100-760 and 1876-2270 (request decoding, EDNS options,
  response code, EDNS output, DSO, size limits). The zone lookup is a parameter `Db`
  giving the number of bytes and header bits it produced.
* `Verif/Cookie`: `src/cookie.c`. The MAC (`crypto_shorthash`) and the key material are
  parameters; the hourly timer is an event.
* `Verif/Mon`: `src/plugins/mon.c`, `mon.h`: state words, anti-flap updater, admin-state
  file application, state strings, the JSON dump. `fnmatch`, the vscf scanner and `stat`
  are parameters or events; the up/down counters are natural numbers.
* `Verif/Plugins`: `src/plugins/plugapi.c` (results), `simplefo.c`, `multifo.c`,
  `weighted.c`, `static.c`, `null.c`, `reflect.c`, `meta_core.inc` with `metafo.c` and
  `geoip.c`, `gdnsd_uscale_ceil` of `libgdnsd/misc.c` with IEEE rounding. Parsing of the
  plugin configuration is not modelled: its checks are the hypotheses (`GroupsOk`,
  `CnamesOk`, `MfSet.Ok`, `SfSet.Ok`, `MetaRes.Ok`), its sums are modelled. Random draws
  are an arbitrary stream.
* `Verif/Rand`: `include/gdnsd/rand.h`, `shuffle_addrs_rdata` and the TTL arithmetic of
  `do_dyn_callback` (`src/dnspacket.c`), the TTL rules of `src/ltree.c` 237-634. The
  entropy source is an arbitrary sequence; a draw that keeps being rejected is `none`.
* `Verif/Enc`: name compression and the record encoders of `src/dnspacket.c` 762-1580. The
  packet is the list of bytes written so far; holes for lengths are filled at once. The
  plugin callback and the random draws are parameters.
* `Verif/Tree`: the searches of `src/dnspacket.c` 1610-1682 and `src/ltree.c`
  (`ltree_search_dname_zone`) on a tree whose nodes hold a list of children; and, separately,
  the robin-hood child table of `src/ltree.c`/`ltree.h` with an arbitrary hash function, which
  is shown to behave as such a list (C17). Memory addresses are not modelled.
* `Verif/Lookup`: `src/dnspacket.c` 1582-1873, the zone lookup that builds an answer out of
  searches and encoders, with `chal_respond` of `src/chal.c`. The tree root is a function of
  the number of the search, because the code reads the root pointer again for each CNAME.
* `Verif/Load`: `src/ltree.c` 40-1560 except the logging texts, the array growth and the
  hash tables (C17), and `src/zsrc_rfc1035.c`: adding records, post-processing, merging,
  distribution over threads, the reload. A file is the list of records the scanner passes to
  the `ltree_add_rec_*` functions, or a failure; what may be in that list is the hypothesis
  `Scanned` of `Verif/Load/ReplySpec.lean`. The plugins' `map_res` is a function parameter.
  Children are visited in list order where the code goes through a hash table.
* `Verif/Server`: `process_dns_query` of `Verif/Packet` with the lookup of `Verif/Lookup` over a
  tree that `Verif/Load` made.
* `Verif/Geo`: `libgdmaps/nlist.c`, `ntree.c`, `nets.c` after the text of an entry was parsed,
  and the tree walk of `gdgeoip2.c` over a database seen through `MMDB_read_node` (a function
  parameter; which list a data record maps to is a parameter too). `qsort` is any function
  that returns a sorted permutation (`SortOk`); nothing is assumed about equal entries.
  Addresses are byte strings; the specification speaks of bit strings.
* `Verif/Maps`: `libgdmaps/dclists.c` and `gdmaps.c`: the storage of datacenter lists, loading
  `nets` and a database into it, `gdmap_tree_update` and `gdmap_lookup` as single memory
  accesses of a reload thread and any number of readers with RCU (a grace period waits for the
  readers that were in a critical section when it began), and the sort of
  `dclists_city_auto_map`. Memory is sequentially consistent. Parameters: the sort of `qsort`,
  the comparison of distances. Not modelled: the `map` stanza's continents and countries
  (`dcmap.c`; a record leads to one of its lists or to an automatic one), the distance
  formula, file watching (a reload may happen at any time), destruction at shutdown.
* `Verif/Chal`: `src/chal.c` and the import loop of `do_tak2` (`src/main.c`): parsing of
  challenge data, the hash table, expiry, flushing, lookups on other threads with the grace
  period, serialization and import. The hash function is a parameter, times are in
  milliseconds and the clock does not go back; `ev_now` is the wall clock and can. Runs
  with 2^30 or more challenges are left out, because 32-bit sizes overflow there. Building
  the reply from the challenges found is in `Verif/Lookup`. Not modelled: logging.
* `Verif/Proxy`: `src/proxy.c` whole: both header versions over a checked buffer; the text form of
  addresses (`getaddrinfo`) is a parameter, so C41 holds for every resolver.
* `Verif/Stream`: the read side of `src/dnsio_tcp.c`: `conn_check_next_req`, `conn_do_recv`,
  `conn_respond`, `check_handler`, `read_handler` and the PROXY header, as a state machine that is fed
  segments of any size. What the DNS layer does with a request is a parameter here; what is
  answered is C65.
* `Verif/Connq`: the queue of connections of `src/dnsio_tcp.c` as a doubly linked list in a memory
  with allocation: `connq_assert_sane`, `connq_adjust_timer`, `connq_pull_conn`,
  `connq_destruct_conn`, `connq_append_new_conn`, `connq_refresh_conn`, `timeout_handler`,
  `stop_handler` and the `accept4` failure path. Times are integers in milliseconds instead of
  doubles.
* `Verif/Extmon`: `src/plugins/extmon_comms.c` (commands both ways, result words; `read` and
  `write` take any part, fail or are interrupted), `src/plugins/extmon_helper.c` 60-430 (the
  send queue, the callbacks of interval and timeout timers, children, the pipe and the signal),
  `src/plugins/extmon.c` 60-330 (the callbacks and the two phases of monitoring). Times are
  tenths of seconds. Of libev is assumed: a timer's callback runs when it is due or later (how
  much later is the parameter `L`), a repeating timer is due again one interval after it was
  due, or at once if that is past; starting a child watcher that is active has no effect, so it
  stays in the list (of 16) of the process it watched before; only watchers in the list of a
  process and watching it see its end. A `fork` that fails is not modelled.
* `Verif/Arena`: `src/ltarena.c` (all functions) and `lta_labeldup` of `src/ltarena.h`: a heap of pools
  with their contents and any number of arenas. `xmalloc` gives fresh blocks.
* `Verif/Statio`: `src/statio.c` (the counters' slots, the sum over threads, the JSON report with its
  format string, `statio_serialize`, `statio_deserialize`), and the transfer of both sides
  (`css_send_stats_handoff` in `src/css.c`, `csc_get_stats_handoff` in `src/csc.c`), with `send`
  and `recv` moving any part or failing. A counter is read once per report, so a report is of a
  snapshot.
* `Verif/Zscan`: `src/zscan_rfc1035.rl` whole: the preprocessor, the functions that actions call, and
  the grammar. Ragel's automaton is modelled by hand as functions that read token after token (the
  generated tables are not in the sources); that they accept the same texts is an assumption, checked
  by reading only. `inet_pton` and the directory are parameters. How deep includes may go is the
  parameter `depth`; beyond it the model says `ub`. `xmalloc` of very much memory succeeds.
* `Verif/Css`: `src/css.c` (connections, all requests, the replacement's timer, the reload queues,
  `css_delete`) and the reload threads of `src/main.c` 105-192. Events are callbacks of libev; results
  of system calls and of the functions for statistics, states and challenges are in the events
  (these functions are C37, C47, C54). Clients that are waiting are not read from, so that they went
  away is noticed only when they are written to, as in the code. The descriptors to hand over do not
  change. `css_new`, which talks to the old daemon, and the log texts are left out.
* `Verif/Vscf`: `libgdnsd/vscf.rl`, the scanner and its actions, includes, and the data they build. Ragel's
  automaton is written by hand as its table of transitions with a stack, from the source of the machine;
  that Ragel generates the same one is an assumption. On a transition where two actions meet their order
  is a parameter. The file system (`stat`, `glob`, `read`) is a parameter that does not change. Depth of
  includes is fuel; beyond it the model says `ub`. Line numbers and messages are left out. The hash
  table (C77) is a list of nodes with chains by number, the hash function is a parameter, sorting is
  any permutation. `strtoul` and `strtol` (C78) are written from the C standard with the C locale and
  64-bit `long`; conversion to `double` is left out. In C76 and C79 hashes are lists of entries, which
  C77 justifies.
* `Verif/Conf`: `conf_load` (src/conf.c) up to the service types, with `set_chaos`, `set_nsid` and `set_nsid_ascii`;
  `socks_conf_load` (src/socks.c) with all it calls; the options of `gdnsd_init_paths` (libgdnsd/paths.c);
  `gdnsd_anysin_fromstr` and `gdnsd_anysin2str` (libgdnsd/net.c). `getaddrinfo` and `getnameinfo` with numeric flags
  are parameters. What plugins and service types make of their part is a parameter; warnings are left out.
* `Verif/Udp`: `src/dnsio_udp.c`, the two receive loops (`mainloop`, `mainloop_mmsg`), the repair of link-local
  addresses, the counters, and (C81) the wait, signal mask and RCU calls of a thread. The packet code is a
  parameter `Query` (C01-C09 are about it). A call of the kernel is an event with any result the interface
  allows; `recvmmsg` may return any number of datagrams up to what was asked for, `sendmmsg` may send any number.
  Binding and configuring sockets is not modelled. Signals follow POSIX: one pending signal per thread and
  per process, delivery whenever the mask lets it or when a call returns. That `recvmsg` returns within 257 ms is
  the receive timeout set by the code, taken as working.
* `Verif/Poll`: the callbacks of `http_status` and `tcp_connect` (src/plugins/http_status.c, src/plugins/tcp_connect.c),
  `make_req_data`, and the part of `sscanf` its format uses. Each callback is one step; libev and the kernel are the events
  (which watcher fires, what a call returns). A watcher that is stopped does not fire, and a timer that has expired is
  pending until its callback runs or it is stopped. Left out: `shutdown`, messages, the staggering of the first rounds. What
  `sscanf` does with a string that ends early is a parameter.
* `Verif/Svc`: service types and monitoring requests (src/plugins/mon.c 486-764 and the `add_svctype`, `add_mon_addr` and
  `add_mon_cname` functions of http_status, tcp_connect, extmon, extfile, static and null), and all of
  src/plugins/extfile.c. Configuration trees are those of `Verif/Vscf`. How an address is written is a parameter, and so are
  `qsort` and `bsearch`, with what the C library says of them as hypotheses (`Libc`). Paths are kept as they are written.
  Left out: messages, how libev notices that a file changed.
* `Verif/Res`: the configuration of `multifo` (src/plugins/multifo.c 67-342) and `simplefo` (src/plugins/simplefo.c 65-211), with
  the indices that their addresses get. `getaddrinfo` and `strtod` are parameters: texts to addresses and to doubles (not a
  number, infinite, or a sign with `m / 2^k`). Requests to monitor are read off the resources afterwards, in the order in which
  the code makes them. Left out: messages, the names that `map_res` looks up, more than 2^32 elements.
* `Verif/Wt`: the configuration of `weighted` (src/plugins/weighted.c 107-740), with the indices that its addresses and names get.
  Libraries as in `Verif/Res`. Left out: messages, the check of names against the zone in `map_res`, more than 2^32 elements.
* `Verif/Meta`: the configuration of `metafo` and `geoip` (src/plugins/meta_core.inc 90-319, 436-470, metafo.c, geoip.c), with the
  resources that it synthesizes for other plugins, and with the indices that its datacenters get. `gdmaps_new` is a parameter: the maps
  with the names of their datacenters. Left out: messages, the order in which plugins are loaded, keys with zero bytes.
* `Verif/Gmap`: the configuration of maps and what records of a database get (libgdmaps/dcinfo.c, dcmap.c, dclists.c 63-79, 111-169,
  188-233, gdmaps.c 89-153 and 488-534, nets.c 64-128, gdgeoip2.c 110-332 and 445-461). Numbers, addresses and distances are
  parameters (`Lib`), and so is what libmaxminddb finds in a record (`Record`). Left out: messages, paths, opening of files.
* `Verif/Ctl`: the client of the control socket and gdnsdctl (src/csc.c 50-156, 270-373, src/gdnsdctl.c 55-487). A connection is the list
  of what its system calls are going to give. Left out: `getopt`, paths and addresses, messages, `csc_txn_getfds` and the statistics
  of a takeover. `Linked` is the assumption about the network: the daemon takes what was sent and the client gets what was sent to it.
* `Verif/Take`: the start of a daemon up to its loop and the takeover (src/main.c 312-360, 474-583, 632-728, src/css.c 963-1009,
  1046-1158, src/csc.c 125-156, 168-263). What a part of the start does inside (configuration, zones, monitors, threads) is one effect
  that it has or not; the connection is the list of what its system calls are going to give. Left out: options, `daemon.c`, the wait
  for systemd, signals, the statistics of a takeover (`Verif/Statio`) and the versions before 2.99.200 of the old daemon's waiting for its end.
* `Verif/Watch`: how geoip notices changes of files (libgdmaps/gdmaps.c 54-87, 155-447): the `ev_stat` watchers, timers and what they
  lead to, one map at a time. A file is read in one step, and its contents are of an arbitrary type with an arbitrary function that
  tells right from wrong (`Verif/Gmap` has that of `nets`). libev is modelled as its documentation and source describe it (`prev` and
  `attr` of `ev_stat`, timers relative to a clock that may be behind).
* `Verif/Refs`: how records refer to resources: `gdnsd_plugin_find`, `map_res` of all plugins, and geoip's and metafo's stores of plugin and number
  in each datacenter (src/plugins/meta_core.inc 322-333, 369-432, 472-563; src/ltree.c 364-389, 426-450). A thread's stores are a list,
  threads interleave at the level of single stores, and readers see them in that order (the code has plain, unsynchronised stores). Nesting is bounded by an argument that stands for the size of the stack.
* `Verif/Own`: who frees the memory of zone data: `ltree_add_rec_*`, `ltree_destroy`, `ltree_merge_zone`, `ltree_new_zone`, the buffers of the scanner with nested
  includes, lists of files, worker threads, and reloads (src/ltree.c, src/ltarena.c, src/zscan_rfc1035.rl, src/zsrc_rfc1035.c, libgdnsd/file.c). Memory is a set of numbered
  blocks and only pointers to other blocks are kept; `free` of a block that is not allocated is undefined behaviour. What checks decide is given by flags
  (what they are is in `Verif/Load` and `Verif/Zscan`). Threads interleave by files; readers that still use old data are the subject of C20.
* `Verif/Util`: `gdnsd_log_neterr_rate_ok` and the buffer for formatted texts (libgdnsd/log.c), `logf_lstack_labels` (src/ltree.c), `gdnsd_str_subst`
  (libgdnsd/misc.c) and the loop that reads small files (libgdnsd/file.c). `char` is signed, `size_t` has 64 bits and `unsigned` 32, as on x86-64 Linux. Files that are mapped are
  not modelled.
* `Verif/Life`: the three processes of `daemonize` with their pipe (src/daemon.c), as a transition system in which each of them can go on, fail or be killed at any point; what the daemon
  does is the trace of `Verif/Take`. `gdnsd_kill_registered_children` (libgdnsd/misc.c), where an arbitrary function says which process has a number at a time,
  and `try_raise_open_files` (src/main.c). Interrupted calls are repeated by the code and left out.
* `Verif/Args`: `parse_args` (src/main.c) with `getopt` as glibc has it, which finds options after words unless POSIXLY_CORRECT is set; `gdnsd_ensure_dir` and `gdnsd_resolve_path` (libgdnsd/paths.c).
  Of the file system there is what is at the two paths, its owner and mode, and whether `mkdir` may make a directory.
* `Verif/Sock`: `gdnsd_sockopt_idem_int_` (libgdnsd/net.c), the options of `udp_sock_setup` and `tcp_dns_listen_setup` as compiled for Linux, `socks_bind_sock`, and the functions of
  libgdnsd/alloc.c that multiply. The kernel is a parameter: what it refuses and what it tells; `SockSpec.Linux` says what is assumed of it.
* `Verif/Threads`: starting and stopping the threads of listeners (src/main.c, src/dnspacket.c, src/dnsio_tcp.c, src/dnsio_udp.c) as a transition system. Sections under a lock are single steps. That a stop that is
  told reaches the thread is assumed of `ev_async_send`, and of SIGUSR2 with the timeout of `recvmsg`; that the condition is not signalled for no reason is assumed only for the bound on the number of steps.
* `Verif/CtlArgs`: `parse_args` of gdnsdctl (src/gdnsdctl.c) with `getopt` as glibc has it if POSIXLY_CORRECT is set, composed with `Verif/Ctl`.
* `Verif/Loop`: the handlers of a thread for TCP (src/dnsio_tcp.c) as a transition system with the watchers, `activecnt` and RCU. Of libev it is assumed that it invokes only active watchers, that all check watchers
  that are active at the poll are invoked in its round, that it does not wait with an active idle watcher, and that `ev_run` returns exactly if nothing is referenced; results of system calls and the order of events are
  arbitrary. Requests themselves are in `Verif/Stream`, the queue in `Verif/Connq`.
* `Verif/GeoTest`: gdnsd_geoip_test (src/plugins/gdnsd_geoip_test.c) with `gdmaps_logf_dclist` (libgdmaps/gdmaps.c), on the trees of `Verif/Geo` and the buffer for messages of `Verif/Util`. `getaddrinfo` and
  `getnameinfo` are parameters; `fgets` and `sscanf` are modelled for the formats in use.
* `Verif/Hand`: `spawn_helper` and `send_cmd` (src/plugins/extmon.c) against the first half of `main` of src/plugins/extmon_helper.c, as two processes that make one call at a time, on the commands of `Verif/Extmon`
  and the substitution of `Verif/Util`. `fork`, `execl`, signals and the range of descriptors are not in it.
* `Verif/Frames`: `conn_write_packet` and `conn_send_dso_uni` (src/dnsio_tcp.c) on the buffer that the connections of a thread share. An answer is a parameter (its contents are in `Verif/Packet`), of which the DNS layer is taken to write every byte, and so is the result of each
  `send`. Which connections have a session when the thread stops is the list of events (the loop over the queue is in `Verif/Connq`).

## Not modelled

libev, sockets, the kernel, libsodium/crypto primitives (parameters), liburcu
(modelled as atomic publication), the tables Ragel generates, libmaxminddb,
floating point distances (parameter), process management.

## Disagreements between the code and the properties

Each item is a theorem with a concrete witness (in the area's `Props.lean`).

* C03: `gdnsd_dname_to_string` does not escape `.` and `\` inside labels and prints
  the root as the empty string (`C03_false*`).
* C09: when a request repeats the client-subnet option, the second address is written
  over the first without clearing it, so the lookup can use an address that was in
  neither option (`C09_false_repeated`).
* C10: answers of class CH over UDP are not checked against the size limit: with the
  longest configurable CHAOS string and name, 538 bytes are sent without EDNS
  (`C10_false_chaos`). A truncated reply can also exceed `max_nocookie_response`.
* C11: the assertion that the EDNS output has the reserved size fails for repeated
  client-subnet options, repeated NSID options, and an unsupported EDNS version over
  plain TCP (`C11_false_repeated_ecs`, `C11_false_repeated_nsid`,
  `C11_false_badvers_tcp`).
* C53: state strings are parsed with `strtoul`, so signs and leading white space before
  the TTL are accepted (`C53_false`).
* C57: metafo stores datacenter numbers in bytes without limiting their count; with 256 or
  more datacenters the list ends after the 255th (`C57_false`).
* C58: synthetic names `resource/datacenter` are rejected for datacenter numbers of 128 and
  above, because the number is returned through an `int` (`C58_false`).
* C33: the scope is reset between datacenters, so a metafo resource whose first datacenter
  is a geoip resource answers with scope 0 when that one is down for this client
  (`C33_false_nested`).
* C59: a SOA's TTL is limited by its negative-cache field, not by `max_ttl`, and an ACME
  challenge TXT record ignores `min_ttl` (`C59_false_soa`, `C59_false_acme`).
* C20: the root of the tree is read again for every CNAME that is followed. A reload in
  between gives a reply mixed from both trees (`C20_false_mixed`), or trips an assertion if the
  zone is gone (`C20_false_assert`).
* C61: the test whether a CNAME's target is in the zone compares the zone's name with the
  request's bytes without folding case, so the chain of `a.Z.` is not followed although that of
  `a.z.` is (`C61_false`).
* C62: challenges are added while they fit; the rest is left out without TC (`C62_false`).
* C23: record types in RFC 3597 syntax are compared in 32 bits but stored in 16, so
  `TYPE65549` becomes a HINFO record, which the loader otherwise refuses (`C23_false`).
* C63: `TYPE65541` is stored as a CNAME whose data are then read as something else
  (`C63_false_type`). An alias of a name in a delegation whose own name has a CNAME besides the
  NS records reaches `gdnsd_assert(0)` in `p1_rrset_size` if the alias is visited first
  (`C63_false_mix`).
* C64: the length of RFC 3597 data is stored in 16 bits: 65537 bytes are served as one
  (`C64_false`).
* C66: `chal_respond` fills the packet up to its limit without leaving room for the OPT record,
  and over TCP nothing is truncated, so a large TXT set, a few challenges and an NSID option
  together exceed the response buffer (`C66_false`).
* C32: when the two halves of a network are listed with the same list, and the network itself
  with another, normalization joins the halves into a second entry for the network and keeps
  whichever the sort put first: with a stable sort, the less specific one (`C32_false_hidden`).
* C36: the automatic list is made from a copy of the default list whose length is taken to be
  the number of datacenters. With a shorter `default` in the `map` stanza the copy reads past
  its end (`C36_false_default`).
* C37: sets vanish up to 3.2 seconds early (`TIME_FUDGE`). When the first set is one that was
  handed over with little time left, the timer is nevertheless set to the full
  `acme_challenge_ttl`, so that its challenges are answered long after their expiry
  (`C37_false_import`).
* C41: a PROXY version 1 header of more than 108 bytes with a good address fails an assertion in
  `read_handler` (`C41_false_long`); 108 bytes is the longest header of the protocol, but the
  parser only looks for the end of the line.
* C39: a PROXY header must arrive in one segment: with fewer than eight bytes in the first segment
  the connection is closed (`C39_false_proxy`), so what is read depends on the segmentation.
* C67: each closing of the most idle connection sets the timer anew to at least 250 ms, so
  connections can stay open for longer than the timeout and the 0.25 s that the comment at
  `src/dnsio_tcp.c:70-74` allows (`C67_false_fudge`); by at most 250 ms for every connection that
  the limit allows (`C67_idle_partial`).
* C43: the size of a command's strings is sent in 16 bits, nothing limits it when the
  configuration is read (only the number of arguments, 254), so a command with 64 KiB of
  arguments is written but cannot be read; the helper exits (`C43_false_long`). It is never
  misread (`C43_long`).
* C69: the interval timer's callback asserts that the check before has its result. The
  configuration only demands that the timeout is shorter than the interval. If the loop is late
  once by two seconds, and a check takes its whole time, the assertion fails
  (`C69_false_stall`; `src/plugins/extmon_helper.c`, `mon_interval_cb`). If a killed process has not
  been reaped when the next check starts, the child watcher is still active in the list of the
  old process; the new process's end is missed, its check fails whatever its status was, and
  SIGKILL goes to a process number that may belong to somebody else by then
  (`C69_false_stuck`). The `C69_*_partial` theorems assume that callbacks are late by at most
  `L` with `timeout + 2 L < interval`, and those on noticing and killing that a process has
  ended when its monitor's next check starts.
* C47: `statio_deserialize` means to demand a multiple of eight bytes but tests `dlen & 4`, so data of
  one to three bytes pass and are read out of bounds (`C47_false_length`). Only a peer other than gdnsd
  sends such data.
* C50: an at sign behind a backslash still stands for the origin (`C50_false_escaped`).
* C71: numbers wrap around at 2^32, in plain numbers and times (`C71_false_number`, `C71_false_weeks`).
  Two blanks behind `TXT` are enough for a record without a string (`C71_false_text`). A record without
  owner at the top of an included file belongs to the zone's name, not to the last owner before the
  directive (`C71_false_owner`). A blank or comment behind the file name of `$INCLUDE` is an error
  (`C71_false_comment`). A minimum TTL of 0 counts as not given (`C71_false_minimum`).
* C72: an empty file, empty quotes as a name in data and RFC 3597 data of length 0 with a blank behind
  end the daemon (`C72_false_empty`, `C72_false_quotes`, `C72_false_nothing`), a file that includes itself
  never ends (`C72_false_cycle`), and type numbers above 65535 are accepted (`C72_false_type`).
* C73: a TAK2 or TAKE that is not the replacement's is answered with a failure that is never sent,
  because the connection is closed at once (`C73_false_refused`).
* C75: TAK1 with process number 0 leaves the timer running with no process, and the timer's
  assertion stops the daemon (`C75_false_timer`); a second TAK1 of the same process fails an assertion
  (`C75_false_second`); so does a stop whose acknowledgement cannot be sent while the client that asked
  for the replacement waits (`C75_false_stop`). A takeover that is accepted during a load and fails
  later leaves the load running, and the next request starts a second one at the same time
  (`C75_false_loads`); the end of the first then makes the daemon join the second thread twice
  (`C75_false_join`). A replacement found dead is killed by its number again, which another process
  may have by then (`C75_false_dead`). The process number of TAK1 is not checked: 2^32 - 1 is -1 as a
  `pid_t`, and the daemon kills every process it may when the connection closes (`C75_false_pid`). All
  of these need a client of the Unix socket, but for the loads, which need a failed replacement only.
* C76: a directory without files that is included as the value of a key is no error: the key waits, and
  the next file that is to be merged becomes its value (`C76_empty_directory`). Strings that touch are
  two values or leave the buffer, depending on the order of actions Ragel generates (`C76_touching`). A
  file that includes itself is read without end (`C76_self_include`). Escapes in included paths are not
  decoded, and a comment on a last line without a line end is refused; both are so in the grammar.
* C78: `-1` is accepted where an unsigned number is asked for, and is 2^64 - 1 (`C78_negative`): the rules of
  `strtoul`, as vscf.h says; the callers check ranges.
* C79: handing down the key of a hash whose own value is a hash gives it to itself, and the children
  behind it get the changed value (`C79_bequeath_itself`), although vscf.h says "other" children. Keys with zero
  bytes are not inherited (`C79_inherit_zero`); vscf.h says they are not supported.
* C81: SIGUSR2 sent by another process to one datagram thread (tgkill) while the thread has it blocked
  hides the signal that the main thread sends to stop the thread. The thread then waits for traffic without end and the
  daemon does not stop (`C81_lost_signal`); `C81_stop_partial` excludes such signals.
* C82: the manual says that the default of `chaos_response` is "gdnsd"; it is "gdnsd/3" in the code and in the
  specification here.
* C83: the check that a PROXY listener does not have port 53 compares the port in network order. On
  little-endian machines port 53 is accepted and port 13568 is refused (`C83_port53`).
* C84: text behind the bracket of an address is ignored unless it is a colon: `[::1]5353` is the default port of `::1`
  (`C84_junk`).
* C86: the byte behind the status code is not looked at: `HTTP/1.1 2000` counts as code 200 (`C86_no_blank`).
* C87: the end of a connection before thirteen bytes of an answer is not noticed: `recv` returns 0, which is counted as
  progress, and the callback runs again and again until the timeout (`C87_spins`). The result is the same, later and with a
  busy loop.
* C88: without a socket `tcp_connect` reports nothing, unlike `http_status`, so the address keeps its state however long
  sockets cannot be had (`C88_silent`).
* C89: `ok_codes` of `http_status` and `direct` of `extmon` are taken for texts before anyone has looked whether they are: a
  hash or an array there is read as a string (`C89_kinds`). A service type of `static` is fatal unless there is an entry for
  `static` in `plugins` as well, unlike in the manual (`C89_static_alone`). Options of service types are not checked while
  nothing is monitored (`C89_unused`). The manual gives 1 to 255 for `interval` and `timeout`; the code has 2 to 3600 and 1 to
  300, which are the ranges in the specification here.
* C91: names are compared as they are written in the file, but those of the configuration are changed to lower case: an entry
  written like the name in the configuration is ignored if that has capitals (`C91_case`).
* C92: `up_thresh => nan` is accepted, as it is neither at most 0 nor above 1; the assertions of `gdnsd_uscale_ceil` then fail
  (`C92_nan`), and without assertions the conversion to an integer is undefined.
* C95: as in C92, `up_thresh => nan` is accepted by `weighted` and an assertion then fails (`C95_nan`).
* C95: an empty label, which can be written in quotes, in a group of `weighted` fails `gdnsd_assert(lb_name_len)` (`C95_label`).
* C95: for a plugin that is used but has no stanza, `load_config(NULL)` is called; `weighted` then fails an assertion where `multifo`
  and `simplefo` report that they need a configuration (`C95_none`).
* C97: a datacenter written as `%metafo` in `metafo` (or `%geoip` in `geoip`), without `!`, compares a null pointer with the name of
  the resource (meta_core.inc:211; `C97_self`).
* C97: a `skip_first` that is not a text fails an assertion of `vscf_simple_get_as_bool` (`C97_skip_first`).
* C97: if the stanza of the plugin of a synthesized resource is not a hash, an assertion fails where a message is expected (`C97_stanza`).
* C97: docs/gdnsd-plugin-metafo.podin says that `plugin` at the level of a resource changes the default for all its datacenters. A
  datacenter written as `!resource` marks that key, and those that come later in `dcmap` do not inherit it: they become resources of
  `multifo` (`C97_plugin_lost`).
* C99: a list of 256 or more datacenters (names may be repeated) in `map` or `nets` is written past the end of `newlist[256]` in
  `dclists_xlate_vscf` (`C99_false_overflow`).
* C99: an `ignore_ecs` that is not a text fails an assertion of `vscf_simple_get_as_bool` (`C99_false_ecs`).
* C99: a latitude `nan` passes the check of the range; the datacenter is then as one without coordinates but still counts for
  `auto_dc_limit`, so that a datacenter without coordinates can become part of automatic lists (`C99_false_nan`).
* C99: docs/gdnsd-plugin-geoip.podin says that `map` is optional and that without it the default list is used. With `geoip2_db` and
  neither `map` nor `auto_dc_coords`, the database is not used and the program ends when it starts (`C99_false_no_map`).
* C100: a text of 128 bytes or more in a database is copied past the end of a buffer (`C100_false_long`).
* C100: with ten subdivisions in a record the city is not looked at.
* C101: if a TCP listener allows to control but not to set challenges, `acme-dns-01` is refused without reading its data, which the
  daemon then takes for further requests. A name whose length is 82 (the letter R) makes it start a replacement (`C101_false_refused`).
* C101: with `-i`, success is reported although there is a daemon if it does not acknowledge the greeting (`C101_false_ignored`).
* C101: `send` is called without MSG_NOSIGNAL and SIGPIPE is not ignored: a connection that the daemon has closed kills gdnsdctl instead of
  leading to another attempt (`C101_false_pipe`).
* C102: `_acme-challenge.` is only recognized in lower case; `_ACME-Challenge.example` is sent as that name.
* C103: if the request to stop the old daemon cannot be sent, or is refused, the new one serves all the same and two daemons share the
  sockets and the lock (`C103_false_stop`); there is only a message in the log.
* C104: `gdnsd_anysin_cmp` ignores the scope of IPv6 addresses, so that a listener on one interface may get the socket of another one's same
  link-local address, and its own is closed (`C104_false_scope`).
* C105: a change of a file between its first load and the start of its watcher is not noticed (`C105_false_window`); neither is one
  that leaves `st_mtime` in the same second (`C105_false_mtime`), nor one followed by another change of attributes only, if libev looks at
  both before it calls back (`C105_false_burst`: the callback compares with `prev`). The five seconds' wait that should cover changes within a
  second starts at libev's cached time, so that it does not if the loop was busy for as long (`C105_false_lag`).
* C105: an unknown datacenter in an external `nets` file is fatal, and so ends a running daemon when that file is changed (`C105_false_fatal`), while
  all other errors in it leave the old data in service.
* C106: `gdnsd_plugin_find` calls `log_fatal` for a name it does not know. A record with a misspelled plugin therefore ends a running daemon on reload
  (`C106_false_unknown`); the error that src/ltree.c would report is never reached. This is outside of C72, whose loader takes plugins as given.
* C106: nothing looks for circles among metafo's and geoip's resources (`C106_false_cycle`).
* C106: `map_res_inner` sets `res_num` to 0 and then to what `map_res` returns, in memory that answers are made from at the same time. During each
  reload (`C106_false_window`), and until the next one if a zone is rejected in between (`C106_false_failed`), records of any zone may be answered from resource 0 of
  the plugin. So a reload that fails is not without effect, contrary to what C20 says of the tree of names.
* C107: `ltree_destroy_zone` (src/ltree.c 1398-1403) does not call `lta_destroy` for the arena of the zone. Each zone that was made but not merged when a load fails
  leaves its arena behind, at least three blocks, so that a daemon whose reloads fail grows without bound (`C107_false_leak`, `C107_false_bound`).
* C108: the limit of messages compares seconds of the wall clock for equality; times that jump back and forth start a new second each time, and nothing is suppressed (`C108_false_clock`). The comment says that
  the tenth message is replaced by the one about suppression; it is the eleventh.
* C109: `logf_lstack_labels` (src/ltree.c 86-94) keeps bytes in a `char`, so that those above 127 are negative and are shown as other characters than digits, some of them control characters
  (`C109_false_high`).
* C110: `adjust * needle_count` (libgdnsd/misc.c 128) can overflow a signed type although all sizes pass the check (`C110_false_overflow`). Not reachable with texts below two gigabytes.
* C111: `gdnsd_fmap_new` (libgdnsd/file.c 88-102) does not expect `read` to return 0; a file that is truncated between `fstat` and `read` makes it loop for ever (`C111_false_truncated`).
* C112: with `-i` and a running daemon, `gdnsd daemonize` fails with status 42 although its documentation says 0, because the background process ends without writing to the pipe (src/main.c 679-682,
  src/daemon.c 110-121, `C112_false_idempotent`). With SIGCHLD ignored from the start, `waitpid` fails with ECHILD and so does the foreground process (`C112_false_sigchld`).
* C113: a child that ends while the daemon runs (with `helper_failure_action` other than to stop) is reaped by libev but stays registered; at the stop, SIGTERM and SIGKILL go to whatever process has its number
  then (`C113_false_reused`).
* C116: the comment at `gdnsd_ensure_dir` (libgdnsd/paths.c 58-69) takes the success of `chmod` for ownership; the superuser can change the mode of any directory (`C116_false_root`). The mode is changed before it is
  known whether it is a directory (`C116_false_touched`).
* C118: with `udp_rcvbuf` or `udp_sndbuf` above `net.core.rmem_max` or `wmem_max` the kernel cuts the size, `setsockopt` succeeds, and nothing is logged (`C118_false_limit`). A daemon without these options
  that replaces one with them keeps the sizes of the old one (`C118_false_kept`).
* C121: gdnsdctl does not look at what follows the number given with `-t` (src/gdnsdctl.c 419-425), so that `-t 30m` means 30 seconds (`C121_false_junk`); white space and signs are accepted as by `strtoul`.
* C123: gdnsd_geoip_test cuts a name after 127 bytes and takes the rest of it as the address, and a line after 254 bytes and takes the rest as another one (src/plugins/gdnsd_geoip_test.c 109-126; `C123_false_long`,
  `C123_false_split`). The names of the data centers of an answer share the 4096 bytes for messages with the address: for maps with more, it ends with "BUG: format buffer exhausted" (`C123_false_names`). The case of a scope
  that is not shown (line 89) cannot happen (`C123_same`).
* C124: the number of monitors goes to the helper as 16 bits, without a check (src/plugins/extmon.c 299-302). With 65536 of them the helper ends because of a count of zero, and with 65537 it expects one command and
  ends at the second; the daemon then ends with a message that the helper failed (`C124_false_many`, `C124_false_count`). The helper refuses descriptors above 1000 (src/plugins/extmon_helper.c 393-395), which the daemon does not
  consider.
