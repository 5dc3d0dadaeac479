import Verif.Arena.Props
import Verif.Args.Props
import Verif.Chal.Props
import Verif.Conf.AddrProps
import Verif.Conf.LoadProps
import Verif.Conf.Props
import Verif.Connq.Props
import Verif.Cookie.Props
import Verif.Css.Props
import Verif.Ctl.Props
import Verif.CtlArgs.Props
import Verif.Dname.Props
import Verif.Enc.CompProps
import Verif.Extmon.Props
import Verif.Frames.Props
import Verif.Geo.Props
import Verif.GeoTest.Props
import Verif.Gmap.Props
import Verif.Hand.Props
import Verif.Life.Props
import Verif.Load.Props
import Verif.Lookup.Props
import Verif.Loop.Props
import Verif.Maps.Props
import Verif.Meta.AnswerProps
import Verif.Meta.Props
import Verif.Mon.Props
import Verif.Mon.States
import Verif.Own.Props
import Verif.Packet.Props
import Verif.Packet.RespondProps
import Verif.Plugins.Meta
import Verif.Plugins.Props
import Verif.Plugins.WeightedProps
import Verif.Poll.Props
import Verif.Proxy.Props
import Verif.Rand.Props
import Verif.Rand.TtlProps
import Verif.Refs.Props
import Verif.Res.AnswerProps
import Verif.Res.MfProps
import Verif.Res.SfProps
import Verif.Server.Props
import Verif.Sock.Props
import Verif.Statio.Props
import Verif.Stream.Props
import Verif.Svc.FileProps
import Verif.Svc.Props
import Verif.Svc.ReqProps
import Verif.Take.Props
import Verif.Threads.Props
import Verif.Tree.Props
import Verif.Tree.TableProps
import Verif.Udp.Props
import Verif.Udp.StopProps
import Verif.Util.Props
import Verif.Vscf.CloneProps
import Verif.Vscf.ConvProps
import Verif.Vscf.Props
import Verif.Vscf.TableProps
import Verif.Watch.Props
import Verif.Wt.AnswerProps
import Verif.Wt.Props
import Verif.Zscan.Props
/- Prints the axioms of every property theorem during the build. -/
#print axioms Gdnsd.Dname.C01_grammar_functional
#print axioms Gdnsd.Dname.C01_parse_complete
#print axioms Gdnsd.Dname.C01_parse_exact
#print axioms Gdnsd.Dname.C01_parse_status
#print axioms Gdnsd.Dname.C02_grammar_functional
#print axioms Gdnsd.Dname.C02_unescape_exact
#print axioms Gdnsd.Dname.C02_unescape_label_exact
#print axioms Gdnsd.Dname.C03_false
#print axioms Gdnsd.Dname.C03_false_backslash
#print axioms Gdnsd.Dname.C03_false_root
#print axioms Gdnsd.Dname.C03_print_fits
#print axioms Gdnsd.Dname.C03_print_parse_partial
#print axioms Gdnsd.Dname.C03_print_printable
#print axioms Gdnsd.Dname.C04_cmp
#print axioms Gdnsd.Dname.C04_drop_zone
#print axioms Gdnsd.Dname.C04_isinzone
#print axioms Gdnsd.Dname.C05_cat
#print axioms Gdnsd.Dname.C05_cat_wf
#print axioms Gdnsd.Packet.C06_decode_defined
#print axioms Gdnsd.Packet.C06_offset_inside
#print axioms Gdnsd.Packet.C07_malformed_rejected
#print axioms Gdnsd.Packet.C07_question
#print axioms Gdnsd.Packet.C07_question_read
#print axioms Gdnsd.Packet.C08_class
#print axioms Gdnsd.Packet.C08_dropped
#print axioms Gdnsd.Packet.C08_plain
#print axioms Gdnsd.Packet.C08_rcode
#print axioms Gdnsd.Packet.C08_verdict
#print axioms Gdnsd.Packet.C09_accept_iff
#print axioms Gdnsd.Packet.C09_address_partial
#print axioms Gdnsd.Packet.C09_false_repeated
#print axioms Gdnsd.Packet.C09_illegal_formerr
#print axioms Gdnsd.Packet.C10_buffer
#print axioms Gdnsd.Packet.C10_false_chaos
#print axioms Gdnsd.Packet.C10_responds_partial
#print axioms Gdnsd.Packet.C10_truncation
#print axioms Gdnsd.Packet.C10_udp_partial
#print axioms Gdnsd.Packet.C11_exact_partial
#print axioms Gdnsd.Packet.C11_false_badvers_tcp
#print axioms Gdnsd.Packet.C11_false_repeated_ecs
#print axioms Gdnsd.Packet.C11_false_repeated_nsid
#print axioms Gdnsd.Packet.C11_reserved
#print axioms Gdnsd.Packet.C12_padded
#print axioms Gdnsd.Packet.C12_unpadded
#print axioms Gdnsd.Packet.C13_counts
#print axioms Gdnsd.Packet.C13_header
#print axioms Gdnsd.Packet.C13_question
#print axioms Gdnsd.Enc.C14_lossless
#print axioms Gdnsd.Enc.C14_unique
#print axioms Gdnsd.Rand.C15_bound_zero
#print axioms Gdnsd.Rand.C15_in_range
#print axioms Gdnsd.Rand.C15_shuffle
#print axioms Gdnsd.Ttl.C16_dynamic
#print axioms Gdnsd.Ttl.C16_in_range_unchanged
#print axioms Gdnsd.Ttl.C16_scope
#print axioms Gdnsd.Ttl.C16_static
#print axioms Gdnsd.Table.C17_map
#print axioms Gdnsd.Tree.C18_search
#print axioms Gdnsd.Tree.C18_unique
#print axioms Gdnsd.Tree.C18_zone
#print axioms Gdnsd.Load.C19_accept
#print axioms Gdnsd.Load.C19_order
#print axioms Gdnsd.Load.C19_zone
#print axioms Gdnsd.Lookup.C20_false_assert
#print axioms Gdnsd.Lookup.C20_false_mixed
#print axioms Gdnsd.Lookup.C20_query_partial
#print axioms Gdnsd.Load.C20_reload_partial
#print axioms Gdnsd.Load.C21_bound
#print axioms Gdnsd.Load.C21_lookup
#print axioms Gdnsd.Load.C21_reject
#print axioms Gdnsd.Load.C22_fits
#print axioms Gdnsd.Load.C23_false
#print axioms Gdnsd.Load.C23_rules_partial
#print axioms Gdnsd.Cookie.C24_accepted
#print axioms Gdnsd.Cookie.C24_autokey
#print axioms Gdnsd.Cookie.C24_history
#print axioms Gdnsd.Cookie.C24_keyfile
#print axioms Gdnsd.Cookie.C24_keyfile_untouched
#print axioms Gdnsd.Cookie.C24_one_hour
#print axioms Gdnsd.Cookie.C24_process
#print axioms Gdnsd.Cookie.C24_rejected
#print axioms Gdnsd.Mon.C25_fails
#print axioms Gdnsd.Mon.C25_history
#print axioms Gdnsd.Mon.C25_initial
#print axioms Gdnsd.Mon.C25_recovers
#print axioms Gdnsd.Mon.C25_rule_functional
#print axioms Gdnsd.Mon.C25_ttl
#print axioms Gdnsd.Mon.C26_delivered
#print axioms Gdnsd.Mon.C26_forcing
#print axioms Gdnsd.Mon.C26_monitored_independent
#print axioms Gdnsd.Mon.C27_combine
#print axioms Gdnsd.Mon.C27_order
#print axioms Gdnsd.Mon.C27_two
#print axioms Gdnsd.Plug.C28_multifo
#print axioms Gdnsd.Plug.C28_share
#print axioms Gdnsd.Plug.C29_choice
#print axioms Gdnsd.Plug.C29_simplefo
#print axioms Gdnsd.Plug.C30_cname
#print axioms Gdnsd.Plug.C30_config
#print axioms Gdnsd.Plug.C30_served_up
#print axioms Gdnsd.Plug.C30_weighted
#print axioms Gdnsd.Plug.C31_all_down
#print axioms Gdnsd.Plug.C31_first_up
#print axioms Gdnsd.Plug.C31_forced
#print axioms Gdnsd.Plug.C31_multifo
#print axioms Gdnsd.Plug.C31_nested
#print axioms Gdnsd.Plug.C31_none
#print axioms Gdnsd.Plug.C31_simplefo
#print axioms Gdnsd.Plug.C31_static
#print axioms Gdnsd.Plug.C31_weighted
#print axioms Gdnsd.Plug.C31_weighted_cname
#print axioms Gdnsd.Geo.C32_contains
#print axioms Gdnsd.Geo.C32_false_hidden
#print axioms Gdnsd.Geo.C32_longest_match_partial
#print axioms Gdnsd.Geo.C32_refused
#print axioms Gdnsd.Plug.C33_false_nested
#print axioms Gdnsd.Geo.C33_scope_merged
#print axioms Gdnsd.Geo.C33_scope_nets
#print axioms Gdnsd.Geo.C34_database_loads
#print axioms Gdnsd.Geo.C34_merge
#print axioms Gdnsd.Geo.C34_override
#print axioms Gdnsd.Geo.C34_override_longest_partial
#print axioms Gdnsd.Maps.C35_init_safe
#print axioms Gdnsd.Maps.C35_meaning
#print axioms Gdnsd.Maps.C35_not_lost
#print axioms Gdnsd.Maps.C35_safe
#print axioms Gdnsd.Maps.C36_false_default
#print axioms Gdnsd.Maps.C36_limit
#print axioms Gdnsd.Maps.C36_only_located_partial
#print axioms Gdnsd.Maps.C36_order_partial
#print axioms Gdnsd.Chal.C37_accepted
#print axioms Gdnsd.Chal.C37_accepts
#print axioms Gdnsd.Chal.C37_answers_partial
#print axioms Gdnsd.Chal.C37_client_sets_partial
#print axioms Gdnsd.Chal.C37_false_import
#print axioms Gdnsd.Chal.C37_safe
#print axioms Gdnsd.Chal.C38_hand_off
#print axioms Gdnsd.Stream.C39_drain
#print axioms Gdnsd.Stream.C39_false_proxy
#print axioms Gdnsd.Stream.C39_requests
#print axioms Gdnsd.Stream.C39_safe_partial
#print axioms Gdnsd.Stream.C39_segmentation_partial
#print axioms Gdnsd.Connq.C40_connect
#print axioms Gdnsd.Connq.C40_fire
#print axioms Gdnsd.Connq.C40_full
#print axioms Gdnsd.Connq.C40_gone
#print axioms Gdnsd.Connq.C40_grace
#print axioms Gdnsd.Connq.C40_limit
#print axioms Gdnsd.Connq.C40_request
#print axioms Gdnsd.Connq.C40_safe
#print axioms Gdnsd.Connq.C40_stop
#print axioms Gdnsd.Connq.C40_timer
#print axioms Gdnsd.Proxy.C41_bounds_partial
#print axioms Gdnsd.Proxy.C41_false_long
#print axioms Gdnsd.Proxy.C41_rejects
#print axioms Gdnsd.Proxy.C41_v1_partial
#print axioms Gdnsd.Proxy.C41_v2
#print axioms Gdnsd.Packet.C42_dso
#print axioms Gdnsd.Packet.C42_history
#print axioms Gdnsd.Packet.C42_other
#print axioms Gdnsd.Extmon.C43_false_long
#print axioms Gdnsd.Extmon.C43_long
#print axioms Gdnsd.Extmon.C43_read
#print axioms Gdnsd.Extmon.C43_round
#print axioms Gdnsd.Extmon.C43_write
#print axioms Gdnsd.Css.C44_denied
#print axioms Gdnsd.Css.C44_load
#print axioms Gdnsd.Css.C44_permissions
#print axioms Gdnsd.Css.C44_remote
#print axioms Gdnsd.Css.C45_deferred
#print axioms Gdnsd.Css.C45_end
#print axioms Gdnsd.Css.C45_exclusive
#print axioms Gdnsd.Css.C45_handed
#print axioms Gdnsd.Css.C45_later
#print axioms Gdnsd.Css.C45_later_data
#print axioms Gdnsd.Css.C45_nobody_waits
#print axioms Gdnsd.Css.C45_not_later
#print axioms Gdnsd.Css.C45_one
#print axioms Gdnsd.Css.C45_resume
#print axioms Gdnsd.Css.C46_ack
#print axioms Gdnsd.Css.C46_bound
#print axioms Gdnsd.Css.C46_done
#print axioms Gdnsd.Css.C46_once
#print axioms Gdnsd.Css.C46_result
#print axioms Gdnsd.Css.C46_working
#print axioms Gdnsd.Statio.C47_arrives
#print axioms Gdnsd.Statio.C47_consistent
#print axioms Gdnsd.Statio.C47_false_length
#print axioms Gdnsd.Statio.C47_number
#print axioms Gdnsd.Statio.C47_other_version
#print axioms Gdnsd.Statio.C47_report
#print axioms Gdnsd.Statio.C47_transfer
#print axioms Gdnsd.Zscan.C48_flat
#print axioms Gdnsd.Zscan.C48_line
#print axioms Gdnsd.Zscan.C48_places
#print axioms Gdnsd.Zscan.C48_safe
#print axioms Gdnsd.Zscan.C49_lossless
#print axioms Gdnsd.Zscan.C49_safe
#print axioms Gdnsd.Zscan.C49_text
#print axioms Gdnsd.Zscan.C50_false_escaped
#print axioms Gdnsd.Zscan.C50_left
#print axioms Gdnsd.Zscan.C50_right
#print axioms Gdnsd.Zscan.C50_unique
#print axioms Gdnsd.Arena.C51_disjoint
#print axioms Gdnsd.Arena.C51_kept
#print axioms Gdnsd.Arena.C51_no_leak
#print axioms Gdnsd.Arena.C51_safe
#print axioms Gdnsd.Packet.C52_options
#print axioms Gdnsd.Mon.C53_accepts
#print axioms Gdnsd.Mon.C53_false
#print axioms Gdnsd.Mon.C53_rejects_partial
#print axioms Gdnsd.Mon.C54_dump
#print axioms Gdnsd.Rand.C55_first_accepted
#print axioms Gdnsd.Rand.C55_never_degenerate
#print axioms Gdnsd.Rand.C55_returns
#print axioms Gdnsd.Rand.C55_seed
#print axioms Gdnsd.Rand.C55_shuffle_is_code
#print axioms Gdnsd.Rand.C55_shuffle_uniform
#print axioms Gdnsd.Rand.C55_unbiased
#print axioms Gdnsd.Rand.C55_zero_absorbs
#print axioms Gdnsd.Plug.C56_proportional
#print axioms Gdnsd.Plug.C57_false
#print axioms Gdnsd.Plug.C57_metafo_list_partial
#print axioms Gdnsd.Plug.C58_false
#print axioms Gdnsd.Plug.C58_synthetic_partial
#print axioms Gdnsd.Ttl.C59_false_acme
#print axioms Gdnsd.Ttl.C59_false_soa
#print axioms Gdnsd.Ttl.C59_soa_partial
#print axioms Gdnsd.Ttl.C59_txt_partial
#print axioms Gdnsd.Lookup.C60_lookup
#print axioms Gdnsd.Lookup.C60_unique
#print axioms Gdnsd.Lookup.C60_verdict
#print axioms Gdnsd.Lookup.C61_case_partial
#print axioms Gdnsd.Lookup.C61_false
#print axioms Gdnsd.Lookup.C62_challenges_partial
#print axioms Gdnsd.Lookup.C62_false
#print axioms Gdnsd.Load.C63_false_mix
#print axioms Gdnsd.Load.C63_false_type
#print axioms Gdnsd.Load.C63_safe_partial
#print axioms Gdnsd.Load.C64_false
#print axioms Gdnsd.Load.C64_reply_partial
#print axioms Gdnsd.Server.C65_reply_partial
#print axioms Gdnsd.Server.C66_false
#print axioms Gdnsd.Server.C66_fits_partial
#print axioms Gdnsd.Connq.C67_false_fudge
#print axioms Gdnsd.Connq.C67_idle_partial
#print axioms Gdnsd.Connq.C67_stop
#print axioms Gdnsd.Extmon.C68_decode
#print axioms Gdnsd.Extmon.C68_fail_safe
#print axioms Gdnsd.Extmon.C68_queue
#print axioms Gdnsd.Extmon.C68_updates
#print axioms Gdnsd.Extmon.C68_words
#print axioms Gdnsd.Extmon.C69_false_stall
#print axioms Gdnsd.Extmon.C69_false_stuck
#print axioms Gdnsd.Extmon.C69_limit_partial
#print axioms Gdnsd.Extmon.C69_log_partial
#print axioms Gdnsd.Extmon.C69_noticed_partial
#print axioms Gdnsd.Extmon.C69_once_partial
#print axioms Gdnsd.Extmon.C69_safe_partial
#print axioms Gdnsd.Extmon.C69_time_partial
#print axioms Gdnsd.Extmon.C70_fresh
#print axioms Gdnsd.Extmon.C70_initial
#print axioms Gdnsd.Extmon.C70_safe
#print axioms Gdnsd.Extmon.C70_stasis
#print axioms Gdnsd.Zscan.C71_exact_partial
#print axioms Gdnsd.Zscan.C71_false_comment
#print axioms Gdnsd.Zscan.C71_false_minimum
#print axioms Gdnsd.Zscan.C71_false_number
#print axioms Gdnsd.Zscan.C71_false_owner
#print axioms Gdnsd.Zscan.C71_false_text
#print axioms Gdnsd.Zscan.C71_false_weeks
#print axioms Gdnsd.Zscan.C71_numbers
#print axioms Gdnsd.Zscan.C71_unique
#print axioms Gdnsd.Zscan.C72_false_cycle
#print axioms Gdnsd.Zscan.C72_false_empty
#print axioms Gdnsd.Zscan.C72_false_nothing
#print axioms Gdnsd.Zscan.C72_false_quotes
#print axioms Gdnsd.Zscan.C72_false_type
#print axioms Gdnsd.Zscan.C72_records_partial
#print axioms Gdnsd.Zscan.C72_safe_partial
#print axioms Gdnsd.Css.C73_complete
#print axioms Gdnsd.Css.C73_false_refused
#print axioms Gdnsd.Css.C73_header
#print axioms Gdnsd.Css.C73_prefix
#print axioms Gdnsd.Css.C74_challenges
#print axioms Gdnsd.Css.C74_reply
#print axioms Gdnsd.Css.C75_false_dead
#print axioms Gdnsd.Css.C75_false_join
#print axioms Gdnsd.Css.C75_false_loads
#print axioms Gdnsd.Css.C75_false_pid
#print axioms Gdnsd.Css.C75_false_second
#print axioms Gdnsd.Css.C75_false_stop
#print axioms Gdnsd.Css.C75_false_timer
#print axioms Gdnsd.Css.C75_kill_partial
#print axioms Gdnsd.Css.C75_one_partial
#print axioms Gdnsd.Css.C75_safe_partial
#print axioms Gdnsd.Vscf.C76_empty_directory
#print axioms Gdnsd.Vscf.C76_meaning_unique
#print axioms Gdnsd.Vscf.C76_plain_text_safe
#print axioms Gdnsd.Vscf.C76_scan_buf_complete
#print axioms Gdnsd.Vscf.C76_scan_buf_sound_partial
#print axioms Gdnsd.Vscf.C76_scan_complete
#print axioms Gdnsd.Vscf.C76_scan_safe
#print axioms Gdnsd.Vscf.C76_scan_safe_early_partial
#print axioms Gdnsd.Vscf.C76_scan_sound_partial
#print axioms Gdnsd.Vscf.C76_self_include
#print axioms Gdnsd.Vscf.C76_text_unique
#print axioms Gdnsd.Vscf.C76_touching
#print axioms Gdnsd.Vscf.C77_iterate
#print axioms Gdnsd.Vscf.C77_keys
#print axioms Gdnsd.Vscf.C77_mask
#print axioms Gdnsd.Vscf.C77_refines
#print axioms Gdnsd.Vscf.C78_bool
#print axioms Gdnsd.Vscf.C78_long
#print axioms Gdnsd.Vscf.C78_negative
#print axioms Gdnsd.Vscf.C78_ulong
#print axioms Gdnsd.Vscf.C79_arrays
#print axioms Gdnsd.Vscf.C79_bequeath_itself
#print axioms Gdnsd.Vscf.C79_bequeath_partial
#print axioms Gdnsd.Vscf.C79_clone
#print axioms Gdnsd.Vscf.C79_clone_clean
#print axioms Gdnsd.Vscf.C79_files
#print axioms Gdnsd.Vscf.C79_inherit
#print axioms Gdnsd.Vscf.C79_inherit_all
#print axioms Gdnsd.Vscf.C79_inherit_zero
#print axioms Gdnsd.Udp.C80_calls
#print axioms Gdnsd.Udp.C80_replies
#print axioms Gdnsd.Udp.C80_safe
#print axioms Gdnsd.Udp.C80_unique
#print axioms Gdnsd.Udp.C81_lost_signal
#print axioms Gdnsd.Udp.C81_only
#print axioms Gdnsd.Udp.C81_quiet
#print axioms Gdnsd.Udp.C81_rcu
#print axioms Gdnsd.Udp.C81_stop_partial
#print axioms Gdnsd.Conf.C82_files
#print axioms Gdnsd.Conf.C82_none
#print axioms Gdnsd.Conf.C82_options
#print axioms Gdnsd.Conf.C82_root
#print axioms Gdnsd.Conf.C82_total
#print axioms Gdnsd.Conf.C83_listen_partial
#print axioms Gdnsd.Conf.C83_little_endian
#print axioms Gdnsd.Conf.C83_port53
#print axioms Gdnsd.Conf.C83_threads
#print axioms Gdnsd.Conf.C84_address_partial
#print axioms Gdnsd.Conf.C84_complete
#print axioms Gdnsd.Conf.C84_junk
#print axioms Gdnsd.Conf.C84_roundtrip
#print axioms Gdnsd.Poll.C85_checks
#print axioms Gdnsd.Poll.C85_drained
#print axioms Gdnsd.Poll.C85_timeout
#print axioms Gdnsd.Poll.C86_no_blank
#print axioms Gdnsd.Poll.C86_request
#print axioms Gdnsd.Poll.C86_status_line
#print axioms Gdnsd.Poll.C86_status_partial
#print axioms Gdnsd.Poll.C87_hangup_partial
#print axioms Gdnsd.Poll.C87_spins
#print axioms Gdnsd.Poll.C88_checks_partial
#print axioms Gdnsd.Poll.C88_silent
#print axioms Gdnsd.Poll.C88_timeout
#print axioms Gdnsd.Svc.C89_kinds
#print axioms Gdnsd.Svc.C89_none
#print axioms Gdnsd.Svc.C89_static_alone
#print axioms Gdnsd.Svc.C89_types_partial
#print axioms Gdnsd.Svc.C89_unused
#print axioms Gdnsd.Svc.C90_accept_partial
#print axioms Gdnsd.Svc.C90_share
#print axioms Gdnsd.Svc.C90_states
#print axioms Gdnsd.Svc.C90_watched
#print axioms Gdnsd.Svc.C91_all_or_nothing_partial
#print axioms Gdnsd.Svc.C91_case
#print axioms Gdnsd.Svc.C91_default
#print axioms Gdnsd.Svc.C91_defined
#print axioms Gdnsd.Svc.C91_loaded
#print axioms Gdnsd.Svc.C91_monitored
#print axioms Gdnsd.Svc.C91_repeats
#print axioms Gdnsd.Svc.C91_settles
#print axioms Gdnsd.Res.C92_multifo_partial
#print axioms Gdnsd.Res.C92_nan
#print axioms Gdnsd.Res.C92_none
#print axioms Gdnsd.Res.C92_share
#print axioms Gdnsd.Res.C93_none
#print axioms Gdnsd.Res.C93_simplefo
#print axioms Gdnsd.Res.C94_addr
#print axioms Gdnsd.Res.C94_multifo_partial
#print axioms Gdnsd.Res.C94_simplefo
#print axioms Gdnsd.Wt.C95_label
#print axioms Gdnsd.Wt.C95_nan
#print axioms Gdnsd.Wt.C95_none
#print axioms Gdnsd.Wt.C95_ranges
#print axioms Gdnsd.Wt.C95_weighted_partial
#print axioms Gdnsd.Wt.C96_served
#print axioms Gdnsd.Wt.C96_weighted_partial
#print axioms Gdnsd.Meta.C97_geoip
#print axioms Gdnsd.Meta.C97_geoip_total_partial
#print axioms Gdnsd.Meta.C97_kept
#print axioms Gdnsd.Meta.C97_made
#print axioms Gdnsd.Meta.C97_metafo
#print axioms Gdnsd.Meta.C97_metafo_total_partial
#print axioms Gdnsd.Meta.C97_plugin_lost
#print axioms Gdnsd.Meta.C97_self
#print axioms Gdnsd.Meta.C97_skip_first
#print axioms Gdnsd.Meta.C97_stanza
#print axioms Gdnsd.Meta.C98_geoip
#print axioms Gdnsd.Meta.C98_metafo_partial
#print axioms Gdnsd.Meta.C98_pick
#print axioms Gdnsd.Gmap.C99_admin
#print axioms Gdnsd.Gmap.C99_count
#print axioms Gdnsd.Gmap.C99_false_ecs
#print axioms Gdnsd.Gmap.C99_false_nan
#print axioms Gdnsd.Gmap.C99_false_no_map
#print axioms Gdnsd.Gmap.C99_false_overflow
#print axioms Gdnsd.Gmap.C99_geoip_total_partial
#print axioms Gdnsd.Gmap.C99_hash
#print axioms Gdnsd.Gmap.C99_map_partial
#print axioms Gdnsd.Gmap.C99_maps_partial
#print axioms Gdnsd.Gmap.C99_maps_total_partial
#print axioms Gdnsd.Gmap.C99_total_partial
#print axioms Gdnsd.Gmap.C100_client_partial
#print axioms Gdnsd.Gmap.C100_covers
#print axioms Gdnsd.Gmap.C100_false_long
#print axioms Gdnsd.Gmap.C100_list_partial
#print axioms Gdnsd.Gmap.C100_located
#print axioms Gdnsd.Gmap.C100_maps_unique
#print axioms Gdnsd.Gmap.C100_place_unique
#print axioms Gdnsd.Gmap.C100_stable
#print axioms Gdnsd.Gmap.C100_total_partial
#print axioms Gdnsd.Ctl.C101_effect
#print axioms Gdnsd.Ctl.C101_false_ignored
#print axioms Gdnsd.Ctl.C101_false_pipe
#print axioms Gdnsd.Ctl.C101_false_refused
#print axioms Gdnsd.Ctl.C101_success
#print axioms Gdnsd.Ctl.C101_total
#print axioms Gdnsd.Ctl.C101_works
#print axioms Gdnsd.Ctl.C102_accepted
#print axioms Gdnsd.Ctl.C102_illegal
#print axioms Gdnsd.Ctl.C102_installed
#print axioms Gdnsd.Take.C103_alone
#print axioms Gdnsd.Take.C103_checkconf
#print axioms Gdnsd.Take.C103_false_stop
#print axioms Gdnsd.Take.C103_idempotent
#print axioms Gdnsd.Take.C103_no_gap
#print axioms Gdnsd.Take.C103_refused
#print axioms Gdnsd.Take.C103_works
#print axioms Gdnsd.Take.C103_works_alone
#print axioms Gdnsd.Take.C104_false_scope
#print axioms Gdnsd.Take.C104_handed
#print axioms Gdnsd.Take.C104_import
#print axioms Gdnsd.Take.C104_received
#print axioms Gdnsd.Take.C104_received_only
#print axioms Gdnsd.Take.C104_same
#print axioms Gdnsd.Watch.C105_alive
#print axioms Gdnsd.Watch.C105_false_burst
#print axioms Gdnsd.Watch.C105_false_fatal
#print axioms Gdnsd.Watch.C105_false_lag
#print axioms Gdnsd.Watch.C105_false_mtime
#print axioms Gdnsd.Watch.C105_false_window
#print axioms Gdnsd.Watch.C105_kept
#print axioms Gdnsd.Watch.C105_quiet
#print axioms Gdnsd.Watch.C105_safe
#print axioms Gdnsd.Watch.C105_served_partial
#print axioms Gdnsd.Watch.C105_settles_partial
#print axioms Gdnsd.Watch.C105_together
#print axioms Gdnsd.Refs.C106_accepts
#print axioms Gdnsd.Refs.C106_answers
#print axioms Gdnsd.Refs.C106_between
#print axioms Gdnsd.Refs.C106_false_cycle
#print axioms Gdnsd.Refs.C106_false_failed
#print axioms Gdnsd.Refs.C106_false_unknown
#print axioms Gdnsd.Refs.C106_false_window
#print axioms Gdnsd.Refs.C106_names
#print axioms Gdnsd.Refs.C106_number
#print axioms Gdnsd.Refs.C106_plugins
#print axioms Gdnsd.Refs.C106_safe
#print axioms Gdnsd.Refs.C106_sound
#print axioms Gdnsd.Own.C107_clean
#print axioms Gdnsd.Own.C107_exact_partial
#print axioms Gdnsd.Own.C107_false_bound
#print axioms Gdnsd.Own.C107_false_leak
#print axioms Gdnsd.Own.C107_kept
#print axioms Gdnsd.Own.C107_safe
#print axioms Gdnsd.Util.C108_bounded
#print axioms Gdnsd.Util.C108_false_clock
#print axioms Gdnsd.Util.C108_passes
#print axioms Gdnsd.Util.C109_buffers
#print axioms Gdnsd.Util.C109_false_high
#print axioms Gdnsd.Util.C109_names
#print axioms Gdnsd.Util.C109_text_partial
#print axioms Gdnsd.Util.C110_false_overflow
#print axioms Gdnsd.Util.C110_replaced
#print axioms Gdnsd.Util.C110_total_partial
#print axioms Gdnsd.Util.C111_complete
#print axioms Gdnsd.Util.C111_contents
#print axioms Gdnsd.Util.C111_false_truncated
#print axioms Gdnsd.Life.C112_ends
#print axioms Gdnsd.Life.C112_failed_partial
#print axioms Gdnsd.Life.C112_false_idempotent
#print axioms Gdnsd.Life.C112_false_sigchld
#print axioms Gdnsd.Life.C112_orphan
#print axioms Gdnsd.Life.C112_sound
#print axioms Gdnsd.Life.C113_false_reused
#print axioms Gdnsd.Life.C113_own_partial
#print axioms Gdnsd.Life.C113_signals
#print axioms Gdnsd.Life.C113_time
#print axioms Gdnsd.Life.C114_limit
#print axioms Gdnsd.Args.C115_exact
#print axioms Gdnsd.Args.C115_order
#print axioms Gdnsd.Args.C116_false_root
#print axioms Gdnsd.Args.C116_false_touched
#print axioms Gdnsd.Args.C116_goes
#print axioms Gdnsd.Args.C116_paths
#print axioms Gdnsd.Args.C116_private_partial
#print axioms Gdnsd.Sock.C117_least
#print axioms Gdnsd.Sock.C117_stable
#print axioms Gdnsd.Sock.C118_again
#print axioms Gdnsd.Sock.C118_bind
#print axioms Gdnsd.Sock.C118_false_kept
#print axioms Gdnsd.Sock.C118_false_limit
#print axioms Gdnsd.Sock.C118_tcp
#print axioms Gdnsd.Sock.C118_udp_partial
#print axioms Gdnsd.Sock.C119_exact
#print axioms Gdnsd.Threads.C120_bounded
#print axioms Gdnsd.Threads.C120_final
#print axioms Gdnsd.Threads.C120_not_stuck
#print axioms Gdnsd.Threads.C120_ready
#print axioms Gdnsd.Threads.C120_safe
#print axioms Gdnsd.Threads.C120_serves
#print axioms Gdnsd.Threads.C120_stats
#print axioms Gdnsd.Threads.C120_told
#print axioms Gdnsd.CtlArgs.C121_exact
#print axioms Gdnsd.CtlArgs.C121_false_junk
#print axioms Gdnsd.CtlArgs.C121_run
#print axioms Gdnsd.CtlArgs.C121_seconds_partial
#print axioms Gdnsd.CtlArgs.C121_timeout
#print axioms Gdnsd.CtlArgs.C121_usage
#print axioms Gdnsd.CtlArgs.C121_verbatim
#print axioms Gdnsd.Loop.C122_ends
#print axioms Gdnsd.Loop.C122_fair
#print axioms Gdnsd.Loop.C122_grace
#print axioms Gdnsd.Loop.C122_offline
#print axioms Gdnsd.Loop.C122_one
#print axioms Gdnsd.Loop.C122_quiescent
#print axioms Gdnsd.Loop.C122_safe
#print axioms Gdnsd.Loop.C122_stopped
#print axioms Gdnsd.GeoTest.C123_false_long
#print axioms Gdnsd.GeoTest.C123_false_names
#print axioms Gdnsd.GeoTest.C123_false_split
#print axioms Gdnsd.GeoTest.C123_lines_partial
#print axioms Gdnsd.GeoTest.C123_list
#print axioms Gdnsd.GeoTest.C123_safe
#print axioms Gdnsd.GeoTest.C123_same
#print axioms Gdnsd.GeoTest.C123_usage
#print axioms Gdnsd.GeoTest.C123_words
#print axioms Gdnsd.Hand.C124_calm
#print axioms Gdnsd.Hand.C124_daemon
#print axioms Gdnsd.Hand.C124_ends
#print axioms Gdnsd.Hand.C124_false_count
#print axioms Gdnsd.Hand.C124_false_many
#print axioms Gdnsd.Hand.C124_helper
#print axioms Gdnsd.Hand.C124_live
#print axioms Gdnsd.Hand.C124_safe
#print axioms Gdnsd.Hand.C124_same
#print axioms Gdnsd.Frames.C125_apart
#print axioms Gdnsd.Frames.C125_block
#print axioms Gdnsd.Frames.C125_closed
#print axioms Gdnsd.Frames.C125_streams
