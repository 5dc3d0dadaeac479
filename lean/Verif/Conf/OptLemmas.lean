/-
What the options of each hash are, against the specification.
-/
import Verif.Conf.Lemmas
import Verif.Conf.ListenSpec
namespace Gdnsd.Conf
open Vscf VscfSpec ConfSpec

theorem textOf_some {es : List (Entry Val)} {k : String} {d : Bytes} {x : Option Bytes} (h : TextOf es k (some d) x) : ∃ y, x = some y := by
  rcases h with ⟨_, rfl⟩ | ⟨_, _, u, _, _, rfl⟩
  · exact ⟨_, rfl⟩
  · exact ⟨_, rfl⟩

/-- The keys that `confOptions` asks for. -/
def confKeys : List String :=
  ["username", "weaker_security", "include_optional_ns", "realtime_stats", "zones_strict_startup", "zones_rfc1035_auto", "any_mitigation", "priority", "log_stats", "max_response", "max_cname_depth", "max_addtl_rrsets", "zones_rfc1035_auto_interval", "zones_rfc1035_quiesce", "http_listen", "max_http_clients", "http_timeout", "http_port", "plugin_search_path", "lock_mem", "disable_text_autosplit", "edns_client_subnet", "zones_default_ttl", "min_ttl", "max_ttl", "max_ncache_ttl", "max_edns_response", "max_edns_response_v6", "acme_challenge_ttl", "acme_challenge_dns_ttl", "zones_rfc1035_threads", "zones_strict_data", "disable_cookies", "experimental_no_chain", "disable_tcp_dso", "max_nocookie_response", "cookie_key_file", "chaos_response", "nsid", "nsid_ascii"]

/-- The settings of a configuration. -/
def Cfg.settings (c : Cfg) : Settings where
  lockMem := c.lockMem
  disableTextAutosplit := c.disableTextAutosplit
  ednsClientSubnet := c.ednsClientSubnet
  zonesStrictData := c.zonesStrictData
  disableCookies := c.disableCookies
  experimentalNoChain := c.experimentalNoChain
  disableTcpDso := c.disableTcpDso
  maxNocookieResponse := c.maxNocookieResponse
  zonesDefaultTtl := c.zonesDefaultTtl
  maxNcacheTtl := c.maxNcacheTtl
  maxTtl := c.maxTtl
  minTtl := c.minTtl
  maxEdnsResponse := c.maxEdnsResponse
  maxEdnsResponseV6 := c.maxEdnsResponseV6
  acmeChallengeTtl := c.acmeChallengeTtl
  acmeChallengeDnsTtl := c.acmeChallengeDnsTtl
  zonesRfc1035Threads := c.zonesRfc1035Threads
  cookieKeyFile := c.cookieKeyFile

theorem confOptions_iff {es : List (Entry Val)} (hn : (es.map (·.key)).Nodup) {c : Cfg} {ch : Bytes} {ns na : Option Bytes} {k : List Bytes} :
    confOptions cfgDefaults es = some ((c, ch, ns, na), k) ↔
      Says es c.settings ∧ c.chaos = [] ∧ c.nsid = none ∧ TextOf es "chaos_response" (some chaosDef) (some ch) ∧ TextOf es "nsid" none ns ∧
        TextOf es "nsid_ascii" none na ∧ k = confKeys.map str := by
  constructor
  · intro h0
    unfold confOptions at h0
    obtain ⟨_, _, _, g0, h1, rfl⟩ := bind_iff.mp h0; obtain rfl := removed_iff.mp g0
    obtain ⟨_, _, _, g1, h2, rfl⟩ := bind_iff.mp h1; obtain rfl := removed_iff.mp g1
    obtain ⟨_, _, _, g2, h3, rfl⟩ := bind_iff.mp h2; obtain rfl := removed_iff.mp g2
    obtain ⟨_, _, _, g3, h4, rfl⟩ := bind_iff.mp h3; obtain rfl := removed_iff.mp g3
    obtain ⟨_, _, _, g4, h5, rfl⟩ := bind_iff.mp h4; obtain rfl := removed_iff.mp g4
    obtain ⟨_, _, _, g5, h6, rfl⟩ := bind_iff.mp h5; obtain rfl := removed_iff.mp g5
    obtain ⟨_, _, _, g6, h7, rfl⟩ := bind_iff.mp h6; obtain rfl := removed_iff.mp g6
    obtain ⟨_, _, _, g7, h8, rfl⟩ := bind_iff.mp h7; obtain rfl := removed_iff.mp g7
    obtain ⟨_, _, _, g8, h9, rfl⟩ := bind_iff.mp h8; obtain rfl := removed_iff.mp g8
    obtain ⟨_, _, _, g9, h10, rfl⟩ := bind_iff.mp h9; obtain rfl := removed_iff.mp g9
    obtain ⟨_, _, _, g10, h11, rfl⟩ := bind_iff.mp h10; obtain rfl := removed_iff.mp g10
    obtain ⟨_, _, _, g11, h12, rfl⟩ := bind_iff.mp h11; obtain rfl := removed_iff.mp g11
    obtain ⟨_, _, _, g12, h13, rfl⟩ := bind_iff.mp h12; obtain rfl := removed_iff.mp g12
    obtain ⟨_, _, _, g13, h14, rfl⟩ := bind_iff.mp h13; obtain rfl := removed_iff.mp g13
    obtain ⟨_, _, _, g14, h15, rfl⟩ := bind_iff.mp h14; obtain rfl := removed_iff.mp g14
    obtain ⟨_, _, _, g15, h16, rfl⟩ := bind_iff.mp h15; obtain rfl := removed_iff.mp g15
    obtain ⟨_, _, _, g16, h17, rfl⟩ := bind_iff.mp h16; obtain rfl := removed_iff.mp g16
    obtain ⟨_, _, _, g17, h18, rfl⟩ := bind_iff.mp h17; obtain rfl := removed_iff.mp g17
    obtain ⟨_, _, _, g18, h19, rfl⟩ := bind_iff.mp h18; obtain rfl := removed_iff.mp g18
    obtain ⟨lockMem, _, _, g19, h20, rfl⟩ := bind_iff.mp h19; obtain ⟨p_lockMem, rfl⟩ := (optBool_iff hn).mp g19
    obtain ⟨disableTextAutosplit, _, _, g20, h21, rfl⟩ := bind_iff.mp h20; obtain ⟨p_disableTextAutosplit, rfl⟩ := (optBool_iff hn).mp g20
    obtain ⟨ednsClientSubnet, _, _, g21, h22, rfl⟩ := bind_iff.mp h21; obtain ⟨p_ednsClientSubnet, rfl⟩ := (optBool_iff hn).mp g21
    obtain ⟨zonesDefaultTtl, _, _, g22, h23, rfl⟩ := bind_iff.mp h22; obtain ⟨p_zonesDefaultTtl, rfl⟩ := (optUint_iff hn (by decide)).mp g22
    obtain ⟨minTtl, _, _, g23, h24, rfl⟩ := bind_iff.mp h23; obtain ⟨p_minTtl, rfl⟩ := (optUint_iff hn (by decide)).mp g23
    obtain ⟨maxTtl, _, _, g24, h25, rfl⟩ := bind_iff.mp h24; obtain ⟨p_maxTtl, rfl⟩ := (optUint_iff hn (by decide)).mp g24
    obtain ⟨_, _, _, g25, h26, rfl⟩ := bind_iff.mp h25; obtain ⟨q1, rfl⟩ := require_iff.mp g25
    obtain ⟨maxNcacheTtl, _, _, g26, h27, rfl⟩ := bind_iff.mp h26; obtain ⟨p_maxNcacheTtl, rfl⟩ := (optUint_iff hn (by decide)).mp g26
    obtain ⟨_, _, _, g27, h28, rfl⟩ := bind_iff.mp h27; obtain ⟨q2, rfl⟩ := require_iff.mp g27
    obtain ⟨maxEdnsResponse, _, _, g28, h29, rfl⟩ := bind_iff.mp h28; obtain ⟨p_maxEdnsResponse, rfl⟩ := (optUint_iff hn (by decide)).mp g28
    obtain ⟨maxEdnsResponseV6, _, _, g29, h30, rfl⟩ := bind_iff.mp h29; obtain ⟨p_maxEdnsResponseV6, rfl⟩ := (optUint_iff hn (by decide)).mp g29
    obtain ⟨acmeChallengeTtl, _, _, g30, h31, rfl⟩ := bind_iff.mp h30; obtain ⟨p_acmeChallengeTtl, rfl⟩ := (optUint_iff hn (by decide)).mp g30
    obtain ⟨acmeChallengeDnsTtl, _, _, g31, h32, rfl⟩ := bind_iff.mp h31; obtain ⟨p_acmeChallengeDnsTtl, rfl⟩ := (optUint_iff hn (by decide)).mp g31
    obtain ⟨zonesRfc1035Threads, _, _, g32, h33, rfl⟩ := bind_iff.mp h32; obtain ⟨p_zonesRfc1035Threads, rfl⟩ := (optUint_iff hn (by decide)).mp g32
    obtain ⟨zonesStrictData, _, _, g33, h34, rfl⟩ := bind_iff.mp h33; obtain ⟨p_zonesStrictData, rfl⟩ := (optBool_iff hn).mp g33
    obtain ⟨disableCookies, _, _, g34, h35, rfl⟩ := bind_iff.mp h34; obtain ⟨p_disableCookies, rfl⟩ := (optBool_iff hn).mp g34
    obtain ⟨experimentalNoChain, _, _, g35, h36, rfl⟩ := bind_iff.mp h35; obtain ⟨p_experimentalNoChain, rfl⟩ := (optBool_iff hn).mp g35
    obtain ⟨disableTcpDso, _, _, g36, h37, rfl⟩ := bind_iff.mp h36; obtain ⟨p_disableTcpDso, rfl⟩ := (optBool_iff hn).mp g36
    obtain ⟨maxNocookieResponse, _, _, g37, h38, rfl⟩ := bind_iff.mp h37; obtain ⟨p_maxNocookieResponse, rfl⟩ := (optUint_iff hn (by decide)).mp g37
    obtain ⟨_, _, _, g38, h39, rfl⟩ := bind_iff.mp h38; obtain ⟨q3, rfl⟩ := require_iff.mp g38
    obtain ⟨cookieKeyFile, _, _, g39, h40, rfl⟩ := bind_iff.mp h39; obtain ⟨p_cookieKeyFile, rfl⟩ := (optStr_iff hn).mp g39
    obtain ⟨chaos, _, _, g40, h41, rfl⟩ := bind_iff.mp h40; obtain ⟨p_chaos, rfl⟩ := (optStr_iff hn).mp g40
    obtain ⟨nsid, _, _, g41, h42, rfl⟩ := bind_iff.mp h41; obtain ⟨p_nsid, rfl⟩ := (optStr_iff hn).mp g41
    obtain ⟨nsidAscii, _, _, g42, h43, rfl⟩ := bind_iff.mp h42; obtain ⟨p_nsidAscii, rfl⟩ := (optStr_iff hn).mp g42
    obtain ⟨e, rfl⟩ := pure_iff.mp h43
    simp only [Prod.mk.injEq] at e
    obtain ⟨rfl, rfl, rfl, rfl⟩ := e
    obtain ⟨y, rfl⟩ := textOf_some p_chaos
    refine ⟨⟨p_lockMem, p_disableTextAutosplit, p_ednsClientSubnet, p_zonesStrictData, p_disableCookies, p_experimentalNoChain, p_disableTcpDso, p_maxNocookieResponse, p_zonesDefaultTtl, p_maxNcacheTtl, p_maxTtl, p_minTtl, p_maxEdnsResponse, p_maxEdnsResponseV6, p_acmeChallengeTtl, p_acmeChallengeDnsTtl, p_zonesRfc1035Threads, p_cookieKeyFile, ⟨Nat.not_lt.mp q1, Nat.not_lt.mp q2⟩, ?_⟩, rfl, rfl, p_chaos, p_nsid, p_nsidAscii, rfl⟩
    show maxNocookieResponse = 0 ∨ 128 ≤ maxNocookieResponse
    omega
  · rintro ⟨hs, hc, hd, p_chaos, p_nsid, p_nsidAscii, rfl⟩
    obtain ⟨x_chaos, x_nsid, cookieKeyFile, lockMem, disableTextAutosplit, ednsClientSubnet, zonesStrictData, disableCookies, experimentalNoChain, disableTcpDso, maxNocookieResponse, zonesDefaultTtl, maxNcacheTtl, maxTtl, minTtl, maxEdnsResponse, maxEdnsResponseV6, acmeChallengeTtl, acmeChallengeDnsTtl, zonesRfc1035Threads⟩ := c
    obtain ⟨p_lockMem, p_disableTextAutosplit, p_ednsClientSubnet, p_zonesStrictData, p_disableCookies, p_experimentalNoChain, p_disableTcpDso, p_maxNocookieResponse, p_zonesDefaultTtl, p_maxNcacheTtl, p_maxTtl, p_minTtl, p_maxEdnsResponse, p_maxEdnsResponseV6, p_acmeChallengeTtl, p_acmeChallengeDnsTtl, p_zonesRfc1035Threads, p_cookieKeyFile, ⟨q1, q2⟩, q3⟩ := hs
    simp only [Cfg.settings] at *
    subst hc hd
    have q1 := Nat.not_lt.mpr q1
    have q2 := Nat.not_lt.mpr q2
    have q3 : ¬ (maxNocookieResponse ≠ 0 ∧ maxNocookieResponse < 128) := by omega
    unfold confOptions
    refine bind_iff.mpr ⟨(), _, _, removed_iff.mpr rfl, ?_, by rfl⟩
    refine bind_iff.mpr ⟨(), _, _, removed_iff.mpr rfl, ?_, by rfl⟩
    refine bind_iff.mpr ⟨(), _, _, removed_iff.mpr rfl, ?_, by rfl⟩
    refine bind_iff.mpr ⟨(), _, _, removed_iff.mpr rfl, ?_, by rfl⟩
    refine bind_iff.mpr ⟨(), _, _, removed_iff.mpr rfl, ?_, by rfl⟩
    refine bind_iff.mpr ⟨(), _, _, removed_iff.mpr rfl, ?_, by rfl⟩
    refine bind_iff.mpr ⟨(), _, _, removed_iff.mpr rfl, ?_, by rfl⟩
    refine bind_iff.mpr ⟨(), _, _, removed_iff.mpr rfl, ?_, by rfl⟩
    refine bind_iff.mpr ⟨(), _, _, removed_iff.mpr rfl, ?_, by rfl⟩
    refine bind_iff.mpr ⟨(), _, _, removed_iff.mpr rfl, ?_, by rfl⟩
    refine bind_iff.mpr ⟨(), _, _, removed_iff.mpr rfl, ?_, by rfl⟩
    refine bind_iff.mpr ⟨(), _, _, removed_iff.mpr rfl, ?_, by rfl⟩
    refine bind_iff.mpr ⟨(), _, _, removed_iff.mpr rfl, ?_, by rfl⟩
    refine bind_iff.mpr ⟨(), _, _, removed_iff.mpr rfl, ?_, by rfl⟩
    refine bind_iff.mpr ⟨(), _, _, removed_iff.mpr rfl, ?_, by rfl⟩
    refine bind_iff.mpr ⟨(), _, _, removed_iff.mpr rfl, ?_, by rfl⟩
    refine bind_iff.mpr ⟨(), _, _, removed_iff.mpr rfl, ?_, by rfl⟩
    refine bind_iff.mpr ⟨(), _, _, removed_iff.mpr rfl, ?_, by rfl⟩
    refine bind_iff.mpr ⟨(), _, _, removed_iff.mpr rfl, ?_, by rfl⟩
    refine bind_iff.mpr ⟨lockMem, _, _, (optBool_iff hn).mpr ⟨p_lockMem, rfl⟩, ?_, by rfl⟩
    refine bind_iff.mpr ⟨disableTextAutosplit, _, _, (optBool_iff hn).mpr ⟨p_disableTextAutosplit, rfl⟩, ?_, by rfl⟩
    refine bind_iff.mpr ⟨ednsClientSubnet, _, _, (optBool_iff hn).mpr ⟨p_ednsClientSubnet, rfl⟩, ?_, by rfl⟩
    refine bind_iff.mpr ⟨zonesDefaultTtl, _, _, (optUint_iff hn (by decide)).mpr ⟨p_zonesDefaultTtl, rfl⟩, ?_, by rfl⟩
    refine bind_iff.mpr ⟨minTtl, _, _, (optUint_iff hn (by decide)).mpr ⟨p_minTtl, rfl⟩, ?_, by rfl⟩
    refine bind_iff.mpr ⟨maxTtl, _, _, (optUint_iff hn (by decide)).mpr ⟨p_maxTtl, rfl⟩, ?_, by rfl⟩
    refine bind_iff.mpr ⟨(), _, _, require_iff.mpr ⟨by first | exact q1 | exact q2 | exact q3, rfl⟩, ?_, by rfl⟩
    refine bind_iff.mpr ⟨maxNcacheTtl, _, _, (optUint_iff hn (by decide)).mpr ⟨p_maxNcacheTtl, rfl⟩, ?_, by rfl⟩
    refine bind_iff.mpr ⟨(), _, _, require_iff.mpr ⟨by first | exact q1 | exact q2 | exact q3, rfl⟩, ?_, by rfl⟩
    refine bind_iff.mpr ⟨maxEdnsResponse, _, _, (optUint_iff hn (by decide)).mpr ⟨p_maxEdnsResponse, rfl⟩, ?_, by rfl⟩
    refine bind_iff.mpr ⟨maxEdnsResponseV6, _, _, (optUint_iff hn (by decide)).mpr ⟨p_maxEdnsResponseV6, rfl⟩, ?_, by rfl⟩
    refine bind_iff.mpr ⟨acmeChallengeTtl, _, _, (optUint_iff hn (by decide)).mpr ⟨p_acmeChallengeTtl, rfl⟩, ?_, by rfl⟩
    refine bind_iff.mpr ⟨acmeChallengeDnsTtl, _, _, (optUint_iff hn (by decide)).mpr ⟨p_acmeChallengeDnsTtl, rfl⟩, ?_, by rfl⟩
    refine bind_iff.mpr ⟨zonesRfc1035Threads, _, _, (optUint_iff hn (by decide)).mpr ⟨p_zonesRfc1035Threads, rfl⟩, ?_, by rfl⟩
    refine bind_iff.mpr ⟨zonesStrictData, _, _, (optBool_iff hn).mpr ⟨p_zonesStrictData, rfl⟩, ?_, by rfl⟩
    refine bind_iff.mpr ⟨disableCookies, _, _, (optBool_iff hn).mpr ⟨p_disableCookies, rfl⟩, ?_, by rfl⟩
    refine bind_iff.mpr ⟨experimentalNoChain, _, _, (optBool_iff hn).mpr ⟨p_experimentalNoChain, rfl⟩, ?_, by rfl⟩
    refine bind_iff.mpr ⟨disableTcpDso, _, _, (optBool_iff hn).mpr ⟨p_disableTcpDso, rfl⟩, ?_, by rfl⟩
    refine bind_iff.mpr ⟨maxNocookieResponse, _, _, (optUint_iff hn (by decide)).mpr ⟨p_maxNocookieResponse, rfl⟩, ?_, by rfl⟩
    refine bind_iff.mpr ⟨(), _, _, require_iff.mpr ⟨by first | exact q1 | exact q2 | exact q3, rfl⟩, ?_, by rfl⟩
    refine bind_iff.mpr ⟨cookieKeyFile, _, _, (optStr_iff hn).mpr ⟨p_cookieKeyFile, rfl⟩, ?_, by rfl⟩
    refine bind_iff.mpr ⟨some ch, _, _, (optStr_iff hn).mpr ⟨p_chaos, rfl⟩, ?_, by rfl⟩
    refine bind_iff.mpr ⟨ns, _, _, (optStr_iff hn).mpr ⟨p_nsid, rfl⟩, ?_, by rfl⟩
    refine bind_iff.mpr ⟨na, _, _, (optStr_iff hn).mpr ⟨p_nsidAscii, rfl⟩, ?_, by rfl⟩
    exact pure_iff.mpr ⟨rfl, rfl⟩

/-- The numbers of an address. -/
def DnsAddr.numbers (a : DnsAddr) : Numbers where
  udpRcvbuf := a.udpRcvbuf
  udpSndbuf := a.udpSndbuf
  udpThreads := a.udpThreads
  tcpTimeout := a.tcpTimeout
  tcpFastopen := a.tcpFastopen
  tcpClientsPerThread := a.tcpClientsPerThread
  tcpBacklog := a.tcpBacklog
  tcpThreads := a.tcpThreads

/-- The listener of an address. -/
def DnsAddr.listener (a : DnsAddr) : Listener := ⟨a.addr, a.numbers, a.tcpProxy, a.tcpPad⟩

/-- The keys that `socksOptions` asks for. -/
def socksKeys : List String :=
  ["udp_recv_width", "dns_port", "udp_rcvbuf", "udp_sndbuf", "udp_threads", "tcp_timeout", "tcp_fastopen", "tcp_clients_per_thread", "tcp_backlog", "tcp_threads", "listen", "tcp_control"]

theorem socksOptions_iff {es : List (Entry Val)} (hn : (es.map (·.key)).Nodup) {d : DnsAddr} {l t : Option Val} {k : List Bytes} :
    socksOptions addrDefaults es = some ((d, l, t), k) ↔
      Globals es d.dnsPort d.numbers ∧ d.addr = addrDefaults.addr ∧ d.tcpProxy = false ∧ d.tcpPad = false ∧ l = find es (str "listen") ∧ t = find es (str "tcp_control") ∧
        k = socksKeys.map str := by
  constructor
  · intro h0
    unfold socksOptions at h0
    obtain ⟨_, _, _, g0, h1, rfl⟩ := bind_iff.mp h0; obtain rfl := removed_iff.mp g0
    obtain ⟨dnsPort, _, _, g1, h2, rfl⟩ := bind_iff.mp h1; obtain ⟨p_dnsPort, rfl⟩ := (optUint_iff hn (by decide)).mp g1
    obtain ⟨udpRcvbuf, _, _, g2, h3, rfl⟩ := bind_iff.mp h2; obtain ⟨p_udpRcvbuf, rfl⟩ := (optUint_iff hn (by decide)).mp g2
    obtain ⟨udpSndbuf, _, _, g3, h4, rfl⟩ := bind_iff.mp h3; obtain ⟨p_udpSndbuf, rfl⟩ := (optUint_iff hn (by decide)).mp g3
    obtain ⟨udpThreads, _, _, g4, h5, rfl⟩ := bind_iff.mp h4; obtain ⟨p_udpThreads, rfl⟩ := (optUint_iff hn (by decide)).mp g4
    obtain ⟨tcpTimeout, _, _, g5, h6, rfl⟩ := bind_iff.mp h5; obtain ⟨p_tcpTimeout, rfl⟩ := (optUint_iff hn (by decide)).mp g5
    obtain ⟨tcpFastopen, _, _, g6, h7, rfl⟩ := bind_iff.mp h6; obtain ⟨p_tcpFastopen, rfl⟩ := (optUint_iff hn (by decide)).mp g6
    obtain ⟨tcpClientsPerThread, _, _, g7, h8, rfl⟩ := bind_iff.mp h7; obtain ⟨p_tcpClientsPerThread, rfl⟩ := (optUint_iff hn (by decide)).mp g7
    obtain ⟨tcpBacklog, _, _, g8, h9, rfl⟩ := bind_iff.mp h8; obtain ⟨p_tcpBacklog, rfl⟩ := (optUint_iff hn (by decide)).mp g8
    obtain ⟨tcpThreads, _, _, g9, h10, rfl⟩ := bind_iff.mp h9; obtain ⟨p_tcpThreads, rfl⟩ := (optUint_iff hn (by decide)).mp g9
    obtain ⟨listen, _, _, g10, h11, rfl⟩ := bind_iff.mp h10; obtain ⟨p_listen, rfl⟩ := (ask_iff).mp g10
    obtain ⟨ctl, _, _, g11, h12, rfl⟩ := bind_iff.mp h11; obtain ⟨p_ctl, rfl⟩ := (ask_iff).mp g11
    obtain ⟨e, rfl⟩ := pure_iff.mp h12
    simp only [Prod.mk.injEq] at e
    obtain ⟨rfl, rfl, rfl⟩ := e
    exact ⟨⟨p_dnsPort, p_udpRcvbuf, p_udpSndbuf, p_udpThreads, p_tcpTimeout, p_tcpFastopen, p_tcpClientsPerThread, p_tcpBacklog, p_tcpThreads⟩, rfl, rfl, rfl, p_listen, p_ctl, rfl⟩
  · rintro ⟨hs, ha, hb, hc, rfl, rfl, rfl⟩
    obtain ⟨x_addr, dnsPort, udpSndbuf, udpRcvbuf, udpThreads, tcpTimeout, tcpFastopen, tcpClientsPerThread, tcpBacklog, tcpThreads, x_tcpProxy, x_tcpPad⟩ := d
    obtain ⟨p_dnsPort, p_udpRcvbuf, p_udpSndbuf, p_udpThreads, p_tcpTimeout, p_tcpFastopen, p_tcpClientsPerThread, p_tcpBacklog, p_tcpThreads⟩ := hs
    simp only [DnsAddr.numbers] at *
    subst ha hb hc
    unfold socksOptions
    refine bind_iff.mpr ⟨(), _, _, removed_iff.mpr rfl, ?_, by rfl⟩
    refine bind_iff.mpr ⟨dnsPort, _, _, (optUint_iff hn (by decide)).mpr ⟨p_dnsPort, rfl⟩, ?_, by rfl⟩
    refine bind_iff.mpr ⟨udpRcvbuf, _, _, (optUint_iff hn (by decide)).mpr ⟨p_udpRcvbuf, rfl⟩, ?_, by rfl⟩
    refine bind_iff.mpr ⟨udpSndbuf, _, _, (optUint_iff hn (by decide)).mpr ⟨p_udpSndbuf, rfl⟩, ?_, by rfl⟩
    refine bind_iff.mpr ⟨udpThreads, _, _, (optUint_iff hn (by decide)).mpr ⟨p_udpThreads, rfl⟩, ?_, by rfl⟩
    refine bind_iff.mpr ⟨tcpTimeout, _, _, (optUint_iff hn (by decide)).mpr ⟨p_tcpTimeout, rfl⟩, ?_, by rfl⟩
    refine bind_iff.mpr ⟨tcpFastopen, _, _, (optUint_iff hn (by decide)).mpr ⟨p_tcpFastopen, rfl⟩, ?_, by rfl⟩
    refine bind_iff.mpr ⟨tcpClientsPerThread, _, _, (optUint_iff hn (by decide)).mpr ⟨p_tcpClientsPerThread, rfl⟩, ?_, by rfl⟩
    refine bind_iff.mpr ⟨tcpBacklog, _, _, (optUint_iff hn (by decide)).mpr ⟨p_tcpBacklog, rfl⟩, ?_, by rfl⟩
    refine bind_iff.mpr ⟨tcpThreads, _, _, (optUint_iff hn (by decide)).mpr ⟨p_tcpThreads, rfl⟩, ?_, by rfl⟩
    refine bind_iff.mpr ⟨_, _, _, ask_iff.mpr ⟨rfl, rfl⟩, ?_, by rfl⟩
    refine bind_iff.mpr ⟨_, _, _, ask_iff.mpr ⟨rfl, rfl⟩, ?_, by rfl⟩
    exact pure_iff.mpr ⟨rfl, rfl⟩

/-- The keys that `addrOptions` asks for. -/
def addrKeys (proxy : Bool) : List String :=
  ["udp_recv_width", "tcp_proxy", "tcp_timeout", "tcp_fastopen", "tcp_clients_per_thread", "tcp_backlog", "tcp_threads"] ++
    if proxy = true then ["tcp_pad"] else ["udp_rcvbuf", "udp_sndbuf", "udp_threads", "tcp_pad"]

/-- `Overrides` without the keys. -/
structure Over (os : List (Entry Val)) (d : Numbers) (l : Listener) : Prop where
  proxy : BoolOf os "tcp_proxy" false l.proxy
  tcpTimeout : UintOf os "tcp_timeout" 5 1800 d.tcpTimeout l.n.tcpTimeout
  tcpFastopen : UintOf os "tcp_fastopen" 0 1048576 d.tcpFastopen l.n.tcpFastopen
  tcpClientsPerThread : UintOf os "tcp_clients_per_thread" 16 65535 d.tcpClientsPerThread l.n.tcpClientsPerThread
  tcpBacklog : UintOf os "tcp_backlog" 0 65535 d.tcpBacklog l.n.tcpBacklog
  tcpThreads : UintOf os "tcp_threads" 1 1024 d.tcpThreads l.n.tcpThreads
  pad : BoolOf os "tcp_pad" l.proxy l.pad
  noUdp : l.proxy = true → l.n.udpThreads = 0 ∧ l.n.udpRcvbuf = d.udpRcvbuf ∧ l.n.udpSndbuf = d.udpSndbuf
  udp : l.proxy = false → UintOf os "udp_rcvbuf" 4096 1048576 d.udpRcvbuf l.n.udpRcvbuf ∧ UintOf os "udp_sndbuf" 4096 1048576 d.udpSndbuf l.n.udpSndbuf ∧
    UintOf os "udp_threads" 1 1024 d.udpThreads l.n.udpThreads

theorem addrOptions_iff {es : List (Entry Val)} (hn : (es.map (·.key)).Nodup) {d a : DnsAddr} (hp : d.tcpProxy = false) (hq : d.tcpPad = false) {k : List Bytes} :
    addrOptions d es = some (a, k) ↔ Over es d.numbers a.listener ∧ a.addr = d.addr ∧ a.dnsPort = d.dnsPort ∧ k = (addrKeys a.tcpProxy).map str := by
  constructor
  · intro h0
    unfold addrOptions at h0
    rw [hp, hq] at h0
    obtain ⟨_, _, _, g0, h1, rfl⟩ := bind_iff.mp h0; obtain rfl := removed_iff.mp g0
    obtain ⟨tcpProxy, _, _, g1, h2, rfl⟩ := bind_iff.mp h1; obtain ⟨p_tcpProxy, rfl⟩ := (optBool_iff hn).mp g1
    obtain ⟨tcpTimeout, _, _, g2, h3, rfl⟩ := bind_iff.mp h2; obtain ⟨p_tcpTimeout, rfl⟩ := (optUint_iff hn (by decide)).mp g2
    obtain ⟨tcpFastopen, _, _, g3, h4, rfl⟩ := bind_iff.mp h3; obtain ⟨p_tcpFastopen, rfl⟩ := (optUint_iff hn (by decide)).mp g3
    obtain ⟨tcpClientsPerThread, _, _, g4, h5, rfl⟩ := bind_iff.mp h4; obtain ⟨p_tcpClientsPerThread, rfl⟩ := (optUint_iff hn (by decide)).mp g4
    obtain ⟨tcpBacklog, _, _, g5, h6, rfl⟩ := bind_iff.mp h5; obtain ⟨p_tcpBacklog, rfl⟩ := (optUint_iff hn (by decide)).mp g5
    obtain ⟨tcpThreads, _, _, g6, h7, rfl⟩ := bind_iff.mp h6; obtain ⟨p_tcpThreads, rfl⟩ := (optUint_iff hn (by decide)).mp g6
    dsimp only at h7
    cases tcpProxy with
    | true =>
      rw [if_pos rfl] at h7
      obtain ⟨tcpPad, _, _, g7, h8, rfl⟩ := bind_iff.mp h7; obtain ⟨p_tcpPad, rfl⟩ := (optBool_iff hn).mp g7
      obtain ⟨e, rfl⟩ := pure_iff.mp h8
      subst e
      exact ⟨⟨p_tcpProxy, p_tcpTimeout, p_tcpFastopen, p_tcpClientsPerThread, p_tcpBacklog, p_tcpThreads, p_tcpPad, fun _ => ⟨rfl, rfl, rfl⟩, fun h => (by cases h)⟩, rfl, rfl, rfl⟩
    | false =>
      rw [if_neg (by decide)] at h7
      obtain ⟨udpRcvbuf, _, _, g7, h8, rfl⟩ := bind_iff.mp h7; obtain ⟨p_udpRcvbuf, rfl⟩ := (optUint_iff hn (by decide)).mp g7
      obtain ⟨udpSndbuf, _, _, g8, h9, rfl⟩ := bind_iff.mp h8; obtain ⟨p_udpSndbuf, rfl⟩ := (optUint_iff hn (by decide)).mp g8
      obtain ⟨udpThreads, _, _, g9, h10, rfl⟩ := bind_iff.mp h9; obtain ⟨p_udpThreads, rfl⟩ := (optUint_iff hn (by decide)).mp g9
      obtain ⟨tcpPad, _, _, g10, h11, rfl⟩ := bind_iff.mp h10; obtain ⟨p_tcpPad, rfl⟩ := (optBool_iff hn).mp g10
      obtain ⟨e, rfl⟩ := pure_iff.mp h11
      subst e
      exact ⟨⟨p_tcpProxy, p_tcpTimeout, p_tcpFastopen, p_tcpClientsPerThread, p_tcpBacklog, p_tcpThreads, p_tcpPad, fun h => (by cases h), fun _ => ⟨p_udpRcvbuf, p_udpSndbuf, p_udpThreads⟩⟩, rfl, rfl, rfl⟩
  · rintro ⟨hs, ha, hb, rfl⟩
    obtain ⟨x_addr, x_dnsPort, udpSndbuf, udpRcvbuf, udpThreads, tcpTimeout, tcpFastopen, tcpClientsPerThread, tcpBacklog, tcpThreads, tcpProxy, tcpPad⟩ := a
    obtain ⟨p_tcpProxy, p_tcpTimeout, p_tcpFastopen, p_tcpClientsPerThread, p_tcpBacklog, p_tcpThreads, p_tcpPad, hx, hy⟩ := hs
    simp only [DnsAddr.numbers, DnsAddr.listener] at *
    subst ha hb
    unfold addrOptions
    rw [hp, hq]
    cases tcpProxy with
    | true =>
      obtain ⟨rfl, rfl, rfl⟩ := hx rfl
      refine bind_iff.mpr ⟨(), _, _, removed_iff.mpr rfl, ?_, by rfl⟩
      refine bind_iff.mpr ⟨true, _, _, (optBool_iff hn).mpr ⟨p_tcpProxy, rfl⟩, ?_, by rfl⟩
      refine bind_iff.mpr ⟨tcpTimeout, _, _, (optUint_iff hn (by decide)).mpr ⟨p_tcpTimeout, rfl⟩, ?_, by rfl⟩
      refine bind_iff.mpr ⟨tcpFastopen, _, _, (optUint_iff hn (by decide)).mpr ⟨p_tcpFastopen, rfl⟩, ?_, by rfl⟩
      refine bind_iff.mpr ⟨tcpClientsPerThread, _, _, (optUint_iff hn (by decide)).mpr ⟨p_tcpClientsPerThread, rfl⟩, ?_, by rfl⟩
      refine bind_iff.mpr ⟨tcpBacklog, _, _, (optUint_iff hn (by decide)).mpr ⟨p_tcpBacklog, rfl⟩, ?_, by rfl⟩
      refine bind_iff.mpr ⟨tcpThreads, _, _, (optUint_iff hn (by decide)).mpr ⟨p_tcpThreads, rfl⟩, ?_, by rfl⟩
      refine bind_iff.mpr ⟨tcpPad, _, _, (optBool_iff hn).mpr ⟨p_tcpPad, rfl⟩, ?_, by rfl⟩
      exact pure_iff.mpr ⟨rfl, rfl⟩
    | false =>
      obtain ⟨p_udpRcvbuf, p_udpSndbuf, p_udpThreads⟩ := hy rfl
      refine bind_iff.mpr ⟨(), _, _, removed_iff.mpr rfl, ?_, by rfl⟩
      refine bind_iff.mpr ⟨false, _, _, (optBool_iff hn).mpr ⟨p_tcpProxy, rfl⟩, ?_, by rfl⟩
      refine bind_iff.mpr ⟨tcpTimeout, _, _, (optUint_iff hn (by decide)).mpr ⟨p_tcpTimeout, rfl⟩, ?_, by rfl⟩
      refine bind_iff.mpr ⟨tcpFastopen, _, _, (optUint_iff hn (by decide)).mpr ⟨p_tcpFastopen, rfl⟩, ?_, by rfl⟩
      refine bind_iff.mpr ⟨tcpClientsPerThread, _, _, (optUint_iff hn (by decide)).mpr ⟨p_tcpClientsPerThread, rfl⟩, ?_, by rfl⟩
      refine bind_iff.mpr ⟨tcpBacklog, _, _, (optUint_iff hn (by decide)).mpr ⟨p_tcpBacklog, rfl⟩, ?_, by rfl⟩
      refine bind_iff.mpr ⟨tcpThreads, _, _, (optUint_iff hn (by decide)).mpr ⟨p_tcpThreads, rfl⟩, ?_, by rfl⟩
      refine bind_iff.mpr ⟨udpRcvbuf, _, _, (optUint_iff hn (by decide)).mpr ⟨p_udpRcvbuf, rfl⟩, ?_, by rfl⟩
      refine bind_iff.mpr ⟨udpSndbuf, _, _, (optUint_iff hn (by decide)).mpr ⟨p_udpSndbuf, rfl⟩, ?_, by rfl⟩
      refine bind_iff.mpr ⟨udpThreads, _, _, (optUint_iff hn (by decide)).mpr ⟨p_udpThreads, rfl⟩, ?_, by rfl⟩
      refine bind_iff.mpr ⟨tcpPad, _, _, (optBool_iff hn).mpr ⟨p_tcpPad, rfl⟩, ?_, by rfl⟩
      exact pure_iff.mpr ⟨rfl, rfl⟩

theorem ctlOptions_iff {es : List (Entry Val)} (hn : (es.map (·.key)).Nodup) {a b : Bool} {k : List Bytes} :
    ctlOptions es = some ((a, b), k) ↔ BoolOf es "chal_ok" false a ∧ BoolOf es "ctl_ok" false b ∧ k = [str "chal_ok", str "ctl_ok"] := by
  unfold ctlOptions
  simp only [bind_iff, optBool_iff hn, pure_iff, Prod.mk.injEq]
  constructor
  · rintro ⟨_, _, _, ⟨h1, rfl⟩, ⟨_, _, _, ⟨h2, rfl⟩, ⟨⟨rfl, rfl⟩, rfl⟩, rfl⟩, rfl⟩
    exact ⟨h1, h2, rfl⟩
  · rintro ⟨h1, h2, rfl⟩
    exact ⟨_, _, _, ⟨h1, rfl⟩, ⟨_, _, _, ⟨h2, rfl⟩, ⟨⟨rfl, rfl⟩, rfl⟩, rfl⟩, rfl⟩

theorem pathOptions_iff {es : List (Entry Val)} (hn : (es.map (·.key)).Nodup) {run state a b : Bytes} {k : List Bytes} :
    pathOptions run state es = some ((a, b), k) ↔
      TextOf es "run_dir" (some run) (some a) ∧ TextOf es "state_dir" (some state) (some b) ∧ k = [str "run_dir", str "state_dir"] := by
  unfold pathOptions
  simp only [bind_iff, optStr_iff hn, pure_iff, Prod.mk.injEq]
  constructor
  · rintro ⟨_, _, _, ⟨h1, rfl⟩, ⟨_, _, _, ⟨h2, rfl⟩, ⟨⟨rfl, rfl⟩, rfl⟩, rfl⟩, rfl⟩
    obtain ⟨_, rfl⟩ := textOf_some h1
    obtain ⟨_, rfl⟩ := textOf_some h2
    exact ⟨h1, h2, rfl⟩
  · rintro ⟨h1, h2, rfl⟩
    exact ⟨_, _, _, ⟨h1, rfl⟩, ⟨_, _, _, ⟨h2, rfl⟩, ⟨⟨rfl, rfl⟩, rfl⟩, rfl⟩, rfl⟩

end Gdnsd.Conf
