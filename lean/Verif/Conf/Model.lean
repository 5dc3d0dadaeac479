/-
How the configuration is read: libgdnsd/paths.c (the `options` part), src/socks.c (`socks_conf_load`) and src/conf.c
(`conf_load`), in the order of src/main.c:667-696, with `gdnsd_anysin_fromstr` of libgdnsd/net.c.

The data is what Verif/Vscf reads from the file. `log_fatal` ends the program: the result `none`. Messages are left
out. A mark that `vscf_hash_get_data_byconstkey(..., true)` sets is kept as the list of keys that were asked for.
`getaddrinfo` with numeric flags is a parameter.
-/
import Verif.Conf.Types
import Verif.Vscf.Conv
import Verif.Vscf.Clone
namespace Gdnsd.Conf
open Vscf

/-- A string of the source. -/
def str (s : String) : Bytes := s.toList.map fun c => c.toNat.toUInt8

/-! ### Options of one hash -/

/-- Code that asks for keys of a hash: `none` if it ends the program, else its result and the keys it
asked for, which are marked then. -/
def Opts (α : Type) : Type := List (Entry Val) → Option (α × List Bytes)

instance : Monad Opts where
  pure a := fun _ => some (a, [])
  bind x f := fun es => (x es).bind fun p => (f p.1 es).map fun q => (q.1, p.2 ++ q.2)

/-- `log_fatal`. -/
def fatal {α : Type} : Opts α := fun _ => none

/-- A check that ends the program if it fails. -/
def require (b : Prop) [Decidable b] : Opts Unit := if b then pure () else fatal

/-- `vscf_hash_get_data_byconstkey(options, key, true)`. -/
def ask (k : String) : Opts (Option Val) := fun es => some (find es (str k), [str k])

/-- `CFG_OPT_REMOVED` (src/conf.c:242-247, src/socks.c:124-129): a warning. -/
def removed (k : String) : Opts Unit := do
  let _ ← ask k
  pure ()

/-- `CFG_OPT_BOOL` (src/conf.c:156-164) and `CFG_OPT_BOOL_ALTSTORE` (src/socks.c:112-122). -/
def optBool (k : String) (old : Bool) : Opts Bool := do
  match ← ask k with
  | none => pure old
  | some (.simple _ v) =>
    match getBool v with
    | some b => pure b
    | none => fatal
  | some _ => fatal

/-- `CFG_OPT_UINT` (src/conf.c:166-178) and `CFG_OPT_UINT_ALTSTORE` (src/socks.c:84-96). With `min` 0 they are
`CFG_OPT_UINT_NOMIN` and `CFG_OPT_UINT_ALTSTORE_NOMIN`. The store is an `unsigned` of 32 bits. -/
def optUint (k : String) (min max : Nat) (old : Nat) : Opts Nat := do
  match ← ask k with
  | none => pure old
  | some (.simple _ v) =>
    match getUlong v with
    | some x => if x < min ∨ x > max then fatal else pure (x % 2 ^ 32)
    | none => fatal
  | some _ => fatal

/-- `CFG_OPT_STR` (src/conf.c:222-230), `CFG_OPT_STR_NOCOPY` (src/conf.c:232-240) and `CFG_DIR`
(libgdnsd/paths.c:101-109): the string up to its first zero byte. -/
def optStr (k : String) (old : Option Bytes) : Opts (Option Bytes) := do
  match ← ask k with
  | none => pure old
  | some (.simple _ v) => pure (some (cstr v))
  | some _ => fatal

/-- `vscf_hash_iterate_const(options, true, bad_key, ...)`: whether each key was asked for. -/
def allMarked (asked : List Bytes) (es : List (Entry Val)) : Bool := es.all fun e => e.marked || asked.contains e.key

/-! ### conf.c -/

/-- `cfg_t` (src/conf.h:29-57). -/
structure Cfg where
  chaos : Bytes
  nsid : Option Bytes
  cookieKeyFile : Option Bytes
  lockMem : Bool
  disableTextAutosplit : Bool
  ednsClientSubnet : Bool
  zonesStrictData : Bool
  disableCookies : Bool
  experimentalNoChain : Bool
  disableTcpDso : Bool
  maxNocookieResponse : Nat
  zonesDefaultTtl : Nat
  maxNcacheTtl : Nat
  maxTtl : Nat
  minTtl : Nat
  maxEdnsResponse : Nat
  maxEdnsResponseV6 : Nat
  acmeChallengeTtl : Nat
  acmeChallengeDnsTtl : Nat
  zonesRfc1035Threads : Nat
deriving DecidableEq, Repr

/-- `cfg_defaults` (src/conf.c:46-67). -/
def cfgDefaults : Cfg where
  chaos := []
  nsid := none
  cookieKeyFile := none
  lockMem := false
  disableTextAutosplit := false
  ednsClientSubnet := true
  zonesStrictData := false
  disableCookies := false
  experimentalNoChain := true
  disableTcpDso := false
  maxNocookieResponse := 0
  zonesDefaultTtl := 86400
  maxNcacheTtl := 10800
  maxTtl := 3600000
  minTtl := 5
  maxEdnsResponse := 1232
  maxEdnsResponseV6 := 1232
  acmeChallengeTtl := 600
  acmeChallengeDnsTtl := 0
  zonesRfc1035Threads := 2

/-- `chaos_prefix` (src/conf.c:41-43). -/
def chaosPrefix : Bytes := [0xC0, 0x0C, 0x00, 0x10, 0x00, 0x03, 0x00, 0x00, 0x00, 0x00]

/-- `chaos_def` (src/conf.c:44). -/
def chaosDef : Bytes := str "gdnsd/3"

/-- `set_chaos` (src/conf.c:69-85). -/
def setChaos (d : Bytes) : Option Bytes :=
  if d.length > 254 then none
  else some (chaosPrefix ++ [0, (d.length + 1).toUInt8, d.length.toUInt8] ++ d)

/-- `ahex` (src/conf.c:87-91). -/
def ahex : List UInt8 :=
  [0x00, 0x01, 0x02, 0x03, 0x04, 0x05, 0x06, 0x07,
   0x08, 0x09, 0x00, 0x00, 0x00, 0x00, 0x00, 0x00,
   0x00, 0x0A, 0x0B, 0x0C, 0x0D, 0x0E, 0x0F, 0x00]

/-- The digits that `strspn` lets pass (src/conf.c:97). -/
def hexDigits : Bytes := str "0123456789ABCDEFabcdef"

/-- A read of `ahex` (src/conf.c:103-104); outside the table it is undefined. -/
def ahexAt (c : UInt8) : Outcome UInt8 :=
  match ahex[((c &&& 0x1F) ^^^ 0x10).toNat]? with
  | some x => .ok x
  | none => .ub

/-- The loop of `set_nsid` (src/conf.c:102-104); a digit without a partner does not get there. -/
def nsidBytes : Bytes → Outcome Bytes
  | a :: b :: r => (ahexAt a).bind fun x => (ahexAt b).bind fun y => (nsidBytes r).map fun l => ((x <<< 4) ||| y) :: l
  | _ => .ok []

/-- `set_nsid` (src/conf.c:93-105). -/
def setNsid (d : Bytes) : Outcome (Option Bytes) :=
  if d.length = 0 ∨ d.length > 256 ∨ d.length % 2 = 1 ∨ d.length ≠ (d.takeWhile fun c => hexDigits.contains c).length then .ok none
  else (nsidBytes d).map some

/-- `set_nsid_ascii` (src/conf.c:107-124). -/
def setNsidAscii (d : Bytes) : Option Bytes :=
  if d.length = 0 ∨ d.length > 128 then none
  else if d.any (fun c => c < 0x20 || c > 0x7E) then none
  else some d

/-- The part of `conf_load` inside `if (options)` (src/conf.c:262-312): the settings, and the strings for the
CHAOS response and the NSID. -/
def confOptions (d : Cfg) : Opts (Cfg × Bytes × Option Bytes × Option Bytes) := do
  removed "username"
  removed "weaker_security"
  removed "include_optional_ns"
  removed "realtime_stats"
  removed "zones_strict_startup"
  removed "zones_rfc1035_auto"
  removed "any_mitigation"
  removed "priority"
  removed "log_stats"
  removed "max_response"
  removed "max_cname_depth"
  removed "max_addtl_rrsets"
  removed "zones_rfc1035_auto_interval"
  removed "zones_rfc1035_quiesce"
  removed "http_listen"
  removed "max_http_clients"
  removed "http_timeout"
  removed "http_port"
  removed "plugin_search_path"
  let lockMem ← optBool "lock_mem" d.lockMem
  let disableTextAutosplit ← optBool "disable_text_autosplit" d.disableTextAutosplit
  let ednsClientSubnet ← optBool "edns_client_subnet" d.ednsClientSubnet
  let zonesDefaultTtl ← optUint "zones_default_ttl" 1 2147483647 d.zonesDefaultTtl
  let minTtl ← optUint "min_ttl" 0 86400 d.minTtl
  let maxTtl ← optUint "max_ttl" 3600 (2 ^ 28 - 1) d.maxTtl
  require (¬ maxTtl < minTtl)
  let maxNcacheTtl ← optUint "max_ncache_ttl" 10 86400 d.maxNcacheTtl
  require (¬ maxNcacheTtl < minTtl)
  let maxEdnsResponse ← optUint "max_edns_response" 512 16384 d.maxEdnsResponse
  let maxEdnsResponseV6 ← optUint "max_edns_response_v6" 512 16384 d.maxEdnsResponseV6
  let acmeChallengeTtl ← optUint "acme_challenge_ttl" 60 3600 d.acmeChallengeTtl
  let acmeChallengeDnsTtl ← optUint "acme_challenge_dns_ttl" 0 3600 d.acmeChallengeDnsTtl
  let zonesRfc1035Threads ← optUint "zones_rfc1035_threads" 1 1024 d.zonesRfc1035Threads
  let zonesStrictData ← optBool "zones_strict_data" d.zonesStrictData
  let disableCookies ← optBool "disable_cookies" d.disableCookies
  let experimentalNoChain ← optBool "experimental_no_chain" d.experimentalNoChain
  let disableTcpDso ← optBool "disable_tcp_dso" d.disableTcpDso
  let maxNocookieResponse ← optUint "max_nocookie_response" 0 1024 d.maxNocookieResponse
  require (¬ (maxNocookieResponse ≠ 0 ∧ maxNocookieResponse < 128))
  let cookieKeyFile ← optStr "cookie_key_file" d.cookieKeyFile
  let chaos ← optStr "chaos_response" (some chaosDef)
  let nsid ← optStr "nsid" none
  let nsidAscii ← optStr "nsid_ascii" none
  pure ({ d with
    lockMem, disableTextAutosplit, ednsClientSubnet, zonesDefaultTtl, minTtl, maxTtl, maxNcacheTtl, maxEdnsResponse,
    maxEdnsResponseV6, acmeChallengeTtl, acmeChallengeDnsTtl, zonesRfc1035Threads, zonesStrictData, disableCookies,
    experimentalNoChain, disableTcpDso, maxNocookieResponse, cookieKeyFile }, chaos.getD chaosDef, nsid, nsidAscii)

/-- `nsid`, if it is set (src/conf.c:327-328). -/
def nsidHex : Option Bytes → Outcome (Option (Option Bytes))
  | none => .ok (some none)
  | some t => (setNsid t).map fun o => o.map some

/-- `nsid_ascii`, if it is set (src/conf.c:329-330). -/
def nsidText (old : Option Bytes) : Option Bytes → Option (Option Bytes)
  | none => some old
  | some t => (setNsidAscii t).map some

/-- The rest of `conf_load` up to the service types (src/conf.c:317-330). -/
def confRest (force : Bool) (c : Cfg) (chaos : Bytes) (nsid nsidAscii : Option Bytes) : Outcome (Option Cfg) :=
  let c := if force = true then { c with zonesStrictData := true } else c
  match setChaos chaos with
  | none => .ok none
  | some w =>
    let c := { c with chaos := w }
    if nsid.isSome = true ∧ nsidAscii.isSome = true then .ok none
    else
      (nsidHex nsid).map fun o => o.bind fun b => (nsidText b nsidAscii).map fun n => { c with nsid := n }

/-- `conf_load` (src/conf.c:250-379) for the options, with the keys that were asked for before. What the plugins and
service types do is left out. -/
def confLoad (force : Bool) (asked : List Bytes) (options : Option (List (Entry Val))) : Outcome (Option Cfg) :=
  match options with
  | none => confRest force cfgDefaults chaosDef none none
  | some es =>
    match confOptions cfgDefaults es with
    | none => .ok none
    | some ((c, chaos, nsid, nsidAscii), asked') =>
      if allMarked (asked ++ asked') es = true then confRest force c chaos nsid nsidAscii else .ok none

/-! ### Addresses -/

/-- `gdnsd_anysin_getaddrinfo` (libgdnsd/net.c:151-180). Without a port the port is 0. -/
def getaddrinfo (g : Gai) (addr : Bytes) (port : Option Bytes) : Option Sin :=
  (g.host addr).bind fun h =>
  match port with
  | none => some ⟨h.1, h.2.1, 0, h.2.2⟩
  | some p => (g.serv p).map fun n => ⟨h.1, h.2.1, n, h.2.2⟩

/-- `invalid_addr` (libgdnsd/net.c:182). -/
def invalidAddr : Bytes := str "!!invalid!!"

/-- `strchr`: the bytes before a byte and those behind it. -/
def chr (c : UInt8) : Bytes → Option (Bytes × Bytes)
  | [] => none
  | x :: r => if x = c then some ([], r) else (chr c r).map fun p => (x :: p.1, p.2)

/-- The part of `gdnsd_anysin_fromstr` that takes a text apart (libgdnsd/net.c:186-221): address and port. -/
def splitAddr (t : Bytes) : Bytes × Option Bytes :=
  match t with
  | 91 :: r =>
    match chr 93 r with
    | none => (t, none)
    | some (a, rest) =>
      match rest with
      | 58 :: p :: q => (a, some (p :: q))
      | _ => (a, none)
  | _ =>
    match chr 58 t with
    | none => (t, none)
    | some (a, p) =>
      if (chr 58 p).isSome = true then (t, none)
      else if a = [] then (invalidAddr, some (58 :: p))
      else if p = [] then (a, none)
      else (a, some p)

/-- `gdnsd_anysin_fromstr` (libgdnsd/net.c:184-237) of a text without zero bytes; the port is stored as 16 bits. -/
def fromstr (g : Gai) (t : Bytes) (defPort : Nat) : Option Sin :=
  let (a, p) := splitAddr t
  (getaddrinfo g a p).map fun s =>
    if p.isNone = true ∧ defPort ≠ 0 then { s with port := defPort % 2 ^ 16 } else s

/-- `gdnsd_anysin2str` (libgdnsd/net.c:255-277), with the texts that `getnameinfo` gives for host and port;
`GDNSD_ANYSIN_MAXSTR` is 86 (include/gdnsd/net.h:74). -/
def tostr (v6 : Bool) (host serv : Bytes) : Bytes :=
  ((if v6 = true then 91 :: host ++ [93, 58] ++ serv else host ++ 58 :: serv) : Bytes).take 85

/-- The number one gets from reading a port as the host reads 16 bits. -/
def netPort (le : Bool) (p : Nat) : Nat := if le = true then p % 256 * 256 + p / 256 else p

/-! ### socks.c -/

/-- `dns_addr_t` (src/socks.h:28-41). -/
structure DnsAddr where
  addr : Sin
  dnsPort : Nat
  udpSndbuf : Nat
  udpRcvbuf : Nat
  udpThreads : Nat
  tcpTimeout : Nat
  tcpFastopen : Nat
  tcpClientsPerThread : Nat
  tcpBacklog : Nat
  tcpThreads : Nat
  tcpProxy : Bool
  tcpPad : Bool
deriving DecidableEq, Repr

/-- `addr_defs_defaults` (src/socks.c:44-56). -/
def addrDefaults : DnsAddr where
  addr := ⟨false, [], 0, 0⟩
  dnsPort := 53
  udpRcvbuf := 0
  udpSndbuf := 0
  udpThreads := 2
  tcpTimeout := 37
  tcpFastopen := 256
  tcpClientsPerThread := 256
  tcpBacklog := 0
  tcpThreads := 2
  tcpProxy := false
  tcpPad := false

/-- The options in `socks_conf_load` (src/socks.c:342-357): defaults for addresses, `listen` and `tcp_control`. -/
def socksOptions (d : DnsAddr) : Opts (DnsAddr × Option Val × Option Val) := do
  removed "udp_recv_width"
  let dnsPort ← optUint "dns_port" 1 65535 d.dnsPort
  let udpRcvbuf ← optUint "udp_rcvbuf" 4096 1048576 d.udpRcvbuf
  let udpSndbuf ← optUint "udp_sndbuf" 4096 1048576 d.udpSndbuf
  let udpThreads ← optUint "udp_threads" 1 1024 d.udpThreads
  let tcpTimeout ← optUint "tcp_timeout" 5 1800 d.tcpTimeout
  let tcpFastopen ← optUint "tcp_fastopen" 0 1048576 d.tcpFastopen
  let tcpClientsPerThread ← optUint "tcp_clients_per_thread" 16 65535 d.tcpClientsPerThread
  let tcpBacklog ← optUint "tcp_backlog" 0 65535 d.tcpBacklog
  let tcpThreads ← optUint "tcp_threads" 1 1024 d.tcpThreads
  let listen ← ask "listen"
  let ctl ← ask "tcp_control"
  pure ({ d with dnsPort, udpRcvbuf, udpSndbuf, udpThreads, tcpTimeout, tcpFastopen, tcpClientsPerThread, tcpBacklog, tcpThreads }, listen, ctl)

/-- The options in `process_listen_hashentry` (src/socks.c:149-164). -/
def addrOptions (d : DnsAddr) : Opts DnsAddr := do
  removed "udp_recv_width"
  let tcpProxy ← optBool "tcp_proxy" d.tcpProxy
  let tcpTimeout ← optUint "tcp_timeout" 5 1800 d.tcpTimeout
  let tcpFastopen ← optUint "tcp_fastopen" 0 1048576 d.tcpFastopen
  let tcpClientsPerThread ← optUint "tcp_clients_per_thread" 16 65535 d.tcpClientsPerThread
  let tcpBacklog ← optUint "tcp_backlog" 0 65535 d.tcpBacklog
  let tcpThreads ← optUint "tcp_threads" 1 1024 d.tcpThreads
  let d := { d with tcpProxy, tcpTimeout, tcpFastopen, tcpClientsPerThread, tcpBacklog, tcpThreads }
  if tcpProxy = true then
    let tcpPad ← optBool "tcp_pad" true
    pure { d with udpThreads := 0, tcpPad }
  else
    let udpRcvbuf ← optUint "udp_rcvbuf" 4096 1048576 d.udpRcvbuf
    let udpSndbuf ← optUint "udp_sndbuf" 4096 1048576 d.udpSndbuf
    let udpThreads ← optUint "udp_threads" 1 1024 d.udpThreads
    let tcpPad ← optBool "tcp_pad" d.tcpPad
    pure { d with udpRcvbuf, udpSndbuf, udpThreads, tcpPad }

/-- `process_listen_hashentry` (src/socks.c:144-181). -/
def listenEntry (le : Bool) (g : Gai) (d : DnsAddr) (e : Entry Val) : Option DnsAddr :=
  match e.val with
  | .hash os =>
    (addrOptions d os).bind fun p =>
    let a := p.1
    (fromstr g (cstr e.key) a.dnsPort).bind fun s =>
    if a.tcpProxy = true ∧ netPort le s.port = 53 then none
    else if allMarked p.2 os = true then some { a with addr := s }
    else none
  | _ => none

/-- An address without options (src/socks.c:214-219). -/
def listenPlain (g : Gai) (d : DnsAddr) : Option Val → Option DnsAddr
  | some (.simple _ v) => (fromstr g (cstr v) d.dnsPort).map fun s => { d with addr := s }
  | _ => none

/-- `dns_listen_any` (src/socks.c:131-142). -/
def listenAny (g : Gai) (d : DnsAddr) : Option (List DnsAddr) :=
  (fromstr g (str "0.0.0.0") d.dnsPort).bind fun a =>
  (fromstr g (str "::") d.dnsPort).map fun b => [{ d with addr := a }, { d with addr := b }]

/-- A loop over items each of which may end the program. -/
def each {α β : Type} (f : α → Option β) : List α → Option (List β)
  | [] => some []
  | x :: r => (f x).bind fun y => (each f r).map fun ys => y :: ys

/-- Whether a value is a string that is `any` up to its first zero byte (src/socks.c:192-198). -/
def isAny : Val → Bool
  | .simple _ v => cstr v == str "any"
  | _ => false

/-- `fill_dns_addrs` (src/socks.c:183-222). -/
def fillAddrs (le : Bool) (g : Gai) (d : DnsAddr) (listen : Option Val) : Option (List DnsAddr) :=
  match listen with
  | none => listenAny g d
  | some l =>
    if isAny l = true then listenAny g d
    else
      match l with
      | .hash es => each (listenEntry le g d) es
      | l => each (fun i => listenPlain g d (arrGet l i)) (List.range (arrLen l))

/-- The threads of an address: for UDP first (src/socks.c:248-260). -/
def threadsOf (i : Nat) (a : DnsAddr) : List (Nat × Bool) := List.replicate a.udpThreads (i, true) ++ List.replicate a.tcpThreads (i, false)

/-- The loop over the addresses (src/socks.c:244-270), with the number of the next one. -/
def threadsFrom : Nat → List DnsAddr → List (Nat × Bool)
  | _, [] => []
  | i, a :: r => threadsOf i a ++ threadsFrom (i + 1) r

/-- `ctl_addr_t` (src/socks.h:50-54). -/
structure CtlAddr where
  addr : Sin
  chalOk : Bool
  ctlOk : Bool
deriving DecidableEq, Repr

/-- The options of a control address (src/socks.c:281-282). -/
def ctlOptions : Opts (Bool × Bool) := do
  let chalOk ← optBool "chal_ok" false
  let ctlOk ← optBool "ctl_ok" false
  pure (chalOk, ctlOk)

/-- `process_control_item` (src/socks.c:275-300): the text, and the options if there are any. -/
def ctlItem (g : Gai) (t : Bytes) (opts : Option Val) : Option CtlAddr :=
  let o : Option (Bool × Bool) :=
    match opts with
    | none => some (false, false)
    | some (.hash os) => (ctlOptions os).bind fun p => if allMarked p.2 os = true then some p.1 else none
    | some _ => none
  o.bind fun o => (fromstr g (cstr t) 0).bind fun s => if s.port = 0 then none else some ⟨s, o.1, o.2⟩

/-- A control address without options (src/socks.c:318-324). -/
def ctlPlain (g : Gai) : Option Val → Option CtlAddr
  | some (.simple _ v) => ctlItem g v none
  | _ => none

/-- `process_tcp_control` (src/socks.c:302-327). -/
def ctlAddrs (g : Gai) : Option Val → Option (List CtlAddr)
  | none => some []
  | some (.hash es) => each (fun e => ctlItem g e.key (some e.val)) es
  | some l => each (fun i => ctlPlain g (arrGet l i)) (List.range (arrLen l))

/-- `socks_cfg_t` (src/socks.h:56-64). A thread is the number of its address, and whether it is for UDP. -/
structure Socks where
  dnsAddrs : List DnsAddr
  dnsThreads : List (Nat × Bool)
  ctlAddrs : List CtlAddr
  fdEstimate : Nat
deriving DecidableEq, Repr

/-- The estimate of descriptors (src/socks.c:363-377); the counts are far from overflow. -/
def fdEstimate (as : List DnsAddr) (cs : List CtlAddr) : Nat :=
  as.foldl (fun n a => n + a.udpThreads + a.tcpThreads * (a.tcpClientsPerThread + 5)) 0 + cs.length * 17

/-- `socks_conf_load` (src/socks.c:329-379) and `process_listen` (src/socks.c:224-273), with the keys asked for. -/
def socksLoad (le : Bool) (g : Gai) (options : Option (List (Entry Val))) : Outcome (Option (Socks × List Bytes)) :=
  let r := match options with
    | none => some ((addrDefaults, none, none), [])
    | some es => socksOptions addrDefaults es
  match r with
  | none => .ok none
  | some ((d, listen, ctl), asked) =>
    match fillAddrs le g d listen with
    | none => .ok none
    | some as =>
      if as = [] then .ok none
      else
        let ts := threadsFrom 0 as
        if ts = [] then .ub
        else if as.any (fun a => a.tcpProxy && a.udpThreads != 0) = true then .ub
        else .ok ((ctlAddrs g ctl).map fun cs => (⟨as, ts, cs, fdEstimate as cs⟩, asked))

/-! ### All of it -/

/-- The options that `gdnsd_init_paths` looks at (libgdnsd/paths.c:135-146). -/
def pathOptions (run state : Bytes) : Opts (Bytes × Bytes) := do
  let r ← optStr "run_dir" (some run)
  let s ← optStr "state_dir" (some state)
  pure (r.getD run, s.getD state)

/-- What is read. -/
structure Loaded where
  runDir : Bytes
  stateDir : Bytes
  socks : Socks
  cfg : Cfg
deriving DecidableEq, Repr

/-- Reading `options` (src/main.c:667-696 with libgdnsd/paths.c:135-146). -/
def loadOptions (le : Bool) (g : Gai) (force : Bool) (run state : Bytes) (options : Option (List (Entry Val))) : Outcome (Option Loaded) :=
  let r := match options with
    | none => some ((run, state), [])
    | some es => pathOptions run state es
  match r with
  | none => .ok none
  | some ((rd, sd), a1) =>
    (socksLoad le g options).bind fun s =>
    match s with
    | none => .ok none
    | some (s, a2) => (confLoad force (a1 ++ a2) options).map fun c => c.map fun c => ⟨rd, sd, s, c⟩

/-- The whole file: the root is a hash or there is no file (libgdnsd/paths.c:80-99, 133-140, src/conf.c:332-341, 372-373).
Whether `plugins` and `service_types` are accepted is the parameter `others`. -/
def load (le : Bool) (g : Gai) (force : Bool) (run state : Bytes) (others : Option Val → Option Val → Bool) (root : Option Val) : Outcome (Option Loaded) :=
  match root with
  | none => (loadOptions le g force run state none).map fun r => if others none none = true then r else none
  | some (.hash es) =>
    let go := fun o => (loadOptions le g force run state o).map fun r =>
      if others (find es (str "service_types")) (find es (str "plugins")) = true ∧
          allMarked [str "options", str "service_types", str "plugins"] es = true then r else none
    match find es (str "options") with
    | none => go none
    | some (.hash os) => go (some os)
    | some _ => .ok none
  | some _ => .ok none

end Gdnsd.Conf
