/-
What a configuration says, as the manual describes it (docs/gdnsd.config.podin).
-/
import Verif.Vscf.Model
import Verif.Vscf.ConvSpec
namespace Gdnsd.ConfSpec
open Vscf VscfSpec

/-- The bytes of a name. -/
def nm (s : String) : Bytes := s.toList.map fun c => c.toNat.toUInt8

mutual

/-- Data as it is read from files: keys are different in every hash, and none is marked as used. -/
inductive Clean : Val → Prop
  | simple {r v} : Clean (.simple r v)
  | array {vs} : Cleans vs → Clean (.array vs)
  | hash {es} : (es.map (·.key)).Nodup → CleanOf es → Clean (.hash es)

inductive Cleans : List Val → Prop
  | nil : Cleans []
  | cons {v vs} : Clean v → Cleans vs → Cleans (v :: vs)

inductive CleanOf : List (Entry Val) → Prop
  | nil : CleanOf []
  | cons {k v es} : Clean v → CleanOf es → CleanOf (⟨k, false, v⟩ :: es)

end

/-- A key has a value. -/
def Is (es : List (Entry Val)) (k : String) (v : Val) : Prop := ∃ e ∈ es, e.key = nm k ∧ e.val = v

/-- A key is not there. -/
def Absent (es : List (Entry Val)) (k : String) : Prop := ∀ e ∈ es, e.key ≠ nm k

/-- A text stands for a truth value. -/
def Truth (t : Bytes) (b : Bool) : Prop := (b = true ∧ SameWord (nm "true") t) ∨ (b = false ∧ SameWord (nm "false") t)

/-- A text stands for a number of 64 bits. Numbers with a minus sign are taken modulo 2^64 (C78). -/
def Count (t : Bytes) (n : Nat) : Prop := ∃ neg m, Signed t neg m ∧ m < 2 ^ 64 ∧ n = if neg = true then (2 ^ 64 - m) % 2 ^ 64 else m

/-- A truth value with a default. -/
def BoolOf (es : List (Entry Val)) (k : String) (old b : Bool) : Prop := (Absent es k ∧ b = old) ∨ ∃ r t, Is es k (.simple r t) ∧ Truth t b

/-- A number in a range, with a default. -/
def UintOf (es : List (Entry Val)) (k : String) (min max old n : Nat) : Prop :=
  (Absent es k ∧ n = old) ∨ ∃ r t, Is es k (.simple r t) ∧ Count t n ∧ min ≤ n ∧ n ≤ max

/-- A string up to its first zero byte. -/
inductive UpToZero : Bytes → Bytes → Prop
  | nil : UpToZero [] []
  | zero {r} : UpToZero (0 :: r) []
  | cons {c r s} : c ≠ 0 → UpToZero r s → UpToZero (c :: r) (c :: s)

/-- A string with a default. -/
def TextOf (es : List (Entry Val)) (k : String) (old s : Option Bytes) : Prop :=
  (Absent es k ∧ s = old) ∨ ∃ r t u, Is es k (.simple r t) ∧ UpToZero t u ∧ s = some u

/-! ### Options of the daemon -/

/-- The settings, with the defaults of the manual. -/
structure Settings where
  lockMem : Bool
  disableTextAutosplit : Bool
  ednsClientSubnet : Bool
  zonesStrictData : Bool
  disableCookies : Bool
  experimentalNoChain : Bool
  disableTcpDso : Bool
  maxNocookieResponse : Nat
  zonesDefaultTtl : Nat
  maxNcacheTtl : Nat
  maxTtl : Nat
  minTtl : Nat
  maxEdnsResponse : Nat
  maxEdnsResponseV6 : Nat
  acmeChallengeTtl : Nat
  acmeChallengeDnsTtl : Nat
  zonesRfc1035Threads : Nat
  cookieKeyFile : Option Bytes

/-- What `options` says about them. -/
structure Says (es : List (Entry Val)) (c : Settings) : Prop where
  lockMem : BoolOf es "lock_mem" false c.lockMem
  disableTextAutosplit : BoolOf es "disable_text_autosplit" false c.disableTextAutosplit
  ednsClientSubnet : BoolOf es "edns_client_subnet" true c.ednsClientSubnet
  zonesStrictData : BoolOf es "zones_strict_data" false c.zonesStrictData
  disableCookies : BoolOf es "disable_cookies" false c.disableCookies
  experimentalNoChain : BoolOf es "experimental_no_chain" true c.experimentalNoChain
  disableTcpDso : BoolOf es "disable_tcp_dso" false c.disableTcpDso
  maxNocookieResponse : UintOf es "max_nocookie_response" 0 1024 0 c.maxNocookieResponse
  zonesDefaultTtl : UintOf es "zones_default_ttl" 1 2147483647 86400 c.zonesDefaultTtl
  maxNcacheTtl : UintOf es "max_ncache_ttl" 10 86400 10800 c.maxNcacheTtl
  maxTtl : UintOf es "max_ttl" 3600 268435455 3600000 c.maxTtl
  minTtl : UintOf es "min_ttl" 0 86400 5 c.minTtl
  maxEdnsResponse : UintOf es "max_edns_response" 512 16384 1232 c.maxEdnsResponse
  maxEdnsResponseV6 : UintOf es "max_edns_response_v6" 512 16384 1232 c.maxEdnsResponseV6
  acmeChallengeTtl : UintOf es "acme_challenge_ttl" 60 3600 600 c.acmeChallengeTtl
  acmeChallengeDnsTtl : UintOf es "acme_challenge_dns_ttl" 0 3600 0 c.acmeChallengeDnsTtl
  zonesRfc1035Threads : UintOf es "zones_rfc1035_threads" 1 1024 2 c.zonesRfc1035Threads
  cookieKeyFile : TextOf es "cookie_key_file" none c.cookieKeyFile
  /-- Relations between them. -/
  ttls : c.minTtl ≤ c.maxTtl ∧ c.minTtl ≤ c.maxNcacheTtl
  nocookie : c.maxNocookieResponse = 0 ∨ 128 ≤ c.maxNocookieResponse

/-- The options of the manual. -/
def options : List String :=
  ["listen", "tcp_control", "dns_port", "tcp_threads", "udp_threads", "tcp_clients_per_thread", "tcp_timeout", "tcp_backlog", "tcp_fastopen",
   "udp_rcvbuf", "udp_sndbuf", "disable_tcp_dso", "zones_strict_data", "zones_rfc1035_threads", "lock_mem", "disable_text_autosplit",
   "max_edns_response", "max_edns_response_v6", "edns_client_subnet", "chaos_response", "acme_challenge_ttl", "acme_challenge_dns_ttl",
   "nsid", "nsid_ascii", "experimental_no_chain", "disable_cookies", "max_nocookie_response", "cookie_key_file", "zones_default_ttl",
   "max_ncache_ttl", "max_ttl", "min_ttl", "run_dir", "state_dir"]

/-- Options of older versions: accepted with a warning. -/
def oldOptions : List String :=
  ["username", "weaker_security", "include_optional_ns", "realtime_stats", "zones_strict_startup", "zones_rfc1035_auto", "any_mitigation",
   "priority", "log_stats", "max_response", "max_cname_depth", "max_addtl_rrsets", "zones_rfc1035_auto_interval", "zones_rfc1035_quiesce",
   "http_listen", "max_http_clients", "http_timeout", "http_port", "plugin_search_path", "udp_recv_width"]

/-- All keys are among some names. -/
def Only (es : List (Entry Val)) (l : List String) : Prop := ∀ e ∈ es, ∃ k ∈ l, e.key = nm k

/-! ### The answer to CHAOS queries and the NSID -/

/-- A character string and its length. -/
def charString (t : Bytes) : Bytes := UInt8.ofNat t.length :: t

/-- A record of class CH and type TXT with one string, TTL 0, whose owner is the name at offset 12. -/
def chaosRecord (t : Bytes) : Bytes :=
  let rdata := charString t
  [0xC0, 12] ++ [0, 16] ++ [0, 3] ++ [0, 0, 0, 0] ++ [UInt8.ofNat (rdata.length / 256), UInt8.ofNat (rdata.length % 256)] ++ rdata

/-- Two hexadecimal digits for each byte. -/
inductive Hex : Bytes → Bytes → Prop
  | nil : Hex [] []
  | cons {a b x y t r} : IsDigit 16 a x → IsDigit 16 b y → Hex t r → Hex (a :: b :: t) (UInt8.ofNat (x * 16 + y) :: r)

/-- The NSID that `nsid` and `nsid_ascii` say. -/
inductive Nsid : Option Bytes → Option Bytes → Option Bytes → Prop
  | none : Nsid none none none
  | hex {t b} : b ≠ [] → b.length ≤ 128 → Hex t b → Nsid (some t) none (some b)
  | ascii {t} : t ≠ [] → t.length ≤ 128 → (∀ c ∈ t, 32 ≤ c.toNat ∧ c.toNat ≤ 126) → Nsid none (some t) (some t)

end Gdnsd.ConfSpec
