/-
What `listen` and `tcp_control` say, as the manual describes it (docs/gdnsd.config.podin:94-388).
-/
import Verif.Conf.Types
import Verif.Conf.Spec
namespace Gdnsd.ConfSpec
open Vscf VscfSpec Conf

/-! ### Texts of addresses -/

/-- An address with or without a port: the text of the address and that of the port. Brackets are needed for the
port of an address with colons. A colon that nothing follows stands for no port. -/
inductive AddrText : Bytes → Bytes → Option Bytes → Prop
  | plain {a} : a.head? ≠ some 91 → 58 ∉ a → AddrText a a none
  | port {a p} : a ≠ [] → a.head? ≠ some 91 → 58 ∉ a → p ≠ [] → 58 ∉ p → AddrText (a ++ 58 :: p) a (some p)
  | noport {a} : a ≠ [] → a.head? ≠ some 91 → 58 ∉ a → AddrText (a ++ [58]) a none
  | colons {a b c : Bytes} : (a ++ 58 :: b ++ 58 :: c).head? ≠ some 91 → AddrText (a ++ 58 :: b ++ 58 :: c) (a ++ 58 :: b ++ 58 :: c) none
  | brackets {a} : 93 ∉ a → AddrText (91 :: a ++ [93]) a none
  | bracketsNoport {a} : 93 ∉ a → AddrText (91 :: a ++ [93, 58]) a none
  | bracketsPort {a p} : 93 ∉ a → p ≠ [] → AddrText (91 :: a ++ [93, 58] ++ p) a (some p)

/-- A text means an address, with a default for the port. -/
def Address (g : Gai) (t : Bytes) (port : Nat) (s : Sin) : Prop :=
  ∃ a p, AddrText t a p ∧ g.host a = some (s.v6, s.addr, s.scope) ∧
    ((p = none ∧ s.port = port) ∨ ∃ q, p = some q ∧ g.serv q = some s.port)

/-! ### Listeners -/

/-- Numbers of a listener. -/
structure Numbers where
  udpRcvbuf : Nat
  udpSndbuf : Nat
  udpThreads : Nat
  tcpTimeout : Nat
  tcpFastopen : Nat
  tcpClientsPerThread : Nat
  tcpBacklog : Nat
  tcpThreads : Nat

/-- A listener. -/
structure Listener where
  at' : Sin
  n : Numbers
  proxy : Bool
  pad : Bool

/-- The numbers that `options` says, and the port. -/
structure Globals (es : List (Entry Val)) (port : Nat) (n : Numbers) : Prop where
  port : UintOf es "dns_port" 1 65535 53 port
  udpRcvbuf : UintOf es "udp_rcvbuf" 4096 1048576 0 n.udpRcvbuf
  udpSndbuf : UintOf es "udp_sndbuf" 4096 1048576 0 n.udpSndbuf
  udpThreads : UintOf es "udp_threads" 1 1024 2 n.udpThreads
  tcpTimeout : UintOf es "tcp_timeout" 5 1800 37 n.tcpTimeout
  tcpFastopen : UintOf es "tcp_fastopen" 0 1048576 256 n.tcpFastopen
  tcpClientsPerThread : UintOf es "tcp_clients_per_thread" 16 65535 256 n.tcpClientsPerThread
  tcpBacklog : UintOf es "tcp_backlog" 0 65535 0 n.tcpBacklog
  tcpThreads : UintOf es "tcp_threads" 1 1024 2 n.tcpThreads

/-- Options of an address that always apply, and those that need UDP. -/
def tcpKeys : List String := ["tcp_proxy", "tcp_pad", "tcp_timeout", "tcp_fastopen", "tcp_clients_per_thread", "tcp_backlog", "tcp_threads", "udp_recv_width"]
def udpKeys : List String := ["udp_rcvbuf", "udp_sndbuf", "udp_threads"]

/-- The options of an address override the numbers `d`. -/
structure Overrides (os : List (Entry Val)) (d : Numbers) (l : Listener) : Prop where
  proxy : BoolOf os "tcp_proxy" false l.proxy
  tcpTimeout : UintOf os "tcp_timeout" 5 1800 d.tcpTimeout l.n.tcpTimeout
  tcpFastopen : UintOf os "tcp_fastopen" 0 1048576 d.tcpFastopen l.n.tcpFastopen
  tcpClientsPerThread : UintOf os "tcp_clients_per_thread" 16 65535 d.tcpClientsPerThread l.n.tcpClientsPerThread
  tcpBacklog : UintOf os "tcp_backlog" 0 65535 d.tcpBacklog l.n.tcpBacklog
  tcpThreads : UintOf os "tcp_threads" 1 1024 d.tcpThreads l.n.tcpThreads
  pad : BoolOf os "tcp_pad" l.proxy l.pad
  /-- No UDP for PROXY listeners, and no options for it. -/
  noUdp : l.proxy = true → l.n.udpThreads = 0 ∧ l.n.udpRcvbuf = d.udpRcvbuf ∧ l.n.udpSndbuf = d.udpSndbuf ∧ Only os tcpKeys
  udp : l.proxy = false → UintOf os "udp_rcvbuf" 4096 1048576 d.udpRcvbuf l.n.udpRcvbuf ∧ UintOf os "udp_sndbuf" 4096 1048576 d.udpSndbuf l.n.udpSndbuf ∧
    UintOf os "udp_threads" 1 1024 d.udpThreads l.n.udpThreads ∧ Only os (tcpKeys ++ udpKeys)

/-- A listener with options. PROXY listeners must not have a certain port. `A` says which texts are which addresses,
with a default for the port. -/
structure ListenEntry (bad : Nat) (A : Bytes → Nat → Sin → Prop) (port : Nat) (d : Numbers) (e : Entry Val) (l : Listener) : Prop where
  opts : ∃ os, e.val = .hash os ∧ Overrides os d l
  addr : ∃ t, UpToZero e.key t ∧ A t port l.at'
  bad : l.proxy = true → l.at'.port ≠ bad

/-- A listener without options. -/
def Plain (A : Bytes → Nat → Sin → Prop) (port : Nat) (d : Numbers) (v : Val) (l : Listener) : Prop :=
  ∃ r t u s, v = .simple r t ∧ UpToZero t u ∧ A u port s ∧ l = ⟨s, d, false, false⟩

/-- The two addresses of `any`. -/
def Any (A : Bytes → Nat → Sin → Prop) (port : Nat) (d : Numbers) (ls : List Listener) : Prop :=
  ∃ a b, A (nm "0.0.0.0") port a ∧ A (nm "::") port b ∧ ls = [⟨a, d, false, false⟩, ⟨b, d, false, false⟩]

/-- Two lists correspond item by item. -/
inductive Each {α β : Type} (R : α → β → Prop) : List α → List β → Prop
  | nil : Each R [] []
  | cons {a b as bs} : R a b → Each R as bs → Each R (a :: as) (b :: bs)

/-- What `listen` says. -/
inductive Listens (bad : Nat) (A : Bytes → Nat → Sin → Prop) (port : Nat) (d : Numbers) : Option Val → List Listener → Prop
  | absent {ls} : Any A port d ls → Listens bad A port d none ls
  | any {r t ls} : UpToZero t (nm "any") → Any A port d ls → Listens bad A port d (some (.simple r t)) ls
  | one {r t l} : ¬ UpToZero t (nm "any") → Plain A port d (.simple r t) l → Listens bad A port d (some (.simple r t)) [l]
  | many {vs ls} : vs ≠ [] → Each (Plain A port d) vs ls → Listens bad A port d (some (.array vs)) ls
  | hash {es ls} : es ≠ [] → Each (ListenEntry bad A port d) es ls → Listens bad A port d (some (.hash es)) ls

/-! ### Control addresses -/

/-- A control address: where, whether it may change challenges, whether it may control the daemon. -/
structure Control where
  at' : Sin
  chalOk : Bool
  ctlOk : Bool

/-- A text with a port that is not 0. -/
def ControlAt (A : Bytes → Nat → Sin → Prop) (t : Bytes) (s : Sin) : Prop := ∃ u, UpToZero t u ∧ A u 0 s ∧ s.port ≠ 0

/-- A control address without options. -/
def ControlPlain (A : Bytes → Nat → Sin → Prop) (v : Val) (c : Control) : Prop := ∃ r t, v = .simple r t ∧ ControlAt A t c.at' ∧ c.chalOk = false ∧ c.ctlOk = false

/-- A control address with options. -/
def ControlEntry (A : Bytes → Nat → Sin → Prop) (e : Entry Val) (c : Control) : Prop :=
  ControlAt A e.key c.at' ∧ ∃ os, e.val = .hash os ∧ BoolOf os "chal_ok" false c.chalOk ∧ BoolOf os "ctl_ok" false c.ctlOk ∧ Only os ["chal_ok", "ctl_ok"]

/-- What `tcp_control` says. -/
inductive Controls (A : Bytes → Nat → Sin → Prop) : Option Val → List Control → Prop
  | absent : Controls A none []
  | one {r t c} : ControlPlain A (.simple r t) c → Controls A (some (.simple r t)) [c]
  | many {vs cs} : Each (ControlPlain A) vs cs → Controls A (some (.array vs)) cs
  | hash {es cs} : Each (ControlEntry A) es cs → Controls A (some (.hash es)) cs

end Gdnsd.ConfSpec
