/-
libgdnsd/net.c, src/socks.c, src/dnsio_udp.c, src/dnsio_tcp.c: options of sockets. libgdnsd/alloc.c: memory. As compiled for Linux.
-/
import Verif.Basic
namespace Gdnsd.Sock

/-! ### Options -/

/-- The options: of SOL_SOCKET, IP, IPV6 and TCP. -/
inductive Opt where
  | reuseaddr | reuseport | rcvbuf | sndbuf
  | mtudisc | pktinfo | tos
  | v6only | mtu | mtudisc6 | pktinfo6 | tclass
  | nodelay | defer | fastopen
deriving Repr, DecidableEq

/-- The loop of `secs_to_retrans` (libgdnsd/net.c:62-68), from the number of tries, the timeout and the time so far. -/
def retransLoop (seconds res timeout period : Nat) : Nat :=
  if h : seconds > period ∧ res < 255 then
    retransLoop seconds (res + 1) (if timeout * 2 > 120 then 120 else timeout * 2) (period + if timeout * 2 > 120 then 120 else timeout * 2)
  else res
termination_by 255 - res

/-- `secs_to_retrans` (libgdnsd/net.c:54-71). Seconds below 0 do not occur. -/
def toRetrans (seconds : Nat) : Nat := if seconds > 0 then retransLoop seconds 1 1 1 else 0

/-- The loop of `retrans_to_secs` (libgdnsd/net.c:80-85). -/
def secsLoop : Nat → Nat → Nat → Nat
  | 0, _, period => period
  | n + 1, timeout, period => secsLoop n (if timeout * 2 > 120 then 120 else timeout * 2) (period + if timeout * 2 > 120 then 120 else timeout * 2)

/-- `retrans_to_secs` (libgdnsd/net.c:73-88). -/
def toSecs (retrans : Nat) : Nat := if retrans > 0 then secsLoop (retrans - 1) 1 1 else 0

/-- `tcpdefaccept_xlate_secs` (libgdnsd/net.c:90-94). -/
def xlate (seconds : Nat) : Nat := toSecs (toRetrans seconds)

/-- The kernel: whether it refuses to tell an option, or to set it to a value, and what it tells after it was set. Whether it refuses is taken to be the same each time. -/
structure Kernel where
  getFails : Opt → Bool
  setFails : Opt → Nat → Bool
  report : Opt → Nat → Nat

/-- A socket: what the kernel tells about its options; and the calls that have set some. -/
structure Sock where
  val : Opt → Nat
  sets : List (Opt × Nat)

def store (K : Kernel) (o : Opt) (w : Nat) (s : Sock) : Sock :=
  ⟨fun x => if x = o then K.report o w else s.val x, s.sets ++ [(o, w)]⟩

/-- What the kernel is expected to tell (libgdnsd/net.c:105-115). -/
def compare (o : Opt) (w : Nat) : Nat :=
  match o with
  | .rcvbuf => w * 2
  | .sndbuf => w * 2
  | .defer => xlate w
  | _ => w

/-- Whether a value is the wanted one (libgdnsd/net.c:123-127). -/
def same (isBool : Bool) (current want : Nat) : Bool := bif isBool then decide (current = 0) == decide (want = 0) else decide (current = want)

/-- `gdnsd_sockopt_idem_int_` (libgdnsd/net.c:101-140): `none` if it returns -1, or if the option is required the end of the process. -/
def idem (K : Kernel) (o : Opt) (w : Nat) (isBool : Bool) (s : Sock) : Option Sock :=
  if K.getFails o = true then none
  else if same isBool (s.val o) (compare o w) = true then some s
  else if K.setFails o w = true then none
  else some (store K o w s)

/-- A call that sets an option: one that must not fail, one that may, one with another value if the first is refused, and `setsockopt` alone. -/
inductive Step where
  | must (o : Opt) (w : Nat) (isBool : Bool)
  | may (o : Opt) (w : Nat)
  | either (o : Opt) (w w' : Nat)
  | blind (o : Opt) (w : Nat)
deriving Repr, DecidableEq

def Step.run (K : Kernel) (s : Sock) : Step → Option Sock
  | .must o w b => idem K o w b s
  | .may o w => some ((idem K o w false s).getD s)
  | .either o w w' => match idem K o w false s with
    | some s => some s
    | none => idem K o w' false s
  | .blind o w => if K.setFails o w = true then none else some (store K o w s)

/-- One after the other; `none` is the end of the process. -/
def runAll (K : Kernel) : List Step → Sock → Option Sock
  | [], s => some s
  | st :: l, s => (st.run K s).bind (runAll K l)

/-- What of the configuration of an address matters here (src/socks.h). -/
structure Cfg where
  v6 : Bool
  any : Bool
  rcvbuf : Nat
  sndbuf : Nat
  timeout : Nat
  fastopen : Nat
deriving Repr, DecidableEq

/-- `udp_sock_opts_v4` (src/dnsio_udp.c:144-171). `IP_PMTUDISC_OMIT` is 5, `IP_PMTUDISC_DONT` 0, `IPTOS_LOWDELAY` 16. -/
def udp4 (c : Cfg) : List Step :=
  .either .mtudisc 5 0 :: ((if c.any = true then [.must .pktinfo 1 true] else []) ++ [.may .tos 16])

/-- `udp_sock_opts_v6` (src/dnsio_udp.c:177-222). -/
def udp6 : List Step := [.must .v6only 1 true, .blind .mtu 1280, .either .mtudisc6 5 0, .must .pktinfo6 1 true, .may .tclass 16]

/-- `udp_sock_setup` (src/dnsio_udp.c:242-260). -/
def udp (c : Cfg) : List Step :=
  [.must .reuseaddr 1 true, .must .reuseport 1 true] ++ (if c.rcvbuf ≠ 0 then [.must .rcvbuf c.rcvbuf false] else []) ++
  (if c.sndbuf ≠ 0 then [.must .sndbuf c.sndbuf false] else []) ++ (if c.v6 = true then udp6 else udp4 c)

/-- `tcp_dns_listen_setup` (src/dnsio_tcp.c:963-1007). -/
def tcp (c : Cfg) : List Step :=
  [.must .reuseaddr 1 true, .must .reuseport 1 true, .must .nodelay 1 true, .must .defer (if c.timeout > 30 then 30 else c.timeout) false, .may .fastopen c.fastopen] ++
  (if c.v6 = true then [.must .v6only 1 true, .blind .mtu 1280] else [])

/-! ### Addresses -/

/-- `socks_bind_sock` (src/socks.c:382-435), from the results of the calls: errors of `bind`, of setting IP_FREEBIND, and of the second `bind`. Whether the process goes on, and whether the option was asked for. -/
def bindSock (any : Bool) (first : Option Nat) (optFails : Bool) (second : Option Nat) : Bool × Bool :=
  match first with
  | none => (true, false)
  | some e =>
    if e = 99 ∧ any = false then
      if optFails = true then (false, true)
      else match second with
        | none => (true, true)
        | some _ => (false, true)
    else (false, false)

/-! ### Memory -/

/-- `mul_ok` (libgdnsd/alloc.c:32-37); a division by zero is undefined. -/
def mulOk (n s m : Nat) : Outcome Bool :=
  if (2 ^ 64 - 2 ^ 32) &&& (n ||| s) = 0 then .ok true
  else if s = 0 then .ub
  else .ok (decide (m / s = n))

/-- `gdnsd_xmalloc_n`, `gdnsd_xcalloc_n`, `gdnsd_xrealloc_n` and `gdnsd_xpmalign_n` (libgdnsd/alloc.c:48-56, 67-75, 86-94, 106-116); `gives` says whether there is memory for that many bytes. The size of the block, or `none` for the end of
the process. -/
def alloc (n s : Nat) (gives : Nat → Bool) : Outcome (Option Nat) :=
  let full := n * s % 2 ^ 64
  if full = 0 then .ok none
  else if gives full = false then .ok none
  else match mulOk n s full with
    | .ub => .ub
    | .ok true => .ok (some full)
    | .ok false => .ok none

end Gdnsd.Sock
