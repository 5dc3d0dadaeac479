/-
src/dnsio_udp.c: receiving and sending datagrams (lines 275-560).

What the kernel does is in the events: what a call receives, and what a call to send does. Processing a
request (`process_dns_query`) is a parameter with a state. Addresses have a family, a port and an address;
the length of the address is left out. The buffer of control messages is the list of the messages in it.
`.ub` is a failed assertion.
-/
import Verif.Basic
namespace Gdnsd.Udp

/-- `gdnsd_anysin_t`, of the two families. -/
structure Addr where
  v6 : Bool
  port : Nat
  ip : Bytes
deriving DecidableEq, Repr

/-- A control message: `IPV6_PKTINFO` with the address a datagram came to and the number of an interface, or
another one. -/
inductive Cmsg where
  | pkt6 (ip : Bytes) (ifindex : Nat)
  | other (data : Bytes)
deriving DecidableEq, Repr

/-- A datagram: the peer, control messages and contents. One without contents is not sent. -/
structure Dgram where
  peer : Addr
  ctl : List Cmsg
  data : Bytes
deriving DecidableEq, Repr

/-- `IN6_IS_ADDR_LINKLOCAL`. -/
def linkLocal (ip : Bytes) : Bool :=
  match ip with
  | a :: b :: _ => a == 254 && b &&& 192 == 128
  | _ => false

/-- `ipv6_pktinfo_ifindex_fixup` (src/dnsio_udp.c:291-305): only the first message of this kind. -/
def fixup : List Cmsg → List Cmsg
  | [] => []
  | .pkt6 ip i :: r => (if linkLocal ip = false then .pkt6 ip 0 else .pkt6 ip i) :: r
  | .other d :: r => .other d :: fixup r

/-- What is counted: `dropped`, `udp.sendfail` and `udp.recvfail`. -/
structure Counts where
  dropped : Nat
  sendfail : Nat
  recvfail : Nat
deriving DecidableEq, Repr

/-- `process_dns_query`: the new state, and the reply or nothing. -/
abbrev Query (σ : Type) := σ → Addr → Bytes → Outcome (σ × Bytes)

/-- One datagram, up to sending: the body of the first loop of `process_mmsgs` (src/dnsio_udp.c:427-442),
and the same part of `process_msg` (346-361). What is to be sent replaces what was received. -/
def handle {σ : Type} (Q : Query σ) (s : σ) (n : Counts) (d : Dgram) : Outcome (σ × Counts × Dgram) :=
  if d.peer.port = 0 then .ok (s, { n with dropped := n.dropped + 1 }, { d with data := [] })
  else
    (Q s d.peer d.data).bind fun (s', r) =>
    .ok (s', n, { d with ctl := if d.peer.v6 = true then fixup d.ctl else d.ctl, data := r })

/-- The first loop of `process_mmsgs` (src/dnsio_udp.c:427-442). -/
def handleAll {σ : Type} (Q : Query σ) : σ → Counts → List Dgram → Outcome (σ × Counts × List Dgram)
  | s, n, [] => .ok (s, n, [])
  | s, n, d :: ds =>
    (handle Q s n d).bind fun (s1, n1, o) =>
    (handleAll Q s1 n1 ds).bind fun (s2, n2, os) => .ok (s2, n2, o :: os)

/-- The loop that skips what is not sent and counts what is (src/dnsio_udp.c:452-460), over what is left,
with `pkts_done` and `to_send`. -/
def scan : List Dgram → Nat → Nat → Nat × Nat
  | [], done, send => (done, send)
  | d :: ds, done, send =>
    if d.data.length ≠ 0 then scan ds done (send + 1)
    else if send = 0 then scan ds (done + 1) send
    else (done, send)

/-- What `sendmsg` or `sendmmsg` do: fail with `EINTR`, fail, or send so many. -/
inductive Sent where
  | intr
  | fail
  | ok (n : Nat)
deriving DecidableEq, Repr

/-- A thread: idle, or with datagrams that are being sent; `done` of them are behind it and `run` are offered
to `sendmmsg`. -/
inductive Phase where
  | idle
  | busy (out : List Dgram) (done run : Nat)
deriving DecidableEq, Repr

structure St (σ : Type) where
  q : σ
  n : Counts
  phase : Phase
  /-- What was sent so far. -/
  sent : List Dgram

/-- The head of the outer loop (src/dnsio_udp.c:448-462, 486-490): the next run, or the end. -/
def resume {σ : Type} (s : St σ) (out : List Dgram) (done : Nat) : Outcome (St σ) :=
  if done < out.length then
    let (done', send) := scan (out.drop done) done 0
    if send ≠ 0 then .ok { s with phase := .busy out done' send }
    else (assert (decide (done' = out.length))).bind fun _ => .ok { s with phase := .idle }
  else .ok { s with phase := .idle }

/-- What the kernel does: it hands over datagrams, fails to (with `EINTR` or `EAGAIN`, or with another
error), or sends. -/
inductive Ev where
  | recv (ds : List Dgram)
  | none
  | recvFail
  | send (r : Sent)
deriving DecidableEq, Repr

/-- `mainloop_mmsg` and `process_mmsgs` (src/dnsio_udp.c:418-560), from system call to system call. `none`:
there is no such call now. -/
def step {σ : Type} (Q : Query σ) (s : St σ) (e : Ev) : Outcome (Option (St σ)) :=
  match s.phase, e with
  | .idle, .none => .ok (some s)
  | .idle, .recvFail => .ok (some { s with n := { s.n with recvfail := s.n.recvfail + 1 } })
  | .idle, .recv ds =>
    (assert (decide (ds.length ≤ 16 ∧ 0 < ds.length))).bind fun _ =>
    (handleAll Q s.q s.n ds).bind fun (q, n, out) => (resume { s with q := q, n := n } out 0).map some
  | .busy _ _ _, .send .intr => .ok (some s)
  | .busy out done _, .send .fail =>
    (resume { s with n := { s.n with sendfail := s.n.sendfail + 1 } } out (done + 1)).map some
  | .busy out done run, .send (.ok k) =>
    (assert (decide (k ≠ 0 ∧ k ≤ run))).bind fun _ =>
    (resume { s with sent := s.sent ++ (out.drop done).take k } out (done + k)).map some
  | _, _ => .ok none

/-- `mainloop` and `process_msg` (src/dnsio_udp.c:343-408), without `sendmmsg`: one datagram, and one call
that sends it. -/
def step1 {σ : Type} (Q : Query σ) (s : St σ) (e : Ev) : Outcome (Option (St σ)) :=
  match s.phase, e with
  | .idle, .none => .ok (some s)
  | .idle, .recvFail => .ok (some { s with n := { s.n with recvfail := s.n.recvfail + 1 } })
  | .idle, .recv [d] =>
    (handle Q s.q s.n d).bind fun (q, n, o) =>
    .ok (some { s with q := q, n := n, phase := if o.data.length ≠ 0 then .busy [o] 0 1 else .idle })
  | .busy _ _ _, .send .intr => .ok (some s)
  | .busy _ _ _, .send .fail => .ok (some { s with n := { s.n with sendfail := s.n.sendfail + 1 }, phase := .idle })
  | .busy out _ _, .send (.ok _) => .ok (some { s with sent := s.sent ++ out, phase := .idle })
  | _, _ => .ok none

/-- A thread after its start. -/
def start {σ : Type} (q : σ) : St σ := ⟨q, ⟨0, 0, 0⟩, .idle, []⟩

/-- A history of a thread that uses the calls for many datagrams (`many`) or for one. -/
def run {σ : Type} (Q : Query σ) (many : Bool) : St σ → List Ev → Outcome (Option (St σ))
  | s, [] => .ok (some s)
  | s, e :: es =>
    (if many = true then step Q s e else step1 Q s e).bind fun
    | none => .ok none
    | some s' => run Q many s' es

end Gdnsd.Udp
