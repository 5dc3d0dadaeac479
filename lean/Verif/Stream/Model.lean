/-
Model of reading requests from a TCP connection (src/dnsio_tcp.c): the read buffer, the check
of the next request, and the two event handlers of a connection.

What the kernel gives `recv` and does with `send`, and whether the DNS layer answers or drops a
request, are parameters of each step. Not modelled here: the queue of connections and the
timeouts (Verif/Connq), the RCU calls, statistics, logging. Two fields record what happened: the
bytes received and the requests handed to the DNS layer.
-/
import Verif.Proxy.Model
namespace Gdnsd.Stream
open Gdnsd.Proxy (sub)

/-- `TCP_READBUF` (src/dnsio_tcp.c:58-76). -/
def READBUF : Nat := 3840
/-- `DNS_RECV_SIZE` (src/dnswire.h). -/
def RECV : Nat := 1024

/-- Why a connection is closed. -/
inductive Why where
  | eof | error | badSize | badProxy | dropped | sendFail
deriving Repr, DecidableEq

/-- The state of a connection: `conn_t` (src/dnsio_tcp.c:155-171), which watcher is active
(`check`), and a record of the bytes received, the requests processed, and the size of the PROXY
header. -/
structure Conn where
  buf : Bytes
  head : Nat
  bytes : Nat
  proxy : Bool
  check : Bool
  closed : Option Why
  got : Bytes
  reqs : List Bytes
  hdr : Nat
deriving Repr, DecidableEq

/-- A new connection (src/dnsio_tcp.c:851-866): zeroed memory, `proxy` if the listener is set so. -/
def init (proxy : Bool) : Conn := ⟨List.replicate READBUF 0, 0, 0, proxy, false, none, [], [], 0⟩

/-- What `recv` gives. -/
inductive Recv where
  | data (d : Bytes) | eof | again | error
deriving Repr, DecidableEq

/-- What becomes of a request: the DNS layer drops it, the response cannot be sent, or it is sent. -/
inductive Ans where
  | drop | noSend | sent
deriving Repr, DecidableEq

/-- `connq_destruct_conn`, for this connection. -/
def close (c : Conn) (w : Why) : Conn := { c with closed := some w }

/-- The return value of `conn_check_next_req`. -/
inductive Next where
  | bad | more | full (n : Nat)
deriving Repr, DecidableEq

/-- The size of the next request as far as it is known, and whether it is too small
(src/dnsio_tcp.c:618-625). -/
def nextSize (c : Conn) : Outcome (Nat × Bool) :=
  (rd c.buf c.head).bind fun hi =>
    if 1 < c.bytes then (rd c.buf (c.head + 1)).bind fun lo => .ok (256 * hi.toNat + lo.toNat, decide (256 * hi.toNat + lo.toNat < 12))
    else .ok (256 * hi.toNat, false)

/-- `conn_check_next_req` (src/dnsio_tcp.c:606-645). -/
def nextReq (c : Conn) : Outcome (Next × Conn) :=
  if c.bytes = 0 then .ok (.more, { c with head := 0 })
  else (nextSize c).bind fun p =>
    if p.2 = true ∨ RECV < p.1 then .ok (.bad, close c .badSize)
    else if c.bytes < p.1 + 2 then
      if c.head ≠ 0 then (sub c.buf c.head c.bytes).bind fun d => .ok (.more, { c with buf := d ++ c.buf.drop c.bytes, head := 0 })
      else .ok (.more, c)
    else .ok (.full p.1, c)

/-- `conn_respond` (src/dnsio_tcp.c:653-721). The assertions about the watchers are those
that the other one is not active. -/
def respond (c : Conn) (n : Nat) (ans : Ans) : Outcome Conn :=
  (assert (decide (12 ≤ n ∧ n ≤ RECV))).bind fun _ =>
  (sub c.buf (c.head + 2) n).bind fun q =>
    let c := { c with head := c.head + (n + 2), bytes := c.bytes - (n + 2), reqs := c.reqs ++ [q] }
    match ans with
    | .drop => .ok (close c .dropped)
    | .noSend => .ok (close c .sendFail)
    | .sent =>
      (nextReq c).bind fun
        | (.bad, c) => .ok c
        | (.more, c) => .ok { c with check := false }
        | (.full _, c) => .ok { c with check := true }

/-- `check_handler` (src/dnsio_tcp.c:723-741). -/
def checkHandler (c : Conn) (ans : Ans) : Outcome Conn :=
  (assert (!c.proxy)).bind fun _ =>
  (assert (decide (2 < c.bytes))).bind fun _ =>
  (rd c.buf c.head).bind fun hi =>
  (rd c.buf (c.head + 1)).bind fun lo =>
    let n := 256 * hi.toNat + lo.toNat
    (assert (decide (12 ≤ n ∧ n ≤ RECV))).bind fun _ =>
    (assert (decide (n + 2 ≤ c.bytes))).bind fun _ =>
      respond c n ans

/-- `read_handler` after `conn_do_recv` (src/dnsio_tcp.c:797-818). -/
def afterRecv (gai : Bytes → Bytes → Option Proxy.Addr) (c : Conn) (ans : Ans) : Outcome Conn :=
  (assert (decide (c.bytes ≠ 0))).bind fun _ =>
  let go := fun c => (nextReq c).bind fun
    | (.full n, c) => respond c n ans
    | (_, c) => .ok c
  if c.proxy then
    (Proxy.parse gai c.buf c.bytes).bind fun
      | none => .ok (close { c with proxy := false } .badProxy)
      | some r =>
        (assert (decide (r.skip ≤ c.bytes))).bind fun _ =>
          go { c with proxy := false, buf := r.buf, bytes := c.bytes - r.skip, head := c.head + r.skip, hdr := r.skip }
  else go c

/-- `read_handler` with `conn_do_recv` (src/dnsio_tcp.c:743-819). `recv` writes at
`readbuf_bytes` whatever the head is. -/
def readHandler (gai : Bytes → Bytes → Option Proxy.Addr) (c : Conn) (rv : Recv) (ans : Ans) : Outcome Conn :=
  (assert (decide (c.bytes < READBUF))).bind fun _ =>
    match rv with
    | .eof => .ok (close c .eof)
    | .error => .ok (close c .error)
    | .again => .ok c
    | .data d =>
      (assert (decide (d.length ≤ READBUF - c.bytes))).bind fun _ =>
      if c.bytes + d.length ≤ c.buf.length then
        afterRecv gai { c with buf := c.buf.take c.bytes ++ d ++ c.buf.drop (c.bytes + d.length), bytes := c.bytes + d.length, got := c.got ++ d } ans
      else .ub

/-- Events of a connection. -/
inductive Event where
  | read (rv : Recv) (ans : Ans)
  | check (ans : Ans)
deriving Repr, DecidableEq

/-- One event. -/
def step (gai : Bytes → Bytes → Option Proxy.Addr) (c : Conn) : Event → Outcome Conn
  | .read rv ans => readHandler gai c rv ans
  | .check ans => checkHandler c ans

end Gdnsd.Stream
