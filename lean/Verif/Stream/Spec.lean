/-
Streams of requests, as DNS over TCP defines them, and runs of a connection.
-/
import Verif.Stream.Model
import Verif.Proxy.Spec
namespace Gdnsd.Stream

/-- A legal request of this server. -/
def Legal (q : Bytes) : Prop := 12 ≤ q.length ∧ q.length ≤ 1024

/-- A request on the wire: its size in two bytes, and itself. -/
def frame (q : Bytes) : Bytes := [UInt8.ofNat (q.length / 256), UInt8.ofNat (q.length % 256)] ++ q

/-- The start of a legal request, but not all of it. -/
def Incomplete (r : Bytes) : Prop := ∃ q t, Legal q ∧ frame q = r ++ t ∧ t ≠ []

/-- The start of nothing legal. -/
def Illegal (r : Bytes) : Prop := ∀ q t u, Legal q → frame q ++ t ≠ r ++ u

/-- `Parse s qs bad`: the stream `s` so far has the requests `qs`, and then an illegal size
(`bad`) or part of a request. -/
inductive Parse : Bytes → List Bytes → Bool → Prop where
  | more {r : Bytes} : Incomplete r → Parse r [] false
  | bad {r : Bytes} : Illegal r → Parse r [] true
  | req {q r : Bytes} {qs : List Bytes} {b : Bool} : Legal q → Parse r qs b → Parse (frame q ++ r) (q :: qs) b

/-- The events that can occur: none after closing, reads while waiting for data, with at
least a byte and at most the room in the buffer, and checks while requests are buffered. -/
def Event.Can (c : Conn) : Event → Prop
  | .read (.data d) _ => c.closed = none ∧ c.check = false ∧ d ≠ [] ∧ d.length ≤ 3840 - c.bytes
  | .read _ _ => c.closed = none ∧ c.check = false
  | .check _ => c.closed = none ∧ c.check = true

/-- Runs of a connection. -/
inductive Run (gai : Bytes → Bytes → Option Proxy.Addr) (proxy : Bool) : Conn → Prop where
  | init : Run gai proxy (init proxy)
  | step {c c' : Conn} {e : Event} : Run gai proxy c → e.Can c → step gai c e = .ok c' → Run gai proxy c'

/-- The DNS stream of a connection: what follows the PROXY header. -/
def Conn.stream (c : Conn) : Bytes := c.got.drop c.hdr

/-- Nothing more happens without more data: the connection waits for data, or was closed for
an illegal size. -/
def Conn.Settled (c : Conn) : Prop := (c.closed = none ∧ c.check = false) ∨ c.closed = some .badSize

end Gdnsd.Stream
