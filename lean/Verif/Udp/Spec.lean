/-
What a thread that serves datagrams owes to the world: a reply per request, in order, each sent once or
counted as failed.
-/
import Verif.Udp.Model
namespace Gdnsd.UdpSpec
open Udp (Addr Cmsg Dgram Ev Query Sent)

/-- Addresses `fe80::/10`. -/
def LinkLocal (ip : Bytes) : Prop := ∃ a b r, ip = a :: b :: r ∧ a.toNat = 254 ∧ b.toNat / 64 = 2

/-- The control messages of a reply: those of the request, but the first that names an interface for an
address that is not link-local names none. -/
inductive Routed : List Cmsg → List Cmsg → Prop
  | nil : Routed [] []
  | local {ip i r} : LinkLocal ip → Routed (.pkt6 ip i :: r) (.pkt6 ip i :: r)
  | global {ip i r} : ¬ LinkLocal ip → Routed (.pkt6 ip i :: r) (.pkt6 ip 0 :: r)
  | other {d r r'} : Routed r r' → Routed (.other d :: r) (.other d :: r')

/-- The reply to a datagram: to where it came from. -/
structure ReplyTo (d : Dgram) (answer : Bytes) (r : Dgram) : Prop where
  peer : r.peer = d.peer
  data : r.data = answer
  ctl4 : d.peer.v6 = false → r.ctl = d.ctl
  ctl6 : d.peer.v6 = true → Routed d.ctl r.ctl

/-- The replies owed for datagrams, in order: none from port 0 and none if the server has nothing to say. -/
inductive Owed {σ : Type} (Q : Query σ) : σ → List Dgram → σ → List Dgram → Prop
  | nil {s} : Owed Q s [] s []
  | zero {s d ds s' rs} : d.peer.port = 0 → Owed Q s ds s' rs → Owed Q s (d :: ds) s' rs
  | silent {s d ds s1 s' rs} : d.peer.port ≠ 0 → Q s d.peer d.data = .ok (s1, []) → Owed Q s1 ds s' rs → Owed Q s (d :: ds) s' rs
  | reply {s d ds s1 s' rs a r} : d.peer.port ≠ 0 → Q s d.peer d.data = .ok (s1, a) → a ≠ [] → ReplyTo d a r → Owed Q s1 ds s' rs →
      Owed Q s (d :: ds) s' (r :: rs)

/-- All that was received in a history. -/
def received (es : List Ev) : List Dgram :=
  es.flatMap fun
    | .recv ds => ds
    | _ => []

/-- Replies and what became of them: sent or failed. -/
def delivered (l : List (Dgram × Bool)) : List Dgram := (l.filter (·.2)).map (·.1)

/-- What the kernel promises: a call that waits for up to 16 datagrams returns with one at least, a call that
sends some of `run` datagrams says how many. -/
def Receives (es : List Ev) : Prop := ∀ ds, .recv ds ∈ es → ds.length ≤ 16 ∧ ds ≠ []

end Gdnsd.UdpSpec
