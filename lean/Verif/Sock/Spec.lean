/-
What C117 to C119 ask for.
-/
import Verif.Sock.Model
namespace Gdnsd.SockSpec
open Sock

/-- How long a connection is held after so many tries: the waits double, up to two minutes. -/
def period : Nat → Nat
  | 0 => 0
  | k + 1 => period k + min (2 ^ k) 120

/-- The least number of tries, of at most 255, that last so long, or else 255. -/
def tries (s : Nat) : Nat := ((List.range 255).find? fun k => decide (s ≤ period k)).getD 255

/-- Linux: options that are on or off, options that keep their value, buffers which are told twice as large if within the limit, and seconds rounded up to tries. -/
structure Linux (K : Kernel) (limit : Nat) : Prop where
  flag : ∀ o ∈ [Opt.reuseaddr, .reuseport, .pktinfo, .v6only, .pktinfo6, .nodelay], ∀ v, K.report o v = 0 ↔ v = 0
  same : ∀ o ∈ [Opt.mtudisc, .mtudisc6, .tos, .tclass, .fastopen, .mtu], ∀ v, K.report o v = v
  buf : ∀ o ∈ [Opt.rcvbuf, .sndbuf], ∀ v, K.report o v = 2 * min v limit
  wait : ∀ v, K.report .defer v = period (tries v)

/-- A socket for UDP as the configuration has it. -/
def UdpRight (c : Cfg) (v : Opt → Nat) : Prop :=
  v .reuseaddr ≠ 0 ∧ v .reuseport ≠ 0 ∧ (c.rcvbuf ≠ 0 → v .rcvbuf = 2 * c.rcvbuf) ∧ (c.sndbuf ≠ 0 → v .sndbuf = 2 * c.sndbuf) ∧
  (c.v6 = false → (v .mtudisc = 5 ∨ v .mtudisc = 0) ∧ (c.any = true → v .pktinfo ≠ 0)) ∧
  (c.v6 = true → v .v6only ≠ 0 ∧ v .mtu = 1280 ∧ (v .mtudisc6 = 5 ∨ v .mtudisc6 = 0) ∧ v .pktinfo6 ≠ 0)

/-- A socket for TCP as the configuration has it: among others, it waits at least as long for the first bytes as the timeout, of which thirty seconds count. -/
def TcpRight (c : Cfg) (v : Opt → Nat) : Prop :=
  v .reuseaddr ≠ 0 ∧ v .reuseport ≠ 0 ∧ v .nodelay ≠ 0 ∧ v .defer = period (tries (min c.timeout 30)) ∧
  (c.v6 = true → v .v6only ≠ 0 ∧ v .mtu = 1280)

end Gdnsd.SockSpec
