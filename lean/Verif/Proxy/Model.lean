/-
Model of the PROXY protocol parser (src/proxy.c), which works on the read buffer of a
connection (src/dnsio_tcp.c:797-811).

`getaddrinfo` with numeric hosts and ports is a parameter. Not modelled: logging.
-/
import Verif.Basic
namespace Gdnsd.Proxy

/-- Addresses: those of version 2 headers with the port, in network byte order, and those
that `getaddrinfo` makes. -/
inductive Addr where
  | v4 (addr port : Bytes)
  | v6 (addr port : Bytes)
  | text (n : Nat)
deriving Repr, DecidableEq

/-- A success: the size of the header, the client's address (`none`: that of the
connection stays), and the buffer, which the parser changes. -/
structure Res where
  skip : Nat
  addr : Option Addr
  buf : Bytes
deriving Repr, DecidableEq

/-- `proxy_v2sig` (src/proxy.c:39). -/
def v2sig : Bytes := [0x0D, 0x0A, 0x0D, 0x0A, 0x00, 0x0D, 0x0A, 0x51, 0x55, 0x49, 0x54, 0x0A]

/-- `"PROXY "`. -/
def v1sig : Bytes := [80, 82, 79, 88, 89, 32]
/-- `"TCP4 "`. -/
def tcp4 : Bytes := [84, 67, 80, 52, 32]
/-- `"TCP6 "`. -/
def tcp6 : Bytes := [84, 67, 80, 54, 32]

/-- `sizeof(proxy_hdr_t)` (src/proxy.h:31-59). -/
def HDR : Nat := 108

/-- A read of `n` bytes at `i`. -/
def sub (b : Bytes) (i n : Nat) : Outcome Bytes := if i + n ≤ b.length then .ok ((b.drop i).take n) else .ub

/-- `memchr(b, c, n)`. -/
def memchr (b : Bytes) (c : UInt8) (n : Nat) : Outcome (Option Nat) :=
  if n ≤ b.length then .ok ((b.take n).findIdx? (· == c)) else .ub

/-- `strchr` for a character other than NUL, from position `i` on. -/
def strchrAt (c : UInt8) : Bytes → Nat → Outcome (Option Nat)
  | [], _ => .ub
  | x :: r, i => if x = c then .ok (some i) else if x = 0 then .ok none else strchrAt c r (i + 1)

/-- The string at `i`. -/
def cstr (b : Bytes) (i : Nat) : Bytes := (b.drop i).takeWhile (· ≠ 0)

/-- A space before `stop` is found and overwritten (src/proxy.c:61-83, three times).
`none`: rejected. -/
def cut (b : Bytes) (start stop : Nat) : Outcome (Option (Nat × Bytes)) :=
  (strchrAt 32 (b.drop start) start).bind fun
    | none => .ok none
    | some i => if stop ≤ i then .ok none else .ok (some (i, b.set i 0))

/-- `parse_proxy_v1` (src/proxy.c:42-99). `none`: rejected. -/
def parseV1 (gai : Bytes → Bytes → Option Addr) (b : Bytes) (dlen : Nat) : Outcome (Option Res) :=
  (assert (decide (8 ≤ dlen))).bind fun _ =>
  (sub b 0 6).bind fun p =>
  (assert (decide (p = v1sig))).bind fun _ =>
  (memchr b 13 (dlen - 1)).bind fun
    | none => .ok none
    | some stop =>
      (rd b (stop + 1)).bind fun nl =>
        if nl ≠ 10 ∨ stop < 16 then .ok none else
          let b := b.set stop 0
          (sub b 6 5).bind fun proto =>
            if proto ≠ tcp4 ∧ proto ≠ tcp6 then .ok none else
              (cut b 11 stop).bind fun
                | none => .ok none
                | some (i, b) =>
                  (cut b (i + 1) stop).bind fun
                    | none => .ok none
                    | some (j, b) =>
                      (cut b (j + 1) stop).bind fun
                        | none => .ok none
                        | some (_, b) =>
                          match gai (cstr b 11) (cstr b (j + 1)) with
                          | none => .ok none
                          | some a =>
                            (assert (decide (stop + 2 ≤ HDR))).bind fun _ => .ok (some ⟨stop + 2, some a, b⟩)

/-- The version 2 branch of `proxy_parse` (src/proxy.c:107-138), after the tests of the
signature and the version. -/
def parseV2 (b : Bytes) (dlen : Nat) : Outcome (Option Res) :=
  (rd b 12).bind fun vc =>
  (rd b 13).bind fun fam =>
  (rd b 14).bind fun l0 =>
  (rd b 15).bind fun l1 =>
    let skip := 16 + (256 * l0.toNat + l1.toNat)
    if dlen < skip then .ok none
    else if vc &&& 0x0F = 1 then
      if fam = 0x11 ∧ 28 ≤ skip then
        (sub b 16 4).bind fun a => (sub b 24 2).bind fun p => .ok (some ⟨skip, some (.v4 a p), b⟩)
      else if fam = 0x21 ∧ 52 ≤ skip then
        (sub b 16 16).bind fun a => (sub b 48 2).bind fun p => .ok (some ⟨skip, some (.v6 a p), b⟩)
      else .ok none
    else if vc &&& 0x0F ≠ 0 then .ok none
    else .ok (some ⟨skip, none, b⟩)

/-- The condition of the version 2 branch (src/proxy.c:105-106), evaluated from left to
right. -/
def isV2 (b : Bytes) (dlen : Nat) : Outcome Bool :=
  if 16 ≤ dlen then
    (sub b 0 12).bind fun s => if s = v2sig then (rd b 12).bind fun vc => .ok (decide (vc &&& 0xF0 = 0x20)) else .ok false
  else .ok false

/-- The condition of the version 1 branch (src/proxy.c:139). -/
def isV1 (b : Bytes) (dlen : Nat) : Outcome Bool :=
  if 8 ≤ dlen then (sub b 0 6).bind fun s => .ok (decide (s = v1sig)) else .ok false

/-- `proxy_parse` (src/proxy.c:101-147), on a buffer with `dlen` bytes of data. `none` is 0,
failure. -/
def parse (gai : Bytes → Bytes → Option Addr) (b : Bytes) (dlen : Nat) : Outcome (Option Res) :=
  (isV2 b dlen).bind fun
    | true => parseV2 b dlen
    | false => (isV1 b dlen).bind fun
      | true => parseV1 gai b dlen
      | false => .ok none

end Gdnsd.Proxy
