import Verif.Basic
import Verif.Mon.Model
/-
Model of the random number generator (include/gdnsd/rand.h), of the address
shuffle (src/dnspacket.c:895-927) and of the TTL rules of src/ltree.c and
src/dnspacket.c.
-/
namespace Gdnsd.Rand

/-! ## JKISS32 generator: include/gdnsd/rand.h -/

/-- `gdnsd_rstate32_t` (include/gdnsd/rand.h:43-49). -/
structure RState where
  x : UInt32
  y : UInt32
  z : UInt32
  w : UInt32
  c : UInt32
deriving Repr, DecidableEq

/-- `gdnsd_rand32_init` (include/gdnsd/rand.h:52-60): draws whole states from the
entropy source until one has a non-zero `y`.  `src i` is the i-th state the
entropy source yields; `none` means `fuel` draws all had `y = 0`. -/
def randInit (src : Nat → RState) : Nat → Nat → Option RState
  | 0, _ => none
  | fuel + 1, i => if (src i).y = 0 then randInit src fuel (i + 1) else some (src i)

/-- The three xor-shift steps on `y` (include/gdnsd/rand.h:65-68). -/
def xorShift (y : UInt32) : UInt32 :=
  let y1 := y ^^^ (y <<< 5)
  let y2 := y1 ^^^ (y1 >>> 7)
  y2 ^^^ (y2 <<< 22)

/-- `gdnsd_rand32_get` (include/gdnsd/rand.h:62-80). -/
def randGet (rs : RState) : UInt32 × RState :=
  let y := xorShift rs.y
  let t := rs.z + rs.w + rs.c
  let x := rs.x + 1411392427
  let w := t &&& 2147483647
  (x + y + w, RState.mk x y rs.w w ((t &&& 2147483648) >>> 31))

/-- One multiply of `gdnsd_rand32_bounded` (include/gdnsd/rand.h:90,95):
`mr = (uint64_t)raw * bound`. -/
def mulRaw (raw bound : UInt32) : UInt64 := raw.toUInt64 * bound.toUInt64

/-- The redraw loop of `gdnsd_rand32_bounded` (include/gdnsd/rand.h:94-97).  `get` is
the raw generator on any state type; `none` means still drawing after `fuel` redraws. -/
def redraw {σ : Type} (get : σ → UInt32 × σ) (bound threshold : UInt32) :
    Nat → UInt64 → σ → Option (UInt32 × σ)
  | 0, mr, s => if mr.toUInt32 < threshold then none else some ((mr >>> 32).toUInt32, s)
  | fuel + 1, mr, s =>
    if mr.toUInt32 < threshold then
      let r := get s
      redraw get bound threshold fuel (mulRaw r.1 bound) r.2
    else some ((mr >>> 32).toUInt32, s)

/-- `gdnsd_rand32_bounded` (include/gdnsd/rand.h:88-100).  The modulo by `bound` is only
reached when `leftover < bound`, so never with `bound = 0`. -/
def bounded {σ : Type} (get : σ → UInt32 × σ) (fuel : Nat) (s : σ) (bound : UInt32) :
    Option (UInt32 × σ) :=
  let r := get s
  let mr := mulRaw r.1 bound
  if mr.toUInt32 < bound then redraw get bound ((0 - bound) % bound) fuel mr r.2
  else some ((mr >>> 32).toUInt32, r.2)

/-! ## Address shuffle: src/dnspacket.c:895-927 -/

/-- Checked `memcpy` source: `n` bytes at `off`. -/
def rdN (b : Bytes) (off n : Nat) : Outcome Bytes :=
  if off + n ≤ b.length then .ok ((b.drop off).take n) else .ub

/-- Checked `memcpy` destination: overwrite at `off`. -/
def wrN (b : Bytes) (off : Nat) (c : Bytes) : Outcome Bytes :=
  if off + c.length ≤ b.length then .ok (b.take off ++ c ++ b.drop (off + c.length)) else .ub

/-- Loop body of `shuffle_addrs_rdata` (src/dnspacket.c:914-925): swap records `i` and
`j` of length `len` in the region at `start`, through the 28-byte `temp`. -/
def swapAt (start len : Nat) (b : Bytes) (i j : Nat) : Outcome Bytes :=
  if j ≠ i then
    (assert (len ≤ 28)).bind fun _ =>
    (rdN b (start + i * len) len).bind fun temp =>
    (rdN b (start + j * len) len).bind fun cj =>
    (wrN b (start + i * len) cj).bind fun b1 =>
    wrN b1 (start + j * len) temp
  else .ok b

/-- Loop of `shuffle_addrs_rdata` (src/dnspacket.c:914-926).  `js i` is the value
`gdnsd_rand32_bounded(rs, i + 1)` returns in the iteration for `i`. -/
def shufLoop (js : Nat → UInt32) (start len : Nat) : Nat → Bytes → Outcome Bytes
  | 0, b => .ok b
  | i + 1, b => (swapAt start len b (i + 1) (js (i + 1)).toNat).bind fun b' =>
      shufLoop js start len i b'

/-- `shuffle_addrs_rdata` (src/dnspacket.c:895-927) on the region of `b` at `start`. -/
def shuffle (js : Nat → UInt32) (start rrCount rrLen : Nat) (b : Bytes) : Outcome Bytes :=
  (assert (rrCount != 0)).bind fun _ =>
  (assert (rrLen == 16 || rrLen == 28)).bind fun _ =>
  (rd b start).bind fun b0 =>
  (assert (b0 &&& 0xC0 != 0 || b0 == 0)).bind fun _ =>
  shufLoop js start (if b0 = 0 then rrLen - 1 else rrLen) (rrCount - 1) b

/-- The calls of `gdnsd_rand32_bounded` the shuffle makes (src/dnspacket.c:915), hoisted
out of the loop: they do not depend on the buffer. -/
def drawSeq {σ : Type} (get : σ → UInt32 × σ) (fuel : Nat) :
    Nat → σ → Option ((Nat → UInt32) × σ)
  | 0, s => some (fun _ => 0, s)
  | i + 1, s =>
    match bounded get fuel s (UInt32.ofNat (i + 2)) with
    | none => none
    | some (j, s1) =>
      match drawSeq get fuel i s1 with
      | none => none
      | some (js, s2) => some (fun k => if k = i + 1 then j else js k, s2)

/-- `shuffle_addrs_rdata` with its random state (src/dnspacket.c:895-927); `none` when
the generator was still redrawing after `fuel` redraws. -/
def shuffleGen {σ : Type} (get : σ → UInt32 × σ) (fuel : Nat) (s : σ)
    (start rrCount rrLen : Nat) (b : Bytes) : Option (Outcome Bytes × σ) :=
  match drawSeq get fuel (rrCount - 1) s with
  | none => none
  | some (js, s') => some (shuffle js start rrCount rrLen b, s')

end Gdnsd.Rand

namespace Gdnsd.Ttl

/-! ## TTL rules -/

/-- `htonl`/`ntohl` on a little-endian host: reverse the four bytes. -/
def bswap (x : UInt32) : UInt32 :=
  UInt32.ofNat ((x.toNat % 256) * 16777216 + (x.toNat / 256 % 256) * 65536 +
    (x.toNat / 65536 % 256) * 256 + x.toNat / 16777216)

/-- The options the TTL rules read (src/conf.c:58-65). -/
structure Cfg where
  maxTtl : UInt32
  minTtl : UInt32
  maxNcache : UInt32
  acmeDnsTtl : UInt32
deriving Repr, DecidableEq

/-- What src/conf.c:287-297 accepts; anything else is fatal at startup. -/
def Cfg.accepted (g : Cfg) : Bool :=
  g.minTtl ≤ 86400 && 3600 ≤ g.maxTtl && g.maxTtl ≤ 268435455 && !(g.maxTtl < g.minTtl) &&
  10 ≤ g.maxNcache && g.maxNcache ≤ 86400 && !(g.maxNcache < g.minTtl) && g.acmeDnsTtl ≤ 3600

/-- `clamp_ttl` (src/ltree.c:237-249), warnings omitted. -/
def clampTtl (g : Cfg) (ttl : UInt32) : UInt32 :=
  if ttl > g.maxTtl then g.maxTtl else if ttl < g.minTtl then g.minTtl else ttl

/-- The TTL pair of a DYNA (src/ltree.c:345-361) or DYNC (src/ltree.c:410-425) record:
stored maximum, in network order, and stored minimum, in host order. -/
def dynTtls (g : Cfg) (ttl ttlMin : UInt32) : UInt32 × UInt32 :=
  let ttl := clampTtl g ttl
  let m := if ttlMin < g.minTtl then g.minTtl else ttlMin
  let m := if m > ttl then ttl else m
  (bswap ttl, m)

/-- TTL of a TXT record (src/ltree.c:580-588). -/
def txtTtl (g : Cfg) (isAcme : Bool) (ttl : UInt32) : UInt32 :=
  if isAcme then (if ttl ≠ g.acmeDnsTtl then g.acmeDnsTtl else ttl) else clampTtl g ttl

/-- Negative-cache field and TTL of a SOA record (src/ltree.c:598-615). -/
def soaTtls (g : Cfg) (ttl ncache : UInt32) : UInt32 × UInt32 :=
  let n := if ncache > g.maxNcache then g.maxNcache
           else if ncache < g.minTtl then g.minTtl else ncache
  let t := if ttl > n then n else if ttl < g.minTtl then g.minTtl else ttl
  (t, n)

/-- TTL of an rrset after its records are added in order (src/ltree.c:264-273 for A,
300-308 for AAAA, INSERT_NEXT_RR 459-477 for the rest): the first record sets it and
later ones leave it alone.  Stored in network order. -/
def rrsetTtl (rule : UInt32 → UInt32) : Option UInt32 → List UInt32 → Option UInt32
  | acc, [] => acc
  | none, t :: ts => rrsetTtl rule (some (bswap (rule t))) ts
  | some a, _ :: ts => rrsetTtl rule (some a) ts

/-- TTL arithmetic of `do_dyn_callback` (src/dnspacket.c:1076-1083): `sttl` is what the
plugin returned, `maxNet` the stored maximum (network order).  Result in network order.
The assertion is `assert_valid_sttl` (src/plugins/mon.h:48). -/
def dynCallbackTtl (sttl maxNet ttlMin : UInt32) : Outcome UInt32 :=
  (assert (sttl &&& Mon.RESERVED == 0)).bind fun _ =>
  let ttl := sttl &&& Mon.TTLMASK
  if ttl > bswap maxNet then .ok maxNet
  else if ttl < ttlMin then .ok (bswap ttlMin)
  else .ok (bswap ttl)

/-- Scope arithmetic of `do_dyn_callback` (src/dnspacket.c:1074-1075). -/
def dynCallbackScope (dr client : Nat) : Nat := if dr > client then dr else client

/-- `gdnsd_put_una32` of a network-order value on a little-endian host: its four bytes,
lowest first. -/
def put32 (v : UInt32) : Bytes :=
  [UInt8.ofNat (v.toNat % 256), UInt8.ofNat (v.toNat / 256 % 256),
   UInt8.ofNat (v.toNat / 65536 % 256), UInt8.ofNat (v.toNat / 16777216)]

end Gdnsd.Ttl
