import Verif.Mon.Model
import Verif.Dname.Model
/-
src/plugins: the result structure (plugapi.c/.h) and the resolvers simplefo.c, multifo.c,
weighted.c, static.c, null.c, reflect.c, meta_core.inc with metafo.c and geoip.c.

Not modelled: reading the configuration text (a resource is given as the structure the
configuration code builds; the checks that code makes are hypotheses, the sums it computes
are modelled), logging, and thread setup. Random draws are an oracle (`Rnd`); rand.h itself
is modelled in Verif/Rand.
-/
namespace Gdnsd.Plug
open Mon

/-- `gdnsd_anysin_t` restricted to what results keep of it (include/gdnsd/net.h:36-50). -/
inductive Addr where
  | v4 (a : UInt32)
  | v6 (a : BitVec 128)
deriving Repr, DecidableEq

/-- `addrlimit_v4`, `addrlimit_v6` (plugapi.c:55-56). -/
structure Limits where
  v4 : Nat := 12
  v6 : Nat := 12
deriving Repr, DecidableEq

/-- `gdnsd_dyn_addr_max` (plugapi.c:77-94); `none` is the fatal error. -/
def addrMax (l : Limits) (v4 v6 : Nat) : Option Limits :=
  if v4 > 360 then none
  else if v6 > 360 then none
  else some { v4 := if v4 > l.v4 then v4 else l.v4, v6 := if v6 > l.v6 then v6 else l.v6 }

/-- `dyn_result_t` (plugapi.h:141-152). The two address arrays, which share one storage
block in C with `v6_offset = 4 * addrlimit_v4`, are two lists here; the limit checks of
`addAnysin` keep them apart. `draws` exists in the model only: how many random numbers
have been drawn. -/
structure Result where
  scope : Nat := 0
  cname : Option Bytes := none
  v4 : List UInt32 := []
  v6 : List (BitVec 128) := []
  draws : Nat := 0
deriving Repr, DecidableEq

/-- `gdnsd_result_add_anysin` (plugapi.c:96-107). -/
def addAnysin (lim : Limits) (r : Result) (a : Addr) : Outcome Result :=
  if r.cname.isSome then .ub
  else match a with
    | .v6 x => if r.v6.length < lim.v6 then .ok { r with v6 := r.v6 ++ [x] } else .ub
    | .v4 x => if r.v4.length < lim.v4 then .ok { r with v4 := r.v4 ++ [x] } else .ub

/-- `gdnsd_result_add_cname` (plugapi.c:109-118). -/
def addCname (r : Result) (d : Bytes) : Outcome Result :=
  (Dname.status d).bind fun st =>
  if st = .valid ∧ r.cname = none ∧ r.v4 = [] ∧ r.v6 = [] then .ok { r with cname := some d } else .ub

/-- `gdnsd_result_wipe` (plugapi.c:120-125). -/
def wipe (r : Result) : Result := { r with cname := none, v4 := [], v6 := [] }
/-- `gdnsd_result_wipe_v4`, `gdnsd_result_wipe_v6` (plugapi.c:127-135). -/
def wipeFam (isv6 : Bool) (r : Result) : Result :=
  if isv6 then { r with v6 := [] } else { r with v4 := [] }
/-- `gdnsd_result_add_scope_mask` (plugapi.c:137-141). -/
def addScope (r : Result) (scope : Nat) : Result := if scope > r.scope then { r with scope := scope } else r
/-- `gdnsd_result_reset_scope_mask` (plugapi.c:143-146). -/
def resetScope (r : Result) : Result := { r with scope := 0 }

/-- `assert_valid_sttl` (mon.h:48). -/
def assertValid (s : UInt32) : Outcome Unit := if s &&& RESERVED = 0 then .ok () else .ub

/-- `gdnsd_uscale_ceil` (libgdnsd/misc.c:269-276). The double `s` is `m / 2^k` (every
finite non-negative double is); the product is rounded to 53 significant bits, to nearest
with ties to even, as IEEE 754 prescribes; `ceil` is exact. -/
def flMul (v m : Nat) : Nat :=
  let p := v * m
  if p < 2 ^ 53 then p
  else
    let sh := Nat.log2 p - 52
    let q := p / 2 ^ sh
    let rem := p % 2 ^ sh
    if rem > 2 ^ (sh - 1) ∨ (rem = 2 ^ (sh - 1) ∧ q % 2 = 1) then (q + 1) * 2 ^ sh else q * 2 ^ sh

/-- `gdnsd_uscale_ceil` (libgdnsd/misc.c:269-276) with its assertions. -/
def uscaleCeil (v m k : Nat) : Outcome Nat :=
  if m > 2 ^ k then .ub
  else
    let sv := (flMul v m + 2 ^ k - 1) / 2 ^ k
    if sv ≤ v then .ok sv else .ub

/-! ### simplefo -/

/-- `addrstate_t` (simplefo.c:53-57); the index lists have `num_svcs` entries. -/
structure SfSet where
  pri : Addr
  sec : Addr
  priIdx : List Nat
  secIdx : List Nat
deriving Repr, DecidableEq

/-- `resolve_addr` (simplefo.c:236-264). -/
def sfResolveAddr (lim : Limits) (tbl : List UInt32) (as : SfSet) (r : Result) :
    Outcome (UInt32 × Result) :=
  (sttlMin tbl as.priIdx).bind fun p =>
  (if p &&& DOWN ≠ 0 then
    (sttlMin tbl as.secIdx).bind fun s =>
    if s &&& DOWN ≠ 0 then .ok (as.pri, s)
    else
      let p_ttl := p &&& TTLMASK
      let out := s &&& TTLMASK
      .ok (as.sec, if p_ttl < out then p_ttl else out)
  else .ok (as.pri, p)).bind fun (which, out) =>
  (addAnysin lim r which).bind fun r =>
  (assertValid out).bind fun _ => .ok (out, r)

/-- `plugin_simplefo_resolve` (simplefo.c:266-287), and the same shape in multifo.c:401-422
and weighted.c:918-935: resolve the IPv4 set, then the IPv6 set, combine the states. -/
def bothFamilies {α : Type} (one : α → Bool → Result → Outcome (UInt32 × Result))
    (v4 v6 : Option α) (r : Result) : Outcome (UInt32 × Result) :=
  (match v4, v6 with
    | some a, none => one a false r
    | some a, some b =>
      (one a false r).bind fun (rv, r) => (one b true r).bind fun (rv6, r) => .ok (min2 rv rv6, r)
    | none, some b => one b true r
    | none, none => .ub).bind fun (rv, r) =>
  (assertValid rv).bind fun _ => .ok (rv, r)

/-- `plugin_simplefo_resolve` (simplefo.c:266-287). -/
def sfResolve (lim : Limits) (tbl : List UInt32) (v4 v6 : Option SfSet) (r : Result) :
    Outcome (UInt32 × Result) := bothFamilies (fun as _ r => sfResolveAddr lim tbl as r) v4 v6 r

/-! ### multifo -/

/-- `addrstate_t` (multifo.c:37-40). -/
structure MfAddr where
  addr : Addr
  idx : List Nat
deriving Repr, DecidableEq

/-- `addrset_t` (multifo.c:42-48). -/
structure MfSet where
  as : List MfAddr
  upThresh : Nat
  ignoreHealth : Bool
deriving Repr, DecidableEq

/-- First loop of `resolve` (multifo.c:367-377): state so far, healthy count so far. -/
def mfLoop (lim : Limits) (tbl : List UInt32) (ih : Bool) :
    List MfAddr → UInt32 → Nat → Result → Outcome (UInt32 × Nat × Result)
  | [], rv, n, r => .ok (rv, n, r)
  | a :: as, rv, n, r =>
    (sttlMin tbl a.idx).bind fun s =>
    let rv := min2 rv s
    if s &&& DOWN = 0 then
      (addAnysin lim r a.addr).bind fun r => mfLoop lim tbl ih as rv (n + 1) r
    else if ih then
      (addAnysin lim r a.addr).bind fun r => mfLoop lim tbl ih as rv n r
    else mfLoop lim tbl ih as rv n r

/-- Second loop of `resolve` (multifo.c:387-388). -/
def addAll (lim : Limits) : List Addr → Result → Outcome Result
  | [], r => .ok r
  | a :: as, r => (addAnysin lim r a).bind (addAll lim as)

/-- `resolve` (multifo.c:361-399). -/
def mfResolveSet (lim : Limits) (tbl : List UInt32) (aset : MfSet) (isv6 : Bool) (r : Result) :
    Outcome (UInt32 × Result) :=
  (assert (!aset.as.isEmpty)).bind fun _ =>
  (mfLoop lim tbl aset.ignoreHealth aset.as TTLMASK 0 r).bind fun (rv, notdown, r) =>
  (if notdown < aset.upThresh then
    if aset.ignoreHealth then .ok (rv ||| DOWN, r)
    else (addAll lim (aset.as.map (·.addr)) (wipeFam isv6 r)).bind fun r => .ok (rv ||| DOWN, r)
  else .ok (rv &&& ~~~DOWN, r)).bind fun (rv, r) =>
  (assertValid rv).bind fun _ => .ok (rv, r)

/-- `plugin_multifo_resolve` (multifo.c:401-422). -/
def mfResolve (lim : Limits) (tbl : List UInt32) (v4 v6 : Option MfSet) (r : Result) :
    Outcome (UInt32 × Result) := bothFamilies (mfResolveSet lim tbl) v4 v6 r

/-! ### weighted -/

/-- Result of the `k`-th call of `gdnsd_rand32_bounded` with the given bound. -/
abbrev Rnd := Nat → UInt32 → UInt32

/-- `get_rand` (weighted.c:125-129). -/
def getRand (rnd : Rnd) (bound : UInt32) (r : Result) : Outcome (UInt32 × Result) :=
  if bound = 0 then .ub else .ok (rnd r.draws bound, { r with draws := r.draws + 1 })

/-- `addrstate_t` (weighted.c:57-61). -/
structure WAddr where
  addr : Addr
  weight : UInt32
  idx : List Nat
deriving Repr, DecidableEq

/-- `res_aitem_t` (weighted.c:64-69). -/
structure WItem where
  as : List WAddr
  weight : UInt32
  maxWeight : UInt32
deriving Repr, DecidableEq

/-- `addrset_t` (weighted.c:72-84). -/
structure WSet where
  items : List WItem
  weight : UInt32
  upWeight : UInt32
  maxWeight : UInt32
  multi : Bool
deriving Repr, DecidableEq

/-- A 32-bit sum, wrapping as in C. -/
def sumU (l : List UInt32) : UInt32 := l.foldl (· + ·) 0
/-- The running maximum used throughout weighted.c. -/
def maxU (l : List UInt32) : UInt32 := l.foldl (fun m x => if m < x then x else m) 0

/-- Sums and maxima of one group (weighted.c:274-282; 167-171 for a single address). -/
def mkItem (as : List WAddr) : WItem :=
  { as := as, weight := sumU (as.map (·.weight)), maxWeight := maxU (as.map (·.weight)) }

/-- The end of `config_addrset` (weighted.c:404-422); the threshold double is `m / 2^k`. -/
def mkSet (groups : List (List WAddr)) (multi : Bool) (m k : Nat) : Outcome WSet :=
  let items := groups.map mkItem
  (assert (items.all fun i => i.weight ≠ 0 && i.maxWeight ≠ 0)).bind fun _ =>
  let weight := sumU (items.map (·.weight))
  let maxWeight := maxU (items.map (·.weight))
  (assert (weight ≠ 0 && maxWeight ≠ 0)).bind fun _ =>
  (uscaleCeil weight.toNat m k).bind fun up =>
  (assert (up ≠ 0)).bind fun _ =>
  .ok { items := items, weight := weight, upWeight := UInt32.ofNat up, maxWeight := maxWeight, multi := multi }

/-- Inner part of the first loop of `resolve` (weighted.c:831-842): dynamic weights. -/
def dynAddrs (tbl : List UInt32) : List WAddr → UInt32 → Outcome (UInt32 × List UInt32)
  | [], rv => .ok (rv, [])
  | a :: as, rv =>
    (sttlMin tbl a.idx).bind fun s =>
    (dynAddrs tbl as (min2 rv s)).bind fun (rv, ws) =>
    .ok (rv, (if s &&& DOWN = 0 then a.weight else 0) :: ws)

/-- First loop of `resolve` (weighted.c:827-843). The per-item sum and maximum are computed
from the dynamic weights by `sumU` and `maxU`: an unhealthy address contributes 0 to both,
which is what skipping it does. -/
def dynItems (tbl : List UInt32) : List WItem → UInt32 → Outcome (UInt32 × List (List UInt32))
  | [], rv => .ok (rv, [])
  | i :: is, rv =>
    (dynAddrs tbl i.as rv).bind fun (rv, ws) =>
    (dynItems tbl is rv).bind fun (rv, wss) => .ok (rv, ws :: wss)

/-- The running-total search (weighted.c:799-805, 882-889, 895-898): the first entry whose
running total exceeds the draw. -/
def choose {α : Type} (x : UInt32) : UInt32 → List (α × UInt32) → Option α
  | _, [] => none
  | tot, (a, w) :: l => if x < tot + w then some a else choose x (tot + w) l

/-- What `resolve` knows of an item after the threshold step: addresses with dynamic
weights, their sum and maximum (`dyn_addr_weights`, `dyn_item_sums`, `dyn_item_maxs`). -/
structure DynItem where
  as : List (Addr × UInt32)
  sum : UInt32
  max : UInt32
deriving Repr, DecidableEq

/-- The `multi` branch (weighted.c:872-891). -/
def pickMulti (rnd : Rnd) (lim : Limits) (itemsMax : UInt32) : List DynItem → Result → Outcome Result
  | [], r => .ok r
  | i :: is, r =>
    (getRand rnd itemsMax r).bind fun (x, r) =>
    if x < i.sum then
      (getRand rnd i.sum r).bind fun (y, r) =>
      match choose y 0 i.as with
      | some a => (addAnysin lim r a).bind fun r => pickMulti rnd lim itemsMax is r
      | none => pickMulti rnd lim itemsMax is r
    else pickMulti rnd lim itemsMax is r

/-- The address loop of the non-`multi` branch (weighted.c:903-907). -/
def pickAddrs (rnd : Rnd) (lim : Limits) (addrMax : UInt32) : List (Addr × UInt32) → Result → Outcome Result
  | [], r => .ok r
  | (a, w) :: as, r =>
    (getRand rnd addrMax r).bind fun (x, r) =>
    if x < w then (addAnysin lim r a).bind fun r => pickAddrs rnd lim addrMax as r
    else pickAddrs rnd lim addrMax as r

/-- The non-`multi` branch (weighted.c:892-911). -/
def pickOne (rnd : Rnd) (lim : Limits) (itemsSum : UInt32) (is : List DynItem) (r : Result) : Outcome Result :=
  (getRand rnd itemsSum r).bind fun (x, r) =>
  match choose x 0 (is.map fun i => (i, i.sum)) with
  | some i => (assert (i.max ≠ 0)).bind fun _ => pickAddrs rnd lim i.max i.as r
  | none => .ok r

/-- The items as `resolve` sees them when the threshold is met (weighted.c:827-851). -/
def dynUp (items : List WItem) (wss : List (List UInt32)) : List DynItem :=
  List.zipWith (fun i ws => { as := (i.as.map (·.addr)).zip ws, sum := sumU ws, max := maxU ws }) items wss

/-- The items as `resolve` sees them when the threshold is not met (weighted.c:858-864). -/
def dynAll (items : List WItem) : List DynItem :=
  items.map fun i => { as := i.as.map fun a => (a.addr, a.weight), sum := i.weight, max := i.maxWeight }

/-- `resolve` (weighted.c:814-915). The fixed arrays hold 64 items of 64 addresses. -/
def wResolveSet (rnd : Rnd) (lim : Limits) (tbl : List UInt32) (aset : WSet) (r : Result) :
    Outcome (UInt32 × Result) :=
  if aset.items.length > 64 ∨ (aset.items.any fun i => decide (i.as.length > 64)) = true then .ub
  else
  (dynItems tbl aset.items TTLMASK).bind fun (rv, wss) =>
  let sums := wss.map sumU
  let st :=
    if sumU sums < aset.upWeight then
      (rv ||| DOWN, aset.weight, aset.maxWeight, dynAll aset.items)
    else (rv &&& ~~~DOWN, sumU sums, maxU sums, dynUp aset.items wss)
  (assert (st.2.1 ≠ 0 && st.2.2.1 ≠ 0)).bind fun _ =>
  (if aset.multi then pickMulti rnd lim st.2.2.1 st.2.2.2 r
   else pickOne rnd lim st.2.1 st.2.2.2 r).bind fun r =>
  (assertValid st.1).bind fun _ => .ok (st.1, r)

/-- `res_citem_t` (weighted.c:87-91). -/
structure WCname where
  dname : Bytes
  weight : UInt32
  idx : List Nat
deriving Repr, DecidableEq

/-- `cnset_t` (weighted.c:94-105). -/
structure WCSet where
  items : List WCname
  weight : UInt32
  upWeight : UInt32
deriving Repr, DecidableEq

/-- The end of `config_cnameset` (weighted.c:535-544). -/
def mkCSet (items : List WCname) (m k : Nat) : Outcome WCSet :=
  (assert (items.all fun i => i.weight ≠ 0)).bind fun _ =>
  let weight := sumU (items.map (·.weight))
  (assert (weight ≠ 0)).bind fun _ =>
  (uscaleCeil weight.toNat m k).bind fun up =>
  .ok { items := items, weight := weight, upWeight := UInt32.ofNat up }

/-- First loop of `resolve_cname` (weighted.c:762-773). -/
def dynCnames (tbl : List UInt32) : List WCname → UInt32 → Outcome (UInt32 × List UInt32)
  | [], rv => .ok (rv, [])
  | a :: as, rv =>
    (sttlMin tbl a.idx).bind fun s =>
    (dynCnames tbl as (min2 rv s)).bind fun (rv, ws) =>
    .ok (rv, (if s &&& DOWN ≠ 0 then 0 else a.weight) :: ws)

/-- `resolve_cname` (weighted.c:747-811). `chosen` starts as item 0. -/
def wResolveCname (rnd : Rnd) (tbl : List UInt32) (cn : WCSet) (r : Result) : Outcome (UInt32 × Result) :=
  if cn.weight = 0 ∨ cn.items.length > 64 then .ub
  else
  (dynCnames tbl cn.items TTLMASK).bind fun (rv, ws) =>
  let st :=
    if sumU ws < cn.upWeight then (rv ||| DOWN, cn.weight, cn.items.map (·.weight))
    else (rv &&& ~~~DOWN, sumU ws, ws)
  (getRand rnd st.2.1 r).bind fun (x, r) =>
  match (choose x 0 (cn.items.zip st.2.2)).or cn.items.head? with
  | some c => (addCname r c.dname).bind fun r => .ok (st.1, r)
  | none => .ub

/-- `resource_t` (weighted.c:107-112). -/
structure WRes where
  cnames : Option WCSet := none
  v4 : Option WSet := none
  v6 : Option WSet := none
deriving Repr, DecidableEq

/-- `plugin_weighted_resolve`, `resolve_addr` (weighted.c:917-954). -/
def wResolve (rnd : Rnd) (lim : Limits) (tbl : List UInt32) (res : WRes) (r : Result) :
    Outcome (UInt32 × Result) :=
  (match res.cnames with
    | some cn => wResolveCname rnd tbl cn r
    | none => bothFamilies (fun s _ r => wResolveSet rnd lim tbl s r) res.v4 res.v6 r).bind fun (rv, r) =>
  (assertValid rv).bind fun _ => .ok (rv, r)

/-! ### static, null, reflect -/

/-- `plugin_static_resolve` (static.c:119-127). -/
def staticResolve (lim : Limits) (res : Addr ⊕ Bytes) (r : Result) : Outcome (UInt32 × Result) :=
  (match res with
    | .inl a => addAnysin lim r a
    | .inr d => addCname r d).bind fun r => .ok (TTLMASK, r)

/-- `plugin_null_resolve` (null.c:45-54). -/
def nullResolve (lim : Limits) (r : Result) : Outcome (UInt32 × Result) :=
  (addAnysin lim r (.v4 0)).bind fun r => (addAnysin lim r (.v6 0)).bind fun r => .ok (TTLMASK, r)

/-- `client_info_t` (include/gdnsd/net.h:55-60). -/
structure Client where
  dnsSource : Addr
  ednsClient : Addr
  ednsMask : Nat
deriving Repr, DecidableEq

/-- `plugin_reflect_resolve` (reflect.c:71-90): 0 dns, 1 edns, 2 best, 3 both. -/
def reflectResolve (lim : Limits) (kind : Nat) (c : Client) (r : Result) : Outcome (UInt32 × Result) :=
  (assert (decide (kind < 4))).bind fun _ =>
  (if kind = 3 ∨ kind = 0 ∨ (kind = 2 ∧ c.ednsMask = 0) then
    (addAnysin lim r c.dnsSource).bind fun r => .ok (addScope r c.ednsMask)
   else .ok r).bind fun r =>
  (if c.ednsMask ≠ 0 ∧ kind ≠ 0 then
    (addAnysin lim r c.ednsClient).bind fun r => .ok (addScope r c.ednsMask)
   else if c.ednsMask = 0 ∧ kind = 1 then addAnysin lim r (.v4 0)
   else .ok r).bind fun r => .ok (TTLMASK, r)

/-! ### metafo and geoip (meta_core.inc) -/

/-- `plugin->resolve(res_num, cinfo, result)` with the first two arguments applied. -/
abbrev Resolver := Result → Outcome (UInt32 × Result)

/-- `dc_t` (meta_core.inc:48-66). `mapIdx` is present for geoip (`META_MAP_ADMIN`), absent
for metafo. -/
structure Dc where
  mapIdx : Option Nat
  dcIdx : Nat
  what : (Bytes × List Nat) ⊕ Resolver

/-- The overrides of `resolve_dc` (meta_core.inc:335-345): a forced slot replaces `rv`. -/
def override (tbl : List UInt32) (slot : Nat) (rv : UInt32) : Outcome UInt32 :=
  match tbl[slot]? with
  | some s => .ok (if s &&& FORCED ≠ 0 then s else rv)
  | none => .ub

/-- First part of `resolve_dc` (meta_core.inc:326-333). -/
def resolveInner (tbl : List UInt32) (dc : Dc) (r : Result) : Outcome (UInt32 × Result) :=
  match dc.what with
  | .inl (d, idx) => (addCname r d).bind fun r => (sttlMin tbl idx).bind fun rv => .ok (rv, r)
  | .inr f => f r

/-- The map-level override of `resolve_dc` (meta_core.inc:335-339), geoip only. -/
def mapOverride (tbl : List UInt32) (m : Option Nat) (rv : UInt32) : Outcome UInt32 :=
  match m with
  | some m => override tbl m rv
  | none => .ok rv

/-- `resolve_dc` (meta_core.inc:322-348). -/
def resolveDc (tbl : List UInt32) (dc : Dc) (r : Result) : Outcome (UInt32 × Result) :=
  (resolveInner tbl dc r).bind fun (rv, r) =>
  (mapOverride tbl dc.mapIdx rv).bind fun rv =>
  (override tbl dc.dcIdx rv).bind fun rv => .ok (rv, r)

/-- `resource_t` (meta_core.inc:82-89): entry `n` of `dcs` is datacenter number `n`, entry 0
is unused, `none` is "not defined for this resource". -/
structure MetaRes where
  dcs : List (Option Dc)
  numDcs : Nat
  numDefined : Nat
  skipFirst : Bool

/-- The filter loop (meta_core.inc:519-528): keep the datacenters this resource defines,
stop at the terminating 0. `room` is the space left in `dclist_filtered[255]`. -/
def filterList (dcs : List (Option Dc)) : Nat → Bytes → Outcome Bytes
  | _, [] => .ub
  | room, d :: ds =>
    if d = 0 then (if room = 0 then .ub else .ok [0])
    else match dcs[d.toNat]? with
      | none => .ub
      | some none => filterList dcs room ds
      | some (some _) =>
        if room = 0 then .ub else (filterList dcs (room - 1) ds).bind fun l => .ok (d :: l)

/-- Datacenter number `d` of a resource; outside the array is undefined behaviour, as is
using one that is not defined (its plugin pointer is null). -/
def getDc (dcs : List (Option Dc)) (d : UInt8) : Outcome Dc :=
  match dcs[d.toNat]? with
  | some (some dc) => .ok dc
  | _ => .ub

/-- The search loop (meta_core.inc:537-548). -/
def dcLoop (tbl : List UInt32) (res : MetaRes) : Bytes → UInt32 → Result → Outcome (UInt32 × Result)
  | [], _, _ => .ub
  | d :: ds, rv, r =>
    if d = 0 then .ok (rv, r)
    else
    (assert (decide (d.toNat ≤ res.numDcs))).bind fun _ =>
    (getDc res.dcs d).bind fun dc =>
    (resolveDc tbl dc (resetScope (wipe r))).bind fun (s, r) =>
    (assertValid s).bind fun _ =>
    if s &&& DOWN = 0 then .ok (min2 rv s &&& ~~~DOWN, r)
    else dcLoop tbl res ds (min2 rv s) r

/-- The skip_first step (meta_core.inc:530-532). -/
def skipFirst (skip : Bool) (l : Bytes) : Outcome Bytes :=
  if skip then
    (rd l 0).bind fun a =>
    if a = 0 then .ok l else (rd l 1).bind fun b => .ok (if b = 0 then l else l.drop 1)
  else .ok l

/-- `CB_RES` (meta_core.inc:496-563) after the resource number has been split: `synth` is the
datacenter index from its upper bits, `map` what `map_get_dclist` returns for this client
(list with its terminating 0, scope). -/
def metaResolve (tbl : List UInt32) (res : MetaRes) (synth : UInt8) (map : Bytes × Nat) (r : Result) :
    Outcome (UInt32 × Result) :=
  let start := if synth ≠ 0 then ([synth, 0], 0) else map
  (if res.numDcs ≠ res.numDefined then filterList res.dcs 255 start.1 else .ok start.1).bind fun l =>
  (skipFirst res.skipFirst l).bind fun l =>
  (rd l 0).bind fun first =>
  (if first = 0 then .ok (TTLMASK, r)
   else
    (dcLoop tbl res l TTLMASK r).bind fun (rv, r) =>
    if rv &&& DOWN ≠ 0 then
      (getDc res.dcs first).bind fun dc =>
      (resolveDc tbl dc (resetScope (wipe r))).bind fun (_, r) => .ok (rv, r)
    else .ok (rv, r)).bind fun (rv, r) =>
  (assertValid rv).bind fun _ => .ok (rv, addScope r start.2)

/-- The resource number split of `CB_RES` (meta_core.inc:500-502). -/
def splitRes (resnum : UInt32) : UInt8 × Nat :=
  (((resnum &&& 0xFF000000) >>> 24).toUInt8, (resnum &&& 0x00FFFFFF).toNat)

/-- `res_get_mapnum` (metafo.c:45-78): the datacenter list of a metafo resource with `n`
datacenters; the numbers are stored in bytes. -/
def metafoList (n : Nat) : Bytes := (List.range n).map (fun i => UInt8.ofNat (i + 1)) ++ [0]

/-- The result of `map_res_inner` (meta_core.inc:424-427) for resource `i` and datacenter
number `dc` (0 when the name had no slash), as the C `int` its callers see; `none` when the
assertion of line 384 fails. -/
def mapRes (i dc : Nat) : Outcome Int :=
  if dc ≥ 256 then .ub
  else
    let v := UInt32.ofNat i ||| (UInt32.ofNat dc <<< 24)
    .ok (if v.toNat < 2 ^ 31 then v.toNat else (v.toNat : Int) - 2 ^ 32)

end Gdnsd.Plug
