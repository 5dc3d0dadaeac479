/-
The configuration of resources: `plugin_multifo_load_config` (src/plugins/multifo.c) and `plugin_simplefo_load_config`
(src/plugins/simplefo.c), with the numbering of what they ask to be monitored.

The data is what Verif/Vscf reads from the file; `log_fatal` ends the program: the result `none`. `.ub` is a failed assertion
or a write outside of an array. `getaddrinfo` for a text without a port and `strtod` are parameters. Requests to monitor
(`gdnsd_mon_addr`) are those of Verif/Svc. They are made while the configuration is read; here they are read off the
resources afterwards, in the order in which they are made: this is the same, because an error in either ends the program.
Not modelled: messages, memory, numbers of elements above 2^32.
-/
import Verif.Svc.ReqModel
import Verif.Plugins.Model
import Verif.Statio.Model
import Verif.Vscf.Clone
namespace Gdnsd.Res
open Vscf Conf
open Svc (Addr Req)

/-- A `double`, as far as the configuration looks at it: not a number, infinite, or `m / 2 ^ k` with a sign. -/
inductive Dbl where
  | nan
  | inf (neg : Bool)
  | num (neg : Bool) (m k : Nat)
deriving DecidableEq, Repr

/-- What the C library makes of texts: `gdnsd_anysin_getaddrinfo` (libgdnsd/net.c) without a port, and
`vscf_simple_get_as_double` (libgdnsd/vscf.rl:1066-1082), of which the whole text is given. -/
structure Lib where
  addr : Bytes → Option Addr
  dbl : Bytes → Option Dbl

/-! ### What both have in common -/

/-- Calls of `vscf_hash_bequeath_all(…, true, false)` for some keys, with the number of keys that were there. -/
def handDown : List Bytes → List (Entry Val) → Outcome (List (Entry Val) × Nat)
  | [], es => .ok (es, 0)
  | k :: ks, es => (bequeath es k true false).bind fun p => (handDown ks p.1).map fun q => (q.1, q.2 + if p.2 = true then 1 else 0)

/-- Calls of `vscf_hash_inherit(…, false)` for some keys. -/
def inheritKeys (src : List (Entry Val)) : List Bytes → List (Entry Val) → Outcome (List (Entry Val))
  | [], dest => .ok dest
  | k :: ks, dest => (inherit src dest k false).bind fun p => inheritKeys src ks p.2

/-- Entries that are not marked, which `vscf_hash_iterate(…, true, …)` goes through. -/
def unmarked (es : List (Entry Val)) : List (Entry Val) := es.filter fun e => !e.marked

/-- Values that must all be texts. -/
def texts : List Val → Option (List Bytes)
  | [] => some []
  | .simple _ t :: vs => (texts vs).map (cstr t :: ·)
  | _ :: _ => none

/-- The names in `service_types` (src/plugins/multifo.c:161-180, src/plugins/simplefo.c:84-102). -/
def svcNames : Option Val → Option (List Bytes)
  | none => some [str "up"]
  | some v => texts (Svc.items v)

/-! ### multifo -/

/-- The parameters (src/plugins/multifo.c:100-102, 287-289, 328-334). -/
def params : List Bytes := [str "up_thresh", str "service_types", str "ignore_health"]

/-- `addrset_t` (src/plugins/multifo.c:44-55), with the names of the service types instead of indices. -/
structure ASet where
  as : List Addr
  svcs : List Bytes
  thresh : Nat
  ignore : Bool
deriving DecidableEq, Repr

/-- `res_t` (src/plugins/multifo.c:57-61). -/
structure MRes where
  name : Bytes
  v4 : Option ASet
  v6 : Option ASet
deriving DecidableEq, Repr

/-- `%u`. -/
def label (n : Nat) : Bytes := Statio.digits (n + 1) n

/-- The loop of `addrs_hash_from_array` (src/plugins/multifo.c:88-98), from index `i`. -/
def arrayHash : Nat → List Val → List (Entry Val) → Outcome (Option (List (Entry Val)))
  | _, [], es => .ok (some es)
  | i, .simple r t :: vs, es => (clone false (.simple r t)).bind fun w => arrayHash (i + 1) vs ((addEntry es (label (i + 1)) w).getD es)
  | _, _ :: _, _ => .ok none

/-- A stanza with addresses: a hash, or else `addrs_hash_from_array` (src/plugins/multifo.c:77-104). -/
def stanza (parent : List (Entry Val)) : Val → Outcome (Option (List (Entry Val)))
  | .hash es => .ok (some es)
  | v => (arrayHash 0 (Svc.items v) []).bind fun
    | none => .ok none
    | some es => (inheritKeys parent params es).map some

/-- `up_thresh <= 0.0 || up_thresh > 1.0` (src/plugins/multifo.c:187). -/
def refused : Dbl → Bool
  | .nan => false
  | .inf _ => true
  | .num neg m k => (neg || m == 0) || decide (m > 2 ^ k)

/-- `up_thresh` (src/plugins/multifo.c:182-189); the default is one half. -/
def threshOf (lib : Lib) : Option Val → Option Dbl
  | none => some (.num false 1 1)
  | some (.simple _ t) =>
    match lib.dbl t with
    | none => none
    | some d => if refused d = true then none else some d
  | some _ => none

/-- `ignore_health` (src/plugins/multifo.c:191-197). -/
def ignoreOf : Option Val → Option Bool
  | none => some false
  | some (.simple _ t) => getBool t
  | some _ => none

/-- `gdnsd_uscale_ceil` (libgdnsd/misc.c:269-276). -/
def scale (n : Nat) : Dbl → Outcome Nat
  | .num false m k => Plug.uscaleCeil n m k
  | _ => .ub

/-- `addr_setup` (src/plugins/multifo.c:115-148), without the request. -/
def addrOf (lib : Lib) (isv6 : Bool) : Val → Option Addr
  | .simple _ t =>
    match lib.addr (cstr t) with
    | none => none
    | some a => if a.v6 = isv6 then some a else none
  | _ => none

/-- The loop with `addr_setup` (src/plugins/multifo.c:214): as many addresses as were allocated. -/
def addrsLoop (lib : Lib) (isv6 : Bool) : Nat → List (Entry Val) → Outcome (Option (List Addr))
  | 0, [] => .ok (some [])
  | _ + 1, [] => .ub
  | 0, _ :: _ => .ub
  | n + 1, e :: es =>
    match addrOf lib isv6 e.val with
    | none => .ok none
    | some a => (addrsLoop lib isv6 n es).map fun o => o.map (a :: ·)

/-- How many keys are there. -/
def present (es : List (Entry Val)) (ks : List Bytes) : Nat := (ks.filter fun k => (find es k).isSome).length

/-- Marks for several keys. -/
def marks (es : List (Entry Val)) (ks : List Bytes) : List (Entry Val) := ks.foldl setMark es

/-- `config_addrs` (src/plugins/multifo.c:150-228) for a hash. -/
def configAddrs (lib : Lib) (isv6 : Bool) (es : List (Entry Val)) : Outcome (Option ASet) :=
  match svcNames (find es (str "service_types")), threshOf lib (find es (str "up_thresh")), ignoreOf (find es (str "ignore_health")) with
  | some svcs, some d, some ig =>
    let num := es.length - present es params
    if num = 0 then .ok none
    else
      (scale num d).bind fun th =>
      (addrsLoop lib isv6 num (unmarked (marks es params))).map fun o => o.map fun as => ⟨as, svcs, th, ig⟩
  | _, _, _ => .ok none

/-- `config_addrs` for something else. -/
def configStanza (lib : Lib) (isv6 : Bool) (parent : List (Entry Val)) (v : Val) : Outcome (Option ASet) :=
  (stanza parent v).bind fun
  | none => .ok none
  | some es => configAddrs lib isv6 es

/-- `config_auto` (src/plugins/multifo.c:230-271). -/
def configAuto (lib : Lib) (name : Bytes) (parent : List (Entry Val)) (v : Val) : Outcome (Option MRes) :=
  (stanza parent v).bind fun
  | none => .ok none
  | some es =>
    (clone true (.hash (marks es params))).bind fun
    | .hash (f :: _) =>
      match f.val with
      | .simple _ t =>
        match lib.addr (cstr t) with
        | none => .ok none
        | some a => (configAddrs lib a.v6 (marks es params)).map fun o => o.map fun s => if a.v6 = true then ⟨name, none, some s⟩ else ⟨name, some s, none⟩
      | _ => .ok none
    | .hash [] => .ok none
    | _ => .ub

/-- One of the stanzas `addrs_v4` and `addrs_v6` (src/plugins/multifo.c:294-302). -/
def optStanza (lib : Lib) (isv6 : Bool) (parent : List (Entry Val)) : Option Val → Outcome (Option (Option ASet))
  | none => .ok (some none)
  | some v => (configStanza lib isv6 parent v).map fun o => o.map some

/-- `config_res` (src/plugins/multifo.c:273-313). -/
def configRes (lib : Lib) (config : List (Entry Val)) (e : Entry Val) : Outcome (Option MRes) :=
  match e.val with
  | .hash opts =>
    (handDown params opts).bind fun p =>
    let v4 := find p.1 (str "addrs_v4")
    let v6 := find p.1 (str "addrs_v6")
    if v4 = none ∧ v6 = none then configAuto lib (cstr e.key) config (.hash p.1)
    else
      (optStanza lib false p.1 v4).bind fun
      | none => .ok none
      | some s4 =>
        (optStanza lib true p.1 v6).map fun
        | none => none
        | some s6 => if (unmarked (marks p.1 [str "addrs_v4", str "addrs_v6"])).isEmpty = true then some ⟨cstr e.key, s4, s6⟩ else none
  | v => configAuto lib (cstr e.key) config v

/-- The loop over the resources (src/plugins/multifo.c:337-339, src/plugins/simplefo.c:206-208): as many as were
allocated. -/
def resLoop {α : Type} (one : Entry Val → Outcome (Option α)) : Nat → List (Entry Val) → Outcome (Option (List α))
  | _, [] => .ok (some [])
  | 0, _ :: _ => .ub
  | n + 1, e :: es =>
    (one e).bind fun
    | none => .ok none
    | some r => (resLoop one n es).map fun o => o.map (r :: ·)

/-- The most addresses of a set (src/plugins/multifo.c:221-227). -/
def most (f : MRes → Option ASet) (rs : List MRes) : Nat := rs.foldl (fun m r => match f r with | some s => if s.as.length > m then s.as.length else m | none => m) 0

/-- `plugin_multifo_load_config` (src/plugins/multifo.c:319-342). -/
def multifoLoad (lib : Lib) (lim : Plug.Limits) : Option Val → Outcome (Option (List MRes × Plug.Limits))
  | none => .ok none
  | some (.hash es) =>
    (handDown params es).bind fun p =>
    let num := es.length - p.2
    if num = 0 then .ok (some ([], lim))
    else
      (resLoop (configRes lib p.1) num (unmarked p.1)).map fun
      | none => none
      | some rs => (Plug.addrMax lim (most (·.v4) rs) (most (·.v6) rs)).map fun lim' => (rs, lim')
  | some _ => .ub

/-! ### simplefo -/

/-- `addrstate_t` (src/plugins/simplefo.c:53-57), with the names of the service types instead of indices. -/
structure PSet where
  pri : Addr
  sec : Addr
  svcs : List Bytes
deriving DecidableEq, Repr

/-- `res_t` (src/plugins/simplefo.c:59-63). -/
structure SRes where
  name : Bytes
  v4 : Option PSet
  v6 : Option PSet
deriving DecidableEq, Repr

/-- One of the addresses (src/plugins/simplefo.c:109-121); `fam`: the family that it must have. -/
def whichAddr (lib : Lib) (fam : Option Bool) : Option Val → Option Addr
  | some (.simple _ t) =>
    match lib.addr (cstr t) with
    | none => none
    | some a => if fam = some (!a.v6) then none else some a
  | _ => none

/-- `config_addrs` (src/plugins/simplefo.c:81-141), without the family `A_AUTO` and the last loop. -/
def pairOf (lib : Lib) (fam : Option Bool) (es : List (Entry Val)) : Option PSet :=
  match svcNames (find es (str "service_types")), whichAddr lib fam (find es (str "primary")), whichAddr lib fam (find es (str "secondary")) with
  | some svcs, some a, some b => some ⟨a, b, svcs⟩
  | _, _, _ => none

/-- A stanza `addrs_v4` or `addrs_v6` (src/plugins/simplefo.c:168-181, 138). -/
def optPair (lib : Lib) (fam : Bool) : Option Val → Option (Option PSet)
  | none => some none
  | some (.hash es) =>
    match pairOf lib (some fam) es with
    | none => none
    | some s => if (unmarked (marks es [str "service_types", str "primary", str "secondary"])).isEmpty = true then some (some s) else none
  | some _ => none

/-- `config_res` (src/plugins/simplefo.c:143-186). -/
def simplefoRes (lib : Lib) (e : Entry Val) : Outcome (Option SRes) :=
  match e.val with
  | .hash opts =>
    (handDown [str "service_types"] opts).map fun p =>
    let v4 := find p.1 (str "addrs_v4")
    let v6 := find p.1 (str "addrs_v6")
    if v4 = none ∧ v6 = none then
      match pairOf lib none p.1 with
      | none => none
      | some s =>
        if s.pri.v6 ≠ s.sec.v6 then none
        else if (unmarked (marks p.1 [str "primary", str "secondary"])).isEmpty = true then
          some (if s.pri.v6 = true then ⟨cstr e.key, none, some s⟩ else ⟨cstr e.key, some s, none⟩)
        else none
    else
      match optPair lib false v4, optPair lib true v6 with
      | some s4, some s6 => if (unmarked (marks p.1 [str "addrs_v4", str "addrs_v6"])).isEmpty = true then some ⟨cstr e.key, s4, s6⟩ else none
      | _, _ => none
  | _ => .ok none

/-- `plugin_simplefo_load_config` (src/plugins/simplefo.c:192-211). -/
def simplefoLoad (lib : Lib) (lim : Plug.Limits) : Option Val → Outcome (Option (List SRes × Plug.Limits))
  | none => .ok none
  | some (.hash es) =>
    (handDown [str "service_types"] es).bind fun p =>
    let num := es.length - p.2
    if num = 0 then .ok (some ([], lim))
    else
      (resLoop (simplefoRes lib) num (unmarked p.1)).map fun
      | none => none
      | some rs => (Plug.addrMax lim 1 1).map fun lim' => (rs, lim')
  | some _ => .ub

/-! ### What is monitored -/

/-- The requests for one address (src/plugins/multifo.c:141-145, src/plugins/simplefo.c:123-127). -/
def reqsOf (svcs : List Bytes) (a : Addr) : List Req := svcs.map fun s => .service s (.addr a)

/-- The requests for a set, in their order. -/
def ASet.reqs (s : ASet) : List Req := s.as.flatMap (reqsOf s.svcs)

/-- The requests for a pair. -/
def PSet.reqs (s : PSet) : List Req := reqsOf s.svcs s.pri ++ reqsOf s.svcs s.sec

/-- The requests for a resource. -/
def MRes.reqs (r : MRes) : List Req := (r.v4.elim [] ASet.reqs) ++ (r.v6.elim [] ASet.reqs)

/-- The requests for a resource. -/
def SRes.reqs (r : SRes) : List Req := (r.v4.elim [] PSet.reqs) ++ (r.v6.elim [] PSet.reqs)

/-- An address as a result has it (`sin4.sin_addr.s_addr`, `sin6.sin6_addr.s6_addr`). -/
def toPlug (a : Addr) : Plug.Addr :=
  let n := a.bytes.foldl (fun n b => n * 256 + b.toNat) 0
  if a.v6 = true then .v6 (BitVec.ofNat 128 n) else .v4 (UInt32.ofNat n)

/-- The `indices` of addresses, from the indices that their requests got. -/
def slots (n : Nat) : List Addr → List Nat → List Plug.MfAddr
  | [], _ => []
  | a :: as, is => ⟨toPlug a, is.take n⟩ :: slots n as (is.drop n)

/-- A set, with the indices that its requests got. -/
def ASet.numbered (s : ASet) (is : List Nat) : Plug.MfSet := ⟨slots s.svcs.length s.as is, s.thresh, s.ignore⟩

/-- A pair, with the indices that its requests got. -/
def PSet.numbered (s : PSet) (is : List Nat) : Plug.SfSet :=
  ⟨toPlug s.pri, toPlug s.sec, is.take s.svcs.length, (is.drop s.svcs.length).take s.svcs.length⟩

/-- The sets of a resource, with the indices that its requests got. -/
def MRes.numbered (r : MRes) (is : List Nat) : Option Plug.MfSet × Option Plug.MfSet :=
  (r.v4.map fun s => s.numbered is, r.v6.map fun s => s.numbered (is.drop (r.v4.elim [] ASet.reqs).length))

/-- The sets of a resource, with the indices that its requests got. -/
def SRes.numbered (r : SRes) (is : List Nat) : Option Plug.SfSet × Option Plug.SfSet :=
  (r.v4.map fun s => s.numbered is, r.v6.map fun s => s.numbered (is.drop (r.v4.elim [] PSet.reqs).length))

end Gdnsd.Res
