/-
The configuration of `weighted` (src/plugins/weighted.c:145-706): groups of addresses and sets of names with weights, with the
numbering of what they ask to be monitored.

As in Verif/Res: the data is what Verif/Vscf reads from the file, `log_fatal` is the result `none`, `.ub` is a failed assertion
or an array that is not filled as it was allocated, and requests to monitor are read off the resources afterwards. Sums and
thresholds are those of `Plug.mkSet` and `Plug.mkCSet`. Not modelled: messages, memory, numbers of elements above 2^32.
-/
import Verif.Res.Model
import Verif.Vscf.Conv
import Verif.Dname.Model
namespace Gdnsd.Wt
open Vscf Conf Res
open Svc (Addr Req)

/-- The parameters (src/plugins/weighted.c:338-340, 555-557, 671-676). -/
def params : List Bytes := [str "service_types", str "multi", str "up_thresh"]

/-- `addrset_t` (src/plugins/weighted.c:72-84): groups of addresses with weights, the names of the service types, `multi` and
`up_weight`. An address without a group is a group of its own. -/
structure ASet where
  groups : List (List (Addr × UInt32))
  svcs : List Bytes
  multi : Bool
  up : UInt32
deriving DecidableEq, Repr

/-- A name as it is written, as a dname, with a weight (`res_citem_t`, src/plugins/weighted.c:87-91). -/
structure Cname where
  text : Bytes
  dname : Bytes
  weight : UInt32
deriving DecidableEq, Repr

/-- `cnset_t` (src/plugins/weighted.c:94-105). -/
structure CSet where
  names : List Cname
  svcs : List Bytes
  up : UInt32
deriving DecidableEq, Repr

/-- `resource_t` (src/plugins/weighted.c:107-112). -/
structure Resource where
  name : Bytes
  cnames : Option CSet
  v4 : Option ASet
  v6 : Option ASet
deriving DecidableEq, Repr

/-- A text with a weight (src/plugins/weighted.c:158-164, 216-222, 445-451). -/
def weighed : Val → Option (Bytes × UInt32)
  | .array [.simple _ t, .simple _ w] =>
    match getLong w with
    | none => none
    | some x => if x < 1 ∨ x > 1048575 then none else some (t, UInt32.ofNat x.toNat)
  | _ => none

/-- `config_item_addrs` (src/plugins/weighted.c:154-191) and most of `config_addr_group_addr` (:216-239), without the
requests. -/
def addrOf (lib : Lib) (isv6 : Bool) (v : Val) : Option (Addr × UInt32) :=
  match weighed v with
  | none => none
  | some (t, w) =>
    match lib.addr (cstr t) with
    | none => none
    | some a => if a.v6 = isv6 then some (a, w) else none

/-- The loop with `config_addr_group_addr` (src/plugins/weighted.c:203-250, 272). -/
def groupLoop (lib : Lib) (isv6 : Bool) : Nat → List (Entry Val) → Outcome (Option (List (Addr × UInt32)))
  | 0, [] => .ok (some [])
  | _ + 1, [] => .ub
  | 0, _ :: _ => .ub
  | n + 1, e :: es =>
    (assert (e.key.length ≠ 0)).bind fun _ =>
    match addrOf lib isv6 e.val with
    | none => .ok none
    | some a => (groupLoop lib isv6 n es).map fun o => o.map (a :: ·)

/-- `config_item_addr_groups` (src/plugins/weighted.c:246-286). -/
def groupOf (lib : Lib) (isv6 : Bool) : Val → Outcome (Option (List (Addr × UInt32)))
  | .hash es => if es.length = 0 then .ok none else if es.length > 64 then .ok none else groupLoop lib isv6 es.length (unmarked es)
  | _ => .ok none

/-- What the first item says: are there groups (src/plugins/weighted.c:309-318)? -/
def modeOf (mode : Option Bool) (v : Val) : Option Bool :=
  match mode with
  | some g => some g
  | none =>
    match v with
    | .hash _ => some true
    | .array _ => some false
    | _ => none

/-- The loop with `config_addrset_item` (src/plugins/weighted.c:296-330, 402). -/
def itemsLoop (lib : Lib) (isv6 : Bool) : Option Bool → Nat → List (Entry Val) → Outcome (Option (List (List (Addr × UInt32))))
  | _, 0, [] => .ok (some [])
  | _, _ + 1, [] => .ub
  | _, 0, _ :: _ => .ub
  | mode, n + 1, e :: es =>
    match modeOf mode e.val with
    | none => .ok none
    | some g =>
      (if g = true then groupOf lib isv6 e.val else .ok ((addrOf lib isv6 e.val).map fun a => [a])).bind fun
      | none => .ok none
      | some x => (itemsLoop lib isv6 (some g) n es).map fun o => o.map (x :: ·)

/-- Calls of `vscf_hash_inherit(…, true)` for some keys (src/plugins/weighted.c:338-340): the new parent and hash. -/
def takeOver : List Bytes → List (Entry Val) → List (Entry Val) → Outcome (List (Entry Val) × List (Entry Val))
  | [], src, dest => .ok (src, dest)
  | k :: ks, src, dest => (inherit src dest k true).bind fun p => takeOver ks p.1 p.2

/-- `multi` (src/plugins/weighted.c:368-374). -/
def multiOf : Option Val → Option Bool
  | none => some false
  | some (.simple _ t) => getBool t
  | some _ => none

/-- The end of `config_addrset` (src/plugins/weighted.c:404-422). -/
def finish (groups : List (List (Addr × UInt32))) (svcs : List Bytes) (multi : Bool) : Dbl → Outcome ASet
  | .num false m k => (Plug.mkSet (groups.map fun g => g.map fun p => ⟨toPlug p.1, p.2, []⟩) multi m k).map fun w => ⟨groups, svcs, multi, w.upWeight⟩
  | _ => .ub

/-- `config_addrset` behind the inheritance (src/plugins/weighted.c:342-423). -/
def setOf (lib : Lib) (isv6 : Bool) (es : List (Entry Val)) : Outcome (Option ASet) :=
  match svcNames (find es (str "service_types")), multiOf (find es (str "multi")), threshOf lib (find es (str "up_thresh")) with
  | some svcs, some multi, some d =>
    let num := es.length - present es params
    if num > 64 then .ok none
    else if num = 0 then .ok none
    else
      (itemsLoop lib isv6 none num (unmarked (marks es params))).bind fun
      | none => .ok none
      | some gs => (finish gs svcs multi d).map some
  | _, _, _ => .ok none

/-- `config_addrset` (src/plugins/weighted.c:329-423): the parent with its new marks, and the set. -/
def configAddrset (lib : Lib) (isv6 : Bool) (parent : List (Entry Val)) : Val → Outcome (Option (List (Entry Val) × ASet))
  | .hash es => (takeOver params parent es).bind fun p => (setOf lib isv6 p.2).map fun o => o.map fun s => (p.1, s)
  | _ => .ok none

/-- The first of two texts, as it is written. -/
def rawOf : Val → Bytes
  | .array (.simple r _ :: _) => r
  | _ => []

/-- `config_item_cname` (src/plugins/weighted.c:432-471), without the requests. `vscf_simple_get_as_dname` (libgdnsd/vscf.rl:1109-1113)
takes the text as it is written. -/
def cnameOf (v : Val) : Outcome (Option Cname) :=
  match weighed v with
  | none => .ok none
  | some (t, w) => (Dname.fromString (rawOf v) (rawOf v).length).map fun r => if r.1 = .valid then some ⟨cstr t, r.2, w⟩ else none

/-- The loop with `config_item_cname` (src/plugins/weighted.c:533). -/
def cnamesLoop : Nat → List (Entry Val) → Outcome (Option (List Cname))
  | 0, [] => .ok (some [])
  | _ + 1, [] => .ub
  | 0, _ :: _ => .ub
  | n + 1, e :: es =>
    (cnameOf e.val).bind fun
    | none => .ok none
    | some c => (cnamesLoop n es).map fun o => o.map (c :: ·)

/-- The end of `config_cnameset` (src/plugins/weighted.c:535-545). -/
def finishC (names : List Cname) (svcs : List Bytes) : Dbl → Outcome CSet
  | .num false m k => (Plug.mkCSet (names.map fun c => ⟨c.dname, c.weight, []⟩) m k).map fun w => ⟨names, svcs, w.upWeight⟩
  | _ => .ub

/-- `config_cnameset` (src/plugins/weighted.c:474-545) for a hash: `multi` is not looked at. -/
def configCnameset (lib : Lib) (es : List (Entry Val)) : Outcome (Option CSet) :=
  match svcNames (find es (str "service_types")), threshOf lib (find es (str "up_thresh")) with
  | some svcs, some d =>
    let num := es.length - present es params
    if num > 64 then .ok none
    else if num = 0 then .ok none
    else
      (cnamesLoop num (unmarked (marks es params))).bind fun
      | none => .ok none
      | some cs => (finishC cs svcs d).map some
  | _, _ => .ok none

/-- The addresses of one family, directly in a resource (src/plugins/weighted.c:581-589, 600-607). -/
def directSet (lib : Lib) (name : Bytes) (config es : List (Entry Val)) (a : Addr) : Outcome (Option Resource) :=
  (configAddrset lib a.v6 config (.hash es)).map fun o => o.map fun p => if a.v6 = true then ⟨name, none, none, some p.2⟩ else ⟨name, none, some p.2, none⟩

/-- `config_auto` (src/plugins/weighted.c:547-614). -/
def configAuto (lib : Lib) (name : Bytes) (config es : List (Entry Val)) : Outcome (Option Resource) :=
  let es := marks es params
  (clone true (.hash es)).bind fun
  | .hash (f :: _) =>
    match f.val with
    | .hash (g :: _) =>
      match g.val with
      | .array (.simple _ t :: _) =>
        match lib.addr (cstr t) with
        | none => .ok none
        | some a => directSet lib name config es a
      | _ => .ok none
    | .array (.simple _ t :: _) =>
      match lib.addr (cstr t) with
      | none => (configCnameset lib es).map fun o => o.map fun s => ⟨name, some s, none, none⟩
      | some a => directSet lib name config es a
    | _ => .ok none
  | .hash [] => .ok none
  | _ => .ub

/-- One of the stanzas `addrs_v4` and `addrs_v6` (src/plugins/weighted.c:650-658): the resource's hash with its new marks, and
the set. -/
def optStanza (lib : Lib) (isv6 : Bool) (parent : List (Entry Val)) : Option Val → Outcome (Option (List (Entry Val) × Option ASet))
  | none => .ok (some (parent, none))
  | some v => (configAddrset lib isv6 parent v).map fun o => o.map fun p => (p.1, some p.2)

/-- `config_res` (src/plugins/weighted.c:624-670). -/
def configRes (lib : Lib) (config : List (Entry Val)) (e : Entry Val) : Outcome (Option Resource) :=
  match e.val with
  | .hash opts =>
    let o := marks opts [str "addrs_v4", str "addrs_v6", str "cnames"]
    if find opts (str "cnames") ≠ none then .ok none
    else
      (optStanza lib false o (find opts (str "addrs_v4"))).bind fun
      | none => .ok none
      | some p =>
        (optStanza lib true p.1 (find opts (str "addrs_v6"))).bind fun
        | none => .ok none
        | some q =>
          if find opts (str "addrs_v4") = none ∧ find opts (str "addrs_v6") = none then configAuto lib (cstr e.key) config q.1
          else if (unmarked q.1).isEmpty = true then .ok (some ⟨cstr e.key, none, p.2, q.2⟩) else .ok none
  | _ => .ok none

/-- How many addresses an answer may have (src/plugins/weighted.c:692-694, 701-703; `max_addrs_pergroup`, :413-414). -/
def ASet.size (s : ASet) : Nat := if s.multi = true then s.groups.length else s.groups.foldl (fun m g => if m < g.length then g.length else m) 0

/-- The maximum for a family (src/plugins/weighted.c:685-705). -/
def most (f : Resource → Option ASet) (rs : List Resource) : Nat :=
  rs.foldl (fun m r => match f r with | some s => if s.size > m then s.size else m | none => m) 0

/-- `plugin_weighted_load_config` (src/plugins/weighted.c:664-706). -/
def load (lib : Lib) (lim : Plug.Limits) : Option Val → Outcome (Option (List Resource × Plug.Limits))
  | some (.hash es) =>
    (handDown params es).bind fun p =>
    let num := es.length - p.2
    (if num = 0 then .ok (some []) else resLoop (configRes lib p.1) num (unmarked p.1)).map fun
    | none => none
    | some rs => (Plug.addrMax lim (most (·.v4) rs) (most (·.v6) rs)).map fun lim' => (rs, lim')
  | _ => .ub

/-! ### What is monitored -/

/-- The requests for a set, in their order (src/plugins/weighted.c:186-190, 241-245). -/
def ASet.reqs (s : ASet) : List Req := s.groups.flatMap fun g => g.flatMap fun p => reqsOf s.svcs p.1

/-- The requests for names (src/plugins/weighted.c:463-467). -/
def CSet.reqs (s : CSet) : List Req := s.names.flatMap fun c => s.svcs.map fun svc => .service svc (.cname c.text c.dname)

/-- The requests for a resource. -/
def Resource.reqs (r : Resource) : List Req := r.cnames.elim [] CSet.reqs ++ (r.v4.elim [] ASet.reqs ++ r.v6.elim [] ASet.reqs)

/-- The `indices` of a group, from the indices that its requests got. -/
def slots (n : Nat) : List (Addr × UInt32) → List Nat → List Plug.WAddr
  | [], _ => []
  | p :: ps, is => ⟨toPlug p.1, p.2, is.take n⟩ :: slots n ps (is.drop n)

/-- The `indices` of groups. -/
def groupSlots (n : Nat) : List (List (Addr × UInt32)) → List Nat → List (List Plug.WAddr)
  | [], _ => []
  | g :: gs, is => slots n g is :: groupSlots n gs (is.drop (n * g.length))

/-- The `indices` of names. -/
def nameSlots (n : Nat) : List Cname → List Nat → List Plug.WCname
  | [], _ => []
  | c :: cs, is => ⟨c.dname, c.weight, is.take n⟩ :: nameSlots n cs (is.drop n)

/-- A set, with the indices that its requests got. -/
def ASet.numbered (s : ASet) (is : List Nat) : Plug.WSet :=
  let items := (groupSlots s.svcs.length s.groups is).map Plug.mkItem
  ⟨items, Plug.sumU (items.map (·.weight)), s.up, Plug.maxU (items.map (·.weight)), s.multi⟩

/-- Names, with the indices that their requests got. -/
def CSet.numbered (s : CSet) (is : List Nat) : Plug.WCSet :=
  let items := nameSlots s.svcs.length s.names is
  ⟨items, Plug.sumU (items.map (·.weight)), s.up⟩

/-- A resource, with the indices that its requests got. -/
def Resource.numbered (r : Resource) (is : List Nat) : Plug.WRes :=
  let is4 := is.drop (r.cnames.elim [] CSet.reqs).length
  let is6 := is4.drop (r.v4.elim [] ASet.reqs).length
  ⟨r.cnames.map fun s => s.numbered is, r.v4.map fun s => s.numbered is4, r.v6.map fun s => s.numbered is6⟩

end Gdnsd.Wt
