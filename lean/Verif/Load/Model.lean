import Verif.Lookup.Model
/-
Model of zone loading: the record-adding functions, the post-processing of a zone and the
merging of zones in src/ltree.c, and the file and thread handling of src/zsrc_rfc1035.c.

The text scanner is not part of this file: a zone file is the list of the records it adds, or
a failure. A loading function returns `none` when it rejects the zone (the C functions return
`true` after logging); a failed zone is thrown away, so what it had changed does not matter.
Trees are the ones of Verif/Tree/Model.lean.
-/
namespace Gdnsd.Load
open Enc Tree

/-- The settings in use (`gcfg`, src/conf.h) and `dyna_max_response` (src/ltree.c:50).
`resource` stands for the plugins: given a `plugin!resource` text and the origin, the
resource, or `none` where the code rejects it (no such plugin, plugin without resolver,
`map_res` below 0: src/ltree.c:365-386, 426-444). A resource number here stands for the pair
of `func` and `resource`. -/
structure Cfg where
  ttls : Ttl.Cfg
  strict : Bool
  ecs : Bool
  cookies : Bool
  nsidLen : Nat
  dynaMax : Nat
  resource : Bytes → Option Bytes → Option Nat

/-! ### Rejecting -/

/-- Continue unless rejected. -/
def andThen {α β : Type} (x : Outcome (Option α)) (f : α → Outcome (Option β)) : Outcome (Option β) :=
  x.bind fun r =>
  match r with
  | none => .ok none
  | some a => f a

/-- `log_zfatal` under a condition (src/ltree.c:59-63). -/
def fatal (c : Bool) : Outcome (Option Unit) := .ok (bif c then none else some ())

/-- `log_zwarn` under a condition (src/ltree.c:65-73). -/
def warn (cfg : Cfg) (c : Bool) : Outcome (Option Unit) := fatal (cfg.strict && c)

/-! ### Records -/

/-- The arguments of the `ltree_add_rec_*` functions (src/ltree.h:320-440) besides owner and
TTL. `a`/`aaaa` say whether the owner is out of zone. -/
inductive Rdata where
  | a (addr : Bytes) (ooz : Bool)
  | aaaa (addr : Bytes) (ooz : Bool)
  | dyna (rhs : Bytes) (ttlMin : UInt32)
  | cname (rhs : Bytes)
  | dync (rhs : Bytes) (ttlMin : UInt32)
  | ptr (rhs : Bytes)
  | ns (rhs : Bytes)
  | mx (pref : UInt32) (rhs : Bytes)
  | srv (priority weight port : UInt32) (rhs : Bytes)
  | naptr (order pref : UInt32) (text rhs : Bytes)
  | txt (text : Bytes)
  | soa (mname rname : Bytes) (serial refresh retry expire ncache : UInt32)
  | raw (type : UInt32) (rd : Bytes)
deriving DecidableEq, Repr

/-- One call of an adding function: the owner (without the zone's name, except for
out-of-zone addresses), the TTL and the data. -/
structure Add where
  dname : Bytes
  ttl : UInt32
  data : Rdata
deriving DecidableEq, Repr

/-- `gen.count` (src/ltree.h:149-154); SOA and DYNC leave it 0. -/
def count : Body → Nat
  | .a l => l.length
  | .aaaa l => l.length
  | .dynA _ _ => 0
  | .dynAAAA _ _ => 0
  | .soa _ _ _ => 0
  | .cname _ => 1
  | .dync _ _ => 0
  | .ns l => l.length
  | .ptr l => l.length
  | .mx l => l.length
  | .srv l => l.length
  | .naptr l => l.length
  | .txt l => l.length
  | .raw _ l => l.length

/-- Appending to the array of an rrset. `none`: the rrset is not of the kind its type says,
so the code would use its memory for something else. -/
def append : Body → Body → Option Body
  | .a l, .a m => some (.a (l ++ m))
  | .aaaa l, .aaaa m => some (.aaaa (l ++ m))
  | .ns l, .ns m => some (.ns (l ++ m))
  | .ptr l, .ptr m => some (.ptr (l ++ m))
  | .mx l, .mx m => some (.mx (l ++ m))
  | .srv l, .srv m => some (.srv (l ++ m))
  | .naptr l, .naptr m => some (.naptr (l ++ m))
  | .txt l, .txt m => some (.txt (l ++ m))
  | .raw t l, .raw u m => if t = u then some (.raw t (l ++ m)) else none
  | _, _ => none

/-- Whether an address set is a DYNA. -/
def isDyn : Body → Bool
  | .dynA _ _ => true
  | .dynAAAA _ _ => true
  | _ => false

/-- Replace the first rrset of a type. -/
def setType : List RRset → Nat → RRset → List RRset
  | [], _, _ => []
  | r :: l, t, x => bif r.type == t then x :: l else r :: setType l t x

/-- Adding one record to the sets of a node: `INSERT_NEXT_RR` (src/ltree.c:455-475) and the
same steps for addresses (src/ltree.c:263-291, 311-329) and RFC 3597 records
(src/ltree.c:692-713). The set is looked for under the type `key`. The growing of arrays is
left out. The counter has 16 bits and is compared with 65535, which is the same as what is
written here for the values it can have; exceeding it would make it 0 (src/ltree.h:150). -/
def insertRR (cfg : Cfg) (rrs : List RRset) (key : Nat) (ttl : UInt32) (b : Body) : Outcome (Option (List RRset)) :=
  match getType rrs key with
  | none => .ok (some (rrs ++ [⟨Ttl.bswap ttl, b⟩]))
  | some old =>
    andThen (fatal (isDyn old.body)) fun _ =>
    andThen (warn cfg (decide (Ttl.bswap old.ttl ≠ ttl))) fun _ =>
    andThen (fatal (decide (65535 ≤ count old.body))) fun _ =>
    match append old.body b with
    | none => .ub
    | some b' => if 65535 < count b' then .ub else .ok (some (setType rrs key ⟨old.ttl, b'⟩))

/-- The warnings about `ttl_min` of DYNA and DYNC (src/ltree.c:349-356, 408-415); the values
are those of `Ttl.dynTtls`. -/
def warnMin (cfg : Cfg) (ttl ttlMin : UInt32) : Outcome (Option Unit) :=
  andThen (warn cfg (decide (ttlMin < cfg.ttls.minTtl))) fun _ =>
  warn cfg (decide (Ttl.clampTtl cfg.ttls ttl < (bif decide (ttlMin < cfg.ttls.minTtl) then cfg.ttls.minTtl else ttlMin)))

/-- The label of the node that holds out-of-zone glue (src/ltree.c:55, used at 255, 305). -/
def oozLabel : Bytes := []

/-- The way to the node of a record, from the zone root down: `ltree_find_or_add_dname`
(src/ltree.c:174-191), or the out-of-zone variant (src/ltree.c:255-256), whose second label is
a whole name. -/
def pathOf (d : Bytes) (ooz : Bool) : Outcome (List Bytes) :=
  bif ooz then .ok [oozLabel, d.drop 1] else (lstack d).bind fun ls => .ok ls.reverse

/-- Walk down with `ltree_node_find_or_add_child` (src/ltree.c:127-166) and change the last
node. -/
def updAt (f : Node → Outcome (Option Node)) : List Bytes → Node → Outcome (Option Node)
  | [], n => f n
  | l :: r, n =>
    andThen (updAt f r ((n.find l).getD .empty)) fun c =>
    .ok (some (.mk n.zcut n.rrs (setKid n.kids l c)))

/-- What `ltree_add_rec_dynaddr` does at the node (src/ltree.c:337-386). -/
def addDyna (cfg : Cfg) (ttl ttlMin : UInt32) (rhs : Bytes) (rrs : List RRset) : Outcome (Option (List RRset)) :=
  andThen (fatal ((getType rrs 1).isSome || (getType rrs 28).isSome)) fun _ =>
  andThen (warnMin cfg ttl ttlMin) fun _ =>
  andThen (fatal (decide (256 < rhs.length + 1))) fun _ =>
  match cfg.resource rhs none with
  | none => .ok none
  | some res => .ok (some (rrs ++ [⟨(Ttl.dynTtls cfg.ttls ttl ttlMin).1, .dynA res (Ttl.dynTtls cfg.ttls ttl ttlMin).2⟩,
      ⟨(Ttl.dynTtls cfg.ttls ttl ttlMin).1, .dynAAAA res (Ttl.dynTtls cfg.ttls ttl ttlMin).2⟩]))

/-- What `ltree_add_rec_cname` does (src/ltree.c:389-403). -/
def addCname (cfg : Cfg) (ttl : UInt32) (rhs : Bytes) (rrs : List RRset) : Outcome (Option (List RRset)) :=
  andThen (fatal (!rrs.isEmpty)) fun _ => .ok (some [⟨Ttl.bswap (Ttl.clampTtl cfg.ttls ttl), .cname rhs⟩])

/-- What `ltree_add_rec_dync` does (src/ltree.c:405-446); `origin` is the zone's name. -/
def addDync (cfg : Cfg) (origin : Bytes) (ttl ttlMin : UInt32) (rhs : Bytes) (rrs : List RRset) : Outcome (Option (List RRset)) :=
  andThen (warnMin cfg ttl ttlMin) fun _ =>
  andThen (fatal (!rrs.isEmpty)) fun _ =>
  andThen (fatal (decide (256 < rhs.length + 1))) fun _ =>
  match cfg.resource rhs (some origin) with
  | none => .ok none
  | some res => .ok (some [⟨(Ttl.dynTtls cfg.ttls ttl ttlMin).1, .dync res (Ttl.dynTtls cfg.ttls ttl ttlMin).2⟩])

/-- What `ltree_add_rec_ns` does to the sets of the node reached by `path`
(src/ltree.c:489-513). -/
def addNs (cfg : Cfg) (path : List Bytes) (ttl : UInt32) (rhs : Bytes) (rrs : List RRset) : Outcome (Option (List RRset)) :=
  andThen (fatal (decide (path.getLast? = some wild))) fun _ =>
  andThen (insertRR cfg rrs 2 (Ttl.clampTtl cfg.ttls ttl) (.ns [⟨rhs, none, none⟩])) fun rrs' =>
  andThen (fatal (match getType rrs' 2 with | some r => decide (64 < count r.body) | none => false)) fun _ =>
  .ok (some rrs')

/-- What `ltree_add_rec_txt` does (src/ltree.c:568-596). -/
def addTxt (cfg : Cfg) (dname : Bytes) (ttl : UInt32) (text : Bytes) (rrs : List RRset) : Outcome (Option (List RRset)) :=
  (Lookup.isAcme dname).bind fun acme =>
  andThen (warn cfg (acme && decide (ttl ≠ cfg.ttls.acmeDnsTtl))) fun _ =>
  insertRR cfg rrs 16 (Ttl.txtTtl cfg.ttls acme ttl) (.txt [text])

/-- The warnings of `ltree_add_rec_soa_args` (src/ltree.c:598-618); the values are those of
`Ttl.soaTtls`. -/
def warnSoa (cfg : Cfg) (ttl ncache : UInt32) : Outcome (Option Unit) :=
  andThen (warn cfg (decide (cfg.ttls.maxNcache < ncache) || decide (ncache < cfg.ttls.minTtl))) fun _ =>
  warn cfg (decide ((Ttl.soaTtls cfg.ttls ttl ncache).2 < ttl) || decide (ttl < cfg.ttls.minTtl))

/-- A 32-bit value in network order. -/
def be32 (x : UInt32) : Bytes := Ttl.put32 (Ttl.bswap x)

/-- What `ltree_add_rec_soa_args` does (src/ltree.c:598-641). -/
def addSoa (cfg : Cfg) (ttl : UInt32) (mname rname : Bytes) (serial refresh retry expire ncache : UInt32) (rrs : List RRset) :
    Outcome (Option (List RRset)) :=
  andThen (warnSoa cfg ttl ncache) fun _ =>
  andThen (fatal (getType rrs 6).isSome) fun _ =>
  .ok (some (rrs ++ [⟨Ttl.bswap (Ttl.soaTtls cfg.ttls ttl ncache).1,
    .soa mname rname (be32 serial ++ be32 refresh ++ be32 retry ++ be32 expire ++ be32 (Ttl.soaTtls cfg.ttls ttl ncache).2)⟩]))

/-- The types that RFC 3597 syntax may not be used for (src/ltree.c:675-692). -/
def noGeneric (t : Nat) : Bool :=
  [1, 28, 6, 5, 2, 12, 15, 33, 35, 16, 13, 0xFF0F, 0].contains t || (decide (127 < t) && decide (t < 256))

/-- What `ltree_add_rec_rfc3597` does (src/ltree.c:664-718). The type is compared in full but
stored in 16 bits, and so is the length of the data (src/ltree.h:143, 151). -/
def addRaw (cfg : Cfg) (ttl : UInt32) (t : UInt32) (rd : Bytes) (rrs : List RRset) : Outcome (Option (List RRset)) :=
  andThen (fatal (noGeneric t.toNat)) fun _ =>
  insertRR cfg rrs t.toNat (Ttl.clampTtl cfg.ttls ttl) (.raw (t.toNat % 65536) [rd.take (rd.length % 65536)])

/-- A 16-bit value in network order. -/
def be16 (x : UInt32) : Bytes := Enc.put16 x.toNat

/-- Out-of-zone addresses. -/
def isOoz : Rdata → Bool
  | .a _ o => o
  | .aaaa _ o => o
  | _ => false

/-- What is checked before the node is looked for (src/ltree.c:254, 304, 517-518, 532-537,
550-553). -/
def before (cfg : Cfg) (d : Rdata) : Outcome (Option Unit) :=
  match d with
  | .a _ ooz => warn cfg ooz
  | .aaaa _ ooz => warn cfg ooz
  | .mx pref _ => fatal (decide (65535 < pref.toNat))
  | .srv pr w po _ => fatal (decide (65535 < pr.toNat) || decide (65535 < w.toNat) || decide (65535 < po.toNat))
  | .naptr o pr _ _ => fatal (decide (65535 < o.toNat) || decide (65535 < pr.toNat))
  | _ => .ok (some ())

/-- What is done to the record sets of the node that `path` leads to. -/
def atNode (cfg : Cfg) (origin : Bytes) (r : Add) (path : List Bytes) (rrs : List RRset) : Outcome (Option (List RRset)) :=
  let ttl := Ttl.clampTtl cfg.ttls r.ttl
  match r.data with
  | .a addr _ => insertRR cfg rrs 1 ttl (.a [addr])
  | .aaaa addr _ => insertRR cfg rrs 28 ttl (.aaaa [addr])
  | .dyna rhs m => addDyna cfg r.ttl m rhs rrs
  | .cname rhs => addCname cfg r.ttl rhs rrs
  | .dync rhs m => addDync cfg origin r.ttl m rhs rrs
  | .ptr rhs => insertRR cfg rrs 12 ttl (.ptr [rhs])
  | .ns rhs => addNs cfg path r.ttl rhs rrs
  | .mx pref rhs => insertRR cfg rrs 15 ttl (.mx [(be16 pref, rhs)])
  | .srv pr w po rhs => insertRR cfg rrs 33 ttl (.srv [(be16 pr ++ be16 w ++ be16 po, rhs)])
  | .naptr o pr text rhs => insertRR cfg rrs 35 ttl (.naptr [(be16 o ++ be16 pr, text, rhs)])
  | .txt text => addTxt cfg r.dname r.ttl text rrs
  | .soa mn rn s rf rt ex nc => (assert path.isEmpty).bind fun _ => addSoa cfg r.ttl mn rn s rf rt ex nc rrs
  | .raw t rd => addRaw cfg r.ttl t rd rrs

/-- NS records below the zone root set the zone-cut flag (src/ltree.c:495-496). -/
def marksCut (d : Rdata) (path : List Bytes) : Bool :=
  match d with
  | .ns _ => !path.isEmpty
  | _ => false

/-- What is checked afterwards (src/ltree.c:484-485). -/
def after (cfg : Cfg) (origin : Bytes) (d : Rdata) : Outcome (Option Unit) :=
  match d with
  | .ptr rhs => (Dname.isInZone origin rhs).bind fun inz => warn cfg inz
  | _ => .ok (some ())

/-- The node after adding a record. -/
def nodeOp (cfg : Cfg) (origin : Bytes) (r : Add) (path : List Bytes) (n : Node) : Outcome (Option Node) :=
  andThen (atNode cfg origin r path n.rrs) fun rrs => .ok (some (.mk (n.zcut || marksCut r.data path) rrs n.kids))

/-- The `ltree_add_rec_*` functions (src/ltree.c:251-718). -/
def addRec (cfg : Cfg) (z : Zone) (r : Add) : Outcome (Option Zone) :=
  andThen (before cfg r.data) fun _ =>
  (pathOf r.dname (isOoz r.data)).bind fun p =>
  andThen (updAt (nodeOp cfg z.dname r p) p z.root) fun n =>
  andThen (after cfg z.dname r.data) fun _ => .ok (some { z with root := n })

/-- Adding the records of a file one after the other. -/
def addAll (cfg : Cfg) : Zone → List Add → Outcome (Option Zone)
  | z, [] => .ok (some z)
  | z, r :: l => andThen (addRec cfg z r) fun z' => addAll cfg z' l

/-! ### Post-processing -/

/-- The glue of an address set: the pointer becomes a copy, since no record is added after
this. A set of another kind posing as addresses is undefined behaviour. -/
def glueOf : Option RRset → Outcome (Option Glue)
  | none => .ok none
  | some ⟨t, .a l⟩ => .ok (some ⟨t, l⟩)
  | some ⟨t, .aaaa l⟩ => .ok (some ⟨t, l⟩)
  | some ⟨t, .dynA _ _⟩ => .ok (some ⟨t, []⟩)
  | some ⟨t, .dynAAAA _ _⟩ => .ok (some ⟨t, []⟩)
  | some _ => .ub

/-- Whether an address set is there and is a DYNA (`!gen.count`). -/
def noCount : Option RRset → Bool
  | none => false
  | some r => decide (count r.body = 0)

/-- `p1_proc_ns` (src/ltree.c:790-846): the glue of a nameserver. -/
def procNs (z : Zone) (d : Bytes) : Outcome (Option (Option Glue × Option Glue)) :=
  (searchZone z d none).bind fun s =>
  if s.2.1 = .auth then .ok (some (none, none))
  else
    (assert (decide (s.2.1 ≠ .noauth) || s.1.isNone)).bind fun _ =>
    let target := bif decide (s.2.1 = .noauth) then (z.root.find oozLabel).bind fun o => o.find (d.drop 1) else s.1
    let a := target.bind fun n => getType n.rrs 1
    let aaaa := target.bind fun n => getType n.rrs 28
    andThen (fatal (decide (s.2.1 ≠ .noauth) && (a.isNone && aaaa.isNone))) fun _ =>
    andThen (fatal (decide (s.2.1 ≠ .noauth) && (noCount a || noCount aaaa))) fun _ =>
    (glueOf a).bind fun g4 => (glueOf aaaa).bind fun g6 => .ok (some (g4, g6))

/-- Glue for every nameserver of a set (src/ltree.c:1147-1150). -/
def procNsList (z : Zone) : List NsRd → Outcome (Option (List NsRd))
  | [] => .ok (some [])
  | x :: l =>
    andThen (procNs z x.dname) fun g => andThen (procNsList z l) fun r => .ok (some (⟨x.dname, g.1, g.2⟩ :: r))

/-- Glue for a record set. -/
def procSet (z : Zone) (r : RRset) : Outcome (Option RRset) :=
  match r.body with
  | .ns l => andThen (procNsList z l) fun l' => .ok (some ⟨r.ttl, .ns l'⟩)
  | _ => .ok (some r)

/-- The length byte of a stored name (`*dname`); stored names are never empty. -/
def len (d : Bytes) : Nat := (d.headD 0).toNat

/-- The addresses of a glue set times the record size. -/
def glueBytes (n : Nat) : Option Glue → Nat
  | none => 0
  | some g => g.addrs.length * (12 + n)

/-- The types that have rdata of their own in memory. -/
def hasLayout (t : Nat) : Bool := [1, 28, 6, 5, 2, 12, 15, 33, 35, 16, 0xFF0F].contains t

/-- `p1_rrset_size` (src/ltree.c:880-970). RFC 3597 data stored under a type that has a layout
of its own is read as that type: undefined behaviour. -/
def setSize (cfg : Cfg) (inDeleg : Bool) (r : RRset) : Outcome Nat :=
  match r.body with
  | .soa m n _ => .ok (12 + len m + len n + 20)
  | .cname _ => .ub
  | .dync _ _ => .ok (12 + 255)
  | .a l => .ok (bif inDeleg then 0 else l.length * (12 + 4))
  | .aaaa l => .ok (bif inDeleg then 0 else l.length * (12 + 16))
  | .dynA _ _ => .ok cfg.dynaMax
  | .dynAAAA _ _ => .ok cfg.dynaMax
  | .ns l => .ok (l.map fun x => 12 + len x.dname + glueBytes 4 x.glue4 + glueBytes 16 x.glue6).sum
  | .ptr l => .ok (l.map fun d => 12 + len d).sum
  | .mx l => .ok (l.map fun x => 12 + 2 + len x.2).sum
  | .srv l => .ok (l.map fun x => 12 + 2 + 2 + 2 + len x.2).sum
  | .naptr l => .ok (l.map fun x => 12 + 2 + 2 + x.2.1.length + len x.2.2).sum
  | .txt l => .ok (l.map fun b => 12 + b.length).sum
  | .raw t l =>
    bif hasLayout t then .ub else .ok (l.map fun b => 12 + b.length).sum

/-- `check_valid_addr` (src/ltree.c:771-782). -/
def validAddr (z : Zone) (d : Bytes) : Outcome Bool :=
  (searchZone z d none).bind fun s =>
  .ok (!(decide (s.2.1 = .auth) &&
    (match s.1 with | none => true | some n => (getType n.rrs 1).isNone && (getType n.rrs 28).isNone)))

/-- All of a list of names have addresses, as far as this zone knows. -/
def checkAddrs (cfg : Cfg) (z : Zone) : List Bytes → Outcome (Option Unit)
  | [] => .ok (some ())
  | d :: l => (validAddr z d).bind fun v => andThen (warn cfg (!v)) fun _ => checkAddrs cfg z l

/-- `p1_check_mx_srv` (src/ltree.c:1103-1121). -/
def checkMxSrv (cfg : Cfg) (z : Zone) (r : RRset) : Outcome (Option Unit) :=
  match r.body with
  | .mx l => checkAddrs cfg z (l.map Prod.snd)
  | .srv l => checkAddrs cfg z (l.map Prod.snd)
  | _ => .ok (some ())

/-- `p1_check_deleg` (src/ltree.c:972-992). `name` is the node's name below the zone. -/
def checkDeleg (n : Node) (name : List Bytes) (inDeleg atDeleg : Bool) : Outcome (Option Unit) :=
  bif inDeleg then
    (assert (!name.isEmpty)).bind fun _ =>
    andThen (fatal (decide (name.head? = some wild))) fun _ =>
    fatal (!n.rrs.all fun r => r.type == 1 || r.type == 28 || (r.type == 2 && atDeleg))
  else .ok (some ())

/-- `p1_rsize_base` (src/ltree.c:994-1030). The node of the zone root carries the first label
of the zone's name. -/
def baseSize (cfg : Cfg) (z : Zone) (name : List Bytes) (atDeleg : Bool) : Nat :=
  let isWild := match name with
    | l :: _ => decide (l = wild)
    | [] => decide ((z.dname.drop 1).take 2 = [1, 42])
  12 + 4 + 11 + 6 + (bif cfg.ecs then 24 else 0) + (bif decide (cfg.nsidLen ≠ 0) then 4 + cfg.nsidLen else 0) +
    (bif cfg.cookies then 20 else 0) +
    (bif atDeleg || isWild then 255 else len z.dname + (name.map fun l => 1 + l.length).sum)

/-- The CNAME at a node, if that is its first rrset. -/
def cnameAt : Option Node → Option Bytes
  | none => none
  | some n =>
    match n.rrs with
    | ⟨_, .cname d⟩ :: _ => some d
    | _ => none

/-- The loop of `p1_chase_cname` (src/ltree.c:1063-1075); the fuel is how many more CNAMEs
are allowed. -/
def chaseLoop (z : Zone) : Nat → Option Node × Auth × Option Node → Nat → Outcome (Option ((Option Node × Auth × Option Node) × Nat))
  | fuel, s, size =>
    match cnameAt s.1 with
    | none => .ok (some (s, size))
    | some d =>
      if s.2.1 = .auth then
        match fuel with
        | 0 => .ok none
        | k + 1 => (searchZone z d s.2.2).bind fun s' => chaseLoop z k s' (size + (12 + len d))
      else .ok (some (s, size))

/-- `p1_chase_cname` (src/ltree.c:1048-1101): the rrsets at the end of the chain, the size of
the CNAMEs, and the size to start the maximum with. -/
def chaseCname (cfg : Cfg) (z : Zone) (d : Bytes) : Outcome (Option (List RRset × Nat × Nat)) :=
  (searchZone z d none).bind fun s =>
  andThen (warn cfg (decide (s.2.1 = .auth) && (match s.1 with | none => true | some n => n.rrs.isEmpty))) fun _ =>
  andThen (chaseLoop z 15 s (12 + len d)) fun r =>
  match r.1.2.1 with
  | .auth =>
    match getType z.root.rrs 6 with
    | some ⟨_, .soa m n _⟩ => .ok (some ((match r.1.1 with | some n => n.rrs | none => []), r.2, 12 + len m + len n + 20))
    | _ => .ub
  | .deleg =>
    match r.1.2.2 with
    | some cut => (assert (!cut.rrs.isEmpty)).bind fun _ => .ok (some (cut.rrs, r.2, 0))
    | none => .ub
  | .noauth => .ok (some ([], r.2, 0))

/-- The loop over the rrsets at the end of `ltree_postproc_phase1` (src/ltree.c:1145-1167):
the largest size. -/
def sizeLoop (cfg : Cfg) (z : Zone) (via inDeleg : Bool) : List RRset → Nat → Outcome (Option Nat)
  | [], m => .ok (some m)
  | r :: l, m =>
    andThen (procSet z r) fun r' =>
    andThen (bif via then .ok (some ()) else checkMxSrv cfg z r) fun _ =>
    (setSize cfg inDeleg r').bind fun s => sizeLoop cfg z via inDeleg l (max m s)

/-- `p1_check_cname` (src/ltree.c:1032-1045). -/
def checkCname : List RRset → Outcome (Option Unit)
  | r :: _ :: _ => fatal (r.type == 5 || r.type == 0xFF0F)
  | _ => .ok (some ())

/-- `ltree_postproc_phase1` (src/ltree.c:1123-1175). -/
def phase1 (cfg : Cfg) (z : Zone) (n : Node) (name : List Bytes) (inDeleg : Bool) : Outcome (Option Unit) :=
  let atDeleg := n.zcut && !name.isEmpty
  andThen (checkDeleg n name inDeleg atDeleg) fun _ =>
  andThen (checkCname n.rrs) fun _ =>
  andThen (match cnameAt (some n) with
    | some d => andThen (chaseCname cfg z d) fun c => andThen (sizeLoop cfg z true inDeleg c.1 c.2.2) fun m => .ok (some (c.2.1 + m))
    | none => sizeLoop cfg z false inDeleg n.rrs 0) fun m =>
  fatal (decide (16376 < baseSize cfg z name atDeleg + m))

/-- The names of all nameservers below a node: the nodes that these lead to get the glue-used
flag (src/ltree.c:843). -/
def nsNames (rrs : List RRset) : List Bytes :=
  rrs.flatMap fun r => match r.body with | .ns l => l.map NsRd.dname | _ => []

mutual
def allNs : Node → List Bytes
  | .mk _ rrs kids => nsNames rrs ++ kidsNs kids
def kidsNs : List (Bytes × Node) → List Bytes
  | [] => []
  | (_, c) :: r => allNs c ++ kidsNs r
end

/-- The wire form of a name below a zone. -/
def wireOf (z : Zone) (name : List Bytes) : Bytes :=
  (name.flatMap fun l => UInt8.ofNat l.length :: l) ++ z.dname.drop 1

/-- `ltree_postproc_phase2` (src/ltree.c:1177-1185). -/
def phase2 (cfg : Cfg) (z : Zone) (n : Node) (name : List Bytes) (inDeleg : Bool) : Outcome (Option Unit) :=
  warn cfg (inDeleg && ((getType n.rrs 1).isSome || (getType n.rrs 28).isSome) &&
    !((allNs z.root).any fun d => d.drop 1 == wireOf z name))

mutual
/-- `ltree_proc_inner` (src/ltree.c:1187-1217). The children are visited in the order of the
list instead of the hash table. The label stack has room for 127 labels. -/
def procInner (fn : Node → List Bytes → Bool → Outcome (Option Unit)) : Node → List Bytes → Bool → Outcome (Option Unit)
  | .mk zc rrs kids, name, inDeleg =>
    let cut := zc && !name.isEmpty
    andThen (fatal (cut && inDeleg)) fun _ =>
    andThen (fn (.mk zc rrs kids) name (inDeleg || cut)) fun _ =>
    procKids fn kids name (inDeleg || cut)
def procKids (fn : Node → List Bytes → Bool → Outcome (Option Unit)) : List (Bytes × Node) → List Bytes → Bool → Outcome (Option Unit)
  | [], _, _ => .ok (some ())
  | (l, c) :: r, name, inDeleg =>
    (assert (decide (name.length < 127))).bind fun _ =>
    andThen (procInner fn c (l :: name) inDeleg) fun _ => procKids fn r name inDeleg
end

/-- Whether one of a list of names is a given one: the loop of src/ltree.c:1267-1272. -/
def anySame (m : Bytes) : List NsRd → Outcome Bool
  | [] => .ok false
  | x :: l => (Dname.cmp m x.dname).bind fun c => if c = 0 then .ok true else anySame m l

/-- `ltree_postproc_zroot_phase1` (src/ltree.c:1232-1279) without the serial. The code keeps
the last SOA and NS sets it sees, and there is only one of each. -/
def zrootPhase1 (cfg : Cfg) (z : Zone) : Outcome (Option Unit) :=
  match getType z.root.rrs 6, getType z.root.rrs 2 with
  | some ⟨_, .soa m _ _⟩, some ⟨_, .ns l⟩ =>
    (assert (!l.isEmpty)).bind fun _ =>
    andThen (warn cfg (decide (l.length < 2))) fun _ =>
    (anySame m l).bind fun same => warn cfg (!same)
  | some ⟨_, .soa _ _ _⟩, some _ => .ub
  | some _, some _ => .ub
  | _, _ => .ok none

/-- The assertions of `ltree_postproc_zroot_phase2` about one node of out-of-zone glue
(src/ltree.c:1294-1305). -/
def oozNodeOk (rrs : List RRset) : Bool :=
  match rrs with
  | [r] => r.type == 1 || r.type == 28
  | [r, s] => (r.type == 1 || r.type == 28) && (s.type == 1 || s.type == 28) && !(r.type == s.type)
  | _ => false

/-- The loop of `ltree_postproc_zroot_phase2` (src/ltree.c:1289-1311). -/
def oozLoop (cfg : Cfg) (z : Zone) : List (Bytes × Node) → Outcome (Option Unit)
  | [] => .ok (some ())
  | (l, n) :: r =>
    (assert (oozNodeOk n.rrs)).bind fun _ =>
    andThen (warn cfg (!((allNs z.root).any fun d => d.drop 1 == l))) fun _ => oozLoop cfg z r

/-- `ltree_postproc_zroot_phase2` (src/ltree.c:1281-1315). -/
def zrootPhase2 (cfg : Cfg) (z : Zone) : Outcome (Option Unit) :=
  match z.root.find oozLabel with
  | none => .ok (some ())
  | some o => (assert (!o.kids.isEmpty)).bind fun _ => oozLoop cfg z o.kids

/-- What phase 1 leaves in the NS sets of a node: their glue. -/
def withGlue (z : Zone) (r : RRset) : RRset :=
  match procSet z r with
  | .ok (some r') => r'
  | _ => r

mutual
/-- What phase 1 leaves in the tree. -/
def attach (z : Zone) : Node → Node
  | .mk zc rrs kids => .mk zc (rrs.map (withGlue z)) (attachKids z kids)
def attachKids (z : Zone) : List (Bytes × Node) → List (Bytes × Node)
  | [] => []
  | (l, c) :: r => (l, attach z c) :: attachKids z r
end

/-- `ltree_postproc_zone` (src/ltree.c:1317-1347): the zone with its glue. -/
def postproc (cfg : Cfg) (z : Zone) : Outcome (Option Zone) :=
  andThen (zrootPhase1 cfg z) fun _ =>
  andThen (procInner (phase1 cfg z) z.root [] false) fun _ =>
  andThen (zrootPhase2 cfg z) fun _ =>
  andThen (procInner (phase2 cfg z) z.root [] false) fun _ =>
  .ok (some { z with root := attach z z.root })

/-! ### Zones -/

/-- `ltree_new_zone` (src/ltree.c:1470-1500). -/
def newZone (text : Bytes) : Outcome (Option Zone) :=
  (Dname.fromString text text.length).bind fun r =>
  if r.1 = .invalid then .ok none
  else
    (Dname.isWild r.2).bind fun w =>
    bif w then .ok none
    else
      (if r.1 = .partialName then Dname.terminate r.2 else .ok r.2).bind fun d =>
      .ok (some ⟨d, .mk true [] []⟩)

/-- `make_zone_name` (src/zsrc_rfc1035.c:45-71). File names have no zero bytes. -/
def zoneName (fn : Bytes) : Option Bytes :=
  bif decide (1004 < fn.length) then none
  else bif decide (fn = [82, 79, 79, 84, 95, 90, 79, 78, 69]) then some [46]
  else some (fn.map fun c => bif c == 64 then 47 else c)

/-- A zone file: its name and the records it holds (`none` if it cannot be read or is not
legal zone text). -/
structure File where
  name : Bytes
  recs : Option (List Add)

/-- One turn of `zones_worker` (src/zsrc_rfc1035.c:147-160). -/
def loadFile (cfg : Cfg) (f : File) : Outcome (Option Zone) :=
  match zoneName f.name with
  | none => .ok none
  | some n =>
    andThen (newZone n) fun z =>
    match f.recs with
    | none => .ok none
    | some l => andThen (addAll cfg z l) fun z' => postproc cfg z'

/-- The loop of `ltree_merge_zone` (src/ltree.c:1500-1520); the labels come last label
first. -/
def mergeAt (new : Node) : List Bytes → Node → Outcome (Option Node)
  | [], n =>
    bif n.zcut then .ok none
    else bif !n.kids.isEmpty then .ok none
    else (assert n.rrs.isEmpty).bind fun _ => .ok (some new)
  | l :: r, n =>
    bif n.zcut then .ok none
    else
      andThen (mergeAt new r ((n.find l).getD .empty)) fun c =>
      .ok (some (.mk n.zcut n.rrs (setKid n.kids l c)))

/-- `ltree_merge_zone` (src/ltree.c:1492-1534). -/
def mergeZone (root : Node) (z : Zone) : Outcome (Option Node) :=
  (assert z.root.zcut).bind fun _ => (lstack z.dname).bind fun ls => mergeAt z.root ls.reverse root

/-- `zones_worker` (src/zsrc_rfc1035.c:143-163): stops at the first file that fails. -/
def worker (cfg : Cfg) : List File → Outcome (Option (List Zone))
  | [] => .ok (some [])
  | f :: l => andThen (loadFile cfg f) fun z => andThen (worker cfg l) fun r => .ok (some (z :: r))

/-- Merging the zones of one worker (src/zsrc_rfc1035.c:174-186). -/
def mergeAll : List Zone → Node → Outcome (Option Node)
  | [], root => .ok (some root)
  | z :: l, root => andThen (mergeZone root z) fun root' => mergeAll l root'

/-- Distributing the files over the threads (`zf_threads_add_zone`,
src/zsrc_rfc1035.c:113-127): file `j` goes to the end of list `j % threads`. -/
def lists (threads : Nat) (files : List File) : List (List File) :=
  (List.range threads).map fun i => (files.zipIdx.filter fun x => x.2 % threads == i).map Prod.fst

/-- Harvesting the workers one by one (src/zsrc_rfc1035.c:165-189, 221-223). Nothing is
merged after a failure. -/
def harvest (cfg : Cfg) : List (List File) → Node → Outcome (Option Node)
  | [], root => .ok (some root)
  | fs :: l, root =>
    andThen (worker cfg fs) fun zs => andThen (mergeAll zs root) fun root' => harvest cfg l root'

/-- `zf_threads_load_zones` (src/zsrc_rfc1035.c:198-236): as many threads as there are files,
at most `threads`. -/
def loadZones (cfg : Cfg) (threads : Nat) (files : List File) : Outcome (Option Node) :=
  (assert (decide (threads ≠ 0))).bind fun _ =>
  harvest cfg ((lists threads files).take (min files.length threads)) .empty

/-- What reading the zones directory gives: it is missing, it cannot be read (or a file in it
not examined), or these regular files are in it, hidden ones left out
(src/zsrc_rfc1035.c:246-287). -/
inductive Dir where
  | missing
  | unreadable
  | files (l : List File)

/-- `zsrc_rfc1035_load_zones` (src/zsrc_rfc1035.c:242-295): `none` is a failure. -/
def loadDir (cfg : Cfg) (threads : Nat) : Dir → Outcome (Option Node)
  | .missing => .ok (some .empty)
  | .unreadable => .ok none
  | .files l => loadZones cfg threads l

/-- `ltree_zones_reloader_thread` (src/ltree.c:1407-1452): the tree in place afterwards, and
whether the reload failed. -/
def reload (cfg : Cfg) (threads : Nat) (root : Node) (d : Dir) : Outcome (Node × Bool) :=
  (loadDir cfg threads d).bind fun r =>
  match r with
  | none => .ok (root, true)
  | some new => .ok (new, false)

/-- Reloads one after the other (src/main.c:103-196: the next one starts only when the last
one is done): the tree in place at the end. -/
def reloads (cfg : Cfg) (threads : Nat) : Node → List Dir → Outcome Node
  | root, [] => .ok root
  | root, d :: l => (reload cfg threads root d).bind fun r => reloads cfg threads r.1 l

end Gdnsd.Load
