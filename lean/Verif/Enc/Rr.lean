import Verif.Enc.Comp
import Verif.Enc.Data
import Verif.Rand.Model
/-
Model of the record encoders: src/dnspacket.c:930-1410 and 1565-1580.

The state is the part of `txn_t` the encoders touch. `out` is the packet up to the current
`offset`. Writes past the end of the buffer are not represented here: the properties bound
`out.length`. Statistics are left out.
-/
namespace Gdnsd.Enc

/-- What stays fixed while one query is answered. -/
structure Env where
  /-- `txn.lqname`: the query name, lower-cased, in internal form -/
  lq : Bytes
  /-- the random draws the `k`-th shuffle makes (see Verif/Rand) -/
  draws : Nat → Nat → UInt32
  /-- the plugin callbacks of DYNA and DYNC resources for this client -/
  resolve : Nat → DynRes
  /-- `experimental_no_chain` (src/conf.c) -/
  noChain : Bool
  /-- the stored 54-byte bodies of the ACME challenges for a name, in table order -/
  chals : Bytes → List Bytes
  /-- `txn.this_max_response` -/
  thisMax : Nat

/-- The mutable part of `txn_t` (src/dnspacket.c:114-166). -/
structure St where
  out : Bytes
  ts : List CT := []
  an : Nat := 0
  ns : Nat := 0
  ar : Nat := 0
  /-- `cname_ancount` -/
  cn : Nat := 0
  /-- `qname_comp` -/
  qc : Nat := 12
  /-- `auth_comp` -/
  ac : Nat := 0
  qtype : Nat
  scope : Nat := 0
  aa : Bool := false
  rcode : Nat := 0
  /-- number of shuffles so far -/
  k : Nat := 0

/-- `DNS_RRFIXED_x` (src/dnswire.h:143-156): type and class IN. -/
def fixed (t : Nat) : Bytes := put16 t ++ put16 1

/-- The owner name, type, class and TTL that start every record. -/
def rrHead (out : Bytes) (nameptr t : Nat) (ttl : UInt32) : Outcome Bytes :=
  (repeatName out nameptr).bind fun nm => .ok (nm ++ fixed t ++ Ttl.put32 ttl)

/-- The loop of the four address encoders (src/dnspacket.c:949-959, 983-993, 1014-1024,
1047-1057). -/
def encAddrs (nameptr t alen : Nat) (ttl : UInt32) : List Bytes → Bytes → Outcome Bytes
  | [], out => .ok out
  | a :: as, out =>
    (rrHead out nameptr t ttl).bind fun h =>
    encAddrs nameptr t alen ttl as (out ++ h ++ put16 alen ++ a)

/-- `enc_a_static`, `enc_aaaa_static`, `enc_a_dynamic`, `enc_aaaa_dynamic`
(src/dnspacket.c:930-1062): they differ in type, address length and where the addresses
come from. -/
def encAddrSet (env : Env) (st : St) (t alen : Nat) (ttl : UInt32) (addrs : List Bytes)
    (nameptr : Nat) (addtl : Bool) : Outcome St :=
  (assert (addrs.length != 0)).bind fun _ =>
  (encAddrs nameptr t alen ttl addrs st.out).bind fun out =>
  (Rand.shuffle (env.draws st.k) st.out.length addrs.length (12 + alen) out).bind fun out =>
  .ok { st with
    out := out, k := st.k + 1,
    an := bif addtl then st.an else st.an + addrs.length,
    ar := bif addtl then st.ar + addrs.length else st.ar }

/-- `do_dyn_callback` (src/dnspacket.c:1068-1084): the TTL to use and the raised scope. -/
def dynCallback (env : Env) (st : St) (res : Nat) (ttl ttlMin : UInt32) : Outcome (UInt32 × St) :=
  (Ttl.dynCallbackTtl (env.resolve res).sttl ttl ttlMin).bind fun t =>
  .ok (t, { st with scope := Ttl.dynCallbackScope (env.resolve res).scope st.scope })

/-- The dynamic half of `encode_rrs_a` and `encode_rrs_aaaa` (src/dnspacket.c:1095-1098,
1113-1116). -/
def encDyn (env : Env) (st : St) (t alen : Nat) (pick : DynRes → List Bytes) (res : Nat)
    (ttl ttlMin : UInt32) : Outcome St :=
  (dynCallback env st res ttl ttlMin).bind fun x =>
  (assert (env.resolve res).cname.isNone).bind fun _ =>
  if (pick (env.resolve res)).length != 0 then
    encAddrSet env x.2 t alen x.1 (pick (env.resolve res)) st.qc false
  else .ok x.2

/-- The first loop of `encode_rrs_ns` (src/dnspacket.c:1141-1151); collects
`glue_name_offset`. -/
def encNsLoop (env : Env) (ttl : UInt32) : List NsRd → St → Outcome (List Nat × St)
  | [], st => .ok ([], st)
  | r :: rs, st =>
    (rrHead st.out st.ac 2 ttl).bind fun h =>
    (storeComp (st.out ++ h) env.lq st.ts r.dname ((st.out ++ h).length + 2) true).bind fun b =>
    (encNsLoop env ttl rs { st with out := st.out ++ h ++ put16 b.1.length ++ b.1, ts := b.2 }).bind fun x =>
    .ok (((st.out ++ h).length + 2) :: x.1, x.2)

/-- One optional glue set (src/dnspacket.c:1154-1163). -/
def encGlue (env : Env) (st : St) (t alen : Nat) (g : Option Glue) (nameptr : Nat) : Outcome St :=
  match g with
  | none => .ok st
  | some g => encAddrSet env st t alen g.ttl g.addrs nameptr true

/-- The second loop of `encode_rrs_ns` (src/dnspacket.c:1153-1164). -/
def encNsGlue (env : Env) : List NsRd → List Nat → St → Outcome St
  | r :: rs, o :: os, st =>
    (encGlue env st 1 4 r.glue4 o).bind fun st =>
    (encGlue env st 28 16 r.glue6 o).bind fun st =>
    encNsGlue env rs os st
  | _, _, st => .ok st

/-- `encode_rrs_ns` (src/dnspacket.c:1127-1166). -/
def encNs (env : Env) (st : St) (ttl : UInt32) (l : List NsRd) : Outcome St :=
  (assert (l.length != 0)).bind fun _ =>
  (assert (decide (l.length ≤ 64))).bind fun _ =>
  (encNsLoop env ttl l { st with an := st.an + l.length }).bind fun x =>
  encNsGlue env l x.1 x.2

/-- `encode_rrs_mx` (src/dnspacket.c:1193-1217). -/
def encMx (env : Env) (ttl : UInt32) : List (Bytes × Bytes) → St → Outcome St
  | [], st => .ok st
  | r :: rs, st =>
    (rrHead st.out st.qc 15 ttl).bind fun h =>
    (storeComp (st.out ++ h) env.lq st.ts r.2 ((st.out ++ h).length + 2 + 2) true).bind fun b =>
    encMx env ttl rs { st with
      out := st.out ++ h ++ put16 (b.1.length + 2) ++ r.1 ++ b.1, ts := b.2, an := st.an + 1 }

/-- `encode_rrs_ptr`, `encode_rrs_srv`, `encode_rrs_naptr` (src/dnspacket.c:1169-1190,
1220-1280):
fixed bytes, then an uncompressed name. -/
def encPlain (t : Nat) (ttl : UInt32) : List (Bytes × Bytes) → St → Outcome St
  | [], st => .ok st
  | r :: rs, st =>
    (rrHead st.out st.qc t ttl).bind fun h =>
    (storeNocomp r.2).bind fun b =>
    encPlain t ttl rs { st with
      out := st.out ++ h ++ put16 (r.1.length + b.length) ++ r.1 ++ b, an := st.an + 1 }

/-- `encode_rrs_txt` and `encode_rrs_rfc3597` (src/dnspacket.c:1283-1306, 1380-1410). -/
def encRaw (t : Nat) (ttl : UInt32) : List Bytes → St → Outcome St
  | [], st => .ok st
  | r :: rs, st =>
    (rrHead st.out st.qc t ttl).bind fun h =>
    encRaw t ttl rs { st with out := st.out ++ h ++ put16 r.length ++ r, an := st.an + 1 }

/-- `encode_rr_cname_common` (src/dnspacket.c:1309-1337). -/
def encCname (env : Env) (st : St) (ttl : UInt32) (d : Bytes) (chain : Bool) : Outcome St :=
  (rrHead st.out st.qc 5 ttl).bind fun h =>
  (storeComp (st.out ++ h) env.lq st.ts d ((st.out ++ h).length + 2) false).bind fun b =>
  .ok { st with
    out := st.out ++ h ++ put16 b.1.length ++ b.1, ts := b.2,
    qc := bif chain then (st.out ++ h).length + 2 else st.qc,
    cn := bif chain then st.cn + 1 else st.cn,
    an := bif chain then st.an else st.an + 1 }

/-- `encode_rr_soa` (src/dnspacket.c:1352-1378). The two bytes of the length hole are taken
as zero while the second name is stored; nothing reads them. -/
def encSoa (env : Env) (st : St) (ttl : UInt32) (mname rname times : Bytes) : Outcome St :=
  (rrHead st.out st.ac 6 ttl).bind fun h =>
  (storeComp (st.out ++ h) env.lq st.ts mname ((st.out ++ h).length + 2) true).bind fun b =>
  (storeComp (st.out ++ h ++ [0, 0] ++ b.1) env.lq b.2 rname ((st.out ++ h).length + 2 + b.1.length)
    false).bind fun c =>
  .ok { st with
    out := st.out ++ h ++ put16 (b.1.length + c.1.length + times.length) ++ b.1 ++ c.1 ++ times,
    ts := c.2, an := st.an + 1 }

/-- The encoders behind `encode_funcptrs` (src/dnspacket.c:1431-1562) and the call of
`encode_rrs_rfc3597` for large types (src/dnspacket.c:1570-1573). A DYNC record set never
gets here (src/dnspacket.c:1387). -/
def encRRset (env : Env) (st : St) (r : RRset) : Outcome St :=
  match r.body with
  | .a l => encAddrSet env st 1 4 r.ttl l st.qc false
  | .dynA res m => encDyn env st 1 4 DynRes.v4 res r.ttl m
  | .aaaa l => encAddrSet env st 28 16 r.ttl l st.qc false
  | .dynAAAA res m => encDyn env st 28 16 DynRes.v6 res r.ttl m
  | .ns l => encNs env st r.ttl l
  | .ptr l => encPlain 12 r.ttl (l.map fun d => ([], d)) st
  | .mx l => encMx env r.ttl l st
  | .srv l => encPlain 33 r.ttl l st
  | .naptr l => encPlain 35 r.ttl (l.map fun x => (x.1 ++ x.2.1, x.2.2)) st
  | .txt l => encRaw 16 r.ttl l st
  | .cname d => encCname env st r.ttl d false
  | .soa m n t => encSoa env st r.ttl m n t
  | .dync _ _ => .ub
  | .raw t l => encRaw t r.ttl l st

/-- `construct_normal_response` (src/dnspacket.c:1565-1580): encode the first rrset of the
queried type. -/
def constructNormal (env : Env) (st : St) (rrs : List RRset) : Outcome St :=
  (assert (decide (st.qtype < 128) || decide (256 ≤ st.qtype))).bind fun _ =>
  match rrs.find? (fun r => r.type == st.qtype) with
  | none => .ok st
  | some r => encRRset env st r

end Gdnsd.Enc
