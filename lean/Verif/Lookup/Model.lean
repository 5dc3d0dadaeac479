import Verif.Tree.Model
import Verif.Enc.Rr
/-
Model of the path from a query name to the answer bytes: src/dnspacket.c:1582-1873, and
`chal_respond` (src/chal.c:464-508).

`root` is what each use of the root pointer sees: `search_ltree_for_dname` loads it anew on
every call (src/dnspacket.c:1632), so the tree may differ from one CNAME step to the next
when a reload happens in between.
-/
namespace Gdnsd.Lookup
open Enc Tree

/-- `chase_auth_ptr` (src/dnspacket.c:1588-1608). Every turn lowers `offset + 2 * depth` when
pointers go backwards; running out of fuel stands for an endless loop. -/
def chaseAuth (pkt : Bytes) : Nat → Nat → Nat → Outcome Nat
  | 0, _, _ => .ub
  | fuel + 1, off, depth =>
    (rd pkt off).bind fun b =>
    bif decide (depth ≠ 0) || decide (b &&& 0xC0 ≠ 0) then
      bif decide (b &&& 0xC0 ≠ 0) then
        (rd pkt (off + 1)).bind fun c =>
        chaseAuth pkt fuel ((b.toNat * 256 + c.toNat) &&& 0x3FFF) depth
      else
        (assert (decide (b.toNat + 1 ≤ depth))).bind fun _ =>
        chaseAuth pkt fuel (off + (b.toNat + 1)) (depth - (b.toNat + 1))
    else .ok off

/-- The loop of `dname_is_in_wire_zone` (src/dnspacket.c:1737-1740): the length of the
labels. `llen` is 8 bits wide, so 255 would wrap to 0 and never end. -/
def wireZoneLen (pkt : Bytes) (at_ : Nat) : Nat → Nat → Outcome Nat
  | 0, _ => .ub
  | fuel + 1, oal =>
    (rd pkt (at_ + oal)).bind fun b =>
    bif decide (b = 0) then .ok oal else wireZoneLen pkt at_ fuel (oal + (b + 1).toNat)

/-- `dname_is_in_wire_zone` (src/dnspacket.c:1730-1746): the zone is read at `at_` in the
packet. The copy has room for 255 bytes. -/
def inWireZone (pkt : Bytes) (at_ : Nat) (check : Bytes) : Outcome Bool :=
  (wireZoneLen pkt at_ 256 0).bind fun n =>
  (assert (decide (n + 1 ≤ 255) && decide (at_ + n + 1 ≤ pkt.length))).bind fun _ =>
  Dname.isInZone (UInt8.ofNat (n + 1) :: (pkt.drop at_).take (n + 1)) check

/-- `"_acme-challenge"`. -/
def acmeLabel : Bytes := [95, 97, 99, 109, 101, 45, 99, 104, 97, 108, 108, 101, 110, 103, 101]

/-- `dname_is_acme_chal` (src/chal.h:83-87). -/
def isAcme (d : Bytes) : Outcome Bool :=
  (Dname.status d).bind fun s =>
  (assert (decide (s ≠ .invalid))).bind fun _ =>
  (rd d 0).bind fun b0 =>
  bif decide (16 < b0.toNat) then
    (rd d 1).bind fun b1 =>
    bif decide (b1 = 15) then (Enc.memeq (d.drop 2) acmeLabel 15) else .ok false
  else .ok false

/-- The name the challenge table is searched for (src/chal.c:474-482). -/
def chalKey (d : Bytes) (isC : Bool) : Outcome Bytes :=
  bif isC then (rd d 0).bind fun b => .ok (UInt8.ofNat (b.toNat - 16) :: d.drop 17) else .ok d

/-- The loop of `chal_respond` (src/chal.c:488-506) over the matching entries. -/
def chalLoop (env : Env) (emit : Bool) : List Bytes → St → Bool × St
  | [], st => (false, st)
  | c :: cs, st =>
    bif emit then
      bif decide (env.thisMax < st.out.length + 2 + 54) then (true, st)
      else (true, (chalLoop env emit cs
        { st with out := st.out ++ put16 (0xC000 ||| st.qc) ++ c, an := st.an + 1 }).2)
    else (true, st)

/-- `chal_respond` (src/chal.c:464-508). `env.chals` stands for the table: the matching
challenges of a name in the order they are found; no table is no challenges. -/
def chalRespond (env : Env) (st : St) (qname : Bytes) : Outcome (Bool × St) :=
  (isAcme qname).bind fun isC =>
  (chalKey qname isC).bind fun key =>
  .ok (chalLoop env (isC && decide (st.qtype = 16)) (env.chals key) st)

/-- `hinfo_for_any` (src/dnspacket.c, RFC 8482): HINFO IN, TTL 3600, "RFC8482" "". -/
def hinfo : Bytes := [0, 13, 0, 1, 0, 0, 14, 16, 0, 9, 7, 82, 70, 67, 56, 52, 56, 50, 0]

/-- `process_dync` (src/dnspacket.c:1689-1726): the synthesised rrset. Storage details of the
address arrays are left out. `synthTtl` is what `do_dyn_callback` returned, so the synthesised
address sets are static ones. -/
def processDync (env : Env) (st : St) (res : Nat) (ttl ttlMin : UInt32) : Outcome (List RRset × St) :=
  (dynCallback env st res ttl ttlMin).bind fun x =>
  match (env.resolve res).cname with
  | some d =>
    (Dname.status d).bind fun s =>
    (assert (decide (s = .valid))).bind fun _ => .ok ([⟨x.1, .cname d⟩], x.2)
  | none =>
    bif decide (st.qtype = 1) && decide ((env.resolve res).v4.length ≠ 0) then
      .ok ([⟨x.1, .a (env.resolve res).v4⟩], x.2)
    else bif decide (st.qtype = 28) && decide ((env.resolve res).v6.length ≠ 0) then
      .ok ([⟨x.1, .aaaa (env.resolve res).v6⟩], x.2)
    else .ok ([], x.2)

/-- `rrsets->gen.type == t` for the first rrset. -/
def headIs (rrs : List RRset) (t : Nat) : Bool :=
  match rrs with
  | [] => false
  | r :: _ => r.type == t

/-- The negative part of `do_final_auth_response` (src/dnspacket.c:1792-1802). -/
def negative (env : Env) (st : St) (dom : Bool) (auth : Node) (matched : Bool) : Outcome St :=
  bif decide (st.an = 0) then
    match getType auth.rrs 6 with
    | some ⟨ttl, .soa m n t⟩ =>
      (encSoa env st ttl m n t).bind fun st' =>
      (assert (decide (st'.an = 1) && decide (st'.ns = 0))).bind fun _ =>
      .ok { st' with ns := 1, an := 0, rcode := bif !dom && !matched then 3 else st'.rcode }
    | _ => .ub
  else .ok st

/-- The ANY part of `do_final_auth_response` (src/dnspacket.c:1775-1790). -/
def anyPart (st : St) (rrs : List RRset) (dom matched : Bool) : Outcome St :=
  bif decide (st.qtype = 255) then
    (assert (decide (st.an = 0))).bind fun _ =>
    (assert (!headIs rrs 5)).bind fun _ =>
    bif dom || matched then
      (repeatName st.out st.qc).bind fun nm => .ok { st with an := 1, out := st.out ++ nm ++ hinfo }
    else .ok st
  else .ok st

/-- `do_final_auth_response` (src/dnspacket.c:1748-1806). -/
def finalAuth (env : Env) (st : St) (qname : Bytes) (dom : Bool) (auth : Node) (rrs : List RRset) : Outcome St :=
  let st := { st with aa := true, qtype := bif decide (st.qtype = 255) && headIs rrs 5 then 5 else st.qtype }
  (bif !rrs.isEmpty && decide (st.qtype ≠ 255) then constructNormal env st rrs else .ok st).bind fun st =>
  (bif decide (st.qtype = 16) || decide (st.an = 0) then chalRespond env st qname else .ok (false, st)).bind fun x =>
  (anyPart x.2 rrs dom x.1).bind fun st => negative env st dom auth x.1

/-- The rrsets of `dom`, if any. -/
def rrsOf : Option Node → List RRset
  | none => []
  | some n => n.rrs

/-- `db_lookup` and `do_auth_response` (src/dnspacket.c:1811-1873), which call each other;
`i` counts the searches. -/
def dbLookup (root : Nat → Node) (env : Env) : Nat → Nat → St → Bytes → Bool → Outcome St
  | 0, _, _, _, _ => .ub
  | fuel + 1, i, st, qname, via =>
    (search (root i) qname).bind fun r =>
    match r.1.status with
    | .noauth => (assert (!via)).bind fun _ => .ok { st with rcode := 5 }
    | status =>
      match r.1.auth with
      | none => .ub
      | some auth =>
        (bif via then
          (assert (decide (st.qc ≠ 0) && decide (st.qc < 16376) && decide (r.2 < 256))).bind fun _ =>
          chaseAuth st.out (st.qc + 2 * r.2 + 1) st.qc r.2
        else .ok (st.qc + r.2)).bind fun ac =>
        let st := { st with ac := ac }
        if status = .deleg then
          match r.1.dom with
          | none => .ub
          | some dom =>
            match getType dom.rrs 2 with
            | some ⟨ttl, .ns l⟩ => (encNs env st ttl l).bind fun st => .ok { st with ns := st.an, an := 0 }
            | _ => .ub
        else
          match rrsOf r.1.dom with
          | ⟨ttl, .dync res m⟩ :: rest =>
            (assert rest.isEmpty).bind fun _ =>
            (processDync env st res ttl m).bind fun x =>
            finalAuth env { x.2 with qtype := bif headIs x.1 5 then 5 else x.2.qtype } qname r.1.dom.isSome auth x.1
          | ⟨ttl, .cname d⟩ :: rest =>
            bif decide (st.qtype ≠ 5) && decide (st.qtype ≠ 255) then
              (assert rest.isEmpty).bind fun _ =>
              (bif !env.noChain then inWireZone st.out st.ac d else .ok false).bind fun chase =>
              bif chase then
                (encCname env { st with aa := true } ttl d true).bind fun st =>
                dbLookup root env fuel (i + 1) st d true
              else finalAuth env { st with qtype := 5 } qname r.1.dom.isSome auth (rrsOf r.1.dom)
            else finalAuth env st qname r.1.dom.isSome auth (rrsOf r.1.dom)
          | rrs => finalAuth env st qname r.1.dom.isSome auth rrs

end Gdnsd.Lookup
