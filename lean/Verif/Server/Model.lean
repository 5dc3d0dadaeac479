import Verif.Packet.Respond
import Verif.Lookup.Model
/-
From a request packet to the reply, with the lookup in the zone data: `process_dns_query`
(src/dnspacket.c:2191-2270) together with `answer_from_db` (src/dnspacket.c:1876-1914) and
`db_lookup` (src/dnspacket.c:1836-1873).
-/
namespace Gdnsd.Server
open Packet

/-- What a server answers from: the zone tree as each step of a lookup sees it, the random
draws, the plugins' results for the client of a request, the setting `experimental_no_chain`
and the ACME challenge table. -/
structure Site where
  root : Nat → Tree.Node
  draws : Nat → Nat → UInt32
  resolve : Txn → Nat → Enc.DynRes
  noChain : Bool
  chals : Bytes → List Bytes

/-- The part of the context that a lookup uses. -/
def Site.env (site : Site) (t : Txn) : Enc.Env :=
  { lq := t.lqname, draws := site.draws, resolve := site.resolve t, noChain := site.noChain, chals := site.chals, thisMax := t.thisMax }

/-- The lookup of `answer_from_db` (src/dnspacket.c:1883-1891): `pkt` is the packet up to the
end of the question. -/
def lookup (site : Site) (fuel : Nat) (pkt : Bytes) (t : Txn) : Outcome DbAnswer :=
  (Lookup.dbLookup site.root (site.env t) fuel 0 { out := pkt, qtype := t.qtype } t.lqname false).bind fun st =>
  .ok { data := st.out.drop pkt.length, aa := st.aa, rcode := UInt8.ofNat st.rcode, an := st.cn + st.an, ns := st.ns, ar := st.ar, scope := st.scope }

/-- `process_dns_query`. The lookup happens inside `processQuery`, which takes the result of
the lookup as a parameter; decoding has no side effects, so the lookup is done first here, with
what decoding yields, if there is going to be one. -/
def process (g : Cfg) (c : Ctx) (site : Site) (fuel : Nat) (s : DsoState) (p : Bytes) : Outcome (Option Bytes × DsoState) :=
  (assert (decide (p.length ≤ 1024))).bind fun _ =>
  (decodeQuery g { c with dsoEstab := s.estab } p (initTxn c)).bind fun r =>
  (if r.1 = .ok ∧ rd16 p 4 = .ok 1 ∧ (r.2.1.qclass = 1 ∨ r.2.1.qclass = 255) then lookup site fuel (p.take r.2.2) r.2.1
   else .ok { data := [], aa := false, rcode := 0, an := 0, ns := 0, ar := 0, scope := 0 }).bind fun a =>
  processQuery g c (fun _ => a) s p

end Gdnsd.Server
