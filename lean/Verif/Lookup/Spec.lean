import Verif.Tree.Spec
import Verif.Enc.RecSpec
/-
What the answer to a query is (RFC 1034 4.3.2, RFC 2308, RFC 8482), stated on names, trees
and records. Nothing here mentions packets, offsets or the functions of the model.
-/
namespace Gdnsd.LookupSpec
open DnameSpec Enc Tree TreeSpec EncSpec

/-- What a query meets besides the tree. -/
structure World where
  /-- the plugins' results for this client -/
  resolve : Nat → DynRes
  /-- the ACME challenges of a name: TTL and TXT data -/
  chals : List Bytes → List (Nat × Bytes)
  /-- whether CNAMEs are followed inside a zone -/
  follow : List Bytes → Prop

/-- A reply: response code, authority bit, sections, and the client-subnet scope. -/
structure Reply where
  rcode : Nat := 0
  aa : Bool := false
  answer : List Rec := []
  authority : List Rec := []
  additional : List Rec := []
  scope : Nat := 0

/-! ### CNAME chains -/

/-- The server follows the CNAME `r` at `q` to `d`: the name's only data is a CNAME, another
type was asked for, and the target is in the same zone. -/
def Follows (w : World) (root : Node) (t : Nat) (q : List Bytes) (r : RRset) (d : List Bytes) : Prop :=
  ∃ z n b, Located root q (.data z n) ∧ n.rrs = [r] ∧ r.body = .cname b ∧ d = labelsOf b ∧ t ≠ 5 ∧ t ≠ 255 ∧
    w.follow z ∧ z <:+ d

/-- The CNAMEs met from `q` on, with their owners, and the name the chain ends at. -/
inductive Chain (w : World) (root : Node) (t : Nat) : List Bytes → List (List Bytes × RRset) → List Bytes → Prop
  | stop {q} : (∀ r d, ¬ Follows w root t q r d) → Chain w root t q [] q
  | step {q r d cs e} : Follows w root t q r d → Chain w root t d cs e → Chain w root t q ((q, r) :: cs) e

/-! ### The end of a chain -/

/-- What decides the rest of the reply: the cut and its NS set; or the zone, its SOA, and the
record sets of the name (`none` if the name has no data and no wildcard covers it). -/
inductive Verdict where
  | refused
  | referral (cut : List Bytes) (ns : RRset)
  | final (zone : List Bytes) (soa : RRset) (rrs : Option (List RRset))

/-- The verdict for a name. -/
def Ends (root : Node) (q : List Bytes) : Verdict → Prop
  | .refused => Located root q .outside
  | .referral c r => ∃ z n, Located root q (.referral z c) ∧ nodeAt root c = some n ∧ r ∈ n.rrs ∧ r.type = 2
  | .final z soa rrs => ∃ a, nodeAt root z = some a ∧ soa ∈ a.rrs ∧ soa.type = 6 ∧
      match rrs with
      | some l => ∃ n, Located root q (.data z n) ∧ n.rrs = l
      | none => Located root q (.missing z)

/-- The target of the CNAME at a name, with its TTL: a stored one, or one a plugin gave. -/
def aliasOf (w : World) : List RRset → Option (Nat × List Bytes)
  | [⟨ttl, .cname d⟩] => some (ttlVal ttl, labelsOf d)
  | [⟨ttl, .dync res m⟩] => (w.resolve res).cname.map fun d => (dynTtl (w.resolve res) ttl m, labelsOf d)
  | _ => none

/-- The records of type `t` at a name. -/
def typedRecs (w : World) (t : Nat) (q : List Bytes) : List RRset → List Rec
  | [⟨ttl, .dync res m⟩] =>
    if t = 1 then (w.resolve res).v4.map fun a => ⟨q, 1, dynTtl (w.resolve res) ttl m, [.bytes a]⟩
    else if t = 28 then (w.resolve res).v6.map fun a => ⟨q, 28, dynTtl (w.resolve res) ttl m, [.bytes a]⟩
    else []
  | rrs => (rrs.filter fun r => r.type == t).flatMap (answerRecs w.resolve q)

/-- A name's own records in the answer: its CNAME, or those of the type asked for. -/
def ownRecs (w : World) (t : Nat) (q : List Bytes) (rrs : List RRset) : List Rec :=
  match aliasOf w rrs with
  | some (ttl, d) => [⟨q, 5, ttl, [.name d]⟩]
  | none => if t = 255 then [] else typedRecs w t q rrs

/-- Glue for the NS records in the answer. -/
def ownExtra (w : World) (t : Nat) (rrs : List RRset) : List Rec :=
  match aliasOf w rrs with
  | some _ => []
  | none => if t = 255 then [] else (rrs.filter fun r => r.type == t).flatMap extraRecs

/-- The scope of one record set. -/
def scopeOf (w : World) (t : Nat) (r : RRset) : Nat :=
  match r.body with
  | .dync res _ => (w.resolve res).scope
  | .dynA res _ => if t = 1 then (w.resolve res).scope else 0
  | .dynAAAA res _ => if t = 28 then (w.resolve res).scope else 0
  | _ => 0

/-- The widest scope of the plugins asked. -/
def ownScope (w : World) (t : Nat) (rrs : List RRset) : Nat := (rrs.map (scopeOf w t)).foldr max 0

/-- The label `_acme-challenge`. -/
def acme : Bytes := [95, 97, 99, 109, 101, 45, 99, 104, 97, 108, 108, 101, 110, 103, 101]

/-- The name a challenge would be registered under. -/
def chalName : List Bytes → List Bytes
  | l :: r => if l = acme then r else l :: r
  | [] => []

/-- Names of challenges, and the names the challenges were registered for, exist. -/
def matched (w : World) (q : List Bytes) : Bool := !(w.chals (chalName q)).isEmpty

/-- The challenge records at a name. -/
def chalRecs (w : World) (q : List Bytes) : List Rec :=
  match q with
  | l :: r => if l = acme then (w.chals r).map fun c => ⟨q, 16, c.1, [.bytes c.2]⟩ else []
  | [] => []

/-- The answer to ANY (RFC 8482). -/
def hinfoRec (q : List Bytes) : Rec := ⟨q, 13, 3600, [.bytes [7, 82, 70, 67, 56, 52, 56, 50, 0]]⟩

/-- The reply of the zone `z` for the name `q`, with at most `k` challenge records. -/
def finalReply (w : World) (t k : Nat) (q z : List Bytes) (soa : RRset) (rrs : Option (List RRset)) : Reply :=
  let l := rrs.getD []
  let ans := ownRecs w t q l ++ (if t = 16 ∧ aliasOf w l = none then (chalRecs w q).take k else [])
  let exists_ := rrs.isSome || matched w q
  let base : Reply := { aa := true, additional := ownExtra w t l, scope := ownScope w t l }
  if ans ≠ [] then { base with answer := ans }
  else if t = 255 ∧ exists_ = true then { base with answer := [hinfoRec q] }
  else { base with authority := answerRecs w.resolve z soa, rcode := if exists_ then 0 else 3 }

/-- The reply for the end of a chain. -/
def endReply (w : World) (t k : Nat) (q : List Bytes) : Verdict → Reply
  | .refused => { rcode := 5 }
  | .referral c r => { authority := answerRecs w.resolve c r, additional := extraRecs r }
  | .final z soa rrs => finalReply w t k q z soa rrs

/-- The reply to a query: the CNAMEs of the chain come first, and make the reply
authoritative. -/
def reply (w : World) (t k : Nat) (cs : List (List Bytes × RRset)) (e : List Bytes) (v : Verdict) : Reply :=
  let r := endReply w t k e v
  { r with aa := r.aa || !cs.isEmpty, answer := cs.flatMap (fun c => answerRecs w.resolve c.1 c.2) ++ r.answer }

/-! ### Sizes -/

/-- How much a name's own records may take. -/
def ownSize (w : World) (t : Nat) : List RRset → Nat
  | [⟨_, .dync res _⟩] =>
    match (w.resolve res).cname with
    | some d => 12 + nameLen d
    | none => if t = 1 then (w.resolve res).v4.length * 16 else if t = 28 then (w.resolve res).v6.length * 28 else 0
  | [⟨_, .cname d⟩] => 12 + nameLen d
  | rrs => ((rrs.filter fun r => r.type == t).map (rrSize w.resolve)).sum

/-- How much the end of a chain may take, without challenges. -/
def endSize (w : World) (t : Nat) : Verdict → Nat
  | .refused => 0
  | .referral _ r => rrSize w.resolve r
  | .final _ soa rrs => max (ownSize w t (rrs.getD [])) (max 21 (rrSize w.resolve soa))

/-- How much a chain of CNAMEs may take. -/
def chainSize (w : World) (cs : List (List Bytes × RRset)) : Nat := (cs.map fun c => rrSize w.resolve c.2).sum

/-! ### Trees as loading leaves them -/

/-- The data of one name. A CNAME or a DYNC stands alone; there is one set per type; sets of
unusual types do not pose as known ones. -/
def NodeOk (resolve : Nat → DynRes) (rrs : List RRset) : Prop :=
  (∃ ttl res m, rrs = [⟨ttl, .dync res m⟩] ∧ Mon.Valid (resolve res).sttl ∧ (∀ d, (resolve res).cname = some d → NameOk d) ∧
    (∀ a ∈ (resolve res).v4, a.length = 4) ∧ (∀ a ∈ (resolve res).v6, a.length = 16)) ∨
  (∃ ttl d, rrs = [⟨ttl, .cname d⟩] ∧ NameOk d ∧ lowerName (labelsOf d) = labelsOf d) ∨
  ((rrs.map RRset.type).Nodup ∧ ∀ r ∈ rrs, RRsetOk resolve r ∧ (∀ d, r.body ≠ .cname d) ∧
    ∀ t l, r.body = .raw t l → t ∉ [1, 2, 5, 6, 12, 15, 16, 28, 33, 35, 255, 0xFF0F])

/-- A tree the server may serve: the data of every name is in order, NS and SOA records are at
cuts only and not at wildcards, zones have an SOA and delegations have NS records. -/
structure DbOk (resolve : Nat → DynRes) (root : Node) : Prop where
  node : ∀ name n, nodeAt root name = some n → NodeOk resolve n.rrs
  cut : ∀ name n r, nodeAt root name = some n → r ∈ n.rrs → r.type = 2 ∨ r.type = 6 →
    n.zcut = true ∧ ∀ x, name ≠ [42] :: x
  soa : ∀ q z n, IsZone root q z → nodeAt root z = some n → ∃ r ∈ n.rrs, r.type = 6
  ns : ∀ q z c n, IsZone root q z → IsReferral root q z c → nodeAt root c = some n → ∃ r ∈ n.rrs, r.type = 2

end Gdnsd.LookupSpec
