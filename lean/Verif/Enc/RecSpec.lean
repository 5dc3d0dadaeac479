import Verif.Enc.Spec
import Verif.Enc.Data
import Verif.Rand.Model
import Verif.Mon.Spec
/-
What the records of a stored record set are, as a resolver sees them. Independent of the
encoders.
-/
namespace Gdnsd.EncSpec
open DnameSpec Enc

/-- The labels of a wire name. -/
def labelsOfWire : Nat → Bytes → List Bytes
  | 0, _ => []
  | _ + 1, [] => []
  | fuel + 1, c :: r =>
    if c = 0 then [] else r.take c.toNat :: labelsOfWire fuel (r.drop c.toNat)

/-- The labels of a name in internal form: a length byte, then the wire name. -/
def labelsOf (d : Bytes) : List Bytes := labelsOfWire d.length (d.drop 1)

/-- The value of a TTL stored in network order. -/
def ttlVal (t : UInt32) : Nat := (Ttl.bswap t).toNat

/-- The TTL of a dynamic answer: the plugin's, kept within the stored bounds. -/
def dynTtl (d : DynRes) (maxTtl minTtl : UInt32) : Nat :=
  if ttlVal maxTtl < Mon.ttl d.sttl then ttlVal maxTtl else max minTtl.toNat (Mon.ttl d.sttl)

/-- The records that answer for a record set stored at `owner`. -/
def answerRecs (resolve : Nat → DynRes) (owner : List Bytes) (r : RRset) : List Rec :=
  match r.body with
  | .a l => l.map fun a => ⟨owner, 1, ttlVal r.ttl, [.bytes a]⟩
  | .aaaa l => l.map fun a => ⟨owner, 28, ttlVal r.ttl, [.bytes a]⟩
  | .dynA res m => (resolve res).v4.map fun a => ⟨owner, 1, dynTtl (resolve res) r.ttl m, [.bytes a]⟩
  | .dynAAAA res m => (resolve res).v6.map fun a => ⟨owner, 28, dynTtl (resolve res) r.ttl m, [.bytes a]⟩
  | .soa m n t => [⟨owner, 6, ttlVal r.ttl, [.name (labelsOf m), .name (labelsOf n), .bytes t]⟩]
  | .cname d => [⟨owner, 5, ttlVal r.ttl, [.name (labelsOf d)]⟩]
  | .dync _ _ => []
  | .ns l => l.map fun x => ⟨owner, 2, ttlVal r.ttl, [.name (labelsOf x.dname)]⟩
  | .ptr l => l.map fun d => ⟨owner, 12, ttlVal r.ttl, [.name (labelsOf d)]⟩
  | .mx l => l.map fun x => ⟨owner, 15, ttlVal r.ttl, [.bytes x.1, .name (labelsOf x.2)]⟩
  | .srv l => l.map fun x => ⟨owner, 33, ttlVal r.ttl, [.bytes x.1, .name (labelsOf x.2)]⟩
  | .naptr l => l.map fun x => ⟨owner, 35, ttlVal r.ttl, [.bytes (x.1 ++ x.2.1), .name (labelsOf x.2.2)]⟩
  | .txt l => l.map fun b => ⟨owner, 16, ttlVal r.ttl, [.bytes b]⟩
  | .raw t l => l.map fun b => ⟨owner, t, ttlVal r.ttl, [.bytes b]⟩

/-- Address records of one glue set. -/
def glueRecs (owner : List Bytes) (t : Nat) : Option Glue → List Rec
  | none => []
  | some g => g.addrs.map fun a => ⟨owner, t, ttlVal g.ttl, [.bytes a]⟩

/-- The glue that goes with an NS set. -/
def nsGlueRecs (l : List NsRd) : List Rec :=
  l.flatMap fun x => glueRecs (labelsOf x.dname) 1 x.glue4 ++ glueRecs (labelsOf x.dname) 28 x.glue6

def extraRecs (r : RRset) : List Rec :=
  match r.body with
  | .ns l => nsGlueRecs l
  | _ => []

/-- A name as the zone loader produces it (see Verif/Dname). -/
def NameOk (d : Bytes) : Prop := ∃ ls, WF ls ∧ d = encode ls true

/-- A set of addresses. -/
def AddrsOk (n : Nat) (l : List Bytes) : Prop := l ≠ [] ∧ ∀ a ∈ l, a.length = n

/-- A usable glue set. -/
def GlueOk (n : Nat) : Option Glue → Prop
  | none => True
  | some g => AddrsOk n g.addrs

/-- A plugin result that may be used for address records (see Verif/Plugins). -/
def DynOk (d : DynRes) : Prop :=
  Mon.Valid d.sttl ∧ d.cname = none ∧ (∀ a ∈ d.v4, a.length = 4) ∧ (∀ a ∈ d.v6, a.length = 16)

/-- A record set as the zone loader produces it. -/
def RRsetOk (resolve : Nat → DynRes) (r : RRset) : Prop :=
  match r.body with
  | .a l => AddrsOk 4 l
  | .aaaa l => AddrsOk 16 l
  | .dynA res _ => DynOk (resolve res)
  | .dynAAAA res _ => DynOk (resolve res)
  | .soa m n t => NameOk m ∧ NameOk n ∧ t.length = 20
  | .cname d => NameOk d
  | .dync _ _ => False
  | .ns l => l ≠ [] ∧ l.length ≤ 64 ∧ ∀ x ∈ l, NameOk x.dname ∧ GlueOk 4 x.glue4 ∧ GlueOk 16 x.glue6
  | .ptr l => ∀ d ∈ l, NameOk d
  | .mx l => ∀ x ∈ l, x.1.length = 2 ∧ NameOk x.2
  | .srv l => ∀ x ∈ l, x.1.length = 6 ∧ NameOk x.2
  | .naptr l => ∀ x ∈ l, x.1.length = 4 ∧ NameOk x.2.2
  | .txt _ => True
  | .raw t _ => t < 65536

/-- The wire length of a name in internal form. -/
def nameLen (d : Bytes) : Nat := wireLen (labelsOf d)

def glueSize (n : Nat) : Option Glue → Nat
  | none => 0
  | some g => g.addrs.length * (12 + n)

/-- How much a record set may take, with every name in full and two bytes per owner. -/
def rrSize (resolve : Nat → DynRes) (r : RRset) : Nat :=
  match r.body with
  | .a l => l.length * (12 + 4)
  | .aaaa l => l.length * (12 + 16)
  | .dynA res _ => (resolve res).v4.length * (12 + 4)
  | .dynAAAA res _ => (resolve res).v6.length * (12 + 16)
  | .soa m n _ => 12 + nameLen m + nameLen n + 20
  | .cname d => 12 + nameLen d
  | .dync _ _ => 0
  | .ns l => (l.map fun x => 12 + nameLen x.dname + glueSize 4 x.glue4 + glueSize 16 x.glue6).sum
  | .ptr l => (l.map fun d => 12 + nameLen d).sum
  | .mx l => (l.map fun x => 12 + 2 + nameLen x.2).sum
  | .srv l => (l.map fun x => 12 + 2 + 2 + 2 + nameLen x.2).sum
  | .naptr l => (l.map fun x => 12 + 2 + 2 + x.2.1.length + nameLen x.2.2).sum
  | .txt l => (l.map fun b => 12 + b.length).sum
  | .raw _ l => (l.map fun b => 12 + b.length).sum

end Gdnsd.EncSpec
