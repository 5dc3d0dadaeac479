/-
What the client-network database should answer, written without reference to network
lists or trees: networks are prefixes of 128-bit addresses.
-/
import Verif.Geo.Model
namespace Gdnsd.Geo

/-- The bits of a byte, most significant first. -/
def byteBits (b : UInt8) : List Bool :=
  [b.toNat.testBit 7, b.toNat.testBit 6, b.toNat.testBit 5, b.toNat.testBit 4,
   b.toNat.testBit 3, b.toNat.testBit 2, b.toNat.testBit 1, b.toNat.testBit 0]

/-- The bits of an address. -/
def bits (ip : Bytes) : List Bool := ip.flatMap byteBits

/-- A network is a prefix of the address bits, with the list of datacenters it maps to. -/
abbrev Pfx := List Bool × Nat

/-- `p` is the longest network containing `x`. -/
def Longest (l : List Pfx) (x : List Bool) (p : Pfx) : Prop :=
  p ∈ l ∧ p.1 <+: x ∧ ∀ q ∈ l, q.1 <+: x → q.1.length ≤ p.1.length

/-- Longest prefix match: the list of the longest network containing `x`, and the default
list if there is none. -/
def Answer (l : List Pfx) (dflt : Nat) (x : List Bool) (d : Nat) : Prop :=
  (∃ p, Longest l x p ∧ d = p.2) ∨ ((∀ q ∈ l, ¬ q.1 <+: x) ∧ d = dflt)

/-- The network of a configuration entry; IPv4 networks live under `::/96`. -/
def Entry.pfx : Entry → Pfx
  | .v6 ip m d => ((bits ip).take m, d)
  | .v4 ip m d => (List.replicate 96 false ++ (bits ip).take m, d)

/-- An entry as the configuration parser hands it over: an address of the right length, a
list index in the legal range. -/
def Entry.Wf : Entry → Prop
  | .v6 ip _ d => ip.length = 16 ∧ d < 2147483647
  | .v4 ip _ d => ip.length = 4 ∧ d < 2147483647

/-- The networks of the five IPv4-like IPv6 areas (RFC 4291 mapped, SIIT, RFC 6052
well-known prefix, 6to4, Teredo). -/
def areas : List (List Bool) :=
  [(bits [0,0,0,0,0,0,0,0,0,0,0xFF,0xFF]), (bits [0,0,0,0,0,0,0,0,0xFF,0xFF,0,0]),
   (bits [0,0x64,0xFF,0x9B,0,0,0,0,0,0,0,0]), bits [0x20,0x02], bits [0x20,0x01,0,0]]

/-- An entry the configuration may contain: a mask that fits, and no network inside one of
the five areas. -/
def Entry.Legal : Entry → Prop
  | .v6 ip m _ => m ≤ 128 ∧ ∀ a ∈ areas, ¬ a <+: (bits ip).take m
  | .v4 _ m _ => m ≤ 32

/-- No network twice with different lists. -/
def Consistent (es : List Entry) : Prop :=
  ∀ e ∈ es, ∀ f ∈ es, e.pfx.1 = f.pfx.1 → e.pfx.2 = f.pfx.2

/-- Every network decides some address outside the five areas: it is not covered entirely
by smaller networks. -/
def NoneHidden (es : List Entry) : Prop :=
  ∀ e ∈ es, ∃ x : List Bool, x.length = 128 ∧ e.pfx.1 <+: x ∧ (∀ a ∈ areas, ¬ a <+: x) ∧
    ∀ f ∈ es, f.pfx.1 <+: x → f.pfx.1.length ≤ e.pfx.1.length

/-- An IPv4 address as 32 bits. -/
def bits32 (n : Nat) : List Bool := (List.range 32).map fun i => n.testBit (31 - i)

/-- The address that is looked up for a client: IPv4 addresses, also those embedded in the
five areas, stand under `::/96`. -/
def target : Addr → List Bool
  | .v4 n => List.replicate 96 false ++ bits32 n
  | .v6 ip =>
    if (areas.take 3).any (· <+: bits ip) then List.replicate 96 false ++ (bits ip).drop 96
    else if bits [0x20,0x01,0,0] <+: bits ip then List.replicate 96 false ++ ((bits ip).drop 96).map (!·)
    else if bits [0x20,0x02] <+: bits ip then List.replicate 96 false ++ ((bits ip).drop 16).take 32
    else bits ip

/-- The bits that a scope mask of a reply is about: those of the address as sent. -/
def Addr.raw : Addr → List Bool
  | .v4 n => bits32 n
  | .v6 ip => bits ip

/-- A well-formed client address. -/
def Addr.Wf : Addr → Prop
  | .v4 n => n < 4294967296
  | .v6 ip => ip.length = 16

/-- Same address family. -/
def Addr.sameFamily : Addr → Addr → Prop
  | .v4 _, .v4 _ => True
  | .v6 _, .v6 _ => True
  | _, _ => False

/-- `sort` behaves like the C library's `qsort` with this comparison: the result has the
same entries, in order. Nothing is said about the order of equal entries. -/
structure SortOk (sort : List Net → List Net) : Prop where
  perm : ∀ l, (sort l).Perm l
  sorted : ∀ l, (∀ n ∈ l, n.ip.length = 16) → (sort l).Pairwise fun a b => netLt b a = false

/-- Insertion sort: one such `sort` (it keeps equal entries in order, like merge sort). -/
def insert (n : Net) : List Net → List Net
  | [] => [n]
  | m :: l => bif netLt m n then m :: insert n l else n :: m :: l

/-- See `insert`. -/
def isort (l : List Net) : List Net := l.foldr insert []

/-- What a GeoIP2 database says about an address: follow the address bits from a node.
`none`: an unreadable node, an invalid record, or no leaf within the address. -/
def dbFollow (db : Mmdb) : Rec → List Bool → Option Nat
  | .empty, _ => some 0
  | .data off, _ => some (db.dcOf off)
  | .bad, _ => none
  | .node _, [] => none
  | .node n, b :: x => (db.read n).bind fun r => dbFollow db (bif b then r.2 else r.1) x
termination_by _ x => x.length

/-- Where a database starts: an IPv4 database covers `::/96`. -/
def root (isV4 : Bool) : List Bool := List.replicate (bif isV4 then 96 else 0) false

/-- The list a database gives to an address: the default outside what it covers. -/
def GeoAnswer (db : Mmdb) (isV4 : Bool) (x : List Bool) (d : Nat) : Prop :=
  if root isV4 <+: x then dbFollow db (.node 0) (x.drop (root isV4).length) = some d else d = 0

/-- A list of the configuration: that of some network containing the address, and the
default only if there is none. -/
def Candidate (es : List Entry) (x : List Bool) (d : Nat) : Prop :=
  (∃ e ∈ es, e.pfx.1 <+: x ∧ d = e.pfx.2) ∨ ((∀ e ∈ es, ¬ e.pfx.1 <+: x) ∧ d = 0)

/-- The address a lookup is about: the client subnet if it was sent and is not ignored. -/
def Client.addr (c : Client) (ignoreEcs : Bool) : Addr :=
  if c.ecsMask ≠ 0 ∧ ignoreEcs = false then c.ecs else c.src

end Gdnsd.Geo
