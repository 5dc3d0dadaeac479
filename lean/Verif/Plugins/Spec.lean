import Verif.Plugins.Model
import Verif.Mon.Spec
/-
What the plugin properties are stated with: the health of an address is read off the
published state table, an answer is a list of addresses.
-/
namespace Gdnsd.Plug
open Mon

/-- Every slot of an index list exists in the table. -/
def InTbl (tbl : List UInt32) (idx : List Nat) : Prop := ∀ i ∈ idx, i < tbl.length

/-- An address is up when none of its services is down. -/
def up (tbl : List UInt32) (idx : List Nat) : Bool := (idx.filterMap (tbl[·]?)).all fun v => !isDown v

/-- Smallest TTL over a list of slots (the maximum TTL when there are none). -/
def minTtl (tbl : List UInt32) (idx : List Nat) : Nat :=
  (idx.filterMap (tbl[·]?)).foldl (fun n v => min n (ttl v)) (2 ^ 28 - 1)

def Addr.v4? : Addr → Option UInt32
  | .v4 a => some a
  | .v6 _ => none

def Addr.v6? : Addr → Option (BitVec 128)
  | .v4 _ => none
  | .v6 a => some a

/-- Whether an address belongs to the wanted family. -/
def Addr.isFam (isv6 : Bool) : Addr → Bool
  | .v4 _ => !isv6
  | .v6 _ => isv6

/-- A result with these addresses appended. -/
def Result.push (r : Result) (as : List Addr) : Result :=
  { r with v4 := r.v4 ++ as.filterMap Addr.v4?, v6 := r.v6 ++ as.filterMap Addr.v6? }

/-- A result as the server core and the meta-plugins hand it to a resolver. -/
def Fresh (r : Result) : Prop := r.cname = none ∧ r.v4 = [] ∧ r.v6 = []

/-- Whether the result holds at least one address or a CNAME. -/
def Result.nonempty (r : Result) : Bool := r.cname.isSome || !r.v4.isEmpty || !r.v6.isEmpty

/-! ### multifo -/

/-- The addresses of a set that are up. -/
def MfSet.ups (tbl : List UInt32) (s : MfSet) : List Addr := (s.as.filter fun a => up tbl a.idx).map (·.addr)

/-- All addresses of a set. -/
def MfSet.all (s : MfSet) : List Addr := s.as.map (·.addr)

/-- All slots an answer of the set depends on. -/
def MfSet.slots (s : MfSet) : List Nat := s.as.flatMap (·.idx)

/-- What configuration guarantees: at least one address, all of the family, all monitored. -/
def MfSet.Ok (tbl : List UInt32) (isv6 : Bool) (s : MfSet) : Prop :=
  s.as ≠ [] ∧ ∀ a ∈ s.as, a.addr.isFam isv6 = true ∧ InTbl tbl a.idx

/-- Enough addresses of the set are up. -/
def MfSet.enough (tbl : List UInt32) (s : MfSet) : Bool := decide (s.upThresh ≤ (s.ups tbl).length)

/-- The documented answer: with `ignore_health` always everything, otherwise what is up if
that is enough, otherwise everything. -/
def MfSet.answer (tbl : List UInt32) (s : MfSet) : List Addr :=
  if s.ignoreHealth then s.all else if s.enough tbl then s.ups tbl else s.all

/-- What configuration guarantees for a simplefo set. -/
def SfSet.Ok (tbl : List UInt32) (isv6 : Bool) (s : SfSet) : Prop :=
  s.pri.isFam isv6 = true ∧ s.sec.isFam isv6 = true ∧ InTbl tbl s.priIdx ∧ InTbl tbl s.secIdx

/-- The state chart in simplefo.c:229-234, as documented in gdnsd-plugin-simplefo: which
address, whether the result is down, and the TTL. -/
def SfSet.chart (tbl : List UInt32) (s : SfSet) : Addr × Bool × Nat :=
  match up tbl s.priIdx, up tbl s.secIdx with
  | true, _ => (s.pri, false, minTtl tbl s.priIdx)
  | false, true => (s.sec, false, min (minTtl tbl s.priIdx) (minTtl tbl s.secIdx))
  | false, false => (s.pri, true, minTtl tbl s.secIdx)

/-! ### weighted -/

/-- Sum of 32-bit numbers as natural numbers. -/
def natSum (l : List UInt32) : Nat := (l.map UInt32.toNat).sum

/-- The addresses that may be answered from a group: those up when the health counts
(`h = true`), otherwise all. -/
def eligible (tbl : List UInt32) (h : Bool) (g : List WAddr) : List Addr :=
  (g.filter fun a => !h || up tbl a.idx).map (·.addr)

/-- Total weight of what is up. -/
def upWeightOf (tbl : List UInt32) (gs : List (List WAddr)) : Nat :=
  natSum ((gs.flatten.filter fun a => up tbl a.idx).map (·.weight))

/-- Total configured weight. -/
def weightOf (gs : List (List WAddr)) : Nat := natSum (gs.flatten.map (·.weight))

/-- At most one from each list, in order. -/
inductive OnePer {α : Type} : List (List α) → List α → Prop
  | nil : OnePer [] []
  | skip {l ls as} : OnePer ls as → OnePer (l :: ls) as
  | take {l ls as a} : a ∈ l → OnePer ls as → OnePer (l :: ls) (a :: as)

/-- What the configuration code checks (weighted.c:164, 177-180, 222, 255-258, 388-391). -/
def GroupsOk (tbl : List UInt32) (isv6 : Bool) (gs : List (List WAddr)) : Prop :=
  gs ≠ [] ∧ gs.length ≤ 64 ∧ ∀ g ∈ gs, g ≠ [] ∧ g.length ≤ 64 ∧
    ∀ a ∈ g, a.addr.isFam isv6 = true ∧ InTbl tbl a.idx ∧ 1 ≤ a.weight.toNat ∧ a.weight.toNat ≤ 1048575

/-- The most addresses one answer can have (weighted.c:687-705). -/
def maxAnswer (gs : List (List WAddr)) (multi : Bool) : Nat :=
  if multi then gs.length else (gs.map List.length).foldl max 0

/-- Enough weight is up. -/
def WSet.enough (tbl : List UInt32) (gs : List (List WAddr)) (s : WSet) : Bool :=
  decide (s.upWeight.toNat ≤ upWeightOf tbl gs)

/-- A weighted answer of one family: one address from each of some groups with `multi`,
otherwise some addresses of one group; only eligible ones; never none. -/
def WeightedAnswer (tbl : List UInt32) (gs : List (List WAddr)) (s : WSet) (as : List Addr) : Prop :=
  as ≠ [] ∧
  if s.multi then OnePer (gs.map (eligible tbl (s.enough tbl gs))) as
  else ∃ g ∈ gs, as.Sublist (eligible tbl (s.enough tbl gs) g)

/-- All slots a weighted answer depends on. -/
def wSlots (gs : List (List WAddr)) : List Nat := gs.flatten.flatMap (·.idx)

/-- A bounded random number is below its bound (proved of rand.h in Verif/Rand). -/
def Rnd.Legal (rnd : Rnd) : Prop := ∀ k b, b ≠ 0 → rnd k b < b

/-! ### metafo and geoip -/

/-- What a datacenter answers with, started on an empty result after `k` random draws. -/
def Dc.Answers (dc : Dc) (k : Nat) (r' : Result) : Prop :=
  match dc.what with
  | .inl (d, _) => r' = { cname := some d, draws := k }
  | .inr f => ∃ s, f { draws := k } = .ok (s, r')

/-- A resolver whose health is `dn` (down or not) and `t` (TTL) whatever the random stream,
and which never breaks. Proved of every plugin below. -/
def Healthy (f : Resolver) (dn : Bool) (t : Nat) : Prop :=
  ∀ k, ∃ s r', f { draws := k } = .ok (s, r') ∧ isDown s = dn ∧ ttl s = t ∧ Valid s

/-- The state of a datacenter before overrides. -/
def Dc.Computed (tbl : List UInt32) (dc : Dc) (dn : Bool) (t : Nat) : Prop :=
  match dc.what with
  | .inl (d, idx) => Dname.status d = .ok .valid ∧ InTbl tbl idx ∧ dn = !up tbl idx ∧ t = minTtl tbl idx
  | .inr f => Healthy f dn t

/-- The forced state of a slot, if it is forced. -/
def forcedAt (tbl : List UInt32) (slot : Nat) : Option UInt32 := tbl[slot]?.filter isForced

/-- The state that counts: forced for this datacenter, else forced for the map-wide
datacenter, else computed. -/
def Dc.state (tbl : List UInt32) (dc : Dc) (dn : Bool) (t : Nat) : Bool × Nat :=
  match (forcedAt tbl dc.dcIdx).or (dc.mapIdx.bind (forcedAt tbl)) with
  | some s => (isDown s, ttl s)
  | none => (dn, t)

/-- The slots of a datacenter exist. -/
def Dc.InTbl (tbl : List UInt32) (dc : Dc) : Prop :=
  dc.dcIdx < tbl.length ∧ ∀ m, dc.mapIdx = some m → m < tbl.length

/-- Whether a resource defines datacenter number `d`. -/
def MetaRes.defines (res : MetaRes) (d : UInt8) : Bool := (res.dcs[d.toNat]?.join).isSome

/-- What configuration guarantees: entry 0 unused, the counts are right. -/
def MetaRes.Ok (res : MetaRes) : Prop :=
  res.dcs.length = res.numDcs + 1 ∧ res.dcs[0]?.join.isNone ∧ res.numDefined = (res.dcs.filter Option.isSome).length

/-- The datacenters that are considered, in order: those of the client's list this resource
defines, without the first if `skip_first` is set and there is another. -/
def MetaRes.considered (res : MetaRes) (ds : Bytes) : Bytes :=
  let l := ds.filter res.defines
  if res.skipFirst ∧ 2 ≤ l.length then l.drop 1 else l

/-- `h` gives, for each of these datacenters, the state that counts. -/
def MetaRes.States (tbl : List UInt32) (res : MetaRes) (h : UInt8 → Bool × Nat) (ds : Bytes) : Prop :=
  ∀ d ∈ ds, ∀ dc, res.dcs[d.toNat]? = some (some dc) →
    dc.InTbl tbl ∧ ∃ dn t, dc.Computed tbl dn t ∧ h d = dc.state tbl dn t

/-- Smallest TTL of some datacenters. -/
def dcTtl (h : UInt8 → Bool × Nat) (ds : Bytes) : Nat := ds.foldl (fun n d => min n (h d).2) (2 ^ 28 - 1)

/-- A configured weighted address set: groups, `multi`, and the share `m / 2^k`. -/
structure WConf where
  groups : List (List WAddr)
  multi : Bool
  m : Nat
  k : Nat

/-- The structure `s` is what configuration `c` of one family gives, within the limits the
configuration code enforces or registers. -/
def WConf.Gives (lim : Limits) (tbl : List UInt32) (isv6 : Bool) (c : WConf) (s : WSet) : Prop :=
  GroupsOk tbl isv6 c.groups ∧ 0 < c.m ∧ c.m ≤ 2 ^ c.k ∧ mkSet c.groups c.multi c.m c.k = .ok s ∧
    maxAnswer c.groups c.multi ≤ (if isv6 then lim.v6 else lim.v4)

/-- What the configuration code checks for CNAME sets (weighted.c:430-470, 521-524). -/
def CnamesOk (tbl : List UInt32) (cs : List WCname) : Prop :=
  cs ≠ [] ∧ cs.length ≤ 64 ∧
    ∀ c ∈ cs, Dname.status c.dname = .ok .valid ∧ InTbl tbl c.idx ∧ 1 ≤ c.weight.toNat ∧ c.weight.toNat ≤ 1048575

/-- Total weight of the names that are up. -/
def cUpWeight (tbl : List UInt32) (cs : List WCname) : Nat :=
  natSum ((cs.filter fun c => up tbl c.idx).map (·.weight))

/-- Enough weight is up. -/
def WCSet.enough (tbl : List UInt32) (cs : List WCname) (s : WCSet) : Bool :=
  decide (s.upWeight.toNat ≤ cUpWeight tbl cs)

end Gdnsd.Plug
