import Verif.Load.Model
import Verif.Lookup.Spec
import Verif.Rand.Spec
/-
What a loaded zone has to look like, stated on the records of its file and on names. From the
model it only uses the records themselves (`Add`, `Rdata`) and the settings.
-/
namespace Gdnsd.LoadSpec
open DnameSpec EncSpec Enc Load LookupSpec

/-! ### Records as the scanner passes them on -/

/-- The data of a record: names are legal, addresses have the length of their kind, an SOA
belongs to the zone's own name, numbers of unusual types fit in 16 bits. CNAME targets are in
lower case. -/
def DataOk (o : List Bytes) : Rdata → Prop
  | .a addr _ => addr.length = 4
  | .aaaa addr _ => addr.length = 16
  | .dyna _ _ => True
  | .cname d => NameOk d ∧ lowerName (labelsOf d) = labelsOf d
  | .dync _ _ => True
  | .ptr d => NameOk d
  | .ns d => NameOk d
  | .mx _ d => NameOk d
  | .srv _ _ _ d => NameOk d
  | .naptr _ _ _ d => NameOk d
  | .txt _ => True
  | .soa m n _ _ _ _ _ => NameOk m ∧ NameOk n ∧ o = []
  | .raw t rd => t.toNat < 65536 ∧ rd.length < 65536

/-- A record for the zone `zone`: an owner in the zone, given relative to it, or an address
of a name outside. -/
def RecOk (zone : List Bytes) (r : Add) : Prop :=
  ∃ o, r.dname = encode o true ∧ DataOk o r.data ∧
    if isOoz r.data then WF o ∧ ¬ zone <:+ o else WF (o ++ zone)

/-- What the plugins promise about the resources they accept: addresses of the right length,
valid states, and no more addresses than they announced (`dynaMax` for DYNA, 360 of a family
for DYNC; see C31 in Verif/Plugins). -/
structure PlugOk (cfg : Cfg) (resolve : Nat → DynRes) : Prop where
  dyna : ∀ rhs res, cfg.resource rhs none = some res → DynOk (resolve res) ∧
    (resolve res).v4.length * 16 ≤ cfg.dynaMax ∧ (resolve res).v6.length * 28 ≤ cfg.dynaMax
  dync : ∀ rhs origin res, cfg.resource rhs (some origin) = some res → Mon.Valid (resolve res).sttl ∧
    (∀ d, (resolve res).cname = some d → NameOk d) ∧
    (∀ a ∈ (resolve res).v4, a.length = 4) ∧ (∀ a ∈ (resolve res).v6, a.length = 16) ∧
    (resolve res).v4.length ≤ 360 ∧ (resolve res).v6.length ≤ 360

/-! ### The records of a name -/

/-- The owner of a record, below the zone. -/
def owner (r : Add) : List Bytes := labelsOf r.dname

/-- The types a record answers for: a DYNA is both A and AAAA. -/
def hasType (t : Nat) : Rdata → Bool
  | .a _ _ => t == 1
  | .aaaa _ _ => t == 28
  | .dyna _ _ => t == 1 || t == 28
  | .cname _ => t == 5
  | .dync _ _ => t == 0xFF0F
  | .ptr _ => t == 12
  | .ns _ => t == 2
  | .mx _ _ => t == 15
  | .srv _ _ _ _ => t == 33
  | .naptr _ _ _ _ => t == 35
  | .txt _ => t == 16
  | .soa _ _ _ _ _ _ _ => t == 6
  | .raw u _ => t == u.toNat

/-- The records of a type at a name of the zone, in the order of the file. -/
def recsAt (l : List Add) (x : List Bytes) (t : Nat) : List Add :=
  l.filter fun r => !isOoz r.data && (owner r == x && hasType t r.data)

/-- The addresses given for a name outside the zone. -/
def oozAt (l : List Add) (x : List Bytes) (t : Nat) : List Add :=
  l.filter fun r => isOoz r.data && (owner r == x && hasType t r.data)

/-- Numbers in records are in network order (RFC 1035 2.3.2). -/
def u16 (n : Nat) : Bytes := [UInt8.ofNat (n / 256), UInt8.ofNat n]
def u32 (n : Nat) : Bytes := u16 (n / 65536) ++ u16 (n % 65536)

/-- The negative-cache time of an SOA (C59). -/
def negTtl (g : Ttl.Cfg) (ncache : Nat) : Nat := Ttl.Spec.clamp g.minTtl.toNat g.maxNcache.toNat ncache

/-- The data of a record on the wire. -/
def pieces (g : Ttl.Cfg) : Rdata → List Piece
  | .a addr _ => [.bytes addr]
  | .aaaa addr _ => [.bytes addr]
  | .dyna _ _ => []
  | .cname d => [.name (labelsOf d)]
  | .dync _ _ => []
  | .ptr d => [.name (labelsOf d)]
  | .ns d => [.name (labelsOf d)]
  | .mx p d => [.bytes (u16 p.toNat), .name (labelsOf d)]
  | .srv p w po d => [.bytes (u16 p.toNat ++ u16 w.toNat ++ u16 po.toNat), .name (labelsOf d)]
  | .naptr o p text d => [.bytes (u16 o.toNat ++ u16 p.toNat ++ text), .name (labelsOf d)]
  | .txt text => [.bytes text]
  | .soa m n s rf rt ex nc => [.name (labelsOf m), .name (labelsOf n),
      .bytes (u32 s.toNat ++ u32 rf.toNat ++ u32 rt.toNat ++ u32 ex.toNat ++ u32 (negTtl g nc.toNat))]
  | .raw _ rd => [.bytes rd]

/-- The TTL a record set is served with if `r` is its first record (C16, C59). -/
def ttlOf (g : Ttl.Cfg) (r : Add) : Nat :=
  match r.data with
  | .soa _ _ _ _ _ _ nc => Ttl.Spec.clamp g.minTtl.toNat (negTtl g nc.toNat) r.ttl.toNat
  | .txt _ => if (owner r).head? = some acme then g.acmeDnsTtl.toNat
      else Ttl.Spec.clamp g.minTtl.toNat g.maxTtl.toNat r.ttl.toNat
  | _ => Ttl.Spec.clamp g.minTtl.toNat g.maxTtl.toNat r.ttl.toNat

/-- Static data. -/
def isStatic : Rdata → Bool
  | .dyna _ _ => false
  | .dync _ _ => false
  | _ => true

/-- The records a file gives for a name and a static type: the first record sets the TTL of
all of them. -/
def served (g : Ttl.Cfg) (q : List Bytes) (t : Nat) : List Add → List Rec
  | [] => []
  | r :: l => (r :: l).map fun x => ⟨q, t, ttlOf g r, pieces g x.data⟩

/-! ### Glue -/

/-- A name below the zone is in a delegation: there are NS records at or above it, below the
zone's own name. -/
def delegated (l : List Add) (x : List Bytes) : Bool :=
  l.any fun r => !isOoz r.data && (hasType 2 r.data && (!(owner r).isEmpty && (owner r).isSuffixOf x))

/-- The glue records of a nameserver: addresses the file has for it, if the name is in a
delegation of this zone or outside. -/
def glueFor (g : Ttl.Cfg) (zone : List Bytes) (l : List Add) (q : List Bytes) : List Rec :=
  if zone.isSuffixOf q then
    if delegated l (q.take (q.length - zone.length)) then
      served g q 1 (recsAt l (q.take (q.length - zone.length)) 1) ++ served g q 28 (recsAt l (q.take (q.length - zone.length)) 28)
    else []
  else served g q 1 (oozAt l q 1) ++ served g q 28 (oozAt l q 28)

/-- The nameserver of an NS record. -/
def nsName : Rdata → Option (List Bytes)
  | .ns d => some (labelsOf d)
  | _ => none

/-- All glue that goes with the NS records of a name. -/
def allGlue (g : Ttl.Cfg) (zone : List Bytes) (l : List Add) (x : List Bytes) : List Rec :=
  ((recsAt l x 2).filterMap fun r => nsName r.data).flatMap (glueFor g zone l)

/-! ### Everything a name answers with -/

/-- The TTL of data a plugin gives with the monitored TTL `s`, for a record with the TTL `ttl`
and the minimum `m` (C16). -/
def dynTtlOf (g : Ttl.Cfg) (ttl m : UInt32) (s : Nat) : Nat :=
  let hi := Ttl.Spec.clamp g.minTtl.toNat g.maxTtl.toNat ttl.toNat
  Ttl.Spec.clamp (min hi (max g.minTtl.toNat m.toNat)) hi s

/-- The addresses a plugin gave. -/
def dynRecs (q : List Bytes) (t ttl : Nat) (d : DynRes) : List Rec :=
  if t = 1 then d.v4.map fun a => ⟨q, 1, ttl, [.bytes a]⟩
  else if t = 28 then d.v6.map fun a => ⟨q, 28, ttl, [.bytes a]⟩
  else []

/-- The alias at a name of the zone: the CNAME of the file, or the one the plugin of a DYNC
gave. -/
def aliasIn (cfg : Cfg) (resolve : Nat → DynRes) (zone : List Bytes) (l : List Add) (x : List Bytes) : Option (Nat × List Bytes) :=
  match recsAt l x 5, recsAt l x 0xFF0F with
  | r :: _, _ => match r.data with | .cname d => some (ttlOf cfg.ttls r, labelsOf d) | _ => none
  | [], r :: _ =>
    match r.data with
    | .dync rhs m => (cfg.resource rhs (some (encode zone true))).bind fun res =>
        (resolve res).cname.map fun d => (dynTtlOf cfg.ttls r.ttl m (Mon.ttl (resolve res).sttl), labelsOf d)
    | _ => none
  | [], [] => none

/-- The records of type `t` at a name of the zone that is no alias: those of the file, or what
the plugins of a DYNA or DYNC gave. -/
def typedIn (cfg : Cfg) (resolve : Nat → DynRes) (zone : List Bytes) (l : List Add) (x q : List Bytes) (t : Nat) : List Rec :=
  match recsAt l x 0xFF0F with
  | r :: _ =>
    match r.data with
    | .dync rhs m => ((cfg.resource rhs (some (encode zone true))).map fun res =>
        dynRecs q t (dynTtlOf cfg.ttls r.ttl m (Mon.ttl (resolve res).sttl)) (resolve res)).getD []
    | _ => []
  | [] =>
    match recsAt l x t with
    | [] => []
    | r :: rest =>
      match r.data with
      | .dyna rhs m => ((cfg.resource rhs none).map fun res =>
          dynRecs q t (dynTtlOf cfg.ttls r.ttl m (Mon.ttl (resolve res).sttl)) (resolve res)).getD []
      | _ => served cfg.ttls q t (r :: rest)

/-- The records in the answer for the owner `q`, from the data the file has for `x`. (These
differ if `x` is a wildcard.) ANY gets no records of a name without an alias. -/
def nameRecs (cfg : Cfg) (resolve : Nat → DynRes) (zone : List Bytes) (l : List Add) (x q : List Bytes) (t : Nat) : List Rec :=
  match aliasIn cfg resolve zone l x with
  | some (ttl, d) => [⟨q, 5, ttl, [.name d]⟩]
  | none => if t = 255 then [] else typedIn cfg resolve zone l x q t

/-! ### Zone names -/

/-- The name a zone file's name spells: `@` stands for a slash, and `ROOT_ZONE` is the root. -/
def fileText (fn : Bytes) : Bytes :=
  if fn = [82, 79, 79, 84, 95, 90, 79, 78, 69] then [46] else fn.map fun c => if c = 64 then 47 else c

/-- A file is for the zone `zn`: its name is the text of a legal name that is no wildcard. -/
def NamesZone (fn : Bytes) (zn : List Bytes) : Prop :=
  fn.length ≤ 1004 ∧ ∃ ls q, NameText (fileText fn) ls q ∧ WF ls ∧ ls.head? ≠ some [42] ∧ zn = lowerName ls

/-- The numbers of MX, SRV and NAPTR records have 16 bits. -/
def Numbers : Rdata → Prop
  | .mx p _ => p.toNat ≤ 65535
  | .srv p w o _ => p.toNat ≤ 65535 ∧ w.toNat ≤ 65535 ∧ o.toNat ≤ 65535
  | .naptr o p _ _ => o.toNat ≤ 65535 ∧ p.toNat ≤ 65535
  | _ => True

end Gdnsd.LoadSpec
