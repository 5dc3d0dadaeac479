import Verif.Load.Spec
/-
The reply to a query, stated on the records of the zone files alone: no trees, no record sets.
-/
namespace Gdnsd.LoadSpec
open DnameSpec EncSpec Enc Load LookupSpec

/-- The names of a zone: its own, the owners of records, and what is between them. Names are
relative to the zone. -/
def InZone (l : List Add) (x : List Bytes) : Prop := x = [] ∨ ∃ r ∈ l, isOoz r.data = false ∧ x <:+ owner r

/-- `y` is the name whose data answer for `x`: itself, or the wildcard below the closest name
that exists (RFC 4592). -/
def Source (l : List Add) (x y : List Bytes) : Prop :=
  (InZone l x ∧ y = x) ∨
  (¬ InZone l x ∧ ∃ e, e <:+ x ∧ InZone l e ∧ (∀ s, s <:+ x → InZone l s → s <:+ e) ∧ InZone l ([42] :: e) ∧ y = [42] :: e)

/-- The CNAME `r` at `y` is followed to the name `d`. -/
def FollowsIn (w : World) (zone : List Bytes) (l : List Add) (t : Nat) (y : List Bytes) (r : Add) (d : List Bytes) : Prop :=
  r ∈ recsAt l y 5 ∧ t ≠ 5 ∧ t ≠ 255 ∧ w.follow zone ∧ zone <:+ d ∧ ∃ b, r.data = .cname b ∧ d = labelsOf b

/-- The client-subnet scope of a name's data: that of the plugin asked, if any. -/
def scopeIn (cfg : Cfg) (resolve : Nat → DynRes) (zone : List Bytes) (l : List Add) (x : List Bytes) (t : Nat) : Nat :=
  match recsAt l x 0xFF0F with
  | r :: _ =>
    match r.data with
    | .dync rhs _ => ((cfg.resource rhs (some (encode zone true))).map fun res => (resolve res).scope).getD 0
    | _ => 0
  | [] =>
    match recsAt l x t with
    | r :: _ =>
      match r.data with
      | .dyna rhs _ => ((cfg.resource rhs none).map fun res => (resolve res).scope).getD 0
      | _ => 0
    | [] => 0

/-- The reply of a zone for the name `q` of its own, answered from the data of `src`. -/
def finalIn (cfg : Cfg) (w : World) (t k : Nat) (zone : List Bytes) (l : List Add) (q : List Bytes) (src : Option (List Bytes)) : Reply :=
  let al := src.bind (aliasIn cfg w.resolve zone l)
  let ans := (src.map fun y => nameRecs cfg w.resolve zone l y q t).getD [] ++
    (if t = 16 ∧ al = none then (chalRecs w q).take k else [])
  let exists_ := src.isSome || matched w q
  let base : Reply := {
    aa := true
    additional := if t = 2 ∧ al = none then (src.map (allGlue cfg.ttls zone l)).getD [] else []
    scope := (src.map fun y => scopeIn cfg w.resolve zone l y t).getD 0 }
  if ans ≠ [] then { base with answer := ans }
  else if t = 255 ∧ exists_ = true then { base with answer := [hinfoRec q] }
  else { base with authority := served cfg.ttls zone 6 (recsAt l [] 6), rcode := if exists_ then 0 else 3 }

/-- Whether these are the zones: name and records. -/
abbrev Zones := List Bytes → List Add → Prop

/-- The reply to a query for `q` (in lower case) and the type `t`, from the names and records
of the zones: names in no zone are refused; names in a delegation get its NS records with all
glue; other names are answered from their own data or that of a wildcard, and CNAMEs are
followed inside the zone. `k` is how many challenge records there is room for. -/
inductive FileReply (cfg : Cfg) (w : World) (zones : Zones) (t k : Nat) : List Bytes → Reply → Prop
  | refused {q} : (∀ zone l, zones zone l → ¬ zone <:+ q) → FileReply cfg w zones t k q { rcode := 5 }
  | referral {zone l x c} : zones zone l → c ≠ [] → c <:+ x → recsAt l c 2 ≠ [] →
      FileReply cfg w zones t k (x ++ zone)
        { authority := served cfg.ttls (c ++ zone) 2 (recsAt l c 2), additional := allGlue cfg.ttls zone l c }
  | missing {zone l x} : zones zone l → delegated l x = false → (∀ y, ¬ Source l x y) →
      FileReply cfg w zones t k (x ++ zone) (finalIn cfg w t k zone l (x ++ zone) none)
  | data {zone l x y} : zones zone l → delegated l x = false → Source l x y → (∀ r d, ¬ FollowsIn w zone l t y r d) →
      FileReply cfg w zones t k (x ++ zone) (finalIn cfg w t k zone l (x ++ zone) (some y))
  | chain {zone l x y r d rep} : zones zone l → delegated l x = false → Source l x y → FollowsIn w zone l t y r d →
      FileReply cfg w zones t k d rep →
      FileReply cfg w zones t k (x ++ zone)
        { rep with aa := true, answer := ⟨x ++ zone, 5, ttlOf cfg.ttls r, pieces cfg.ttls r.data⟩ :: rep.answer }

/-- `n` CNAMEs can be followed from `q` on. -/
inductive Hops (w : World) (zones : Zones) (t : Nat) : List Bytes → Nat → Prop
  | none {q} : Hops w zones t q 0
  | hop {zone l x y r d n} : zones zone l → delegated l x = false → Source l x y → FollowsIn w zone l t y r d →
      Hops w zones t d n → Hops w zones t (x ++ zone) (n + 1)

/-! ### Rules -/

/-- All records of a name of the zone. -/
def recordsAt (l : List Add) (x : List Bytes) : List Add := l.filter fun r => !isOoz r.data && owner r == x

/-- The rules for the records of a zone. -/
structure Rules (zone : List Bytes) (l : List Add) : Prop where
  /-- One SOA, at the zone's name. -/
  soa : ∃ r, recsAt l [] 6 = [r] ∧ ∀ x, x ≠ [] → recsAt l x 6 = []
  /-- The zone has nameservers. -/
  ns : recsAt l [] 2 ≠ []
  /-- A CNAME or DYNC is alone at its name. -/
  alone : ∀ x r, r ∈ recsAt l x 5 ∨ r ∈ recsAt l x 0xFF0F → recordsAt l x = [r]
  /-- A DYNA is alone among the addresses of its name. -/
  dyna : ∀ x r rhs m, r ∈ recordsAt l x → r.data = .dyna rhs m → recsAt l x 1 = [r] ∧ recsAt l x 28 = [r]
  /-- No more than 64 nameservers. -/
  nsMax : ∀ x, (recsAt l x 2).length ≤ 64
  /-- Wildcards are not delegated, and nothing in a delegation is a wildcard. -/
  wild : ∀ x, x.head? = some [42] → recsAt l x 2 = [] ∧ (delegated l x = true → recordsAt l x = [])
  /-- No delegation inside another one. -/
  nested : ∀ c x, c ≠ [] → c <:+ x → recsAt l c 2 ≠ [] → recsAt l x 2 ≠ [] → c = x
  /-- In a delegation there are only addresses besides its NS records. -/
  addrs : ∀ x, delegated l x = true → ∀ r ∈ recordsAt l x, hasType 1 r.data = true ∨ hasType 28 r.data = true ∨ hasType 2 r.data = true
  /-- A nameserver in a delegation of the zone has addresses in the file, and they are static. -/
  glue : ∀ c y, ∀ r ∈ recsAt l c 2, nsName r.data = some (y ++ zone) → delegated l y = true →
    (recsAt l y 1 ≠ [] ∨ recsAt l y 28 ≠ []) ∧ ∀ a ∈ recordsAt l y, isStatic a.data = true
  /-- RFC 3597 syntax is only used for types (of 16 bits) that have no syntax of their own and
  are not reserved: not for A, NS, CNAME, SOA, PTR, HINFO, MX, TXT, AAAA, SRV, NAPTR, DYNC, 0
  and 128 to 255. -/
  generic : ∀ r ∈ l, ∀ t rd, r.data = .raw t rd → t.toNat % 65536 ∉ [0, 1, 2, 5, 6, 12, 13, 15, 16, 28, 33, 35, 0xFF0F] ∧
    ¬ (128 ≤ t.toNat % 65536 ∧ t.toNat % 65536 ≤ 255)
  /-- No number is larger than its field. -/
  numbers : ∀ r ∈ l, Numbers r.data

/-! ### Files -/

/-- What the scanner passes on for a file (`none` is a file it rejects). -/
def Scanned (f : File) : Prop :=
  ∀ zone l, NamesZone f.name zone → f.recs = some l → ∀ r ∈ l, RecOk zone r

/-- No name of the file has CNAME and NS records (see C63 for what happens otherwise). -/
def NoMix (f : File) : Prop :=
  ∀ zone l, NamesZone f.name zone → f.recs = some l → ∀ x, recsAt l x 5 = [] ∨ recsAt l x 2 = []

/-- The zones of a directory. -/
def zonesOf (files : List File) : Zones := fun zone l => ∃ f ∈ files, NamesZone f.name zone ∧ f.recs = some l

/-- No zone is at or below another one. -/
def Unrelated (files : List File) : Prop :=
  files.Pairwise fun f g => ∀ a b, NamesZone f.name a → NamesZone g.name b → ¬ a <:+ b ∧ ¬ b <:+ a

end Gdnsd.LoadSpec
