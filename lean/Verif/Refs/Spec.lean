/-
What references to resources should come to (C106).
-/
import Verif.Refs.Model
open Gdnsd.Conf (str)
namespace Gdnsd.RefsSpec
open Refs (Conf Kind Env Act Write Cells)
open Meta (Target Dc Resource)

/-- The first resource of a name. -/
inductive FirstOf (n : Bytes) : List Resource → Nat → Resource → Prop
  | here {r rs} : r.name = n → FirstOf n (r :: rs) 0 r
  | there {r rs i s} : r.name ≠ n → FirstOf n rs i s → FirstOf n (r :: rs) (i + 1) s

/-- `resource` or `resource/datacenter`. -/
inductive Splits : Bytes → Bytes → Option Bytes → Prop
  | plain {n} : 47 ∉ n → Splits n n none
  | slash {a b} : 47 ∉ a → Splits (a ++ 47 :: b) a (some b)

/-- The datacenter that is asked for: 0 for all, or its place in the list of names. -/
inductive Asked (names : List Bytes) : Option Bytes → Nat → Prop
  | all : Asked names none 0
  | one {dn i} : names[i]? = some dn → (∀ j < i, names[j]? ≠ some dn) → Asked names (some dn) (i + 1)

/-- Whether a name may be the answer to a record: only in a zone (DYNC), and not in that zone. -/
def Allowed (zone : Option Bytes) (d : Bytes) : Prop := ∃ z, zone = some z ∧ Dname.isInZone z d = .ok false

/-- The datacenters that matter. -/
def Matters (dc : Nat) (d : Dc) : Prop := dc = 0 ∨ d.idx = dc

/-- A resource that a record may refer to, with its number. -/
inductive Usable (c : Conf) (zone : Option Bytes) : Bytes → Option Bytes → Nat → Prop
  | leaf {p num cnames rn i} : Refs.find c p = some (.leaf num cnames) → num rn = some i → (∀ d ∈ cnames i, Allowed zone d) → Usable c zone p rn i
  | multi {p rs n base dn i r dc} (nums : Dc → Nat) : Refs.find c p = some (.multi rs) → Splits n base dn → FirstOf base rs i r → Asked r.names dn dc → dc < 128 →
      (∀ d ∈ r.dcs, Matters dc d → ∀ t x svcs, d.target = .cname t x svcs → Allowed zone x) →
      (∀ d ∈ r.dcs, Matters dc d → ∀ q m, d.target = .res q m → Usable c zone q m (nums d)) →
      Usable c zone p (some n) (i + dc * 2 ^ 24)

/-- The datacenter that is asked for, as the resolver wants it. -/
def only (names : List Bytes) : Option Bytes → UInt8
  | none => 0
  | some dn => UInt8.ofNat (Meta.dcIdx names dn)

/-- What a reference means, without numbers: the resource of that name, in which datacenters refer to others by their names, `k` deep. -/
def meaning (c : Conf) (env : Env) : Nat → Bytes → Option Bytes → Plug.Resolver
  | 0, _, _ => fun _ => .ub
  | k + 1, p, rn =>
    match Refs.find c p with
    | some (.leaf num _) => match num rn with | some i => env.leaf p i | none => fun _ => .ub
    | some (.multi rs) =>
      match rn with
      | none => fun _ => .ub
      | some n =>
        match rs.findIdx? fun r => r.name == (Refs.splitSlash n).1 with
        | none => fun _ => .ub
        | some i =>
          match rs[i]? with
          | none => fun _ => .ub
          | some r => Plug.metaResolve env.tbl (r.numbered p (meaning c env k) (env.map p i) (env.idx p i)) (only r.names (Refs.splitSlash n).2) (env.lists p i)
    | _ => fun _ => .ub

/-- What was configured is as `Verif/Meta` proves it to be: numbers of datacenters are their places in the list of names, each
has one, and there are fewer than 2^24 resources. -/
def Sound (c : Conf) : Prop := ∀ p rs, Refs.find c p = some (.multi rs) → rs.length ≤ 2 ^ 24 ∧ ∀ r ∈ rs, (∀ d ∈ r.dcs, 1 ≤ d.idx ∧ d.idx ≤ r.names.length) ∧ (r.dcs.map (·.idx)).Nodup

/-- Lists of stores done by several threads at the same time. -/
inductive Merge : List (List Write) → List Write → Prop
  | done {ls} : (∀ l ∈ ls, l = []) → Merge ls []
  | step {as bs w l ws} : Merge (as ++ l :: bs) ws → Merge (as ++ (w :: l) :: bs) (w :: ws)

/-- The number that belongs to a datacenter: that of the resource it refers to. -/
def Right (c : Conf) (s : Refs.Slot) (n : Nat) : Prop :=
  ∃ rs r d q m zone, Refs.find c s.plugin = some (.multi rs) ∧ rs[s.res]? = some r ∧ d ∈ r.dcs ∧ d.idx = s.dc ∧ d.target = .res q m ∧ Usable c zone q m n

/-- A reference that a zone has made: in which zone (none: for addresses), nested how deep, to what, and the number it got. -/
structure Ref where
  zone : Option Bytes
  deep : Nat
  plugin : Bytes
  res : Option Bytes
  num : Nat

/-- The reference was accepted. -/
def Ref.Accepted (c : Conf) (x : Ref) : Prop := (Refs.mapRes c x.zone x.deep x.plugin x.res).res = .ok x.num

def Ref.writes (c : Conf) (x : Ref) : List Write := (Refs.mapRes c x.zone x.deep x.plugin x.res).writes

/-- What is stored after any number of loads, each of any number of zones at the same time, that all succeed. -/
inductive Loaded (c : Conf) : List Ref → Cells → Prop
  | init : Loaded c [] fun _ => ⟨false, 0⟩
  | load {old σ new ws} : Loaded c old σ → (∀ x ∈ new, x.Accepted c) → Merge (new.map (Ref.writes c)) ws → Loaded c (new ++ old) (Refs.store σ ws)

/-- A name that can be compared with the name of the zone. -/
def Readable (zone : Option Bytes) (d : Bytes) : Prop := ∀ z, zone = some z → ∃ b, Dname.isInZone z d = .ok b

/-- References that lead to plugins that exist, and not back to where they came from. -/
inductive Grounded (c : Conf) (zone : Option Bytes) : Bytes → Option Bytes → Prop
  | monitor {p rn} : Refs.find c p = some .monitor → Grounded c zone p rn
  | leaf {p rn num cnames} : Refs.find c p = some (.leaf num cnames) → (∀ i, num rn = some i → ∀ d ∈ cnames i, Readable zone d) → Grounded c zone p rn
  | multi {p rn rs} : Refs.find c p = some (.multi rs) →
      (∀ n base dn i r, rn = some n → Splits n base dn → FirstOf base rs i r → r.names.length < 256) →
      (∀ n base dn i r d, rn = some n → Splits n base dn → FirstOf base rs i r → d ∈ r.dcs → ∀ t x svcs, d.target = .cname t x svcs → Readable zone x) →
      (∀ n base dn i r d, rn = some n → Splits n base dn → FirstOf base rs i r → d ∈ r.dcs → ∀ q m, d.target = .res q m → Grounded c zone q m) → Grounded c zone p rn

/-- What leaf plugins promise: the only names they answer with are those configured. -/
def Leaves (c : Conf) (env : Env) : Prop :=
  ∀ p num cnames i r s r', Refs.find c p = some (.leaf num cnames) → env.leaf p i r = .ok (s, r') → r.cname = none → ∀ d, r'.cname = some d → d ∈ cnames i

/-- The plugins that there are. -/
def pluginNames : List Bytes := [str "geoip", str "metafo", str "http_status", str "multifo", str "null", str "reflect", str "simplefo", str "static", str "tcp_connect", str "weighted", str "extfile", str "extmon"]

/-- Those that only monitor services. -/
def monitorNames : List Bytes := [str "http_status", str "tcp_connect", str "extfile", str "extmon"]

/-- The plugins with resources of their own, and the names of these. -/
def leafNames (c : Conf) : List (Bytes × List Bytes) :=
  [(str "multifo", c.multifo), (str "simplefo", c.simplefo), (str "static", c.fixed.map (·.1)), (str "weighted", c.weighted.map (·.1))]

end Gdnsd.RefsSpec
