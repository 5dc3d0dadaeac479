/-
What a map of `geoip` says, as the manual describes it (docs/gdnsd-plugin-geoip.podin, "CONFIGURATION - MAPS").
-/
import Verif.Svc.Spec
import Verif.Geo.Spec
import Verif.Maps.Spec
import Verif.Gmap.Model
namespace Gdnsd.GmapSpec
open Vscf VscfSpec ConfSpec SvcSpec
open Res (Dbl)
open Maps (NetCfg)
open Gmap (Lib Dc Sock Nets Gdmap Got GotNum Record)

/-! ### Lists of datacenters -/

/-- The number of a datacenter: the first place, from 1, where its name is. -/
def NumberOf (names : List Bytes) (d : Bytes) (n : Nat) : Prop := ∃ i : Nat, n = i + 1 ∧ names[i]? = some d ∧ ∀ j < i, names[j]? ≠ some d

/-- The numbers of several datacenters, in the same order. -/
inductive Numbers (names : List Bytes) : List Bytes → Bytes → Prop
  | nil : Numbers names [] []
  | cons {d ds n l} : NumberOf names d n → Numbers names ds l → Numbers names (d :: ds) (n.toUInt8 :: l)

/-- All datacenters, in their order. -/
def everyDc (names : List Bytes) : Bytes := (List.range' 1 names.length).map Nat.toUInt8

/-- What is written for a place or a network: datacenters, or the word `auto` where it is allowed, for which `none` stands. -/
inductive ListOf (names : List Bytes) (auto : Bool) (v : Val) : Option Bytes → Prop
  | auto {r t} : auto = true → Several v [.simple r t] → UpToZero t (nm "auto") → ListOf names auto v none
  | names {vs ds l} : Several v vs → Texts vs ds → Numbers names ds l → ListOf names auto v (some l)

/-! ### Places -/

/-- A `map` stanza, or a hash in it, that is allowed: lists, or for another key than `default`, hashes. -/
inductive Lawful (names : List Bytes) (auto : Bool) : List (Entry Val) → Prop
  | nil : Lawful names auto []
  | list {e es l} : ListOf names auto e.val l → Lawful names auto es → Lawful names auto (e :: es)
  | sub {k m fs es} : k ≠ nm "default" → Lawful names auto fs → Lawful names auto es → Lawful names auto (⟨k, m, .hash fs⟩ :: es)

/-- The list for everything in a scope that is not mentioned: that of `default`, or that of the enclosing scope. -/
inductive Default (names : List Bytes) (auto : Bool) (es : List (Entry Val)) (outer : Option Bytes) : Option Bytes → Prop
  | own {v r} : Is es "default" v → ListOf names auto v r → Default names auto es outer r
  | outer : Absent es "default" → Default names auto es outer outer

/-- Two bytes that are the same, or the same letter in two cases. -/
def SameByte (a b : UInt8) : Prop := a = b ∨ (65 ≤ a.toNat ∧ a.toNat ≤ 90 ∧ b.toNat = a.toNat + 32) ∨ (65 ≤ b.toNat ∧ b.toNat ≤ 90 ∧ a.toNat = b.toNat + 32)

/-- Two names that are the same up to the case of ASCII letters. -/
inductive SameName : Bytes → Bytes → Prop
  | nil : SameName [] []
  | cons {a b x y} : SameByte a b → SameName x y → SameName (a :: x) (b :: y)

/-- An entry for a name. -/
def For (e : Entry Val) (x : Bytes) : Prop := e.key ≠ nm "default" ∧ ∃ k, UpToZero e.key k ∧ SameName k x

/-- The value of the first entry for a name. -/
def First (es : List (Entry Val)) (x : Bytes) (v : Val) : Prop := ∃ pre e post, es = pre ++ e :: post ∧ For e x ∧ e.val = v ∧ ∀ f ∈ pre, ¬ For f x

/-- The list for a place, of which the names are known from the given level on: continent (0), country (1), and what is below it.
`outer` is the list of the enclosing scope. Below the country, names that are not mentioned are passed over. -/
inductive Leads (names : List Bytes) (auto : Bool) : List (Entry Val) → Option Bytes → Nat → List Bytes → Option Bytes → Prop
  | nothing {es outer n r} : Default names auto es outer r → Leads names auto es outer n [] r
  | list {es outer n x xs v r} : First es x v → ListOf names auto v r → Leads names auto es outer n (x :: xs) r
  | sub {es outer n x xs fs d r} : First es x (.hash fs) → Default names auto es outer d → Leads names auto fs d (n + 1) xs r →
      Leads names auto es outer n (x :: xs) r
  | unknown {es outer n x xs r} : (∀ e ∈ es, ¬ For e x) → n < 2 → Default names auto es outer r → Leads names auto es outer n (x :: xs) r
  | deeper {es outer n x xs r} : (∀ e ∈ es, ¬ For e x) → 2 ≤ n → Leads names auto es outer (n + 1) xs r → Leads names auto es outer n (x :: xs) r

/-- The same for a whole `map` stanza: outside of it are all datacenters, or with coordinates `auto`. -/
def Maps (names : List Bytes) (auto : Bool) (es : List (Entry Val)) (place : List Bytes) (r : Option Bytes) : Prop :=
  Leads names auto es (if auto = true then none else some (everyDc names)) 0 place r

/-- The list for clients of whom nothing is known: the `default` of the stanza if it is a list, else all datacenters. -/
def Fallback (names : List Bytes) (auto : Bool) (es : List (Entry Val)) (l : Bytes) : Prop :=
  (∃ v, Is es "default" v ∧ ListOf names auto v (some l)) ∨ ((∀ v, Is es "default" v → ListOf names auto v none) ∧ l = everyDc names)

/-! ### What a database says about a place -/

/-- A name in a record; an empty one is as good as none. -/
def NameIn (g : Got) (t : Bytes) : Prop := (∃ b, g = .text b ∧ b.length < 128 ∧ UpToZero b t) ∨ (g = .absent ∧ t = [])

/-- The names below a country, from a subdivision on: up to ten subdivisions, and the city when there are fewer. -/
inductive Below (r : Record) : Nat → List Bytes → Prop
  | limit : Below r 10 []
  | sub {i b t l} : i < 10 → r.sub i = .text b → b.length < 128 → UpToZero b t → t ≠ [] → Below r (i + 1) l → Below r i (t :: l)
  | blank {i b} : i < 10 → r.sub i = .text b → b.length < 128 → UpToZero b [] → Below r i []
  | city {i t} : i < 10 → r.sub i = .absent → NameIn r.city t → t ≠ [] → Below r i [t]
  | done {i} : i < 10 → r.sub i = .absent → NameIn r.city [] → Below r i []

/-- The names of a place from the continent on, as far as they are known without a gap. Only databases of cities have something below
countries. -/
inductive Place (city : Bool) (r : Record) : List Bytes → Prop
  | nowhere : NameIn r.continent [] → Place city r []
  | continent {c} : NameIn r.continent c → c ≠ [] → NameIn r.country [] → Place city r [c]
  | country {c k} : NameIn r.continent c → c ≠ [] → NameIn r.country k → k ≠ [] → city = false → Place city r [c, k]
  | below {c k l} : NameIn r.continent c → c ≠ [] → NameIn r.country k → k ≠ [] → city = true → Below r 0 l → Place city r (c :: k :: l)

/-! ### The other options -/

/-- At most so many degrees. -/
def Within (n : Nat) : Dbl → Prop
  | .nan => True
  | .inf _ => False
  | .num _ m k => m ≤ n * 2 ^ k

/-- Coordinates: latitude and longitude. Those with a latitude that is not a number count as none: see `C99_false_nan`. -/
inductive At (lib : Lib) (v : Val) : Option (Dbl × Dbl) → Prop
  | here {r a s b lat lon} : v = .array [.simple r a, .simple s b] → lib.dbl a = some lat → lib.dbl b = some lon → lat ≠ .nan → Within 90 lat → Within 180 lon → At lib v (some (lat, lon))
  | nan {r a s b lon} : v = .array [.simple r a, .simple s b] → lib.dbl a = some .nan → lib.dbl b = some lon → Within 180 lon → At lib v none

/-- The datacenters with their coordinates: every key of `auto_dc_coords` is the name of a datacenter, which has those; other
datacenters have none. -/
structure Located (lib : Lib) (names : List Bytes) (es : List (Entry Val)) (dcs : List Dc) : Prop where
  all : dcs.map Dc.name = names
  keys : ∀ e ∈ es, ∃ n d, UpToZero e.key d ∧ NumberOf names d n
  coords : ∀ (i : Nat) d, dcs[i]? = some d →
    (∃ e ∈ es, UpToZero e.key d.name ∧ NumberOf names d.name (i + 1) ∧ At lib e.val d.coords) ∨
    ((∀ e ∈ es, ∀ k, UpToZero e.key k → ¬ NumberOf names k (i + 1)) ∧ d.coords = none)

/-- `auto_dc_limit`: at most this many, of `n`; none is three, and zero is all. -/
inductive LimitOf (es : List (Entry Val)) (n : Nat) : Nat → Prop
  | unset : Absent es "auto_dc_limit" → LimitOf es n (min 3 n)
  | all {r t} : Is es "auto_dc_limit" (.simple r t) → Count t 0 → LimitOf es n n
  | set {r t l} : Is es "auto_dc_limit" (.simple r t) → Count t l → l ≠ 0 → LimitOf es n (min l n)

/-- A text that is not empty. -/
def PathOf (v : Val) (p : Bytes) : Prop := ∃ r t, v = .simple r t ∧ t ≠ [] ∧ UpToZero t p

/-- A network and its datacenters. Those in parts of IPv6 that stand for IPv4 are not allowed. -/
inductive NetOf (lib : Lib) (names : List Bytes) (e : Entry Val) : NetCfg → Prop
  | v4 {a m ip p l} : e.key.length < 86 → UpToZero e.key (a ++ 47 :: m) → 47 ∉ a → lib.sock a m = some (.v4 ip p) → p ≤ 32 →
      ListOf names false e.val (some l) → NetOf lib names e (.v4 ip p l)
  | v6 {a m ip p l} : e.key.length < 86 → UpToZero e.key (a ++ 47 :: m) → 47 ∉ a → lib.sock a m = some (.v6 ip p) → p ≤ 128 →
      (∀ x ∈ Geo.areas, ¬ x <+: (Geo.bits ip).take p) → ListOf names false e.val (some l) → NetOf lib names e (.v6 ip p l)

/-- All of them, in their order. -/
inductive NetsIn (lib : Lib) (names : List Bytes) : List (Entry Val) → List NetCfg → Prop
  | nil : NetsIn lib names [] []
  | cons {e es n ns} : NetOf lib names e n → NetsIn lib names es ns → NetsIn lib names (e :: es) (n :: ns)

/-- `nets`: networks, or a file. -/
inductive NetsOf (lib : Lib) (names : List Bytes) (es : List (Entry Val)) : Nets → Prop
  | unset : Absent es "nets" → NetsOf lib names es (.inline [])
  | inline {fs ns} : Is es "nets" (.hash fs) → NetsIn lib names fs ns → NetsOf lib names es (.inline ns)
  | file {v p} : Is es "nets" v → PathOf v p → NetsOf lib names es (.file p)

/-- The settings of a map, without its `map` stanza. -/
structure Settings where
  name : Bytes
  dcs : List Dc
  limit : Nat
  auto : Bool
  ignoreEcs : Bool
  db : Option Bytes
  nets : Nets

/-- What the options of a map say. -/
structure Says (lib : Lib) (key : Bytes) (es : List (Entry Val)) (s : Settings) : Prop where
  name : UpToZero key s.name
  dcs : ∃ v vs, Is es "datacenters" v ∧ Several v vs ∧ Texts vs (s.dcs.map Dc.name) ∧ 1 ≤ s.dcs.length ∧ s.dcs.length ≤ 254 ∧ nm "auto" ∉ s.dcs.map Dc.name
  coords : (Absent es "auto_dc_coords" ∧ s.auto = false ∧ (∀ d ∈ s.dcs, d.coords = none) ∧ LimitOf es s.dcs.length s.limit) ∨
    ∃ cs, Is es "auto_dc_coords" (.hash cs) ∧ s.auto = true ∧ Located lib (s.dcs.map Dc.name) cs s.dcs ∧ LimitOf es cs.length s.limit
  ecs : BoolOf es "ignore_ecs" false s.ignoreEcs
  db : (Absent es "geoip2_db" ∧ s.db = none) ∨ ∃ v p, Is es "geoip2_db" v ∧ PathOf v p ∧ s.db = some p
  map : Absent es "map" ∨ ∃ ms, Is es "map" (.hash ms) ∧ s.db ≠ none ∧ Lawful (s.dcs.map Dc.name) s.auto ms
  nets : NetsOf lib (s.dcs.map Dc.name) es s.nets
  keys : ∀ e ∈ es, e.key ∈ ["datacenters", "auto_dc_coords", "auto_dc_limit", "ignore_ecs", "geoip2_db", "map", "nets"].map nm

/-- The settings of all maps. -/
inductive AllSay (lib : Lib) : List (Entry Val) → List Settings → Prop
  | nil : AllSay lib [] []
  | cons {k m es es' s ss} : Says lib k es s → AllSay lib es' ss → AllSay lib (⟨k, m, .hash es⟩ :: es') (s :: ss)

/-- The `map` stanza of a map; having none is like an empty one. -/
def Stanza (es ms : List (Entry Val)) : Prop := Is es "map" (.hash ms) ∨ (Absent es "map" ∧ ms = [])

/-! ### Records -/

/-- A list of the datacenters that are closest, closest first; of those that are equally far, first the one that is earlier in
`l0`. -/
structure Nearest (closer : Nat → Nat → Bool) (limit n : Nat) (l0 l : Bytes) : Prop where
  length : l.length = limit
  nodup : l.Nodup
  known : ∀ a ∈ l, 1 ≤ a.toNat ∧ a.toNat ≤ n
  sorted : l.Pairwise fun a b => Maps.Before closer (l0.map UInt8.toNat) a.toNat b.toNat
  best : ∀ a ∈ l, ∀ b : UInt8, 1 ≤ b.toNat → b.toNat ≤ n → b ∉ l → Maps.Before closer (l0.map UInt8.toNat) a.toNat b.toNat

/-- What is closer to a location. -/
def Closer (lib : Lib) (dcs : List Dc) (lat lon : Dbl) (a b : Nat) : Bool := lib.closer (lat, lon) (dcs[a - 1]?.bind Dc.coords) (dcs[b - 1]?.bind Dc.coords)

/-- The datacenters for a record: as the stanza says; for `auto`, by distance if the location is known, else the default. -/
inductive Gives (lib : Lib) (s : Settings) (ms : List (Entry Val)) (place : List Bytes) (r : Record) : Bytes → Prop
  | listed {l} : Maps (s.dcs.map Dc.name) s.auto ms place (some l) → Gives lib s ms place r l
  | unplaced {l} : Maps (s.dcs.map Dc.name) s.auto ms place none → (r.lat = .absent ∨ r.lon = .absent) → Fallback (s.dcs.map Dc.name) s.auto ms l → Gives lib s ms place r l
  | near {lat lon l0 l} : Maps (s.dcs.map Dc.name) s.auto ms place none → r.lat = .num lat → r.lon = .num lon → Fallback (s.dcs.map Dc.name) s.auto ms l0 →
      Nearest (Closer lib s.dcs lat lon) s.limit s.dcs.length l0 l → Gives lib s ms place r l

/-- No text in a record is longer than 127 bytes. -/
structure Short (r : Record) : Prop where
  continent : ∀ t, r.continent = .text t → t.length < 128
  country : ∀ t, r.country = .text t → t.length < 128
  sub : ∀ i t, r.sub i = .text t → t.length < 128
  city : ∀ t, r.city = .text t → t.length < 128

/-- The default list, when there are coordinates, has every datacenter. -/
def Covers (s : Settings) (ms : List (Entry Val)) : Prop :=
  s.auto = true → ∀ l, Fallback (s.dcs.map Dc.name) s.auto ms l → (l.map UInt8.toNat).Perm (List.range' 1 s.dcs.length)

/-- The datacenters for a client by a database with records `recs` by offset: following the bits of the address leads to a record, or
to nothing, where the default is used. -/
def DbGives (lib : Lib) (s : Settings) (ms : List (Entry Val)) (city : Bool) (recs : List (Nat × Record)) (g : Maps.GeoCfg) (x : List Bool) (l : Bytes) : Prop :=
  if Geo.root g.isV4 <+: x then
    ∃ k, Geo.dbFollow ⟨g.read, (· + 1)⟩ (.node 0) (x.drop (Geo.root g.isV4).length) = some k ∧
      match k with
      | 0 => Fallback (s.dcs.map Dc.name) s.auto ms l
      | off + 1 =>
        match recs.lookup off with
        | none => Fallback (s.dcs.map Dc.name) s.auto ms l
        | some r => ∃ place, Place city r place ∧ Gives lib s ms place r l
  else Fallback (s.dcs.map Dc.name) s.auto ms l

/-! ### What is assumed -/

/-- A value that is not an array with more than 255 elements. -/
def Brief (v : Val) : Prop := ∀ vs, v = .array vs → vs.length ≤ 255

/-- Lists have at most 255 elements. -/
inductive Briefs : List (Entry Val) → Prop
  | nil : Briefs []
  | list {k m v es} : (∀ fs, v ≠ .hash fs) → Brief v → Briefs es → Briefs (⟨k, m, v⟩ :: es)
  | sub {k m fs es} : Briefs fs → Briefs es → Briefs (⟨k, m, .hash fs⟩ :: es)

mutual

/-- The number of entries in a value. -/
def weight : Val → Nat
  | .hash es => weights es
  | _ => 0

/-- The number of entries of a hash, with those in them. -/
def weights : List (Entry Val) → Nat
  | [] => 0
  | ⟨_, _, v⟩ :: es => 1 + weight v + weights es

end

/-- A configuration without what makes the program fail otherwise: lists have at most 255 elements, `ignore_ecs` is a text; and there
are fewer than 2^31 entries in the `map` stanza. -/
structure Tame (es : List (Entry Val)) : Prop where
  ecs : ∀ v, Is es "ignore_ecs" v → ∃ r t, v = .simple r t
  map : ∀ ms, Is es "map" (.hash ms) → Briefs ms ∧ weights ms < 2147483646
  nets : ∀ ns, Is es "nets" (.hash ns) → ∀ e ∈ ns, Brief e.val
  /-- Keys of `auto_dc_coords` have no zero bytes. -/
  coords : ∀ cs, Is es "auto_dc_coords" (.hash cs) → ∀ e ∈ cs, (0 : UInt8) ∉ e.key

/-- The C library gives addresses of the right size. -/
def Sized (lib : Lib) : Prop := ∀ a m, (∀ ip p, lib.sock a m = some (.v4 ip p) → ip.length = 4) ∧ (∀ ip p, lib.sock a m = some (.v6 ip p) → ip.length = 16)

end Gdnsd.GmapSpec
