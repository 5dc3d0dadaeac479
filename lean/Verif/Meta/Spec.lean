/-
What the resources of `metafo` and `geoip` say, as the manual describes it (docs/gdnsd-plugin-metafo.podin,
docs/gdnsd-plugin-geoip.podin).
-/
import Verif.Res.Spec
import Verif.Dname.Spec
import Verif.Vscf.CloneSpec
import Verif.Meta.Model
namespace Gdnsd.MetaSpec
open Vscf VscfSpec ConfSpec SvcSpec
open ResSpec (Others SvcsOf FlagOf)
open Res (Lib)
open Meta (Target Dc Resource)

/-- A number in decimal. -/
inductive Decimal : Nat → Bytes → Prop
  | one {n} : n < 10 → Decimal n [(48 + n).toUInt8]
  | more {n ds} : 10 ≤ n → Decimal (n / 10) ds → Decimal n (ds ++ [(48 + n % 10).toUInt8])

/-- Entries that a hash inherits: those with other keys than its own and than these. -/
inductive Inherits (ks : List Bytes) (own : List (Entry Val)) : List (Entry Val) → List (Entry Val) → Prop
  | nil : Inherits ks own [] []
  | skip {e es l} : e.key ∈ ks ∨ Has own e.key → Inherits ks own es l → Inherits ks own (e :: es) l
  | take {e es l} : e.key ∉ ks → ¬ Has own e.key → Inherits ks own es l → Inherits ks own (e :: es) (e :: l)

/-- Texts with the keys `n`, `n + 1`, … -/
inductive Labels : Nat → List Val → List (Entry Val) → Prop
  | nil {n} : Labels n [] []
  | cons {n d r t vs es} : Decimal n d → Labels (n + 1) vs es → Labels n (.simple r t :: vs) (⟨d, false, .simple r t⟩ :: es)

/-- The options of a datacenter: a hash, or addresses for `multifo` with the labels 1, 2, … -/
inductive Options : Val → List (Entry Val) → Prop
  | hash {es} : Options (.hash es) es
  | list {v vs es} : (∀ es, v ≠ .hash es) → Several v vs → Labels 1 vs es →
      Options v (⟨nm "plugin", false, .simple (nm "multifo") (nm "multifo")⟩ :: es)

/-- Something is done to the hash at a key, or to an empty one that is put there. -/
inductive Within (k : Bytes) (P : List (Entry Val) → List (Entry Val) → Prop) : List (Entry Val) → List (Entry Val) → Prop
  | new {es fs} : ¬ Has es k → P [] fs → Within k P es (es ++ [⟨k, false, .hash fs⟩])
  | old {es m fs fs' es'} : ¬ Has es k → P fs fs' → Within k P (es ++ ⟨k, m, .hash fs⟩ :: es') (es ++ ⟨k, m, .hash fs'⟩ :: es')

/-- A resource that was not there is put last. -/
def NewResource (name : Bytes) (opts : List (Entry Val)) (es es' : List (Entry Val)) : Prop := ¬ Has es name ∧ es' = es ++ [⟨name, false, .hash opts⟩]

/-- The stanza of a plugin gets a new resource; those of `metafo` are in its `resources`. -/
def Synthesized (plugin name : Bytes) (opts : List (Entry Val)) (tops tops' : List (Entry Val)) : Prop :=
  (plugin ≠ nm "metafo" ∧ Within plugin (NewResource name opts) tops tops') ∨
  (plugin = nm "metafo" ∧ Within plugin (Within (nm "resources") (NewResource name opts)) tops tops')

/-- The plugin of some options: `multifo` if they do not say. -/
def PlugOf (es : List (Entry Val)) (p : Bytes) : Prop := TextOf es "plugin" (some (nm "multifo")) (some p)

/-- The option `service_types` of a resource. -/
def SvcTypes (es : List (Entry Val)) (l : List Bytes) : Prop := (Absent es "service_types" ∧ SvcsOf none l) ∨ ∃ v, Is es "service_types" v ∧ SvcsOf (some v) l

/-- The text of a reference. -/
def Reference (u : Bytes) : Prop := ∃ x, u = 37 :: x ∨ u = 33 :: x

/-- What is written as a `!resource` of the default plugin. -/
def Short (v : Val) : Prop := ∃ r t n, v = .simple r t ∧ UpToZero t (33 :: n)

/-- What a datacenter is: a resource of a plugin, or a name, or options from which a resource is made.
`keys` are the keys of the resource that are not inherited. -/
inductive Means (lib : Lib) (pn rn dn : Bytes) (keys : List Bytes) (res : List (Entry Val)) : Val → List (Entry Val) → Target → List (Entry Val) → Prop
  | reference {r t p n tops} : UpToZero t (37 :: (p ++ 33 :: n)) → 33 ∉ p → ¬ (p = pn ∧ n = rn) → Means lib pn rn dn keys res (.simple r t) tops (.res p (some n)) tops
  | plugin {r t p tops} : UpToZero t (37 :: p) → 33 ∉ p → p ≠ pn → Means lib pn rn dn keys res (.simple r t) tops (.res p none) tops
  | short {r t p n tops} : UpToZero t (33 :: n) → PlugOf res p → ¬ (p = pn ∧ n = rn) → Means lib pn rn dn keys res (.simple r t) tops (.res p (some n)) tops
  | name {r t u ls svcs tops} : UpToZero t u → ¬ Reference u → lib.addr u = none → DnameSpec.NameText r ls true → DnameSpec.WF ls → SvcTypes res svcs →
      Means lib pn rn dn keys res (.simple r t) tops (.cname u (DnameSpec.encode (ls.map (·.map DnameSpec.lower)) true) svcs) tops
  | options {v own l p opts tops tops'} : (∀ r t, v = .simple r t → ∃ u a, UpToZero t u ∧ ¬ Reference u ∧ lib.addr u = some a) →
      Options v own → Inherits keys own res l → PlugOf (own ++ l) p → p ≠ pn → Others ["plugin"] (own ++ l) opts →
      Synthesized p (pn ++ nm "_" ++ rn ++ nm "_" ++ dn) opts tops tops' →
      Means lib pn rn dn keys res v tops (.res p (some (pn ++ nm "_" ++ rn ++ nm "_" ++ dn))) tops'

/-- The number of a datacenter: the first place, from 1, where its name is. -/
def NumberOf (names : List Bytes) (dn : Bytes) (n : Nat) : Prop := ∃ i, n = i + 1 ∧ names[i]? = some dn ∧ ∀ j < i, names[j]? ≠ some dn

/-- The datacenters of a resource, in their order. The key `plugin` of the resource is inherited by a datacenter only if none
before it is written as `!resource` (`short`): the manual does not say so. -/
inductive Datacenters (lib : Lib) (pn rn : Bytes) (names : List Bytes) (keys : List Bytes) (res : List (Entry Val)) :
    Bool → List (Entry Val) → List (Entry Val) → List Dc → List (Entry Val) → Prop
  | nil {short tops} : Datacenters lib pn rn names keys res short [] tops [] tops
  | cons {short short' e es tops n dn t tops' ds tops''} : UpToZero e.key dn → NumberOf names dn n →
      Means lib pn rn dn (if short = true then nm "plugin" :: keys else keys) res e.val tops t tops' →
      (short' = true ↔ short = true ∨ Short e.val) →
      Datacenters lib pn rn names keys res short' es tops' ds tops'' →
      Datacenters lib pn rn names keys res short (e :: es) tops (⟨n, dn, t⟩ :: ds) tops''

/-- One of the two plugins: its name, the key with the datacenters, keys of the top level that are not inherited, and what the
options say: whether datacenters may be left out, and which datacenters are meant. -/
structure Plugin where
  name : Bytes
  key : Bytes
  used : List Bytes
  Names : List (Entry Val) → Bool → Val → List Bytes → Prop

/-- A resource. `full` are its options with those that it inherits. -/
structure ResourceOf (lib : Lib) (p : Plugin) (config : List (Entry Val)) (e : Entry Val) (tops : List (Entry Val)) (r : Resource) (tops' : List (Entry Val)) : Prop where
  name : UpToZero e.key r.name
  all : ∃ own l full undef v dcs, e.val = .hash own ∧ Inherits (nm "resources" :: p.used) own config l ∧ full = own ++ l ∧
    (∃ e ∈ full, e.key = p.key ∧ e.val = v) ∧ p.Names config undef v r.names ∧ BoolOf full "skip_first" false r.skip ∧
    Is full "dcmap" (.hash dcs) ∧ (if undef = true then dcs ≠ [] else dcs.length = r.names.length) ∧
    Datacenters lib p.name r.name r.names [p.key, nm "skip_first", nm "dcmap"] full false dcs tops r.dcs tops'

/-- All resources, in their order. -/
inductive ResourcesOf (lib : Lib) (p : Plugin) (config : List (Entry Val)) : List (Entry Val) → List (Entry Val) → List Resource → List (Entry Val) → Prop
  | nil {tops} : ResourcesOf lib p config [] tops [] tops
  | cons {e es tops r tops' rs tops''} : ResourceOf lib p config e tops r tops' → ResourcesOf lib p config es tops' rs tops'' →
      ResourcesOf lib p config (e :: es) tops (r :: rs) tops''

/-- A stanza of the plugin. -/
def Loads (lib : Lib) (p : Plugin) (config tops : List (Entry Val)) (rs : List Resource) (tops' : List (Entry Val)) : Prop :=
  ∃ es, Is config "resources" (.hash es) ∧ es ≠ [] ∧ es.length ≤ 2 ^ 24 ∧ ResourcesOf lib p config es tops rs tops'

/-- metafo: a list of datacenters, all of which must be there. -/
def metafo : Plugin := ⟨nm "metafo", nm "datacenters", [], fun _ undef v ns => undef = false ∧ ns ≠ [] ∧ ∃ vs, (∀ es, v ≠ .hash es) ∧ Several v vs ∧ Texts vs ns⟩

/-- geoip: the name of a map. `gdmaps` are the maps of the configuration, with their datacenters. -/
def geoip (gdmaps : List (Entry Val) → Option (List (Bytes × List Bytes))) : Plugin :=
  ⟨nm "geoip", nm "map", [nm "maps", nm "undefined_datacenters_ok"], fun es undef v ns => ns ≠ [] ∧ BoolOf es "undefined_datacenters_ok" false undef ∧
    ∃ ms tab r t u, ∃ i : Nat, Is es "maps" (.hash ms) ∧ ms ≠ [] ∧ gdmaps ms = some tab ∧ v = .simple r t ∧ UpToZero t u ∧
      tab[i]? = some (u, ns) ∧ ∀ j < i, ∀ m : Bytes × List Bytes, tab[j]? = some m → m.1 ≠ u⟩

/-- No key has a zero byte. -/
def WholeKeys (v : Val) : Prop := ∀ es, ResSpec.Within v (.hash es) → ∀ e ∈ es, (0 : UInt8) ∉ e.key

/-- All stanzas are hashes, and so is what `metafo` has as `resources`. -/
def Stanzas (tops : List (Entry Val)) : Prop := ∀ e ∈ tops, ∃ fs, e.val = .hash fs ∧ (e.key = nm "metafo" → ∀ f ∈ fs, f.key = nm "resources" → ∃ rs, f.val = .hash rs)

/-- No `skip_first` is something else than a text, and no text is a reference to the plugin itself without a resource. -/
def Tame (name : Bytes) (config : List (Entry Val)) : Prop := ∀ es, ResSpec.Within (.hash config) (.hash es) → ∀ e ∈ es,
  (e.key = nm "skip_first" → ∃ r t, e.val = .simple r t) ∧ ∀ r t, e.val = .simple r t → ¬ UpToZero t (37 :: name)

/-- The stanza of a plugin has a resource. -/
def At (tops : List (Entry Val)) (plugin name : Bytes) (v : Val) : Prop :=
  ∃ m fs, ⟨plugin, m, .hash fs⟩ ∈ tops ∧
    if plugin = nm "metafo" then ∃ m' rs m'', ⟨nm "resources", m', .hash rs⟩ ∈ fs ∧ ⟨name, m'', v⟩ ∈ rs else ∃ m', ⟨name, m', v⟩ ∈ fs

end Gdnsd.MetaSpec
