/-
What the resources of `multifo` and `simplefo` say, as the manual describes it (docs/gdnsd-plugin-multifo.podin,
docs/gdnsd-plugin-simplefo.podin).
-/
import Verif.Conf.Spec
import Verif.Svc.Spec
import Verif.Res.Model
namespace Gdnsd.ResSpec
open Vscf VscfSpec ConfSpec SvcSpec Res
open Svc (Addr)

/-- What an option is in the innermost hash that has it. -/
inductive First : List (List (Entry Val)) → String → Option Val → Prop
  | none {k} : First [] k none
  | here {es l k v} : Is es k v → First (es :: l) k (some v)
  | next {es l k o} : Absent es k → First l k o → First (es :: l) k o

/-- The entries of a hash with other keys than these, in their order. -/
inductive Others (ks : List String) : List (Entry Val) → List (Entry Val) → Prop
  | nil : Others ks [] []
  | skip {e es l} : (∃ k ∈ ks, e.key = nm k) → Others ks es l → Others ks (e :: es) l
  | keep {e es l} : (∀ k ∈ ks, e.key ≠ nm k) → Others ks es l → Others ks (e :: es) (e :: l)

/-- The service types of an option: `up` if it is not there. -/
def SvcsOf : Option Val → List Bytes → Prop
  | none, l => l = [nm "up"]
  | some v, l => ∃ vs, Several v vs ∧ Texts vs l

/-- A share `m / 2^k`, above 0 and at most 1, of an option: one half if it is not there. -/
def ShareOf (lib : Lib) : Option Val → Nat → Nat → Prop
  | none, m, k => m = 1 ∧ k = 1
  | some v, m, k => ∃ r t, v = .simple r t ∧ lib.dbl t = some (.num false m k) ∧ 0 < m ∧ m ≤ 2 ^ k

/-- A truth value of an option: false if it is not there. -/
def FlagOf : Option Val → Bool → Prop
  | none, b => b = false
  | some v, b => ∃ r t, v = .simple r t ∧ Truth t b

/-- The text of an address of a family. -/
def IsAddr (lib : Lib) (v6 : Bool) (v : Val) (a : Addr) : Prop := ∃ r t u, v = .simple r t ∧ UpToZero t u ∧ lib.addr u = some a ∧ a.v6 = v6

/-- Parameters of multifo, which are inherited. -/
def mfParams : List String := ["up_thresh", "service_types", "ignore_health"]

/-- Addresses with the parameters that apply to them. -/
structure SetOf (lib : Lib) (v6 : Bool) (levels : List (List (Entry Val))) (vals : List Val) (s : ASet) : Prop where
  some : vals ≠ []
  addrs : All (IsAddr lib v6) vals s.as
  svcs : ∃ o, First levels "service_types" o ∧ SvcsOf o s.svcs
  share : ∃ o m k, First levels "up_thresh" o ∧ ShareOf lib o m k ∧ Plug.uscaleCeil s.as.length m k = .ok s.thresh
  ignore : ∃ o, First levels "ignore_health" o ∧ FlagOf o s.ignore

/-- A hash of labels and addresses with parameters, or just addresses. -/
inductive Stanza (lib : Lib) (v6 : Bool) (outer : List (List (Entry Val))) : Val → ASet → Prop
  | hash {es rest s} : Others mfParams es rest → SetOf lib v6 (es :: outer) (rest.map (·.val)) s → Stanza lib v6 outer (.hash es) s
  | list {v vs s} : (∀ es, v ≠ .hash es) → Several v vs → SetOf lib v6 outer vs s → Stanza lib v6 outer v s

/-- An optional stanza. -/
def MaybeStanza (lib : Lib) (v6 : Bool) (outer : List (List (Entry Val))) (opts : List (Entry Val)) (k : String) : Option ASet → Prop
  | none => Absent opts k
  | some s => ∃ v, Is opts k v ∧ Stanza lib v6 outer v s

/-- A resource of multifo: with one or both of `addrs_v4` and `addrs_v6`, or else directly with addresses of one family. -/
inductive MultiOf (lib : Lib) (config : List (Entry Val)) : Entry Val → MRes → Prop
  | split {e opts n s4 s6} : e.val = .hash opts → ¬ (Absent opts "addrs_v4" ∧ Absent opts "addrs_v6") → Only opts (["addrs_v4", "addrs_v6"] ++ mfParams) →
      UpToZero e.key n → MaybeStanza lib false [opts, config] opts "addrs_v4" s4 → MaybeStanza lib true [opts, config] opts "addrs_v6" s6 →
      MultiOf lib config e ⟨n, s4, s6⟩
  | direct4 {e n s} : (∀ opts, e.val = .hash opts → Absent opts "addrs_v4" ∧ Absent opts "addrs_v6") → UpToZero e.key n →
      Stanza lib false [config] e.val s → MultiOf lib config e ⟨n, some s, none⟩
  | direct6 {e n s} : (∀ opts, e.val = .hash opts → Absent opts "addrs_v4" ∧ Absent opts "addrs_v6") → UpToZero e.key n →
      Stanza lib true [config] e.val s → MultiOf lib config e ⟨n, none, some s⟩

/-- The greatest of some numbers. -/
def IsMax (l : List Nat) (n : Nat) : Prop := n ∈ l ∧ ∀ x ∈ l, x ≤ n

/-- How many addresses the resources have. -/
def sizes (f : MRes → Option ASet) (rs : List MRes) : List Nat := (rs.filterMap f).map fun s => s.as.length

/-- One value is inside of another. -/
inductive Within : Val → Val → Prop
  | refl {v} : Within v v
  | child {es e w} : e ∈ es → Within e.val w → Within (.hash es) w

/-- No `up_thresh` in the configuration is the text of "not a number". -/
def NoNan (lib : Lib) (v : Val) : Prop := ∀ es, Within v (.hash es) → ∀ r t, Is es "up_thresh" (.simple r t) → lib.dbl t ≠ some .nan

/-- No hash or array has 2^32 elements. -/
def Fits (v : Val) : Prop := (∀ es, Within v (.hash es) → es.length < 2 ^ 32) ∧ ∀ vs, Within v (.array vs) → vs.length < 2 ^ 32

/-! ### simplefo -/

/-- A pair of addresses of one family. -/
structure PairOf (lib : Lib) (v6 : Bool) (levels : List (List (Entry Val))) (es : List (Entry Val)) (s : PSet) : Prop where
  primary : ∃ v, Is es "primary" v ∧ IsAddr lib v6 v s.pri
  secondary : ∃ v, Is es "secondary" v ∧ IsAddr lib v6 v s.sec
  svcs : ∃ o, First levels "service_types" o ∧ SvcsOf o s.svcs
  only : Only es ["service_types", "primary", "secondary"]

/-- An optional pair. -/
def MaybePair (lib : Lib) (v6 : Bool) (outer : List (List (Entry Val))) (opts : List (Entry Val)) (k : String) : Option PSet → Prop
  | none => Absent opts k
  | some s => ∃ es, Is opts k (.hash es) ∧ PairOf lib v6 (es :: outer) es s

/-- A resource of simplefo. -/
inductive SimpleOf (lib : Lib) (config : List (Entry Val)) : Entry Val → SRes → Prop
  | split {e opts n s4 s6} : e.val = .hash opts → ¬ (Absent opts "addrs_v4" ∧ Absent opts "addrs_v6") → Only opts ["addrs_v4", "addrs_v6", "service_types"] →
      UpToZero e.key n → MaybePair lib false [opts, config] opts "addrs_v4" s4 → MaybePair lib true [opts, config] opts "addrs_v6" s6 →
      SimpleOf lib config e ⟨n, s4, s6⟩
  | direct4 {e opts n s} : e.val = .hash opts → UpToZero e.key n → PairOf lib false [opts, config] opts s → SimpleOf lib config e ⟨n, some s, none⟩
  | direct6 {e opts n s} : e.val = .hash opts → UpToZero e.key n → PairOf lib true [opts, config] opts s → SimpleOf lib config e ⟨n, none, some s⟩

end Gdnsd.ResSpec
