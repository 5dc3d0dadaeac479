/-
What the resources of `weighted` say, as the manual describes it (docs/gdnsd-plugin-weighted.podin).
-/
import Verif.Res.Spec
import Verif.Dname.Spec
import Verif.Wt.Model
namespace Gdnsd.WtSpec
open Vscf VscfSpec ConfSpec SvcSpec ResSpec
open Res (Lib)
open Svc (Addr)

/-- A value with a weight from 1 to 1048575: an array of two texts. -/
def Weighed (v : Val) (x : Val) (w : UInt32) : Prop :=
  ∃ r t m, v = .array [x, .simple r t] ∧ Signed t false m ∧ 1 ≤ m ∧ m ≤ 1048575 ∧ w.toNat = m

/-- An address of a family with a weight. -/
def IsItem (lib : Lib) (v6 : Bool) (v : Val) (p : Addr × UInt32) : Prop := ∃ x, Weighed v x p.2 ∧ IsAddr lib v6 x p.1

/-- A group of 1 to 64 addresses: a hash of labels. -/
def IsGroup (lib : Lib) (v6 : Bool) (v : Val) (g : List (Addr × UInt32)) : Prop :=
  ∃ es, v = .hash es ∧ g ≠ [] ∧ g.length ≤ 64 ∧ All (IsItem lib v6) (es.map (·.val)) g

/-- A fully qualified name with a weight: the escapes are those of names, and are not undone before. -/
def IsName (v : Val) (c : Wt.Cname) : Prop :=
  ∃ r t ls, Weighed v (.simple r t) c.weight ∧ UpToZero t c.text ∧ DnameSpec.NameText r ls true ∧ DnameSpec.WF ls ∧
    c.dname = DnameSpec.encode (ls.map (·.map DnameSpec.lower)) true

/-- The parameters of weighted, which are inherited. -/
def wtParams : List String := ["service_types", "multi", "up_thresh"]

/-- The sum of all weights. -/
def total (l : List UInt32) : Nat := (l.map (·.toNat)).sum

/-- Groups, or addresses without groups, with the parameters that apply to them. -/
structure SetOf (lib : Lib) (v6 : Bool) (levels : List (List (Entry Val))) (vals : List Val) (s : Wt.ASet) : Prop where
  some : vals ≠ []
  few : vals.length ≤ 64
  items : (∃ as, All (IsItem lib v6) vals as ∧ s.groups = as.map fun a => [a]) ∨ All (IsGroup lib v6) vals s.groups
  svcs : ∃ o, First levels "service_types" o ∧ SvcsOf o s.svcs
  multi : ∃ o, First levels "multi" o ∧ FlagOf o s.multi
  share : ∃ o m k, First levels "up_thresh" o ∧ ShareOf lib o m k ∧ Plug.uscaleCeil (total (s.groups.flatten.map (·.2))) m k = .ok s.up.toNat

/-- Names with the parameters that apply to them. -/
structure NamesOf (lib : Lib) (levels : List (List (Entry Val))) (vals : List Val) (s : Wt.CSet) : Prop where
  some : vals ≠ []
  few : vals.length ≤ 64
  names : All IsName vals s.names
  svcs : ∃ o, First levels "service_types" o ∧ SvcsOf o s.svcs
  share : ∃ o m k, First levels "up_thresh" o ∧ ShareOf lib o m k ∧ Plug.uscaleCeil (total (s.names.map (·.weight))) m k = .ok s.up.toNat

/-- An optional stanza. -/
def MaybeSet (lib : Lib) (v6 : Bool) (outer : List (List (Entry Val))) (opts : List (Entry Val)) (k : String) : Option Wt.ASet → Prop
  | none => Absent opts k
  | some s => ∃ es rest, Is opts k (.hash es) ∧ Others wtParams es rest ∧ SetOf lib v6 (es :: outer) (rest.map (·.val)) s

/-- The first of the values has a text that is no address. -/
def NoAddr (lib : Lib) (vals : List Val) : Prop := ∃ r t u w vs, vals = .array [.simple r t, w] :: vs ∧ UpToZero t u ∧ lib.addr u = none

/-- None of the stanzas is there. -/
def Direct (opts : List (Entry Val)) : Prop := Absent opts "addrs_v4" ∧ Absent opts "addrs_v6" ∧ Absent opts "cnames"

/-- A resource of weighted: with one or both of `addrs_v4` and `addrs_v6`, or else directly with addresses of one family or
with names. -/
inductive WeightedOf (lib : Lib) (config : List (Entry Val)) : Entry Val → Wt.Resource → Prop
  | split {e opts n s4 s6} : e.val = .hash opts → ¬ (Absent opts "addrs_v4" ∧ Absent opts "addrs_v6") → Only opts (["addrs_v4", "addrs_v6"] ++ wtParams) →
      UpToZero e.key n → MaybeSet lib false [opts, config] opts "addrs_v4" s4 → MaybeSet lib true [opts, config] opts "addrs_v6" s6 →
      WeightedOf lib config e ⟨n, none, s4, s6⟩
  | direct4 {e opts rest n s} : e.val = .hash opts → Direct opts → UpToZero e.key n → Others wtParams opts rest →
      SetOf lib false [opts, config] (rest.map (·.val)) s → WeightedOf lib config e ⟨n, none, some s, none⟩
  | direct6 {e opts rest n s} : e.val = .hash opts → Direct opts → UpToZero e.key n → Others wtParams opts rest →
      SetOf lib true [opts, config] (rest.map (·.val)) s → WeightedOf lib config e ⟨n, none, none, some s⟩
  | names {e opts rest n s} : e.val = .hash opts → Direct opts → UpToZero e.key n → Others wtParams opts rest →
      NoAddr lib (rest.map (·.val)) → NamesOf lib [opts, config] (rest.map (·.val)) s → WeightedOf lib config e ⟨n, some s, none, none⟩

/-- How many addresses the answers of a set may have: one of each group with `multi`, else one group. -/
def sizes (s : Wt.ASet) : List Nat := if s.multi = true then [s.groups.length] else s.groups.map (·.length)

/-- The sizes of all sets of a family. -/
def allSizes (f : Wt.Resource → Option Wt.ASet) (rs : List Wt.Resource) : List Nat := (rs.filterMap f).flatMap sizes

/-- No key in the configuration is empty. -/
def Labelled (v : Val) : Prop := ∀ es, Within v (.hash es) → ∀ e ∈ es, e.key ≠ []

end Gdnsd.WtSpec
