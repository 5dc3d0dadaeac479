/-
What a map is supposed to answer, in terms of datacenter lists instead of indices.
-/
import Verif.Maps.Model
import Verif.Geo.Spec
namespace Gdnsd.Maps
open Gdnsd.Geo

/-- The address bits of a configured network. -/
def NetCfg.bits (n : NetCfg) : List Bool := (n.entry 0).pfx.1

/-- An entry as the parser makes it. -/
def NetCfg.Wf (n : NetCfg) : Prop := (n.entry 0).Wf

/-- The datacenters for a record: `maps` are the lists of the `map` stanza. -/
def contOf (dflt : Bytes) (maps : List Bytes) : Option Src → Bytes
  | some (.fixed k) => maps[k]?.getD dflt
  | some (.near l) => l
  | none => dflt

/-- The datacenters for what a database walk ends with: 0 is an empty record, others are
numbered from 1. -/
def GeoCfg.lists (g : GeoCfg) (dflt : Bytes) (maps : List Bytes) : Nat → Bytes
  | 0 => dflt
  | off + 1 => contOf dflt maps (g.src.lookup off)

/-- The datacenters that a database gives to an address: following its bits leads to a
record. -/
def GeoCfg.Says (g : GeoCfg) (dflt : Bytes) (maps : List Bytes) (x : List Bool) (e : Bytes) : Prop :=
  if root g.isV4 <+: x then
    ∃ r, dbFollow ⟨g.read, (· + 1)⟩ (.node 0) (x.drop (root g.isV4).length) = some r ∧ e = g.lists dflt maps r
  else e = dflt

/-- The datacenters for an address: those of a configured network containing it; without
one, what the database says; without a database, the default. -/
def Made.Answer (m : Made) (dflt : Bytes) (maps : List Bytes) (x : List Bool) (e : Bytes) : Prop :=
  ((∃ n ∈ m.nets, n.bits <+: x) → ∃ n ∈ m.nets, n.bits <+: x ∧ e = n.dcs) ∧
  ((∀ n ∈ m.nets, ¬ n.bits <+: x) → match m.geo with | none => e = dflt | some g => g.Says dflt maps x e)

/-- Input that parsing can produce. -/
def Action.Wf (ignoreEcs : Bool) : Action → Prop
  | .nets (some cfg) => ∀ n ∈ cfg, n.Wf
  | .enter _ c => (c.addr ignoreEcs).Wf
  | _ => True

/-- Runs from a start state. -/
inductive Reach (sort : List Net → List Net) (s0 : State) : State → Prop
  | refl : Reach sort s0 s0
  | step {s s' : State} {a : Action} : Reach sort s0 s → a.Wf s.ignoreEcs → step sort s a = .ok (some s') → Reach sort s0 s'

/-! ### Automatic lists -/

/-- What comparing distances with `<` is like, when all are numbers or none is. -/
structure Weak (lt : Nat → Nat → Bool) : Prop where
  irrefl : ∀ a, lt a a = false
  asymm : ∀ a b, lt a b = true → lt b a = false
  negtrans : ∀ a b c, lt a b = false → lt b c = false → lt a c = false

/-- Datacenter `a` goes before `b`: it is closer, or equally far and before it in the
default list. -/
def Before (lt : Nat → Nat → Bool) (list0 : List Nat) (a b : Nat) : Prop :=
  lt a b = true ∨ (lt b a = false ∧ list0.idxOf a < list0.idxOf b)

end Gdnsd.Maps
