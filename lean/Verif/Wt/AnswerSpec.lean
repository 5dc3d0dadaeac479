/-
What the resources of `weighted` answer, as the manual describes it, from the state of each address or name for each service
type.
-/
import Verif.Wt.Spec
import Verif.Res.AnswerSpec
import Verif.Plugins.Spec
namespace Gdnsd.WtSpec
open Svc (Addr Req Thing)
open Wt (ASet CSet Cname)

/-- The state of an address or a name for a service type, as the daemon publishes it. -/
abbrev States := Bytes → Thing → UInt32

/-- Something is up for all service types. -/
def healthy (f : States) (svcs : List Bytes) (x : Thing) : Bool := svcs.all fun s => !Mon.isDown (f s x)

/-- The TTLs of the states of something. -/
def ttls (f : States) (svcs : List Bytes) (x : Thing) : List Nat := svcs.map fun s => Mon.ttl (f s x)

/-- The address of an item is up. -/
def itemUp (f : States) (svcs : List Bytes) (p : Addr × UInt32) : Bool := healthy f svcs (.addr p.1)

/-- What the state of a name is kept for. -/
def nameOf (c : Cname) : Thing := .cname c.text c.dname

/-- The weight of the addresses that are up. -/
def weightUp (f : States) (s : ASet) : Nat := total ((s.groups.flatten.filter (itemUp f s.svcs)).map (·.2))

/-- Enough weight is up. -/
def enough (f : States) (s : ASet) : Bool := decide (s.up.toNat ≤ weightUp f s)

/-- Which addresses of a group may be answered: those that are up, or all if too little weight is up. -/
def eligible (f : States) (s : ASet) (g : List (Addr × UInt32)) : List Addr :=
  (if enough f s = true then g.filter (itemUp f s.svcs) else g).map (·.1)

/-- An answer from a set: with `multi` at most one address of each group, else some addresses of one group. -/
def Answer (f : States) (s : ASet) (as : List Addr) : Prop :=
  as ≠ [] ∧ if s.multi = true then Plug.OnePer (s.groups.map (eligible f s)) as else ∃ g ∈ s.groups, as.Sublist (eligible f s g)

/-- The TTLs that count for a set. -/
def setTtls (f : States) (s : ASet) : List Nat := s.groups.flatten.flatMap fun p => ttls f s.svcs (.addr p.1)

/-- The weight of the names that are up. -/
def namesUp (f : States) (s : CSet) : Nat := total ((s.names.filter fun c => healthy f s.svcs (nameOf c)).map (·.weight))

/-- Enough weight is up. -/
def enoughNames (f : States) (s : CSet) : Bool := decide (s.up.toNat ≤ namesUp f s)

/-- The TTLs that count for names. -/
def nameTtls (f : States) (s : CSet) : List Nat := s.names.flatMap fun c => ttls f s.svcs (nameOf c)

/-- A table has the states: what the index of each request refers to. -/
def Published (tbl : List UInt32) (rs : List Req) (is : List Nat) (f : States) : Prop :=
  ∀ (i : Nat) svc x, rs[i]? = some (.service svc x) → ∃ k, is[i]? = some k ∧ tbl[k]? = some (f svc x)

end Gdnsd.WtSpec
