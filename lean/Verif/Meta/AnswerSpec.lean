/-
What the resources of `metafo` and `geoip` answer, as the manual describes it, from the states of datacenters.
-/
import Verif.Meta.Spec
import Verif.Wt.AnswerSpec
namespace Gdnsd.MetaSpec
open Svc (Addr Req Thing)
open Meta (Dc Target Resource)
open WtSpec (States healthy ttls)
open Vscf VscfSpec ConfSpec SvcSpec

/-- A state that the administrator set: whether it is down, and its TTL. -/
def forced (s : UInt32) : Option (Bool × Nat) := if Mon.isForced s = true then some (Mon.isDown s, Mon.ttl s) else none

/-- The state of what a datacenter refers to: a name is down if it is for some service type. `sub`: the states of other resources. -/
def ownState (f : States) (sub : Bytes → Option Bytes → Bool × Nat) : Target → Bool × Nat
  | .cname t d svcs => (!healthy f svcs (.cname t d), (ttls f svcs (.cname t d)).foldl min (2 ^ 28 - 1))
  | .res p n => sub p n

/-- The state of a datacenter: what the administrator set for it in the resource (`g`), else for it in the map (`m`), else its own. -/
def stateOf (f : States) (sub : Bytes → Option Bytes → Bool × Nat) (g : Bytes → UInt32) (m : Nat → Option UInt32) (d : Dc) : Bool × Nat :=
  match forced (g d.name), (m d.idx).bind forced with
  | some s, _ => s
  | none, some s => s
  | none, none => ownState f sub d.target

/-- The datacenters that are considered: with `skip_first` not the first, if there is another. -/
def candidates (skip : Bool) (ds : List Dc) : List Dc := if skip = true ∧ 2 ≤ ds.length then ds.tail else ds

/-- The datacenter that answers: the first that is up, or the first if all are down; whether the result is down, and the
datacenters of which the TTL counts. -/
inductive Picks (st : Dc → Bool × Nat) : List Dc → Dc → Bool → List Dc → Prop
  | up {pre d post} : (∀ x ∈ pre, (st x).1 = true) → (st d).1 = false → Picks st (pre ++ d :: post) d false (pre ++ [d])
  | down {d ds} : (∀ x ∈ d :: ds, (st x).1 = true) → Picks st (d :: ds) d true (d :: ds)

/-- The datacenters of a list of numbers that the resource has. -/
inductive Chosen (dcs : List Dc) : List UInt8 → List Dc → Prop
  | nil : Chosen dcs [] []
  | skip {n ns ds} : (∀ d ∈ dcs, d.idx ≠ n.toNat) → Chosen dcs ns ds → Chosen dcs (n :: ns) ds
  | take {n ns d ds} : d ∈ dcs → d.idx = n.toNat → Chosen dcs ns ds → Chosen dcs (n :: ns) (d :: ds)

/-- What a datacenter answers with, after `k` random numbers: its name, or what the resource that it refers to answers. -/
def Says (resolve : Bytes → Option Bytes → Plug.Resolver) (t : Target) (k : Nat) (r : Plug.Result) : Prop :=
  match t with
  | .cname _ d _ => r = { cname := some d, draws := k }
  | .res p n => ∃ s, resolve p n { draws := k } = .ok (s, r)

/-- The state of the datacenters for the administrator: what is at the index that the request for the datacenter got, the first
of its requests. -/
def Administered (pn : Bytes) (tbl : List UInt32) (is : List Nat) (r : Resource) (g : Bytes → UInt32) : Prop :=
  ∀ (i : Nat) d, r.dcs[i]? = some d → ∃ k, (r.reqs pn)[((r.dcs.take i).flatMap (Dc.reqs pn r.name)).length]? = some (.admin (pn ++ nm "/" ++ r.name ++ nm "/" ++ d.name)) ∧
    is[((r.dcs.take i).flatMap (Dc.reqs pn r.name)).length]? = some k ∧ tbl[k]? = some (g d.name)

/-- What a resource answers, from the datacenters that are chosen for a client, in their order. -/
def Answered (resolve : Bytes → Option Bytes → Plug.Resolver) (st : Dc → Bool × Nat) (skip : Bool) (ds : List Dc) (scope : Nat) (res : Plug.Result) (out : Outcome (UInt32 × Plug.Result)) : Prop :=
  (candidates skip ds = [] ∧ out = .ok (2 ^ 28 - 1, { res with scope := max scope res.scope })) ∨
  ∃ d dn tried rv res' k, Picks st (candidates skip ds) d dn tried ∧ out = .ok (rv, { res' with scope := max scope res'.scope }) ∧
    MetaSpec.Says resolve d.target k res' ∧ Mon.isDown rv = dn ∧ ResSpec.IsMin ((2 ^ 28 - 1) :: tried.map fun d => (st d).2) (Mon.ttl rv)

end Gdnsd.MetaSpec
