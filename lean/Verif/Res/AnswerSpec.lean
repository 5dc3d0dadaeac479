/-
What the resources of `multifo` and `simplefo` answer, as the manual describes it, from the state of each address for each
service type.
-/
import Verif.Res.Spec
import Verif.Plugins.Spec
namespace Gdnsd.ResSpec
open Res
open Svc (Addr Req)

/-- The state of an address for a service type, as the daemon publishes it. -/
abbrev States := Bytes → Addr → UInt32

/-- An address is up for all service types. -/
def healthy (f : States) (svcs : List Bytes) (a : Addr) : Bool := svcs.all fun s => !Mon.isDown (f s a)

/-- The TTLs of the states of an address. -/
def ttls (f : States) (svcs : List Bytes) (a : Addr) : List Nat := svcs.map fun s => Mon.ttl (f s a)

/-- The smallest of some numbers. -/
def IsMin (l : List Nat) (n : Nat) : Prop := n ∈ l ∧ ∀ x ∈ l, n ≤ x

/-- The addresses of a set that are up. -/
def ups (f : States) (s : ASet) : List Addr := s.as.filter (healthy f s.svcs)

/-- What is answered from a set. -/
def served (f : States) (s : ASet) : List Addr := if s.ignore = true then s.as else if s.thresh ≤ (ups f s).length then ups f s else s.as

/-- Too few are up. -/
def failed (f : States) (s : ASet) : Bool := decide ((ups f s).length < s.thresh)

/-- The TTLs that count for a set. -/
def setTtls (f : States) (s : ASet) : List Nat := s.as.flatMap (ttls f s.svcs)

/-- What is answered from a pair: the primary address unless only the secondary one is up. -/
def chosen (f : States) (s : PSet) : Addr := if healthy f s.svcs s.pri = false ∧ healthy f s.svcs s.sec = true then s.sec else s.pri

/-- Both are down. -/
def bothDown (f : States) (s : PSet) : Bool := !healthy f s.svcs s.pri && !healthy f s.svcs s.sec

/-- The TTLs that count for a pair: of the primary address while that is up, of both while only the secondary one is up, of the
secondary one while both are down. -/
def pairTtls (f : States) (s : PSet) : List Nat :=
  if healthy f s.svcs s.pri = true then ttls f s.svcs s.pri
  else if healthy f s.svcs s.sec = true then ttls f s.svcs s.pri ++ ttls f s.svcs s.sec
  else ttls f s.svcs s.sec

/-- A table has the states: what the index of each request refers to. -/
def Published (tbl : List UInt32) (rs : List Req) (is : List Nat) (f : States) : Prop :=
  ∀ (i : Nat) svc a, rs[i]? = some (.service svc (.addr a)) → ∃ k, is[i]? = some k ∧ tbl[k]? = some (f svc a)

/-- Bytes of a number, the most significant first. -/
def bigEndian : Nat → Nat → Bytes
  | 0, _ => []
  | k + 1, n => UInt8.ofNat (n / 256 ^ k) :: bigEndian k n

/-- The bytes of an address in an answer. -/
def wire : Plug.Addr → Bytes
  | .v4 x => bigEndian 4 x.toNat
  | .v6 x => bigEndian 16 x.toNat

/-- The bytes of an address of either family. -/
def Sized (a : Addr) : Prop := a.bytes.length = if a.v6 = true then 16 else 4

end Gdnsd.ResSpec
