/-
Which monitoring requests share a state, and what is monitored in the end.
-/
import Verif.Conf.Spec
import Verif.Svc.ReqModel
import Verif.Svc.Spec
namespace Gdnsd.SvcSpec
open Vscf VscfSpec ConfSpec Svc

/-- The same address (of the same family, whatever its port and scope), or the same name (however it is written). -/
inductive SameThing : Thing → Thing → Prop
  | addr {v6 bytes r r'} : SameThing (.addr ⟨v6, bytes, r⟩) (.addr ⟨v6, bytes, r'⟩)
  | cname {t t' d} : SameThing (.cname t d) (.cname t' d)

/-- Two requests for the same service of the same thing. -/
inductive SameReq : Req → Req → Prop
  | intro {svc t t'} : SameThing t t' → SameReq (.service svc t) (.service svc t')

/-- `x` is at place `i` and the first with `P`. -/
def FirstWith {α : Type} (P : α → Prop) (l : List α) (i : Nat) (x : α) : Prop :=
  l[i]? = some x ∧ P x ∧ ∀ j y, j < i → l[j]? = some y → ¬ P y

/-- What can be monitored: every plugin monitors addresses, all but `http_status` and `tcp_connect` monitor names. -/
inductive CanMonitor : Option Plug → Thing → Prop
  | addr {p a} : p ≠ some .resolver → CanMonitor p (.addr a)
  | cname {p t d} : p ≠ some .resolver → p ≠ some .http → p ≠ some .tcp → CanMonitor p (.cname t d)

/-- How something is written. -/
def Written (text : Addr → Option Bytes) : Thing → Bytes → Prop
  | .addr a, s => text a = some s
  | .cname t _, s => t = s

/-- The entries of `service_types`, none if it is absent. -/
def Entries (cfg : Option Val) (es : List (Entry Val)) : Prop := (cfg = none ∧ es = []) ∨ cfg = some (.hash es)

/-- A request that can be served: for a name that only the administrator changes, for the service types "up" and "down", or
for a service type of the configuration whose plugin monitors such things. -/
inductive Monitorable (es : List (Entry Val)) : Req → Prop
  | admin {desc} : Monitorable es (.admin desc)
  | special {svc t} : svc = nm "up" ∨ svc = nm "down" → Monitorable es (.service svc t)
  | type {svc t k e p fs} : FirstWith (fun e => ∃ p fs, Declares e svc p fs) es k e → Declares e svc p fs → CanMonitor (some p) t →
      Monitorable es (.service svc t)

/-- ASCII letters in lower case. -/
def Lower (s u : Bytes) : Prop := u = s.map fun c => if 65 ≤ c.toNat ∧ c.toNat ≤ 90 then (c.toNat + 32).toUInt8 else c

end Gdnsd.SvcSpec
