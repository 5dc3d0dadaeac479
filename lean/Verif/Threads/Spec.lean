/-
What C120 asks for.
-/
import Verif.Threads.Model
namespace Gdnsd.ThreadsSpec
open Threads

/-- The states that can be reached. -/
inductive Reach (c : Cfg) : St → Prop
  | init : Reach c init
  | step {s s' : St} (e : Ev) : Reach c s → step c s e = .ok (some s') → Reach c s'

/-- A run of so many steps, in which waits do not end for no reason. -/
inductive Steps (c : Cfg) : Nat → St → St → Prop
  | refl (s : St) : Steps c 0 s s
  | step {n : Nat} {s s' s'' : St} (e : Ev) (he : e ≠ .spurious) : step c s e = .ok (some s') → Steps c n s' s'' → Steps c (n + 1) s s''

/-- Clients are served: the socket listens and statistics are kept. -/
def Up (p : Pc) : Prop := p = .counted ∨ p = .running

/-- The main thread has told that the daemon is ready. -/
def Told : Main → Prop
  | .spawn _ | .check | .wait | .ready => False
  | _ => True

/-- The daemon was asked to stop, and stops its threads. -/
def Stopping : Main → Prop
  | .tcpStop | .udpStop _ | .join _ | .final => True
  | _ => False

/-- The thread does not serve any more. -/
def Stopped (p : Pc) : Prop := p = .left ∨ p = .unregistered ∨ p = .gone

/-- Neither the main thread nor another can go on. -/
def Stuck (c : Cfg) (s : St) : Prop := step c s .main = .ok none ∧ ∀ i, step c s (.thread i) = .ok none

end Gdnsd.ThreadsSpec
