/-
What is expected of the daemon's side of extmon, in terms of its updates, latest first.
-/
import Verif.Extmon.DaemonModel
import Verif.Extmon.HelperSpec
namespace Gdnsd.Extmon

/-- The monitor was updated. -/
def wasSeen (i : Nat) : List DEntry → Bool
  | [] => false
  | .upd j _ _ _ :: l => if j = i then true else wasSeen i l
  | .late j _ _ _ :: l => if j = i then true else wasSeen i l
  | _ :: l => wasSeen i l

/-- When a monitor was last updated, or else the present phase began. -/
def lastTime (i : Nat) : List DEntry → Nat
  | [] => 0
  | .upd j _ t _ :: l => if j = i then t else lastTime i l
  | .late j _ t _ :: l => if j = i then t else lastTime i l
  | .got _ :: l => lastTime i l
  | .begin t :: _ => t

/-- The words that were read. -/
def gots : List DEntry → List Nat
  | [] => []
  | .got w :: l => gots l ++ [w]
  | _ :: l => gots l

/-- The updates because of results: the number of the monitor, its index in the daemon, the update. -/
def updates : List DEntry → List (Nat × Nat × Upd)
  | [] => []
  | .upd i idx _ u :: l => updates l ++ [(i, idx, u)]
  | _ :: l => updates l

/-- Nothing is left to wait for: the loop of the daemon's start ends. -/
def Daemon.Idle (d : Daemon) : Prop := d.readOn = false ∧ ∀ m ∈ d.mons, m.timer = none

/-- What can happen: the second phase starts when the loop of the first ends. -/
def DEvent.Can (d : Daemon) : DEvent → Prop
  | .tick _ => True
  | .read _ => d.readOn = true
  | .timeout i => ∃ m t, d.mons[i]? = some m ∧ m.timer = some t ∧ t ≤ d.now
  | .start => d.initPhase = true ∧ d.Idle

/-- No callback is late by more than `L`. -/
def DEvent.Timely (L : Nat) (d : Daemon) : DEvent → Prop
  | .tick k => ∀ m ∈ d.mons, ∀ t, m.timer = some t → d.now + k ≤ t + L
  | _ => True

/-- Executions, with the log. -/
inductive DRun (kill : Bool) (mons : List DMon) (ok : Daemon → DEvent → Prop) : Daemon → List DEntry → Prop where
  | init (now) : DRun kill mons ok (Daemon.init kill mons now) [.begin now]
  | step {d log d' es} (e) : DRun kill mons ok d log → d.exited = false → e.Can d → ok d e → d.step e = .ok (d', es) → DRun kill mons ok d' (es ++ log)

/-- Results, in the order in which they were had. -/
def results : List Entry → List (Nat × Bool)
  | [] => []
  | .finish i f _ :: l => if quit l then results l else results l ++ [(i, f)]
  | _ :: l => results l

/-- The update for a result. -/
def updOf (mons : List DMon) (r : Nat × Bool) : Option (Nat × Nat × Upd) :=
  mons[r.1]?.map fun m => (r.1, m.idx, if m.direct then .sttl r.2 else .state (!r.2))

end Gdnsd.Extmon
