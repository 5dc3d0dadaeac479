/-
What is expected of the helper process, in terms of the log of what it does, latest entry first.
-/
import Verif.Extmon.HelperModel
namespace Gdnsd.Extmon

/-- The check of monitor `i` that has no result yet: its process and its start. -/
def inProg (i : Nat) : List Entry → Option (Nat × Nat)
  | [] => none
  | .start j p t :: l => if j = i then some (p, t) else inProg i l
  | .finish j _ _ :: l => if j = i then none else inProg i l
  | _ :: l => inProg i l

/-- The number of checks that have no result yet, of `n` monitors. -/
def busy (n : Nat) (l : List Entry) : Nat := (List.range n).countP fun i => (inProg i l).isSome

/-- A result on the wire. -/
def word (i : Nat) (failed : Bool) : Nat := i * 65536 + if failed then 0x4641 else 0x4F4B

/-- Whether a signal to end was received. -/
def quit : List Entry → Bool
  | [] => false
  | .term _ :: _ => true
  | _ :: l => quit l

/-- What is to be sent: the results, in their order, up to the signal, then the message that the
helper ends. -/
def words : List Entry → List Nat
  | [] => []
  | .finish i f _ :: l => if quit l then words l else words l ++ [word i f]
  | .term _ :: l => if quit l then words l else words l ++ [0xFFFFFFFF]
  | _ :: l => words l

/-- What is sent. -/
def sents : List Entry → List Nat
  | [] => []
  | .sent w :: l => sents l ++ [w]
  | _ :: l => sents l

/-- A log as it should be. -/
inductive Fine (cmds : List Cmd) : List Entry → Prop where
  | nil : Fine cmds []
  /-- A check starts if the one before has its result and the limit allows it, until the end. -/
  | start {l i p t c} : Fine cmds l → cmds[i]? = some c → inProg i l = none → quit l = false →
      (c.maxProc > 0 → busy cmds.length l < c.maxProc) → Fine cmds (.start i p t :: l)
  | kill {l i p t0} : Fine cmds l → inProg i l = some (p, t0) → Fine cmds (.kill p :: l)
  | reap {l p g} : Fine cmds l → Fine cmds (.reap p g :: l)
  /-- A check is good only if its process just ended with status 0. -/
  | good {l i p t0 t} : Fine cmds (.reap p true :: l) → inProg i l = some (p, t0) → Fine cmds (.finish i false t :: .reap p true :: l)
  | bad {l i p t0 t} : Fine cmds (.reap p false :: l) → inProg i l = some (p, t0) → Fine cmds (.finish i true t :: .reap p false :: l)
  /-- A check that takes too long has failed and is killed. -/
  | late {l i p t0 t c} : Fine cmds (.kill p :: l) → inProg i l = some (p, t0) → cmds[i]? = some c →
      (t0 + c.timeout * 10 ≤ t ∨ ∃ t1, .term t1 ∈ l ∧ t1 + 20 ≤ t) → Fine cmds (.finish i true t :: .kill p :: l)
  | term {l t} : Fine cmds l → Fine cmds (.term t :: l)
  | sent {l w} : Fine cmds l → Fine cmds (.sent w :: l)

/-- What the system can do. A process gets a number that no other has. -/
def Event.Can (h : Helper) : Event → Prop
  | .tick _ => True
  | .interval i pid => (∃ m d, h.mons[i]? = some m ∧ m.it = some d ∧ d ≤ h.now) ∧ ∀ j, (pid, j) ∉ h.procs
  | .timeout i => ∃ m d, h.mons[i]? = some m ∧ m.ct = some d ∧ d ≤ h.now
  | .exit pid _ => ∃ j, (pid, j) ∈ h.procs
  | .write _ => h.wOn = true
  | .term => True

/-- No callback is late by more than `L`. -/
def Event.Timely (L : Nat) (h : Helper) : Event → Prop
  | .tick d => ∀ m ∈ h.mons, (∀ t, m.it = some t → h.now + d ≤ t + L) ∧ (∀ t, m.ct = some t → h.now + d ≤ t + L)
  | _ => True

/-- When a check starts, the process of the check before has ended. -/
def Event.Reaped (h : Helper) : Event → Prop
  | .interval i _ => ∀ p, (p, i) ∉ h.procs
  | _ => True

/-- Executions, with the log. -/
inductive HRun (cmds : List Cmd) (ok : Helper → Event → Prop) : Helper → List Entry → Prop where
  | init (junk now) : HRun cmds ok (Helper.init junk cmds now) []
  | step {h log h' es} (junk e) : HRun cmds ok h log → h.ended = false → e.Can h → ok h e → h.step junk e = .ok (h', es) → HRun cmds ok h' (es ++ log)

/-- The commands of the helper: each is at its index (extmon_helper.c:419-427), their number has 16
bits (extmon_helper.c:403-410), and timeouts leave more than `2 * L` of the interval. -/
structure CmdsOk (cmds : List Cmd) (L : Nat) : Prop where
  idx : ∀ (i : Nat) (c : Cmd), cmds[i]? = some c → c.idx = i
  few : cmds.length < 65536
  gap : ∀ c ∈ cmds, c.timeout * 10 + 2 * L < c.interval * 10

end Gdnsd.Extmon
