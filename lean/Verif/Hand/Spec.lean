/-
What C124 asks for.
-/
import Verif.Hand.Model
import Verif.Extmon.Spec
import Verif.Util.Spec
open Gdnsd.Conf (str)
open Gdnsd.Extmon
namespace Gdnsd.HandSpec
open Hand

/-- Each argument has become the other, with the item in place of `%%ITEM%%`. -/
inductive Filled (thing : Bytes) : List Bytes → List Bytes → Prop where
  | nil : Filled thing [] []
  | cons {a b : Bytes} {l m : List Bytes} : UtilSpec.Replaced (str "%%ITEM%%") thing a b → Filled thing l m → Filled thing (a :: l) (b :: m)

/-- The command that a monitor asks for, with that number. -/
structure Asks (i : Nat) (m : Mon) (c : Cmd) : Prop where
  idx : c.idx = i
  timeout : c.timeout = m.timeout
  interval : c.interval = m.interval
  maxProc : c.maxProc = m.maxProc
  args : Filled m.thing m.args c.args
  desc : c.desc = m.desc

/-- Just those commands, in the order of the monitors. -/
def Commands (mons : List Mon) (cs : List Cmd) : Prop :=
  cs.length = mons.length ∧ ∀ i m, mons[i]? = some m → ∃ c, cs[i]? = some c ∧ Asks i m c

/-- Neither goes on. -/
def Over (s : Sys) : Prop := (s.dDead = true ∨ s.d = .done) ∧ (s.hDead = true ∨ ∃ cs, s.h = .done cs)

/-- How many of the events do anything. -/
def moves (cap : Nat) : List Ev → Sys → Nat
  | [], _ => 0
  | e :: l, s => match step cap e s with
    | .ub => 0
    | .ok t => (if t = s then 0 else 1) + moves cap l t

/-- Nobody is killed. -/
def Calm (l : List Ev) : Prop := Ev.killD ∉ l ∧ Ev.killH ∉ l

/-! ### Each of them with any other process -/

/-- What happens to one process: a call, or the other end of its pipes writes these bytes, reads some, or is closed. -/
inductive Ext where
  | call (k : Nat)
  | feed (b : Bytes)
  | drain (n : Nat)
  | hangup
deriving Repr, DecidableEq

def runH (cap : Nat) : List Ext → Sys → Outcome Sys
  | [], s => .ok s
  | .call k :: l, s => (stepH cap k s).bind (runH cap l)
  | .feed b :: l, s => runH cap l { s with up := s.up ++ b }
  | .drain n :: l, s => runH cap l { s with down := s.down.drop n }
  | .hangup :: l, s => runH cap l { s with dDead := true }

def runD (cap : Nat) : List Ext → Sys → Sys
  | [], s => s
  | .call k :: l, s => runD cap l (stepD cap k s)
  | .feed b :: l, s => runD cap l { s with down := s.down ++ b }
  | .drain n :: l, s => runD cap l { s with up := s.up.drop n }
  | .hangup :: l, s => runD cap l { s with hDead := true }

/-- All that the other one wrote. -/
def fed : List Ext → Bytes
  | [] => []
  | .feed b :: l => b ++ fed l
  | _ :: l => fed l

/-- What the helper is to be told for these commands. -/
def told (cs : List Cmd) : Bytes := str "HELO" ++ (str "CMDS:" ++ be16 cs.length) ++ (cs.map Cmd.wire).flatten ++ str "END_CMDS"

end Gdnsd.HandSpec
