/-
What all of `options` says.
-/
import Verif.Conf.ListenSpec
namespace Gdnsd.ConfSpec
open Vscf VscfSpec Conf

/-- What a configuration is. -/
structure Config where
  runDir : Bytes
  stateDir : Bytes
  listeners : List Listener
  controls : List Control
  settings : Settings
  chaos : Bytes
  nsid : Option Bytes

/-- The value of a key, if there is one. -/
def ValueOf (es : List (Entry Val)) (k : String) : Option Val → Prop
  | none => Absent es k
  | some v => Is es k v

/-- Entries under `options` say this: all names are known, all values are in their ranges, and what is not said has its
default. With `force`, data of zones is checked strictly in any case. -/
structure Means (bad : Nat) (A : Bytes → Nat → Sin → Prop) (force : Bool) (run state : Bytes) (es : List (Entry Val)) (c : Config) : Prop where
  known : Only es (options ++ oldOptions)
  runDir : TextOf es "run_dir" (some run) (some c.runDir)
  stateDir : TextOf es "state_dir" (some state) (some c.stateDir)
  listeners : ∃ port n v, Globals es port n ∧ ValueOf es "listen" v ∧ Listens bad A port n v c.listeners
  controls : ∃ v, ValueOf es "tcp_control" v ∧ Controls A v c.controls
  settings : ∃ s, Says es s ∧ c.settings = { s with zonesStrictData := force || s.zonesStrictData }
  chaos : ∃ t, TextOf es "chaos_response" (some (nm "gdnsd/3")) (some t) ∧ t.length ≤ 254 ∧ c.chaos = chaosRecord t
  nsid : ∃ x y, TextOf es "nsid" none x ∧ TextOf es "nsid_ascii" none y ∧ Nsid x y c.nsid

end Gdnsd.ConfSpec
