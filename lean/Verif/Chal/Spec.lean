/-
What challenge data mean, and runs.
-/
import Verif.Chal.Model
namespace Gdnsd.Chal

/-- A challenge on the wire: a stored domain name (with its length byte), possibly
unterminated, 43 bytes of text, and one more byte. -/
structure Item where
  name : Bytes
  payload : Bytes
  z : UInt8
deriving Repr, DecidableEq

/-- The encoding (src/chal.h:33-48). -/
def Item.wire (i : Item) : Bytes := i.name ++ i.payload ++ [i.z]

/-- A domain name of exactly the length its length byte says. -/
def Stored (d : Bytes) (st : Dname.Status) : Prop := Dname.status d = .ok st ∧ ∃ l r, d = l :: r ∧ r.length = l.toNat

/-- Legal challenges. -/
def Item.Ok (i : Item) : Prop := (∃ st, Stored i.name st ∧ st ≠ .invalid) ∧ i.payload.length = 43

/-- The name the challenge is for: fully qualified. -/
def Item.full (i : Item) : Bytes := i.name.dropLast ++ [0]

/-- What is asked: a fully qualified name. -/
def KeyOk (key : Bytes) : Prop := Stored key .valid

/-- Well-formed actions: buffers have the size that is passed with them, and there are
fewer than 2^30 challenges, for which the memory would not suffice. -/
def Action.Wf (s : State) : Action → Prop
  | .create _ count dlen data => data.length = dlen ∧ (allChals s.sets s.live).length + count < 1073741824
  | .enter _ key => KeyOk key
  | _ => True

/-- Runs from a start state. -/
inductive Reach (cfg : Cfg) (s0 : State) : State → Prop
  | refl : Reach cfg s0 s0
  | step {s s' : State} {a : Action} : Reach cfg s0 s → a.Wf s → step cfg s a = .ok (some s') → Reach cfg s0 s'

/-- The answer for a name when these challenges are in force, in their order. -/
def answers (key : Bytes) (content : List Chal) : List Bytes := (content.filter fun c => c.name == key).map Chal.txt

/-- What is in force: all accepted sets except for some of the oldest ones, which have
expired or do so within 3.2 seconds. Unless the timer is overdue no set is older than
the configured time. -/
def InForce (cfg : Cfg) (snap : Snap) (content : List Chal) : Prop :=
  ∃ j, content = (snap.log.drop j).flatMap (fun e => e.2.chals) ∧ (∀ e ∈ snap.log.take j, e.2.expiry ≤ snap.now + 3200) ∧
    (snap.due = false → ∀ e ∈ snap.log.drop j, snap.now < e.1 + 1000 * cfg.ttl)

end Gdnsd.Chal
