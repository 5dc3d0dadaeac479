/-
What gdnsdctl should do (C101, C102): what success means on the connection and in the daemon, which
challenges are legal, and what is sent for them.
-/
import Verif.Ctl.Model
import Verif.Css.Spec
import Verif.Dname.Spec
import Verif.Chal.Spec
namespace Gdnsd.CtlSpec
open Css (Entry msgKey msgV msgD)
open CssSpec (turn plain header)
open Ctl (Chan Info Opts Try Act End)
open Conf (str)

/-! ### On the connection -/

/-- A connection of which nothing was used yet. -/
def Fresh (c : Chan) : Prop := c.out = [] ∧ c.inp = [] ∧ c.eof = false

/-- The first request, with the version of the program. -/
def hello (o : Opts) : Bytes := [73, UInt8.ofNat (o.version / 65536), UInt8.ofNat (o.version / 256), UInt8.ofNat o.version, 0, 0, 0, 0]

/-- An acknowledgement: eight bytes, the first an A. -/
def Ack (m : Bytes) : Prop := m.length = 8 ∧ msgKey m = 65

/-- The daemon was greeted and has named itself; then `req` was sent, and `resp` received. -/
def Talk (o : Opts) (c : Chan) (i : Info) (req resp : Bytes) : Prop :=
  ∃ m, Ack m ∧ i = ⟨msgD m, msgV m⟩ ∧ c.out = hello o ++ req ∧ c.inp = m ++ resp

/-- Letters, digits, `-` and `_`. -/
def Base64url (x : UInt8) : Prop := x = 45 ∨ x = 95 ∨ (48 ≤ x.toNat ∧ x.toNat ≤ 57) ∨ (65 ≤ x.toNat ∧ x.toNat ≤ 90) ∨ (97 ≤ x.toNat ∧ x.toNat ≤ 122)

/-- The name of a challenge as it is given: `_acme-challenge.` before it does not count. -/
def Named (t : Bytes) (ls : List Bytes) : Prop :=
  ∃ t' q, (t = str "_acme-challenge." ++ t' ∨ ((¬ str "_acme-challenge." <+: t) ∧ t = t')) ∧ DnameSpec.NameText t' ls q ∧ DnameSpec.WF ls ∧ DnameSpec.wireLen ls ≤ 239

/-- The challenges that arguments mean: names in lower case, and 43 characters each. -/
inductive Means : List Bytes → List (List Bytes × Bytes) → Prop
  | nil : Means [] []
  | cons {n p as ls cs} : Named n ls → p.length = 43 → (∀ x ∈ p, Base64url x) → Means as cs → Means (n :: p :: as) ((ls.map (·.map DnameSpec.lower), p) :: cs)

/-- A challenge as it is sent. -/
def item (c : List Bytes × Bytes) : Chal.Item := ⟨DnameSpec.encode c.1 true, c.2, 0⟩

/-- The request with challenges. -/
def Asks (cs : List (List Bytes × Bytes)) (req : Bytes) : Prop :=
  ∃ h, header 67 cs.length (cs.flatMap fun c => (item c).wire).length h ∧ req = h ++ cs.flatMap fun c => (item c).wire

/-- `a` is the action `s`, in any case. -/
def Is (a : Bytes) (s : String) : Prop := a.map DnameSpec.lower = str s

/-- What an action that succeeds has sent and received on its connections, and what it writes and tells. -/
inductive Did (o : Opts) (action : Bytes) (args : List Bytes) : List Chan → Bytes → Option Info → Prop
  | status {c i} : Is action "status" → args = [] → Talk o c i [] [] → Did o action args [c] [] (some i)
  | reload {c i a} : Is action "reload-zones" → args = [] → Ack a → Talk o c i (plain 90) a → Did o action args [c] [] none
  | flush {c i a} : Is action "acme-dns-01-flush" → args = [] → Ack a → Talk o c i (plain 99) a → Did o action args [c] [] none
  | stop {c i a} : Is action "stop" → args = [] → Ack a → Talk o c i (plain 88) a → c.eof = true → Did o action args [c] [] none
  | replace {c c2 i i2 a} : Is action "replace" → args = [] → Ack a → Talk o c i (plain 82) a → c.eof = true → Talk o c2 i2 [] [] → Did o action args [c, c2] [] (some i2)
  | stats {c i a d} : Is action "stats" → args = [] → Ack a → d.length = msgD a → Talk o c i (plain 83) (a ++ d) → Did o action args [c] d none
  | states {c i a d} : Is action "states" → args = [] → Ack a → d.length = msgD a → Talk o c i (plain 69) (a ++ d) → Did o action args [c] d none
  | chal {c i a req cs} : Is action "acme-dns-01" → Means args cs → 1 ≤ cs.length → cs.length ≤ 100 → Ack a → Asks cs req → Talk o c i req a →
      Did o action args [c] [] none

/-- The actions that `-i` is for. -/
def Ignorable (action : Bytes) : Prop := Is action "stop" ∨ Is action "reload-zones" ∨ Is action "replace" ∨ Is action "acme-dns-01-flush"

/-- No daemon was found: no connection, or no answer to the greeting. -/
def Dead : List Chan → Prop
  | [] => True
  | [c] => ¬ ∃ m, Ack m ∧ c.inp = m
  | _ => False

/-! ### In the daemon -/

/-- The bytes that the daemon took from a connection: requests, and the data of challenges. -/
def taken (id : Nat) (l : List Entry) : Bytes :=
  l.flatMap fun e => match e with | .req i m => if i = id then m else [] | .chal i _ d => if i = id then d else [] | _ => []

/-- The connection is number `id` of a daemon with history `l`: what was received was sent, and the other way
round. -/
def Linked (c : Chan) (id : Nat) (l : List Entry) : Prop := c.inp <+: CssSpec.sent id l ∧ taken id l <+: c.out

/-- What the daemon has done between the request `r`, after the history `a`, and the acknowledgement of it. -/
structure Acked (a : List Entry) (id : Nat) (r : Bytes) (b : List Entry) : Prop where
  reload : msgKey r = 90 → ∃ t x y, b = x ++ .load t :: y ∧ .loaded t false ∈ y
  flush : msgKey r = 99 → .flush id ∈ b
  stop : msgKey r = 88 → .stop id ∈ b
  replace : msgKey r = 82 → ∃ k x y, b = x ++ .stop k :: y ∧ k ≠ id ∧ CssSpec.Taker (a ++ .req id r :: x) k
  chal : msgKey r = 67 → ∃ d, .chal id (msgV r) d ∈ b ∧ d.length = msgD r

/-- The daemon has taken the request `r`, and acknowledged it later; `P` tells what came before the request,
what between, and the data of the answer. -/
def Obeyed (l : List Entry) (id : Nat) (r : Bytes) (P : List Entry → List Entry → Bytes → Prop) : Prop :=
  ∃ a b m d c, l = a ++ .req id r :: b ++ .resp id m d false :: c ∧ msgKey m = 65 ∧ (∀ e ∈ b, turn e ≠ some id) ∧ P a b d

/-! ### Connections that work -/

/-- The next `send` takes eight bytes at least. -/
def Takes : Ctl.Tx → Prop
  | .part k => 8 ≤ k
  | _ => False

/-- Rounds in which the calls and the daemon do what they should, with what is written and told then. -/
inductive Works (action : Bytes) (args : List Bytes) (t : Try) : Bytes → Option Info → Prop
  | status {c x tx m rx} : Is action "status" → args = [] → t.conn = some c → c.tx = x :: tx → Takes x → c.rx = .got m :: rx → Ack m → Works action args t [] (some ⟨msgD m, msgV m⟩)
  | plain {c x y tx m a rx k} : (Is action "reload-zones" ∧ k = 90) ∨ (Is action "acme-dns-01-flush" ∧ k = (99 : UInt8)) → args = [] → t.conn = some c → c.tx = x :: y :: tx → Takes x → Takes y →
      c.rx = .got m :: .got a :: rx → Ack m → Ack a → Works action args t [] none
  | stop {c x y tx m a rx} : Is action "stop" → args = [] → t.conn = some c → c.tx = x :: y :: tx → Takes x → Takes y → c.rx = .got m :: .got a :: .got [] :: rx → Ack m → Ack a →
      Works action args t [] none
  | replace {c x y tx m a rx c2 z tx2 m2 rx2} : Is action "replace" → args = [] → t.conn = some c → c.tx = x :: y :: tx → Takes x → Takes y → c.rx = .got m :: .got a :: .got [] :: rx → Ack m → Ack a →
      t.conn2 = some c2 → c2.tx = z :: tx2 → Takes z → c2.rx = .got m2 :: rx2 → Ack m2 → Works action args t [] (some ⟨msgD m2, msgV m2⟩)
  | data {c x y tx m a} {bs : List Bytes} {rx k} : (Is action "stats" ∧ k = 83) ∨ (Is action "states" ∧ k = (69 : UInt8)) → args = [] → t.conn = some c → c.tx = x :: y :: tx → Takes x → Takes y →
      c.rx = .got m :: .got a :: (bs.map .got ++ rx) → Ack m → Ack a → (∀ b ∈ bs, b ≠ []) → bs.flatten.length = msgD a → Works action args t bs.flatten none
  | chal {c x y tx} {ks : List Nat} {m a rx cs} : Is action "acme-dns-01" → Means args cs → 1 ≤ cs.length → cs.length ≤ 100 → t.conn = some c → c.tx = x :: y :: (ks.map .part ++ tx) → Takes x → Takes y →
      (∀ k ∈ ks, 0 < k) → (cs.flatMap fun c => (item c).wire).length ≤ ks.sum → c.rx = .got m :: .got a :: rx → Ack m → Ack a → Works action args t [] none

/-- Rounds in which the daemon says that it is too early. -/
def Later (action : Bytes) (t : Try) : Prop :=
  ∃ c x y tx m a rx, (Is action "stop" ∨ Is action "reload-zones" ∨ Is action "replace" ∨ Is action "stats" ∨ Is action "states" ∨ Is action "acme-dns-01-flush") ∧ t.alarm = false ∧
    t.conn = some c ∧ c.tx = x :: y :: tx ∧ Takes x ∧ Takes y ∧ c.rx = .got m :: .got a :: rx ∧ Ack m ∧ a.length = 8 ∧ msgKey a = 76

end Gdnsd.CtlSpec
