/-
What the start of a daemon should do beside another one, in terms of its effects, in order (C103, C104).
-/
import Verif.Take.Model
import Verif.Css.Spec
namespace Gdnsd.TakeSpec
open Css (msgKey msgV)
open Take (Eff Env Thread Kind Addr RxMsg)

/-- All that was sent to the other daemon. -/
def bytes (p : List Eff) : Bytes := p.flatMap fun e => match e with | .say b => b | _ => []

/-- The configuration and the zones are loaded, and the monitors have their first results. -/
def Loaded (p : List Eff) : Prop := .conf ∈ p ∧ .zones ∈ p ∧ .monitored ∈ p

/-- Nothing of the start is left that takes long. -/
def Ready (p : List Eff) : Prop := Loaded p ∧ .prerun ∈ p

/-- The daemon answers on all of its sockets. -/
def Up (p : List Eff) : Prop := Ready p ∧ .listening ∈ p ∧ (∃ new, .bound new ∈ p) ∧ .threads ∈ p ∧ .ready ∈ p

/-- How far the start must be for a request: 2 (50), T (84) and X (88) are those for challenges, for descriptors
and for the end of the other daemon. -/
def Due (p : List Eff) (m : Bytes) : Prop := (msgKey m = 50 → Loaded p) ∧ (msgKey m = 84 → Ready p) ∧ (msgKey m = 88 → Up p)

/-- `y` comes before `x` wherever that comes. -/
def Before (y : Eff) (l : List Eff) (x : Eff) : Prop := ∀ a b, l = a ++ x :: b → y ∈ a

/-! ### Sockets -/

/-- The socket is one for the thread: of its kind, and of its address apart from the scope. -/
def Fits (k : Kind) (t : Thread) : Prop := ∃ a, k = .sock t.udp a ∧ a.v6 = t.addr.v6 ∧ a.ip = t.addr.ip ∧ a.port = t.addr.port

/-- `t'` is `t` with a socket that fits, or `t`. -/
def Given (kind : Nat → Kind) (t t' : Thread) : Prop := t' = t ∨ ∃ fd, t.sock = none ∧ Fits (kind fd) t ∧ t' = { t with sock := some fd }

/-- Two lists, member by member. -/
inductive Each {α β : Type} (R : α → β → Prop) : List α → List β → Prop
  | nil : Each R [] []
  | cons {a b l l'} : R a b → Each R l l' → Each R (a :: l) (b :: l')

/-- The sockets that threads have got. -/
def got : List Thread → List Thread → List Nat
  | t :: ts, t' :: ts' => (if t.sock = none then t'.sock.toList else []) ++ got ts ts'
  | _, _ => []

/-- Messages that carry the descriptors `fds`: each has some, and all have the header of their number. -/
def Carries (fds : List Nat) (n : Nat) (ms : List RxMsg) : Prop :=
  ∃ cs : List (List Nat), fds = cs.flatten ∧ (∀ c ∈ cs, c ≠ []) ∧ ∃ bs : List Bytes, bs.length = cs.length ∧ (∀ b ∈ bs, b.length = 8 ∧ msgKey b = 65 ∧ msgV b = n) ∧
    ms = (bs.zip cs).map fun x => .got x.1 (some x.2) false

/-- The descriptors that came with a message. -/
def fdsOf : RxMsg → List Nat
  | .got _ (some f) _ => f
  | _ => []

/-- The messages came over connection `id` of a daemon with history `l`: those with descriptors are of the daemon, and
no descriptor is left out or out of order. -/
def Received (ms : List RxMsg) (id : Nat) (l : List Css.Entry) : Prop :=
  (∀ b x f t, .got b (some (x :: f)) t ∈ ms → .out id b (x :: f) ∈ l) ∧
    ms.flatMap fdsOf <+: CssSpec.sentFds id l

end Gdnsd.TakeSpec
