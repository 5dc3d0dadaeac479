/-
What the control socket should do, in terms of the history of entries: who may cause what (C44), when
descriptors are handed over (C45), what an acknowledged reload means (C46), and what is written on the
connections (C73).
-/
import Verif.Css.Model
namespace Gdnsd.CssSpec
open Css (Entry Perm Cfg Event Env msgKey msgV msgD)

/-- What the daemon's functions give: reports are not empty, and sizes fit (C47, C54, C38). -/
def EnvOk (env : Env) : Prop :=
  env.stats ≠ [] ∧ env.states ≠ [] ∧ env.stats.length < 2 ^ 32 ∧ env.states.length < 2 ^ 32 ∧ env.csets.1 ≤ 0xFFFFFF ∧ env.csets.2.length < 2 ^ 32

def EventOk : Event → Prop
  | .read _ _ env => EnvOk env
  | _ => True

/-- Settings: two descriptors and those of the DNS sockets; a version of three bytes. -/
def CfgOk (cfg : Cfg) : Prop := 2 ≤ cfg.fds.length ∧ cfg.fds.length ≤ 0xFFFFFF ∧ cfg.version ≤ 0xFFFFFF

/-- The histories up to the end of the loop. -/
inductive Run (cfg : Cfg) : Css.Css → List Entry → Prop
  | init : Run cfg Css.init []
  | step {s l e s' l'} : Run cfg s l → s.running = true → EventOk e → Css.step cfg s e = .ok (s', l') → Run cfg s' (l ++ l')

/-! ### Requests and responses -/

/-- The connection of a request or a response. -/
def turn : Entry → Option Nat
  | .req id _ => some id
  | .resp id _ _ _ => some id
  | _ => none

/-- Requests and responses of a connection take turns, and the last request has no response yet (`some`) or
all have (`none`). -/
inductive Turns (id : Nat) : List Entry → Option Bytes → Prop
  | nil : Turns id [] none
  | req {l m} : Turns id l none → Turns id (l ++ [.req id m]) (some m)
  | resp {l r m d f} : Turns id l (some r) → Turns id (l ++ [.resp id m d f]) none
  | other {l o e} : Turns id l o → turn e ≠ some id → Turns id (l ++ [e]) o

/-! ### C44: permissions -/

/-- What an entry needs a client of a TCP listener to be allowed: to set challenges, to control, or what no
such client is allowed. -/
inductive Needs : Entry → Nat → (Perm → Bool) → Prop
  | chal {id n d} : Needs (.chal id n d) id Perm.chal
  | flush {id} : Needs (.flush id) id Perm.chal
  | spawn {id p} : Needs (.spawn id p) id Perm.ctl
  | takeover {id p} : Needs (.takeover id p) id fun _ => false
  | share {id} : Needs (.share id) id fun _ => false
  | stop {id} : Needs (.stop id) id fun _ => false
  | handover {id b x l} : Needs (.out id b (x :: l)) id fun _ => false

/-- A client that may: it came over the Unix socket, or over a listener that allows it. -/
def May (l : List Entry) (id : Nat) (need : Perm → Bool) : Prop := ∃ p, .accept id p ∈ l ∧ ∀ q, p = some q → need q = true

/-! ### C45: the replacement -/

/-- The process that is to replace the daemon, 0 for none. -/
def current : List Entry → Nat := List.foldl (fun p e =>
  match e with
  | .spawn _ n => if 0 < n then n.toNat else p
  | .takeover _ n => n
  | .died _ => 0
  | .stop _ => 0
  | _ => p) 0

/-- The connection was accepted for a takeover, and nothing has happened since that would end it. -/
def Taker (l : List Entry) (id : Nat) : Prop :=
  ∃ a p b, l = a ++ .takeover id p :: b ∧ p ≠ 0 ∧ ∀ e ∈ b, e ≠ .close id ∧ (∀ q, e ≠ .died q) ∧ (∀ i q, e ≠ .takeover i q) ∧ ∀ i q, e ≠ .spawn i q

/-- The connection that was last accepted for a takeover, while it is open and its process has not died. -/
def taker : List Entry → Option Nat := List.foldl (fun o e =>
  match e with
  | .takeover id _ => some id
  | .close id => if o = some id then none else o
  | .died _ => none
  | _ => o) none

/-! ### C46: reloads -/

/-- The request `r` of the connection came before a load that has been finished with success since, and is
still the last one. -/
def Loaded (l : List Entry) (id : Nat) (r : Bytes) : Prop :=
  ∃ a b c t, l = a ++ .req id r :: b ++ .load t :: c ∧ .loaded t false ∈ c ∧ ∀ e ∈ b ++ c, turn e ≠ some id

/-- A load is under way. -/
def loading (l : List Entry) (t : Nat) : Prop := .load t ∈ l ∧ ∀ f, .loaded t f ∉ l

def isLoaded : Entry → Bool
  | .loaded _ _ => true
  | _ => false

/-- A replacement was accepted while a load was under way. -/
def Interrupted (l : List Entry) : Prop :=
  ∃ a e b t, l = a ++ e :: b ∧ ((∃ id n, e = .spawn id n ∧ 0 < n) ∨ ∃ id p, e = .takeover id p) ∧ loading a t

/-! ### The protocol: what a request gets -/

/-- The requests of clients of TCP listeners: I, S and E for all, C and c to set challenges, Z and R to
control. -/
def permits (p : Perm) (key : UInt8) : Bool := [73, 83, 69].contains key || (p.chal && [67, 99].contains key) || (p.ctl && [90, 82].contains key)

/-- A response of eight bytes without numbers. -/
def plain (key : UInt8) : Bytes := [key, 0, 0, 0, 0, 0, 0, 0]

/-- Numbers of a header: three bytes, the highest first, and four bytes, the lowest first. -/
def header (key : UInt8) (v d : Nat) (m : Bytes) : Prop := m.length = 8 ∧ msgKey m = key ∧ msgV m = v % 2 ^ 24 ∧ msgD m = d % 2 ^ 32

/-- Clients that wait for a reload, each once. -/
def Waiters (a : List Entry) (ids : List Nat) : Prop := ids.Nodup ∧ ∀ i ∈ ids, ∃ r, Turns i a (some r) ∧ msgKey r = 90

/-- The client is the replacement. -/
def Owns (a : List Entry) (id : Nat) (m : Bytes) : Prop := current a ≠ 0 ∧ msgD m = current a ∧ taker a = some id

/-- What follows on the request `m` of `id` after the history `a`, if the client may make it. A (65):
done, F (70): failed, L (76): later, U (85): unknown. -/
inductive Reply (cfg : Cfg) (env : Env) (a : List Entry) (id : Nat) (m : Bytes) : List Entry → Prop
  | info {h} : msgKey m = 73 → header 65 cfg.version cfg.self h → Reply cfg env a id m [.resp id h [] false]
  | stats {h} : msgKey m = 83 → header 65 0 env.stats.length h → Reply cfg env a id m [.resp id h env.stats false]
  | states {h} : msgKey m = 69 → header 65 0 env.states.length h → Reply cfg env a id m [.resp id h env.states false]
  | later : current a ≠ 0 → msgKey m = 90 ∨ msgKey m = 99 ∨ msgKey m = 82 ∨ (msgKey m = 49 ∧ msgD m ≠ current a) ∨ (msgKey m = 88 ∧ taker a ≠ some id) →
      Reply cfg env a id m [.resp id (plain 76) [] false]
  | reload {t} : msgKey m = 90 → current a = 0 → .load t ∉ a → Reply cfg env a id m [.load t]
  | wait {t} : msgKey m = 90 → current a = 0 → loading a t → Reply cfg env a id m []
  | flush : msgKey m = 99 → current a = 0 → Reply cfg env a id m [.flush id, .resp id (plain 65) [] false]
  | spawnFail : msgKey m = 82 → current a = 0 → env.spawn ≤ 0 → Reply cfg env a id m [.spawn id env.spawn, .resp id (plain 70) [] false]
  | spawn {ids} : msgKey m = 82 → current a = 0 → taker a = none → 0 < env.spawn → Waiters a ids → Reply cfg env a id m (.spawn id env.spawn :: ids.map fun i => .resp i (plain 76) [] false)
  | takeover {ids} : msgKey m = 49 → current a = 0 ∨ msgD m = current a → taker a = none → Waiters a ids →
      Reply cfg env a id m (.takeover id (msgD m) :: (ids.map fun i => .resp i (plain 76) [] false) ++ [.resp id (plain 65) [] false])
  | share {h} : msgKey m = 50 → Owns a id m → header 65 env.csets.1 env.csets.2.length h → Reply cfg env a id m [.share id, .resp id h env.csets.2 false]
  | hand {h} : msgKey m = 84 → Owns a id m → header 65 cfg.fds.length 0 h → Reply cfg env a id m [.resp id h [] true]
  | refuse {k} : msgKey m = 50 ∨ msgKey m = 84 → ¬ Owns a id m → k = (if taker a = some id ∧ current a ≠ 0 then [.kill (current a)] else []) →
      Reply cfg env a id m ([.resp id (plain 70) [] false] ++ k ++ [.close id])
  | stop {k} : msgKey m = 88 → current a = 0 ∨ taker a = some id →
      (∀ e ∈ k, (∃ i r, e = .resp i (plain 65) [] false ∧ Turns i a (some r) ∧ msgKey r = 82) ∨ (∃ i, e = .out i (plain 65) []) ∨ ∃ i, e = .close i) →
      Reply cfg env a id m (.stop id :: .resp id (plain 65) [] false :: k)
  | unknown : msgKey m ∉ [73, 83, 69, 90, 99, 82, 49, 50, 84, 88, 67] → Reply cfg env a id m [.resp id (plain 85) [] false]

/-! ### C75: what can go wrong -/

/-- The callbacks that are not safe. -/
inductive Fault (l : List Entry) : Event → Prop
  /-- The timer after a process without a number was accepted. -/
  | timer {alive id} : .takeover id 0 ∈ l → Fault l (.tick alive)
  /-- A replacement or a takeover is asked for while a connection of a takeover is open, of the same
  process, or of one without a number. -/
  | second {id b env k} : taker l = some k → (msgKey b = 49 ∧ msgD b = current l) ∨ ((msgKey b = 49 ∨ msgKey b = 82) ∧ ∃ i, .takeover i 0 ∈ l) → Fault l (.read id (.got b) env)
  /-- The replacement ends the daemon but cannot be told so, while the client that asked for it waits. -/
  | stop {id b env k r} : msgKey b = 88 → taker l = some id → Turns k l (some r) → msgKey r = 82 → env.ack1 = false → Fault l (.read id (.got b) env)
  /-- The end of a load after one was interrupted. -/
  | join : Interrupted l → Fault l .async

/-! ### C73: what is written -/

/-- The bytes of a response; descriptors go in messages of 253, each with the same eight bytes. -/
def wire (cfg : Cfg) (m d : Bytes) (f : Bool) : Bytes := if f = true then (List.replicate ((cfg.fds.length + 252) / 253) m).flatten else m ++ d

/-- The bytes owed to a connection. -/
def owed (cfg : Cfg) (id : Nat) (l : List Entry) : Bytes :=
  l.flatMap fun e => match e with | .resp i m d f => if i = id then wire cfg m d f else [] | _ => []

/-- The bytes sent to a connection. -/
def sent (id : Nat) (l : List Entry) : Bytes := l.flatMap fun e => match e with | .out i b _ => if i = id then b else [] | _ => []

/-- The descriptors owed and sent. -/
def owedFds (cfg : Cfg) (id : Nat) (l : List Entry) : List Nat :=
  l.flatMap fun e => match e with | .resp i _ _ f => if i = id ∧ f = true then cfg.fds else [] | _ => []

def sentFds (id : Nat) (l : List Entry) : List Nat := l.flatMap fun e => match e with | .out i _ fds => if i = id then fds else [] | _ => []

end Gdnsd.CssSpec
