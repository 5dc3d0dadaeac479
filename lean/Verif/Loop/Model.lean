/-
src/dnsio_tcp.c: the event loop of a thread for TCP, with the watchers of connections, RCU and the end of the loop.

What requests are is in Verif.Stream, and the order of the queue of connections and when its timer fires is in Verif.Connq: here the results of `recv`, of handling requests and of sending, and
which connections are too old, are up to the environment.
-/
import Verif.Basic
namespace Gdnsd.Loop

/-- A connection: whether its read watcher and its check watcher are active, whether a complete request of legal size is in its buffer; and, for the properties only, how many requests were answered. -/
structure Conn where
  id : Nat
  read : Bool
  check : Bool
  full : Bool
  served : Nat
deriving Repr, DecidableEq

/-- An event that libev has pending: of the stop watcher, a read or a check watcher, the timer, the accept watcher. -/
inductive Pend where
  | stop
  | read (id : Nat)
  | check (id : Nat)
  | timeout
  | accept
deriving Repr, DecidableEq

/-- Where `ev_run` is: before prepare watchers, before it polls, invoking what is pending, or at its end. -/
inductive Ph where
  | prep
  | poll
  | invoke (l : List Pend)
  | ended
deriving Repr, DecidableEq

/-- The thread (src/dnsio_tcp.c:126-163): `cnt` is `check_mode_conns`, `online` is `rcu_is_online`, `act` is `activecnt` of the loop, `idle` and so on say which watchers are active. `next` numbers connections; `quiet` counts
the calls of `rcu_quiescent_state`, for the properties only. -/
structure St where
  conns : List Conn
  cnt : Nat
  idle : Bool
  online : Bool
  grace : Bool
  accept : Bool
  async : Bool
  timer : Bool
  act : Int
  next : Nat
  quiet : Nat
  ph : Ph
deriving Repr, DecidableEq

/-- src/dnsio_tcp.c:1118-1137. -/
def init : St := ⟨[], 0, false, true, false, true, true, false, 2, 0, 0, .prep⟩

def one (b : Bool) : Int := if b = true then 1 else 0

def St.get (s : St) (id : Nat) : Option Conn := s.conns.find? fun c => decide (c.id = id)

/-- `connq_adjust_timer` (src/dnsio_tcp.c:263-280) for the state of the timer: it is stopped if there are no connections. -/
def calm (s : St) : St := if s.conns = [] then { s with timer := false, act := s.act - one s.timer } else s

/-- `connq_destruct_conn` (src/dnsio_tcp.c:314-345); for one that is not there, it would be use after free. Callers without management of the queue stop the timer themselves (513-514, 534-543). -/
def destruct (s : St) (id : Nat) : Outcome St :=
  match s.get id with
  | none => .ub
  | some c =>
    if c.check = true ∧ s.cnt = 0 then .ub
    else .ok (calm { s with conns := s.conns.filter fun c => !decide (c.id = id), act := s.act - one c.read - one c.check, cnt := s.cnt - (if c.check = true then 1 else 0) })

def destructAll : List Nat → St → Outcome St
  | [], s => .ok s
  | id :: l, s => (destruct s id).bind (destructAll l)

def St.set (s : St) (id : Nat) (f : Conn → Conn) : St := { s with conns := s.conns.map fun c => if c.id = id then f c else c }

/-- How handling a request ends: the connection is closed, be it for the request, for a response that cannot be sent or for the size of the next request; or not, and another request is complete or not. -/
inductive Resp where
  | close
  | next (full : Bool)
deriving Repr, DecidableEq

/-- RCU in `conn_respond` (src/dnsio_tcp.c:670-676). -/
def online (s : St) : St := if s.online = false then { s with online := true } else { s with quiet := s.quiet + 1 }

/-- The watchers at the end of `conn_respond` (src/dnsio_tcp.c:705-728). -/
def watch (s : St) (c : Conn) (full : Bool) : Outcome St :=
  if full = false then
    if c.check = true then
      if c.read = true then .ub
      else if s.cnt = 0 then .ub
      else .ok ({ s with cnt := s.cnt - 1 }.set c.id fun c => { c with check := false, read := true, full := false, served := c.served + 1 })
    else if c.read = true then .ok (s.set c.id fun c => { c with full := false, served := c.served + 1 })
    else .ub
  else
    if c.read = true then
      if c.check = true then .ub
      else .ok ({ s with cnt := s.cnt + 1 }.set c.id fun c => { c with read := false, check := true, full := true, served := c.served + 1 })
    else if c.check = true then .ok (s.set c.id fun c => { c with full := true, served := c.served + 1 })
    else .ub

/-- `conn_respond` (src/dnsio_tcp.c:659-729). Zone data must not be used offline (679). -/
def respond (s : St) (id : Nat) (r : Resp) : Outcome St :=
  let s := online s
  if s.online = false then .ub
  else match r with
    | .close => destruct s id
    | .next full => match s.get id with
      | none => .ub
      | some c => watch s c full

/-- What `recv` gives: nothing yet; the end, an error, a bad header of a proxy or an illegal size, for which the connection is closed; part of a request; or what completes one. -/
inductive Got where
  | again
  | closed
  | more
  | req (r : Resp)
deriving Repr, DecidableEq

/-- `read_handler` (src/dnsio_tcp.c:793-824). -/
def readH (s : St) (id : Nat) : Got → Outcome St
  | .again => .ok s
  | .closed => destruct s id
  | .more => .ok s
  | .req r => respond s id r

/-- `check_handler` (src/dnsio_tcp.c:732-748) with its assertions. -/
def checkH (s : St) (id : Nat) (r : Resp) : Outcome St :=
  match s.get id with
  | none => .ub
  | some c => if c.full = false then .ub else respond s id r

/-- `prep_handler` (src/dnsio_tcp.c:904-927). Starting and stopping the idle watcher leaves `activecnt` as it is. -/
def prepH (s : St) : St :=
  if s.cnt ≠ 0 then
    { s with idle := true, quiet := if s.online = true then s.quiet + 1 else s.quiet }
  else { s with idle := false, online := false }

/-- `stop_handler` (src/dnsio_tcp.c:547-607); `fails` are the connections to which a message cannot be sent. -/
def stopH (s : St) (fails : List Nat) : Outcome St :=
  if s.grace = true then .ub
  else
    let s := { s with async := false, accept := false, act := s.act - one s.async - one s.accept }
    if s.conns = [] then (if s.timer = true then .ub else .ok s)
    else
      (destructAll fails { s with grace := true }).bind fun s =>
      if s.conns = [] then (if s.timer = true then .ub else .ok s)
      else .ok { s with timer := true, act := s.act + one (!s.timer) }

/-- `timeout_handler` (src/dnsio_tcp.c:492-544); `old` are the connections that are too old. -/
def timeoutH (s : St) (old : List Nat) : Outcome St :=
  if s.conns = [] then .ub
  else destructAll (if s.grace = true then s.conns.map Conn.id else old) s

/-- `connq_append_new_conn` (src/dnsio_tcp.c:349-395), with `victim` for the head of the queue, and the rest of `accept_handler` (876-893). -/
def acceptH (max : Nat) (s : St) (victim : Nat) (g : Got) : Outcome St :=
  if s.grace = true then .ub
  else
    let id := s.next
    let s := { s with timer := true, act := s.act + one (!s.timer), conns := s.conns ++ [⟨id, false, false, false, 0⟩], next := s.next + 1 }
    (if s.conns.length = max then destruct s victim else .ok s).bind fun s =>
    readH { s.set id (fun c => { c with read := true }) with act := s.act + 1 } id g

/-- Whether the watcher of an event is active; libev drops events of watchers that are stopped. -/
def active (s : St) : Pend → Bool
  | .stop => s.async
  | .read id => s.conns.any fun c => decide (c.id = id) && c.read
  | .check id => s.conns.any fun c => decide (c.id = id) && c.check
  | .timeout => s.timer
  | .accept => s.accept

/-- What `poll` can give: events of active watchers, and all check watchers have one, in any order. -/
def legal (s : St) (l : List Pend) : Bool :=
  l.all (active s) && s.conns.all fun c => !c.check || l.contains (.check c.id)

/-- A step: what the environment decides of it. -/
inductive Ev where
  | prep
  | poll (l : List Pend)
  | skip
  | stop (fails : List Nat)
  | read (g : Got)
  | check (r : Resp)
  | timeout (old : List Nat)
  | acceptFails
  | acceptFull (victim : Nat)
  | accept (victim : Nat) (g : Got)
  | turn
deriving Repr, DecidableEq

def among (s : St) (l : List Nat) : Bool := decide l.Nodup && l.all fun i => s.conns.any fun c => decide (c.id = i)

/-- Invoking an event that is pending; `none` if the decision does not fit. -/
def invoke (max : Nat) (s : St) : Pend → Ev → Outcome (Option St)
  | .stop, .stop fails => if among s fails = true then (stopH s fails).map some else .ok none
  | .read id, .read g => (readH s id g).map some
  | .check id, .check r => (checkH s id r).map some
  | .timeout, .timeout old => if among s old = true then (timeoutH s old).map some else .ok none
  | .accept, .acceptFails => .ok (some s)
  | .accept, .acceptFull v => if among s [v] = true then (destruct s v).map some else .ok none
  | .accept, .accept v g => if (s.conns.length + 1 = max → among s [v] = true) then (acceptH max s v g).map some else .ok none
  | _, _ => .ok none

/-- `ev_run` of libev. -/
def step (max : Nat) (s : St) (e : Ev) : Outcome (Option St) :=
  match s.ph with
  | .prep => if e = .prep then .ok (some { prepH s with ph := .poll }) else .ok none
  | .poll => match e with
    | .poll l => if legal s l = true then .ok (some { s with ph := .invoke l }) else .ok none
    | _ => .ok none
  | .invoke [] => if e = .turn then .ok (some { s with ph := if s.act = 0 then .ended else .prep }) else .ok none
  | .invoke (p :: l) =>
    if active s p = true then invoke max { s with ph := .invoke l } p e
    else if e = .skip then .ok (some { s with ph := .invoke l }) else .ok none
  | .ended => .ok none

/-- Whether the poll waits: not with an idle watcher, nor if nothing is active. -/
def waits (s : St) : Bool := !s.idle && decide (s.act ≠ 0)

end Gdnsd.Loop
