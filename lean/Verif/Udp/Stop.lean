/-
src/dnsio_udp.c: how a thread that serves datagrams is stopped, and when it waits (lines 96-112, 307-341,
381-406, 527-559, 577-607), with `SIGUSR2` as the kernel delivers it. The calls for one datagram and for many
behave the same here.

A signal to a thread that has one of that number waiting already is lost, a signal to the process is kept
apart from those. A call that may wait and a change of the mask deliver the waiting signals that are not
blocked before they return; a waiting signal that is not blocked ends a call that waits, or does not let it
begin to. Other than that a signal may be delivered at any time later.
-/
import Verif.Basic
namespace Gdnsd.Udp

/-- Where the thread is. `top` is before the test of `thread_shutdown` in the loop (src/dnsio_udp.c:528),
`quiesce` at `rcu_quiescent_state` (540), `recv` in `recvmmsg`, which returns after 257 milliseconds at the
latest (541), `work` in `process_mmsgs` (555), `offline` at `rcu_thread_offline` (544), then in
`slow_idle_poll`: `block` before the first `pthread_sigmask` (314), `check` before the test of
`thread_shutdown` (319), `poll` in `ppoll`, which may last forever (327), `unblock` before the second
`pthread_sigmask` (333), `online` at `rcu_thread_online` (546), and `done` behind the loop. -/
inductive Pc where
  | top
  | quiesce
  | recv
  | work
  | offline
  | block
  | check
  | poll
  | unblock
  | online
  | done
deriving DecidableEq, Repr

/-- The thread: `flag` is `thread_shutdown`, `blocked` whether `SIGUSR2` is blocked, `own` whether a signal to
this thread waits and if so whether it is from the main process, `other` whether a signal from elsewhere to the
process waits, `rcu` whether the thread is online for RCU. `asked` is whether the main thread has sent the
signal to stop. -/
structure Th where
  pc : Pc
  flag : Bool
  blocked : Bool
  own : Option Bool
  other : Bool
  rcu : Bool
  asked : Bool
deriving DecidableEq, Repr

/-- In the loop, just started (src/dnsio_udp.c:577-607). -/
def Th.start : Th := ⟨.top, false, false, none, false, true, false⟩

/-- `sighand_stop` (src/dnsio_udp.c:105-109) for all that waits. -/
def Th.deliver (t : Th) : Th := { t with flag := t.flag || t.own == some true, own := none, other := false }

/-- Something waits. -/
def Th.waiting (t : Th) : Bool := t.own.isSome || t.other

/-- The signals a call that returns delivers. -/
def Th.return (t : Th) : Th := if t.blocked = true then t else t.deliver

/-- The mask `ppoll` restores. -/
def Th.reblock (t : Th) : Th := { t with blocked := true }

/-- What happens. `move`: the thread goes on; in `recv` with `some true` for datagrams, `some false` for no
datagrams in time and `none` for another end (an error or a signal), in `poll` because of datagrams or a
signal. `kill`: the main thread sends the signal (src/main.c:294). `stray`: another process sends it to this
process, `strayOwn`: to this thread. `deliver`: the handler runs. -/
inductive Sig where
  | move (got : Option Bool)
  | kill
  | stray
  | strayOwn
  | deliver
deriving DecidableEq, Repr

/-- One step; `none` if it cannot happen. -/
def Th.step (t : Th) (e : Sig) : Option Th :=
  match e with
  | .kill => if t.pc = .done then none else some { t with asked := true, own := some (t.own.getD true) }
  | .stray => some { t with other := true }
  | .strayOwn => some { t with own := some (t.own.getD false) }
  | .deliver => if t.blocked = false ∧ t.waiting = true then some t.deliver else none
  | .move got =>
    match t.pc with
    | .top => some { t with pc := if t.flag = true then .done else .quiesce }
    | .quiesce => some { t with pc := .recv }
    | .recv =>
      match got with
      | some true => some ({ t with pc := .work } : Th).return
      | some false => some ({ t with pc := .offline } : Th).return
      | none => some ({ t with pc := .top } : Th).return
    | .work => some ({ t with pc := .top } : Th).return
    | .offline => some { t with pc := .block, rcu := false }
    | .block => some { t with pc := .check, blocked := true }
    | .check => some { t with pc := if t.flag = true then .unblock else .poll }
    | .poll =>
      match got with
      | some _ => some (({ t with pc := .unblock, blocked := false } : Th).return.reblock)
      | none => if t.waiting = true then some (({ t with pc := .unblock, blocked := false } : Th).return.reblock) else none
    | .unblock => some ({ t with pc := .online, blocked := false } : Th).return
    | .online => some { t with pc := .top, rcu := true }
    | .done => none

/-- A history. -/
def Th.run : Th → List Sig → Option Th
  | t, [] => some t
  | t, e :: es => (t.step e).bind fun t' => t'.run es

end Gdnsd.Udp
