/-
Model of the event loop of the helper process (src/plugins/extmon_helper.c): its timers, the
processes it starts, and the results it sends.

Times are tenths of a second. An event of the model is one callback of libev; `now` is the time of
the loop, which is the same for all callbacks of one iteration. Of libev is modelled: timers run
not before their time, a timer that repeats is set to its old time plus the interval or to the
present time, whichever is later, and the watchers of processes sit in one of 16 lists, by the number
of the process they were started with, while the number that is compared is the one set last.
Not modelled: failures of fork and of signal masks, which end the helper, and the end of the helper
after the loop.
-/
import Verif.Extmon.Model
namespace Gdnsd.Extmon

/-- `mon_t` of the helper (src/plugins/extmon_helper.c:41-48): the times of the timers that run, the
list of libev the watcher of the process is in, the number it watches, and the number of the process. -/
structure Mon where
  cmd : Cmd
  it : Option Nat
  ct : Option Nat
  cw : Option Nat
  watched : Nat
  pid : Nat
  pending : Bool
deriving Repr, DecidableEq

/-- The helper. `wOn`: the watcher of the pipe is started. `isOpen`: the pipe is not closed. `ended`:
the loop was left. `procs`: the children of the helper that are not reaped, known to the system. -/
structure Helper where
  mons : List Mon
  numProc : Nat
  q : Queue
  wOn : Bool
  isOpen : Bool
  killed : Bool
  ended : Bool
  now : Nat
  procs : List (Nat × Nat)
deriving Repr, DecidableEq

/-- What can be seen of the helper from outside: a check is started, a process is killed, a process
ended, a check has its result, a signal to end, a word is written to the pipe. -/
inductive Entry where
  | start (i pid t : Nat)
  | kill (pid : Nat)
  | reap (pid : Nat) (good : Bool)
  | finish (i : Nat) (failed : Bool) (t : Nat)
  | term (t : Nat)
  | sent (w : Nat)
deriving Repr, DecidableEq

/-- What one `write` of a result does. -/
inductive Wr where
  | good
  | intr
  | again
  | bad
deriving Repr, DecidableEq

inductive Event where
  /-- Time passes. -/
  | tick (d : Nat)
  /-- The interval timer of a monitor; the number of the new process if there is one. -/
  | interval (i pid : Nat)
  | timeout (i : Nat)
  /-- A process ended: with status 0 or not. -/
  | exit (pid : Nat) (good : Bool)
  /-- The pipe can be written, and what the writes do. -/
  | write (l : List Wr)
  | term
deriving Repr, DecidableEq

/-- The state at the start of the loop (src/plugins/extmon_helper.c:471-489). -/
def Helper.init (junk : Nat → Nat) (cmds : List Cmd) (now : Nat) : Helper :=
  ⟨cmds.map fun c => ⟨c, some now, none, none, 0, 0, false⟩, 0, Queue.init junk, false, true, false, false, now, []⟩

/-- A result is put into the queue, unless the helper is to end
(src/plugins/extmon_helper.c:155-159, 194-198). -/
def Helper.result (junk : Nat → Nat) (h : Helper) (i : Nat) (failed : Bool) : Outcome Helper :=
  if h.killed = true then .ok h else
    (encodeMon i failed).bind fun w => (h.q.enq junk w).map fun q => { h with q := q, wOn := true }

/-- The counter of checks (src/plugins/extmon_helper.c:160-162, 199-201). -/
def Helper.less (h : Helper) : Helper := { h with numProc := if h.numProc > 0 then h.numProc - 1 else h.numProc }

/-- Changes a monitor. -/
def Helper.put (h : Helper) (i : Nat) (m : Mon) : Helper := { h with mons := h.mons.set i m }

/-- `mon_timeout_cb` (src/plugins/extmon_helper.c:138-164); the timer has stopped itself. -/
def Helper.timeoutCb (junk : Nat → Nat) (h : Helper) (i : Nat) (m : Mon) : Outcome (Helper × List Entry) :=
  (assert m.pending).bind fun _ =>
  (h.result junk m.cmd.idx true).map fun h =>
    (h.less.put i { m with ct := none, pending := false }, [.finish i true h.now, .kill m.pid])

/-- `mon_child_cb` (src/plugins/extmon_helper.c:166-204). -/
def Helper.childCb (junk : Nat → Nat) (h : Helper) (i : Nat) (m : Mon) (good : Bool) : Outcome (Helper × List Entry) :=
  let m := { m with cw := none, ct := none, pid := 0 }
  if m.pending = true then
    (h.result junk m.cmd.idx !good).map fun h => (h.less.put i { m with pending := false }, [.finish i (!good) h.now])
  else .ok (h.put i m, [])

/-- `ev_child_start`: the list the watcher is in afterwards. It does nothing if the watcher is active. -/
def Mon.list (m : Mon) (pid : Nat) : Option Nat := match m.cw with | some b => some b | none => some (pid % 16)

/-- `mon_interval_cb` (src/plugins/extmon_helper.c:206-284). `d` is the time the timer was set to. -/
def Helper.intervalCb (h : Helper) (i : Nat) (m : Mon) (d pid : Nat) : Outcome (Helper × List Entry) :=
  (assert (!m.pending)).bind fun _ =>
    if m.cmd.maxProc > 0 ∧ h.numProc ≥ m.cmd.maxProc then .ok (h.put i { m with it := some (h.now + 1) }, [])
    else
      let m := { m with it := some (max (d + m.cmd.interval * 10) h.now), ct := some (h.now + m.cmd.timeout * 10), pending := true,
                        pid := pid, watched := pid, cw := m.list pid }
      .ok (({ h with numProc := h.numProc + 1, procs := (pid, i) :: h.procs }).put i m, [.start i pid h.now])

/-- libev calls the watchers of a process that ended. -/
def Helper.exitCb (junk : Nat → Nat) (pid : Nat) (good : Bool) : List Nat → Helper → Outcome (Helper × List Entry)
  | [], h => .ok (h, [])
  | i :: l, h =>
    match h.mons[i]? with
    | none => .ub
    | some m =>
      if m.cw = some (pid % 16) ∧ m.watched = pid then
        (h.childCb junk i m good).bind fun p => (Helper.exitCb junk pid good l p.1).map fun r => (r.1, r.2 ++ p.2)
      else Helper.exitCb junk pid good l h

/-- `plugin_write_cb` (src/plugins/extmon_helper.c:286-321): the loop. A write of 4 bytes to a pipe is
never partial. -/
def Helper.writeLoop : List Wr → Helper → Outcome (Helper × List Entry)
  | l, h =>
    if h.q.len = 0 then
      .ok ({ h with wOn := false, isOpen := bif h.killed then false else h.isOpen }, [])
    else
      match l with
      | [] => .ok (h, [])
      | .again :: _ => .ok (h, [])
      | .bad :: _ => .ok ({ h with ended := true }, [])
      | .intr :: l => Helper.writeLoop l h
      | .good :: l =>
        h.q.peek.bind fun w => h.q.commit.bind fun q => (Helper.writeLoop l { h with q := q }).map fun r => (r.1, r.2 ++ [.sent w])

/-- `die_gracefully` for one monitor (src/plugins/extmon_helper.c:337-346). -/
def Mon.stop (now : Nat) (m : Mon) : Mon :=
  { m with it := none, ct := match m.ct with | none => none | some d => if d - now > 20 then some (now + 20) else some d }

/-- `sig_cb` and `die_gracefully` (src/plugins/extmon_helper.c:323-364). -/
def Helper.termCb (junk : Nat → Nat) (h : Helper) : Outcome (Helper × List Entry) :=
  if h.killed = true then .ok (h, [.term h.now])
  else (h.q.enq junk encodeExit).map fun q =>
    ({ h with killed := true, q := q, wOn := true, mons := h.mons.map (Mon.stop h.now) }, [.term h.now])

/-- One callback. -/
def Helper.step (junk : Nat → Nat) (h : Helper) : Event → Outcome (Helper × List Entry)
  | .tick d => .ok ({ h with now := h.now + d }, [])
  | .interval i pid =>
    match h.mons[i]? with
    | none => .ub
    | some m => match m.it with
      | none => .ub
      | some d => h.intervalCb i m d pid
  | .timeout i =>
    match h.mons[i]? with
    | none => .ub
    | some m => h.timeoutCb junk i m
  | .exit pid good =>
    (Helper.exitCb junk pid good (List.range h.mons.length) { h with procs := h.procs.filter fun p => p.1 != pid }).map fun r => (r.1, r.2 ++ [.reap pid good])
  | .write l => (assert h.isOpen).bind fun _ => h.writeLoop l
  | .term => h.termCb junk

end Gdnsd.Extmon
