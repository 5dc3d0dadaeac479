/-
Model of the daemon's side of extmon (src/plugins/extmon.c): what it makes of the results of the
helper, and of their absence. Times are tenths of a second; an event is one callback of libev. Pipes keep
the words of 4 bytes whole. Not modelled: the start of the helper, and logging.
-/
import Verif.Extmon.Model
namespace Gdnsd.Extmon

/-- `mon_t` of the plugin with its `svc_t` (src/plugins/extmon.c:45-62): the time of the timer, if it
runs. `idx` is the index of the monitor in the daemon. -/
structure DMon where
  timeout : Nat
  interval : Nat
  direct : Bool
  idx : Nat
  timer : Option Nat
  seen : Bool
deriving Repr, DecidableEq

/-- The plugin (src/plugins/extmon.c:64-87). `readOn`: the watcher of the pipe is started. `exited`: the
daemon ended itself. `killDaemon`: `die_on_helper_failure`. -/
structure Daemon where
  mons : List DMon
  initPhase : Bool
  count : Nat
  readOn : Bool
  dead : Bool
  exited : Bool
  killDaemon : Bool
  now : Nat
deriving Repr, DecidableEq

/-- A call of `gdnsd_mon_state_updater` or `gdnsd_mon_sttl_updater`. -/
inductive Upd where
  | state (up : Bool)
  | sttl (down : Bool)
deriving Repr, DecidableEq

/-- What the plugin does: a word is read; an update of a monitor, with the index in the daemon, because
of a word or because there was none for too long; the start of a phase. -/
inductive DEntry where
  | got (w : Nat)
  | upd (i idx t : Nat) (u : Upd)
  | late (i idx t : Nat) (u : Upd)
  | begin (t : Nat)
deriving Repr, DecidableEq

/-- What one `read` gives: a word, nothing yet, or an error, the end or a part of a word. -/
inductive Rd where
  | word (w : Nat)
  | again
  | bad
deriving Repr, DecidableEq

inductive DEvent where
  | tick (d : Nat)
  | read (l : List Rd)
  | timeout (i : Nat)
  | start
deriving Repr, DecidableEq

/-- `bump_local_timeout` (src/plugins/extmon.c:111-119). -/
def DMon.bump (now : Nat) (m : DMon) : DMon := { m with timer := some (now + (m.timeout + m.interval) * 2 * 10) }

/-- `plugin_extmon_init_monitors` (src/plugins/extmon.c:445-463), of monitors with nothing set. -/
def Daemon.init (killDaemon : Bool) (mons : List DMon) (now : Nat) : Daemon :=
  ⟨mons.map fun m => { m with seen := false }.bump now, true, 0, decide (mons ≠ []), false, false, killDaemon, now⟩

/-- `helper_is_dead` (src/plugins/extmon.c:90-109). -/
def Daemon.helperDead (d : Daemon) (graceful : Bool) : Daemon :=
  if graceful = false ∧ d.killDaemon = true then { d with exited := true }
  else { d with readOn := false, dead := true, mons := d.mons.map fun m => { m with timer := none } }

/-- A monitor is seen for the first time in the first phase (src/plugins/extmon.c:166-172, 195-203). -/
def Daemon.seen (d : Daemon) (i : Nat) (m : DMon) : Daemon :=
  { d with mons := d.mons.set i { m with seen := true }, count := d.count + 1, readOn := if d.count + 1 = d.mons.length then false else d.readOn }

/-- `helper_read_cb` (src/plugins/extmon.c:121-179). -/
def Daemon.readCb : List Rd → Daemon → Daemon × List DEntry
  | [], d => (d, [])
  | .again :: _, d => (d, [])
  | .bad :: _, d => (d.helperDead false, [])
  | .word w :: l, d =>
    if isExit w = true then (d.helperDead true, [.got w])
    else
      match d.mons[monIdx w]? with
      | none => ({ d with exited := true }, [.got w])
      | some m =>
        let e := [.upd (monIdx w) m.idx d.now (if m.direct = true then .sttl (monFailed w) else .state (!monFailed w)), .got w]
        if d.initPhase = true then
          let m := { m with timer := none }
          if m.seen = false then
            let d1 := d.seen (monIdx w) m
            if d1.count = d1.mons.length then (d1, e)
            else let r := Daemon.readCb l d1; (r.1, r.2 ++ e)
          else let r := Daemon.readCb l { d with mons := d.mons.set (monIdx w) m }; (r.1, r.2 ++ e)
        else let r := Daemon.readCb l { d with mons := d.mons.set (monIdx w) (m.bump d.now) }; (r.1, r.2 ++ e)

/-- `local_timeout_cb` (src/plugins/extmon.c:181-205). -/
def Daemon.timeoutCb (d : Daemon) (i : Nat) (m : DMon) : Outcome (Daemon × List DEntry) :=
  let e := DEntry.late i m.idx d.now (.state false)
  if d.initPhase = false then .ok ({ d with mons := d.mons.set i (m.bump d.now) }, [e])
  else (assert (!m.seen)).bind fun _ => .ok (d.seen i { m with timer := none }, [e])

/-- One callback; `start` is `plugin_extmon_start_monitors` (src/plugins/extmon.c:465-474). -/
def Daemon.step (d : Daemon) : DEvent → Outcome (Daemon × List DEntry)
  | .tick k => .ok ({ d with now := d.now + k }, [])
  | .read l => .ok (d.readCb l)
  | .timeout i =>
    match d.mons[i]? with
    | none => .ub
    | some m => d.timeoutCb i m
  | .start =>
    if d.mons ≠ [] ∧ d.dead = false then .ok ({ d with initPhase := false, readOn := true, mons := d.mons.map (DMon.bump d.now) }, [.begin d.now])
    else .ok (d, [])

end Gdnsd.Extmon
