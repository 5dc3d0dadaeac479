/-
src/daemon.c, libgdnsd/misc.c, src/main.c: the processes of `gdnsd daemonize`, the end of child processes, and the limit of open files.

Times are in rounds of 10 milliseconds. `log_fatal` ends a process with status 42.
-/
import Verif.Take.Model
namespace Gdnsd.Life
open Take (Eff)

/-! ### Daemonizing -/

/-- Where the first process is in `do_daemonize` and `daemon_fg_waiter` (src/daemon.c:92-144): before the fork, before closing its end for writing, in `waitpid`,
in `read`, and ended. -/
inductive Fg where
  | fork
  | close
  | wait
  | read
  | exit (n : Nat)
deriving Repr, DecidableEq

/-- The second process (src/daemon.c:146-167): not there, before closing its end for reading, before `setsid`, before `sigaction`, before its fork, before `_exit`, and ended. -/
inductive Mid where
  | none
  | close
  | setsid
  | sighup
  | fork
  | leave
  | exit (n : Nat)
deriving Repr, DecidableEq

/-- The daemon: not there, before it reopens its files (src/daemon.c:172-178), running the rest of `main` with what remains of it and whether it still holds the pipe, and ended. -/
inductive Dmn where
  | none
  | reopen
  | run (todo : List Eff) (pipe : Bool)
  | exit (n : Nat)
deriving Repr, DecidableEq

/-- All three, the number of bytes in the pipe, and what the daemon has done. -/
structure Sys where
  fg : Fg
  mid : Mid
  dmn : Dmn
  bytes : Nat
  did : List Eff
deriving Repr, DecidableEq

/-- After `pipe2` (src/daemon.c:129-130); if it fails, the process just ends. -/
def Sys.init : Sys := ⟨.fork, .none, .none, 0, []⟩

/-- Who holds the end for writing. The pipe is closed by `exec`. -/
def Fg.writes : Fg → Bool
  | .fork | .close => true
  | _ => false

def Mid.writes : Mid → Bool
  | .none | .exit _ => false
  | _ => true

def Dmn.writes : Dmn → Bool
  | .reopen => true
  | .run _ p => p
  | _ => false

/-- Who holds the end for reading. The second process closes it before it forks. -/
def Fg.reads : Fg → Bool
  | .exit _ => false
  | _ => true

def Mid.reads : Mid → Bool
  | .close => true
  | _ => false

/-- A step of the first process (src/daemon.c:92-121, 133-140). `ok` is the result of a call that may fail. With `ign`, SIGCHLD is ignored, as it may be from
the process that started it: then `waitpid` fails once the child has ended. Interrupted calls are repeated and left out. -/
def fgStep (ign ok : Bool) (s : Sys) : Option Sys :=
  match s.fg with
  | .fork => some (if ok = true then { s with fg := .close, mid := .close } else { s with fg := .exit 42 })
  | .close => some { s with fg := .wait }
  | .wait => match s.mid with
    | .exit n => some { s with fg := if ign = true then .exit 42 else if n ≠ 0 then .exit 42 else .read }
    | _ => none
  | .read =>
    if 0 < s.bytes then some { s with fg := .exit 0, bytes := s.bytes - 1 }
    else if s.fg.writes = false ∧ s.mid.writes = false ∧ s.dmn.writes = false then some { s with fg := .exit 42 }
    else none
  | .exit _ => none

/-- A step of the second process (src/daemon.c:146-167). -/
def midStep (ok : Bool) (s : Sys) : Option Sys :=
  match s.mid with
  | .none => none
  | .close => some { s with mid := .setsid }
  | .setsid => some { s with mid := if ok = true then .sighup else .exit 42 }
  | .sighup => some { s with mid := if ok = true then .fork else .exit 42 }
  | .fork => some (if ok = true then { s with mid := .leave, dmn := .reopen } else { s with mid := .exit 42 })
  | .leave => some { s with mid := .exit 0 }
  | .exit _ => none

/-- A step of the daemon (src/daemon.c:172-184), where `main` is what it does afterwards. To be ready is to write to the pipe and close it
(`gdnsd_daemon_notify_ready`, src/daemon.c:197-206); SIGPIPE is ignored, so that without a reader this fails. -/
def dmnStep (main : List Eff) (ok : Bool) (s : Sys) : Option Sys :=
  match s.dmn with
  | .none => none
  | .reopen => some { s with dmn := if ok = true then .run main true else .exit 42 }
  | .run [] _ => none
  | .run (.ready :: l) p =>
    some (if p = true ∧ (s.fg.reads = true ∨ s.mid.reads = true) then { s with dmn := .run l false, bytes := s.bytes + 1, did := s.did ++ [.ready] }
      else { s with dmn := .exit 42 })
  | .run (.exit n :: _) _ => some { s with dmn := .exit n, did := s.did ++ [.exit n] }
  | .run (e :: l) p => some { s with dmn := .run l p, did := s.did ++ [e] }
  | .exit _ => none

/-- Which process goes on, with the result of a call; or a process is killed. -/
inductive Ev where
  | fg (ok : Bool)
  | mid (ok : Bool)
  | dmn (ok : Bool)
  | killFg
  | killMid
  | killDmn
deriving Repr, DecidableEq

def step (main : List Eff) (ign : Bool) (s : Sys) : Ev → Option Sys
  | .fg ok => fgStep ign ok s
  | .mid ok => midStep ok s
  | .dmn ok => dmnStep main ok s
  | .killFg => match s.fg with
    | .exit _ => none
    | _ => some { s with fg := .exit 137 }
  | .killMid => match s.mid with
    | .none | .exit _ => none
    | _ => some { s with mid := .exit 137 }
  | .killDmn => match s.dmn with
    | .none | .exit _ => none
    | _ => some { s with dmn := .exit 137 }

def run (main : List Eff) (ign : Bool) : Sys → List Ev → Option Sys
  | s, [] => some s
  | s, e :: l => (step main ign s e).bind fun s => run main ign s l

/-! ### The end of child processes -/

inductive Sig where
  | term
  | kill
deriving Repr, DecidableEq

/-- A signal that was sent: when, to which number, and which process that was. -/
structure Sent where
  time : Nat
  pid : Nat
  sig : Sig
  to : Option Nat
deriving Repr, DecidableEq

/-- Which process has a number at a time, if any that may be signalled. -/
abbrev World := Nat → Nat → Option Nat

/-- One round of `wait_for_children` (libgdnsd/misc.c:221-229): a number becomes 0 when there is no such process. -/
def check (w : World) (t : Nat) (cs : List Nat) : List Nat := cs.map fun p => if p ≠ 0 ∧ (w t p).isSome then p else 0

def remaining (cs : List Nat) : Nat := (cs.filter (· ≠ 0)).length

/-- The loop of `wait_for_children` (libgdnsd/misc.c:213-234) with so many attempts left, the time and the numbers: the time after it, the numbers, and what remains. -/
def await (w : World) : Nat → Nat → Nat → List Nat → Nat × List Nat × Nat
  | 0, t, rem, cs => (t, cs, rem)
  | a + 1, t, rem, cs =>
    if rem = 0 then (t, cs, 0)
    else await w a (t + 1) (remaining (check w (t + 1) cs)) (check w (t + 1) cs)

/-- `gdnsd_kill_registered_children` (libgdnsd/misc.c:240-267) for these numbers, with all numbers registered: the signals sent and the time it took. -/
def killAll (w : World) (cs : List Nat) : List Sent × Nat :=
  if cs = [] then ([], 0)
  else
    let terms := cs.map fun p => ⟨0, p, .term, w 0 p⟩
    let (t, cs', rem) := await w 1000 0 cs.length cs
    if rem = 0 then (terms, t)
    else (terms ++ (cs'.filter (· ≠ 0)).map fun p => ⟨t, p, .kill, w t p⟩, (await w 500 t cs'.length cs').1)

/-! ### The limit of open files -/

/-- A limit; `none` is `RLIM_INFINITY`. -/
abbrev Lim := Option Nat

structure Rlim where
  cur : Lim
  max : Lim
deriving Repr, DecidableEq

/-- `try_raise_open_files` (src/main.c:436-473) with the limits, if they could be read, and whether they can be set: the limits that are set, if any, and whether it
warns that there are too few. -/
def raise (want : Nat) (r : Rlim) : Option Rlim × Bool :=
  match r.cur with
  | none => (none, false)
  | some c =>
    if c < want then
      match r.max with
      | none => (some ⟨some want, none⟩, false)
      | some m =>
        if m > c then (some ⟨some (if m ≥ want then want else m), some m⟩, decide (m < want))
        else (none, decide (m < want))
    else (none, false)

end Gdnsd.Life
