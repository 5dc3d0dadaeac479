/-
How the daemon starts the helper of `extmon` and hands the commands over: `spawn_helper` and `send_cmd` (src/plugins/extmon.c) against the first half of `main` of src/plugins/extmon_helper.c, over two pipes.
-/
import Verif.Extmon.Model
import Verif.Util.Model
import Verif.Conf.Model
open Gdnsd.Conf (str)
open Gdnsd.Extmon
namespace Gdnsd.Hand

/-- A `mon_t` with its `svc_t` (src/plugins/extmon.c:45-62): what the command has of them. -/
structure Mon where
  timeout : Nat
  interval : Nat
  maxProc : Nat
  args : List Bytes
  thing : Bytes
  desc : Bytes
deriving Repr, DecidableEq

/-- The arguments with the item (src/plugins/extmon.c:218-220). `none` is the end of the process. -/
def substAll (thing : Bytes) : List Bytes → Outcome (Option (List Bytes))
  | [] => .ok (some [])
  | a :: l => (Util.subst a (str "%%ITEM%%") thing).bind fun
    | none => .ok none
    | some x => (substAll thing l).map fun r => r.map (x :: ·)

/-- The commands of the monitors from number `i` on (src/plugins/extmon.c:222-230, 308-309). -/
def cmds (i : Nat) : List Mon → Outcome (Option (List Cmd))
  | [] => .ok (some [])
  | m :: l => (substAll m.thing m.args).bind fun
    | none => .ok none
    | some args => (cmds (i + 1) l).map fun r => r.map (⟨i, m.timeout, m.interval, m.maxProc, args, m.desc⟩ :: ·)

/-- What is written for a list of commands, each with the answer that is waited for (src/plugins/extmon.c:232-234). -/
def cmdMsgs (junk : Bytes) : List Cmd → Outcome (List (Bytes × Bytes))
  | [] => .ok []
  | c :: l => (cmdBuf junk c).bind fun b => (cmdMsgs junk l).map fun r => (b, str "CMD_ACK") :: r

/-- All that `spawn_helper` writes, in order, with the answers (src/plugins/extmon.c:294-314). Here the messages are made before the first is written, and
in the code each just before it is written. -/
def plan (junk : Bytes) (mons : List Mon) : Outcome (Option (List (Bytes × Bytes))) :=
  (cmds 0 mons).bind fun
  | none => .ok none
  | some cs => (cmdMsgs junk cs).map fun l =>
    some ([(str "HELO", str "HELO_ACK"), (str "CMDS:" ++ be16 mons.length, str "CMDS_ACK")] ++ l ++ [(str "END_CMDS", str "END_CMDS_ACK")])

/-- The daemon: in `emc_write_string` with this to write, or in `emc_read_exact` having got this, or after it all. -/
inductive D where
  | send (out ack : Bytes) (more : List (Bytes × Bytes))
  | recv (got ack : Bytes) (more : List (Bytes × Bytes))
  | done
deriving Repr, DecidableEq

def D.next : List (Bytes × Bytes) → D
  | [] => .done
  | (m, a) :: l => .send m a l

/-- What the helper waits for. -/
inductive Ph where
  | helo
  | count
  | cmd
  | fin
deriving Repr, DecidableEq

/-- The helper: reading a message of which it has `got`, or writing an answer after which it waits for `next`, or after it all. `num` is `num_mons`. -/
inductive H where
  | recv (ph : Ph) (got : Bytes) (num : Nat) (cmds : List Cmd)
  | send (out : Bytes) (next : Option Ph) (num : Nat) (cmds : List Cmd)
  | done (cmds : List Cmd)
deriving Repr, DecidableEq

/-- How long the part of the message is that the helper reads now, from the start of the message on (src/plugins/extmon_helper.c:397, 403, 434; src/plugins/extmon_comms.c:157, 172, 181). -/
def want : Ph → Bytes → Outcome Nat
  | .helo, _ => .ok 4
  | .count, _ => .ok 7
  | .fin, _ => .ok 8
  | .cmd, got => if got.length < 14 then .ok 14 else (get16 got 12).map (14 + ·)

/-- `emc_read_command` with that much of a command read (src/plugins/extmon_comms.c:155-224), and the loop of `main` (src/plugins/extmon_helper.c:423-432). -/
def gotCmd (got : Bytes) (num : Nat) (cs : List Cmd) : Outcome (Option H) :=
  if got.length < 14 then .ok (some (.recv .cmd got num cs)) else
  if got.take 4 ≠ str "CMD:" then .ok none else
  (get16 got 12).bind fun varLen =>
  if varLen < 4 then .ok none else
  if got.length < 14 + varLen then .ok (some (.recv .cmd got num cs)) else
  (get16 got 4).bind fun idx =>
  (get16 got 6).bind fun timeout =>
  (get16 got 8).bind fun interval =>
  (get16 got 10).bind fun maxProc =>
  (getVar (got.drop 14) varLen).bind fun
  | none => .ok none
  | some (args, desc) =>
    if cs.length ≠ idx then .ok none
    else .ok (some (.send (str "CMD_ACK") (some (if cs.length + 1 < num then .cmd else .fin)) num (cs ++ [⟨idx, timeout, interval, maxProc, args, desc⟩])))

/-- What the helper does with `got` (src/plugins/extmon_helper.c:397-437). `none` is the end of the process with a message. -/
def H.got (ph : Ph) (got : Bytes) (num : Nat) (cs : List Cmd) : Outcome (Option H) :=
  match ph with
  | .helo =>
    if got.length < 4 then .ok (some (.recv .helo got num cs))
    else if got = str "HELO" then .ok (some (.send (str "HELO_ACK") (some .count) num cs)) else .ok none
  | .count =>
    if got.length < 7 then .ok (some (.recv .count got num cs))
    else if got.take 5 ≠ str "CMDS:" then .ok none
    else (get16 got 5).map fun n => if n = 0 then none else some (.send (str "CMDS_ACK") (some .cmd) n cs)
  | .cmd => gotCmd got num cs
  | .fin =>
    if got.length < 8 then .ok (some (.recv .fin got num cs))
    else if got = str "END_CMDS" then .ok (some (.send (str "END_CMDS_ACK") none num cs)) else .ok none

def H.after (next : Option Ph) (num : Nat) (cs : List Cmd) : H :=
  match next with
  | some ph => .recv ph [] num cs
  | none => .done cs

/-- Both processes and both pipes: `up` to the helper, `down` to the daemon. A process that has ended stays where it was. -/
structure Sys where
  d : D
  h : H
  up : Bytes
  down : Bytes
  dDead : Bool
  hDead : Bool
deriving Repr, DecidableEq

/-- The next call of one of the processes, which moves `k` bytes or as many as there are or fit (none at all: it was interrupted); or a process is killed. -/
inductive Ev where
  | d (k : Nat)
  | h (k : Nat)
  | killD
  | killH
deriving Repr, DecidableEq

/-- A call of the daemon (src/plugins/extmon_comms.c:33-80; src/plugins/extmon.c:232-234, 294-314). A write to a pipe that has no reader fails. A read from an empty
pipe fails if it has no writer, and blocks if it has. -/
def stepD (cap k : Nat) (s : Sys) : Sys :=
  if s.dDead = true ∨ k = 0 then s else
  match s.d with
  | .done => s
  | .send out a l =>
    if s.hDead = true then { s with dDead := true } else
    let n := min k (min out.length (cap - s.up.length))
    { s with up := s.up ++ out.take n, d := if out.drop n = [] then .recv [] a l else .send (out.drop n) a l }
  | .recv got a l =>
    if s.down = [] then (if s.hDead = true then { s with dDead := true } else s) else
    let n := min k (min s.down.length (a.length - got.length))
    let g := got ++ s.down.take n
    if g.length < a.length then { s with down := s.down.drop n, d := .recv g a l }
    else if g = a then { s with down := s.down.drop n, d := D.next l }
    else { s with down := s.down.drop n, dDead := true }

/-- A call of the helper (src/plugins/extmon_comms.c:33-80, 149-240; src/plugins/extmon_helper.c:397-437). The daemon closes its end of `up` when it is done. -/
def stepH (cap k : Nat) (s : Sys) : Outcome Sys :=
  if s.hDead = true ∨ k = 0 then .ok s else
  match s.h with
  | .done _ => .ok s
  | .send out nx num cs =>
    if s.dDead = true then .ok { s with hDead := true } else
    let n := min k (min out.length (cap - s.down.length))
    .ok { s with down := s.down ++ out.take n, h := if out.drop n = [] then H.after nx num cs else .send (out.drop n) nx num cs }
  | .recv ph got num cs =>
    if s.up = [] then (if s.dDead = true ∨ s.d = .done then .ok { s with hDead := true } else .ok s) else
    (want ph got).bind fun w =>
    let n := min k (min s.up.length (w - got.length))
    (H.got ph (got ++ s.up.take n) num cs).map fun
      | none => { s with up := s.up.drop n, hDead := true }
      | some h => { s with up := s.up.drop n, h := h }

def step (cap : Nat) : Ev → Sys → Outcome Sys
  | .d k, s => .ok (stepD cap k s)
  | .h k, s => stepH cap k s
  | .killD, s => .ok { s with dDead := true }
  | .killH, s => .ok { s with hDead := true }

def run (cap : Nat) : List Ev → Sys → Outcome Sys
  | [], s => .ok s
  | e :: l, s => (step cap e s).bind (run cap l)

/-- After `fork` and `execl` (src/plugins/extmon.c:240-292; src/plugins/extmon_helper.c:366-395). That the descriptors are from 3 to 1000 is assumed. -/
def start (junk : Bytes) (mons : List Mon) : Outcome (Option Sys) :=
  (plan junk mons).map fun r => r.map fun l => ⟨D.next l, .recv .helo [] 0 [], [], [], false, false⟩

end Gdnsd.Hand
