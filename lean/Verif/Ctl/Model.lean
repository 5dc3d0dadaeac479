/-
Model of the client of the control socket (src/csc.c) and of the program gdnsdctl (src/gdnsdctl.c).

A connection is what its system calls are going to give. Texts of the log are left out but for the numbers of
`status`; so are paths, addresses and names of files, and the options that only concern them. `getopt` is in
Verif.CtlArgs.Model: options come as a structure here.
-/
import Verif.Css.Model
import Verif.Dname.Model
import Verif.Svc.Model
namespace Gdnsd.Ctl
open Css (msg msgKey msgV msgD)
open Conf (str)

/-- What a `send` does. `pipe`: the other side is closed, and SIGPIPE, for which there is no handler
(src/gdnsdctl.c:438-487), ends the program. -/
inductive Tx where
  | fail
  | pipe
  | part (n : Nat)
deriving Repr, DecidableEq

/-- What a `recv` gives: an error, or bytes (none at the end). -/
inductive Rx where
  | fail
  | got (b : Bytes)
deriving Repr, DecidableEq

/-- A connection: what its calls are going to give, and what was sent and received so far. A call beyond the
end of a list is one that waits until the alarm comes, and fails (src/gdnsdctl.c:55-78). `eof`: the other side was seen to have closed it. -/
structure Chan where
  tx : List Tx
  rx : List Rx
  out : Bytes
  inp : Bytes
  eof : Bool
deriving Repr, DecidableEq

inductive Sent where
  | err
  | pipe
  | n (k : Nat)
deriving Repr, DecidableEq

/-- `send` of `b`. -/
def send (c : Chan) (b : Bytes) : Sent × Chan :=
  match c.tx with
  | [] => (.err, c)
  | .fail :: t => (.err, { c with tx := t })
  | .pipe :: t => (.pipe, { c with tx := t })
  | .part k :: t => (.n (min k b.length), { c with tx := t, out := c.out ++ b.take k })

/-- `recv` of at most `want` bytes. -/
def recv (c : Chan) (want : Nat) : Option Bytes × Chan :=
  match c.rx with
  | [] => (none, c)
  | .fail :: r => (none, { c with rx := r })
  | .got b :: r => (some (b.take want), { c with rx := r, inp := c.inp ++ b.take want, eof := c.eof || (b.take want).isEmpty })

/-- `csc_txn_rv_t` (src/csc.h); `ok` has the response. -/
inductive Rv (α : Type) where
  | ok (a : α)
  | hard
  | soft
  | killed
deriving Repr, DecidableEq

/-- The end of a transaction (src/csc.c:278-292, 350-362): the response and what its key means. -/
def verdict (c : Chan) : Rv Bytes × Chan :=
  match recv c 8 with
  | (none, c) => (.soft, c)
  | (some m, c) =>
    if m.length ≠ 8 then (.soft, c)
    else if msgKey m = 65 then (.ok m, c)
    else if msgKey m = 76 then (.soft, c)
    else (.hard, c)

/-- `csc_txn` (src/csc.c:270-293). -/
def txn (c : Chan) (req : Bytes) : Rv Bytes × Chan :=
  match send c req with
  | (.pipe, c) => (.killed, c)
  | (.err, c) => (.soft, c)
  | (.n k, c) => if k ≠ 8 then (.soft, c) else verdict c

/-- The loop of `csc_txn_getdata` (src/csc.c:303-318), `want` bytes to go. There are no more rounds than
calls. -/
def pull : Nat → Chan → Nat → Option Bytes × Chan
  | 0, c, want => if want = 0 then (some [], c) else (none, c)
  | f + 1, c, want =>
    if want = 0 then (some [], c)
    else
      match recv c want with
      | (none, c) => (none, c)
      | (some [], c) => (none, c)
      | (some b, c) =>
        match pull f c (want - b.length) with
        | (none, c) => (none, c)
        | (some r, c) => (some (b ++ r), c)

/-- `csc_txn_getdata` (src/csc.c:295-322). -/
def txnGet (c : Chan) (req : Bytes) : Rv (Bytes × Bytes) × Chan :=
  match txn c req with
  | (.ok m, c) =>
    match pull (c.rx.length + 1) c (msgD m) with
    | (some d, c) => (.ok (m, d), c)
    | (none, c) => (.hard, c)
  | (.hard, c) => (.hard, c)
  | (.soft, c) => (.soft, c)
  | (.killed, c) => (.killed, c)

/-- The loop of `csc_txn_senddata` (src/csc.c:334-346). -/
def push : Nat → Chan → Bytes → Sent × Chan
  | 0, c, b => if b = [] then (.n 0, c) else (.err, c)
  | f + 1, c, b =>
    if b = [] then (.n 0, c)
    else
      match send c b with
      | (.n k, c) => push f c (b.drop k)
      | r => r

/-- `csc_txn_senddata` (src/csc.c:324-363). -/
def txnSend (c : Chan) (req data : Bytes) : Outcome (Rv Bytes × Chan) :=
  (assert (decide (msgD req ≠ 0))).bind fun _ =>
  match send c req with
  | (.pipe, c) => .ok (.killed, c)
  | (.err, c) => .ok (.soft, c)
  | (.n k, c) =>
    if k ≠ 8 then .ok (.soft, c)
    else
      match push (c.tx.length + 1) c (data.take (msgD req)) with
      | (.pipe, c) => .ok (.killed, c)
      | (.err, c) => .ok (.soft, c)
      | (.n _, c) => .ok (verdict c)

/-- `csc_wait_stopping_server` (src/csc.c:365-373): whether the daemon closed the connection. -/
def waitStop (c : Chan) : Bool × Chan :=
  match recv c 1 with
  | (some [], c) => (true, c)
  | (_, c) => (false, c)

/-- PACKAGE_V_MAJOR and so on of this version, as a number of three bytes; a parameter of the program. -/
structure Opts where
  version : Nat
  oneshot : Bool
  ignoreDead : Bool
deriving Repr, DecidableEq

/-- What `csc_get_status` learns (src/csc.c:50-74). -/
structure Info where
  pid : Nat
  version : Nat
deriving Repr, DecidableEq

/-- `csc_new` (src/csc.c:125-156): `none` as a connection is a `connect` that fails. -/
def new (o : Opts) : Option Chan → Rv (Info × Chan) × List Chan
  | none => (.hard, [])
  | some c =>
    match txn c (msg 73 o.version 0) with
    | (.ok m, c) => (.ok (⟨msgD m, msgV m⟩, c), [])
    | (.killed, c) => (.killed, [c])
    | (_, c) => (.hard, [c])

/-- What an action comes to: `done` with what it writes to the standard output, and the daemon it names. -/
inductive Act where
  | done (out : Bytes) (status : Option Info)
  | retry
  | exit (code : Nat)
  | killed
deriving Repr, DecidableEq

/-- The common end of the actions: `-o` makes soft failures hard ones, and those end with 42 (src/gdnsdctl.c:
145-150 and the like). -/
def settle {α} (o : Opts) : Rv α → (α → Act) → Act
  | .ok a, f => f a
  | .hard, _ => .exit 42
  | .soft, _ => if o.oneshot = true then .exit 42 else .retry
  | .killed, _ => .killed

/-- `action_stop` (src/gdnsdctl.c:119-134). -/
def actStop (o : Opts) (c : Chan) : Act × List Chan :=
  match txn c (msg 88 0 0) with
  | (.ok _, c) =>
    match waitStop c with
    | (true, c) => (.done [] none, [c])
    | (false, c) => (.exit 42, [c])
  | (r, c) => (settle o r fun _ => .exit 42, [c])

/-- `action_reloadz` and `action_chalf` (src/gdnsdctl.c:136-153, 328-345). -/
def actPlain (o : Opts) (key : UInt8) (c : Chan) : Act × List Chan :=
  match txn c (msg key 0 0) with
  | (r, c) => (settle o r fun _ => .done [] none, [c])

/-- `action_replace` (src/gdnsdctl.c:155-186); `c2` is the connection to the new daemon. -/
def actReplace (o : Opts) (c : Chan) (c2 : Option Chan) : Act × List Chan :=
  match txn c (msg 82 0 0) with
  | (.ok _, c) =>
    match waitStop c with
    | (false, c) => (.exit 42, [c])
    | (true, c) =>
      match new o c2 with
      | (.ok (i, c2), _) => (.done [] (some i), [c, c2])
      | (.killed, l) => (.killed, c :: l)
      | (_, l) => (.exit 42, c :: l)
  | (r, c) => (settle o r fun _ => .exit 42, [c])

/-- `action_stats` and `action_states` (src/gdnsdctl.c:197-250). -/
def actData (o : Opts) (key : UInt8) (c : Chan) : Act × List Chan :=
  match txnGet c (msg key 0 0) with
  | (r, c) => (settle o r fun x => .done x.2 none, [c])

/-- `b64u_legal` (src/gdnsdctl.c:252-270). -/
def b64u (x : UInt8) : Bool :=
  x == 45 || x == 95 || (decide (48 ≤ x) && decide (x ≤ 57)) || (decide (65 ≤ x) && decide (x ≤ 90)) || (decide (97 ≤ x) && decide (x ≤ 122))

/-- `strncmp` with "_acme-challenge." (src/gdnsdctl.c:286-289). -/
def strip (t : Bytes) : Bytes := if (str "_acme-challenge.").isPrefixOf t then t.drop 16 else t

/-- One pair of arguments (src/gdnsdctl.c:283-306) behind the `buf` so far. `dname_from_string` writes at most
256 bytes. `none`: `log_fatal`. -/
def pair (buf : Bytes) (name payload : Bytes) : Outcome (Option Bytes) :=
  (assert (decide (284 ≤ 28400 - buf.length ∧ buf.length ≤ 28400))).bind fun _ =>
  let t := strip name
  (Dname.fromString t t.length).bind fun (st, d) =>
  if st = .invalid then .ok none
  else
    (rd d 0).bind fun l =>
    if 239 < l.toNat then .ok none
    else
      (Dname.terminate d).bind fun d =>
      if payload.length ≠ 43 then .ok none
      else if payload.all b64u = true then
        let buf := buf ++ d.take (l.toNat + 1) ++ payload ++ [0]
        (assert (decide (buf.length ≤ 28400))).bind fun _ => .ok (some buf)
      else .ok none

/-- The loop of `action_chal` (src/gdnsdctl.c:281-307). -/
def pairs (buf : Bytes) : List Bytes → Outcome (Option Bytes)
  | n :: p :: as =>
    (pair buf n p).bind fun o =>
    match o with
    | none => .ok none
    | some buf => pairs buf as
  | _ => .ok (some buf)

/-- `action_chal` (src/gdnsdctl.c:272-326). Arguments have no zero bytes. -/
def actChal (o : Opts) (c : Chan) (args : List Bytes) : Outcome (Act × List Chan) :=
  if args.length = 0 ∨ args.length % 2 = 1 ∨ 200 < args.length then .ok (.exit 2, [c])
  else
    (pairs [] args).bind fun b =>
    match b with
    | none => .ok (.exit 42, [c])
    | some buf =>
      (txnSend c (msg 67 (args.length / 2) buf.length) buf).map fun (r, c) => (settle o r fun _ => .done [] none, [c])

/-- `do_action` (src/gdnsdctl.c:347-373). `strcasecmp` of the action. -/
def doAction (o : Opts) (i : Info) (c : Chan) (c2 : Option Chan) (action : Bytes) (args : List Bytes) : Outcome (Act × List Chan) :=
  if Svc.caseEq action (str "acme-dns-01") = true then actChal o c args
  else if args ≠ [] then .ok (.exit 2, [c])
  else if Svc.caseEq action (str "stop") = true then .ok (actStop o c)
  else if Svc.caseEq action (str "reload-zones") = true then .ok (actPlain o 90 c)
  else if Svc.caseEq action (str "replace") = true then .ok (actReplace o c c2)
  else if Svc.caseEq action (str "status") = true then .ok (.done [] (some i), [c])
  else if Svc.caseEq action (str "stats") = true then .ok (actData o 83 c)
  else if Svc.caseEq action (str "states") = true then .ok (actData o 69 c)
  else if Svc.caseEq action (str "acme-dns-01-flush") = true then .ok (actPlain o 99 c)
  else .ok (.exit 2, [c])

/-- `can_ignore_dead` (src/gdnsdctl.c:385-392). -/
def ignorable (action : Bytes) : Bool :=
  Svc.caseEq action (str "stop") || Svc.caseEq action (str "reload-zones") || Svc.caseEq action (str "replace") || Svc.caseEq action (str "acme-dns-01-flush")

/-- One round of the loop of `main`: the connections, and whether the alarm had come at its end. -/
structure Try where
  conn : Option Chan
  conn2 : Option Chan
  alarm : Bool
deriving Repr, DecidableEq

/-- The program: its end with the exit status, what it wrote, the daemon it named; ended by the signal; or still
running after the rounds. -/
inductive End where
  | exit (code : Nat) (out : Bytes) (status : Option Info)
  | killed
  | running
deriving Repr, DecidableEq

/-- One round (src/gdnsdctl.c:460-485): `none` if there is to be another one. The list has the connections as
they are left. -/
def round (o : Opts) (action : Bytes) (args : List Bytes) (t : Try) : Outcome (Option End × List Chan) :=
  match new o t.conn with
  | (.killed, l) => .ok (some .killed, l)
  | (.hard, l) => .ok (some (.exit (if o.ignoreDead && ignorable action then 0 else 1) [] none), l)
  | (.soft, l) => .ok (some (.exit (if o.ignoreDead && ignorable action then 0 else 1) [] none), l)
  | (.ok (i, c), _) =>
    (doAction o i c t.conn2 action args).map fun (a, l) =>
    match a with
    | .done out st => (some (.exit 0 out st), l)
    | .exit code => (some (.exit code [] none), l)
    | .killed => (some .killed, l)
    | .retry => (if o.oneshot || t.alarm then some (.exit 1 [] none) else none, l)

/-- `main` (src/gdnsdctl.c:438-487): the end, and the connections of each round. -/
def main (o : Opts) (action : Bytes) (args : List Bytes) : List Try → Outcome (End × List (List Chan))
  | [] => .ok (.running, [])
  | t :: ts =>
    (round o action args t).bind fun (e, l) =>
    match e with
    | some e => .ok (e, [l])
    | none => (main o action args ts).map fun (e, ls) => (e, l :: ls)

end Gdnsd.Ctl
