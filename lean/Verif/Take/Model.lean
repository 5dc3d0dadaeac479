/-
Model of the start of the daemon up to the loop (src/main.c), with the taking over of another daemon's
sockets (src/csc.c, src/css.c).

A start is a list of effects, in order. What the parts of the start come to that are modelled elsewhere, or
not at all (configuration, zones, monitoring, plugins, system calls), are parameters: they succeed or end the
program (`log_fatal`). The action `daemonize` is as `start`; forking, messages and signals are left out. SIGPIPE is ignored
(src/daemon.c:185-191), so a `send` to a closed connection fails.
-/
import Verif.Ctl.Model
namespace Gdnsd.Take
open Css (msg msgKey msgV msgD)
open Ctl (Chan Opts Info)

/-! ### Descriptors -/

/-- What a `recvmsg` gives: an error, or bytes, the descriptors if there is a message of that kind, and whether
some of them were cut off. -/
inductive RxMsg where
  | fail
  | got (b : Bytes) (fds : Option (List Nat)) (trunc : Bool)
deriving Repr, DecidableEq

/-- The loop of `csc_txn_getfds` (src/csc.c:208-263) with `get_control_fds` (178-196): the number wanted once it
is known, those so far, and the messages. `none`: `log_fatal`, or no more messages. -/
def getFds : Option Nat → List Nat → List RxMsg → Option (List Nat)
  | _, _, [] => none
  | _, _, .fail :: _ => none
  | w, acc, .got b fds trunc :: ms =>
    if b.length ≠ 8 ∨ trunc = true then none
    else
      let want := w.getD (msgV b)
      if msgKey b ≠ 65 ∨ want ≠ msgV b ∨ want < 2 then none
      else
        match fds with
        | none => none
        | some l =>
          if l = [] ∨ want < l.length + acc.length then none
          else if acc.length + l.length < want then getFds (some want) (acc ++ l) ms
          else some (acc ++ l)

/-- An address (libgdnsd/net.h). -/
structure Addr where
  v6 : Bool
  ip : Bytes
  port : Nat
  scope : Nat
deriving Repr, DecidableEq

/-- `gdnsd_anysin_cmp` (libgdnsd/net.c:319-333). -/
def same (a b : Addr) : Bool := a.v6 == b.v6 && a.ip == b.ip && a.port == b.port

/-- What the system knows about a descriptor: not one, not a socket of an address, of no known type, or one of UDP or TCP. -/
inductive Kind where
  | bad
  | noname
  | notype
  | sock (udp : Bool) (a : Addr)
deriving Repr, DecidableEq

/-- A thread for DNS (src/socks.h): its kind of socket and the socket. -/
structure Thread where
  udp : Bool
  addr : Addr
  sock : Option Nat
deriving Repr, DecidableEq

/-- The search of `socks_import_fd` (src/css.c:992-999). -/
def place (udp : Bool) (a : Addr) (fd : Nat) : List Thread → Option (List Thread)
  | [] => none
  | t :: ts =>
    if t.sock = none ∧ t.udp = udp ∧ same t.addr a = true then some ({ t with sock := some fd } :: ts)
    else (place udp a fd ts).map (t :: ·)

/-- `socks_import_fd` (src/css.c:963-1003): the threads, and the descriptors closed. -/
def importFd (kind : Nat → Kind) (ts : List Thread) (fd : Nat) : List Thread × List Nat :=
  match kind fd with
  | .bad => (ts, [])
  | .noname => (ts, [fd])
  | .notype => (ts, [fd])
  | .sock udp a =>
    match place udp a fd ts with
    | some ts' => (ts', [])
    | none => (ts, [fd])

/-- `socks_import_fds` (src/css.c:1005-1009). -/
def importFds (kind : Nat → Kind) : List Thread → List Nat → List Thread × List Nat
  | ts, [] => (ts, [])
  | ts, fd :: fds =>
    let (ts, c) := importFd kind ts fd
    let (ts, c') := importFds kind ts fds
    (ts, c ++ c')

/-! ### The start -/

/-- What happens, in order: the lock is had or another process has it; bytes are sent to the other daemon; a part
has succeeded; descriptors have come (those of the lock and the control socket, and what became of the others); the
control socket is removed, to be made anew; the control sockets listen; the listeners of DNS are bound, those that
are new being named; their threads run; the daemon tells that it is ready; it serves; or it ends. -/
inductive Eff where
  | lock
  | busy
  | say (b : Bytes)
  | conf
  | zones
  | monitored
  | challenges (n : Nat) (d : Bytes)
  | prerun
  | took (lock ctl : Nat) (ts : List Thread) (closed : List Nat)
  | unlink
  | listening
  | bound (new : List (Bool × Addr))
  | threads
  | ready
  | serve
  | exit (code : Nat)
deriving Repr, DecidableEq

/-- Effects, and whether to go on. -/
def Boot (α : Type) := List Eff × Option α

def Boot.pure {α} (a : α) : Boot α := ([], some a)

def Boot.bind {α β} (x : Boot α) (f : α → Boot β) : Boot β :=
  match x.2 with
  | none => (x.1, none)
  | some a => (x.1 ++ (f a).1, (f a).2)

/-- `log_fatal` (libgdnsd/log.c), or `exit`. -/
def die {α} (code : Nat) : Boot α := ([.exit code], none)

/-- A part that has the effect `e` if it succeeds. -/
def part (ok : Bool) (e : List Eff) : Boot Unit := if ok = true then (e, some ()) else die 42

inductive Lock where
  | got
  | busy
  | err
deriving Repr, DecidableEq

/-- The program and what the parts of the start come to. -/
structure Env where
  check : Bool
  replace : Bool
  idem : Bool
  version : Nat
  pid : Nat
  paths : Bool
  socks : Bool
  lock1 : Lock
  conn : Option Chan
  conf : Bool
  zones : Bool
  setup : Bool
  mon : Bool
  chal : Nat → Bytes → Bool
  prerun : Bool
  lock2 : Lock
  msgs : List RxMsg
  kind : Nat → Kind
  threads : List Thread
  unlinks : Bool
  listen : Bool
  binds : Bool
  starts : Bool

/-- What was sent between two states of a connection. -/
def said (c c' : Chan) : List Eff := if c'.out.drop c.out.length = [] then [] else [.say (c'.out.drop c.out.length)]

/-- `csc_server_version_gte(csc, 2, 99, 200)` (src/csc.c:168-175). -/
def modern (i : Info) : Bool := decide (2 * 65536 + 99 * 256 + 200 ≤ i.version)

/-- The making of the control sockets (src/css.c:1046-1078, 1143-1149) by a daemon that has the lock. -/
def sockets (e : Env) : Boot Unit :=
  Boot.bind ([.lock], some ()) fun _ => Boot.bind (part e.unlinks [.unlink]) fun _ => part e.listen [.listening]

/-- The first `css_new` (src/css.c:1083-1110, 1135-1158), with no connection to another daemon: `false` if there is one. -/
def first (e : Env) : Boot Bool :=
  match e.lock1 with
  | .err => die 42
  | .busy => ([.busy], some false)
  | .got => Boot.bind (sockets e) fun _ => Boot.pure true

/-- `csc_new` (src/csc.c:125-156) for the takeover. -/
def connect (e : Env) : Boot (Info × Chan) :=
  match e.conn with
  | none => die 42
  | some c =>
    match Ctl.txn c (msg 73 e.version 0) with
    | (.ok m, c') => (said c c', some (⟨msgD m, msgV m⟩, c'))
    | (_, c') => Boot.bind (said c c', some ()) fun _ => die 42

/-- `do_tak1` (src/main.c:312-326). -/
def tak1 (e : Env) (i : Info) (c : Chan) : Boot Chan :=
  if modern i = true then
    match Ctl.txn c (msg 49 0 e.pid) with
    | (.ok _, c') => (said c c', some c')
    | (_, c') => Boot.bind (said c c', some ()) fun _ => die 42
  else Boot.pure c

/-- `do_tak2` (src/main.c:328-360). What becomes of the challenges is modelled in `Verif/Chal`. -/
def tak2 (e : Env) (i : Info) (c : Chan) : Boot Chan :=
  if modern i = true then
    match Ctl.txnGet c (msg 50 0 e.pid) with
    | (.ok (m, d), c') => Boot.bind (said c c', some ()) fun _ => Boot.bind (part (e.chal (msgV m) d) [.challenges (msgV m) d]) fun _ => Boot.pure c'
    | (_, c') => Boot.bind (said c c', some ()) fun _ => die 42
  else Boot.pure c

/-- The second `css_new` (src/css.c:1083-1158): the connection if the other daemon still has the lock, and the
threads. -/
def second (e : Env) (c : Chan) : Boot (Option Chan × List Thread) :=
  match e.lock2 with
  | .err => die 42
  | .got => Boot.bind (sockets e) fun _ => Boot.pure (none, e.threads)
  | .busy =>
    match Ctl.send c (msg 84 0 e.pid) with
    | (.n k, c') =>
      Boot.bind (said c c', some ()) fun _ =>
      if k ≠ 8 then die 42
      else
        match getFds none [] e.msgs with
        | some (lk :: ct :: fds) =>
          Boot.bind ([.took lk ct (importFds e.kind e.threads fds).1 (importFds e.kind e.threads fds).2], some ()) fun _ =>
          Boot.bind (part e.listen [.listening]) fun _ => Boot.pure (some c', (importFds e.kind e.threads fds).1)
        | _ => die 42
    | (_, c') => Boot.bind (said c c', some ()) fun _ => die 42

/-- The end of the start (src/main.c:538-580): sockets that did not come from the other daemon are bound
(src/dnsio_udp.c:229-264, src/dnsio_tcp.c:950-1010), and `csc_stop_server` may fail. The statistics that come
after it are modelled in `Verif/Statio`. -/
def finish (e : Env) (c : Option Chan) (ts : List Thread) : Boot Unit :=
  Boot.bind (part e.binds [.bound ((ts.filter fun t => t.sock = none).map fun t => (t.udp, t.addr))]) fun _ =>
  Boot.bind (part e.starts [.threads, .ready]) fun _ =>
  match c with
  | none => ([.serve], none)
  | some c => (said c (Ctl.txn c (msg 88 0 0)).2 ++ [.serve], none)

/-- What a daemon that does not have the lock does (src/main.c:677-692). -/
def join (e : Env) (mine : Bool) : Boot (Option (Info × Chan)) :=
  if mine = true then Boot.pure none
  else if e.idem = true then die 0
  else if e.replace = false then die 42
  else Boot.bind (connect e) fun x => Boot.bind (tak1 e x.1 x.2) fun c => Boot.pure (some (x.1, c))

/-- The import of challenges (src/main.c:507-509). -/
def challenge (e : Env) : Option (Info × Chan) → Boot (Option Chan)
  | none => Boot.pure none
  | some (i, c) => Boot.bind (tak2 e i c) fun c => Boot.pure (some c)

/-- The handing over (src/main.c:520-521). -/
def replaceOld (e : Env) : Option Chan → Boot (Option Chan × List Thread)
  | none => Boot.pure (none, e.threads)
  | some c => second e c

/-- `main` and `runtime_execute` up to the loop (src/main.c:474-583, 632-728). -/
def main (e : Env) : Boot Unit :=
  Boot.bind (if e.replace = true ∧ e.idem = true then die 2 else Boot.pure ()) fun _ =>
  Boot.bind (part (e.paths && e.socks) []) fun _ =>
  if e.check = true then
    Boot.bind (part e.conf [.conf]) fun _ => Boot.bind (part e.zones [.zones]) fun _ => die 0
  else
    Boot.bind (first e) fun mine =>
    Boot.bind (join e mine) fun old =>
    Boot.bind (part e.conf [.conf]) fun _ =>
    Boot.bind (part e.zones [.zones]) fun _ =>
    Boot.bind (part e.setup []) fun _ =>
    Boot.bind (part e.mon [.monitored]) fun _ =>
    Boot.bind (challenge e old) fun old =>
    Boot.bind (part e.prerun [.prerun]) fun _ =>
    Boot.bind (replaceOld e old) fun x =>
    finish e x.1 x.2

end Gdnsd.Take
