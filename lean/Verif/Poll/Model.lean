/-
src/plugins/http_status.c and src/plugins/tcp_connect.c: how one address is checked, from callback to callback.

What the kernel does is in the events. A callback of a watcher can run only if libev calls it: an I/O watcher has to
be active (`ev_io_stop` takes back an event that waits), a timer that does not repeat becomes inactive and pending
when it expires and is called after that (`ev_timer_stop` takes this back as well). In which order the callbacks of
one iteration run is left open. Descriptors are numbers, `-1` is `none`. `shutdown` and messages are left out. `.ub`
is a failed assertion or an access outside of an array.
-/
import Verif.Basic
import Verif.Mon.Model
namespace Gdnsd.Poll

/-- What is seen of a check from the outside. `skip` is the warning that a round is left out. -/
inductive Act where
  | noSocket
  | opened (fd : Nat)
  | connected
  | sent (b : Bytes)
  | got (b : Bytes)
  | refused
  | lost
  | timeout
  | closed (fd : Nat)
  | report (up : Bool)
  | skip
deriving DecidableEq, Repr

/-- A timer that does not repeat. -/
inductive Tmr where
  | off
  | active
  | pending
deriving DecidableEq, Repr

/-- `socket` and `connect`: there is no socket, no connection, one at once, or one is tried for. -/
inductive Conn where
  | noSocket
  | refused (fd : Nat)
  | now (fd : Nat)
  | wait (fd : Nat)
deriving DecidableEq, Repr

/-- `send`: `EAGAIN` or `EINTR`, another failure, or so many bytes if there are as many. -/
inductive Send where
  | again
  | fail
  | moved (n : Nat)
deriving DecidableEq, Repr

/-- `recv`: `EAGAIN` or `EINTR`, another failure, or bytes; more than are asked for are not taken. No bytes: the
peer has closed the connection. -/
inductive Recv where
  | again
  | fail
  | got (b : Bytes)
deriving DecidableEq, Repr

/-- A callback, with what the kernel does in it, or (`expire`) the timer for the timeout runs out. -/
inductive Ev where
  | interval (c : Conn)
  | expire
  | timeout
  | write (soError : Bool) (r : Send)
  | read (r : Recv)
deriving DecidableEq, Repr

/-! ### The status line -/

/-- A directive of a `scanf` format: a byte, `%*1[...]`, and `%3c`. -/
inductive Dir where
  | lit (c : UInt8)
  | one (set : Bytes)
  | chars (n : Nat)
deriving DecidableEq, Repr

/-- `"HTTP/1.%*1[01]%*1[ ]%3c%*1[ ]"` (src/plugins/http_status.c:291). -/
def statusFmt : List Dir :=
  [.lit 72, .lit 84, .lit 84, .lit 80, .lit 47, .lit 49, .lit 46, .one [48, 49], .one [32], .chars 3, .one [32]]

/-- `sscanf` for such a format: how many values it stored (a failure before the first counts as none), and the
bytes stored. A string that ends within `%3c` is a match for glibc and none for others: `short`. -/
def scan (short : Bool) : List Dir → Bytes → Nat → Bytes → Nat × Bytes
  | [], _, n, v => (n, v)
  | .lit c :: ds, s, n, v =>
    match s with
    | [] => (n, v)
    | x :: r => if x = c then scan short ds r n v else (n, v)
  | .one set :: ds, s, n, v =>
    match s with
    | [] => (n, v)
    | x :: r => if set.contains x = true then scan short ds r n v else (n, v)
  | .chars k :: ds, s, n, v =>
    if s = [] then (n, v)
    else if k ≤ s.length ∨ short = true then scan short ds (s.drop k) (n + 1) (s.take k)
    else (n, v)

/-- The bytes before the first zero byte. -/
def upTo0 (s : Bytes) : Bytes := s.takeWhile (· ≠ 0)

/-- The loop over `ok_codes` (src/plugins/http_status.c:295-300). -/
def okCode (ok : List Nat) (c : Nat) : Bool := ok.any (· == c)

/-- Whether a response is good (src/plugins/http_status.c:289-303), of the buffer with its end at 13. `strtoul` is
for base 10; its result becomes an `unsigned` of 32 bits. -/
def status (short : Bool) (ok : List Nat) (buf : Bytes) : Bool :=
  let r := scan short statusFmt (upTo0 buf) 0 []
  if r.1 = 1 then
    match Mon.strtoul r.2 with
    | some (c, _) => okCode ok (c % 2 ^ 32)
    | none => false
  else false

/-! ### http_status -/

/-- `http_state_t` (src/plugins/http_status.c:55-59). -/
inductive HState where
  | waiting
  | writing
  | reading
deriving DecidableEq, Repr

/-- A service type (src/plugins/http_status.c:44-53), as far as the callbacks use it. `short` belongs to `sscanf`. -/
structure Svc where
  req : Bytes
  ok : List Nat
  short : Bool := true
deriving DecidableEq, Repr

/-- `http_events_t` (src/plugins/http_status.c:61-74). -/
structure Http where
  st : HState
  sock : Option Nat
  rd : Bool
  wr : Bool
  tmo : Tmr
  done : Nat
  conn : Bool
  buf : Bytes
deriving DecidableEq, Repr

/-- After `plugin_http_status_add_mon_addr` (src/plugins/http_status.c:446-493). -/
def Http.start : Http := ⟨.waiting, none, false, false, .off, 0, false, List.replicate 14 0⟩

/-- `mon_interval_cb` (src/plugins/http_status.c:88-150), with `mon_quick_fail` (80-85). -/
def Http.interval (s : Http) (c : Conn) : Outcome (Http × List Act) :=
  if s.st ≠ .waiting then .ok (s, [.skip])
  else
    (assert (decide (s.sock = none))).bind fun _ =>
    (assert (!s.wr)).bind fun _ =>
    (assert (decide (s.tmo = .off))).bind fun _ =>
    match c with
    | .noSocket => .ok ({ s with st := .waiting }, [.noSocket, .report false])
    | .refused fd => .ok ({ s with st := .waiting, conn := true }, [.opened fd, .refused, .closed fd, .report false])
    | .now fd => .ok ({ s with conn := true, sock := some fd, st := .writing, done := 0, wr := true, tmo := .active }, [.opened fd, .connected])
    | .wait fd => .ok ({ s with conn := false, sock := some fd, st := .writing, done := 0, wr := true, tmo := .active }, [.opened fd])

/-- `mon_write_cb` from `send` on (src/plugins/http_status.c:198-243); `acts` is what the callback did so far. -/
def Http.send (v : Svc) (s : Http) (fd : Nat) (r : Send) (acts : List Act) : Outcome (Http × List Act) :=
  (assert (decide (s.done < v.req.length))).bind fun _ =>
  let toSend := v.req.length - s.done
  match r with
  | .again => .ok (s, acts)
  | .fail => .ok ({ s with sock := none, wr := false, tmo := .off, st := .waiting }, acts ++ [.lost, .closed fd, .report false])
  | .moved k =>
    let n := min k toSend
    let acts := acts ++ [.sent ((v.req.drop s.done).take n)]
    if n ≠ toSend then .ok ({ s with done := s.done + n }, acts)
    else .ok ({ s with done := 0, st := .reading, wr := false, rd := true }, acts)

/-- `mon_write_cb` (src/plugins/http_status.c:152-244). -/
def Http.write (v : Svc) (s : Http) (soError : Bool) (r : Send) : Outcome (Http × List Act) :=
  (assert (decide (s.st = .writing))).bind fun _ =>
  (assert (!s.rd)).bind fun _ =>
  (assert s.wr).bind fun _ =>
  (assert (decide (s.tmo ≠ .off))).bind fun _ =>
  match s.sock with
  | none => .ub
  | some fd =>
    if s.conn = false then
      if soError = true then
        .ok ({ s with sock := none, wr := false, tmo := .off, st := .waiting }, [.refused, .closed fd, .report false])
      else Http.send v { s with conn := true } fd r [.connected]
    else Http.send v s fd r []

/-- `mon_read_cb` (src/plugins/http_status.c:246-319). -/
def Http.read (v : Svc) (s : Http) (r : Recv) : Outcome (Http × List Act) :=
  (assert (decide (s.st = .reading))).bind fun _ =>
  (assert s.rd).bind fun _ =>
  match s.sock with
  | none => .ub
  | some fd =>
    (assert (decide (s.done ≤ 13))).bind fun _ =>
    let toRecv := 13 - s.done
    let fin := fun (buf : Bytes) (up : Bool) (acts : List Act) =>
      (({ s with buf := buf, sock := none, rd := false, tmo := .off, st := .waiting } : Http), acts ++ [Act.closed fd, Act.report up])
    match r with
    | .again => .ok (s, [])
    | .fail => .ok (fin s.buf false [.lost])
    | .got b =>
      let b := b.take toRecv
      (assert (decide (s.done + b.length ≤ s.buf.length))).bind fun _ =>
      let buf := s.buf.take s.done ++ b ++ s.buf.drop (s.done + b.length)
      if b.length < toRecv then .ok ({ s with buf := buf, done := s.done + b.length }, [.got b])
      else
        (assert (decide (13 < buf.length))).bind fun _ =>
        let buf := buf.set 13 0
        .ok (fin buf (status v.short v.ok buf) [.got b])

/-- `mon_timeout_cb` (src/plugins/http_status.c:321-347). The timer is not pending any more when libev calls this. -/
def Http.timeout (s : Http) : Outcome (Http × List Act) :=
  match s.sock with
  | none => .ub
  | some fd =>
    (assert (decide ((s.st = .reading ∧ s.rd = true) ∨ (s.st = .writing ∧ s.wr = true)))).bind fun _ =>
    let rd := if s.st = .reading then false else s.rd
    let wr := if s.st = .writing then false else s.wr
    .ok ({ s with rd := rd, wr := wr, sock := none, st := .waiting, tmo := .off }, [.timeout, .closed fd, .report false])

/-- One event; `none` if libev does not let it happen. -/
def Http.step (v : Svc) (s : Http) (e : Ev) : Outcome (Option (Http × List Act)) :=
  match e with
  | .interval c => (s.interval c).map some
  | .expire => .ok (if s.tmo = .active then some ({ s with tmo := .pending }, []) else none)
  | .timeout => if s.tmo = .pending then (s.timeout).map some else .ok none
  | .write err r => if s.wr = true then (s.write v err r).map some else .ok none
  | .read r => if s.rd = true then (s.read v r).map some else .ok none

/-- A history, and all that was seen in it. -/
def Http.run (v : Svc) (s : Http) (acts : List Act) : List Ev → Outcome (Option (Http × List Act))
  | [] => .ok (some (s, acts))
  | e :: es => (s.step v e).bind fun
    | none => .ok none
    | some (s', a) => Http.run v s' (acts ++ a) es

/-! ### The request -/

/-- `snprintf` with a format that has only `%s`: `none` in the format is such a place. -/
def sprintf : List (Option UInt8) → List Bytes → Bytes
  | [], _ => []
  | some c :: f, as => c :: sprintf f as
  | none :: f, [] => sprintf f []
  | none :: f, a :: as => a ++ sprintf f as

/-- A string of the source as a format; the character `%` stands for `%s`. -/
def fmt (s : String) : List (Option UInt8) := s.toList.map fun c => if c = '%' then none else some c.toNat.toUInt8

/-- `REQ_TMPL` (src/plugins/http_status.c:377). -/
def reqTmpl : List (Option UInt8) := fmt "GET % HTTP/1.0\r\nUser-Agent: gdnsd-monitor\r\n\r\n"

/-- `REQ_TMPL_VHOST` (src/plugins/http_status.c:378). -/
def reqTmplVhost : List (Option UInt8) := fmt "GET % HTTP/1.1\r\nHost: %\r\nConnection: close\r\nUser-Agent: gdnsd-monitor\r\n\r\n"

/-- `sizeof` of a format: every `%s` is two bytes, and there is a zero byte behind it. -/
def sizeofFmt (f : List (Option UInt8)) : Nat := (f.map fun o => if o = none then 2 else 1).sum + 1

/-- `make_req_data` (src/plugins/http_status.c:382-395): what is sent, that is `req_data_len` bytes of `req_data`.
`snprintf` cuts what does not fit; a read behind its end is undefined. -/
def makeReq (url : Bytes) (vhost : Option Bytes) : Outcome Bytes :=
  match vhost with
  | some h =>
    let len := (sizeofFmt reqTmplVhost - 2 - 2 - 1) + url.length + h.length
    let text := (sprintf reqTmplVhost [url, h]).take len
    if text.length = len then .ok text else .ub
  | none =>
    let len := (sizeofFmt reqTmpl - 2 - 1) + url.length
    let text := (sprintf reqTmpl [url]).take len
    if text.length = len then .ok text else .ub

/-! ### tcp_connect -/

/-- `tcp_events_t` (src/plugins/tcp_connect.c:58-68). -/
structure Tcp where
  connecting : Bool
  sock : Option Nat
  io : Bool
  tmo : Tmr
deriving DecidableEq, Repr

/-- After `plugin_tcp_connect_add_mon_addr` (src/plugins/tcp_connect.c:239-282). -/
def Tcp.start : Tcp := ⟨false, none, false, .off⟩

/-- `mon_interval_cb` (src/plugins/tcp_connect.c:75-138). -/
def Tcp.interval (s : Tcp) (c : Conn) : Outcome (Tcp × List Act) :=
  if s.connecting = true then .ok (s, [.skip])
  else
    (assert (decide (s.sock = none))).bind fun _ =>
    (assert (!s.io)).bind fun _ =>
    (assert (decide (s.tmo = .off))).bind fun _ =>
    match c with
    | .noSocket => .ok (s, [.noSocket])
    | .refused fd => .ok (s, [.opened fd, .refused, .closed fd, .report false])
    | .now fd => .ok (s, [.opened fd, .connected, .closed fd, .report true])
    | .wait fd => .ok ({ s with sock := some fd, connecting := true, io := true, tmo := .active }, [.opened fd])

/-- `mon_connect_cb` (src/plugins/tcp_connect.c:140-186). -/
def Tcp.connect (s : Tcp) (soError : Bool) : Outcome (Tcp × List Act) :=
  (assert s.connecting).bind fun _ =>
  (assert s.io).bind fun _ =>
  (assert (decide (s.tmo ≠ .off))).bind fun _ =>
  match s.sock with
  | none => .ub
  | some fd =>
    .ok ({ s with sock := none, io := false, tmo := .off, connecting := false },
      if soError = true then [.refused, .closed fd, .report false] else [.connected, .closed fd, .report true])

/-- `mon_timeout_cb` (src/plugins/tcp_connect.c:188-208). -/
def Tcp.timeout (s : Tcp) : Outcome (Tcp × List Act) :=
  match s.sock with
  | none => .ub
  | some fd =>
    (assert s.connecting).bind fun _ =>
    (assert s.io).bind fun _ =>
    .ok ({ s with io := false, sock := none, connecting := false, tmo := .off }, [.timeout, .closed fd, .report false])

/-- One event; `none` if libev does not let it happen. Nothing is sent or read here. -/
def Tcp.step (s : Tcp) (e : Ev) : Outcome (Option (Tcp × List Act)) :=
  match e with
  | .interval c => (s.interval c).map some
  | .expire => .ok (if s.tmo = .active then some ({ s with tmo := .pending }, []) else none)
  | .timeout => if s.tmo = .pending then (s.timeout).map some else .ok none
  | .write err _ => if s.io = true then (s.connect err).map some else .ok none
  | .read _ => .ok none

/-- A history, and all that was seen in it. -/
def Tcp.run (s : Tcp) (acts : List Act) : List Ev → Outcome (Option (Tcp × List Act))
  | [] => .ok (some (s, acts))
  | e :: es => (s.step e).bind fun
    | none => .ok none
    | some (s', a) => Tcp.run s' (acts ++ a) es

end Gdnsd.Poll
