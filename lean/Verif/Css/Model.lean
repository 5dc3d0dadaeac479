/-
Model of the control socket of the daemon (src/css.c) with the reload threads of src/main.c.

A state is what the main thread knows; an event is one callback of libev. Callbacks of watchers that are not
started do not happen: such events change nothing. Connections have numbers; using the number of a freed
one is undefined. The list of clients is a function from numbers here. Results of system calls are part of
the events. Failures of `xmalloc` and texts of the log are left out.
-/
import Verif.Basic
namespace Gdnsd.Css

/-- `css_cstate_t` (src/css.c:60-67). -/
inductive St where
  | readingReq
  | readingData
  | waiting
  | writing
  | writingFds
  | writingData
deriving Repr, DecidableEq

/-- `ctl_addr_t` (src/socks.h): what the clients of a TCP listener may do. -/
structure Perm where
  chal : Bool
  ctl : Bool
deriving Repr, DecidableEq

/-- `css_conn_t` (src/css.c:72-86). `perm` is `none` for the Unix socket. `data` is the buffer; while a
request's data are read, as far as it was filled. `rOn`, `wOn`: the watchers are started. `fd`: whether the
descriptor is still there. -/
structure Conn where
  perm : Option Perm
  rbuf : Bytes
  wbuf : Bytes
  data : Option Bytes
  size : Nat
  done : Nat
  st : St
  rOn : Bool
  wOn : Bool
  fd : Bool
deriving Repr, DecidableEq

/-- A thread of `spawn_zones_reloader_thread` (src/main.c:119-143). -/
structure Thread where
  ended : Bool
  joined : Bool
deriving Repr, DecidableEq

/-- `css_t` (src/css.c:113-133), and of main.c: the threads, `zones_reloader_threadid` and whether
`async_reloadz` is pending. `running`: no `ev_break` yet. -/
structure Css where
  conn : Nat → Option Conn
  next : Nat
  queued : List Nat
  active : List Nat
  ctl : Option Nat
  dmn : Option Nat
  pid : Nat
  timer : Bool
  accepting : Bool
  running : Bool
  threads : List Thread
  tid : Nat
  async : Bool

/-- What does not change: the descriptors to hand over, version and process number, and which reloads
fail. -/
structure Cfg where
  fds : List Nat
  version : Nat
  self : Nat
  fails : Nat → Bool

/-- What can be seen of the daemon from outside, in the order it happens: a connection, a request, a
response that is decided, bytes and descriptors that are sent, a connection closed; and what requests
cause. -/
inductive Entry where
  | accept (id : Nat) (perm : Option Perm)
  | req (id : Nat) (m : Bytes)
  | resp (id : Nat) (m : Bytes) (data : Bytes) (fds : Bool)
  | out (id : Nat) (b : Bytes) (fds : List Nat)
  | close (id : Nat)
  /-- A reload thread is started, and joined with its result. -/
  | load (t : Nat)
  | loaded (t : Nat) (failed : Bool)
  /-- The challenges are set, flushed, and given away. -/
  | chal (id : Nat) (count : Nat) (data : Bytes)
  | flush (id : Nat)
  | share (id : Nat)
  /-- `spawn_replacement` returned; a takeover is accepted; the replacement has died, or is killed. -/
  | spawn (id : Nat) (pid : Int)
  | takeover (id : Nat) (pid : Nat)
  | died (pid : Nat)
  | kill (pid : Nat)
  /-- The daemon ends itself, because of a client or a signal. -/
  | stop (id : Nat)
  | signal
deriving Repr, DecidableEq

/-- What a `recv` gives: nothing yet, an error, or bytes (none at the end). -/
inductive Rx where
  | again
  | fail
  | got (b : Bytes)
deriving Repr, DecidableEq

/-- What a `send` does. -/
inductive Tx where
  | again
  | fail
  | part (n : Nat)
deriving Repr, DecidableEq

/-- What functions outside return during a request. -/
structure Env where
  spawn : Int
  chalBad : Bool
  stats : Bytes
  states : Bytes
  csets : Nat × Bytes
  ack1 : Bool
  ack2 : Bool
deriving Repr, DecidableEq

inductive Event where
  | accept (perm : Option Perm)
  | read (id : Nat) (r : Rx) (env : Env)
  | write (id : Nat) (r : Tx)
  /-- The timer of a replacement, and whether its process exists. -/
  | tick (alive : Bool)
  /-- A reload thread comes to its end. -/
  | ended (t : Nat)
  | async
  | signal
deriving Repr, DecidableEq

abbrev Step := Outcome (Css × List Entry)

/-- One step after the other. -/
def andThen (x : Step) (f : Css → Step) : Step := x.bind fun p => (f p.1).map fun q => (q.1, p.2 ++ q.2)

/-- `csbuf_t` (src/cs.h:28-64), little endian. -/
def msg (key : UInt8) (v d : Nat) : Bytes :=
  [key, UInt8.ofNat (v / 65536), UInt8.ofNat (v / 256), UInt8.ofNat v, UInt8.ofNat d, UInt8.ofNat (d / 256), UInt8.ofNat (d / 65536), UInt8.ofNat (d / 16777216)]

def msgKey (m : Bytes) : UInt8 := m.getD 0 0
def msgV (m : Bytes) : Nat := 65536 * (m.getD 1 0).toNat + 256 * (m.getD 2 0).toNat + (m.getD 3 0).toNat
def msgD (m : Bytes) : Nat := (m.getD 4 0).toNat + 256 * (m.getD 5 0).toNat + 65536 * (m.getD 6 0).toNat + 16777216 * (m.getD 7 0).toNat

def Css.put (s : Css) (id : Nat) (c : Option Conn) : Css := { s with conn := fun i => if i = id then c else s.conn i }

/-- Access through a pointer. -/
def Css.get (s : Css) (id : Nat) : Outcome Conn := match s.conn id with | some c => .ok c | none => .ub

/-- `css_conn_cleanup` (src/css.c:144-183). -/
def cleanup (s : Css) (id : Nat) : Step :=
  (s.get id).bind fun _ =>
  let s1 := if s.ctl = some id then { s with ctl := none } else s
  let s2 := if s1.dmn = some id then { s1 with dmn := none } else s1
  let e : List Entry := if s1.dmn = some id ∧ s.pid ≠ 0 then [.kill s.pid] else []
  .ok (s2.put id none, e ++ [.close id])

/-- `respond` (src/css.c:313-343). -/
def respond (cfg : Cfg) (s : Css) (id : Nat) (key : UInt8) (v d : Nat) (data : Option Bytes) (fds : Bool) : Step :=
  (s.get id).bind fun c =>
  (assert (decide (c.st = .waiting))).bind fun _ =>
  (assert (decide (v ≤ 0xFFFFFF))).bind fun _ =>
  (assert (data.isNone || !fds)).bind fun _ =>
  match data with
  | some b => .ok (s.put id (some { c with wbuf := msg key v d, st := .writing, data := some b, size := d, done := 0, wOn := true }), [.resp id (msg key v d) b false])
  | none =>
    if fds = true then
      (assert (key == 65 && v == 0 && d == 0)).bind fun _ =>
      (assert (decide (cfg.fds.length ≤ 0xFFFFFF))).bind fun _ =>
      .ok (s.put id (some { c with wbuf := msg key cfg.fds.length d, st := .writingFds, size := cfg.fds.length, done := 0, wOn := true }),
        [.resp id (msg key cfg.fds.length d) [] true])
    else .ok (s.put id (some { c with wbuf := msg key v d, st := .writing, wOn := true }), [.resp id (msg key v d) [] false])

/-- A response without anything. -/
def answer (cfg : Cfg) (s : Css) (id : Nat) (key : UInt8) : Step := respond cfg s id key 0 0 none false

/-- `respond_blocking_ack` (src/css.c:185-202): `good` if the `send` took all; the result says whether the
connection is still there. -/
def blockingAck (s : Css) (id : Nat) (good : Bool) : Outcome (Bool × Css × List Entry) :=
  (s.get id).bind fun c =>
  (assert (decide (c.st = .waiting))).bind fun _ =>
  let s := s.put id (some { c with wbuf := msg 65 0 0, st := .writing })
  if good = true then .ok (true, s, [.resp id (msg 65 0 0) [] false, .out id (msg 65 0 0) []])
  else (cleanup s id).map fun p => (false, p.1, .resp id (msg 65 0 0) [] false :: p.2)

/-- The end of a response: back to reading. -/
def Conn.again (c : Conn) : Conn := { c with wOn := false, rOn := true, st := .readingReq }

/-- `css_conn_write_data` (src/css.c:204-236). -/
def writeData (s : Css) (id : Nat) (c : Conn) (r : Tx) : Step :=
  (assert (decide (c.st = .writingData))).bind fun _ =>
  match c.data with
  | none => .ub
  | some b =>
    (assert (decide (c.size ≠ 0 ∧ c.done < c.size))).bind fun _ =>
    if c.size ≤ b.length then
      match r with
      | .again => .ok (s, [])
      | .fail => cleanup s id
      | .part n =>
        let k := min n (c.size - c.done)
        let e : List Entry := [.out id ((b.drop c.done).take k) []]
        if c.done + k = c.size then .ok (s.put id (some { c with data := none, size := 0, done := 0 }.again), e)
        else .ok (s.put id (some { c with done := c.done + k }), e)
    else .ub

/-- `SCM_MAX_FDS` (src/cs.h:92). -/
def scmMax : Nat := 253

/-- `css_conn_write_resp` and `css_conn_write` (src/css.c:238-311). A `sendmsg` of fewer than 8 bytes
fails; it sends all but the last `8 - k` of the 8 bytes of `wbuf`. The code goes on with the data at once after the header of a response that has some; this is the same
as the callback once more, since the watcher is still started. -/
def writeResp (cfg : Cfg) (s : Css) (id : Nat) (c : Conn) (r : Tx) : Step :=
  (assert (decide (c.st = .writing ∨ c.st = .writingFds))).bind fun _ =>
  let n := if c.st = .writingFds then min (c.size - c.done) scmMax else scmMax
  (assert (decide (c.st = .writingFds → c.done < c.size))).bind fun _ =>
  match r with
  | .again => .ok (s, [])
  | .fail => cleanup s id
  | .part k =>
    if k < 8 then cleanup s id
    else if c.st = .writingFds then
      let e : List Entry := [.out id (c.wbuf.take (c.wbuf.length - (8 - k))) ((cfg.fds.drop c.done).take n)]
      if c.done + n < c.size then .ok (s.put id (some { c with done := c.done + n }), e)
      else .ok (s.put id (some { c with size := 0, done := 0 }.again), e)
    else
      let e : List Entry := [.out id (c.wbuf.take (c.wbuf.length - (8 - k))) []]
      if c.data.isSome then .ok (s.put id (some { c with st := .writingData }), e)
      else .ok (s.put id (some c.again), e)

/-- `latr_all_reloaders` (src/css.c:541-553). -/
def latrAll (cfg : Cfg) (s : Css) : Step :=
  let go := fun (x : Step) (id : Nat) => andThen x fun s => answer cfg s id 76
  andThen ((s.active ++ s.queued).foldl go (.ok (s, []))) fun s => .ok ({ s with active := [], queued := [] }, [])

/-- `spawn_zones_reloader_thread` (src/main.c:119-143). -/
def load (s : Css) : Step := .ok ({ s with threads := s.threads ++ [⟨false, false⟩], tid := s.threads.length }, [.load s.threads.length])

/-- `handle_req_stop` (src/css.c:599-647). -/
def reqStop (cfg : Cfg) (s : Css) (id : Nat) (env : Env) : Step :=
  if s.pid ≠ 0 ∧ s.dmn ≠ some id then answer cfg s id 76
  else
    (blockingAck { s with pid := 0, running := false } id env.ack1).bind fun (ok, s, e) =>
    ((if ok = true ∧ s.dmn ≠ some id then (s.get id).map fun c => s.put id (some { c with fd := false }) else .ok s) : Outcome Css).bind fun s =>
    match s.ctl with
    | none => .ok (s, .stop id :: e)
    | some k =>
      (assert (decide (s.dmn = some id))).bind fun _ =>
      (blockingAck s k env.ack2).bind fun (ok, s, e') =>
      ((if ok = true then (s.get k).map fun c => s.put k (some { c with fd := false }) else .ok s) : Outcome Css).map fun s => (s, .stop id :: e ++ e')

/-- `handle_req_zrel` (src/css.c:649-662). -/
def reqZrel (cfg : Cfg) (s : Css) (id : Nat) : Step :=
  if s.pid ≠ 0 then answer cfg s id 76
  else
    let s := { s with queued := s.queued ++ [id] }
    if s.active = [] then load { s with active := s.queued, queued := s.active } else .ok (s, [])

/-- `handle_req_repl` (src/css.c:664-691). -/
def reqRepl (cfg : Cfg) (s : Css) (id : Nat) (env : Env) : Step :=
  if s.pid ≠ 0 then answer cfg s id 76
  else
    (assert s.ctl.isNone).bind fun _ => (assert s.dmn.isNone).bind fun _ =>
    andThen (.ok (s, [.spawn id env.spawn])) fun s =>
    if env.spawn ≤ 0 then answer cfg s id 70
    else latrAll cfg { s with pid := env.spawn.toNat, ctl := some id, timer := true }

/-- `handle_req_tak1` (src/css.c:693-710). -/
def reqTak1 (cfg : Cfg) (s : Css) (id d : Nat) : Step :=
  if s.pid ≠ 0 ∧ s.pid ≠ d then answer cfg s id 76
  else
    (assert s.dmn.isNone).bind fun _ =>
    andThen (.ok ({ s with pid := d, dmn := some id, timer := true }, [.takeover id d])) fun s =>
    andThen (latrAll cfg s) fun s => answer cfg s id 65

/-- `handle_req_tak2` (src/css.c:723-735) with `respond_tak2` (345-351). -/
def reqTak2 (cfg : Cfg) (s : Css) (id d : Nat) (env : Env) : Step :=
  if s.pid = 0 ∨ d ≠ s.pid ∨ s.dmn ≠ some id then andThen (answer cfg s id 70) fun s => cleanup s id
  else
    andThen (.ok (s, [.share id])) fun s =>
    respond cfg s id 65 env.csets.1 env.csets.2.length (if env.csets.2 = [] then none else some env.csets.2) false

/-- `handle_req_take` (src/css.c:737-757). -/
def reqTake (cfg : Cfg) (s : Css) (id d : Nat) : Step :=
  if s.pid = 0 ∨ d ≠ s.pid ∨ s.dmn ≠ some id then andThen (answer cfg s id 70) fun s => cleanup s id
  else
    (assert (decide (2 ≤ cfg.fds.length))).bind fun _ =>
    respond cfg { s with accepting := false } id 65 0 0 none true

/-- `tcp_req_allowed` (src/css.c:759-778). -/
def allowed (p : Perm) (key : UInt8) : Bool :=
  if key = 73 ∨ key = 83 ∨ key = 69 then true
  else if key = 67 ∨ key = 99 then p.chal
  else if key = 90 ∨ key = 82 then p.ctl
  else false

/-- `recv_challenge_data` (src/css.c:555-597). -/
def recvData (cfg : Cfg) (s : Css) (id : Nat) (c : Conn) (r : Rx) (env : Env) : Step :=
  match c.data with
  | none => .ub
  | some b =>
    (assert (decide (c.size ≠ 0 ∧ c.done < c.size))).bind fun _ =>
    match r with
    | .again => .ok (s, [])
    | .fail => cleanup s id
    | .got [] => cleanup s id
    | .got l =>
      let l := l.take (c.size - c.done)
      if c.done + l.length = c.size then
        let s1 := s.put id (some { c with rOn := false, st := .waiting, data := none, size := 0, done := 0 })
        if s.pid ≠ 0 then answer cfg s1 id 76
        else andThen (.ok (s1, [.chal id (msgV c.rbuf) (b ++ l)])) fun s => answer cfg s id (if env.chalBad = true then 70 else 65)
      else .ok (s.put id (some { c with data := some (b ++ l), done := c.done + l.length }), [])

/-- The requests (src/css.c:845-893). -/
def request (cfg : Cfg) (s : Css) (id : Nat) (m : Bytes) (env : Env) : Step :=
  let key := msgKey m
  if key = 73 then respond cfg s id 65 cfg.version cfg.self none false
  else if key = 88 then reqStop cfg s id env
  else if key = 83 then respond cfg s id 65 0 env.stats.length (some env.stats) false
  else if key = 69 then respond cfg s id 65 0 env.states.length (some env.states) false
  else if key = 90 then reqZrel cfg s id
  else if key = 99 then
    if s.pid ≠ 0 then answer cfg s id 76 else andThen (.ok (s, [.flush id])) fun s => answer cfg s id 65
  else if key = 82 then reqRepl cfg s id env
  else if key = 49 then reqTak1 cfg s id (msgD m)
  else if key = 50 then reqTak2 cfg s id (msgD m) env
  else if key = 84 then reqTake cfg s id (msgD m)
  else answer cfg s id 85

/-- `css_conn_read` (src/css.c:780-895). -/
def readConn (cfg : Cfg) (s : Css) (id : Nat) (c : Conn) (r : Rx) (env : Env) : Step :=
  (assert (decide (c.st = .readingReq ∨ c.st = .readingData))).bind fun _ =>
  if c.st = .readingData then
    (assert (msgKey c.rbuf == 67)).bind fun _ => recvData cfg s id c r env
  else
    match r with
    | .again => .ok (s, [])
    | .fail => cleanup s id
    | .got l =>
      let m := l.take 8
      if m.length ≠ 8 then cleanup s id
      else
        andThen (.ok (s, [.req id m])) fun s =>
        let wait := s.put id (some { c with rbuf := m, rOn := false, st := .waiting })
        if (c.perm.any fun p => !allowed p (msgKey m)) = true then answer cfg wait id 68
        else if msgKey m = 67 then
          if msgV m = 0 ∨ 100 < msgV m ∨ msgD m = 0 ∨ 28400 < msgD m then cleanup s id
          else .ok (s.put id (some { c with rbuf := m, st := .readingData, done := 0, size := msgD m, data := some [] }), [])
        else request cfg wait id m env

/-- `css_accept_unix`, `css_accept_tcp` and `css_accept` (src/css.c:897-958). -/
def accept (s : Css) (perm : Option Perm) : Step :=
  .ok ({ (s.put s.next (some ⟨perm, [], [], none, 0, 0, .readingReq, true, false, true⟩)) with next := s.next + 1 }, [.accept s.next perm])

/-- `css_watch_replace` (src/css.c:358-398). -/
def watch (cfg : Cfg) (s : Css) (alive : Bool) : Step :=
  (assert (decide (s.pid ≠ 0))).bind fun _ =>
  if alive = true then .ok (s, [])
  else
    andThen (.ok ({ s with timer := false }, [.died s.pid])) fun s =>
    andThen (match s.ctl with | some k => answer cfg s k 70 | none => .ok (s, [])) fun s =>
    andThen (match s.dmn with | some k => cleanup s k | none => .ok (s, [])) fun s =>
    .ok ({ s with pid := 0, ctl := none, dmn := none, accepting := true }, [])

/-- `css_notify_zone_reloaders` (src/css.c:1177-1196) and the rest of `reload_zones_done`
(src/main.c:186-191). -/
def notify (cfg : Cfg) (s : Css) (failed : Bool) : Step :=
  let go := fun (x : Step) (id : Nat) => andThen x fun s => answer cfg s id (if failed = true then 70 else 65)
  andThen (s.active.foldl go (.ok (s, []))) fun s =>
  let s := { s with active := s.queued, queued := [] }
  if s.active ≠ [] then load s else .ok (s, [])

/-- `reload_zones_done` (src/main.c:178-192) with `join_zones_reloader_thread` (105-113). A second
`pthread_join` is undefined. The thread announces its end before it ends. -/
def reloadDone (cfg : Cfg) (s : Css) : Step :=
  match s.threads[s.tid]? with
  | none => .ub
  | some t =>
    if t.joined = true then .ub
    else
      andThen (.ok ({ s with async := !t.ended, threads := s.threads.set s.tid ⟨true, true⟩ }, [.loaded s.tid (cfg.fails s.tid)])) fun s =>
      notify cfg s (cfg.fails s.tid)

/-- One callback. -/
def step (cfg : Cfg) (s : Css) : Event → Step
  | .accept perm => if s.accepting = true then accept s perm else .ok (s, [])
  | .read id r env =>
    match s.conn id with
    | none => .ok (s, [])
    | some c => if c.rOn = true then readConn cfg s id c r env else .ok (s, [])
  | .write id r =>
    match s.conn id with
    | none => .ok (s, [])
    | some c =>
      if c.wOn = true then
        if c.st = .writingData then writeData s id c r else writeResp cfg s id c r
      else .ok (s, [])
  | .tick alive => if s.timer = true then watch cfg s alive else .ok (s, [])
  | .ended t =>
    match s.threads[t]? with
    | none => .ok (s, [])
    | some x => if x.ended = true then .ok (s, []) else .ok ({ s with threads := s.threads.set t { x with ended := true }, async := true }, [])
  | .async => if s.async = true then reloadDone cfg s else .ok (s, [])
  | .signal => if s.pid ≠ 0 then .ok (s, []) else .ok ({ s with running := false }, [.signal])

/-- After `css_start` (src/css.c:1157-1175); the zones were loaded by thread 0. -/
def init : Css := ⟨fun _ => none, 0, [], [], none, none, 0, false, true, true, [⟨true, true⟩], 0, false⟩

/-- `css_delete` (src/css.c:1242-1251): connections are closed one after the other. -/
def delete (s : Css) : Nat → Step
  | 0 => .ok (s, [])
  | n + 1 => if (s.conn n).isSome then andThen (cleanup s n) fun s => delete s n else delete s n

end Gdnsd.Css
