/-
src/main.c, src/dnsio_tcp.c, src/dnsio_udp.c, src/dnspacket.c: how the threads of listeners are started and stopped.
-/
import Verif.Basic
namespace Gdnsd.Threads

/-- How far a thread is: not started; started; `listen` is done (src/dnsio_tcp.c:1067); registered (1126); its statistics are stored (src/dnspacket.c:251-253); the condition is signalled (254), so that it
serves; the loop has ended (src/dnsio_tcp.c:1139); it is not registered any more (1143); its loop is destroyed (1144) and it has ended. Threads for UDP are never `listens`, `registered` or `unregistered`. -/
inductive Pc where
  | unborn | born | listens | registered | counted | running | left | unregistered | gone
deriving Repr, DecidableEq

/-- How far the main thread is: starting threads (src/main.c:269-278); looking at the number of statistics, waiting for the condition (src/dnspacket.c:220-227); telling that it is ready (src/main.c:554); its loop (580); stopping
threads for TCP, then those for UDP (287-296, 583); waiting for the end of threads (298-310, 589); and giving the statistics to its successor (593). -/
inductive Main where
  | spawn (k : Nat)
  | check
  | wait
  | ready
  | run
  | tcpStop
  | udpStop (k : Nat)
  | join (k : Nat)
  | final
deriving Repr, DecidableEq

/-- Number of threads, and which are for TCP. -/
structure Cfg where
  n : Nat
  tcp : Nat → Bool

/-- `num_tcp_threads` (src/main.c:246-250), which is `registry_size`. -/
def Cfg.size (c : Cfg) : Nat := ((List.range c.n).filter c.tcp).length

/-- `told`: the thread has a stop pending, by `ev_async_send` or SIGUSR2. `reg`: the slots of `registry` up to `registry_init`, each with the thread and whether it is not NULL yet. `stats`: whose statistics are in `dnspacket_stats`, up
to `stats_initialized`. Sections under one of the two locks are single steps. -/
structure St where
  pc : Nat → Pc
  told : Nat → Bool
  reg : List (Nat × Bool)
  stats : List Nat
  main : Main

def init : St := ⟨fun _ => .unborn, fun _ => false, [], [], .spawn 0⟩

def St.goto (s : St) (i : Nat) (p : Pc) : St := { s with pc := fun x => if x = i then p else s.pc x }

/-- The statistics of a thread (src/dnspacket.c:251-253); `dnspacket_stats` has room for all threads. -/
def store (c : Cfg) (s : St) (i : Nat) : Outcome St :=
  if s.stats.length < c.n then .ok { s.goto i .counted with stats := s.stats ++ [i] } else .ub

/-- A step of a thread (src/dnsio_tcp.c:1055-1152, src/dnsio_udp.c:571-607); nothing if it cannot go on. -/
def thread (c : Cfg) (s : St) (i : Nat) : Outcome (Option St) :=
  match s.pc i with
  | .unborn => .ok none
  | .born => if c.tcp i = true then .ok (some (s.goto i .listens)) else (store c s i).map some
  | .listens =>
    -- `register_thread` (src/dnsio_tcp.c:207-213)
    if s.reg.length < c.size then .ok (some { s.goto i .registered with reg := s.reg ++ [(i, true)] }) else .ub
  | .registered => (store c s i).map some
  | .counted => .ok (some { s.goto i .running with main := if s.main = .wait then .check else s.main })
  | .running => if s.told i = true then .ok (some (s.goto i .left)) else .ok none
  | .left =>
    -- `unregister_thread` (src/dnsio_tcp.c:216-226)
    if c.tcp i = true then .ok (some { s.goto i .unregistered with reg := s.reg.map fun x => if x.1 = i then (i, false) else x })
    else .ok (some (s.goto i .gone))
  | .unregistered => .ok (some (s.goto i .gone))
  | .gone => .ok none

/-- `dnsio_tcp_request_threads_stop` (src/dnsio_tcp.c:192-204): the assertion, and a loop that is destroyed must not be told. -/
def tcpStop (c : Cfg) (s : St) : Outcome St :=
  if s.reg.length = c.size then
    if s.reg.any (fun x => x.2 && decide (s.pc x.1 = .gone)) = true then .ub
    else .ok { s with told := fun i => s.told i || s.reg.any (fun x => x.2 && decide (x.1 = i)), main := .udpStop 0 }
  else .ub

/-- A step of the main thread. -/
def mainStep (c : Cfg) (s : St) : Outcome (Option St) :=
  match s.main with
  | .spawn k => if k < c.n then .ok (some { s.goto k .born with main := .spawn (k + 1) }) else .ok (some { s with main := .check })
  | .check => .ok (some { s with main := if s.stats.length < c.n then .wait else .ready })
  | .wait => .ok none
  | .ready => .ok (some { s with main := .run })
  | .run => .ok none
  | .tcpStop => (tcpStop c s).map some
  | .udpStop k =>
    if k < c.n then .ok (some { s with told := fun i => s.told i || (decide (i = k) && !c.tcp i), main := .udpStop (k + 1) })
    else .ok (some { s with main := .join 0 })
  | .join k =>
    if k < c.n then (if s.pc k = .gone then .ok (some { s with main := .join (k + 1) }) else .ok none)
    else .ok (some { s with main := .final })
  | .final => .ok none

/-- What happens: the main thread or another goes on, the daemon is asked to stop, or the wait for the condition ends for no reason. -/
inductive Ev where
  | main
  | thread (i : Nat)
  | stop
  | spurious
deriving Repr, DecidableEq

def step (c : Cfg) (s : St) : Ev → Outcome (Option St)
  | .main => mainStep c s
  | .thread i => if i < c.n then thread c s i else .ok none
  | .stop => .ok (if s.main = .run then some { s with main := .tcpStop } else none)
  | .spurious => .ok (if s.main = .wait then some { s with main := .check } else none)

end Gdnsd.Threads
