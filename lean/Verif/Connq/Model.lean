/-
Model of the queue of TCP connections of a thread (src/dnsio_tcp.c:127-430 and 491-605): a
doubly linked list of connections, the most idle first, with a timer for the first.

Memory is a partial map from addresses to connections; an access to an address that is not
allocated is undefined behaviour. Times are integers, in milliseconds, instead of doubles in
seconds. A freed connection and one in the `churn` cache are both unallocated here. Whether a
connection exists in the kernel, its reads and writes (Verif/Stream), statistics and logging are
not part of this model.
-/
import Verif.Basic
namespace Gdnsd.Connq

/-- `conn_t` (src/dnsio_tcp.c:155-171), the fields of the queue. -/
structure Node where
  next : Option Nat
  prev : Option Nat
  idle : Int
deriving Repr, DecidableEq

/-- `thread_t` (src/dnsio_tcp.c:128-152), the fields of the queue. `timer` is when
`timeout_watcher` fires, `accepting` whether `accept_watcher` and `stop_watcher` are active. -/
structure Thread where
  mem : Nat → Option Node
  head : Option Nat
  tail : Option Nat
  num : Nat
  max : Nat
  grace : Bool
  accepting : Bool
  timer : Option Int
  now : Int
  timeout : Int

/-- `TIMEOUT_FUDGE` (src/dnsio_tcp.c:74), in milliseconds. -/
def FUDGE : Int := 250

/-- A thread at its start (src/dnsio_tcp.c:1013-1075). -/
def init (max : Nat) (timeout now : Int) : Thread := ⟨fun _ => none, none, none, 0, max, false, true, none, now, timeout⟩

/-- `*p`. -/
def get (t : Thread) (a : Nat) : Outcome Node := match t.mem a with | some n => .ok n | none => .ub

/-- A write to an allocated connection. -/
def put (t : Thread) (a : Nat) (n : Node) : Outcome Thread :=
  match t.mem a with
  | some _ => .ok { t with mem := fun b => if b = a then some n else t.mem b }
  | none => .ub

/-- `free`, or the move to the cache. -/
def free (t : Thread) (a : Nat) : Outcome Thread :=
  match t.mem a with
  | some _ => .ok { t with mem := fun b => if b = a then none else t.mem b }
  | none => .ub

/-- The loop of `connq_assert_sane` (src/dnsio_tcp.c:245-255): the number of connections from
`c` on. More than `fuel` of them fail its last assertion, or never end. -/
def walk (t : Thread) : Nat → Option Nat → Nat → Outcome Nat
  | _, none, ct => .ok ct
  | 0, some _, _ => .ub
  | fuel + 1, some c, ct =>
    (get t c).bind fun n =>
    (assert (decide (some c = t.tail) || n.next.isSome)).bind fun _ =>
    (assert (decide (some c = t.head) || n.prev.isSome)).bind fun _ =>
      walk t fuel n.next (ct + 1)

/-- `connq_assert_sane` (src/dnsio_tcp.c:230-258). -/
def sane (t : Thread) : Outcome Unit :=
  if t.num = 0 then
    (assert t.head.isNone).bind fun _ => assert t.tail.isNone
  else
    (assert (decide (t.num ≤ t.max))).bind fun _ =>
      match t.head, t.tail with
      | some h, some l =>
        (get t h).bind fun nh => (assert nh.prev.isNone).bind fun _ =>
        (get t l).bind fun nl => (assert nl.next.isNone).bind fun _ =>
        (walk t t.num (some h) 0).bind fun ct => assert (decide (ct = t.num))
      | _, _ => .ub

/-- `connq_adjust_timer` (src/dnsio_tcp.c:260-282). -/
def adjust (t : Thread) : Outcome Thread :=
  (sane t).bind fun _ =>
    match t.head with
    | some h =>
      if t.grace then .ok t
      else (get t h).bind fun n =>
        let next := t.timeout + FUDGE - (t.now - n.idle)
        .ok { t with timer := some (t.now + if next < FUDGE then FUDGE else next) }
    | none => (assert (decide (t.num = 0))).bind fun _ => .ok { t with timer := none }

/-- The first half of `connq_pull_conn` (src/dnsio_tcp.c:292-303). -/
def pullNext (t : Thread) (a : Nat) (n : Node) : Outcome Thread :=
  match n.next with
  | some x => (assert (decide (some a ≠ t.tail))).bind fun _ => (get t x).bind fun nx => put t x { nx with prev := n.prev }
  | none => (assert (decide (some a = t.tail))).bind fun _ => .ok { t with tail := n.prev }

/-- The second half of `connq_pull_conn` (src/dnsio_tcp.c:305-313). -/
def pullPrev (t : Thread) (a : Nat) (n : Node) : Outcome Thread :=
  match n.prev with
  | some x => (assert (decide (some a ≠ t.head))).bind fun _ => (get t x).bind fun nx => put t x { nx with next := n.next }
  | none => (assert (decide (some a = t.head))).bind fun _ => adjust { t with head := n.next }

/-- `connq_pull_conn` (src/dnsio_tcp.c:288-314). -/
def pull (t : Thread) (a : Nat) : Outcome Thread :=
  (sane t).bind fun _ =>
  (assert (decide (t.num ≠ 0))).bind fun _ =>
  (get t a).bind fun n =>
  (pullNext { t with num := t.num - 1 } a n).bind fun t =>
  (get t a).bind fun n =>
  (pullPrev t a n).bind fun t =>
  (sane t).bind fun _ => .ok t

/-- `connq_destruct_conn` (src/dnsio_tcp.c:316-350). -/
def destruct (t : Thread) (a : Nat) (manage : Bool) : Outcome Thread :=
  (assert (decide (t.num ≠ 0))).bind fun _ =>
    if manage then (pull t a).bind fun t => free t a else free t a

/-- `connq_append_new_conn` (src/dnsio_tcp.c:352-400), of a zeroed connection at a fresh
address. -/
def append (t : Thread) (a : Nat) : Outcome Thread :=
  (sane t).bind fun _ =>
  (assert (decide (t.head ≠ some a))).bind fun _ =>
  (assert (decide (t.tail ≠ some a))).bind fun _ =>
  (assert (!t.grace)).bind fun _ =>
    let t := { t with mem := fun b => if b = a then some ⟨none, none, t.now⟩ else t.mem b, num := t.num + 1 }
    match t.head with
    | none =>
      (assert (decide (t.num = 1))).bind fun _ =>
      (assert t.tail.isNone).bind fun _ =>
        adjust { t with head := some a, tail := some a }
    | some h =>
      match t.tail with
      | none => .ub
      | some l =>
        (get t l).bind fun nl =>
        (assert nl.next.isNone).bind fun _ =>
        (get t a).bind fun na =>
        (put t a { na with prev := some l, next := none }).bind fun t =>
        (get t l).bind fun nl =>
        (put t l { nl with next := some a }).bind fun t =>
          let t := { t with tail := some a }
          (sane t).bind fun _ =>
            if t.num = t.max then destruct t h true else .ok t

/-- `connq_refresh_conn` (src/dnsio_tcp.c:402-431). -/
def refresh (t : Thread) (a : Nat) : Outcome Thread :=
  (sane t).bind fun _ =>
  (get t a).bind fun n =>
  (put t a { n with idle := t.now }).bind fun t =>
    if t.num = 1 then
      (assert (decide (some a = t.head))).bind fun _ =>
      (assert (decide (some a = t.tail))).bind fun _ => adjust t
    else if some a = t.tail then .ok t
    else (pull t a).bind fun t =>
      (get t a).bind fun n =>
      (put t a { n with prev := t.tail, next := none }).bind fun t =>
        match t.tail with
        | none => .ub
        | some l =>
          (get t l).bind fun nl =>
          (put t l { nl with next := some a }).bind fun t =>
            let t := { t with tail := some a, num := t.num + 1 }
            (sane t).bind fun _ => .ok t

/-- The loop of `timeout_handler` in the grace phase (src/dnsio_tcp.c:505-510). -/
def dropAll (t : Thread) : Nat → Option Nat → Outcome Thread
  | _, none => .ok t
  | 0, some _ => .ub
  | fuel + 1, some c => (get t c).bind fun n => (destruct t c false).bind fun t => dropAll t fuel n.next

/-- The loop of `timeout_handler` (src/dnsio_tcp.c:523-532): what it leaves, and the first
connection left. -/
def expire (t : Thread) : Nat → Option Nat → Outcome (Thread × Option Nat)
  | _, none => .ok (t, none)
  | 0, some _ => .ub
  | fuel + 1, some c =>
    (get t c).bind fun n =>
      if n.idle ≤ t.now - t.timeout then
        (destruct t c false).bind fun t => expire { t with num := t.num - 1 } fuel n.next
      else .ok (t, some c)

/-- `timeout_handler` (src/dnsio_tcp.c:491-544). -/
def timeout (t : Thread) : Outcome Thread :=
  (sane t).bind fun _ =>
  (assert t.head.isSome).bind fun _ =>
    if t.grace then
      (dropAll t (t.num + 1) t.head).bind fun t => .ok { t with timer := none, head := none, tail := none, num := 0 }
    else
      (expire t (t.num + 1) t.head).bind fun p =>
        match p with
        | (t, none) => (assert (decide (t.num = 0))).bind fun _ => adjust { t with head := none, tail := none }
        | (t, some c) =>
          (assert (decide (t.num ≠ 0))).bind fun _ =>
          (get t c).bind fun n => (put t c { n with prev := none }).bind fun t => adjust { t with head := some c }

/-- The loop of `stop_handler` (src/dnsio_tcp.c:580-585): connections whose notification cannot
be sent are closed. -/
def notify (fails : Nat → Bool) (t : Thread) : Nat → Option Nat → Outcome Thread
  | _, none => .ok t
  | 0, some _ => .ub
  | fuel + 1, some c =>
    (get t c).bind fun n =>
      (if fails c then destruct t c true else .ok t).bind fun t => notify fails t fuel n.next

/-- `stop_handler` (src/dnsio_tcp.c:546-604). -/
def stop (t : Thread) (fails : Nat → Bool) : Outcome Thread :=
  (assert (!t.grace)).bind fun _ =>
  (sane t).bind fun _ =>
    let t := { t with accepting := false }
    if t.num = 0 then (assert t.timer.isNone).bind fun _ => .ok t
    else
      (assert t.head.isSome).bind fun _ =>
      (notify fails { t with grace := true } (t.num + 1) t.head).bind fun t =>
        if t.num ≠ 0 then .ok { t with timer := some (t.now + 5000) }
        else (assert t.timer.isNone).bind fun _ => .ok t

/-- Events: a connection at an address, an answered request that is not just a keepalive
(src/dnsio_tcp.c:693), the end of a connection for any reason other than a timeout or the limit, `accept4` out of
descriptors (src/dnsio_tcp.c:834-843), time, the timer, and the stop. -/
inductive Event where
  | connect (a : Nat)
  | request (a : Nat)
  | gone (a : Nat)
  | full
  | tick (n : Nat)
  | fire
  | stop (fails : Nat → Bool)

/-- One event. -/
def step (t : Thread) : Event → Outcome Thread
  | .connect a => append t a
  | .request a => refresh t a
  | .gone a => destruct t a true
  | .full => match t.head with | some h => destruct t h true | none => .ok t
  | .tick n => .ok { t with now := t.now + n }
  | .fire => timeout t
  | .stop fails => stop t fails

end Gdnsd.Connq
