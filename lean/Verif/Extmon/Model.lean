/-
Model of the messages between the extmon plugin and its helper process
(src/plugins/extmon_comms.c, extmon_comms.h): commands to the helper, results from it.

A C string is its content without the terminating NUL. `unsigned` sizes do not wrap here:
commands of 2 GB and more are outside of the model. Not modelled: logging.
-/
import Verif.Basic
namespace Gdnsd.Extmon

/-- `extmon_cmd_t` (src/plugins/extmon_comms.h:30-39). -/
structure Cmd where
  idx : Nat
  timeout : Nat
  interval : Nat
  maxProc : Nat
  args : List Bytes
  desc : Bytes
deriving Repr, DecidableEq

/-- What one `read` or `write` does: moves at most `n + 1` bytes, fails for the moment, or fails. -/
inductive Io where
  | part (n : Nat)
  | again
  | error
deriving Repr, DecidableEq

/-- What a sequence of calls comes to. `wait`: the calls given were not enough to end it. -/
inductive Res (α : Type) where
  | done (a : α)
  | fail
  | wait
deriving Repr, DecidableEq

/-- `emc_write_string` (src/plugins/extmon_comms.c:33-50): what is in the pipe, and the end of it. -/
def writeAll : List Io → Bytes → Bytes × Res (List Io)
  | l, [] => ([], .done l)
  | [], _ => ([], .wait)
  | .again :: l, d => writeAll l d
  | .error :: _, _ => ([], .fail)
  | .part n :: l, d => let r := writeAll l (d.drop (n + 1)); (d.take (n + 1) ++ r.1, r.2)

/-- `emc_read_nbytes` (src/plugins/extmon_comms.c:52-70), of a stream that ends: the bytes, the
rest of the stream and the rest of the calls. -/
def readAll : List Io → Nat → Bytes → Res (Bytes × Bytes × List Io)
  | l, 0, s => .done ([], s, l)
  | [], _ + 1, _ => .wait
  | .again :: l, k, s => readAll l k s
  | .error :: _, _ + 1, _ => .fail
  | .part _ :: _, _ + 1, [] => .fail
  | .part n :: l, k, s =>
    match readAll l (k - min (min (n + 1) k) s.length) (s.drop (min (min (n + 1) k) s.length)) with
    | .done (b, s', l') => .done (s.take (min (min (n + 1) k) s.length) ++ b, s', l')
    | .fail => .fail
    | .wait => .wait

/-- Two bytes, most significant first. -/
def be16 (n : Nat) : Bytes := [UInt8.ofNat (n / 256), UInt8.ofNat n]

/-- The loop that enlarges the buffer (src/plugins/extmon_comms.c:107-110, 117-120). -/
def grow : Nat → Nat → Nat → Nat
  | 0, alloc, _ => alloc
  | fuel + 1, alloc, need => if need > alloc then grow fuel (alloc * 2) need else alloc

/-- One string with its NUL is appended (src/plugins/extmon_comms.c:106-113, 116-122). -/
def putStr (st : Nat × Bytes) (s : Bytes) : Outcome (Nat × Bytes) :=
  let n := s.length + 1
  let alloc := grow (st.2.length + n + 16) st.1 (st.2.length + n + 16)
  if st.2.length + n ≤ alloc then .ok (alloc, st.2 ++ s ++ [0]) else .ub

/-- All arguments. -/
def putArgs (st : Nat × Bytes) : List Bytes → Outcome (Nat × Bytes)
  | [] => .ok st
  | a :: l => (putStr st a).bind fun st => putArgs st l

/-- The buffer that `emc_write_command` makes (src/plugins/extmon_comms.c:81-127). The two bytes at
12 are not initialised at first. -/
def cmdBuf (junk : Bytes) (c : Cmd) : Outcome Bytes :=
  let fixed := [67, 77, 68, 58] ++ be16 c.idx ++ be16 c.timeout ++ be16 c.interval ++ be16 c.maxProc ++ junk ++ [UInt8.ofNat c.args.length]
  (putArgs (256, fixed) c.args).bind fun st =>
  (putStr st c.desc).bind fun st =>
    let varLen := st.2.length - 14
    .ok ((st.2.set 12 (UInt8.ofNat (varLen / 256))).set 13 (UInt8.ofNat varLen))

/-- `emc_write_command` (src/plugins/extmon_comms.c:81-131). -/
def writeCmd (junk : Bytes) (l : List Io) (c : Cmd) : Outcome (Bytes × Res (List Io)) := (cmdBuf junk c).map (writeAll l)

/-- `strnlen` at `i`. -/
def strnlen (b : Bytes) : Nat → Nat → Outcome Nat
  | _, 0 => .ok 0
  | i, n + 1 => (rd b i).bind fun x => if x = 0 then .ok 0 else (strnlen b (i + 1) n).map (· + 1)

/-- `nul_within_n_bytes` (src/plugins/extmon_comms.c:133-143), at `i`. -/
def nulWithin (b : Bytes) : Nat → Nat → Outcome Bool
  | _, 0 => .ok false
  | i, n + 1 => (rd b i).bind fun x => if x = 0 then .ok true else nulWithin b (i + 1) n

/-- `strlen` at `i`. -/
def strlen (b : Bytes) : Nat → Nat → Outcome Nat
  | _, 0 => .ub
  | i, fuel + 1 => (rd b i).bind fun x => if x = 0 then .ok 0 else (strlen b (i + 1) fuel).map (· + 1)

/-- The loop over the arguments (src/plugins/extmon_comms.c:190-200). `none`: rejected. -/
def getArgs (b : Bytes) : Nat → Nat → Nat → Outcome (Option (List Bytes × Nat × Nat))
  | 0, cur, remain => .ok (some ([], cur, remain))
  | k + 1, cur, remain =>
    (strnlen b cur remain).bind fun n =>
    (nulWithin b cur remain).bind fun nul =>
      if nul = false then .ok none
      else if cur + (n + 1) ≤ b.length then
        (getArgs b k (cur + (n + 1)) (remain - (n + 1))).map fun o => o.map fun r => ((b.drop cur).take n :: r.1, r.2)
      else .ub

/-- `emc_read_command` after both reads (src/plugins/extmon_comms.c:181-214): the arguments and the
description. -/
def getVar (b : Bytes) (varLen : Nat) : Outcome (Option (List Bytes × Bytes)) :=
  (rd b 0).bind fun n =>
    if n = 0 then .ok none else
      (getArgs b n.toNat 1 (varLen - 1)).bind fun
        | none => .ok none
        | some (args, cur, remain) =>
          (nulWithin b cur remain).bind fun nul =>
            if nul = false then .ok none else
              (strlen b cur (b.length + 1)).bind fun k =>
                if cur + k + 1 ≠ varLen then .ok none else .ok (some (args, (b.drop cur).take k))

/-- Two bytes as a number. -/
def get16 (b : Bytes) (i : Nat) : Outcome Nat := (rd b i).bind fun x => (rd b (i + 1)).bind fun y => .ok (256 * x.toNat + y.toNat)

/-- `emc_read_command` (src/plugins/extmon_comms.c:145-233): the command, the rest of the stream and
of the calls. -/
def readCmd (l : List Io) (s : Bytes) : Outcome (Res (Cmd × Bytes × List Io)) :=
  match readAll l 14 s with
  | .fail => .ok .fail
  | .wait => .ok .wait
  | .done (fixed, s, l) =>
    if fixed.take 4 ≠ [67, 77, 68, 58] then .ok .fail else
      (get16 fixed 4).bind fun idx =>
      (get16 fixed 6).bind fun timeout =>
      (get16 fixed 8).bind fun interval =>
      (get16 fixed 10).bind fun maxProc =>
      (get16 fixed 12).bind fun varLen =>
        if varLen < 4 then .ok .fail else
          match readAll l varLen s with
          | .fail => .ok .fail
          | .wait => .ok .wait
          | .done (var, s, l) =>
            (getVar var varLen).bind fun
              | none => .ok .fail
              | some (args, desc) => .ok (.done (⟨idx, timeout, interval, maxProc, args, desc⟩, s, l))

/-! ### Results -/

/-- `emc_encode_mon` (src/plugins/extmon_comms.h:66-75). -/
def encodeMon (idx : Nat) (failed : Bool) : Outcome Nat :=
  (assert (decide (idx < 0x10000))).bind fun _ => .ok (idx * 65536 + bif failed then 70 * 256 + 65 else 79 * 256 + 75)

/-- `emc_encode_exit` (src/plugins/extmon_comms.h:79-82). -/
def encodeExit : Nat := 0xFFFFFFFF

/-- `emc_decode_is_exit` (src/plugins/extmon_comms.h:84-87). -/
def isExit (d : Nat) : Bool := d == 0xFFFFFFFF

/-- `emc_decode_mon_idx` (src/plugins/extmon_comms.h:90-93). -/
def monIdx (d : Nat) : Nat := d / 65536

/-- `emc_decode_mon_failed` (src/plugins/extmon_comms.h:96-107). -/
def monFailed (d : Nat) : Bool := !(d % 65536 == 79 * 256 + 75)

/-- The queue of results of the helper (src/plugins/extmon_helper.c:74-77). -/
structure Queue where
  arr : List Nat
  alloc : Nat
  len : Nat
  head : Nat
deriving Repr, DecidableEq

/-- `xmalloc_n`: memory that is not initialised. -/
def fresh (junk : Nat → Nat) (n : Nat) : List Nat := (List.range n).map junk

/-- `sendq_init` (src/plugins/extmon_helper.c:79-85). -/
def Queue.init (junk : Nat → Nat) : Queue := ⟨fresh junk 16, 16, 0, 0⟩

/-- Reads of the array. -/
def Queue.get (q : Queue) (i : Nat) : Outcome Nat := match q.arr[i]? with | some x => .ok x | none => .ub

/-- The loop that copies the queue (src/plugins/extmon_helper.c:102-103). -/
def Queue.copy (q : Queue) (mask : Nat) : Nat → Nat → Outcome (List Nat)
  | _, 0 => .ok []
  | i, n + 1 => (q.get ((q.head + i) &&& mask)).bind fun x => (q.copy mask (i + 1) n).map (x :: ·)

/-- `sendq_enq` (src/plugins/extmon_helper.c:93-110). `junk` is the fresh memory. The size does not
wrap: 2^31 results in the queue are outside of the model. -/
def Queue.enq (q : Queue) (junk : Nat → Nat) (x : Nat) : Outcome Queue :=
  if q.len < q.alloc then
    let i := (q.head + q.len) &&& (q.alloc - 1)
    if i < q.arr.length then .ok { q with arr := q.arr.set i x, len := q.len + 1 } else .ub
  else
    (q.copy (q.alloc - 1) 0 q.len).bind fun l =>
      if q.len < q.alloc * 2 then .ok ⟨l ++ [x] ++ (fresh junk (q.alloc * 2)).drop (q.len + 1), q.alloc * 2, q.len + 1, 0⟩
      else .ub

/-- `sendq_deq_peek` (src/plugins/extmon_helper.c:122-126). -/
def Queue.peek (q : Queue) : Outcome Nat := (assert (decide (q.len ≠ 0))).bind fun _ => q.get q.head

/-- `sendq_deq_commit` (src/plugins/extmon_helper.c:128-134). -/
def Queue.commit (q : Queue) : Outcome Queue :=
  (assert (decide (q.len ≠ 0))).bind fun _ => .ok { q with head := (q.head + 1) &&& (q.alloc - 1), len := q.len - 1 }

end Gdnsd.Extmon
