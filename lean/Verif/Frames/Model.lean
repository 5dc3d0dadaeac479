/-
How a thread writes messages to its TCP connections: `conn_write_packet` and `conn_send_dso_uni` (src/dnsio_tcp.c), with the one buffer that all connections of a thread share.
-/
import Verif.Basic
namespace Gdnsd.Frames

/-- `htons`, on this byte order of the wire. -/
def be16 (n : Nat) : Bytes := [UInt8.ofNat (n / 256), UInt8.ofNat n]

/-- Bytes are stored at an offset. -/
def poke (buf : Bytes) (off : Nat) (b : Bytes) : Outcome Bytes :=
  if off + b.length ≤ buf.length then .ok (buf.take off ++ b ++ buf.drop (off + b.length)) else .ub

/-- `PAD_BLOCK_SIZE` (src/dnswire.h:48). -/
def PAD : Nat := 468

/-- `MAX_RESPONSE_BUF` (src/dnswire.h:45), the size of `pkt_t` (src/dnspacket.h:112-115). -/
def BUF : Nat := 16382

/-- `conn_send_dso_uni` up to the write (src/dnsio_tcp.c:457-485): the buffer and the size of the message. -/
def dsoUni (pad : Bool) (raw : Bytes) : Outcome (Bytes × Nat) :=
  (poke raw 0 (List.replicate 12 0)).bind fun raw =>
  (poke raw 2 [UInt8.ofNat (6 * 8)]).bind fun raw =>
  (poke raw 12 (be16 1)).bind fun raw =>
  (poke raw 14 (be16 8)).bind fun raw =>
  (poke raw 16 [0xFF, 0xFF, 0xFF, 0xFF]).bind fun raw =>
  (poke raw 20 [0, 0, 0, 0]).bind fun raw =>
  if pad = true then
    let dlen := PAD - 24 - 4
    (poke raw 24 (be16 3)).bind fun raw =>
    (poke raw 26 (be16 dlen)).bind fun raw =>
    (poke raw 28 (List.replicate dlen 0)).bind fun raw =>
    (assert (decide (28 + dlen = PAD))).map fun _ => (raw, 28 + dlen)
  else .ok (raw, 24)

/-- A connection: what the kernel has taken for it, and whether it was closed. -/
structure Conn where
  wire : Bytes
  shut : Bool
deriving Repr, DecidableEq

/-- What `send` gives: how many bytes the kernel took, or an error. -/
inductive Sent where
  | took (n : Nat)
  | err
deriving Repr, DecidableEq

/-- `conn_write_packet` (src/dnsio_tcp.c:432-451). -/
def writePacket (raw : Bytes) (size : Nat) (r : Sent) (c : Conn) : Outcome Conn :=
  (assert (decide (size ≠ 0))).bind fun _ =>
  let all := be16 (size % 65536) ++ raw
  if size + 2 > all.length then .ub
  else
    match r with
    | .took n => if n < size + 2 then .ok ⟨c.wire ++ (all.take (size + 2)).take n, true⟩ else .ok { c with wire := c.wire ++ all.take (size + 2) }
    | .err => .ok { c with shut := true }

/-- A thread: its buffer (`tpkt`, src/dnsio_tcp.c:76-84) and connections. -/
structure Thr where
  raw : Bytes
  conns : Nat → Conn

/-- The DNS layer has an answer for connection `i`, in the buffer (src/dnsio_tcp.c:683-699); or the thread is to stop and tells connection `i`, with a session, so (src/dnsio_tcp.c:580-587). -/
inductive Ev where
  | resp (i : Nat) (m : Bytes) (r : Sent)
  | uni (i : Nat) (r : Sent)
deriving Repr, DecidableEq

def Thr.set (t : Thr) (raw : Bytes) (i : Nat) (c : Conn) : Thr := ⟨raw, fun j => if j = i then c else t.conns j⟩

/-- A connection that was closed is not in the queue, and has no events. -/
def step (pad : Bool) (t : Thr) : Ev → Outcome Thr
  | .resp i m r =>
    if (t.conns i).shut = true then .ok t else
    (poke t.raw 0 m).bind fun raw =>
    (assert (decide (m.length ≤ BUF))).bind fun _ =>
    (writePacket raw m.length r (t.conns i)).map (t.set raw i)
  | .uni i r =>
    if (t.conns i).shut = true then .ok t else
    (dsoUni pad t.raw).bind fun p =>
    (writePacket p.1 p.2 r (t.conns i)).map (t.set p.1 i)

def run (pad : Bool) : List Ev → Thr → Outcome Thr
  | [], t => .ok t
  | e :: l, t => (step pad t e).bind (run pad l)

/-- At first. The buffer is as `xmalloc` gives it. -/
def init (raw : Bytes) : Thr := ⟨raw, fun _ => ⟨[], false⟩⟩

end Gdnsd.Frames
