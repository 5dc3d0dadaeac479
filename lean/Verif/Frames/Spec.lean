/-
What C125 asks for: messages in a stream (RFC 1035 4.2.2) and messages of sessions (RFC 8490 5.4).
-/
import Verif.Frames.Model
namespace Gdnsd.FramesSpec
open Frames

/-- A number in two bytes. -/
def num16 (n : Nat) : Bytes := [UInt8.ofNat (n / 256 % 256), UInt8.ofNat (n % 256)]

/-- A message in a stream. -/
def frame (m : Bytes) : Bytes := num16 m.length ++ m

/-- A value with its type and length. -/
def tlv (t : Nat) (v : Bytes) : Bytes := num16 t ++ num16 v.length ++ v

/-- A message of a session without an answer: no ID, a request of opcode 6, and no records; a keepalive without a limit, but with no inactivity at all; with padding up to a block. -/
def notice (pad : Bool) : Bytes :=
  ([0, 0, (6 : UInt8) <<< 3, 0] : Bytes) ++ num16 0 ++ num16 0 ++ num16 0 ++ num16 0 ++ tlv 1 (List.replicate 4 255 ++ List.replicate 4 0) ++
    if pad = true then tlv 3 (List.replicate (468 - 24 - 4) 0) else []

/-- The messages for a connection. -/
def told (pad : Bool) (i : Nat) : List Ev → List Bytes
  | [] => []
  | .resp j m _ :: l => if j = i then m :: told pad i l else told pad i l
  | .uni j _ :: l => if j = i then notice pad :: told pad i l else told pad i l

/-- The answers have a size that they can have. -/
def Sized : Ev → Prop
  | .resp _ m _ => 0 < m.length ∧ m.length ≤ 16382
  | .uni _ _ => True

/-- A stream of these messages: all of them if it was not closed, and if it was, some of them, and not all of the next. -/
def Stream (c : Conn) (ms : List Bytes) : Prop :=
  (c.shut = false ∧ c.wire = (ms.map frame).flatten) ∨
  (c.shut = true ∧ ∃ done m rest part t, ms = done ++ m :: rest ∧ frame m = part ++ t ∧ t ≠ [] ∧ c.wire = (done.map frame).flatten ++ part)

end Gdnsd.FramesSpec
