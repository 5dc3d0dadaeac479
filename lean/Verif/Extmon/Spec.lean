/-
The format of the commands to the helper process.
-/
import Verif.Extmon.Model
namespace Gdnsd.Extmon

/-- Strings, each with a NUL. -/
def strings (l : List Bytes) : Bytes := l.flatMap fun s => s ++ [0]

/-- The variable part of a command. -/
def Cmd.var (c : Cmd) : Bytes := [UInt8.ofNat c.args.length] ++ strings c.args ++ c.desc ++ [0]

/-- A command on the wire. -/
def Cmd.wire (c : Cmd) : Bytes :=
  [67, 77, 68, 58] ++ be16 c.idx ++ be16 c.timeout ++ be16 c.interval ++ be16 c.maxProc ++ be16 c.var.length ++ c.var

/-- The strings are C strings and the numbers fit. -/
structure Cmd.Ok (c : Cmd) : Prop where
  idx : c.idx < 65536
  timeout : c.timeout < 65536
  interval : c.interval < 65536
  maxProc : c.maxProc < 65536
  pos : 0 < c.args.length
  few : c.args.length < 256
  args : ∀ a ∈ c.args, (0 : UInt8) ∉ a
  desc : (0 : UInt8) ∉ c.desc

/-- The commands that the format can hold. -/
structure Cmd.Fits (c : Cmd) : Prop extends c.Ok where
  small : 4 ≤ c.var.length
  large : c.var.length < 65536

/-! ### The queue -/

inductive QOp where
  | enq (x : Nat)
  /-- Takes the oldest word if there is one. -/
  | deq
deriving Repr, DecidableEq

/-- What the operations on the queue of the helper take out. -/
def qrun (junk : Nat → Nat) (q : Queue) : List QOp → Outcome (List Nat)
  | [] => .ok []
  | .enq x :: l => (q.enq junk x).bind fun q => qrun junk q l
  | .deq :: l =>
    if q.len = 0 then qrun junk q l
    else q.peek.bind fun x => q.commit.bind fun q => (qrun junk q l).map (x :: ·)

/-- What they take out of a list. -/
def fifo : List Nat → List QOp → List Nat
  | _, [] => []
  | c, .enq x :: l => fifo (c ++ [x]) l
  | [], .deq :: l => fifo [] l
  | x :: c, .deq :: l => x :: fifo c l

end Gdnsd.Extmon
