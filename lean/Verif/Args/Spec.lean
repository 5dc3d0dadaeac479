/-
What C115 and C116 ask for.
-/
import Verif.Args.Model
open Gdnsd.Conf (str)
namespace Gdnsd.ArgsSpec
open Args

/-- An option, as the manual has it. -/
inductive Flag where
  | D | l | S | R | i | f | s | x
deriving Repr, DecidableEq

def Flag.letter : Flag → UInt8
  | .D => 0x44 | .l => 0x6C | .S => 0x53 | .R => 0x52 | .i => 0x69 | .f => 0x66 | .s => 0x73 | .x => 0x78

/-- A piece of a command line: options in one argument; options with the directory after them in the same argument, or in the next; or a word. -/
inductive Item where
  | flags (f : Flag) (fs : List Flag)
  | joined (fs : List Flag) (b : UInt8) (dir : Bytes)
  | apart (fs : List Flag) (dir : Bytes)
  | word (w : Bytes)
deriving Repr, DecidableEq

def Item.render : Item → List Bytes
  | .flags f fs => [0x2D :: (f :: fs).map Flag.letter]
  | .joined fs b d => [0x2D :: (fs.map Flag.letter ++ 0x63 :: b :: d)]
  | .apart fs d => [0x2D :: (fs.map Flag.letter ++ [0x63]), d]
  | .word w => [w]

/-- A word is no option. -/
def Item.Legal : Item → Prop
  | .word w => ∀ c cs, w ≠ 0x2D :: c :: cs
  | _ => True

/-- Which options an item has. -/
def Item.has (g : Flag) : Item → Bool
  | .flags f fs => decide (g ∈ f :: fs)
  | .joined fs _ _ => decide (g ∈ fs)
  | .apart fs _ => decide (g ∈ fs)
  | .word _ => false

def Item.dir : Item → Option Bytes
  | .joined _ b d => some (b :: d)
  | .apart _ d => some d
  | _ => none

def Item.words : Item → List Bytes
  | .word w => [w]
  | _ => []

/-- What items ask for: an option is set if one of them has it, and the last directory counts. -/
def meaning (l : List Item) : Opts :=
  let any := fun g => l.any (Item.has g)
  ⟨(l.reverse.findSome? Item.dir), any .D, any .l, any .S, any .R, any .i, (any .f, any .s, any .x)⟩

/-- A command line: items, and after `--` just words. -/
def Means (args : List Bytes) (o : Opts) (ws : List Bytes) : Prop :=
  ∃ items : List Item, (∀ x ∈ items, x.Legal) ∧ o = meaning items ∧
    (args = items.flatMap Item.render ∧ ws = items.flatMap Item.words ∨
     ∃ tail, args = items.flatMap Item.render ++ [0x2D, 0x2D] :: tail ∧ ws = items.flatMap Item.words ++ tail)

/-- The same letters, small or capital, where the second has just small ones. -/
inductive Spelled : Bytes → Bytes → Prop where
  | nil : Spelled [] []
  | small {a n : Bytes} (c : UInt8) : Spelled a n → Spelled (c :: a) (c :: n)
  | capital {a n : Bytes} (c : UInt8) : Spelled a n → Spelled ((c - 0x20) :: a) (c :: n)

/-- The names of actions, in any case of letters. -/
def Named (a : Bytes) (act : Action) : Prop :=
  Spelled a (str (match act with | .check => "checkconf" | .start => "start" | .daemonize => "daemonize"))

end Gdnsd.ArgsSpec
