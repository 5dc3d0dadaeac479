/-
What C121 asks for.
-/
import Verif.CtlArgs.Model
namespace Gdnsd.CtlArgsSpec
open CtlArgs

inductive Flag where
  | D | l | o | i
deriving Repr, DecidableEq

def Flag.letter : Flag → UInt8
  | .D => 0x44 | .l => 0x6C | .o => 0x6F | .i => 0x69

/-- An option with its argument; for seconds also the number. -/
inductive Val where
  | dir (v : Bytes)
  | addr (v : Bytes)
  | secs (v : Bytes) (n : Nat)
deriving Repr, DecidableEq

def Val.letter : Val → UInt8
  | .dir _ => 0x63 | .addr _ => 0x73 | .secs _ _ => 0x74

def Val.text : Val → Bytes
  | .dir v => v | .addr v => v | .secs v _ => v

def Space (b : UInt8) : Prop := b = 32 ∨ (9 ≤ b ∧ b ≤ 13)

def Digit (b : UInt8) : Prop := 48 ≤ b ∧ b ≤ 57

/-- The number that digits are. -/
def number : Bytes → Nat
  | [] => 0
  | d :: ds => (d.toNat - 48) * 10 ^ ds.length + number ds

/-- What is taken for a timeout: digits with anything but a digit behind them, and white space and a sign in front of them; negative numbers have 2^64 added. -/
def Reads (v : Bytes) (n : Nat) : Prop :=
  ∃ ws sg ds rest, v = ws ++ (sg ++ (ds ++ rest)) ∧ (∀ b ∈ ws, Space b) ∧ ds ≠ [] ∧ (∀ b ∈ ds, Digit b) ∧ (∀ b, rest.head? = some b → ¬ Digit b) ∧ number ds < 2 ^ 64 ∧
    ((sg = [] ∨ sg = [43]) ∧ n = number ds ∨ sg = [45] ∧ n + number ds = 2 ^ 64) ∧ 5 ≤ n ∧ n ≤ 300

/-- A piece of the command line in front of the action. -/
inductive Item where
  | flags (f : Flag) (fs : List Flag)
  | joined (fs : List Flag) (v : Val)
  | apart (fs : List Flag) (v : Val)
deriving Repr, DecidableEq

def Item.render : Item → List Bytes
  | .flags f fs => [0x2D :: (f :: fs).map Flag.letter]
  | .joined fs v => [0x2D :: (fs.map Flag.letter ++ v.letter :: v.text)]
  | .apart fs v => [0x2D :: (fs.map Flag.letter ++ [v.letter]), v.text]

def Val.Legal : Val → Prop
  | .secs v n => Reads v n
  | _ => True

def Item.Legal : Item → Prop
  | .flags _ _ => True
  | .joined _ v => v.text ≠ [] ∧ v.Legal
  | .apart _ v => v.Legal

def Item.has (g : Flag) : Item → Bool
  | .flags f fs => decide (g ∈ f :: fs)
  | .joined fs _ => decide (g ∈ fs)
  | .apart fs _ => decide (g ∈ fs)

def Item.val : Item → Option Val
  | .flags _ _ => none
  | .joined _ v => some v
  | .apart _ v => some v

def Val.dir? : Val → Option Bytes
  | .dir v => some v
  | _ => none

def Val.addr? : Val → Option Bytes
  | .addr v => some v
  | _ => none

def Val.secs? : Val → Option Nat
  | .secs _ n => some n
  | _ => none

/-- What items ask for: the last one of each kind counts. -/
def meaning (l : List Item) : Opts :=
  let any := fun g => l.any (Item.has g)
  let last := l.reverse.filterMap Item.val
  ⟨last.findSome? Val.dir?, last.findSome? Val.addr?, any .D, any .l, any .o, any .i, (last.findSome? Val.secs?).getD 47⟩

/-- Not to be taken for options. -/
def Word (a : Bytes) : Prop := ∀ c cs, a ≠ 0x2D :: c :: cs

/-- A command line: items, and then the action and its arguments as they are. -/
def Means (args : List Bytes) (o : Opts) (rest : List Bytes) : Prop :=
  ∃ items : List Item, (∀ x ∈ items, x.Legal) ∧ o = meaning items ∧
    (args = items.flatMap Item.render ++ rest ∧ (∀ a, rest.head? = some a → Word a) ∨ args = items.flatMap Item.render ++ [0x2D, 0x2D] :: rest)

end Gdnsd.CtlArgsSpec
