/-
What C108 to C111 ask for.
-/
import Verif.Util.Model
namespace Gdnsd.UtilSpec

/-! ### The rate of messages -/

/-- More messages in that second than are let through. -/
def Tripped (ts : List Int) (u : Int) : Prop := 10 < ts.count u

/-- Messages of the second `u` are suppressed from its start: there were too many in the second before, or in the one before that and then again some. -/
def Guarded (ts : List Int) (u : Int) : Prop := Tripped ts (u - 1) ∨ Tripped ts (u - 2) ∧ 0 < ts.count (u - 1)

/-- Times that do not go back. -/
def Rising : List Int → Prop
  | [] => True
  | t :: ts => (∀ u ∈ ts, t ≤ u) ∧ Rising ts

/-- Times that jump back and forth, `n` of them. -/
def jumping (t : Int) : Nat → List Int
  | 0 => []
  | 1 => [t]
  | n + 2 => t :: (t - 1) :: jumping t n

/-! ### Names -/

/-- A byte in a message: itself if it can be seen, else its number with three digits. -/
def visible (b : UInt8) : Bytes :=
  if 0x20 < b.toNat ∧ b.toNat < 0x7F then [b]
  else [0x5C, UInt8.ofNat (0x30 + b.toNat / 100), UInt8.ofNat (0x30 + b.toNat / 10 % 10), UInt8.ofNat (0x30 + b.toNat % 10)]

def text (ls : List Bytes) : Bytes := ls.flatMap fun l => l.flatMap visible ++ [0x2E]

/-- The length of labels in a name. -/
def wire (ls : List Bytes) : Nat := (ls.map fun l => l.length + 1).sum

/-- Pieces of a buffer, each after the one before it and none beyond the end. -/
def Apart (cap : Nat) : Nat → List (Nat × Nat) → Prop
  | _, [] => True
  | from', (o, n) :: l => from' ≤ o ∧ o + n ≤ cap ∧ Apart cap (o + n) l

/-! ### Replacing text -/

/-- `n` begins at `i`. -/
def At (n h : Bytes) (i : Nat) : Prop := ∃ pre post, h = pre ++ n ++ post ∧ pre.length = i

/-- From left to right, every `n` is replaced by `r`. -/
inductive Replaced (n r : Bytes) : Bytes → Bytes → Prop
  | done (h) : (∀ i, ¬ At n h i) → Replaced n r h h
  | next (pre post out) : (∀ i < pre.length, ¬ At n (pre ++ n ++ post) i) → Replaced n r post out → Replaced n r (pre ++ n ++ post) (pre ++ r ++ out)

/-! ### Reading files -/

/-- The bytes a read gave. -/
def got : Gdnsd.Util.Read → Bytes
  | .got b => b
  | _ => []

end Gdnsd.UtilSpec
