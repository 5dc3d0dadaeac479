/-
What C112 to C114 ask for.
-/
import Verif.Life.Model
namespace Gdnsd.LifeSpec
open Take (Eff)
open Life

/-- No daemon runs. -/
def NoDaemon (s : Sys) : Prop := s.dmn = .none ∨ ∃ n, s.dmn = .exit n

/-- Nobody else interferes with the first two processes. -/
def Left (l : List Ev) : Prop := .killFg ∉ l ∧ .killMid ∉ l

/-- What a daemon does tells sooner or later: it becomes ready at some time, or it ends. -/
def Tells (main : List Eff) : Prop := .ready ∈ main ∨ ∃ n, .exit n ∈ main

/-- A process was there under its number in each round from the first to the last. -/
def stays (w : World) (n p : Nat) : Bool := (List.range n).all fun i => (w (i + 1) p).isSome

/-- The numbers belong to these processes, at all times at which some process has them. -/
def Own (w : World) (own : List Nat) (cs : List Nat) : Prop := ∀ p ∈ cs, ∀ t q, w t p = some q → q ∈ own

/-- At most so much. -/
def le : Lim → Lim → Prop
  | _, none => True
  | none, some _ => False
  | some a, some b => a ≤ b

end Gdnsd.LifeSpec
