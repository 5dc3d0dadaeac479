/-
What C122 asks for.
-/
import Verif.Loop.Model
namespace Gdnsd.LoopSpec
open Loop

/-- The states that can be reached. -/
inductive Reach (max : Nat) : St → Prop
  | init : Reach max init
  | step {s s' : St} (e : Ev) : Reach max s → step max s e = .ok (some s') → Reach max s'

/-- Steps up to the next prepare watchers or the end: one round of the loop from its poll. -/
inductive Round (max : Nat) : St → St → Prop
  | last {s : St} (h : s.ph = .prep ∨ s.ph = .ended) : Round max s s
  | step {s s' s'' : St} (e : Ev) (h : ¬ (s.ph = .prep ∨ s.ph = .ended)) : step max s e = .ok (some s') → Round max s' s'' → Round max s s''

end Gdnsd.LoopSpec
