/-
What an observer sees of the connections of a thread.
-/
import Verif.Connq.Model
namespace Gdnsd.Connq

/-- Since when a connection is idle; `none` if there is none at the address. -/
def Thread.idleAt (t : Thread) (a : Nat) : Option Int := (t.mem a).map (·.idle)

/-- The events that can occur: new connections at unused addresses while the thread accepts, events
of connections that exist, the timer when it is due, and one stop. -/
def Event.Can (t : Thread) : Event → Prop
  | .connect a => t.accepting = true ∧ t.mem a = none
  | .request a => t.mem a ≠ none
  | .gone a => t.mem a ≠ none
  | .full => t.accepting = true
  | .tick _ => True
  | .fire => ∃ d, t.timer = some d ∧ d ≤ t.now
  | .stop _ => t.accepting = true

/-- Runs of a thread with room for at least two connections (the configuration wants 16). -/
inductive Run (max : Nat) (timeout : Int) : Thread → Prop where
  | init (now : Int) : Run max timeout (init max timeout now)
  | step {t t' : Thread} {e : Event} : Run max timeout t → e.Can t → step t e = .ok t' → Run max timeout t'

/-- Time stops at the timer, and at it only the timer fires. -/
def Event.Prompt (t : Thread) : Event → Prop
  | .tick n => ∀ d, t.timer = some d → t.now + n ≤ d
  | _ => True

/-- Runs where the timer fires when it is due. -/
inductive PromptRun (max : Nat) (timeout : Int) : Thread → Prop where
  | init (now : Int) : PromptRun max timeout (init max timeout now)
  | step {t t' : Thread} {e : Event} : PromptRun max timeout t → e.Can t → e.Prompt t → step t e = .ok t' → PromptRun max timeout t'

/-- What can follow a state, with a timer that fires when it is due. -/
inductive Later (t : Thread) : Thread → Prop where
  | refl : Later t t
  | step {t1 t2 : Thread} {e : Event} : Later t t1 → e.Can t1 → e.Prompt t1 → step t1 e = .ok t2 → Later t t2

/-- The addresses of the open connections, each once. -/
def Thread.Lists (t : Thread) (l : List Nat) : Prop := l.Nodup ∧ ∀ b, b ∈ l ↔ t.idleAt b ≠ none

end Gdnsd.Connq
