/-
What users of arenas rely on: strings stored there stay as they are until their arena is destroyed. The
specification knows only which arenas exist, which of them are closed, and which strings are in each.
-/
import Verif.Arena.Model
namespace Gdnsd.Arena

/-- Whether an arena can still be used for allocation. -/
inductive Kind where
  | opened | closed | gone
deriving Repr, DecidableEq

/-- A string in an arena, with the address it got. -/
structure Obj where
  arena : Nat
  pool : Nat
  off : Nat
  data : Bytes
deriving Repr, DecidableEq

structure Ghost where
  kinds : List Kind
  objs : List Obj
deriving Repr, DecidableEq

def Ghost.init : Ghost := ⟨[], []⟩

/-- A buffer that starts with a label or name: the first byte is the length of the rest of it. -/
def HasLabel (l : Bytes) : Prop := ∃ n t, l = n :: t ∧ n.toNat ≤ t.length

/-- That label. -/
def label (l : Bytes) : Bytes := l.take ((l.headD 0).toNat + 1)

/-- The calls that src/ltarena.h allows. -/
def Op.Can (g : Ghost) : Op → Prop
  | .new => True
  | .dup a l => g.kinds[a]? = some .opened ∧ HasLabel l
  | .close a => g.kinds[a]? = some .opened ∨ g.kinds[a]? = some .closed
  | .merge t s => g.kinds[t]? = some .opened ∧ (g.kinds[s]? = some .opened ∨ g.kinds[s]? = some .closed) ∧ t ≠ s
  | .destroy a => g.kinds[a]? = some .opened ∨ g.kinds[a]? = some .closed

/-- What is where after a call that returned `r`. -/
def Ghost.step (g : Ghost) (r : Option (Nat × Nat)) : Op → Ghost
  | .new => ⟨g.kinds ++ [.opened], g.objs⟩
  | .dup a l => match r with
    | some (p, o) => ⟨g.kinds, ⟨a, p, o, label l⟩ :: g.objs⟩
    | none => g
  | .close a => ⟨g.kinds.set a .closed, g.objs⟩
  | .merge t s => ⟨g.kinds.set s .gone, g.objs.map fun x => if x.arena = s then { x with arena := t } else x⟩
  | .destroy a => ⟨g.kinds.set a .gone, g.objs.filter fun x => x.arena != a⟩

inductive Run : Sys → Ghost → Prop
  | init : Run .init .init
  | step (s g op s' r) : Run s g → op.Can g → s.step op = .ok (s', r) → Run s' (g.step r op)

/-- Two strings that have no byte in common. -/
def Obj.Apart (x y : Obj) : Prop := x.pool ≠ y.pool ∨ x.off + x.data.length ≤ y.off ∨ y.off + y.data.length ≤ x.off

end Gdnsd.Arena
