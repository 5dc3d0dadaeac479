/-
Shared vocabulary of the gdnsd model.

`Outcome` separates a normal result from "undefined behaviour": a failed
`gdnsd_assert` (include/gdnsd/log.h:126-140: abort in debug builds,
`__builtin_unreachable()` with NDEBUG), or a read or write outside a buffer.
-/
namespace Gdnsd

abbrev Bytes := List UInt8

/-- Result of a C computation: a value, or undefined behaviour / failed assertion. -/
inductive Outcome (α : Type) where
  | ok (a : α) : Outcome α
  | ub : Outcome α
deriving Repr, DecidableEq, Inhabited

namespace Outcome

def bind {α β : Type} : Outcome α → (α → Outcome β) → Outcome β
  | ok a, f => f a
  | ub, _ => ub

def map {α β : Type} (f : α → β) : Outcome α → Outcome β
  | ok a => ok (f a)
  | ub => ub

instance : Monad Outcome where
  pure := ok
  bind := bind

@[simp] theorem bind_ok {α β : Type} (a : α) (f : α → Outcome β) :
    Outcome.bind (ok a) f = f a := rfl
@[simp] theorem bind_ub {α β : Type} (f : α → Outcome β) :
    Outcome.bind (ub : Outcome α) f = ub := rfl
@[simp] theorem map_ok {α β : Type} (a : α) (f : α → β) :
    Outcome.map f (ok a) = ok (f a) := rfl
@[simp] theorem map_ub {α β : Type} (f : α → β) :
    Outcome.map f (ub : Outcome α) = ub := rfl
@[simp] theorem monad_bind_ok {α β : Type} (a : α) (f : α → Outcome β) :
    (Outcome.ok a >>= f) = f a := rfl
@[simp] theorem monad_bind_ub {α β : Type} (f : α → Outcome β) :
    ((Outcome.ub : Outcome α) >>= f) = Outcome.ub := rfl
@[simp] theorem monad_pure {α : Type} (a : α) : (pure a : Outcome α) = Outcome.ok a := rfl

end Outcome

/-- A checked memory read: outside the buffer is undefined behaviour. -/
def rd (b : Bytes) (i : Nat) : Outcome UInt8 :=
  match b[i]? with
  | some x => .ok x
  | none => .ub

/-- `gdnsd_assert(e)` (include/gdnsd/log.h:126-140). -/
def assert (c : Bool) : Outcome Unit := if c then .ok () else .ub

@[simp] theorem rd_lt {b : Bytes} {i : Nat} (h : i < b.length) : rd b i = .ok b[i] := by
  simp [rd, h]

theorem rd_ge {b : Bytes} {i : Nat} (h : b.length ≤ i) : rd b i = .ub := by
  simp [rd, h]

@[simp] theorem assert_true : assert true = .ok () := rfl
@[simp] theorem assert_false : assert false = .ub := rfl

end Gdnsd
