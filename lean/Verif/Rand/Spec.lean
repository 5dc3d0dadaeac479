import Verif.Basic
/-
Specification vocabulary for random choices, shuffles and TTLs, independent of the
model's helpers.
-/
namespace Gdnsd.Rand.Spec

/-- What raw 32-bit value `v` contributes to a choice among `b` outcomes: a value in
`0..b-1`, or nothing.  This is the textbook multiply-and-reject map on natural numbers. -/
def pick (b v : Nat) : Option Nat :=
  if v * b % 4294967296 < 4294967296 % b then none else some (v * b / 4294967296)

/-- The state after `k` raw draws. -/
def after {σ : Type} (get : σ → UInt32 × σ) : Nat → σ → σ
  | 0, s => s
  | k + 1, s => after get k (get s).2

/-- The `k`-th raw value drawn from `s`. -/
def raw {σ : Type} (get : σ → UInt32 × σ) (k : Nat) (s : σ) : UInt32 :=
  (get (after get k s)).1

/-- A legal draw sequence for a shuffle: the draw for position `i` lies in `0..i`. -/
def Legal (js : Nat → UInt32) : Prop := ∀ i, (js i).toNat ≤ i

end Gdnsd.Rand.Spec

namespace Gdnsd.Ttl.Spec

/-- The value four bytes have on the wire (most significant first). -/
def be32 : Bytes → Option Nat
  | [a, b, c, d] => some (((a.toNat * 256 + b.toNat) * 256 + c.toNat) * 256 + d.toNat)
  | _ => none

/-- Clamp a number into an interval. -/
def clamp (lo hi x : Nat) : Nat := max lo (min hi x)

end Gdnsd.Ttl.Spec
