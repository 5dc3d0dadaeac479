/-
libgdnsd/vscf.rl: values as numbers and truth values (lines 1042-1135), with `strtoul` and `strtol` as the C
standard describes them for base 0, in the locale "C", with `unsigned long` of 64 bits. Floating point is left
out.
-/
import Verif.Vscf.Model
namespace Gdnsd.Vscf

/-- `isspace`. -/
def isSpace (c : UInt8) : Bool := c == 32 || (9 ≤ c && c ≤ 13)

/-- The number a digit stands for, up to 35. -/
def digitVal (c : UInt8) : Option Nat :=
  bif 48 ≤ c && c ≤ 57 then some (c.toNat - 48)
  else bif 97 ≤ c && c ≤ 122 then some (c.toNat - 87)
  else bif 65 ≤ c && c ≤ 90 then some (c.toNat - 55)
  else none

/-- Digits of a base: the number, and how many there are. -/
def digits (base : Nat) : Bytes → Nat → Nat → Nat × Nat
  | [], acc, n => (acc, n)
  | c :: r, acc, n =>
    match digitVal c with
    | none => (acc, n)
    | some d => if d < base then digits base r (acc * base + d) (n + 1) else (acc, n)

/-- A number at the start of a string, with base 0: `none` if there is none, else the number and the bytes it
takes. `0x` that no digit follows is the number 0. -/
def number (t : Bytes) : Option (Nat × Nat) :=
  match t with
  | 48 :: x :: r =>
    if (x = 120 ∨ x = 88) ∧ (digits 16 r 0 0).2 ≠ 0 then some ((digits 16 r 0 0).1, (digits 16 r 0 0).2 + 2)
    else some (digits 8 t 0 0)
  | 48 :: [] => some (0, 1)
  | _ => if (digits 10 t 0 0).2 = 0 then none else some (digits 10 t 0 0)

/-- A sign: whether it is a minus, and the bytes it takes. -/
def sign : Bytes → Bool × Nat
  | 45 :: _ => (true, 1)
  | 43 :: _ => (false, 1)
  | _ => (false, 0)

/-- Blanks, a sign, and a number: whether it is negative, the number, and the bytes it takes. Without a
number, nothing is taken. -/
def strtox (t : Bytes) : Bool × Nat × Nat :=
  let r := t.dropWhile isSpace
  match number (r.drop (sign r).2) with
  | none => (false, 0, 0)
  | some p => ((sign r).1, p.1, (t.takeWhile isSpace).length + (sign r).2 + p.2)

/-- `strtoul(t, &end, 0)`: the number, or `none` if `errno` is set, and the bytes it takes. -/
def strtoul (t : Bytes) : Option Nat × Nat :=
  let (neg, m, n) := strtox t
  (if 2 ^ 64 ≤ m then none else some (if neg = true then (2 ^ 64 - m) % 2 ^ 64 else m), n)

/-- `strtol(t, &end, 0)`. -/
def strtol (t : Bytes) : Option Int × Nat :=
  let (neg, m, n) := strtox t
  (if neg = true then (if 2 ^ 63 < m then none else some (-(m : Int))) else (if 2 ^ 63 ≤ m then none else some m), n)

/-- `vscf_simple_get_as_ulong` (libgdnsd/vscf.rl:1031-1046). The value has a zero byte behind it. -/
def getUlong (v : Bytes) : Option Nat :=
  if v.length = 0 then none
  else
    match strtoul (cstr v) with
    | (none, _) => none
    | (some x, n) => if n ≠ v.length then none else some x

/-- `vscf_simple_get_as_long` (libgdnsd/vscf.rl:1048-1063). -/
def getLong (v : Bytes) : Option Int :=
  if v.length = 0 then none
  else
    match strtol (cstr v) with
    | (none, _) => none
    | (some x, n) => if n ≠ v.length then none else some x

/-- `vscf_simple_get_as_bool` (libgdnsd/vscf.rl:1083-1107). -/
def getBool (v : Bytes) : Option Bool :=
  match v with
  | [a, b, c, d] => if (a = 84 ∨ a = 116) ∧ (b = 82 ∨ b = 114) ∧ (c = 85 ∨ c = 117) ∧ (d = 69 ∨ d = 101) then some true else none
  | [a, b, c, d, e] =>
    if (a = 70 ∨ a = 102) ∧ (b = 65 ∨ b = 97) ∧ (c = 76 ∨ c = 108) ∧ (d = 83 ∨ d = 115) ∧ (e = 69 ∨ e = 101) then some false else none
  | _ => none

end Gdnsd.Vscf
