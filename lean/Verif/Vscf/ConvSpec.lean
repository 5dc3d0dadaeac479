/-
How numbers are written.
-/
import Verif.Basic
namespace Gdnsd.VscfSpec

/-- `0` to `9`, `a` to `z` and `A` to `Z`. -/
def IsDigit (base : Nat) (c : UInt8) (d : Nat) : Prop :=
  d < base ∧ ((48 ≤ c.toNat ∧ c.toNat ≤ 57 ∧ d = c.toNat - 48) ∨ (97 ≤ c.toNat ∧ c.toNat ≤ 122 ∧ d = c.toNat - 97 + 10) ∨
    (65 ≤ c.toNat ∧ c.toNat ≤ 90 ∧ d = c.toNat - 65 + 10))

/-- Digits and the number they stand for: the first digit counts most. -/
inductive Digits (base : Nat) : Bytes → Nat → Prop
  | nil : Digits base [] 0
  | cons {c d t n} : IsDigit base c d → Digits base t n → Digits base (c :: t) (d * base ^ t.length + n)

/-- A number without a sign: hexadecimal behind `0x`, octal behind `0`, else decimal. -/
inductive Numeral : Bytes → Nat → Prop
  | hex {x t n} : x = 120 ∨ x = 88 → t ≠ [] → Digits 16 t n → Numeral (48 :: x :: t) n
  | oct {t n} : Digits 8 t n → Numeral (48 :: t) n
  | dec {c t n} : c ≠ 48 → Digits 10 (c :: t) n → Numeral (c :: t) n

/-- Blanks, tabs and line ends of all kinds. -/
def Blanks (b : Bytes) : Prop := ∀ c ∈ b, c = 32 ∨ c = 9 ∨ c = 10 ∨ c = 11 ∨ c = 12 ∨ c = 13

/-- With a sign, behind blanks. -/
inductive Signed : Bytes → Bool → Nat → Prop
  | plain {b t n} : Blanks b → Numeral t n → Signed (b ++ t) false n
  | plus {b t n} : Blanks b → Numeral t n → Signed (b ++ 43 :: t) false n
  | minus {b t n} : Blanks b → Numeral t n → Signed (b ++ 45 :: t) true n

/-- A letter in upper or lower case. -/
def IsLetter (l c : UInt8) : Prop := c = l ∨ c.toNat + 32 = l.toNat

/-- A word of lower case letters, in any mix of cases. -/
def SameWord : Bytes → Bytes → Prop
  | [], [] => True
  | l :: w, c :: t => IsLetter l c ∧ SameWord w t
  | _, _ => False

end Gdnsd.VscfSpec
