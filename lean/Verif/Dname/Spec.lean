import Verif.Basic
/-
Specification of domain names, independent of the C representation walks.

A name is a list of labels (byte lists) plus a flag: fully qualified or not.
-/
namespace Gdnsd.DnameSpec

/-- Wire form of the labels, RFC 1035 3.1, without the terminator. -/
def wireLabels : List Bytes → Bytes
  | [] => []
  | l :: ls => UInt8.ofNat l.length :: l ++ wireLabels ls

/-- Length of a name on the wire, terminator included. -/
def wireLen (ls : List Bytes) : Nat := (ls.map (fun l => l.length + 1)).sum + 1

/-- The stored form ("Notes on the dname format", include/gdnsd/dname.h:115-140):
overall length, labels, 0 or 255. -/
def encode (ls : List Bytes) (qualified : Bool) : Bytes :=
  UInt8.ofNat (wireLen ls) :: wireLabels ls ++ [if qualified then 0 else 255]

/-- A legal DNS label list: labels of 1..63 bytes, at most 255 bytes in all. -/
def WF (ls : List Bytes) : Prop :=
  (∀ l ∈ ls, 1 ≤ l.length ∧ l.length ≤ 63) ∧ wireLen ls ≤ 255

instance (ls : List Bytes) : Decidable (WF ls) := inferInstanceAs (Decidable (_ ∧ _))

def digit (c : UInt8) : Prop := 48 ≤ c.toNat ∧ c.toNat ≤ 57

/-- ASCII lower-casing of one byte. -/
def lower (c : UInt8) : UInt8 := if 65 ≤ c.toNat ∧ c.toNat ≤ 90 then UInt8.ofNat (c.toNat + 32) else c

/-- RFC 1035 5.1 character-string escapes: `Unesc text bytes` when `text` denotes
`bytes`. `\X` is X (X not a digit), `\DDD` is the byte with that decimal value. -/
inductive Unesc : Bytes → Bytes → Prop
  | nil : Unesc [] []
  | lit {c s o} : c ≠ 92 → Unesc s o → Unesc (c :: s) (c :: o)
  | chr {c s o} : ¬ digit c → Unesc s o → Unesc (92 :: c :: s) (c :: o)
  | num {a b c s o v} : digit a → digit b → digit c →
      v = (a.toNat - 48) * 100 + (b.toNat - 48) * 10 + (c.toNat - 48) → v ≤ 255 →
      Unesc s o → Unesc (92 :: a :: b :: c :: s) (UInt8.ofNat v :: o)

/-- The text of one label: as `Unesc`, but an unescaped dot is not allowed. -/
inductive LabelText : Bytes → Bytes → Prop
  | nil : LabelText [] []
  | lit {c s o} : c ≠ 92 → c ≠ 46 → LabelText s o → LabelText (c :: s) (c :: o)
  | chr {c s o} : ¬ digit c → LabelText s o → LabelText (92 :: c :: s) (c :: o)
  | num {a b c s o v} : digit a → digit b → digit c →
      v = (a.toNat - 48) * 100 + (b.toNat - 48) * 10 + (c.toNat - 48) → v ≤ 255 →
      LabelText s o → LabelText (92 :: a :: b :: c :: s) (UInt8.ofNat v :: o)

/-- Presentation format: `NameText text labels qualified`. -/
inductive NameText : Bytes → List Bytes → Bool → Prop
  | empty : NameText [] [] false
  | root : NameText [46] [] true
  | last {t l} : t ≠ [] → LabelText t l → NameText t [l] false
  | lastDot {t l} : t ≠ [] → LabelText t l → NameText (t ++ [46]) [l] true
  | cons {t l r ls q} : t ≠ [] → LabelText t l → ls ≠ [] → NameText r ls q →
      NameText (t ++ 46 :: r) (l :: ls) q

end Gdnsd.DnameSpec
