import Verif.Dname.Spec
/-
How a resolver reads names out of a message (RFC 1035 4.1.4), independent of the code
that writes them.
-/
namespace Gdnsd.EncSpec
open DnameSpec

/-- `NameAt p off ls e`: reading a name at `off` yields the labels `ls`, and its
in-place bytes end at `e`. Pointers must refer to an earlier offset, behind the header. -/
inductive NameAt (p : Bytes) : Nat → List Bytes → Nat → Prop
  | root {off} : p[off]? = some 0 → NameAt p off [] (off + 1)
  | label {off l ls e} : 1 ≤ l.length → l.length ≤ 63 → p[off]? = some (UInt8.ofNat l.length) →
      l <+: p.drop (off + 1) → NameAt p (off + 1 + l.length) ls e → NameAt p off (l :: ls) e
  | ptr {off hi lo ls e t} : p[off]? = some hi → 192 ≤ hi.toNat → p[off + 1]? = some lo →
      t = (hi.toNat - 192) * 256 + lo.toNat → t < off → 12 ≤ t → NameAt p t ls e → NameAt p off ls (off + 2)

/-- Lower-case every label. -/
def lowerName (ls : List Bytes) : List Bytes := ls.map (·.map lower)

/-- A name read at `off` ending at `e` is `ls` up to ASCII case. -/
def ReadsAs (p : Bytes) (off : Nat) (ls : List Bytes) (e : Nat) : Prop :=
  ∃ ls', NameAt p off ls' e ∧ lowerName ls' = lowerName ls

/-- The name at `off` begins with a label or is the root: it is not a pointer. -/
def StartsPlain (p : Bytes) (off : Nat) : Prop := ∃ b, p[off]? = some b ∧ b.toNat < 64

/-- A 16-bit field (RFC 1035 2.3.2: most significant byte first). -/
def U16At (p : Bytes) (off v : Nat) : Prop :=
  ∃ a b : UInt8, p[off]? = some a ∧ p[off + 1]? = some b ∧ v = a.toNat * 256 + b.toNat

/-- A 32-bit field. -/
def U32At (p : Bytes) (off v : Nat) : Prop :=
  ∃ hi lo, U16At p off hi ∧ U16At p (off + 2) lo ∧ v = hi * 65536 + lo

/-- A piece of record data: literal bytes or a domain name. -/
inductive Piece where
  | bytes (b : Bytes)
  | name (ls : List Bytes)
deriving DecidableEq

/-- The pieces found one after another between `off` and `e`. -/
inductive PiecesAt (p : Bytes) : Nat → List Piece → Nat → Prop
  | nil {off} : PiecesAt p off [] off
  | bytes {off b ps e} : b <+: p.drop off → PiecesAt p (off + b.length) ps e →
      PiecesAt p off (.bytes b :: ps) e
  | name {off ls e1 ps e} : ReadsAs p off ls e1 → PiecesAt p e1 ps e → PiecesAt p off (.name ls :: ps) e

/-- A resource record of class IN. -/
structure Rec where
  owner : List Bytes
  type : Nat
  ttl : Nat
  data : List Piece
deriving DecidableEq

/-- A record read at `off`, ending at `e` (RFC 1035 3.2.1). -/
def RecAt (p : Bytes) (off : Nat) (r : Rec) (e : Nat) : Prop :=
  ∃ e1 n, ReadsAs p off r.owner e1 ∧ U16At p e1 r.type ∧ U16At p (e1 + 2) 1 ∧ U32At p (e1 + 4) r.ttl ∧
    U16At p (e1 + 8) n ∧ PiecesAt p (e1 + 10) r.data e ∧ e = e1 + 10 + n

/-- Records one after another between `off` and `e`. -/
inductive RecsAt (p : Bytes) : Nat → List Rec → Nat → Prop
  | nil {off} : RecsAt p off [] off
  | cons {off r e1 rs e} : RecAt p off r e1 → RecsAt p e1 rs e → RecsAt p off (r :: rs) e

end Gdnsd.EncSpec
