/-
What C123 asks for.
-/
import Verif.GeoTest.Model
namespace Gdnsd.GeoTestSpec
open GeoTest

/-- The usage: `gdnsd_geoip_test [-c dir] [map_name addr]`. -/
inductive Usage : List Bytes → Args → Prop
  | none : Usage [] ⟨none, none⟩
  | dir (d : Bytes) : Usage [[45, 99], d] ⟨some d, none⟩
  | query (m a : Bytes) (h : m ≠ [45, 99]) : Usage [m, a] ⟨none, some (m, a)⟩
  | both (d m a : Bytes) : Usage [[45, 99], d, m, a] ⟨some d, some (m, a)⟩

/-- A text without white space and NUL bytes. -/
def Plain (w : Bytes) : Prop := w ≠ [] ∧ ∀ c ∈ w, c.toNat > 32

/-- Spaces and tabs. -/
def Gap (g : Bytes) : Prop := ∀ c ∈ g, c = 32 ∨ c = 9

/-- A line that asks for an address in a map, without its newline. -/
structure Line where
  map : Bytes
  gap : Bytes
  addr : Bytes
  tail : Bytes

def Line.text (l : Line) : Bytes := l.map ++ l.gap ++ l.addr ++ l.tail ++ [10]

/-- Anything may follow after a gap. -/
structure Line.Wf (l : Line) : Prop where
  map : Plain l.map
  gap : Gap l.gap ∧ l.gap ≠ []
  addr : Plain l.addr
  tail : l.tail = [] ∨ (∃ c r, l.tail = c :: r ∧ (c = 32 ∨ c = 9) ∧ ∀ x ∈ r, x ≠ 10)

/-- Names with a comma and a space between them. -/
def joined : List Bytes → Bytes
  | [] => []
  | [a] => a
  | a :: b :: l => a ++ [44, 32] ++ joined (b :: l)

end Gdnsd.GeoTestSpec
