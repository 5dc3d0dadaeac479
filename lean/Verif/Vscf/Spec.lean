/-
The language of configuration files: what a text means, as a grammar. From the model it uses the data
(`Val`, `Entry`) and the file system (`Env`).
-/
import Verif.Vscf.Model
namespace Gdnsd.VscfSpec
open Vscf (Val Entry Env)

/-- White space: blanks, line ends and comments. -/
inductive Gap : Bytes → Prop
  | nil : Gap []
  | blank {c r} : c = 32 ∨ c = 9 ∨ c = 10 → Gap r → Gap (c :: r)
  | comment {c t r} : c = 59 ∨ c = 35 → (10 : UInt8) ∉ t → Gap r → Gap (c :: t ++ 10 :: r)

def digit (c : UInt8) : Prop := 48 ≤ c.toNat ∧ c.toNat ≤ 57

/-- Characters of a kind and escapes, and what they mean: a backslash and any byte that is no digit is that
byte, a backslash and three digits the byte with that number. -/
inductive Units (ok : UInt8 → Prop) : Bytes → Bytes → Prop
  | nil : Units ok [] []
  | chr {c r v} : ok c → c ≠ 92 → Units ok r v → Units ok (c :: r) (c :: v)
  | esc {c r v} : ¬ digit c → Units ok r v → Units ok (92 :: c :: r) (c :: v)
  | num {a b c n r v} : digit a → digit b → digit c → (a.toNat - 48) * 100 + (b.toNat - 48) * 10 + (c.toNat - 48) = n.toNat →
      Units ok r v → Units ok (92 :: a :: b :: c :: r) (n :: v)

/-- `}{;# ,"=][`, tabs and line ends: not in strings without quotes. -/
def special : List UInt8 := [125, 123, 59, 35, 32, 9, 10, 44, 34, 61, 93, 91]

/-- How a value is written. -/
inductive Kind where
  | bare
  | quoted
  | other
deriving DecidableEq, Repr

/-- A string as it is written, the part inside the quotes, and what it means. -/
inductive Word : Kind → Bytes → Bytes → Bytes → Prop
  | bare {t v} : t ≠ [] → t.head? ≠ some 36 → Units (· ∉ special) t v → Word .bare t t v
  | quoted {t v} : Units (· ≠ 34) t v → Word .quoted (34 :: t ++ [34]) t v

/-- What may follow a value: a string without quotes goes as far as it can. Unless strings may touch, the
next thing is no string. -/
def Apart (touch : Bool) : Kind → Bytes → Prop
  | .bare, r => ∀ c, r.head? = some c → c ∈ special ∧ (touch = false → c ≠ 34)
  | .quoted, r => touch = false → ∀ c, r.head? = some c → c = 36 ∨ (c ∈ special ∧ c ≠ 34)
  | .other, _ => True

/-- An optional comma. -/
def Comma (c : Bytes) : Prop := c = [] ∨ c = [44]

/-- `=` or `=>`, before this text. -/
def Op (o : Bytes) (r : Bytes) : Prop := o = [61, 62] ∨ o = [61] ∧ r.head? ≠ some 62

/-- The part of a text before the first zero byte. -/
def Upto (t p : Bytes) : Prop := ∃ z, t = p ++ z ∧ 0 ∉ p ∧ (z = [] ∨ z.head? = some 0)

/-- The path that is meant in a file: an absolute one, or one relative to the directory of the file. -/
def Path (fn : Option Bytes) (t p : Bytes) : Prop :=
  (t.head? = some 47 ∧ Upto t p) ∨
  (t.head? ≠ some 47 ∧ ∃ d b, fn = some (d ++ b) ∧ 47 ∉ b ∧ (d = [] ∨ d.getLast? = some 47) ∧ Upto (d ++ t) p)

/-- The files that a path stands for: what is in a directory, or what matches a pattern, or the path itself. -/
def Found (env : Env) (p : Bytes) (ps : List Bytes) : Prop :=
  if env.isDir p = true then env.glob (if p = [] ∨ p.getLast? = some 47 then p ++ [42] else p ++ [47, 42]) = some ps
  else ∃ l, env.glob p = some l ∧ ps = if l = [] then [p] else l

/-- `$include{ path }`, and the files it stands for. -/
def Include (env : Env) (fn : Option Bytes) (x : Bytes) (ps : List Bytes) : Prop :=
  ∃ g w k t v p g', x = [36, 105, 110, 99, 108, 117, 100, 101, 123] ++ g ++ w ++ g' ++ [125] ∧
    Gap g ∧ Word k w t v ∧ Gap g' ∧ Path fn t p ∧ Found env p ps

mutual

/-- A value in a file, how it is written, and what it is. -/
inductive Value (env : Env) (touch : Bool) : Option Bytes → Bytes → Kind → Val → Prop
  | word {fn x k t v} : Word k x t v → Value env touch fn x k (.simple t v)
  | array {fn t vs} : Values env touch fn t vs → Value env touch fn (91 :: t ++ [93]) .other (.array vs)
  | hash {fn t es} : Assigns env touch fn t es → (es.map (·.key)).Nodup → Value env touch fn (123 :: t ++ [125]) .other (.hash es)
  | incl {fn x p v} : Include env fn x [p] → File env touch p v → Value env touch fn x .other v

/-- Values one after the other. -/
inductive Values (env : Env) (touch : Bool) : Option Bytes → Bytes → List Val → Prop
  | nil {fn g} : Gap g → Values env touch fn g []
  | cons {fn g x k v g' cm r vs} : Gap g → Value env touch fn x k v → Gap g' → Comma cm → Values env touch fn r vs →
      Apart touch k (g' ++ cm ++ r) → Values env touch fn (g ++ x ++ g' ++ cm ++ r) (v :: vs)

/-- Assignments, and files that are merged, one after the other. -/
inductive Assigns (env : Env) (touch : Bool) : Option Bytes → Bytes → List (Entry Val) → Prop
  | nil {fn g} : Gap g → Assigns env touch fn g []
  | cons {fn g x k t key g1 o g2 y k' v g3 cm r es} : Gap g → Word k x t key → Gap g1 → Op o (g2 ++ y) → Gap g2 →
      Value env touch fn y k' v → Gap g3 → Comma cm → Assigns env touch fn r es → Apart touch k' (g3 ++ cm ++ r) →
      Assigns env touch fn (g ++ x ++ g1 ++ o ++ g2 ++ y ++ g3 ++ cm ++ r) (⟨key, false, v⟩ :: es)
  | merge {fn g x ps es' g' cm r es} : Gap g → Include env fn x ps → Merged env touch ps es' → Gap g' → Comma cm →
      Assigns env touch fn r es → Assigns env touch fn (g ++ x ++ g' ++ cm ++ r) (es' ++ es)

/-- The entries of files that are hashes. -/
inductive Merged (env : Env) (touch : Bool) : List Bytes → List (Entry Val) → Prop
  | nil : Merged env touch [] []
  | cons {p ps es es'} : File env touch p (.hash es) → Merged env touch ps es' → Merged env touch (p :: ps) (es ++ es')

/-- What a file is. -/
inductive File (env : Env) (touch : Bool) : Bytes → Val → Prop
  | mk {p t v} : env.read p = some t → Doc env touch (some p) t v → File env touch p v

/-- What a text is that is in a file, or not. -/
inductive Doc (env : Env) (touch : Bool) : Option Bytes → Bytes → Val → Prop
  | hash {fn t es} : Assigns env touch fn t es → (es.map (·.key)).Nodup → Doc env touch fn t (.hash es)
  | array {fn g t vs g'} : Gap g → Values env touch fn t vs → Gap g' → Doc env touch fn (g ++ 91 :: t ++ 93 :: g') (.array vs)

end

/-- The text asks for this path to be included: it is behind `$include{` and white space. -/
def Asks (text t : Bytes) : Prop :=
  ∃ a g w b, text = a ++ [36, 105, 110, 99, 108, 117, 100, 101, 123] ++ g ++ w ++ b ∧ Gap g ∧ (w = t ∨ w = 34 :: t ++ [34])

/-- Files only include files of a lower rank, so that no file includes itself. -/
def Grounded (env : Env) (rank : Bytes → Nat) : Prop :=
  ∀ f text t p ps f', env.read f = some text → Asks text t → Path (some f) t p → Found env p ps → f' ∈ ps → rank f' < rank f

end Gdnsd.VscfSpec
