/-
The language of zone files: what a text means, as a grammar and without any scanning. From the model it
uses the records (`Add`, `Rdata`), and the files and `inet_pton` of the settings.
-/
import Verif.Zscan.Model
import Verif.Load.Spec
namespace Gdnsd.ZscanSpec
open DnameSpec LookupSpec EncSpec LoadSpec
open Load (Rdata Add)
open Zscan (Cfg)

/-! ### Layout -/

/-- A character that stands for itself, or one behind a backslash. -/
inductive Glyph where
  | chr (c : UInt8)
  | esc (c : UInt8)
deriving DecidableEq, Repr

def Glyph.text : Glyph → Bytes
  | .chr c => [c]
  | .esc c => [92, c]

/-- The parts of a text. A comment goes to the end of its line. -/
inductive Piece where
  | glyph (g : Glyph)
  | str (gs : List Glyph)
  | comment (t : Bytes)
  | newline
  | opn
  | cls
deriving DecidableEq, Repr

def Piece.text : Piece → Bytes
  | .glyph g => g.text
  | .str gs => 34 :: gs.flatMap Glyph.text ++ [34]
  | .comment t => 59 :: t ++ [10]
  | .newline => [10]
  | .opn => [40]
  | .cls => [41]

/-- Outside of quotes, newline, semicolon, quote, parentheses, backslash and form feed do not stand for
themselves; in quotes, quote and backslash. -/
def Piece.Ok : Piece → Prop
  | .glyph (.chr c) => c ∉ [10, 59, 34, 40, 41, 92, 12]
  | .glyph (.esc _) => True
  | .str gs => ∀ g ∈ gs, ∀ c, g = .chr c → c ≠ 34 ∧ c ≠ 92
  | .comment t => 10 ∉ t
  | _ => True

/-- The text in one dimension: comments are blank, and between parentheses (which do not nest) the ends of
lines are too. -/
def flat (inParens : Bool) : List Piece → Option Bytes
  | [] => if inParens then none else some []
  | .opn :: l => if inParens then none else (flat true l).map (32 :: ·)
  | .cls :: l => if inParens then (flat false l).map (32 :: ·) else none
  | .newline :: l => (flat inParens l).map ((if inParens then 12 else 10) :: ·)
  | .comment t :: l => (flat inParens l).map fun r => 32 :: t.map (fun _ => 32) ++ (if inParens then 12 else 10) :: r
  | p :: l => (flat inParens l).map (p.text ++ ·)

/-- A text and what it is in one dimension. -/
def Flattens (text out : Bytes) : Prop :=
  ∃ ps : List Piece, (∀ p ∈ ps, p.Ok) ∧ text = ps.flatMap Piece.text ∧ flat false ps = some out

/-! ### Tokens -/

def isBlank (c : UInt8) : Prop := c = 32 ∨ c = 9 ∨ c = 12

def Blank (b : Bytes) : Prop := b ≠ [] ∧ ∀ c ∈ b, isBlank c

def special : List UInt8 := [59, 32, 9, 12, 34, 10, 92, 41, 40]

/-- Characters of a kind and escapes. -/
inductive Units (ok : UInt8 → Prop) : Bytes → Prop
  | nil : Units ok []
  | chr {c r} : ok c → c ≠ 92 → Units ok r → Units ok (c :: r)
  | esc {c r} : ¬ digit c → Units ok r → Units ok (92 :: c :: r)
  | num {a b c r} : digit a → digit b → digit c → Units ok r → Units ok (92 :: a :: b :: c :: r)

/-- A word, bare or in quotes, and what is in the quotes. -/
inductive Word : Bytes → Bytes → Prop
  | bare {t} : t ≠ [] → Units (· ∉ special) t → Word t t
  | quoted {t} : Units (· ≠ 34) t → Word (34 :: t ++ [34]) t

def Digits (t : Bytes) : Prop := t ≠ [] ∧ ∀ c ∈ t, digit c

/-- The decimal value of digits. -/
def value : Bytes → Nat
  | t => t.foldl (fun n d => 10 * n + (d.toNat - 48)) 0

/-- A number: less than 2^64, and what is above 32 bits is lost. -/
def Num (t : Bytes) (v : UInt32) : Prop := Digits t ∧ value t < 2 ^ 64 ∧ v.toNat = value t % 2 ^ 32

/-- The seconds of a unit. -/
def unit (c : UInt8) : Option Nat :=
  if c = 109 ∨ c = 77 then some 60 else if c = 104 ∨ c = 72 then some 3600
  else if c = 100 ∨ c = 68 then some 86400 else if c = 119 ∨ c = 87 then some 604800 else none

/-- A number with or without a unit. -/
inductive Ttl : Bytes → UInt32 → Prop
  | plain {t v} : Num t v → Ttl t v
  | unit {t v c n w} : Num t v → unit c = some n → w.toNat = v.toNat * n % 2 ^ 32 → Ttl (t ++ [c]) w

/-- A TTL for static and dynamic records: the TTL, the minimum (half of it if not given or 0), and whether
it has two parts. -/
inductive TtlMin : Bytes → UInt32 → UInt32 → Bool → Prop
  | one {t v m} : Ttl t v → m.toNat = v.toNat / 2 → TtlMin t v m false
  | two {t v u w m} : Ttl t v → Ttl u w → m.toNat = (if w.toNat = 0 then v.toNat / 2 else w.toNat) → TtlMin (t ++ 47 :: u) v m true

/-- Where a statement is. The owner is the last one stated. -/
structure Ctx where
  zone : List Bytes
  origin : List Bytes
  fileOrigin : List Bytes
  owner : List Bytes
  ttl : UInt32
  fn : Bytes

/-- The name that a text denotes. -/
def Resolves (c : Ctx) (text : Bytes) (name : List Bytes) : Prop :=
  ∃ ls q, NameText text ls q ∧ WF ls ∧ WF name ∧
    if q then name = lowerName ls
    else if lowerName ls = [[64]] then name = c.origin
    else if (lowerName ls).getLast? = some [64, 122] then name = (lowerName ls).dropLast ++ c.zone
    else if (lowerName ls).getLast? = some [64, 102] then name = (lowerName ls).dropLast ++ c.fileOrigin
    else (∀ x, (lowerName ls).getLast? ≠ some [64, x]) ∧ name = lowerName ls ++ c.origin

/-- A name on the right side, as it is stored. -/
def Name (c : Ctx) (w d : Bytes) : Prop :=
  w.head? ≠ some 36 ∧ ∃ t n, t ≠ [] ∧ Word w t ∧ Resolves c t n ∧ d = encode n true

/-- The owner: empty quotes stand for the origin. -/
def Owner (c : Ctx) (w : Bytes) (n : List Bytes) : Prop :=
  w.head? ≠ some 36 ∧ ∃ t, Word w t ∧ if t = [] then n = c.origin else Resolves c t n

/-- A text in strings of at most 255 bytes, all but the last of 255. -/
inductive Split : Bytes → Bytes → Prop
  | last {t} : t ≠ [] → t.length ≤ 255 → Split t (UInt8.ofNat t.length :: t)
  | cons {a t r} : a.length = 255 → Split t r → Split (a ++ t) (255 :: a ++ r)

/-- A text in parts of at most 255 bytes: all but the last of 255, and the last one not empty unless the text
is. -/
def Parts (t : Bytes) (ps : List Bytes) : Prop :=
  ps ≠ [] ∧ ps.flatten = t ∧ (∀ p ∈ ps.dropLast, p.length = 255) ∧ ∀ p, ps.getLast? = some p → p.length ≤ 255 ∧ (p = [] → t = [])

/-- Parts as strings of TXT data: each behind its length. -/
def strings (ps : List Bytes) : Bytes := ps.flatMap fun p => UInt8.ofNat p.length :: p

/-- The texts that tokens stand for. -/
inductive Texts : List Bytes → List Bytes → Prop
  | nil : Texts [] []
  | cons {t o ts os} : Unesc t o → Texts ts os → Texts (t :: ts) (o :: os)

/-- A string of at most 255 bytes. -/
def Str (w s : Bytes) : Prop := ∃ t o, Word w t ∧ Unesc t o ∧ o.length ≤ 255 ∧ s = UInt8.ofNat o.length :: o

/-- A string of any length, split where necessary unless that is switched off. -/
def Long (cfg : Cfg) (t s : Bytes) : Prop :=
  ∃ o, Unesc t o ∧ ((o.length ≤ 255 ∧ s = UInt8.ofNat o.length :: o) ∨ (255 < o.length ∧ o.length ≤ 16000 ∧ cfg.noSplit = false ∧ Split o s))

def Ip4 (cfg : Cfg) (w b : Bytes) : Prop := w ≠ [] ∧ (∀ c ∈ w, digit c ∨ c = 46) ∧ w.length ≤ 15 ∧ cfg.pton4 w = some b

def hexDigit (c : UInt8) : Prop := digit c ∨ (65 ≤ c.toNat ∧ c.toNat ≤ 70) ∨ (97 ≤ c.toNat ∧ c.toNat ≤ 102)

def Ip6 (cfg : Cfg) (w b : Bytes) : Prop := w ≠ [] ∧ (∀ c ∈ w, hexDigit c ∨ c = 58 ∨ c = 46) ∧ w.length ≤ 46 ∧ cfg.pton6 w = some b

def letter (c : UInt8) : Prop := (65 ≤ c.toNat ∧ c.toNat ≤ 90) ∨ (97 ≤ c.toNat ∧ c.toNat ≤ 122)

/-- The property of a CAA record. -/
def Tag (w : Bytes) : Prop := w ≠ [] ∧ (∀ c ∈ w, digit c ∨ letter c) ∧ w.length ≤ 255

/-- A plugin with or without a resource, up to the first zero byte. -/
def Plug (w r : Bytes) : Prop :=
  w.length ≤ 255 ∧ r = (w.takeWhile fun c => c != 0) ∧
  ∃ a, a ≠ [] ∧ Units (fun c => c ∉ special ∧ c ≠ 33) a ∧
    (w = a ∨ ∃ b, b ≠ [] ∧ Units (fun c => c ∉ special ∧ c ≠ 33) b ∧ w = a ++ 33 :: b)

/-! ### Records -/

def str (s : String) : Bytes := s.toList.map fun c => c.toNat.toUInt8

/-- A word of the grammar, case ignored. -/
def Keyword (k : String) (w : Bytes) : Prop := (∀ c ∈ w, letter c) ∧ w.map lower = str k

/-- Owners outside of the zone are only allowed for addresses. -/
def outside (c : Ctx) : Prop := ¬ c.zone <:+ c.owner

instance (c : Ctx) : Decidable (outside c) := inferInstanceAs (Decidable (¬ _))

instance (c : UInt8) : Decidable (digit c) := inferInstanceAs (Decidable (_ ∧ _))

/-- Types with a fixed number of fields, and their data. `min` is the minimum TTL. -/
inductive Data (cfg : Cfg) (c : Ctx) (min : UInt32) : String → List Bytes → Bool → Rdata → Prop
  | a {w b} : Ip4 cfg w b → Data cfg c min "a" [w] false (.a b (decide (outside c)))
  | aaaa {w b} : Ip6 cfg w b → Data cfg c min "aaaa" [w] false (.aaaa b (decide (outside c)))
  | ns {w d} : Name c w d → ¬ outside c → Data cfg c min "ns" [w] false (.ns d)
  | cname {w d} : Name c w d → ¬ outside c → Data cfg c min "cname" [w] false (.cname d)
  | ptr {w d} : Name c w d → ¬ outside c → Data cfg c min "ptr" [w] false (.ptr d)
  | mx {n p w d} : Num n p → Name c w d → ¬ outside c → Data cfg c min "mx" [n, w] false (.mx p d)
  | srv {n1 p n2 q n3 r w d} : Num n1 p → Num n2 q → Num n3 r → Name c w d → ¬ outside c →
      Data cfg c min "srv" [n1, n2, n3, w] false (.srv p q r d)
  | naptr {n1 p n2 q w1 s1 w2 s2 w3 s3 w d} : Num n1 p → Num n2 q → Str w1 s1 → Str w2 s2 → Str w3 s3 → Name c w d → ¬ outside c →
      Data cfg c min "naptr" [n1, n2, w1, w2, w3, w] false (.naptr p q (s1 ++ s2 ++ s3) d)
  | soa {w1 m w2 e t1 v1 t2 v2 t3 v3 t4 v4 t5 v5} : Name c w1 m → Name c w2 e → Ttl t1 v1 → Ttl t2 v2 → Ttl t3 v3 → Ttl t4 v4 → Ttl t5 v5 →
      c.owner = c.zone → Data cfg c min "soa" [w1, w2, t1, t2, t3, t4, t5] false (.soa m e v1 v2 v3 v4 v5)
  | caa {n f p w t o} : Num n f → f.toNat ≤ 255 → Tag p → Word w t → Unesc t o → o.length ≤ 16000 → ¬ outside c →
      Data cfg c min "caa" [n, p, w] false (.raw 257 (UInt8.ofNat f.toNat :: UInt8.ofNat p.length :: p ++ o))
  | dyna {w r} : Plug w r → ¬ outside c → Data cfg c min "dyna" [w] true (.dyna r min)
  | dync {w r} : Plug w r → ¬ outside c → Data cfg c min "dync" [w] true (.dync r min)

/-- Fields with blanks between them. -/
inductive Joined : List Bytes → Bytes → Prop
  | one (w) : Joined [w] w
  | cons {w b l s} : Blank b → Joined l s → Joined (w :: l) (w ++ b ++ s)

/-- The strings of a TXT record: blanks between them, or nothing beside quotes. -/
inductive Items (cfg : Cfg) : Bytes → Bytes → Prop
  | one {w t s} : Word w t → Long cfg t s → Items cfg w s
  | sep {w t s b r o} : Word w t → Long cfg t s → Blank b → Items cfg r o → Items cfg (w ++ b ++ r) (s ++ o)
  | adj {w t s r o} : Word w t → Long cfg t s → (w.head? = some 34 ∨ r.head? = some 34) → Items cfg r o → Items cfg (w ++ r) (s ++ o)

def hexValue (c : UInt8) : Nat := if digit c then c.toNat - 48 else (lower c).toNat - 87

/-- Bytes in hexadecimal, blanks between them. -/
inductive Hex : Bytes → Bytes → Prop
  | nil : Hex [] []
  | blank {c r o} : isBlank c → Hex r o → Hex (c :: r) o
  | byte {a b r o} : hexDigit a → hexDigit b → Hex r o → Hex (a :: b :: r) (UInt8.ofNat (16 * hexValue a + hexValue b) :: o)

/-- The type and data of a record. -/
inductive Rhs (cfg : Cfg) (c : Ctx) (min : UInt32) : Bytes → Bool → Rdata → Prop
  | fixed {k w b fs s dyn d} : Keyword k w → Blank b → Joined fs s → Data cfg c min k fs dyn d → Rhs cfg c min (w ++ b ++ s) dyn d
  | txt {w b s o} : Keyword "txt" w → Blank b → Items cfg s o → o.length ≤ 16000 → ¬ outside c → Rhs cfg c min (w ++ b ++ s) false (.txt o)
  | txtNone {w b} : Keyword "txt" w → Blank b → 2 ≤ b.length → ¬ outside c → Rhs cfg c min (w ++ b) false (.txt [])
  | generic {w n t b1 b2 m l b3 s o} : Keyword "type" w → Num n t → Blank b1 → Blank b2 → Num m l → Blank b3 → Hex s o → l.toNat = o.length → l ≠ 0 →
      ¬ outside c → Rhs cfg c min (w ++ n ++ b1 ++ [92, 35] ++ b2 ++ m ++ b3 ++ s) false (.raw t o)

/-- TTL and class, both optional, in any order. -/
inductive Prefix (c : Ctx) : Bytes → UInt32 → UInt32 → Bool → Prop
  | none {m} : m.toNat = c.ttl.toNat / 2 → Prefix c [] c.ttl m false
  | cls {i b m} : Keyword "in" i → Blank b → m.toNat = c.ttl.toNat / 2 → Prefix c (i ++ b) c.ttl m false
  | ttl {t b v m s} : TtlMin t v m s → Blank b → Prefix c (t ++ b) v m s
  | ttlCls {t b i b' v m s} : TtlMin t v m s → Blank b → Keyword "in" i → Blank b' → Prefix c (t ++ b ++ i ++ b') v m s
  | clsTtl {i b t b' v m s} : Keyword "in" i → Blank b → TtlMin t v m s → Blank b' → Prefix c (i ++ b ++ t ++ b') v m s

/-- A record behind its owner. Only dynamic types may have a TTL with two parts. -/
inductive Record (cfg : Cfg) (c : Ctx) : Bytes → Add → Prop
  | mk {p v m sl s dyn d o} : Prefix c p v m sl → Rhs cfg c m s dyn d → (sl = true → dyn = true) →
      (if outside c then o = c.owner else c.owner = o ++ c.zone) → Record cfg c (p ++ s) ⟨encode o true, v, d⟩

/-! ### Files -/

/-- The directory of a path, with its slash. -/
def Dir (path dir : Bytes) : Prop := ∃ d f, path = d ++ 47 :: f ∧ 47 ∉ f ∧ dir = d ++ [47]

/-- The path of an included file: relative to that of the including one. -/
def Path (fn f p : Bytes) : Prop :=
  if f.head? = some 47 then p = f else ∃ d, Dir fn d ∧ p = d ++ f

/-- A statement: whether blanks may follow it (not behind the name of a file), where it leaves the file, and
the records it adds. `I` says what other files hold. -/
inductive Statement (cfg : Cfg) (I : Bytes → List Bytes → UInt32 → List Add → Prop) (c : Ctx) : Bytes → Bool → Ctx → List Add → Prop
  | empty : Statement cfg I c [] true c []
  | again {b s r} : Blank b → Record cfg c s r → Statement cfg I c (b ++ s) true c [r]
  | owner {w n b s r} : Owner c w n → Blank b → Record cfg { c with owner := n } s r →
      Statement cfg I c (w ++ b ++ s) true { c with owner := n } [r]
  | ttl {w b t v} : Keyword "ttl" w → Blank b → Ttl t v → Statement cfg I c (36 :: w ++ b ++ t) true { c with ttl := v } []
  | origin {w b t n} : Keyword "origin" w → Blank b → Name c t (encode n true) → WF n → c.zone <:+ n →
      Statement cfg I c (36 :: w ++ b ++ t) true { c with origin := n } []
  | incl {w b t f o p rs} : Keyword "include" w → Blank b → Word t f → f ≠ [] → Unesc f o → Path c.fn (o.takeWhile fun c => c != 0) p →
      I p c.origin c.ttl rs → Statement cfg I c (36 :: w ++ b ++ t) false c rs
  | inclOrigin {w b t f o p b' u n rs} : Keyword "include" w → Blank b → Word t f → f ≠ [] → Unesc f o → Path c.fn (o.takeWhile fun c => c != 0) p →
      Blank b' → Name c u (encode n true) → WF n → c.zone <:+ n → I p n c.ttl rs →
      Statement cfg I c (36 :: w ++ b ++ t ++ b' ++ u) true c rs

inductive Lines (cfg : Cfg) (I : Bytes → List Bytes → UInt32 → List Add → Prop) : Ctx → Bytes → List Add → Prop
  | nil {c} : Lines cfg I c [] []
  | cons {c s may b c' l r m} : Statement cfg I c s may c' l → (b = [] ∨ (may = true ∧ Blank b)) → Lines cfg I c' r m →
      Lines cfg I c (s ++ b ++ 10 :: r) (l ++ m)

/-- What a file with includes at most `depth` deep holds. -/
def Holds (cfg : Cfg) (zone : List Bytes) : Nat → Bytes → List Bytes → UInt32 → List Add → Prop
  | 0, _, _, _, _ => False
  | depth + 1, fn, origin, ttl, l =>
    ∃ text out, cfg.files fn = some text ∧ text ≠ [] ∧ text.getLast? = some 10 ∧ Flattens text out ∧
      Lines cfg (Holds cfg zone depth) ⟨zone, origin, origin, zone, ttl, fn⟩ out l

/-- The file `p` names the file `q` in a directive. -/
def Includes (cfg : Cfg) (p q : Bytes) : Prop :=
  ∃ text out a w b t f o r, cfg.files p = some text ∧ Flattens text out ∧ out = a ++ 36 :: w ++ b ++ t ++ r ∧ Keyword "include" w ∧ Blank b ∧
    Word t f ∧ Unesc f o ∧ Path p (o.takeWhile fun c => c != 0) q

/-- There is a chain of `n` includes from the file. -/
def Chain (cfg : Cfg) : Nat → Bytes → Prop
  | 0, _ => True
  | n + 1, p => ∃ q, Includes cfg p q ∧ Chain cfg n q

/-- A file in which nothing stops the scanner for good: it is not empty, and has neither empty quotes nor a
backslash before a `#`. -/
def Calm (text : Bytes) : Prop := text ≠ [] ∧ ¬ [34, 34] <:+: text ∧ ¬ [92, 35] <:+: text

end Gdnsd.ZscanSpec
