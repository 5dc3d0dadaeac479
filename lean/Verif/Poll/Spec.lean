/-
What a check of an address does, seen from the outside: a history of `Act`s is read here without the code that made
it.
-/
import Verif.Poll.Model
namespace Gdnsd.PollSpec
open Poll

/-- The bytes of a text. -/
def txt (s : String) : Bytes := s.toList.map fun c => c.toNat.toUInt8

/-- All that was sent. -/
def allSent : List Act → Bytes
  | [] => []
  | .sent b :: l => b ++ allSent l
  | _ :: l => allSent l

/-- All that was received. -/
def allGot : List Act → Bytes
  | [] => []
  | .got b :: l => b ++ allGot l
  | _ :: l => allGot l

/-- Without the rounds that were left out. -/
def noSkips (l : List Act) : List Act := l.filter (· ≠ .skip)

/-- The results, in order. -/
def reports : List Act → List Bool
  | [] => []
  | .report b :: l => b :: reports l
  | _ :: l => reports l

/-- How many checks were begun. -/
def begun : List Act → Nat
  | [] => 0
  | .opened _ :: l => begun l + 1
  | .noSocket :: l => begun l + 1
  | _ :: l => begun l

/-- How many rounds were left out. -/
def left : List Act → Nat
  | [] => 0
  | .skip :: l => left l + 1
  | _ :: l => left l

/-- How many rounds there were. -/
def rounds : List Ev → Nat
  | [] => 0
  | .interval _ :: l => rounds l + 1
  | _ :: l => rounds l

/-- What happens on a connection for the request `req`: there is one, then the request is sent, or a part of it, and
then an answer is read. -/
inductive Talk (req : Bytes) : List Act → Prop
  | nothing : Talk req []
  | talk {out into} : (∀ a ∈ out, ∃ b, a = .sent b) → (∀ a ∈ into, ∃ b, a = .got b) →
      allSent out <+: req → (into ≠ [] → allSent out = req) →
      Talk req (.connected :: (out ++ into))

/-- A digit. -/
def Digit (c : UInt8) : Prop := 48 ≤ c ∧ c ≤ 57

/-- Thirteen bytes begin a good answer: the version, a blank and a code that is wanted. The byte behind it is `x`. -/
def Good (ok : List Nat) (resp : Bytes) (x : UInt8) : Prop :=
  ∃ v a b c, resp = txt "HTTP/1." ++ [v, 32, a, b, c, x] ∧ (v = 48 ∨ v = 49) ∧ Digit a ∧ Digit b ∧ Digit c ∧
    100 * (a.toNat - 48) + 10 * (b.toNat - 48) + (c.toNat - 48) ∈ ok

/-- A whole check over HTTP and its result. -/
inductive HttpCheck (req : Bytes) (ok : List Nat) : List Act → Bool → Prop
  | noSocket : HttpCheck req ok [.noSocket, .report false] false
  | failed {fd mid why} : Talk req mid → why = .refused ∨ why = .lost ∨ why = .timeout →
      HttpCheck req ok (.opened fd :: (mid ++ [why, .closed fd, .report false])) false
  | answered {fd mid up} : Talk req mid → allSent mid = req → (allGot mid).length = 13 →
      (up = true ↔ ∃ x, Good ok (allGot mid) x) →
      HttpCheck req ok (.opened fd :: (mid ++ [.closed fd, .report up])) up

/-- A check over HTTP that is under way, with the socket `fd`. -/
inductive HttpPart (req : Bytes) (fd : Nat) : List Act → Prop
  | part {mid} : Talk req mid → (allGot mid).length < 13 → HttpPart req fd (.opened fd :: mid)

/-- A whole check of a connection and its result. `silent`: without a socket there is no result. -/
inductive TcpCheck (silent : Bool) : List Act → Option Bool → Prop
  | noSocket : silent = false → TcpCheck silent [.noSocket, .report false] (some false)
  | nothing : silent = true → TcpCheck silent [.noSocket] none
  | failed {fd why} : why = .refused ∨ why = .timeout → TcpCheck silent [.opened fd, why, .closed fd, .report false] (some false)
  | up {fd} : TcpCheck silent [.opened fd, .connected, .closed fd, .report true] (some true)

/-- Lines, each with its end. -/
def lines : List Bytes → Bytes
  | [] => []
  | l :: r => l ++ [13, 10] ++ lines r

/-- A request for a path, and of a host if there is one; an empty line ends it. -/
def Request (url : Bytes) : Option Bytes → Bytes
  | none => lines [txt "GET " ++ url ++ txt " HTTP/1.0", txt "User-Agent: gdnsd-monitor", []]
  | some host => lines [txt "GET " ++ url ++ txt " HTTP/1.1", txt "Host: " ++ host, txt "Connection: close", txt "User-Agent: gdnsd-monitor", []]

end Gdnsd.PollSpec
