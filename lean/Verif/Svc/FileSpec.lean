/-
What a file of states says about what is monitored.
-/
import Verif.Svc.FileModel
import Verif.Conf.Spec
import Verif.Mon.Props
namespace Gdnsd.SvcSpec
open Vscf VscfSpec ConfSpec Svc Mon

/-- The order of texts by their bytes. -/
inductive Before : Bytes → Bytes → Prop
  | nil {t} : Before [] t
  | lt {a b s t} : a < b → Before (a :: s) (b :: t)
  | cons {a s t} : Before s t → Before (a :: s) (a :: t)

/-- Sorted by name. -/
def Sorted (ms : List FMon) : Prop := ms.Pairwise fun a b => Before a.name b.name

/-- What the C library says about sorting and searching. -/
structure Libc (qsort : Sorter) (bs : Search) : Prop where
  perm : ∀ ms, (qsort ms).Perm ms
  sorted : ∀ ms, Sorted (qsort ms)
  found : ∀ ms n i, Sorted ms → bs ms n = some i → ∃ m, ms[i]? = some m ∧ m.name = n
  missing : ∀ ms n, Sorted ms → bs ms n = none → ∀ m ∈ ms, m.name ≠ n

/-- An entry of the file: a name with its state, perhaps with a lifetime. -/
def Line (e : Entry Val) (name : Bytes) (down : Bool) (n : Option Nat) : Prop :=
  ∃ r t u, UpToZero e.key name ∧ e.val = .simple r t ∧ UpToZero t u ∧ StateString u down n

/-- All entries are states. -/
def AllStates (es : List (Entry Val)) : Prop := ∀ e ∈ es, ∃ name down n, Line e name down n

/-- The last entry for a name. -/
def LastFor (es : List (Entry Val)) (name : Bytes) (down : Bool) (n : Option Nat) : Prop :=
  ∃ l1 e l2, es = l1 ++ e :: l2 ∧ Line e name down n ∧ ∀ e' ∈ l2, ¬ UpToZero e'.key name

/-- What a file says about a name: its state, with the lifetime or the default one; or the default if it is not named. -/
def FileSays (es : List (Entry Val)) (deflt : UInt32) (name : Bytes) (down : Bool) (life : Nat) : Prop :=
  (∃ n, LastFor es name down n ∧ life = n.getD (ttl deflt)) ∨
  ((∀ e ∈ es, ¬ UpToZero e.key name) ∧ down = isDown deflt ∧ life = ttl deflt)

/-- The update for something monitored: as it is (`direct`), or as one more result of a check. -/
def IsUpdate (direct : Bool) (m : FMon) (down : Bool) (life : Nat) (ev : Event) : Prop :=
  if direct = true then ∃ v, ev = .direct m.sidx v ∧ isDown v = down ∧ ttl v = life ∧ isForced v = false ∧ Valid v
  else ev = .result m.sidx (!down)

/-- A default that the configuration can have. -/
def IsDefault (v : UInt32) : Prop := isForced v = false ∧ Valid v

/-- No value has white space or signs in it. -/
def NoSigns (es : List (Entry Val)) : Prop :=
  ∀ e ∈ es, ∀ r t u, e.val = .simple r t → UpToZero t u → ∀ b ∈ u, Mon.isSpace b = false ∧ b ≠ 43 ∧ b ≠ 45

/-- What happened, the newest first: at a time, a change of the file was noticed, or the file was read. -/
inductive Did where
  | changed (at_ : Nat)
  | read (at_ : Nat)
deriving DecidableEq, Repr

/-- What happened, after one more event. -/
def logged (ev : FEv) (rd : Bool) (now : Nat) (h : List Did) : List Did :=
  let h' := if ev = .stat then .changed now :: h else h
  if rd = true then .read now :: h' else h'

/-- A run of the timer: when it expires, if it is active, and what happened until a time. -/
inductive FRun (direct : Bool) (interval start : Nat) : Option Nat → Nat → List Did → Prop
  | start : FRun direct interval start (fileTimer direct interval start) start []
  | step {timer now h timer' now' ev rd} : FRun direct interval start timer now h → now ≤ now' →
      fileStep direct interval timer now' ev = some (timer', rd) → FRun direct interval start timer' now' (logged ev rd now' h)

end Gdnsd.SvcSpec
