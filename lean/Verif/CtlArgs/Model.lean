/-
src/gdnsdctl.c: the command line of gdnsdctl.
-/
import Verif.Ctl.Model
import Verif.Mon.Model
open Gdnsd.Conf (str)
namespace Gdnsd.CtlArgs

/-- What options set (src/gdnsdctl.c:47-53). -/
structure Opts where
  cfg : Option Bytes
  tcp : Option Bytes
  debug : Bool
  syslog : Bool
  oneshot : Bool
  ignoreDead : Bool
  timeo : Nat
deriving Repr, DecidableEq

/-- The defaults (src/gdnsdctl.c:44, 47-53). -/
def Opts.init : Opts := ⟨none, none, false, false, false, false, 47⟩

/-- An option without argument (src/gdnsdctl.c:407-418). -/
def flag (c : UInt8) (o : Opts) : Option Opts :=
  if c = 0x44 then some { o with debug := true }
  else if c = 0x6C then some { o with syslog := true }
  else if c = 0x6F then some { o with oneshot := true }
  else if c = 0x69 then some { o with ignoreDead := true }
  else none

/-- The options with an argument in `c:s:Dloit:` (src/gdnsdctl.c:399). -/
def takes (c : UInt8) : Bool := c == 0x63 || c == 0x73 || c == 0x74

/-- The timeout (src/gdnsdctl.c:420-424); `errno` is set for numbers of more than 64 bits only, as glibc has it. -/
def timeout (v : Bytes) : Option Nat :=
  match Mon.strtoul v with
  | none => none
  | some (n, _) => if n < 5 ∨ n > 300 then none else some n

/-- An option with its argument (src/gdnsdctl.c:401-406, 419-425); `none` is `usage`. -/
def arg (c : UInt8) (v : Bytes) (o : Opts) : Option Opts :=
  if c = 0x63 then some { o with cfg := some v }
  else if c = 0x73 then some { o with tcp := some v }
  else (timeout v).map fun n => { o with timeo := n }

/-- An argument that begins with `-`, without it: the options, and the one that takes an argument with what follows it. -/
def cluster : Bytes → Opts → Option (Opts × Option (UInt8 × Bytes))
  | [], o => some (o, none)
  | c :: cs, o => if takes c = true then some (o, some (c, cs)) else (flag c o).bind (cluster cs)

/-- `getopt` with POSIXLY_CORRECT (src/gdnsdctl.c:395-436, 447), which ends at the first other argument or behind `--`: the options and all that follows, or `usage`. -/
def scan : List Bytes → Opts → Option (Opts × List Bytes)
  | [], o => some (o, [])
  | a :: rest, o =>
    if a = [0x2D, 0x2D] then some (o, rest)
    else match a with
      | 0x2D :: c :: cs =>
        match cluster (c :: cs) o with
        | none => none
        | some (o, none) => scan rest o
        | some (o, some (k, x :: xs)) => match arg k (x :: xs) o with
          | none => none
          | some o => scan rest o
        | some (o, some (k, [])) => match rest with
          | [] => none
          | b :: rest => match arg k b o with
            | none => none
            | some o => scan rest o
      | _ => some (o, a :: rest)
termination_by l => l.length

/-- `parse_args` (src/gdnsdctl.c:395-436): the options, the action and its arguments; `none` is `usage`, which ends the process with status 2. -/
def parse (args : List Bytes) : Option (Opts × Bytes × List Bytes) :=
  (scan args Opts.init).bind fun r =>
  match r.2 with
  | [] => none
  | a :: rest => some (r.1, a, rest)

/-- The program (src/gdnsdctl.c:438-487) with its command line; connections as in Verif.Ctl.Model. -/
def run (version : Nat) (args : List Bytes) (ts : List Ctl.Try) : Outcome (Ctl.End × List (List Ctl.Chan)) :=
  match parse args with
  | none => .ok (.exit 2 [] none, [])
  | some (o, a, rest) => Ctl.main ⟨version, o.oneshot, o.ignoreDead⟩ a rest ts

end Gdnsd.CtlArgs
