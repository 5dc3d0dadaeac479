/-
src/main.c, libgdnsd/paths.c: the command line and the directories.
-/
import Verif.Conf.Model
open Gdnsd.Conf (str)
namespace Gdnsd.Args

/-! ### The command line -/

/-- What options set (src/main.c:362-378, 385-413): `-c` with its argument, `-D`, `-l`, `-S`, `-R`, `-i`, and the three that were removed. -/
structure Opts where
  cfg : Option Bytes
  debug : Bool
  syslog : Bool
  strict : Bool
  replace : Bool
  idem : Bool
  dead : Bool × Bool × Bool
deriving Repr, DecidableEq

def Opts.init : Opts := ⟨none, false, false, false, false, false, (false, false, false)⟩

/-- An option without argument (src/main.c:389-413). -/
def flag (c : UInt8) (o : Opts) : Option Opts :=
  if c = 0x44 then some { o with debug := true }
  else if c = 0x6C then some { o with syslog := true }
  else if c = 0x53 then some { o with strict := true }
  else if c = 0x52 then some { o with replace := true }
  else if c = 0x69 then some { o with idem := true }
  else if c = 0x66 then some { o with dead := (true, o.dead.2.1, o.dead.2.2) }
  else if c = 0x73 then some { o with dead := (o.dead.1, true, o.dead.2.2) }
  else if c = 0x78 then some { o with dead := (o.dead.1, o.dead.2.1, true) }
  else none

/-- An argument that begins with `-`, without it: the options, and what follows a `c` if there is one. `none` if one is unknown. -/
def cluster : Bytes → Opts → Option (Opts × Option Bytes)
  | [], o => some (o, none)
  | c :: cs, o => if c = 0x63 then some (o, some cs) else (flag c o).bind (cluster cs)

/-- `getopt` with the options `c:DlSRifsx` as glibc has it, which also finds options after other arguments: the options and the other arguments, or `usage`. -/
def scan : List Bytes → Opts → Option (Opts × List Bytes)
  | [], o => some (o, [])
  | a :: rest, o =>
    if a = [0x2D, 0x2D] then some (o, rest)
    else match a with
      | 0x2D :: c :: cs =>
        match cluster (c :: cs) o with
        | none => none
        | some (o, none) => scan rest o
        | some (o, some (x :: xs)) => scan rest { o with cfg := some (x :: xs) }
        | some (o, some []) => match rest with
          | [] => none
          | b :: rest => scan rest { o with cfg := some b }
      | _ => (scan rest o).map fun r => (r.1, a :: r.2)
termination_by l => l.length

inductive Action where
  | check
  | start
  | daemonize
deriving Repr, DecidableEq

/-- `tolower` of `strcasecmp`. -/
def lower (b : UInt8) : UInt8 := if 0x41 ≤ b ∧ b ≤ 0x5A then b + 0x20 else b

/-- The name of an action (src/main.c:415-427). -/
def action (a : Bytes) : Option Action :=
  if a.map lower = str "checkconf" then some .check
  else if a.map lower = str "start" then some .start
  else if a.map lower = str "daemonize" then some .daemonize
  else none

/-- `parse_args` (src/main.c:380-434) with the check of `main` (src/main.c:655-656): `none` is `usage`, which ends the process with status 2. -/
def parse (args : List Bytes) : Option (Opts × Action) :=
  (scan args Opts.init).bind fun r =>
  match r.2 with
  | [a] => (action a).bind fun act =>
    if r.1.replace = true ∧ r.1.idem = true then none
    else some (if act = .daemonize then { r.1 with syslog := true } else r.1, act)
  | _ => none

/-! ### Directories -/

/-- What is at a path: nothing, a directory or something else, with owner and mode. -/
inductive Node where
  | none
  | dir (owner mode : Nat)
  | other (owner mode : Nat)
deriving Repr, DecidableEq

/-- `mkdir` by that user with `umask(022)` (src/main.c:634): whether it succeeds, and if not whether the reason is that something is there. -/
inductive Made where
  | ok (n : Node)
  | exists_
  | failed
deriving Repr, DecidableEq

def mkdir (uid : Nat) (may : Bool) (n : Node) (mode : Nat) : Made :=
  match n with
  | .none => if may = true then .ok (.dir uid (mode &&& (0o777 ^^^ 0o022))) else .failed
  | _ => .exists_

/-- `chmod`: for the owner and the superuser. -/
def chmod (uid : Nat) (n : Node) (mode : Nat) : Option Node :=
  match n with
  | .none => Option.none
  | .dir o _ => if uid = 0 ∨ uid = o then some (.dir o mode) else Option.none
  | .other o _ => if uid = 0 ∨ uid = o then some (.other o mode) else Option.none

/-- `gdnsd_ensure_dir` (libgdnsd/paths.c:58-69): what is there then, and whether the process goes on. -/
def ensure (uid : Nat) (may : Bool) (n : Node) (mode : Nat) (force : Bool) : Node × Bool :=
  match mkdir uid may n mode with
  | .ok n => (n, true)
  | .failed => (n, false)
  | .exists_ =>
    match (if force = true then chmod uid n mode else some n) with
    | Option.none => (n, false)
    | some n => match n with
      | .dir _ _ => (n, true)
      | _ => (n, false)

/-- The directories of `gdnsd_init_paths` (libgdnsd/paths.c:152-155), that of the run and that of the state. -/
def dirs (uid : Nat) (create : Bool) (mayRun mayState : Bool) (run state : Node) : Node × Node × Bool :=
  if create = true then
    let r := ensure uid mayRun run 0o700 true
    if r.2 = true then
      let s := ensure uid mayState state 0o755 false
      (r.1, s.1, s.2)
    else (r.1, state, false)
  else (run, state, true)

/-- `gdnsd_resolve_path` (libgdnsd/paths.c:172-193). -/
def resolve (dir : Bytes) (inpath pfx : Option Bytes) : Bytes :=
  match inpath, pfx with
  | some (0x2F :: p), _ => 0x2F :: p
  | some i, some p => dir ++ [0x2F] ++ p ++ [0x2F] ++ i
  | Option.none, some p => dir ++ [0x2F] ++ p
  | some i, Option.none => dir ++ [0x2F] ++ i
  | Option.none, Option.none => dir

end Gdnsd.Args
