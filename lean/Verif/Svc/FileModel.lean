/-
src/plugins/extfile.c: service types whose states are read from a file.

`vscf_scan_filename` is what Verif/Vscf gives, `qsort` and `bsearch` are parameters with the contract of the C library (as
hypotheses). Updates are the events of Verif/Mon. Time is in hundredths of a second. Not modelled: log messages, how libev
notices a change of the file.
-/
import Verif.Svc.ReqModel
namespace Gdnsd.Svc
open Vscf Conf

/-- `extf_mon_t` (src/plugins/extfile.c:53-57); `midx` is the place in the list. -/
structure FMon where
  name : Bytes
  sidx : Nat
deriving DecidableEq, Repr

/-- `extf_svc_t` (src/plugins/extfile.c:59-70), what is used here. -/
structure FSvc where
  direct : Bool
  deflt : UInt32
  mons : List FMon
deriving DecidableEq, Repr

/-- `qsort` with `moncmp` (src/plugins/extfile.c:153-159, 320-324). -/
abbrev Sorter := List FMon → List FMon

/-- `bsearch` with `moncmp` (src/plugins/extfile.c:176-177): the place of an element with this name. -/
abbrev Search := List FMon → Bytes → Option Nat

/-- `process_entry` (src/plugins/extfile.c:161-187); `none` is false. -/
def entryOf (bs : Search) (svc : FSvc) (e : Entry Val) (res : List UInt32) : Outcome (Option (List UInt32)) :=
  match e.val with
  | .simple _ t =>
    (Mon.parseSttl (cstr t) (svc.deflt &&& Mon.TTLMASK)).map fun
    | none => none
    | some v =>
      match bs svc.mons (cstr e.key) with
      | some i => some (res.set i v)
      | none => some res
  | _ => .ok none

/-- The loop over the entries of the file (src/plugins/extfile.c:217-226). -/
def entries (bs : Search) (svc : FSvc) : List (Entry Val) → List UInt32 → Outcome (Option (List UInt32))
  | [], res => .ok (some res)
  | e :: es, res =>
    (entryOf bs svc e res).bind fun
    | none => .ok none
    | some res' => entries bs svc es res'

/-- The defaults (src/plugins/extfile.c:231-237). -/
def defaults (svc : FSvc) : List UInt32 → Outcome (List UInt32)
  | [] => .ok []
  | v :: vs =>
    if v &&& Mon.FORCED ≠ 0 then
      let v' := v &&& ~~~Mon.FORCED
      (assert (v' == svc.deflt)).bind fun _ => (defaults svc vs).map (v' :: ·)
    else (defaults svc vs).map (v :: ·)

/-- An update (src/plugins/extfile.c:238-243). -/
def update (direct : Bool) (m : FMon) (v : UInt32) : Mon.Event :=
  if direct = true then .direct m.sidx v else .result m.sidx (v &&& Mon.DOWN == 0)

/-- `process_file` (src/plugins/extfile.c:189-250). -/
def processFile (bs : Search) (svc : FSvc) (scan : Option Val) : Outcome (List Mon.Event) :=
  if svc.mons.length = 0 then .ok []
  else
    match scan with
    | some (.hash es) =>
      (entries bs svc es (List.replicate svc.mons.length (svc.deflt ||| Mon.FORCED))).bind fun
      | none => .ok []
      | some res => (defaults svc res).map fun vs => List.zipWith (update svc.direct) svc.mons vs
    | _ => .ok []

/-- `plugin_extfile_init_monitors` for one service type (src/plugins/extfile.c:311-327): the list is sorted, and the file is
read for the first time. -/
def initSvc (qsort : Sorter) (bs : Search) (svc : FSvc) (scan : Option Val) : Outcome (FSvc × List Mon.Event) :=
  let svc' := { svc with mons := qsort svc.mons }
  (processFile bs svc' scan).map fun evs => (svc', evs)

/-- What a service type of the configuration monitors (`plugin_extfile_add_mon_cname` and `_addr`,
src/plugins/extfile.c:128-151). -/
def fileSvc (s : Stype) (ws : List Watch) : Option FSvc :=
  match s.kind with
  | .extfile _ d v => some ⟨d, v, (ws.filter fun w => w.svc == s).map fun w => ⟨w.text, w.idx⟩⟩
  | _ => none

/-! ### When the file is read -/

/-- What happens at a time: libev says that the file changed, or that the timer has expired. -/
inductive FEv where
  | stat
  | expired
deriving DecidableEq, Repr

/-- The timer `time_watcher` at first (`start_svc`, src/plugins/extfile.c:280-303): with `direct` it is not started. -/
def fileTimer (direct : Bool) (interval now : Nat) : Option Nat := if direct = true then none else some (now + interval * 100)

/-- `file_cb` (src/plugins/extfile.c:265-278, without GDNSD_TESTSUITE_NODELAY) and `timer_cb` (:252-263): when the timer expires
next, if it is active, and whether the file is read. With `direct` the timer is `ev_timer_again` of 1.02 seconds, and stopped
when it has expired; else it repeats (libev: the next time is the last one plus the interval, if that is not over). `none`:
libev does not do this. -/
def fileStep (direct : Bool) (interval : Nat) (timer : Option Nat) (now : Nat) : FEv → Option (Option Nat × Bool)
  | .stat => if direct = true then some (some (now + 102), false) else none
  | .expired =>
    match timer with
    | none => none
    | some d =>
      if now < d then none
      else if direct = true then some (none, true)
      else some (some (max (d + interval * 100) now), true)

end Gdnsd.Svc
