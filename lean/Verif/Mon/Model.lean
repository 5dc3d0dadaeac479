import Verif.Basic
/-
src/plugins/mon.c and mon.h: monitored-state values, the anti-flap counters, the
administrator's state file and the two state tables.

Not modelled: logging, the service checks themselves, stat()-ing the admin file (a
processed file is an event), `fnmatch` (a parameter), the vscf scanner (an event carries
the scanned contents).
-/
namespace Gdnsd.Mon

/-- `GDNSD_STTL_DOWN` (mon.h:40). -/
def DOWN : UInt32 := 0x80000000
/-- `GDNSD_STTL_FORCED` (mon.h:41). -/
def FORCED : UInt32 := 0x40000000
/-- `GDNSD_STTL_RESERVED_MASK` (mon.h:42). -/
def RESERVED : UInt32 := 0x30000000
/-- `GDNSD_STTL_TTL_MASK`, `GDNSD_STTL_TTL_MAX` (mon.h:43-44). -/
def TTLMASK : UInt32 := 0x0fffffff

/-- `gdnsd_sttl_min2` (mon.h:152-159). -/
def min2 (a b : UInt32) : UInt32 :=
  let a_ttl := a &&& TTLMASK
  let b_ttl := b &&& TTLMASK
  let state := (a ||| b) &&& (DOWN ||| FORCED)
  if a_ttl < b_ttl then state ||| a_ttl else state ||| b_ttl

/-- `gdnsd_sttl_min` (mon.h:164-171): `tbl` is the state table, `idx` the index array. A
read outside the table is undefined behaviour. -/
def minLoop (tbl : List UInt32) : List Nat → UInt32 → Outcome UInt32
  | [], rv => .ok rv
  | i :: is, rv =>
    match tbl[i]? with
    | some v => minLoop tbl is (min2 rv v)
    | none => .ub

/-- `gdnsd_sttl_min` (mon.h:164-171). -/
def sttlMin (tbl : List UInt32) (idx : List Nat) : Outcome UInt32 := minLoop tbl idx TTLMASK

/-! ### Parsing STATE[/TTL] -/

/-- ASCII `tolower` as used by `strncasecmp` in the C locale. -/
def lower (b : UInt8) : UInt8 := if 65 ≤ b ∧ b ≤ 90 then b + 32 else b

/-- `!strncasecmp(s, pat, strlen(pat))`; `pat` is lower case. Strings stop at their end
(the list has no NUL), so a shorter `s` does not match. -/
def casePrefix : Bytes → Bytes → Bool
  | _, [] => true
  | [], _ :: _ => false
  | x :: xs, p :: ps => lower x == p && casePrefix xs ps

/-- libc `isspace` in the C locale. -/
def isSpace (b : UInt8) : Bool := b == 32 || (9 ≤ b && b ≤ 13)

/-- libc digit test. -/
def isDigit (b : UInt8) : Bool := 48 ≤ b && b ≤ 57

/-- Digit accumulation of libc `strtoul(…, 10)`. -/
def digitsVal (ds : Bytes) : Nat := ds.foldl (fun n d => n * 10 + (d.toNat - 48)) 0

/-- libc `strtoul(s, &end, 10)` with a 64-bit `unsigned long`: skip white space, optional
sign, digits. Result: value and unparsed rest, or `none` for `ERANGE`. Without digits
`endptr` is the whole string. A minus sign negates modulo 2^64 (that is what C does). -/
def strtoul (s : Bytes) : Option (Nat × Bytes) :=
  let s1 := s.dropWhile isSpace
  let (neg, s2) := match s1 with
    | 45 :: t => (true, t)
    | 43 :: t => (false, t)
    | t => (false, t)
  let ds := s2.takeWhile isDigit
  if ds = [] then some (0, s)
  else if digitsVal ds < 2 ^ 64 then
    some (if neg then (2 ^ 64 - digitsVal ds) % 2 ^ 64 else digitsVal ds, s2.dropWhile isDigit)
  else none

/-- The TTL suffix in `gdnsd_mon_parse_sttl` (mon.c:174-192): `out` is the state so far,
the bytes are what follows UP or DOWN. The second `assert_valid_sttl` is kept as an
outcome. -/
def parseSuffix (out : UInt32) : Bytes → Outcome (Option UInt32)
  | [] => .ok (some out)
  | c :: rest =>
    if c = 47 ∧ rest ≠ [] then
      match strtoul rest with
      | some (v, []) =>
        if v ≤ TTLMASK.toNat then
          let out' := (out &&& ~~~TTLMASK) ||| UInt32.ofNat v
          if out' &&& RESERVED ≠ 0 then .ub else .ok (some out')
        else .ok none
      | _ => .ok none
    else .ok none

/-- `gdnsd_mon_parse_sttl` (mon.c:161-195) on the string's bytes before its NUL; `none` is
failure (C returns true). -/
def parseSttl (s : Bytes) (def_ttl : UInt32) : Outcome (Option UInt32) :=
  if def_ttl &&& RESERVED ≠ 0 then .ub
  else if casePrefix s [117, 112] then parseSuffix def_ttl (s.drop 2)
  else if casePrefix s [100, 111, 119, 110] then parseSuffix (def_ttl ||| DOWN) (s.drop 4)
  else .ok none

/-! ### Monitored resources -/

/-- Thresholds and interval of a service type (mon.c:39-49). Configuration bounds
(mon.c:686-689) are hypotheses of the theorems. -/
structure SvcType where
  up : Nat
  ok : Nat
  down : Nat
  interval : Nat
deriving Repr, DecidableEq

/-- `smgr_t` (mon.c:51-66). The counters are `unsigned` in C; here `Nat` (they stay below
the thresholds, proved as `Counters`), so subtraction cannot wrap. `type = none` for
resources registered by `gdnsd_mon_admin`. -/
structure Smgr where
  desc : Bytes
  type : Option SvcType
  nFail : Nat
  nSucc : Nat
  real : UInt32
deriving Repr, DecidableEq

/-- All of mon.c's mutable state: `smgrs`, the update-side table `smgr_sttl`, the table
readers see `smgr_sttl_consumer_` (mon.c:71-85), whether the table-update timer is active
(mon.c:94), the two flags (mon.c:90-91). -/
structure St where
  smgrs : List Smgr
  sttl : List UInt32
  cons : List UInt32
  timer : Bool
  initial : Bool
  nodelay : Bool
deriving Repr, DecidableEq

/-- `sttl_table_update` (mon.c:100-115): the pointers are swapped, then the table readers
now see is copied over the other. After a one-shot libev timer fires it is inactive. -/
def flush (s : St) : St :=
  let newCons := s.sttl
  { s with cons := newCons, sttl := newCons, timer := false }

/-- `kick_sttl_update_timer` (mon.c:121-130). -/
def kick (s : St) : St := if s.nodelay then flush s else { s with timer := true }

/-- `raw_sttl_update` (mon.c:727-758). -/
def rawUpdate (s : St) (idx : Nat) (new : UInt32) : Outcome St :=
  match s.smgrs[idx]?, s.sttl[idx]? with
  | some m, some cur =>
    if new &&& RESERVED ≠ 0 ∨ new &&& FORCED ≠ 0 then .ub
    else if s.initial then
      .ok { s with sttl := s.sttl.set idx new, smgrs := s.smgrs.set idx { m with real := new } }
    else if new ≠ m.real then
      let s1 := { s with smgrs := s.smgrs.set idx { m with real := new } }
      if new ≠ cur ∧ cur &&& FORCED = 0 then
        .ok (kick { s1 with sttl := s1.sttl.set idx new })
      else .ok s1
    else .ok s
  | _, _ => .ub

/-- The counter part of `gdnsd_mon_state_updater` (mon.c:787-823): counters and new
down flag. -/
def count (t : SvcType) (nFail nSucc : Nat) (down latest : Bool) : Nat × Nat × Bool :=
  if down then
    if latest then
      if nSucc + 1 = t.up then (0, 0, false) else (nFail, nSucc + 1, true)
    else (nFail, 0, true)
  else
    if latest then
      if nFail ≠ 0 then
        if nSucc + 1 = t.ok then (0, 0, false) else (nFail, nSucc + 1, false)
      else (nFail, nSucc, false)
    else
      if nFail + 1 = t.down then (0, 0, true) else (nFail + 1, 0, false)

/-- The TTL part of `gdnsd_mon_state_updater` (mon.c:826-833). `interval * count` is 32-bit
in C; at the configured bounds it is below 2^28. -/
def newSttl (t : SvcType) (nFail nSucc : Nat) (down : Bool) : UInt32 :=
  let n := if down then t.up - nSucc else t.down - nFail
  let v := UInt32.ofNat (t.interval * n)
  let v := if v > TTLMASK then TTLMASK else v
  if down then v ||| DOWN else v

/-- `gdnsd_mon_state_updater` (mon.c:766-836). A resource without a service type is a
null dereference. -/
def stateUpdate (s : St) (idx : Nat) (latest : Bool) : Outcome St :=
  match s.smgrs[idx]? with
  | none => .ub
  | some m =>
    match m.type with
    | none => .ub
    | some t =>
      if s.initial then
        if m.nFail ≠ 0 ∨ m.nSucc ≠ 0 then .ub
        else rawUpdate s idx (newSttl t 0 0 (!latest))
      else
        let c := count t m.nFail m.nSucc (m.real &&& DOWN != 0) latest
        rawUpdate { s with smgrs := s.smgrs.set idx { m with nFail := c.1, nSucc := c.2.1 } } idx
          (newSttl t c.1 c.2.1 c.2.2)

/-! ### Registration -/

/-- A fresh slot: `mon_thing` (mon.c:551-563) and `gdnsd_mon_admin` (mon.c:581-595).
`isDown`: the service type is the special "down". -/
def register (s : St) (desc : Bytes) (type : Option SvcType) (isDown : Bool) : St :=
  let real := if isDown then TTLMASK ||| DOWN else TTLMASK
  { s with smgrs := s.smgrs ++ [⟨desc, type, 0, 0, real⟩], sttl := s.sttl ++ [real], cons := s.cons ++ [real] }

/-! ### Administrator's state file -/

/-- libc `fnmatch(pattern, string, 0)`: `none` is an error other than `FNM_NOMATCH`. -/
abbrev Fnmatch := Bytes → Bytes → Option Bool

/-- `admin_process_entry` (mon.c:198-224); `none` is failure. -/
def processEntry (fnm : Fnmatch) (g : Bytes) (v : UInt32) : List Smgr → List UInt32 → Option (List UInt32)
  | m :: ms, u :: us =>
    match fnm g m.desc with
    | none => none
    | some true => (processEntry fnm g v ms us).map (v :: ·)
    | some false => (processEntry fnm g v ms us).map (u :: ·)
  | _, us => some us

/-- The scanned file: `none` when scanning failed or the top level is not a hash, else the
hash's entries in order; a value is `none` when it is not a simple string. -/
abbrev File := Option (List (Bytes × Option Bytes))

/-- First loop of `admin_process_hash` (mon.c:236-259): the update table, `none` on any
error. -/
def collect (fnm : Fnmatch) (ms : List Smgr) : List (Bytes × Option Bytes) → List UInt32 →
    Outcome (Option (List UInt32))
  | [], u => .ok (some u)
  | (_, none) :: _, _ => .ok none
  | (g, some str) :: es, u =>
    (parseSttl str TTLMASK).bind fun
      | none => .ok none
      | some v =>
        match processEntry fnm g (v ||| FORCED) ms u with
        | none => .ok none
        | some u' => collect fnm ms es u'

/-- Second loop of `admin_process_hash` (mon.c:264-279) at one slot: the new table value
and whether something changed. -/
def applySlot (u cur real : UInt32) : Outcome (UInt32 × Bool) :=
  if u ≠ 0 then
    if cur ≠ u then .ok (u, true) else .ok (cur, false)
  else if cur &&& FORCED ≠ 0 then
    if real &&& FORCED ≠ 0 then .ub else .ok (real, true)
  else .ok (cur, false)

/-- Second loop of `admin_process_hash` (mon.c:264-279). -/
def applyAll : List UInt32 → List UInt32 → List Smgr → Outcome (List UInt32 × Bool)
  | u :: us, c :: cs, m :: ms =>
    (applySlot u c m.real).bind fun r =>
      (applyAll us cs ms).bind fun rs => .ok (r.1 :: rs.1, r.2 || rs.2)
  | [], [], [] => .ok ([], false)
  | _, _, _ => .ub

/-- `admin_process_file` (mon.c:296-320) with `admin_process_hash` (mon.c:227-293), not
check-only: new state and whether the file was accepted. -/
def processFile (fnm : Fnmatch) (s : St) (f : File) : Outcome (St × Bool) :=
  match f with
  | none => .ok (s, false)
  | some es =>
    if s.smgrs = [] then .ok (s, true) else
    (collect fnm s.smgrs es (List.replicate s.smgrs.length 0)).bind fun
      | none => .ok (s, false)
      | some u =>
        (applyAll u s.sttl s.smgrs).bind fun r =>
          let s1 := { s with sttl := r.1 }
          .ok (if r.2 && !s.initial then kick s1 else s1, true)

/-- `admin_deleted_file` (mon.c:323-342): as applying an empty table. -/
def deletedFile (s : St) : Outcome St :=
  (applyAll (List.replicate s.smgrs.length 0) s.sttl s.smgrs).bind fun r =>
    let s1 := { s with sttl := r.1 }
    .ok (if r.2 then kick s1 else s1)

/-! ### Runs -/

/-- Runtime events: a check result, a direct update from a monitoring plugin, the admin
file was (re)loaded, the admin file vanished, the table-update timer fires. -/
inductive Event where
  | result (idx : Nat) (ok : Bool)
  | direct (idx : Nat) (v : UInt32)
  | file (f : File)
  | deleted
  | timer
deriving Repr, DecidableEq

/-- One runtime event (`gdnsd_mon_state_updater`, `gdnsd_mon_sttl_updater` mon.c:760-764,
`admin_timer_cb` mon.c:345-354, `sttl_table_update`). A timer event without an active
timer does not happen in libev; it is a no-op here. -/
def step (fnm : Fnmatch) (s : St) : Event → Outcome St
  | .result i b => stateUpdate s i b
  | .direct i v => rawUpdate s i v
  | .file f => (processFile fnm s f).bind fun r => .ok r.1
  | .deleted => deletedFile s
  | .timer => .ok (if s.timer then flush s else s)

def run (fnm : Fnmatch) : St → List Event → Outcome St
  | s, [] => .ok s
  | s, e :: es => (step fnm s e).bind fun s' => run fnm s' es

/-- `gdnsd_mon_start` (mon.c:416-458): one initial round of results (in any order, and
possibly direct updates), the admin file if it exists, then a table update. `s0` is the
state after registration. -/
def start (fnm : Fnmatch) (s0 : St) (round : List Event) (admin : Option File) : Outcome St :=
  (run fnm { s0 with initial := true } round).bind fun s1 =>
    (match admin with
      | some f => (processFile fnm s1 f).bind fun r => .ok r.1
      | none => .ok s1).bind fun s2 =>
        .ok (flush { s2 with initial := false })

end Gdnsd.Mon
