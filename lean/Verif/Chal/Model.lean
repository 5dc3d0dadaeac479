/-
Model of ACME DNS-01 challenges (src/chal.c) and of their hand-off to a replacement
daemon (src/main.c:328-360).

Times are in milliseconds of one clock that does not go back; `ev_now` is a floating point
number of seconds. It is constant within one iteration of the event loop. The hash
function is a parameter. Memory is sequentially consistent. Not modelled: logging, the
control socket that transports the data.
-/
import Verif.Dname.Model
namespace Gdnsd.Chal

/-- `CHAL_MAX_COUNT` (src/chal.h:49). -/
def MAX_COUNT : Nat := 100
/-- `CHAL_MAX_DLEN` (src/chal.h:50). -/
def MAX_DLEN : Nat := 28400
/-- `CHAL_MAX_SERIAL` (src/chal.c:97). -/
def MAX_SERIAL : Nat := MAX_DLEN + 5
/-- `CHAL_COLLIDE_SANITY_MAX` (src/chal.c:84). -/
def COLLIDE_MAX : Nat := 200
/-- `TIME_FUDGE` (src/chal.c:101), in milliseconds. -/
def FUDGE : Nat := 3200

/-- `acme_challenge_ttl`, `acme_challenge_dns_ttl` (src/conf.c:296-297) and the hash
function `hash_mm3_u32`. -/
structure Cfg where
  ttl : Nat
  dnsTtl : Nat
  hash : Bytes → Nat

/-- `dname_hash` (src/chal.c:103-109). -/
def dnameHash (cfg : Cfg) : Bytes → Nat
  | [] => 0
  | l :: r => cfg.hash (r.take (l.toNat - 1))

/-- `chal_t` (src/chal.c:111-116). -/
structure Chal where
  hash : Nat
  name : Bytes
  txt : Bytes
deriving Repr, DecidableEq

/-- `cset_t` (src/chal.c:118-127), without the link. -/
structure Cset where
  chals : List Chal
  expiry : Nat
deriving Repr, DecidableEq

/-! ### Parsing -/

/-- `mk_chal_rr` (src/chal.c:302-316). -/
def mkRR (cfg : Cfg) (payload : Bytes) : Bytes :=
  [0, 16, 0, 1] ++
  [UInt8.ofNat (cfg.dnsTtl / 16777216), UInt8.ofNat (cfg.dnsTtl / 65536), UInt8.ofNat (cfg.dnsTtl / 256), UInt8.ofNat cfg.dnsTtl] ++
  [0, 44] ++ [43] ++ payload

/-- `dname_copy` (include/gdnsd/dname.h:252-259). -/
def copyName (d : Bytes) : Outcome Bytes :=
  (rd d 0).bind fun l =>
    (assert (decide (0 < l.toNat))).bind fun _ =>
      if l.toNat + 1 ≤ d.length then .ok (d.take (l.toNat + 1)) else .ub

/-- The loop of `cset_create` (src/chal.c:335-363). `data` is the buffer of `dlen` bytes.
`none`: the data are refused. The result is the challenges and the final `didx`. -/
def parse (cfg : Cfg) (data : Bytes) (dlen : Nat) : Nat → Nat → Outcome (Option (List Chal × Nat))
  | 0, didx => .ok (some ([], didx))
  | n + 1, didx =>
    (assert (decide (didx ≤ dlen))).bind fun _ =>
    (Dname.statusBuflen (data.drop didx) (dlen - didx)).bind fun st =>
      if st = .invalid then .ok none else
        (copyName (data.drop didx)).bind fun copy =>
        (Dname.terminate copy).bind fun name =>
        (rd data didx).bind fun l =>
          let didx := didx + (l.toNat + 1)
          (assert (decide (didx ≤ dlen))).bind fun _ =>
            if dlen - didx < 44 then .ok none
            else if data.length < didx + 44 then .ub
            else (parse cfg data dlen n (didx + 44)).map fun o => o.map fun r =>
              (⟨dnameHash cfg name, name, mkRR cfg ((data.drop didx).take 43)⟩ :: r.1, r.2)

/-! ### The hash table -/

/-- A pointer to a challenge: the set and its place in it. -/
abbrev Ref := Nat × Nat

/-- `chal_tbl_t` with its slots (src/chal.c:142-158). -/
structure Tbl where
  mask : Nat
  slots : List (List Ref)
deriving Repr, DecidableEq

/-- `count2mask` (include/gdnsd/misc.h:89-114). -/
def count2mask (x : Nat) : Nat := 2 ^ (Nat.log2 (x ||| 1) + 1) - 1

/-- One iteration of `chal_tbl_hash_cset` (src/chal.c:180-193). `none`: refused. -/
def hashOne (t : Tbl) (check : Bool) (hash : Nat) (r : Ref) : Outcome (Option Tbl) :=
  match t.slots[hash &&& t.mask]? with
  | none => .ub
  | some slot =>
    .ok (if check = true ∧ COLLIDE_MAX < slot.length then none
         else some { t with slots := t.slots.set (hash &&& t.mask) (slot ++ [r]) })

/-- `chal_tbl_hash_cset` (src/chal.c:175-197), from challenge `i` of set `id` on. -/
def hashCset (t : Tbl) (check : Bool) (id : Nat) : Nat → List Chal → Outcome (Option Tbl)
  | _, [] => .ok (some t)
  | i, c :: cs => (hashOne t check c.hash (id, i)).bind fun
      | none => .ok none
      | some t => hashCset t check id (i + 1) cs

/-- The sets: `none` was freed. -/
abbrev Heap := List (Option Cset)

/-- A set is read. -/
def getSet (h : Heap) (id : Nat) : Outcome Cset :=
  match h[id]? with
  | some (some s) => .ok s
  | _ => .ub

/-- The first loop of `chal_tbl_create` (src/chal.c:208-212). -/
def countAll (h : Heap) : List Nat → Outcome Nat
  | [] => .ok 0
  | id :: l => (getSet h id).bind fun s => (countAll h l).map fun n => s.chals.length + n

/-- The second loop of `chal_tbl_create` (src/chal.c:218-222); the result of unchecked
insertions is ignored. -/
def hashAll (h : Heap) (t : Tbl) : List Nat → Outcome Tbl
  | [] => .ok t
  | id :: l => (getSet h id).bind fun s => (hashCset t false id 0 s.chals).bind fun o => hashAll h (o.getD t) l

/-- `chal_tbl_create` (src/chal.c:199-234), for the list of sets from the oldest on and
possibly one to be added. `none` is NULL. Counts are 32 bits wide. -/
def tblCreate (h : Heap) (ids : List Nat) (adding : Option (Nat × Cset)) : Outcome (Option Tbl) :=
  (countAll h ids).bind fun n =>
    let total := (n + adding.elim 0 fun a => a.2.chals.length) % 4294967296
    if total = 0 then .ok none else
      let mask := count2mask (total * 2 % 4294967296)
      (hashAll h ⟨mask, List.replicate ((mask + 1) % 4294967296) []⟩ ids).bind fun t =>
        match adding with
        | none => .ok (some t)
        | some (id, s) => hashCset t true id 0 s.chals

/-! ### The daemon -/

/-- Recorded at the moment when a lookup reads `chal_tbl`, only to state properties: the
time, whether the timer is overdue, and the accepted sets since the last flush with
their times. -/
structure Snap where
  now : Nat
  due : Bool
  log : List (Nat × Cset)

/-- Where a lookup is (`chal_respond`, src/chal.c:464-508): outside of any read-side
critical section; inside; before entry `i` of the slot, with what was found so far; done. -/
inductive Phase where
  | off
  | on (key : Bytes)
  | scan (key : Bytes) (t i : Nat) (acc : List Bytes) (snap : Snap)
  | got (key : Bytes) (acc : List Bytes) (snap : Snap)

/-- Who called `chal_tbl_swap_and_free`. -/
inductive Why where
  | add
  | expire
  | flush
deriving DecidableEq

/-- Where the main thread is in `chal_tbl_swap_and_free` (src/chal.c:237-244) and after it:
the old table, and how many of the oldest sets are to be freed. -/
inductive Writer where
  | idle
  /-- `chal_tbl` assigned. -/
  | swapped (why : Why) (old : Option Nat) (k : Nat)
  /-- In `synchronize_rcu`, waiting for these readers. -/
  | wait (why : Why) (old : Option Nat) (k : Nat) (ws : List Nat)

/-- The file's global variables and memory. `live` is the linked list from `oldest` to
`newest`. Recorded to state properties: `made`: for each table the challenges it was made
from and the sets they are in; `log`: the accepted sets since the last flush with their
times. -/
structure State where
  sets : Heap
  live : List Nat
  tbls : List (Option Tbl)
  cur : Option Nat
  timer : Option Nat
  now : Nat
  writer : Writer
  readers : List Phase
  made : List (List Nat × List Chal)
  log : List (Nat × Cset)

/-- See `Snap`. -/
def State.snap (s : State) : Snap := ⟨s.now, s.timer.any (· ≤ s.now), s.log⟩

/-- What can happen. -/
inductive Action where
  /-- `cset_create` (src/chal.c:318-389), called for a control socket client with
  `ttlRemain = 0` (src/css.c:594) or for a hand-off (src/main.c:354). -/
  | create (ttlRemain count dlen : Nat) (data : Bytes)
  /-- The expiry timer fires: `cset_expire` (src/chal.c:246-278). -/
  | fire
  | flush
  | sync
  | finish
  | advance (ms : Nat)
  | enter (r : Nat) (key : Bytes)
  | load (r : Nat)
  | look (r : Nat)
  | leave (r : Nat)

/-- Whether the main thread is in its event loop. -/
def Writer.isIdle : Writer → Bool
  | .idle => true
  | _ => false

/-- A reader passes a quiescent state. -/
def Writer.quiesce (r : Nat) : Writer → Writer
  | .wait w o k ws => .wait w o k (ws.filter (· ≠ r))
  | w => w

/-- Readers inside a critical section. -/
def online (rs : List Phase) : List Nat :=
  (List.range rs.length).filter fun i => match rs[i]? with | some .off => false | some _ => true | none => false

/-- A reader moves on. -/
def State.setReader (s : State) (r : Nat) (p : Phase) : State := { s with readers := s.readers.set r p }

/-- `rcu_assign_pointer(chal_tbl, …)` (src/chal.c:237-241). -/
def State.swap (s : State) (why : Why) (t : Option Tbl) (k : Nat) (content : List Nat × List Chal) : State :=
  match t with
  | none => { s with cur := none, writer := .swapped why s.cur k }
  | some t => { s with tbls := s.tbls ++ [some t], made := s.made ++ [content], cur := some s.tbls.length, writer := .swapped why s.cur k }

/-- The challenges of a list of sets (for `made`). -/
def allChals (h : Heap) (ids : List Nat) : List Chal := ids.flatMap fun id => (h[id]?.join).elim [] Cset.chals

/-- The lifetime that a set gets (src/chal.c:327-329), in seconds. -/
def lifetime (cfg : Cfg) (ttlRemain : Nat) : Nat := if ttlRemain = 0 ∨ cfg.ttl < ttlRemain then cfg.ttl else ttlRemain

/-- `cset_create` (src/chal.c:318-389) up to the swap. `none`: refused. -/
def create (cfg : Cfg) (s : State) (ttlRemain count dlen : Nat) (data : Bytes) : Outcome (Option State) :=
  if count = 0 ∨ dlen = 0 ∨ MAX_COUNT < count ∨ MAX_DLEN < dlen then .ok none else
    (parse cfg data dlen count 0).bind fun
      | none => .ok none
      | some (chals, didx) =>
        if didx ≠ dlen then .ok none else
          let cset : Cset := ⟨chals, s.now + 1000 * lifetime cfg ttlRemain⟩
          let id := s.sets.length
          (tblCreate s.sets s.live (some (id, cset))).bind fun
            | none => .ok none
            | some t =>
              let s1 := { s with
                sets := s.sets ++ [some cset]
                live := s.live ++ [id]
                timer := if s.live = [] then some (s.now + 1000 * cfg.ttl) else s.timer
                log := s.log ++ [(s.now, cset)] }
              .ok (some (s1.swap .add (some t) 0 (s1.live, allChals s1.sets s1.live)))

/-- The sets to be expired (src/chal.c:254-256), counted. -/
def expired (h : Heap) (cutoff : Nat) : List Nat → Outcome Nat
  | [] => .ok 0
  | id :: l => (getSet h id).bind fun c => if c.expiry ≤ cutoff then (expired h cutoff l).map (· + 1) else .ok 0

/-- `free` of sets. -/
def freeSets (h : Heap) : List Nat → Outcome Heap
  | [] => .ok h
  | id :: l => (getSet h id).bind fun _ => freeSets (h.set id none) l

/-- `chal_tbl_destruct` (src/chal.c:165-171). -/
def freeTbl (tbls : List (Option Tbl)) : Option Nat → Outcome (List (Option Tbl))
  | none => .ok tbls
  | some t =>
    match tbls[t]? with
    | some (some _) => .ok (tbls.set t none)
    | _ => .ub

/-- After `synchronize_rcu`: the old table and the sets are freed (src/chal.c:242-243,
266-270, 286-290), and the timer is started again or stopped (272-277, 293-297). The
second loop of `cset_expire` finds the same sets as the first one. -/
def finish (s : State) (why : Why) (old : Option Nat) (k : Nat) : Outcome (Option State) :=
  (freeTbl s.tbls old).bind fun tbls =>
  (freeSets s.sets (s.live.take k)).bind fun sets =>
    let s1 := { s with tbls := tbls, sets := sets, live := s.live.drop k, writer := .idle }
    match why with
    | .add => .ok (some s1)
    | .flush => .ok (some { s1 with timer := none })
    | .expire =>
      match s1.live with
      | [] => .ok (some { s1 with timer := none })
      | id :: _ => (getSet sets id).bind fun c => .ok (some { s1 with timer := some (s.now + (c.expiry - s.now)) })

/-- `&chal` is read. -/
def getChal (h : Heap) (r : Ref) : Outcome Chal :=
  (getSet h r.1).bind fun s => match s.chals[r.2]? with | some c => .ok c | none => .ub

/-- One iteration of the loop of `chal_respond` (src/chal.c:488-505) for a TXT request, with
room in the packet: see `Lookup.chalRespond` for the rest of the function. -/
def look (cfg : Cfg) (s : State) (key : Bytes) (t i : Nat) (acc : List Bytes) (snap : Snap) : Outcome Phase :=
  match s.tbls[t]? with
  | some (some tbl) =>
    match tbl.slots[dnameHash cfg key &&& tbl.mask]? with
    | none => .ub
    | some slot =>
      match slot[i]? with
      | none => .ok (.got key acc snap)
      | some r =>
        (getChal s.sets r).bind fun c =>
          (if c.hash = dnameHash cfg key then (Dname.cmp key c.name).map (· == 0) else .ok false).map fun m =>
            .scan key t (i + 1) (if m then acc ++ [c.txt] else acc) snap
  | _ => .ub

/-- One step. `none`: not possible now, or refused. -/
def step (cfg : Cfg) (s : State) : Action → Outcome (Option State)
  | .create ttlRemain count dlen data => if s.writer.isIdle then create cfg s ttlRemain count dlen data else .ok none
  | .fire =>
    if s.writer.isIdle = true ∧ s.timer.any (· ≤ s.now) = true then
      (expired s.sets (s.now + FUDGE) s.live).bind fun k =>
        (tblCreate s.sets (s.live.drop k) none).bind fun t =>
          .ok (some (({ s with timer := none } : State).swap .expire t k (s.live.drop k, allChals s.sets (s.live.drop k))))
    else .ok none
  | .flush => .ok (if s.writer.isIdle then some (({ s with log := [] } : State).swap .flush none s.live.length ([], [])) else none)
  | .sync =>
    match s.writer with
    | .swapped w o k => .ok (some { s with writer := .wait w o k (online s.readers) })
    | _ => .ok none
  | .finish =>
    match s.writer with
    | .wait w o k [] => finish s w o k
    | _ => .ok none
  | .advance ms => .ok (if s.writer.isIdle then some { s with now := s.now + ms } else none)
  | .enter r key =>
    match s.readers[r]? with
    | some .off => .ok (some (s.setReader r (.on key)))
    | some (.got ..) => .ok (some (s.setReader r (.on key)))
    | _ => .ok none
  | .load r =>
    match s.readers[r]? with
    | some (.on key) =>
      match s.cur with
      | none => .ok (some (s.setReader r (.got key [] s.snap)))
      | some t => .ok (some (s.setReader r (.scan key t 0 [] s.snap)))
    | _ => .ok none
  | .look r =>
    match s.readers[r]? with
    | some (.scan key t i acc snap) => (look cfg s key t i acc snap).map fun p => some (s.setReader r p)
    | _ => .ok none
  | .leave r =>
    match s.readers[r]? with
    | some _ => .ok (some { s.setReader r .off with writer := s.writer.quiesce r })
    | none => .ok none

/-- At startup (src/chal.c:129-162, chal_init 510-517). -/
def init (readers now : Nat) : State :=
  { sets := [], live := [], tbls := [], cur := none, timer := none, now := now, writer := .idle, readers := List.replicate readers .off
    made := [], log := [] }

/-! ### Hand-off -/

/-- A 16-bit number in host byte order (little-endian), as `gdnsd_put_una16` stores it. -/
def le16 (n : Nat) : Bytes := [UInt8.ofNat n, UInt8.ofNat (n / 256)]

/-- The challenges part of `cset_serialize` (src/chal.c:413-422). -/
def serChals : List Chal → Outcome Bytes
  | [] => .ok []
  | c :: cs =>
    (Dname.status c.name).bind fun st =>
    (assert (decide (st = .valid))).bind fun _ =>
    (copyName c.name).bind fun name =>
      (if 54 ≤ c.txt.length then Outcome.ok ((c.txt.drop 11).take 43) else .ub).bind fun p =>
        (serChals cs).map fun rest => name ++ p ++ [0] ++ rest

/-- `cset_serialize` (src/chal.c:391-432). -/
def serCset (cfg : Cfg) (now : Nat) (s : Cset) : Outcome Bytes :=
  (assert (decide (s.chals.length ≤ MAX_COUNT))).bind fun _ =>
  (assert (decide (s.chals.length ≠ 0))).bind fun _ =>
  (assert (decide (now < s.expiry))).bind fun _ =>
  (assert (decide (cfg.ttl ≤ 65535))).bind fun _ =>
    let remain := if 1000 * cfg.ttl < s.expiry - now then cfg.ttl else (s.expiry - now) / 1000 % 65536
    (serChals s.chals).bind fun b =>
      (assert (decide (5 < b.length + 5))).bind fun _ =>
      (assert (decide (b.length + 5 ≤ MAX_SERIAL))).bind fun _ =>
      (assert (decide (b.length ≤ 65535))).bind fun _ =>
        .ok (le16 b.length ++ le16 remain ++ [UInt8.ofNat s.chals.length] ++ b)

/-- The loop of `csets_serialize` (src/chal.c:434-461), with `ct` and `used`, and the
allocated size of the buffer. -/
def serLoop (cfg : Cfg) (h : Heap) (now : Nat) : List Nat → Nat → Nat → Bytes → Outcome (Nat × Bytes)
  | [], ct, _, out => .ok (ct, out)
  | id :: l, ct, allocated, out =>
    (getSet h id).bind fun s =>
      if now + FUDGE < s.expiry then
        if 0xFFFFFF ≤ ct + 1 ∨ 4294967295 < out.length + MAX_SERIAL then .ok (ct, out) else
          let allocated := if allocated < out.length + MAX_SERIAL then allocated + MAX_SERIAL else allocated
          (serCset cfg now s).bind fun b =>
            (assert (decide (out.length + b.length ≤ allocated))).bind fun _ => serLoop cfg h now l (ct + 1) allocated (out ++ b)
      else serLoop cfg h now l ct allocated out

/-- `csets_serialize` (src/chal.c:434-461). -/
def serialize (cfg : Cfg) (s : State) : Outcome (Nat × Bytes) := serLoop cfg s.sets s.now s.live 0 0 []

/-- `gdnsd_get_una16` of host-order data. -/
def getLe16 (b : Bytes) (i : Nat) : Outcome Nat := (rd b i).bind fun x => (rd b (i + 1)).bind fun y => .ok (x.toNat + 256 * y.toNat)

/-- The loop of `do_tak2` (src/main.c:344-357): the calls it makes, one per set, as
actions for a `State`; each `create` is followed by the grace period, which nobody delays
because there are no readers yet. `none`: log_fatal. -/
def readSets (data : Bytes) (dlen : Nat) : Nat → Nat → Outcome (Option (List Action))
  | 0, _ => .ok (some [])
  | n + 1, offset =>
    if dlen < offset + 5 then .ok none else
      (getLe16 data offset).bind fun setLen =>
      (getLe16 data (offset + 2)).bind fun ttlRemain =>
      (rd data (offset + 4)).bind fun count =>
        let offset := offset + 5
        if dlen < offset + setLen then .ok none else
          (readSets data dlen n (offset + setLen)).map fun o => o.map fun r =>
            .create ttlRemain count.toNat setLen ((data.drop offset).take setLen) :: r

/-- One imported set: `cset_create` with everything that follows. `none`: log_fatal. -/
def importOne (cfg : Cfg) (s : State) (a : Action) : Outcome (Option State) :=
  (step cfg s a).bind fun
    | none => .ok none
    | some s => (step cfg s .sync).bind fun
      | none => .ok none
      | some s => step cfg s .finish

/-- Several. -/
def importAll (cfg : Cfg) (s : State) : List Action → Outcome (Option State)
  | [] => .ok (some s)
  | a :: l => (importOne cfg s a).bind fun
    | none => .ok none
    | some s => importAll cfg s l

/-- `do_tak2` (src/main.c:328-360) after the transaction. Simplified: all headers are read
before the first set is created; a fatal error stops the daemon either way. -/
def takeOver (cfg : Cfg) (s : State) (count : Nat) (data : Bytes) : Outcome (Option State) :=
  (readSets data data.length count 0).bind fun
    | none => .ok none
    | some l => importAll cfg s l

end Gdnsd.Chal
