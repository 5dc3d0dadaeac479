/-
src/plugins/gdnsd_geoip_test.c: the tool that shows to which data centers a map sends an address; with `gdmaps_logf_dclist` and `gdmaps_name2idx` of libgdmaps/gdmaps.c.

Loading configuration and databases is in Verif.Gmap and Verif.Maps; here maps are given. What `getaddrinfo` and `getnameinfo` do is a parameter.
-/
import Verif.Geo.Model
import Verif.Util.Model
namespace Gdnsd.GeoTest

/-! ### Command line -/

/-- What the command line asks for: a directory, and a map and an address. -/
structure Args where
  dir : Option Bytes
  query : Option (Bytes × Bytes)
deriving Repr, DecidableEq

/-- `main` (src/plugins/gdnsd_geoip_test.c:191-216); `none`: the usage is shown. -/
def args : List Bytes → Option Args
  | [a, b, c, d] => if a = [45, 99] then some ⟨some b, some (c, d)⟩ else none
  | [a, b] => if a = [45, 99] then some ⟨some b, none⟩ else some ⟨none, some (a, b)⟩
  | [] => some ⟨none, none⟩
  | _ => none

/-! ### Lines -/

/-- `fgets`, for at most this many bytes: what is read, and the rest. -/
def fgets : Nat → Bytes → Bytes × Bytes
  | 0, l => ([], l)
  | _, [] => ([], [])
  | k + 1, c :: l => if c = 10 then ([c], l) else (c :: (fgets k l).1, (fgets k l).2)

/-- What ends a word for `%[^ \t\n]`. -/
def blank (c : UInt8) : Bool := c == 32 || c == 9 || c == 10

/-- `isspace`. -/
def space (c : UInt8) : Bool := c == 32 || (9 ≤ c.toNat && c.toNat ≤ 13)

/-- `%127[^ \t\n]`: at most this many bytes. -/
def word : Nat → Bytes → Bytes × Bytes
  | 0, l => ([], l)
  | _, [] => ([], [])
  | k + 1, c :: l => if blank c = true then ([], c :: l) else (c :: (word k l).1, (word k l).2)

/-- `sscanf` (src/plugins/gdnsd_geoip_test.c:126), which sees a string up to a NUL byte. -/
def scan (line : Bytes) : Option (Bytes × Bytes) :=
  let l := line.takeWhile fun c => c != 0
  let m := word 127 l
  if m.1 = [] then none
  else
    let a := word 127 (m.2.dropWhile space)
    if a.1 = [] then none else some (m.1, a.1)

theorem fgets_rest (k : Nat) (l : Bytes) : (fgets k l).2.length ≤ l.length := by
  induction k generalizing l with
  | zero => simp [fgets]
  | succ k ih =>
    cases l with
    | nil => simp [fgets]
    | cons c l =>
      unfold fgets
      split
      · simp
      · have := ih l
        simp
        omega

/-- `do_repl` (src/plugins/gdnsd_geoip_test.c:107-133): for what is read each time, what is looked up; `none`: a message about invalid input. -/
def repl : Bytes → List (Option (Bytes × Bytes))
  | [] => []
  | c :: l => scan (fgets 254 (c :: l)).1 :: repl (fgets 254 (c :: l)).2
termination_by l => l.length
decreasing_by
  show (fgets 254 (c :: l)).2.length < (c :: l).length
  unfold fgets
  split
  · simp
  · have := fgets_rest 253 l
    simp
    omega

/-! ### The list of data centers -/

/-- `dcinfo_num2name` (libgdmaps/dcinfo.c:152-158) or `<INVALID>` (libgdmaps/gdmaps.c:552, 586-587). -/
def dcName (dcs : List Bytes) (n : Nat) : Bytes :=
  if n = 0 ∨ n > dcs.length then [60, 73, 78, 86, 65, 76, 73, 68, 62] else (dcs[n - 1]?).getD []

/-- How much `gdmaps_logf_dclist` writes (libgdmaps/gdmaps.c:561-571); reading past the list is undefined. -/
def sized (dcs : List Bytes) : Bool → Bytes → Outcome Nat
  | _, [] => .ub
  | first, n :: l =>
    if n = 0 then .ok 0
    else (sized dcs false l).map fun k => (dcName dcs n.toNat).length + (if first = true then 0 else 2) + k

/-- Writing into a buffer of `cap` bytes, after `buf`. -/
def put (cap : Nat) (buf b : Bytes) : Outcome Bytes := if buf.length + b.length ≤ cap then .ok (buf ++ b) else .ub

/-- The second loop and the NUL byte (libgdmaps/gdmaps.c:576-594). -/
def written (dcs : List Bytes) (cap : Nat) : Bool → Bytes → Bytes → Outcome Bytes
  | _, _, [] => .ub
  | first, buf, n :: l =>
    if n = 0 then put cap buf [0]
    else
      (if first = true then .ok buf else put cap buf [44, 32]).bind fun buf =>
      (put cap buf (dcName dcs n.toNat)).bind fun buf => written dcs cap false buf l

/-- `gdmaps_logf_dclist` (libgdmaps/gdmaps.c:553-596) when `used` bytes of the buffer for messages are used; `none`: the program ends (`gdnsd_fmtbuf_alloc`). -/
def logf (dcs : List Bytes) (used : Nat) (l : Bytes) : Outcome (Option Bytes) :=
  (sized dcs true l).bind fun n =>
  match Util.fmtAlloc used (n + 1) with
  | none => .ok none
  | some _ => (written dcs (n + 1) true [] l).map some

/-! ### Lookups -/

/-- A map: its name, `ignore_ecs`, its tree, the lists of data centers by index, and their names. -/
structure Map where
  name : Bytes
  ignoreEcs : Bool
  tree : Geo.Tree
  lists : List Bytes
  dcs : List Bytes

/-- What is shown; `scope` is `none` if it is left out; `fatal`: the program has ended with a message about a bug. -/
inductive Reply where
  | noMap
  | badAddr
  | line (map : Bytes) (addr : Geo.Addr) (scope : Option Nat) (list : Bytes)
  | fatal
deriving Repr, DecidableEq

/-- `do_lookup` (src/plugins/gdnsd_geoip_test.c:54-104) with `gdmap_lookup` (libgdmaps/gdmaps.c:453-473) and `gdmaps_name2idx` (509-515); `txt` is the text of an address. -/
def lookup (parse : Bytes → Option Geo.Addr) (txt : Geo.Addr → Bytes) (maps : List Map) (name ip : Bytes) : Outcome Reply :=
  match maps.find? fun m => m.name == name with
  | none => .ok .noMap
  | some m => match parse ip with
    | none => .ok .badAddr
    | some a =>
      (Geo.lookup m.tree ⟨a, a, 150⟩ m.ignoreEcs).bind fun r =>
      (assert (decide (r.2 ≠ 175))).bind fun _ =>
      match m.lists[r.1]? with
      | none => .ub
      | some l =>
        match Util.fmtAlloc 0 ((txt a).length + 1) with
        | none => .ok .fatal
        | some (_, used) =>
          (logf m.dcs used l).map fun o => match o with
            | none => .fatal
            | some t => .line m.name a (if r.2 = 150 then none else some r.2) t

end Gdnsd.GeoTest
