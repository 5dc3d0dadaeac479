/-
Model of the datacenter lists of a map (libgdmaps/dclists.c, dcinfo.c) and of reloading a
map while lookups run (libgdmaps/gdmaps.c).

Not modelled: the configuration syntax (dclists_xlate_vscf and dcmap_new get datacenter
numbers here), the geographic distance itself (a parameter), logging, ev_stat watchers and
the times of the timers: any reload may happen at any time. Memory is sequentially
consistent: the two loads of a reader and the two stores of the writer are seen in program
order, which rcu_dereference and rcu_assign_pointer provide on the supported platforms.
-/
import Verif.Geo.Model
namespace Gdnsd.Maps
open Gdnsd.Geo

/-! ### Datacenter lists -/

/-- `DCLIST_MAX` (libgdmaps/dclists.h:62). -/
def LIST_MAX : Nat := 2147483646

/-- `auto_limit` (libgdmaps/dcinfo.c:112-121); `cfg` is `auto_dc_limit`. -/
def autoLimit (numAuto : Nat) (cfg : Option Nat) : Nat :=
  match cfg with
  | some v => if v > numAuto ∨ v = 0 then numAuto else v
  | none => if numAuto > 3 then 3 else numAuto

/-- The inner loop of the insertion sort (libgdmaps/dclists.c:224-230): `temp` moves
towards the front past every entry that is farther away. The entries before position `i`
are given in reverse. -/
def insBack (lt : Nat → Nat → Bool) (temp : Nat) : List Nat → List Nat
  | [] => [temp]
  | x :: xs => bif lt temp x then x :: insBack lt temp xs else temp :: x :: xs

/-- The insertion sort (libgdmaps/dclists.c:223-231); the sorted part is in reverse. -/
def insSort (lt : Nat → Nat → Bool) : List Nat → List Nat → List Nat
  | rev, [] => rev.reverse
  | rev, x :: xs => insSort lt (insBack lt x rev) xs

/-- The first part of `dclists_city_auto_map` (libgdmaps/dclists.c:188-234): the list for a
location. `list0` is the default list without its terminating zero; its memory is one byte
longer. `lt a b` is `dists[a] < dists[b]`. Entries beyond `n` would index uninitialised
`dists`. The string ends at the first zero. -/
def cityList (n limit : Nat) (list0 : List Nat) (lt : Nat → Nat → Bool) : Outcome (List Nat) :=
  (assert (decide (n ≤ 254))).bind fun _ =>
    if list0.length < n then .ub else
      let copy := list0.take n
      (assert (copy.all fun k => decide (1 ≤ k ∧ k ≤ n))).bind fun _ =>
        if n < limit then .ub else
          .ok ((insSort lt [] copy ++ ((list0 ++ [0]).drop n).take 1).set limit 0 |>.takeWhile (· ≠ 0))

/-- `dclists_t` (libgdmaps/dclists.h:30-35): the array holds string pointers. -/
structure Dcl where
  list : List Nat
  old : Nat
deriving Repr, DecidableEq

/-- The strings of a map: `none` was freed. -/
abbrev Strs := List (Option Bytes)

/-- A string is read. -/
def str (strs : Strs) (i : Nat) : Outcome Bytes :=
  match strs[i]? with
  | some (some b) => .ok b
  | _ => .ub

/-- The search loop of `dclists_find_or_add_raw` (libgdmaps/dclists.c:110-112). -/
def find (strs : Strs) (c : Bytes) : List Nat → Nat → Outcome (Option Nat)
  | [], _ => .ok none
  | s :: l, i => (str strs s).bind fun b => if b = c then .ok (some i) else find strs c l (i + 1)

/-- `dclists_find_or_add_raw` (libgdmaps/dclists.c:108-124). `none`: log_fatal. -/
def findOrAdd (strs : Strs) (list : List Nat) (c : Bytes) : Outcome (Option (Strs × List Nat × Nat)) :=
  (find strs c list 0).bind fun
    | some i => .ok (some (strs, list, i))
    | none =>
      if list.length > LIST_MAX then .ok none
      else .ok (some (strs ++ [some c], list ++ [strs.length], list.length))

/-- Several in a row, with the indices. -/
def addAll (strs : Strs) (list : List Nat) : List Bytes → Outcome (Option (Strs × List Nat × List Nat))
  | [] => .ok (some (strs, list, []))
  | c :: cs =>
    (findOrAdd strs list c).bind fun
      | none => .ok none
      | some r => (addAll r.1 r.2.1 cs).map fun o => o.map fun q => (q.1, q.2.1, r.2.2 :: q.2.2)

/-! ### Loading -/

/-- A `nets` entry with its list of datacenters. -/
inductive NetCfg where
  | v4 (ip : Bytes) (mask : Nat) (dcs : Bytes)
  | v6 (ip : Bytes) (mask : Nat) (dcs : Bytes)
deriving Repr, DecidableEq

/-- The list of an entry. -/
def NetCfg.dcs : NetCfg → Bytes
  | .v4 _ _ l => l
  | .v6 _ _ l => l

/-- The entry with the index of its list. -/
def NetCfg.entry (i : Nat) : NetCfg → Entry
  | .v4 ip m _ => .v4 ip m i
  | .v6 ip m _ => .v6 ip m i

/-- Whether `nets_parse` gets as far as the list of the entry (libgdmaps/nets.c:96-117). -/
def NetCfg.passes : NetCfg → Bool
  | .v4 _ m _ => !decide (128 < m + 96)
  | .v6 ip m _ => !decide (128 < m) && !v4Issues ip m

/-- `nets_make_list` (libgdmaps/nets.c:65-159): the lists of the entries before the first
refused one are stored; with a refused entry there is no result. -/
def loadNets (sort : List Net → List Net) (cfg : List NetCfg) (strs : Strs) (list : List Nat) :
    Outcome (Option (Strs × List Nat × Option (List Net))) :=
  (addAll strs list ((cfg.takeWhile NetCfg.passes).map NetCfg.dcs)).bind fun
    | none => .ok none
    | some r =>
      let idx := r.2.2 ++ List.replicate (cfg.length - r.2.2.length) 0
      (netsMakeList sort (List.zipWith NetCfg.entry idx cfg)).map fun o => some (r.1, r.2.1, o)

/-- What a GeoIP2 data record leads to (geoip2_get_dclist, libgdmaps/gdgeoip2.c:293-332): a
list of the `map` stanza, or the automatic list for its coordinates. -/
inductive Src where
  | fixed (k : Nat)
  | near (dcs : Bytes)
deriving Repr, DecidableEq

/-- A database file: search nodes, and the records by offset. -/
structure GeoCfg where
  read : Nat → Option (Rec × Rec)
  src : List (Nat × Src)
  isV4 : Bool

/-- The list of a record, if it is an automatic one. -/
def autoOf : Nat × Src → Option Bytes
  | (_, .near l) => some l
  | _ => none

/-- The index that a record gets: `dcmap` holds the indices of the `map` stanza. An offset
without a record does not occur in a database; it counts as the default list. -/
def recIdx (dcmap : List Nat) (conts : List Bytes) : Option Src → Nat
  | some (.fixed k) => dcmap[k]?.getD 0
  | some (.near l) => (conts.findIdx? (· == l)).getD 0
  | none => 0

/-- What the strings of a list say (not a C function: used to describe the effect of the
loop that looks up or adds one list per record). -/
def conts (strs : Strs) (list : List Nat) : List Bytes := list.map fun i => (strs[i]?.join).getD []

/-- `gdgeoip2_make_list` (libgdmaps/gdgeoip2.c:445-463). Simplified: the automatic lists of
all records are stored before the walk instead of during it, in the order of the records.
So their numbers may differ from those in the code; lists are compared by content. -/
def loadGeo (sort : List Net → List Net) (dcmap : List Nat) (g : GeoCfg) (strs : Strs) (list : List Nat) :
    Outcome (Option (Strs × List Nat × Option (List Net))) :=
  (addAll strs list (g.src.filterMap autoOf)).bind fun
    | none => .ok none
    | some r =>
      (geoList sort ⟨g.read, fun off => recIdx dcmap (conts r.1 r.2.1) (g.src.lookup off)⟩ g.isV4).map fun o =>
        some (r.1, r.2.1, o)

/-! ### The map, its reload thread and its readers -/

/-- Where a lookup is (gdmap_lookup, libgdmaps/gdmaps.c:451-474). `off`: outside of any
read-side critical section. The tree number and the list index are kept
after their use only to state properties. -/
inductive Phase where
  | off
  | on (c : Client)
  | tree (c : Client) (t : Nat)
  | idx (c : Client) (t d : Nat)
  | arr (c : Client) (t d l : Nat)
  | str (c : Client) (t d i : Nat)
  | got (c : Client) (t d : Nat) (b : Bytes)

/-- Where the reload thread is in `gdmap_tree_update` (libgdmaps/gdmaps.c:156-182). -/
inductive Writer where
  | idle
  /-- `dclists` assigned (line 171). -/
  | lists (oldT oldL : Option Nat) (merged : Geo.Tree)
  /-- `tree` assigned (line 172). -/
  | both (oldT oldL : Option Nat)
  /-- In `synchronize_rcu` (line 173), waiting for these readers. -/
  | wait (oldT oldL : Option Nat) (ws : List Nat)

/-- What a tree was made of, recorded to state properties: the strings of the pending
lists, the configured networks and the database. -/
structure Made where
  lists : List Bytes
  nets : List NetCfg
  geo : Option GeoCfg

/-- `gdmap_t` (libgdmaps/gdmaps.c:67-86) with the memory it uses. `netsCfg` and `geoCfg`
record what `nets` and `geo` were loaded from. -/
structure State where
  strs : Strs
  objs : List (Option Dcl)
  trees : List (Option Geo.Tree)
  dcmap : List Nat
  dclists : Option Nat
  pend : Option Nat
  geo : Option (List Net)
  nets : Option (List Net)
  tree : Option Nat
  timer : Bool
  started : Bool
  writer : Writer
  readers : List Phase
  ignoreEcs : Bool
  made : List Made
  netsCfg : List NetCfg
  geoCfg : Option GeoCfg

/-- An object is read. -/
def obj (s : State) (i : Nat) : Outcome Dcl :=
  match s.objs[i]? with
  | some (some o) => .ok o
  | _ => .ub

/-- `free` of the strings of the entries from `old` on (`KILL_NEW_LISTS`,
libgdmaps/dclists.c:245-248). -/
def killNew (strs : Strs) : List Nat → Outcome Strs
  | [] => .ok strs
  | i :: l => (str strs i).bind fun _ => killNew (strs.set i none) l

/-- `dclists_clone` (libgdmaps/dclists.c:81-90). -/
def clone (o : Dcl) : Dcl := ⟨o.list, o.list.length⟩

/-- `gdmap_update_geoip` and `gdmap_update_nets` (libgdmaps/gdmaps.c:185-267) with the
timer callbacks that call them (298-330): the lists are extended in the pending object, or
in a clone of the current one; a clone is discarded if loading fails. The result is `none`
if the daemon exits. -/
def update (s : State) (load : Strs → List Nat → Outcome (Option (Strs × List Nat × Option (List Net))))
    (store : State → List Net → State) : Outcome (Option State) :=
  match s.pend with
  | some p =>
    (obj s p).bind fun o =>
      (load s.strs o.list).bind fun
        | none => .ok none
        | some r =>
          let s1 := { s with strs := r.1, objs := s.objs.set p (some { o with list := r.2.1 }) }
          match r.2.2 with
          | none => .ok (some s1)
          | some l => .ok (some { store s1 l with timer := s.timer || s.started })
  | none =>
    match s.dclists with
    | none => .ub
    | some d =>
      (obj s d).bind fun o =>
        (load s.strs (clone o).list).bind fun
          | none => .ok none
          | some r =>
            match r.2.2 with
            | none => (killNew r.1 (r.2.1.drop (clone o).old)).map fun strs => some { s with strs := strs }
            | some l =>
              let s1 := { s with strs := r.1, objs := s.objs ++ [some { clone o with list := r.2.1 }], pend := some s.objs.length }
              .ok (some { store s1 l with timer := s.timer || s.started })

/-- Freeing a tree or a `dclists_t`. -/
def kill {α : Type} (l : List (Option α)) : Option Nat → Outcome (List (Option α))
  | none => .ok l
  | some i =>
    match l[i]? with
    | some (some _) => .ok (l.set i none)
    | _ => .ub

/-- Readers inside a critical section. -/
def online (rs : List Phase) : List Nat :=
  (List.range rs.length).filter fun i => match rs[i]? with | some .off => false | some _ => true | none => false

/-- What can happen. -/
inductive Action where
  /-- The reload thread (or the initial load) loads the `nets` file; `none`: it does not parse. -/
  | nets (cfg : Option (List NetCfg))
  | geo (g : GeoCfg)
  | begin
  | assignTree
  | sync
  | finish
  /-- The readers and the reload thread are started, right after the initial load. -/
  | start
  | enter (r : Nat) (c : Client)
  | loadTree (r : Nat)
  | look (r : Nat)
  | loadLists (r : Nat)
  | getList (r : Nat)
  | use (r : Nat)
  | leave (r : Nat)

/-- A reader moves on. -/
def State.setReader (s : State) (r : Nat) (p : Phase) : State := { s with readers := s.readers.set r p }

/-- A reader passes a quiescent state: `synchronize_rcu` no longer waits for it. -/
def Writer.quiesce (r : Nat) : Writer → Writer
  | .wait a b ws => .wait a b (ws.filter (· ≠ r))
  | w => w

/-- Whether the reload thread is in its event loop. -/
def Writer.isIdle : Writer → Bool
  | .idle => true
  | _ => false

/-- The new tree (libgdmaps/gdmaps.c:160-166). -/
def mkTree (sort : List Net → List Net) (geo : Option (List Net)) (nets : List Net) : Outcome Geo.Tree :=
  match geo with
  | some a => merge2tree sort a nets
  | none => xlate nets

/-- The start of `gdmap_tree_update` (libgdmaps/gdmaps.c:156-171). -/
def beginUpdate (sort : List Net → List Net) (s : State) : Outcome (Option State) :=
  match s.pend, s.nets with
  | some p, some nets =>
    (mkTree sort s.geo nets).bind fun merged =>
      .ok (some { s with writer := .lists s.tree s.dclists merged, dclists := some p, timer := false })
  | _, _ => .ub

/-- One step. `none`: the action is not possible now, or the daemon exits.
`gdmap_tree_update` is called by its timer (libgdmaps/gdmaps.c:384-392) and at the end of
the initial load (270-286); a reader may do several lookups in one critical section; a
quiescent state is possible between lookups and between any two steps here. -/
def step (sort : List Net → List Net) (s : State) : Action → Outcome (Option State)
  | .nets none => .ok (if s.writer.isIdle then some s else none)
  | .nets (some cfg) =>
    if s.writer.isIdle then update s (loadNets sort cfg) fun s l => { s with nets := some l, netsCfg := cfg } else .ok none
  | .geo g =>
    if s.writer.isIdle then update s (loadGeo sort s.dcmap g) fun s l => { s with geo := some l, geoCfg := some g } else .ok none
  | .begin =>
    if s.writer.isIdle ∧ (s.timer ∨ (s.started = false ∧ s.tree = none ∧ s.nets.isSome)) then beginUpdate sort s else .ok none
  | .assignTree =>
    match s.writer with
    | .lists a b merged =>
      .ok (some { s with trees := s.trees ++ [some merged], tree := some s.trees.length, writer := .both a b
                         made := s.made ++ [⟨(s.pend.bind fun p => s.objs[p]?.join).elim [] fun o => conts s.strs o.list, s.netsCfg, s.geoCfg⟩] })
    | _ => .ok none
  | .sync =>
    match s.writer with
    | .both a b => .ok (some { s with writer := .wait a b (online s.readers) })
    | _ => .ok none
  | .finish =>
    match s.writer with
    | .wait a b [] =>
      (kill s.trees a).bind fun trees =>
        (kill s.objs b).bind fun objs =>
          .ok (some { s with pend := none, trees := trees, objs := objs, writer := .idle })
    | _ => .ok none
  | .start => .ok (if s.writer.isIdle ∧ s.tree ≠ none ∧ s.pend = none then some { s with started := true } else none)
  | .enter r c =>
    match s.readers[r]? with
    | some .off => .ok (if s.started then some (s.setReader r (.on c)) else none)
    | some (.got ..) => .ok (some (s.setReader r (.on c)))
    | _ => .ok none
  | .loadTree r =>
    match s.readers[r]? with
    | some (.on c) =>
      match s.tree with
      | some t => .ok (some (s.setReader r (.tree c t)))
      | none => .ub
    | _ => .ok none
  | .look r =>
    match s.readers[r]? with
    | some (.tree c t) =>
      match s.trees[t]? with
      | some (some T) => (lookup T c s.ignoreEcs).map fun d => some (s.setReader r (.idx c t d.1))
      | _ => .ub
    | _ => .ok none
  | .loadLists r =>
    match s.readers[r]? with
    | some (.idx c t d) =>
      match s.dclists with
      | some l => .ok (some (s.setReader r (.arr c t d l)))
      | none => .ub
    | _ => .ok none
  | .getList r =>
    match s.readers[r]? with
    | some (.arr c t d l) =>
      (obj s l).bind fun o =>
        (assert (decide (d < o.list.length ∧ d ≤ LIST_MAX))).bind fun _ =>
          .ok (some (s.setReader r (.str c t d (o.list[d]?.getD 0))))
    | _ => .ok none
  | .use r =>
    match s.readers[r]? with
    | some (.str c t d i) => (str s.strs i).map fun b => some (s.setReader r (.got c t d b))
    | _ => .ok none
  | .leave r =>
    match s.readers[r]? with
    | some _ => .ok (some { s.setReader r .off with writer := s.writer.quiesce r })
    | none => .ok none

/-- The state after `gdmap_init` (libgdmaps/gdmaps.c:96-154) and before any `nets` or
database are loaded: the default list and those of the `map` stanza (dcmap_new). Inline
`nets` are loaded by the same function as a file: the action `nets`. -/
def init (dflt : Bytes) (maps : List Bytes) (readers : Nat) (ignoreEcs : Bool) : Outcome (Option State) :=
  (addAll [some dflt] [0] maps).map fun o => o.map fun r =>
    { strs := r.1, objs := [some ⟨r.2.1, 0⟩], trees := [], dcmap := r.2.2, dclists := none, pend := some 0, geo := none, nets := none
      tree := none, timer := false, started := false, writer := .idle, readers := List.replicate readers .off, ignoreEcs := ignoreEcs
      made := [], netsCfg := [], geoCfg := none }

end Gdnsd.Maps
