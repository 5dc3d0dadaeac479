/-
How geoip notices that its files have changed (libgdmaps/gdmaps.c).

One map with its two files, the database (`false`) and the external `nets` (`true`), the watchers and timers of libev in the
reload thread, and the lookup data made out of both. What is in a file is of an arbitrary type `C`; a list (`nlist_t`) is identified
with the contents it was made of. Time is in milliseconds, and files are dated by the same clock. A file is read at once.
-/
import Verif.Basic
namespace Gdnsd.Watch

/-- `STAT_RELOAD_WAIT` (libgdmaps/gdmaps.c:58). -/
def statWait : Nat := 5000
/-- `ALL_RELOAD_WAIT` (libgdmaps/gdmaps.c:65). -/
def allWait : Nat := 7000

/-- What `stat` tells of a file: `st_mtime`, in seconds, and all the rest. -/
structure Attr where
  sec : Nat
  other : Nat
deriving Repr, DecidableEq

/-- A file with its `ev_stat` watcher, reload timer and list (libgdmaps/gdmaps.c:67-87). -/
structure Watched (C : Type) where
  /-- the file, if there is one -/
  disk : Option (Attr × C)
  /-- `attr` of the watcher; `none` is `st_nlink` 0 -/
  attr : Option Attr
  /-- `prev` of the watcher -/
  prev : Option Attr
  /-- the watcher's callback is to be called -/
  pending : Bool
  /-- when the reload timer is due, if it is active -/
  timer : Option Nat
  /-- what was last read, of use or not (not in the code) -/
  tried : Option C
  /-- what `geoip_list` or `nets_list` was made of -/
  kept : Option C

/-- What reading a file comes to: a list, an error, or `log_fatal`. -/
inductive Parsed where
  | good
  | bad
  | fatal
deriving Repr, DecidableEq

structure Cfg (C : Type) where
  /-- `geoip_path` and `nets_path` are set -/
  path : Bool → Bool
  parse : Bool → C → Parsed

/-- A map, and the daemon around it. -/
structure St (C : Type) where
  now : Nat
  file : Bool → Watched C
  /-- `dclists_pend` is set -/
  pend : Bool
  /-- when `tree_update_timer` is due, if it is active -/
  tree : Option Nat
  /-- what the lookup data (`tree`, `dclists`) was made of -/
  served : Bool → Option C
  dead : Bool

inductive Ev (C : Type) where
  /-- time goes by -/
  | tick (d : Nat)
  /-- someone writes to a file, or replaces it by one that may be older -/
  | write (f : Bool) (a : Attr) (c : C)
  /-- someone changes something else about it -/
  | chattr (f : Bool) (other : Nat)
  | remove (f : Bool)
  /-- libev looks at a file (`stat_timer_cb` in ev.c) -/
  | sample (f : Bool)
  /-- libev calls back; the time it keeps is `lag` behind -/
  | fire (f : Bool) (lag : Nat)
  | expire (f : Bool) (lag : Nat)
  | expireTree

variable {C : Type}

def stat (d : Option (Attr × C)) : Option Attr := d.map (·.1)

def St.set (s : St C) (f : Bool) (w : Watched C) : St C := { s with file := fun g => if g = f then w else s.file g }

/-- The test of `gdmap_geoip_reload_stat_cb` and `gdmap_nets_reload_stat_cb` (libgdmaps/gdmaps.c:342-343, 368-369). -/
def trigger : Option Attr → Option Attr → Bool
  | _, none => false
  | none, some _ => true
  | some p, some a => a.sec != p.sec

/-- libev's look at a file (ev.c, `stat_timer_cb`): `prev` changes only if something has changed. -/
def look (w : Watched C) : Watched C :=
  if stat w.disk = w.attr then w else { w with prev := w.attr, attr := stat w.disk, pending := true }

/-- `gdmap_geoip_reload_stat_cb`, `gdmap_nets_reload_stat_cb` (libgdmaps/gdmaps.c:331-385), with `ev_timer_again`. -/
def changed (now lag : Nat) (w : Watched C) : Watched C :=
  if trigger w.prev w.attr = true then { w with pending := false, timer := some (now - lag + statWait) } else { w with pending := false }

/-- `gdmap_update_geoip` and `gdmap_update_nets` (libgdmaps/gdmaps.c:184-265): the list stays if there is none to be made.
What becomes of the datacenter lists is modelled in `Verif/Maps`. -/
def update (parse : C → Parsed) (w : Watched C) : Parsed × Watched C :=
  match w.disk with
  | none => (.bad, w)
  | some (_, c) =>
    match parse c with
    | .good => (.good, { w with tried := some c, kept := some c })
    | .bad => (.bad, { w with tried := some c })
    | .fatal => (.fatal, { w with tried := some c })

/-- `gdmap_geoip_reload_timer_cb`, `gdmap_nets_reload_timer_cb` (libgdmaps/gdmaps.c:298-329), with `gdmap_kick_tree_update` (287-296). -/
def reload (cfg : Cfg C) (s : St C) (f : Bool) (lag : Nat) : St C :=
  match update (cfg.parse f) { s.file f with timer := none } with
  | (.good, w) => { s.set f w with pend := true, tree := some (s.now - lag + allWait) }
  | (.bad, w) => s.set f w
  | (.fatal, w) => { s.set f w with dead := true }

/-- `gdmap_tree_update_cb` (libgdmaps/gdmaps.c:387-396) with the assertion of `gdmap_tree_update` (155-181). -/
def publish (s : St C) : Outcome (St C) :=
  (assert s.pend).map fun _ => { s with tree := none, pend := false, served := fun f => (s.file f).kept }

/-- An event; `none`: it cannot happen now. -/
def step (cfg : Cfg C) (s : St C) (e : Ev C) : Outcome (Option (St C)) :=
  if s.dead = true then .ok none
  else
    match e with
    | .tick d => .ok (some { s with now := s.now + d })
    | .write f a c => .ok (some (s.set f { s.file f with disk := some (a, c) }))
    | .chattr f o =>
      .ok (match (s.file f).disk with
        | none => none
        | some (a, c) => some (s.set f { s.file f with disk := some ({ a with other := o }, c) }))
    | .remove f => .ok (some (s.set f { s.file f with disk := none }))
    | .sample f => .ok (if cfg.path f = true then some (s.set f (look (s.file f))) else none)
    | .fire f lag => .ok (if (s.file f).pending = true then some (s.set f (changed s.now lag (s.file f))) else none)
    | .expire f lag =>
      .ok (match (s.file f).timer with
        | none => none
        | some due => if due ≤ s.now then some (reload cfg s f lag) else none)
    | .expireTree =>
      match s.tree with
      | none => .ok none
      | some due => if due ≤ s.now then (publish s).map some else .ok none

/-- One file when the watchers are set up (`gdmap_setup_watchers`, libgdmaps/gdmaps.c:399-447); `loaded` was read by
`gdmap_initial_load_all` (267-285) some time before, or is in the configuration. -/
def start (path : Bool) (loaded : Option C) (disk : Option (Attr × C)) : Watched C :=
  ⟨disk, if path = true then stat disk else none, none, false, none, loaded, loaded⟩

/-- A map after its first load, when the watchers have been set up. `none`: the daemon does not start. -/
def init (cfg : Cfg C) (now : Nat) (loaded : Bool → Option C) (disk : Bool → Option (Attr × C)) : Option (St C) :=
  if ∀ f, cfg.path f = true → (loaded f).map (cfg.parse f) = some .good then
    some ⟨now, fun f => start (cfg.path f) (loaded f) (disk f), false, none, loaded, false⟩
  else none

end Gdnsd.Watch
