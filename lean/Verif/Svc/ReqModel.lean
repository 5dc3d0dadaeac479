/-
src/plugins/mon.c: monitoring requests of resolver plugins (`mon_thing`, lines 459-596) and what the second phase of the
configuration makes of them (lines 657-728), with `add_mon_addr` and `add_mon_cname` of each plugin.

Not modelled: memory; what a plugin does later with what it is told to monitor (Verif/Poll, Verif/Extmon, Verif/Svc/File*).
A dname is compared as its bytes (`gdnsd_dname_cmp` is 0 for equal names only, see Verif/Dname).
-/
import Verif.Svc.Model
namespace Gdnsd.Svc
open Vscf Conf

/-- `gdnsd_anysin_t` (include/gdnsd/net.h) of an address to monitor: the family, the address, and what is not compared. -/
structure Addr where
  v6 : Bool
  bytes : Bytes
  rest : Bytes
deriving DecidableEq, Repr

/-- What is monitored: an address, or a name as it is written and as a dname. -/
inductive Thing where
  | addr (a : Addr)
  | cname (text : Bytes) (dname : Bytes)
deriving DecidableEq, Repr

/-- A request: `gdnsd_mon_addr` and `gdnsd_mon_cname` (src/plugins/mon.c:570-579), or `gdnsd_mon_admin` (:582-596). -/
inductive Req where
  | service (svc : Bytes) (t : Thing)
  | admin (desc : Bytes)
deriving DecidableEq, Repr

/-- `smgr_t` (src/plugins/mon.c:51-66), as far as requests fill it in. `type`: the service type's place in the table and what
is monitored. `text`: the member `cname`. -/
structure Slot where
  type : Option (Nat × Thing)
  desc : Bytes
  text : Bytes
  down : Bool
deriving DecidableEq, Repr

/-- The table of service types after phase 1 (src/plugins/mon.c:628-635): "up" and "down" are last and have no plugin. -/
def typeTable (ds : List Decl) : List (Bytes × Option Plug) :=
  ds.map (fun d => (d.name, some d.plug)) ++ [(str "up", none), (str "down", none)]

/-- `addr_eq` (src/plugins/mon.c:463-476) and the comparison of names (src/plugins/mon.c:507-511). -/
def sameThing : Thing → Thing → Bool
  | .addr a, .addr b => a.v6 == b.v6 && a.bytes == b.bytes
  | .cname _ d, .cname _ e => d == e
  | _, _ => false

/-- The slot is of this service type and thing (src/plugins/mon.c:499-511). -/
def holds (k : Nat) (t : Thing) (m : Slot) : Bool :=
  match m.type with
  | some (k', t') => sameThing t t' && k == k'
  | none => false

/-- The plugin cannot monitor this: `add_mon_addr` or `add_mon_cname` is NULL (src/plugins/mon.c:524, 543; the structures at
the end of src/plugins/*.c). -/
def unsupported : Option Plug → Thing → Bool
  | none, _ => false
  | some p, .addr _ => p == .resolver
  | some p, .cname _ _ => p == .resolver || p == .http || p == .tcp

/-- `gdnsd_downcase_str` (include/gdnsd/misc.h:80-87). -/
def downcase (s : Bytes) : Bytes := s.map Mon.lower

/-- How something is written: `gdnsd_anysin2str_noport` (libgdnsd/net.c:293-304, getnameinfo is a parameter) or the name as
it was given. -/
def written (text : Addr → Option Bytes) : Thing → Option Bytes
  | .addr a => text a
  | .cname t _ => some t

/-- `mon_thing` (src/plugins/mon.c:478-566) and `gdnsd_mon_admin` (:582-596). -/
def request (text : Addr → Option Bytes) (types : List (Bytes × Option Plug)) (ms : List Slot) : Req → Option (List Slot × Nat)
  | .admin desc => some (ms ++ [⟨none, desc, [], false⟩], ms.length)
  | .service svc t =>
    match types.findIdx? fun e => e.1 == svc with
    | none => none
    | some k =>
      match ms.findIdx? (holds k t) with
      | some i => some (ms, i)
      | none =>
        if unsupported (types[k]?.bind (·.2)) t = true then none
        else
          match written text t with
          | none => none
          | some s => some (ms ++ [⟨some (k, t), s ++ str "/" ++ svc, downcase s, svc == str "down"⟩], ms.length)

/-- All requests, in order, with the indices they get. -/
def requests (text : Addr → Option Bytes) (types : List (Bytes × Option Plug)) : List Req → List Slot → Option (List Slot × List Nat)
  | [], ms => some (ms, [])
  | r :: rs, ms =>
    match request text types ms r with
    | none => none
    | some (ms', i) => (requests text types rs ms').map fun q => (q.1, i :: q.2)

/-! ### Phase 2 -/

/-- The plugin a service type was configured by. -/
def Kind.plug : Kind → Plug
  | .http .. => .http
  | .tcp .. => .tcp
  | .extmon .. => .extmon
  | .extfile .. => .extfile
  | .static .. => .static
  | .null => .null

/-- What a plugin is told to monitor, with the service type it found. -/
structure Watch where
  svc : Stype
  desc : Bytes
  text : Bytes
  thing : Thing
  idx : Nat
deriving DecidableEq, Repr

/-- The search for the service type among those of the plugin (e.g. src/plugins/http_status.c:452-460; the same in
tcp_connect.c:245-253, extmon.c:421-429, extfile.c:130-139, static.c:186-194, null.c:96-104). -/
def pluginFind (p : Plug) (l : List Stype) (svc : Bytes) : Option Stype :=
  (l.filter fun s => s.kind.plug == p).find? fun s => s.name == svc

/-- The last loop of `gdnsd_mon_cfg_stypes_p2` (src/plugins/mon.c:714-728) from index `i`. `.ub` is a failed assertion, `none`
the plugin's "BUG: did not find expected service_type". -/
def watches (types : List (Bytes × Option Plug)) (l : List Stype) : List Slot → Nat → Outcome (Option (List Watch))
  | [], _ => .ok (some [])
  | m :: ms, i =>
    match m.type with
    | none => watches types l ms (i + 1)
    | some (k, t) =>
      match types[k]? with
      | none => .ub
      | some (_, none) => watches types l ms (i + 1)
      | some (svc, some p) =>
        if unsupported (some p) t = true then .ub
        else
          match pluginFind p l svc with
          | none => .ok none
          | some s => (watches types l ms (i + 1)).map fun o => o.map (⟨s, m.desc, m.text, t, i⟩ :: ·)

/-- The numbers of all service types (src/plugins/mon.c:681-710). -/
def numbers (l : List Stype) : List Gen := l.map (·.gen) ++ [⟨20, 10, 10, 10, 1⟩, ⟨20, 10, 10, 10, 1⟩]

/-- The slot as Verif/Mon has it. -/
def regOf (gs : List Gen) (m : Slot) : Bytes × Option Mon.SvcType × Bool :=
  (m.desc, m.type.bind fun q => gs[q.1]?.map fun g => ⟨g.up, g.ok, g.down, g.interval⟩, m.down)

/-- What the configuration comes to. -/
structure Boot where
  indices : List Nat
  regs : List (Bytes × Option Mon.SvcType × Bool)
  watches : List Watch
deriving DecidableEq, Repr

/-- src/conf.c:332-369: phase 1, the requests the plugins make while they read their configuration, phase 2. -/
def boot (text : Addr → Option Bytes) (hasStatic : Bool) (cfg : Option Val) (rs : List Req) : Outcome (Option Boot) :=
  match phase1 cfg with
  | none => .ok none
  | some ds =>
    match requests text (typeTable ds) rs [] with
    | none => .ok none
    | some (ms, is) =>
      (configure hasStatic (ms.any fun m => m.type.isSome) cfg).bind fun
      | none => .ok none
      | some (_, none) => .ok (some ⟨is, ms.map (regOf []), []⟩)
      | some (_, some l) => (watches (typeTable ds) l ms 0).map fun o => o.map fun ws => ⟨is, ms.map (regOf (numbers l)), ws⟩

end Gdnsd.Svc
