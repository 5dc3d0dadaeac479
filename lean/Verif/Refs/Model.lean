/-
How records of zones refer to resources of plugins: `gdnsd_plugin_find` (src/plugins/plugapi.c:148-160), the part of
`ltree_add_rec_dynaddr` and `ltree_add_rec_dync` that maps resources (src/ltree.c:364-389, 426-450), `map_res` of all plugins
(src/plugins/multifo.c, simplefo.c, weighted.c, static.c, null.c, reflect.c, and src/plugins/meta_core.inc:369-432, 472-494 for geoip and
metafo), and how geoip and metafo resolve what has been mapped (src/plugins/meta_core.inc:322-333, 496-563).

Mapping stores the plugin and the number of what a datacenter refers to in the datacenter itself (`dc_t`), which is shared by all zones
and all threads. These stores are modelled one by one, so that other threads may come in between. A call that nests deeper than the
given number of levels is `ub`: it is a question of the stack's size. Not modelled: messages, and names longer than the buffer of
256 bytes (src/ltree.c:364-366).
-/
import Verif.Meta.Model
namespace Gdnsd.Refs
open Vscf Conf
open Meta (Target Dc Resource)

/-- What is configured, as far as it matters for references: the names of resources and the names (CNAME) that those of weighted and
static may answer with. -/
structure Conf where
  multifo : List Bytes
  simplefo : List Bytes
  weighted : List (Bytes × List Bytes)
  fixed : List (Bytes × List Bytes)
  geoip : List Resource
  metafo : List Resource

/-- A plugin: one without `resolve`; one that finds the number of a resource by itself; geoip and metafo. -/
inductive Kind where
  | monitor
  | leaf (number : Option Bytes → Option Nat) (cnames : Nat → List Bytes)
  | multi (rs : List Resource)

/-- The search in `map_res` (src/plugins/multifo.c:347-349, simplefo.c:215-217, weighted.c, static.c:97-98): the first of that name. A name is required. -/
def byName (l : List Bytes) : Option Bytes → Option Nat
  | none => none
  | some n => l.findIdx? (· == n)

/-- `plugin_reflect_map_res` (src/plugins/reflect.c:55-69). -/
def reflectNumber : Option Bytes → Option Nat
  | none => some 2
  | some n => [str "dns", str "edns", str "best", str "both"].findIdx? fun t => Svc.caseEq n t

/-- A leaf with names. -/
def named (l : List (Bytes × List Bytes)) : Kind := .leaf (byName (l.map (·.1))) fun i => (l[i]?.map (·.2)).getD []

/-- `plugins` (src/plugins/plugapi.c:36-49). -/
def plugins (c : Conf) : List (Bytes × Kind) :=
  [(str "geoip", .multi c.geoip), (str "metafo", .multi c.metafo), (str "http_status", .monitor), (str "multifo", .leaf (byName c.multifo) fun _ => []),
    (str "null", .leaf (fun _ => some 0) fun _ => []), (str "reflect", .leaf reflectNumber fun _ => []), (str "simplefo", .leaf (byName c.simplefo) fun _ => []),
    (str "static", named c.fixed), (str "tcp_connect", .monitor), (str "weighted", named c.weighted), (str "extfile", .monitor), (str "extmon", .monitor)]

/-- `gdnsd_plugin_find` (src/plugins/plugapi.c:148-160); `none`: `log_fatal`. -/
def find (c : Conf) (p : Bytes) : Option Kind := ((plugins c).find? fun x => x.1 == p).map (·.2)

/-- A `dc_t`: of which plugin, resource and datacenter number. -/
structure Slot where
  plugin : Bytes
  res : Nat
  dc : Nat
deriving DecidableEq, Repr

/-- A store to `plugin` or `res_num` of a `dc_t`. -/
inductive Write where
  | found (s : Slot)
  | num (s : Slot) (n : Nat)
deriving DecidableEq, Repr

/-- How a call may end other than well: it is rejected, the daemon ends, or undefined behaviour. -/
inductive Stop where
  | rejected
  | fatal
  | ub
deriving DecidableEq, Repr

/-- What a call stores, and its result. -/
structure Act (α : Type) where
  writes : List Write
  res : Except Stop α

def Act.pure {α : Type} (a : α) : Act α := ⟨[], .ok a⟩
def Act.stop {α : Type} (s : Stop) : Act α := ⟨[], .error s⟩
def Act.tell (ws : List Write) : Act Unit := ⟨ws, .ok ()⟩
def Act.bind {α β : Type} (x : Act α) (f : α → Act β) : Act β :=
  match x.res with
  | .error s => ⟨x.writes, .error s⟩
  | .ok a => ⟨x.writes ++ (f a).writes, (f a).res⟩

/-- A check that may fail an assertion: go on if it is false. -/
def barred {α : Type} (b : Outcome Bool) (x : Act α) : Act α :=
  match b with
  | .ub => .stop .ub
  | .ok true => .stop .rejected
  | .ok false => x

/-- The checks of a name that may be the answer (src/plugins/weighted.c, static.c:104-108, meta_core.inc:395-399): not for
addresses, and not in the zone itself. -/
def checkName (zone : Option Bytes) (d : Bytes) : Act Unit :=
  match zone with
  | none => .stop .rejected
  | some z => barred (Dname.isInZone z d) (.pure ())

def checkNames (zone : Option Bytes) : List Bytes → Act Unit
  | [] => .pure ()
  | d :: ds => (checkName zone d).bind fun _ => checkNames zone ds

/-- A name is split at the first slash (src/plugins/meta_core.inc:479-487). -/
def splitSlash : Bytes → Bytes × Option Bytes
  | [] => ([], none)
  | c :: cs => if c = 47 then ([], some cs) else (c :: (splitSlash cs).1, (splitSlash cs).2)

/-- The number of the datacenter that a synthetic name asks for, 0 if the name has none (src/plugins/meta_core.inc:375-385). -/
def fixedDc (names : List Bytes) : Option Bytes → Act Nat
  | none => .pure 0
  | some dn =>
    if Meta.dcIdx names dn = 0 then .stop .rejected
    else if Meta.dcIdx names dn < 256 then .pure (Meta.dcIdx names dn) else .stop .ub

/-- The datacenter `j` of a resource, if it is defined. -/
def dcAt (r : Resource) (j : Nat) : Option Dc := r.dcs.find? fun d => d.idx == j

/-- The loop of `map_res_inner` (src/plugins/meta_core.inc:387-424) over numbers of datacenters; `f` is `map_res` of any plugin. -/
def mapDcs (c : Conf) (zone : Option Bytes) (f : Bytes → Option Bytes → Act Nat) (p : Bytes) (i : Nat) (r : Resource) : List Nat → Act Unit
  | [] => .pure ()
  | j :: js =>
    match dcAt r j with
    | none => mapDcs c zone f p i r js
    | some d =>
      match d.target with
      | .cname _ dn _ => (checkName zone dn).bind fun _ => mapDcs c zone f p i r js
      | .res q n =>
        match find c q with
        | none => .stop .fatal
        | some .monitor => (Act.tell [.found ⟨p, i, j⟩]).bind fun _ => .stop .rejected
        | some _ =>
          (Act.tell [.found ⟨p, i, j⟩, .num ⟨p, i, j⟩ 0]).bind fun _ =>
          (f q n).bind fun k => (Act.tell [.num ⟨p, i, j⟩ k]).bind fun _ => mapDcs c zone f p i r js

/-- The result of `map_res_inner` (src/plugins/meta_core.inc:426-429) as its callers see it: negative numbers are errors. -/
def number (i dc : Nat) : Act Nat :=
  match Plug.mapRes i dc with
  | .ub => .stop .ub
  | .ok v => if v < 0 then .stop .rejected else .pure v.toNat

/-- `gdnsd_plugin_find` and `map_res` of that plugin, for a record of `zone` (DYNC) or for addresses (DYNA: no zone), with the
plugins nested at most `k` deep. -/
def mapRes (c : Conf) (zone : Option Bytes) : Nat → Bytes → Option Bytes → Act Nat
  | 0, _, _ => .stop .ub
  | k + 1, p, rn =>
    match find c p with
    | none => .stop .fatal
    | some .monitor => .stop .rejected
    | some (.leaf num cnames) =>
      match num rn with
      | none => .stop .rejected
      | some i => (checkNames zone (cnames i)).bind fun _ => .pure i
    | some (.multi rs) =>
      match rn with
      | none => .stop .rejected
      | some n =>
        match rs.findIdx? fun r => r.name == (splitSlash n).1 with
        | none => .stop .rejected
        | some i =>
          match rs[i]? with
          | none => .stop .ub
          | some r =>
            (fixedDc r.names (splitSlash n).2).bind fun dc =>
            (mapDcs c zone (mapRes c zone k) p i r (if dc ≠ 0 then [dc] else (List.range r.names.length).map (· + 1))).bind fun _ => number i dc

/-! ### What is resolved -/

/-- `plugin` and `res_num` of a `dc_t`. -/
structure Cell where
  plugin : Bool
  num : Nat
deriving DecidableEq, Repr

abbrev Cells := Slot → Cell

def Write.apply (σ : Cells) : Write → Cells
  | .found s => fun t => if t = s then { σ t with plugin := true } else σ t
  | .num s n => fun t => if t = s then { σ t with num := n } else σ t

def store (σ : Cells) (ws : List Write) : Cells := ws.foldl Write.apply σ

/-- What answers depend on for one client: the resolvers of leaf plugins by number, the lists of datacenters of maps, the table of
states and the indices into it. -/
structure Env where
  leaf : Bytes → Nat → Plug.Resolver
  lists : Bytes → Nat → Bytes × Nat
  tbl : List UInt32
  map : Bytes → Nat → Nat → Option Nat
  idx : Bytes → Nat → List Nat

/-- As `Meta.numbered`, with the resolver of a datacenter's resource looked up by the number of the datacenter. -/
def cells (pn rn : Bytes) (sub : Nat → Bytes → Plug.Resolver) (map : Nat → Option Nat) : List Dc → List Nat → List (Nat × Plug.Dc)
  | [], _ => []
  | d :: ds, is =>
    let what := match d.target with
      | .cname _ dname svcs => Sum.inl (dname, (is.drop 1).take svcs.length)
      | .res p _ => Sum.inr (sub d.idx p)
    (d.idx, ⟨map d.idx, is.headD 0, what⟩) :: cells pn rn sub map ds (is.drop (d.reqs pn rn).length)

/-- The resource as the resolver has it (`Meta.Resource.numbered`). -/
def resource (pn : Bytes) (sub : Nat → Bytes → Plug.Resolver) (map : Nat → Option Nat) (r : Resource) (is : List Nat) : Plug.MetaRes :=
  let ds := cells pn r.name sub map r.dcs is
  ⟨none :: (List.range r.names.length).map fun i => (ds.find? fun p => p.1 == i + 1).map (·.2), r.names.length, r.dcs.length, r.skip⟩

/-- `resolve` of a plugin for the number of a resource. -/
def resolve (c : Conf) (env : Env) (σ : Cells) : Nat → Bytes → Nat → Plug.Resolver
  | 0, _, _ => fun _ => .ub
  | k + 1, p, num =>
    match find c p with
    | some (.leaf _ _) => env.leaf p num
    | some (.multi rs) =>
      let (synth, i) := Plug.splitRes (UInt32.ofNat num)
      match rs[i]? with
      | none => fun _ => .ub
      | some r =>
        let sub := fun j q => if (σ ⟨p, i, j⟩).plugin = true then resolve c env σ k q (σ ⟨p, i, j⟩).num else fun _ => .ub
        Plug.metaResolve env.tbl (resource p sub (env.map p i) r (env.idx p i)) synth (env.lists p i)
    | _ => fun _ => .ub

end Gdnsd.Refs
