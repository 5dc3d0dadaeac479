/-
The configuration of `metafo` and `geoip`: src/plugins/meta_core.inc lines 46-319 and 436-470, with src/plugins/metafo.c and
the hooks of src/plugins/geoip.c, and the order in which src/conf.c (lines 341-358) loads plugins.

The data is what Verif/Vscf reads from the file; `log_fatal` ends the program: the result `none`. `.ub` is a failed assertion
or a null pointer that is used. The hash that is configured and its siblings are one tree in the C code: here the siblings
(`plugins => { … }`) are passed on from one datacenter to the next. What the plugin changes in its own stanza besides marks
(inherited keys) is not read again. Requests to monitor are read off the resources afterwards, see Verif/Res.
Not modelled: messages, memory, numbers of elements above 2^32; the maps of `geoip` (a parameter, see Verif/Geo).
-/
import Verif.Res.Model
import Verif.Dname.Model
namespace Gdnsd.Meta
open Vscf Conf
open Res (Lib texts svcNames label)
open Svc (Req Addr)

/-- What is different for the two plugins: `PNSTR`, the key that `res_get_mapnum` looks at, the keys that `top_config_hook`
marks, and what that makes of the options: whether datacenters may be undefined, and the datacenters that a value of the key
refers to. -/
structure Kind where
  name : Bytes
  key : Bytes
  used : List Bytes
  hook : List (Entry Val) → Option (Bool × (Val → Option (List Bytes)))

/-- `res_get_mapnum` (src/plugins/metafo.c:45-82): the names of the datacenters. -/
def listNames : Val → Option (List Bytes)
  | .hash _ => none
  | v =>
    match texts (Svc.items v) with
    | some (n :: ns) => some (n :: ns)
    | _ => none

/-- metafo (src/plugins/metafo.c). -/
def metafo : Kind := ⟨str "metafo", str "datacenters", [], fun _ => some (false, listNames)⟩

/-- `res_get_mapnum` (src/plugins/geoip.c:39-52) with `gdmaps_name2idx` (libgdmaps/gdmaps.c): the datacenters of the first map
of that name. -/
def mapNames (maps : List (Bytes × List Bytes)) : Val → Option (List Bytes)
  | .simple _ t => (maps.find? fun m => m.1 == cstr t).map (·.2)
  | _ => none

/-- A truth value that is optional (src/plugins/geoip.c:79-82). -/
def flagOf : Option Val → Option Bool
  | none => some false
  | some (.simple _ t) => getBool t
  | some _ => none

/-- geoip (src/plugins/geoip.c:64-85); `gdmaps` is `gdmaps_new`. -/
def geoip (gdmaps : List (Entry Val) → Option (List (Bytes × List Bytes))) : Kind :=
  ⟨str "geoip", str "map", [str "maps", str "undefined_datacenters_ok"], fun es =>
    match find es (str "maps") with
    | some (.hash (m :: ms)) =>
      match gdmaps (m :: ms), flagOf (find es (str "undefined_datacenters_ok")) with
      | some tab, some b => some (b, mapNames tab)
      | _, _ => none
    | _ => none⟩

/-- The union in `dc_t` (src/plugins/meta_core.inc:52-65): a name with its service types, or a resource of a plugin. -/
inductive Target where
  | cname (text dname : Bytes) (svcs : List Bytes)
  | res (plugin : Bytes) (name : Option Bytes)
deriving DecidableEq, Repr

/-- `dc_t` (src/plugins/meta_core.inc:48-66) with its index. -/
structure Dc where
  idx : Nat
  name : Bytes
  target : Target
deriving DecidableEq, Repr

/-- `resource_t` (src/plugins/meta_core.inc:82-89). `names`: the datacenters of the map; `dcs`: those of the resource, in the
order of its `dcmap`. Two keys of `dcmap` that are the same up to a zero byte would fill in one `dc_t` twice; here they are two. -/
structure Resource where
  name : Bytes
  names : List Bytes
  dcs : List Dc
  skip : Bool
deriving DecidableEq, Repr

/-- `get_defaulted_plugname` (src/plugins/meta_core.inc:94-110): the name, and the hash with its mark. -/
def plugName (es : List (Entry Val)) : Option (Bytes × List (Entry Val)) :=
  match find es (str "plugin") with
  | none => some (str "multifo", es)
  | some (.simple _ t) => some (cstr t, setMark es (str "plugin"))
  | some _ => none

/-- The loop that gives addresses numbers (src/plugins/meta_core.inc:142-151), from index `i`. -/
def numberedFrom : Nat → List Val → Option (List (Entry Val))
  | _, [] => some []
  | i, .simple r t :: vs => (numberedFrom (i + 1) vs).map (⟨label (i + 1), false, .simple r t⟩ :: ·)
  | _, _ :: _ => none

/-- The hash of a datacenter: as it is, or made from addresses (src/plugins/meta_core.inc:135-154). -/
def asHash : Val → Option (List (Entry Val))
  | .hash es => some es
  | v => (numberedFrom 0 (Svc.items v)).map (⟨str "plugin", false, .simple (str "multifo") (str "multifo")⟩ :: ·)

/-- `child_resname` (src/plugins/meta_core.inc:117). -/
def childName (pn res dc : Bytes) : Bytes := pn ++ str "_" ++ res ++ str "_" ++ dc

/-- A resource is added to a hash that does not have it (src/plugins/meta_core.inc:181-185). -/
def addChild (child : Bytes) (v : Val) (es : List (Entry Val)) : Option (List (Entry Val)) :=
  match find es child with
  | some _ => none
  | none => some (es ++ [⟨child, false, v⟩])

/-- A new value for a key that is there. -/
def replace (k : Bytes) (v : Val) : List (Entry Val) → List (Entry Val)
  | [] => []
  | e :: es => if e.key = k then { e with val := v } :: es else e :: replace k v es

/-- What is done with the hash of a key, which is made if it is not there (src/plugins/meta_core.inc:163-178). Looking up a key in
something that is not a hash is a failed assertion. -/
def within (k : Bytes) (f : List (Entry Val) → Outcome (Option (List (Entry Val)))) (es : List (Entry Val)) : Outcome (Option (List (Entry Val))) :=
  match find es k with
  | none => (f []).map fun o => o.map fun fs => es ++ [⟨k, false, .hash fs⟩]
  | some (.hash fs) => (f fs).map fun o => o.map fun fs' => replace k (.hash fs') es
  | some _ => .ub

/-- The resource is added to the stanza of its plugin (src/plugins/meta_core.inc:163-185). -/
def addTo (plugin child : Bytes) (v : Val) (tops : List (Entry Val)) : Outcome (Option (List (Entry Val))) :=
  within plugin (fun es => if plugin = str "metafo" then within (str "resources") (fun rs => .ok (addChild child v rs)) es else .ok (addChild child v es)) tops

/-- `inject_child_plugin_config` (src/plugins/meta_core.inc:112-190): the plugin, and the siblings with the new resource.
`res`: the hash of the resource. -/
def inject (pn rn dn : Bytes) (res tops : List (Entry Val)) (v : Val) : Outcome (Option (Bytes × List (Entry Val))) :=
  match asHash v with
  | none => .ok none
  | some es =>
    (inheritAll res es true).bind fun es =>
    match plugName es with
    | none => .ok none
    | some (plugin, es) =>
      if plugin = pn then .ok none
      else
        (clone true (.hash es)).bind fun w =>
        (addTo plugin (childName pn rn dn) w tops).map fun o => o.map fun tops' => (plugin, tops')

/-- A reference `plugin!resource`, split at the first `!` (src/plugins/meta_core.inc:203-209). -/
def splitBang : Bytes → Bytes × Option Bytes
  | [] => ([], none)
  | c :: cs => if c = 33 then ([], some cs) else (c :: (splitBang cs).1, (splitBang cs).2)

/-- `config_res_perdc` (src/plugins/meta_core.inc:192-261): what the datacenter refers to, and the hashes of the resource and of
the plugins as they are then. A comparison with a resource that is not there is a null pointer (line 211). -/
def perdc (lib : Lib) (pn rn dn : Bytes) (res tops : List (Entry Val)) (v : Val) : Outcome (Option (Target × List (Entry Val) × List (Entry Val))) :=
  let injected := (inject pn rn dn res tops v).map fun o => o.map fun p => (.res p.1 (some (childName pn rn dn)), res, p.2)
  match v with
  | .simple r t =>
    match cstr t with
    | 37 :: t' =>
      match splitBang t' with
      | (p, none) => if p = pn then .ub else .ok (some (.res p none, res, tops))
      | (p, some n) => if p = pn ∧ n = rn then .ok none else .ok (some (.res p (some n), res, tops))
    | 33 :: n =>
      match plugName res with
      | none => .ok none
      | some (p, res') => if p = pn ∧ n = rn then .ok none else .ok (some (.res p (some n), res', tops))
    | u =>
      match lib.addr u with
      | some _ => injected
      | none =>
        (Dname.fromString r r.length).map fun d =>
          if d.1 = .valid then (svcNames (find res (str "service_types"))).map fun svcs => (.cname u d.2 svcs, res, tops) else none
  | _ => injected

/-- `map_get_dcidx` (src/plugins/metafo.c:91-102, src/plugins/geoip.c:59-62 with libgdmaps/dcinfo.c): 0 if it is not there. -/
def dcIdx (names : List Bytes) (dn : Bytes) : Nat := match names.findIdx? (· == dn) with | some i => i + 1 | none => 0

/-- `config_res_dcmap` (src/plugins/meta_core.inc:263-283). -/
def dcmap (lib : Lib) (pn rn : Bytes) (names : List Bytes) : List (Entry Val) → List (Entry Val) → List (Entry Val) → Outcome (Option (List Dc × List (Entry Val)))
  | [], _, tops => .ok (some ([], tops))
  | e :: es, res, tops =>
    let idx := dcIdx names (cstr e.key)
    if idx = 0 then .ok none
    else
      (perdc lib pn rn (cstr e.key) res tops e.val).bind fun
      | none => .ok none
      | some (t, res', tops') => (dcmap lib pn rn names es res' tops').map fun o => o.map fun p => (⟨idx, cstr e.key, t⟩ :: p.1, p.2)

/-- `skip_first` (src/plugins/meta_core.inc:296-299): the assertion is that of `vscf_simple_get_as_bool`. -/
def skipOf : Option Val → Outcome (Option Bool)
  | none => .ok (some false)
  | some (.simple _ t) => .ok (getBool t)
  | some _ => .ub

/-- `make_resource` (src/plugins/meta_core.inc:285-319), with the hash of the resource. -/
def makeResource (lib : Lib) (k : Kind) (undef : Bool) (namesOf : Val → Option (List Bytes)) (rn : Bytes) (res tops : List (Entry Val)) :
    Outcome (Option (Resource × List (Entry Val))) :=
  match (find res k.key).bind namesOf with
  | none => .ok none
  | some names =>
    (assert (!names.isEmpty)).bind fun _ =>
    (skipOf (find res (str "skip_first"))).bind fun
    | none => .ok none
    | some skip =>
      match find res (str "dcmap") with
      | some (.hash dcs) =>
        if (if undef = true then dcs.length = 0 else dcs.length ≠ names.length) then .ok none
        else
          (dcmap lib k.name rn names dcs (Res.marks res [k.key, str "skip_first", str "dcmap"]) tops).map fun o => o.map fun p => (⟨rn, names, p.1, skip⟩, p.2)
      | _ => .ok none

/-- The loop over the resources (src/plugins/meta_core.inc:459-467). -/
def resources (lib : Lib) (k : Kind) (undef : Bool) (namesOf : Val → Option (List Bytes)) (config : List (Entry Val)) :
    List (Entry Val) → List (Entry Val) → Outcome (Option (List Resource × List (Entry Val)))
  | [], tops => .ok (some ([], tops))
  | e :: es, tops =>
    match e.val with
    | .hash opts =>
      (inheritAll config opts true).bind fun res =>
      (makeResource lib k undef namesOf (cstr e.key) res tops).bind fun
      | none => .ok none
      | some (r, tops') => (resources lib k undef namesOf config es tops').map fun o => o.map fun p => (r :: p.1, p.2)
    | _ => .ok none

/-- `CB_LOAD_CONFIG` (src/plugins/meta_core.inc:436-470) for a hash: the resources, and the stanzas of all plugins. -/
def load (lib : Lib) (k : Kind) (config tops : List (Entry Val)) : Outcome (Option (List Resource × List (Entry Val))) :=
  match k.hook config with
  | none => .ok none
  | some (undef, namesOf) =>
    match find config (str "resources") with
    | some (.hash rs) =>
      if rs.length > 2 ^ 24 then .ok none
      else if rs.length = 0 then .ok none
      else resources lib k undef namesOf (Res.marks config (k.used ++ [str "resources"])) rs tops
    | _ => .ok none

/-! ### What is monitored -/

/-- The name of the state that only the administrator changes (src/plugins/meta_core.inc:197-199). -/
def adminName (pn rn dn : Bytes) : Bytes := pn ++ str "/" ++ rn ++ str "/" ++ dn

/-- The requests for a datacenter, in their order (src/plugins/meta_core.inc:198, 245, 251). -/
def Dc.reqs (pn rn : Bytes) (d : Dc) : List Req :=
  .admin (adminName pn rn d.name) :: match d.target with
    | .cname text dname svcs => svcs.map fun s => .service s (.cname text dname)
    | .res _ _ => []

/-- The requests for a resource. -/
def Resource.reqs (pn : Bytes) (r : Resource) : List Req := r.dcs.flatMap (Dc.reqs pn r.name)

/-- The datacenters, with the indices that their requests got; `sub`: the resolver of a resource, `map`: the state of a
datacenter in the map (`map_mon_idx`, geoip only). -/
def numbered (pn rn : Bytes) (sub : Bytes → Option Bytes → Plug.Resolver) (map : Nat → Option Nat) : List Dc → List Nat → List (Nat × Plug.Dc)
  | [], _ => []
  | d :: ds, is =>
    let what := match d.target with
      | .cname _ dname svcs => Sum.inl (dname, (is.drop 1).take svcs.length)
      | .res p n => Sum.inr (sub p n)
    (d.idx, ⟨map d.idx, is.headD 0, what⟩) :: numbered pn rn sub map ds (is.drop (d.reqs pn rn).length)

/-- The resource as the resolver has it: an array with one more entry than the map has datacenters. -/
def Resource.numbered (pn : Bytes) (sub : Bytes → Option Bytes → Plug.Resolver) (map : Nat → Option Nat) (r : Resource) (is : List Nat) : Plug.MetaRes :=
  let ds := Meta.numbered pn r.name sub map r.dcs is
  ⟨none :: (List.range r.names.length).map fun i => (ds.find? fun p => p.1 == i + 1).map (·.2), r.names.length, r.dcs.length, r.skip⟩

end Gdnsd.Meta
