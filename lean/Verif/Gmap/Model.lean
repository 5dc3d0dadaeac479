/-
The configuration of the maps of `geoip` and how records of a GeoIP2 database are mapped: libgdmaps/dcinfo.c,
libgdmaps/dcmap.c, libgdmaps/dclists.c lines 63-79, 111-169 and 188-233, libgdmaps/gdmaps.c lines 89-153 and 488-507,
libgdmaps/nets.c lines 64-128, libgdmaps/gdgeoip2.c lines 110-332 and 445-461.

The data is what Verif/Vscf reads from the file; `log_fatal` ends the program: the result `none`. `.ub` is a failed assertion
or memory that is written outside of an array. What happens with lists and networks afterwards is in Verif/Maps and Verif/Geo.
Not modelled: messages, memory, paths of files (only their texts), `MMDB_open` and how libmaxminddb finds values in records.
-/
import Verif.Res.Model
import Verif.Maps.Model
namespace Gdnsd.Gmap
open Vscf Conf
open Res (Dbl)
open Maps (LIST_MAX autoLimit cityList NetCfg)

/-- An address and a port. -/
inductive Sock where
  | v4 (ip : Bytes) (port : Nat)
  | v6 (ip : Bytes) (port : Nat)
deriving DecidableEq, Repr

/-- What the C library makes of texts: `vscf_simple_get_as_double` (libgdnsd/vscf.rl:1066-1082), and
`gdnsd_anysin_getaddrinfo` (libgdnsd/net.c) with a port; and whether the datacenter at one place (degrees) is closer to a location
than that at another, for `dists[a] < dists[b]` (libgdmaps/dclists.c:207-216): `none` has no coordinates. -/
structure Lib where
  dbl : Bytes → Option Dbl
  sock : Bytes → Bytes → Option Sock
  closer : Dbl × Dbl → Option (Dbl × Dbl) → Option (Dbl × Dbl) → Bool

/-! ### Datacenters -/

/-- `dci_t` (libgdmaps/dcinfo.h:59-63). The coordinates are in degrees here; without them, the latitude is not a number. -/
structure Dc where
  name : Bytes
  coords : Option (Dbl × Dbl)
deriving DecidableEq, Repr

/-- The loop over `datacenters` (libgdmaps/dcinfo.c:99-110). -/
def dcNames : List Val → Option (List Bytes)
  | [] => some []
  | .simple _ t :: vs => if cstr t = str "auto" then none else (dcNames vs).map (cstr t :: ·)
  | _ :: _ => none

/-- `x > n || x < -n`. -/
def beyond (n : Nat) : Dbl → Bool
  | .nan => false
  | .inf _ => true
  | .num _ m k => decide (n * 2 ^ k < m)

/-- The value of a datacenter in `auto_dc_coords` (libgdmaps/dcinfo.c:57-75). -/
def coordsOf (lib : Lib) : Val → Option (Option (Dbl × Dbl))
  | .array [.simple _ a, .simple _ b] =>
    match lib.dbl a, lib.dbl b with
    | some lat, some lon => if beyond 90 lat || beyond 180 lon then none else some (if lat = .nan then none else some (lat, lon))
    | _, _ => none
  | _ => none

/-- The loop of `dcinfo_init_auto` (libgdmaps/dcinfo.c:43-79). -/
def initAuto (lib : Lib) : List (Entry Val) → List Dc → Option (List Dc)
  | [], dcs => some dcs
  | e :: es, dcs =>
    match dcs.findIdx? fun d => d.name == cstr e.key with
    | none => none
    | some i =>
      if (dcs[i]?.bind Dc.coords).isSome then none
      else
        match coordsOf lib e.val with
        | none => none
        | some c => initAuto lib es (dcs.modify i fun d => { d with coords := c })

/-- `auto_dc_limit` (libgdmaps/dcinfo.c:115-118). -/
def limitOf : Option Val → Option (Option Nat)
  | none => some none
  | some (.simple _ t) => (getUlong t).map some
  | some _ => none

/-- `dcinfo_init` (libgdmaps/dcinfo.c:87-125): the datacenters and the limit of automatic lists. -/
def dcInfo (lib : Lib) (dcs : Val) (auto limit : Option Val) : Option (List Dc × Nat) :=
  let vs := Svc.items dcs
  if vs.length = 0 ∨ 254 < vs.length then none
  else
    match dcNames vs with
    | none => none
    | some ns =>
      let plain := ns.map fun n => Dc.mk n none
      let located := match auto with
        | none => some (plain, ns.length)
        | some (.hash es) => (initAuto lib es plain).map fun ds => (ds, es.length)
        | some _ => none
      match located, limitOf limit with
      | some (ds, n), some l => some (ds, autoLimit n l)
      | _, _ => none

/-- What `dcinfo_init` asks `monreg_func_t` for (libgdmaps/dcinfo.c:106-109): the names under which datacenters can be forced. -/
def admin (map : Bytes) (dcs : List Dc) : List Bytes := dcs.map fun d => str "geoip/" ++ map ++ str "/" ++ d.name

/-- `dcinfo_name2num` (libgdmaps/dcinfo.c:143-150). -/
def name2num (names : List Bytes) (n : Bytes) : Nat :=
  match names.findIdx? (· == n) with
  | some i => i + 1
  | none => 0

/-! ### Lists -/

/-- A list in the `map` stanza: an index, or `DCLIST_AUTO` (libgdmaps/dclists.h:61). -/
inductive Ref where
  | auto
  | idx (i : Nat)
deriving DecidableEq, Repr

/-- `dclists_new` (libgdmaps/dclists.c:63-79). Strings are without their terminating zero. -/
def allDcs (n : Nat) : Bytes := (List.range' 1 n).map Nat.toUInt8

/-- The loop of `dclists_xlate_vscf` (libgdmaps/dclists.c:143-155), at index `i` of the buffer of 256 bytes: the list, or `none` for
`auto`. -/
def xlateFrom (names : List Bytes) (auto : Bool) : Nat → List Val → Outcome (Option (Option Bytes))
  | i, [] => if 256 ≤ i then .ub else .ok (some (some []))
  | i, .simple _ t :: vs =>
    if auto = true ∧ cstr t = str "auto" then .ok (some none)
    else if name2num names (cstr t) = 0 then .ok none
    else if 256 ≤ i then .ub
    else (xlateFrom names auto (i + 1) vs).map fun o => o.map fun p => p.map fun l => (name2num names (cstr t)).toUInt8 :: l
  | _, _ :: _ => .ok none

/-- `dclists_xlate_vscf` (libgdmaps/dclists.c:137-158). -/
def xlate (names : List Bytes) (auto : Bool) (v : Val) : Outcome (Option (Option Bytes)) :=
  xlateFrom names (auto && (Svc.items v).length == 1) 0 (Svc.items v)

/-- `dclists_find_or_add_raw` (libgdmaps/dclists.c:112-128). The strings have no zeros in them. -/
def findOrAdd (lists : List Bytes) (c : Bytes) : Option (List Bytes × Nat) :=
  match lists.findIdx? (· == c) with
  | some i => some (lists, i)
  | none => if lists.length > LIST_MAX then none else some (lists ++ [c], lists.length)

/-- `dclists_find_or_add_vscf` (libgdmaps/dclists.c:160-169). -/
def addVscf (names : List Bytes) (auto : Bool) (lists : List Bytes) (v : Val) : Outcome (Option (List Bytes × Ref)) :=
  (xlate names auto v).map fun o => o.bind fun
    | none => some (lists, .auto)
    | some l => (findOrAdd lists l).map fun p => (p.1, .idx p.2)

/-! ### The `map` stanza -/

mutual

/-- `dcmap_t` (libgdmaps/dcmap.c:46-51) and a child that is a list. -/
inductive Dcmap where
  | list (r : Ref)
  | node (dflt : Ref) (kids : Kids)

/-- `dcmap_child_t` (libgdmaps/dcmap.c:40-44), in their order. -/
inductive Kids where
  | nil
  | cons (name : Bytes) (m : Dcmap) (rest : Kids)

end

/-- The default list at the top (libgdmaps/dcmap.c:87-97, 103-104), which replaces the first list (libgdmaps/dclists.c:131-135). -/
def topDefault (names : List Bytes) (auto : Bool) (lists : List Bytes) : Option Val → Outcome (Option (List Bytes × Ref))
  | none => .ok (some (lists, if auto = true then .auto else .idx 0))
  | some v => (xlate names auto v).map fun o => o.map fun
    | none => (lists, .auto)
    | some l => (lists.set 0 l, .idx 0)

/-- The default list further down (libgdmaps/dcmap.c:98-99, 105-107). -/
def innerDefault (names : List Bytes) (auto : Bool) (lists : List Bytes) (parent : Ref) : Option Val → Outcome (Option (List Bytes × Ref))
  | none => .ok (some (lists, parent))
  | some v => addVscf names auto lists v

mutual

/-- `dcmap_new_iter` (libgdmaps/dcmap.c:63-77) for a value, with `dcmap_new` (libgdmaps/dcmap.c:79-125) below the top. -/
def child (names : List Bytes) (auto : Bool) (parent : Ref) (lists : List Bytes) : Val → Outcome (Option (List Bytes × Dcmap))
  | .hash es =>
    (innerDefault names auto lists parent (find es (str "default"))).bind fun
      | none => .ok none
      | some (lists, d) => (kids names auto d lists es).map fun o => o.map fun p => (p.1, .node d p.2)
  | .simple r t => (addVscf names auto lists (.simple r t)).map fun o => o.map fun p => (p.1, .list p.2)
  | .array vs => (addVscf names auto lists (.array vs)).map fun o => o.map fun p => (p.1, .list p.2)

/-- The iteration over the children (libgdmaps/dcmap.c:110-122). Simplified: the only key that is marked is `default`, which is so
in data that was just read. -/
def kids (names : List Bytes) (auto : Bool) (dflt : Ref) (lists : List Bytes) : List (Entry Val) → Outcome (Option (List Bytes × Kids))
  | [] => .ok (some (lists, .nil))
  | ⟨k, _, v⟩ :: es =>
    if k = str "default" then kids names auto dflt lists es
    else
      (child names auto dflt lists v).bind fun
        | none => .ok none
        | some (lists, m) => (kids names auto dflt lists es).map fun o => o.map fun p => (p.1, .cons (cstr k) m p.2)

end

/-- `dcmap_new` (libgdmaps/dcmap.c:79-125) at the top. -/
def dcmapNew (names : List Bytes) (auto : Bool) (lists : List Bytes) (es : List (Entry Val)) : Outcome (Option (List Bytes × Dcmap)) :=
  (topDefault names auto lists (find es (str "default"))).bind fun
    | none => .ok none
    | some (lists, d) => (kids names auto d lists es).map fun o => o.map fun p => (p.1, .node d p.2)

/-! ### Networks -/

/-- A text at the first `/` (`strchr`, libgdmaps/nets.c:80-85). -/
def splitSlash : Bytes → Option (Bytes × Bytes)
  | [] => none
  | c :: cs => if c = 47 then some ([], cs) else (splitSlash cs).map fun p => (c :: p.1, p.2)

/-- The entry of a key and a list (libgdmaps/nets.c:70-117), before its mask is looked at: a key of 86 bytes or more
(`GDNSD_ANYSIN_MAXSTR`, include/gdnsd/net.h:74) is too long. -/
def netOf (lib : Lib) (key : Bytes) : Option (Bytes → NetCfg) :=
  if 86 ≤ key.length then none
  else
    match splitSlash (cstr key) with
    | none => none
    | some (a, m) =>
      match lib.sock a m with
      | none => none
      | some (.v4 ip p) => some (NetCfg.v4 ip p)
      | some (.v6 ip p) => some (NetCfg.v6 ip p)

/-- The loop of `nets_parse` (libgdmaps/nets.c:69-124): `some none` is a network that is refused. Lists that are found or added are
given as they are: see Verif/Maps for their indices. -/
def netsParse (lib : Lib) (names : List Bytes) : List (Entry Val) → Outcome (Option (Option (List NetCfg)))
  | [] => .ok (some (some []))
  | e :: es =>
    match netOf lib e.key with
    | none => .ok (some none)
    | some f =>
      if (f []).passes = true then
        (xlate names false e.val).bind fun
          | none => .ok none
          | some none => .ub
          | some (some l) => (netsParse lib names es).map fun o => o.map fun p => p.map fun ns => f l :: ns
      else .ok (some none)

/-- `nets`: networks in the configuration, or a file. -/
inductive Nets where
  | inline (ns : List NetCfg)
  | file (path : Bytes)
deriving DecidableEq, Repr

/-- `nets` (libgdmaps/gdmaps.c:138-149). -/
def netsOf (lib : Lib) (names : List Bytes) : Option Val → Outcome (Option Nets)
  | none => .ok (some (.inline []))
  | some (.hash es) => (netsParse lib names es).map fun o => o.bind fun p => p.map .inline
  | some (.simple _ t) => .ok (if t.length = 0 then none else some (.file (cstr t)))
  | some (.array _) => .ok none

/-! ### A map -/

/-- `gdmap_t` (libgdmaps/gdmaps.c:66-87) after `gdmap_init`. `lists`: those of the `map` stanza (`dclists_pend`), without those that
only `nets` has. -/
structure Gdmap where
  name : Bytes
  dcs : List Dc
  limit : Nat
  auto : Bool
  ignoreEcs : Bool
  db : Option Bytes
  tree : Option Dcmap
  lists : List Bytes
  nets : Nets

/-- `ignore_ecs` (libgdmaps/gdmaps.c:115-117). -/
def ecsOf : Option Val → Outcome (Option Bool)
  | none => .ok (some false)
  | some (.simple _ t) => .ok (getBool t)
  | some _ => .ub

/-- `geoip2_db` (libgdmaps/gdmaps.c:120-125). -/
def dbOf : Option Val → Option (Option Bytes)
  | none => some none
  | some (.simple _ t) => if t.length = 0 then none else some (some (cstr t))
  | some _ => none

/-- `map` (libgdmaps/gdmaps.c:128-135). -/
def treeOf (names : List Bytes) (auto : Bool) (db : Option Bytes) (lists : List Bytes) : Option Val → Outcome (Option (List Bytes × Option Dcmap))
  | none => .ok (some (lists, none))
  | some (.hash es) => if db = none then .ok none else (dcmapNew names auto lists es).map fun o => o.map fun p => (p.1, some p.2)
  | some _ => .ok none

/-- The keys that `gdmap_init` marks. -/
def mapKeys : List Bytes :=
  [str "datacenters", str "auto_dc_coords", str "auto_dc_limit", str "ignore_ecs", str "geoip2_db", str "map", str "nets"]

/-- `gdmap_init` (libgdmaps/gdmaps.c:96-153). -/
def gdmapInit (lib : Lib) (name : Bytes) : Val → Outcome (Option Gdmap)
  | .hash es =>
    match find es (str "datacenters") with
    | none => .ok none
    | some dcs =>
      let auto := (find es (str "auto_dc_coords")).isSome
      match dcInfo lib dcs (find es (str "auto_dc_coords")) (find es (str "auto_dc_limit")) with
      | none => .ok none
      | some (ds, limit) =>
        let names := ds.map Dc.name
        (ecsOf (find es (str "ignore_ecs"))).bind fun
        | none => .ok none
        | some ecs =>
          match dbOf (find es (str "geoip2_db")) with
          | none => .ok none
          | some db =>
            (treeOf names auto db [allDcs ds.length] (find es (str "map"))).bind fun
            | none => .ok none
            | some (lists, tree) =>
              (netsOf lib names (find es (str "nets"))).bind fun
              | none => .ok none
              | some nets =>
                .ok (if es.all (fun e => mapKeys.contains e.key) = true then some ⟨cstr name, ds, limit, auto, ecs, db, tree, lists, nets⟩ else none)
  | _ => .ok none

/-- `gdmaps_new` (libgdmaps/gdmaps.c:488-507). -/
def gdmapsNew (lib : Lib) : List (Entry Val) → Outcome (Option (List Gdmap))
  | [] => .ok (some [])
  | e :: es =>
    (gdmapInit lib e.key e.val).bind fun
      | none => .ok none
      | some m => (gdmapsNew lib es).map fun o => o.map (m :: ·)

/-- The maps and their datacenters as `plugin_geoip` asks for them with `gdmaps_name2idx`, `gdmaps_get_dc_count` and
`gdmaps_dcname2num` (libgdmaps/gdmaps.c:509-534); a program that has ended has none. -/
def table (lib : Lib) (es : List (Entry Val)) : Option (List (Bytes × List Bytes)) :=
  match gdmapsNew lib es with
  | .ok (some ms) => some (ms.map fun m => (m.name, m.dcs.map Dc.name))
  | _ => none

/-! ### Records of a database -/

/-- What `MMDB_aget_value` finds for a path: a text, nothing, or something else. -/
inductive Got where
  | text (t : Bytes)
  | absent
  | error
deriving DecidableEq, Repr

/-- The same for a number. -/
inductive GotNum where
  | num (d : Dbl)
  | absent
  | error
deriving DecidableEq, Repr

/-- The values of a record that are looked at (libgdmaps/gdgeoip2.c:193-195, 257, 278-279); subdivisions from 0. -/
structure Record where
  continent : Got
  country : Got
  sub : Nat → Got
  city : Got
  lat : GotNum
  lon : GotNum

/-- `memcpy` to `lookup` (libgdmaps/gdgeoip2.c:199-203): `DCMAP_LOOKUP_MAXLEN` is 128 with the terminating zero. -/
def copy (t : Bytes) : Outcome Bytes := if 128 ≤ t.length then .ub else .ok (cstr t)

/-- `mmdb_lookup_utf8_` (libgdmaps/gdgeoip2.c:197-209): what `lookup` holds then. `none`: the database is given up. -/
def fetch : Got → Outcome (Option Bytes)
  | .text t => (copy t).map some
  | .absent => .ok (some [])
  | .error => .ok none

/-- `geoip2_dcmap_cb` (libgdmaps/gdgeoip2.c:217-276): the name, and `out_of_data` then. -/
def callback (city : Bool) (r : Record) (out : Bool) (level : Nat) : Outcome (Option (Bytes × Bool)) :=
  if out = true then .ok (some ([], true))
  else if level = 0 then (fetch r.continent).map fun o => o.map fun t => (t, false)
  else if level = 1 then (fetch r.country).map fun o => o.map fun t => (t, !city)
  else if 11 < level then .ok (some ([], true))
  else
    match r.sub (level - 2) with
    | .text t => (copy t).map fun t => some (t, false)
    | .absent => (fetch r.city).map fun o => o.map fun t => (t, true)
    | .error => .ok none

/-- The search among the children (libgdmaps/dcmap.c:146-153). -/
def Kids.search (x : Bytes) : Kids → Option Dcmap
  | .nil => none
  | .cons n m ks => if Svc.caseEq x n = true then some m else ks.search x

/-- `dcmap_llc_` (libgdmaps/dcmap.c:130-157). The first number bounds the steps of the loop and of the recursion together: it is
never used up, since there is no name beyond level 11 (see `C100_total_partial`). -/
def llc (city : Bool) (r : Record) : Nat → Dcmap → Nat → Bool → Outcome (Option Ref)
  | _, .list ref, _, _ => .ok (some ref)
  | _, .node d .nil, _, _ => .ok (some d)
  | 0, .node _ (.cons _ _ _), _, _ => .ub
  | f + 1, .node d (.cons n m ks), level, out =>
    (callback city r out level).bind fun
      | none => .ok none
      | some (x, out) =>
        if x = [] then .ok (some d)
        else
          match (Kids.cons n m ks).search x with
          | some t => llc city r f t (level + 1) out
          | none => if 2 < level + 1 then llc city r f (.node d (.cons n m ks)) (level + 1) out else .ok (some d)

/-- `dcmap_lookup_loc_callback` (libgdmaps/dcmap.c:159-162). -/
def lookupLoc (city : Bool) (r : Record) (t : Dcmap) : Outcome (Option Ref) := llc city r 13 t 0 false

/-- `dclists_city_auto_map` (libgdmaps/dclists.c:188-233). -/
def autoMap (lib : Lib) (m : Gdmap) (lists : List Bytes) (lat lon : Dbl) : Outcome (Option (List Bytes × Nat)) :=
  let at' := fun n => m.dcs[n - 1]?.bind Dc.coords
  (cityList m.dcs.length m.limit ((lists[0]?.getD []).map UInt8.toNat) fun a b => lib.closer (lat, lon) (at' a) (at' b)).map fun l =>
    findOrAdd lists (l.map Nat.toUInt8)

/-- The list that the `map` stanza leads to (libgdmaps/gdgeoip2.c:302-309). -/
def refOf (m : Gdmap) (city : Bool) (r : Record) : Outcome (Option Ref) :=
  match m.tree with
  | none => .ok (some .auto)
  | some t => lookupLoc city r t

/-- `geoip2_get_dclist` (libgdmaps/gdgeoip2.c:293-332). `none`: the database is given up, or `log_fatal`. -/
def getDclist (lib : Lib) (m : Gdmap) (city : Bool) (lists : List Bytes) (r : Record) : Outcome (Option (List Bytes × Nat)) :=
  (assert (m.tree.isSome || m.auto)).bind fun _ =>
  (refOf m city r).bind fun
  | none => .ok none
  | some (.idx i) => (assert (decide (i ≤ LIST_MAX))).map fun _ => some (lists, i)
  | some .auto =>
    (assert (m.auto && city)).bind fun _ =>
    match r.lat with
    | .error => .ok none
    | .absent => .ok (some (lists, 0))
    | .num lat =>
      match r.lon with
      | .error => .ok none
      | .absent => .ok (some (lists, 0))
      | .num lon => autoMap lib m lists lat lon

/-- The datacenters of the list that a record gets, which does not depend on lists that other records added before: see
`C100_stable`. -/
def content (lib : Lib) (m : Gdmap) (city : Bool) (lists : List Bytes) (r : Record) : Bytes :=
  match getDclist lib m city lists r with
  | .ok (some (lists, i)) => lists[i]?.getD []
  | _ => []

/-! ### Databases -/

/-- `MMDB_metadata_s`, what is looked at. -/
structure DbInfo where
  major : Nat
  recordSize : Nat
  ipVersion : Nat
  type : Bytes

/-- `strstr`. -/
def hasInfix (w : Bytes) : Bytes → Bool
  | [] => w.isEmpty
  | c :: cs => w.isPrefixOf (c :: cs) || hasInfix w cs

/-- `is_city` (libgdmaps/gdgeoip2.c:167). -/
def DbInfo.city (d : DbInfo) : Bool := hasInfix (str "City") d.type

/-- `geoip2_new` (libgdmaps/gdgeoip2.c:110-191) after the file is open, and the check of `gdgeoip2_make_list`
(libgdmaps/gdgeoip2.c:451): whether the database is processed. Otherwise loading fails (libgdmaps/gdmaps.c:206-210), which ends
the program when it starts (libgdmaps/gdmaps.c:275-276). -/
def usable (m : Gdmap) (d : DbInfo) : Bool :=
  d.major == 2 && decide (d.recordSize ≤ 32) && (d.ipVersion == 4 || d.ipVersion == 6) && (d.city || !m.auto) && (m.auto || m.tree.isSome)

end Gdnsd.Gmap
