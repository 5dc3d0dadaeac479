/-
src/plugins/mon.c: how service types are configured (lines 595-728), with `add_svctype` of each plugin
(src/plugins/*.c), `gdnsd_plugin_find` and `gdnsd_plugins_configure_all` (src/plugins/plugapi.c), in the order of
src/conf.c:333-369.

The data is what Verif/Vscf reads from the file. `log_fatal` ends the program: the result `none`. What resolver plugins
make of their own part is not in here; whether something is monitored in the end is a parameter. `.ub` is a failed
assertion: `vscf_simple_get_as_ulong` and `vscf_simple_get_as_bool` on data that is not a string.
-/
import Verif.Conf.Model
import Verif.Mon.Model
namespace Gdnsd.Svc
open Vscf Conf

/-- The plugins with `add_svctype`, and all others. -/
inductive Plug where
  | http
  | tcp
  | extmon
  | extfile
  | static
  | null
  | resolver
deriving DecidableEq, Repr

/-- `plugins` (src/plugins/plugapi.c:35-50) with the names in their structures. -/
def plugins : List (String × Plug) :=
  [("geoip", .resolver), ("metafo", .resolver), ("http_status", .http), ("multifo", .resolver), ("null", .null),
   ("reflect", .resolver), ("simplefo", .resolver), ("static", .static), ("tcp_connect", .tcp), ("weighted", .resolver),
   ("extfile", .extfile), ("extmon", .extmon)]

/-- `gdnsd_plugin_find` (src/plugins/plugapi.c:145-157). -/
def findPlugin (n : Bytes) : Option Plug := (plugins.find? fun p => str p.1 == n).map (·.2)

/-! ### Phase 1 -/

/-- A service type after phase 1: its name, plugin and options. -/
structure Decl where
  name : Bytes
  plug : Plug
  es : List (Entry Val)

/-- One service type of `gdnsd_mon_cfg_stypes_p1` (src/plugins/mon.c:638-653). -/
def declOf (e : Entry Val) : Option Decl :=
  let name := cstr e.key
  if name = str "up" ∨ name = str "down" then none
  else
    match e.val with
    | .hash es =>
      match find es (str "plugin") with
      | some (.simple _ v) =>
        if v.length = 0 then none
        else
          match findPlugin (cstr v) with
          | none => none
          | some .resolver => none
          | some p => some ⟨name, p, es⟩
      | _ => none
    | _ => none

/-- `gdnsd_mon_cfg_stypes_p1` (src/plugins/mon.c:618-655), without "up" and "down". -/
def phase1 : Option Val → Option (List Decl)
  | none => some []
  | some (.hash es) => es.mapM declOf
  | some _ => none

/-! ### Phase 2 -/

/-- `service_type_t` (src/plugins/mon.c:38-46), the numbers. -/
structure Gen where
  up : Nat
  ok : Nat
  down : Nat
  interval : Nat
  timeout : Nat
deriving DecidableEq, Repr

/-- The options of all service types (src/plugins/mon.c:686-697). -/
def genOpts : Opts Gen := do
  let up ← optUint "up_thresh" 1 65535 20
  let ok ← optUint "ok_thresh" 1 65535 10
  let down ← optUint "down_thresh" 1 65535 10
  let interval ← optUint "interval" 2 3600 10
  let timeout ← optUint "timeout" 1 300 (interval >>> 1)
  require (¬ timeout ≥ interval)
  pure ⟨up, ok, down, interval, timeout⟩

/-- What a plugin keeps of a service type: `http_svc_t` (src/plugins/http_status.c:44-53; the request is made of the path
and the host, see Verif/Poll), `tcp_svc_t` (src/plugins/tcp_connect.c:46-51), `svc_t` (src/plugins/extmon.c), `extf_svc_t`
(src/plugins/extfile.c:58-69; the path as it is written), `static_svc_t` (src/plugins/static.c:131-134). -/
inductive Kind where
  | http (url : Bytes) (vhost : Option Bytes) (port : Nat) (ok : List Nat)
  | tcp (port : Nat)
  | extmon (maxProc : Nat) (args : List Bytes) (direct : Bool)
  | extfile (file : Bytes) (direct : Bool) (sttl : UInt32)
  | static (sttl : UInt32)
  | null
deriving DecidableEq, Repr

/-- The elements that `vscf_array_get_data` gives for the indices below `vscf_array_get_len`. -/
def items : Val → List Val
  | .array vs => vs
  | v => [v]

/-- The loop over `ok_codes` (src/plugins/http_status.c:422-430). -/
def codes : List Val → Outcome (Option (List Nat))
  | [] => .ok (some [])
  | .simple _ t :: vs =>
    match getUlong t with
    | none => .ok none
    | some n => if n < 100 ∨ n > 999 then .ok none else (codes vs).map fun o => o.map (n % 2 ^ 32 :: ·)
  | _ :: _ => .ub

/-- `ok_codes` (src/plugins/http_status.c:415-438). -/
def okCodes : Option Val → Outcome (Option (List Nat))
  | none => .ok (some [200])
  | some v => if (items v).length = 0 then .ok none else codes (items v)

/-- The options of `plugin_http_status_add_svctype` (src/plugins/http_status.c:412-415). -/
def httpOpts : Opts (Option Bytes × Option Bytes × Nat × Option Val) := do
  let url ← optStr "url_path" (some (str "/"))
  let vhost ← optStr "vhost" none
  let port ← optUint "port" 1 65534 80
  let codes ← ask "ok_codes"
  pure (url, vhost, port, codes)

/-- `plugin_http_status_add_svctype` (src/plugins/http_status.c:398-444). -/
def httpSvc (es : List (Entry Val)) : Outcome (Option (Kind × List Bytes)) :=
  match httpOpts es with
  | none => .ok none
  | some ((url, vhost, port, c), k) => (okCodes c).map fun o => o.map fun l => (.http (url.getD []) vhost port l, k)

/-- `plugin_tcp_connect_add_svctype` (src/plugins/tcp_connect.c:222-237). -/
def tcpSvc : Opts Kind := do
  let port ← optUint "port" 1 65534 0
  require (port ≠ 0)
  pure (.tcp port)

/-- `cmd` (src/plugins/extmon.c:386-400). -/
def cmdArgs : List Val → Option (List Bytes)
  | [] => some []
  | .simple _ t :: vs => (cmdArgs vs).map (cstr t :: ·)
  | _ :: _ => none

/-- The options of `plugin_extmon_add_svctype` up to `direct` (src/plugins/extmon.c:373-403). -/
def extmonOpts : Opts (Nat × List Bytes × Option Val) := do
  let maxProc ← optUint "max_proc" 0 65534 0
  match ← ask "cmd" with
  | none => fatal
  | some v =>
    require (¬ (items v).length < 1)
    require (¬ (items v).length > 254)
    match cmdArgs (items v) with
    | none => fatal
    | some args =>
      let d ← ask "direct"
      pure (maxProc, args, d)

/-- `direct` of extmon (src/plugins/extmon.c:402-405): the type of the data is not checked. -/
def direct : Option Val → Outcome (Option Bool)
  | none => .ok (some false)
  | some (.simple _ t) => .ok (getBool t)
  | some _ => .ub

/-- `plugin_extmon_add_svctype` (src/plugins/extmon.c:373-406). -/
def extmonSvc (es : List (Entry Val)) : Outcome (Option (Kind × List Bytes)) :=
  match extmonOpts es with
  | none => .ok none
  | some ((m, args, d), k) => (direct d).map fun o => o.map fun b => (.extmon m args b, k)

/-- `plugin_extfile_add_svctype` (src/plugins/extfile.c:98-124). -/
def extfileSvc : Opts Kind := do
  match ← ask "file" with
  | some (.simple _ v) =>
    let d ← optBool "direct" false
    let ttl ← optUint "def_ttl" 1 268435455 268435455
    let down ← optBool "def_down" false
    pure (.extfile (cstr v) d (if down = true then ttl.toUInt32 ||| Mon.DOWN else ttl.toUInt32))
  | _ => fatal

/-- `strcasecmp` says that two strings are equal. -/
def caseEq (s t : Bytes) : Bool := s.map Mon.lower == t.map Mon.lower

/-- `plugin_static_add_svctype` (src/plugins/static.c:146-176). -/
def staticSvc : Opts Kind := do
  let ttl ← optUint "ttl" 0 268435455 268435455
  match ← ask "state" with
  | none => pure (.static ttl.toUInt32)
  | some (.simple _ v) =>
    if caseEq (cstr v) (str "down") = true then pure (.static (ttl.toUInt32 ||| Mon.DOWN))
    else if caseEq (cstr v) (str "up") = true then pure (.static ttl.toUInt32)
    else fatal
  | some _ => fatal

/-- `add_svctype` of a plugin; `plugin_null_add_svctype` (src/plugins/null.c:77-86) has no options. -/
def addSvc (p : Plug) (es : List (Entry Val)) : Outcome (Option (Kind × List Bytes)) :=
  match p with
  | .http => httpSvc es
  | .tcp => .ok (tcpSvc es)
  | .extmon => extmonSvc es
  | .extfile => .ok (extfileSvc es)
  | .static => .ok (staticSvc es)
  | .null => .ok (some (.null, []))
  | .resolver => .ub

/-- A service type. -/
structure Stype where
  name : Bytes
  gen : Gen
  kind : Kind
deriving DecidableEq, Repr

/-- One service type of phase 2 (src/plugins/mon.c:675-701). The key "plugin" is marked by phase 1. -/
def stypeOf (d : Decl) : Outcome (Option Stype) :=
  match genOpts d.es with
  | none => .ok none
  | some (g, k1) =>
    (addSvc d.plug d.es).bind fun
    | none => .ok none
    | some (kind, k2) => .ok (if allMarked (str "plugin" :: (k1 ++ k2)) d.es = true then some ⟨d.name, g, kind⟩ else none)

/-- The loop of phase 2 (src/plugins/mon.c:674-701). -/
def stypes : List Decl → Outcome (Option (List Stype))
  | [] => .ok (some [])
  | d :: ds =>
    (stypeOf d).bind fun
    | none => .ok none
    | some s => (stypes ds).map fun o => o.map (s :: ·)

/-- `gdnsd_plugins_configure_all` (src/plugins/plugapi.c:161-169), for the plugins of service types that were not configured
in `plugins`: only `plugin_static_load_config` (src/plugins/static.c:80-83) ends the program without a configuration;
`extmon` uses its defaults then (src/plugins/extmon.c:330-355), `null` has none and the others have no such function. -/
def configureAll (hasStatic : Bool) (ds : List Decl) : Option Unit :=
  if hasStatic = false ∧ (ds.any fun d => d.plug == .static) = true then none else some ()

/-- Service types, from `conf_load` (src/conf.c:332-369). `hasStatic`: `plugins` has an entry for `static`. `monitored`: a
resource of a plugin uses a service type (`need_p2`, src/plugins/mon.c:660-670); if none does, the result is the
declarations only. -/
def configure (hasStatic monitored : Bool) (cfg : Option Val) : Outcome (Option (List Decl × Option (List Stype))) :=
  match phase1 cfg with
  | none => .ok none
  | some ds =>
    match configureAll hasStatic ds with
    | none => .ok none
    | some _ =>
      if monitored = false then .ok (some (ds, none))
      else (stypes ds).map fun o => o.map fun l => (ds, some l)

end Gdnsd.Svc
