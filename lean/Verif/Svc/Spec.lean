/-
What `service_types` says, as the manual describes it (docs/gdnsd.config.podin, docs/gdnsd-plugin-*.podin). The ranges of
`interval` and `timeout` are those of the code: the manual has other ones (1 to 255), within which it has no room for the
timeout it demands.
-/
import Verif.Conf.Spec
import Verif.Conf.ListenSpec
import Verif.Svc.Model
namespace Gdnsd.SvcSpec
open Vscf VscfSpec ConfSpec Svc

/-- The numbers that all service types have. -/
structure Numbers (es : List (Entry Val)) (g : Gen) : Prop where
  up : UintOf es "up_thresh" 1 65535 20 g.up
  ok : UintOf es "ok_thresh" 1 65535 10 g.ok
  down : UintOf es "down_thresh" 1 65535 10 g.down
  interval : UintOf es "interval" 2 3600 10 g.interval
  timeout : UintOf es "timeout" 1 300 (g.interval / 2) g.timeout
  less : g.timeout < g.interval

/-- Data that has one or several elements. -/
def Several (v : Val) (l : List Val) : Prop := v = .array l ∨ (l = [v] ∧ ∀ vs, v ≠ .array vs)

/-- Elements that are each a number from 100 to 999. -/
inductive Codes : List Val → List Nat → Prop
  | nil : Codes [] []
  | cons {r t n vs ns} : Count t n → 100 ≤ n → n ≤ 999 → Codes vs ns → Codes (.simple r t :: vs) (n :: ns)

/-- Elements that are each a text. -/
inductive Texts : List Val → List Bytes → Prop
  | nil : Texts [] []
  | cons {r t u vs us} : UpToZero t u → Texts vs us → Texts (.simple r t :: vs) (u :: us)

/-- A state with a lifetime as plugins exchange it: the highest bit is "down", the lower 28 bits are the lifetime. -/
def sttlOf (down : Bool) (ttl : Nat) : UInt32 := ((if down = true then 2 ^ 31 else 0) + ttl).toUInt32

/-- Equal up to the case of letters. -/
def Fold (s t : Bytes) : Prop := SameWord t s

/-- What the options of a plugin say. -/
inductive Says (es : List (Entry Val)) : Plug → Kind → Prop
  | http {url vhost port l} :
      TextOf es "url_path" (some (nm "/")) (some url) → TextOf es "vhost" none vhost → UintOf es "port" 1 65534 80 port →
      ((Absent es "ok_codes" ∧ l = [200]) ∨ ∃ v vs, Is es "ok_codes" v ∧ Several v vs ∧ vs ≠ [] ∧ Codes vs l) →
      Says es .http (.http url vhost port l)
  | tcp {port} : UintOf es "port" 1 65534 0 port → port ≠ 0 → Says es .tcp (.tcp port)
  | extmon {m v vs args d} :
      UintOf es "max_proc" 0 65534 0 m → Is es "cmd" v → Several v vs → 1 ≤ vs.length → vs.length ≤ 254 → Texts vs args →
      BoolOf es "direct" false d → Says es .extmon (.extmon m args d)
  | extfile {f d ttl down} :
      TextOf es "file" none (some f) → BoolOf es "direct" false d → UintOf es "def_ttl" 1 268435455 268435455 ttl →
      BoolOf es "def_down" false down → Says es .extfile (.extfile f d (sttlOf down ttl))
  | static {ttl down} :
      UintOf es "ttl" 0 268435455 268435455 ttl →
      ((Absent es "state" ∧ down = false) ∨
        ∃ u, TextOf es "state" none (some u) ∧ ((Fold u (nm "down") ∧ down = true) ∨ (Fold u (nm "up") ∧ down = false))) →
      Says es .static (.static (sttlOf down ttl))
  | null : Says es .null .null

/-- The names of plugins that monitor. -/
inductive Named : Bytes → Plug → Prop
  | http : Named (nm "http_status") .http
  | tcp : Named (nm "tcp_connect") .tcp
  | extmon : Named (nm "extmon") .extmon
  | extfile : Named (nm "extfile") .extfile
  | static : Named (nm "static") .static
  | null : Named (nm "null") .null

/-- The options there are. -/
def known : Plug → List String
  | .http => ["plugin", "up_thresh", "ok_thresh", "down_thresh", "interval", "timeout", "url_path", "vhost", "port", "ok_codes"]
  | .tcp => ["plugin", "up_thresh", "ok_thresh", "down_thresh", "interval", "timeout", "port"]
  | .extmon => ["plugin", "up_thresh", "ok_thresh", "down_thresh", "interval", "timeout", "max_proc", "cmd", "direct"]
  | .extfile => ["plugin", "up_thresh", "ok_thresh", "down_thresh", "interval", "timeout", "file", "direct", "def_ttl", "def_down"]
  | .static => ["plugin", "up_thresh", "ok_thresh", "down_thresh", "interval", "timeout", "ttl", "state"]
  | _ => ["plugin", "up_thresh", "ok_thresh", "down_thresh", "interval", "timeout"]

/-- An entry of `service_types` that declares a service type, with its name, plugin and options. -/
inductive Declares : Entry Val → Bytes → Plug → List (Entry Val) → Prop
  | intro {k m es r t name u p} : UpToZero k name → name ≠ nm "up" → name ≠ nm "down" → Is es "plugin" (.simple r t) → UpToZero t u →
      Named u p → Declares ⟨k, m, .hash es⟩ name p es

/-- An entry of `service_types` that says this. -/
inductive Means : Entry Val → Stype → Prop
  | intro {e name p es g kind} : Declares e name p es → Numbers es g → Says es p kind → Only es (known p) → Means e ⟨name, g, kind⟩

/-- Entries that say these, one by one. -/
inductive All {α β : Type} (P : α → β → Prop) : List α → List β → Prop
  | nil : All P [] []
  | cons {a b as bs} : P a b → All P as bs → All P (a :: as) (b :: bs)

/-- No data is of a kind that `http_status` and `extmon` do not expect: codes of the one and the truth value of the other
are texts. -/
def Plain (e : Entry Val) : Prop :=
  ∀ name es,
    (Declares e name .http es → ∀ v, Is es "ok_codes" v → ∀ vs, Several v vs → ∀ w ∈ vs, ∃ r t, w = .simple r t) ∧
    (Declares e name .extmon es → ∀ v, Is es "direct" v → ∃ r t, v = .simple r t)

end Gdnsd.SvcSpec
