import Verif.Basic
/-
Model of src/cookie.c (whole file except memory protection and logging).

The two libsodium primitives are parameters: the key derivation (fixed context, a
primary key and a 64-bit counter to a key, cookie.c:189-191) and the keyed hash
(cookie.c:320, 8 bytes of output by the static assertion at 148). RCU publication of
the key set is modelled as an atomic replacement of the state.
-/
namespace Gdnsd.Cookie

/-- The primitives (cookie.c:139-149). -/
structure Crypto (Key : Type) where
  /-- `KDF_FUNC(out, len, ctr, kdf_ctx, primary_key)` -/
  kdf : Bytes → UInt64 → Key
  /-- `SHORTHASH_FUNC(out, in, inlen, key)` -/
  hash : Key → Bytes → Bytes
  hash_len : ∀ k m, (hash k m).length = 8

variable {Key : Type}

/-- `timekeys_t` (cookie.c:151-155). -/
structure TimeKeys (Key : Type) where
  previous : Key
  current : Key
  next : Key

/-- `rotate_timekeys` (cookie.c:174-203) at `time(NULL) = now`. -/
def rotate (c : Crypto Key) (primary : Bytes) (now : UInt64) : TimeKeys Key :=
  let cur := now / 3600
  { previous := c.kdf primary (cur - 1), current := c.kdf primary cur, next := c.kdf primary (cur + 1) }

/-- The part of `gdnsd_anysin_t` used (cookie.c:306-311): `sa_family` and address bytes in
network order. -/
inductive Addr where
  | v4 (a : Bytes)
  | v6 (a : Bytes)
deriving DecidableEq, Repr

/-- The address has the size of its family. -/
def Addr.Ok : Addr → Prop
  | .v4 a => a.length = 4
  | .v6 a => a.length = 16

/-- Setup of `scookie_input` (cookie.c:305-312): the zero-filled 16 address bytes. -/
def addrBytes : Addr → Bytes
  | .v4 a => a ++ List.replicate (16 - a.length) 0
  | .v6 a => a

/-- `sodium_memcmp` on two 8-byte buffers: 0 or -1 (all ones), cookie.c:328-333. -/
def memcmp8 (a b : Bytes) : Int := if a = b then 0 else -1

/-- `cookie_process` (cookie.c:293-345): validity and the 16 output bytes. The `int`
combination `!((c1 & c2 & c3) | inlen_check)` (335-336): `&` of values that are 0 or all
ones is 0 iff one is 0; `|` with the xor of the lengths is 0 iff both are 0. -/
def process (c : Crypto Key) (keys : TimeKeys Key) (client : Addr) (inp : Bytes) : Outcome (Bool × Bytes) :=
  (assert (inp.length == 8 || (decide (inp.length ≥ 16) && decide (inp.length ≤ 40)))).bind fun _ =>
  let msg := addrBytes client ++ inp.take 8
  let cur := c.hash keys.current msg
  let valid :=
    if inp.length > 8 then
      let sc := (inp.drop 8).take 8
      let c1 := memcmp8 (c.hash keys.previous msg) sc
      let c2 := memcmp8 cur sc
      let c3 := memcmp8 (c.hash keys.next msg) sc
      let inlenCheck := inp.length ^^^ 16
      decide ((c1 = 0 ∨ c2 = 0 ∨ c3 = 0) ∧ inlenCheck = 0)
    else false
  .ok (valid, inp.take 8 ++ cur)

/-- `safe_read_keyfile` (cookie.c:212-221): `none` is an unreadable or missing file; one
`read` of up to 32 bytes must return 32. -/
def readKeyfile (file : Option Bytes) : Option Bytes :=
  match file with
  | some b => if (b.take 32).length = 32 then some (b.take 32) else none
  | none => none

/-- `safe_write_keyfile` (cookie.c:223-232): `O_EXCL`, so an existing file is never
overwritten. `writable`: the directory can be written and the write completes. -/
def writeKeyfile (file : Option Bytes) (writable : Bool) (key : Bytes) : Option Bytes :=
  match file with
  | some b => some b
  | none => if writable then some key else none

/-- `cookie_config` (cookie.c:247-275). `keyFile` is the contents of the configured key
file (outer `none`: not configured; inner `none`: unreadable); `auto` the contents of the
auto-key file; `rnd` the fresh random key. Result: primary key and the auto-key file
afterwards, or `none` for `log_fatal`. -/
def config (keyFile : Option (Option Bytes)) (auto : Option Bytes) (writable : Bool) (rnd : Bytes) :
    Option (Bytes × Option Bytes) :=
  match keyFile with
  | some f => (readKeyfile f).map fun k => (k, auto)
  | none =>
    match readKeyfile auto with
    | some k => some (k, auto)
    | none => some (rnd, writeKeyfile auto writable rnd)

/-- What happens to a running server: the hourly timer fires (cookie.c:206-210), or a
request with a cookie is processed. -/
inductive Event where
  | timer (now : UInt64)
  | query (client : Addr) (inp : Bytes)

/-- One event: new keys and the result of `cookie_process` if any. -/
def step (c : Crypto Key) (primary : Bytes) (keys : TimeKeys Key) : Event → Outcome (TimeKeys Key × Option (Bool × Bytes))
  | .timer now => .ok (rotate c primary now, none)
  | .query a inp => (process c keys a inp).bind fun r => .ok (keys, some r)

/-- A run from `cookie_runtime_init` (cookie.c:277-291) at time `start`: the keys after
the events. -/
def run (c : Crypto Key) (primary : Bytes) (keys : TimeKeys Key) : List Event → Outcome (TimeKeys Key)
  | [] => .ok keys
  | e :: es => (step c primary keys e).bind fun r => run c primary r.1 es

end Gdnsd.Cookie
