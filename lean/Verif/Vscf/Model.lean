/-
libgdnsd/vscf.rl: the language of configuration files, and the data that it describes.

The automaton that Ragel generates is modelled as its table (`trans`: state and character to state and
actions) and a stack, and the actions one by one. On one transition two actions meet if a string begins
right behind another one: the start of the token of the second and the end of the first. Ragel numbers
actions in the order of the source, entering actions of an expression before what is inside, so the start
would come first. There is no Ragel here to check that, so the order is a parameter (`early`), and
everything is proved for both.

Line counts and messages are left out. A container is attached to its parent when it is closed, in the
code when it is opened (nothing else is added to the parent in between). Hashes are lists here; the hash
table is modelled in Table.lean. The file system does not change while it is read.

`.ok none` is an error that is reported. `.ub` is a failed assertion, an access outside a buffer, or
recursion without end.
-/
import Verif.Dname.Model
namespace Gdnsd.Vscf

/-! ### Data -/

/-- `vscf_hentry_t` (libgdnsd/vscf.rl:72-80), without the parts of the hash table. -/
structure Entry (α : Type) where
  key : Bytes
  marked : Bool
  val : α
deriving DecidableEq, Repr

/-- `vscf_data_t` (libgdnsd/vscf.rl:56-98): strings as written and what they mean, arrays, hashes in order.
Without the pointers to the parents. -/
inductive Val where
  | simple (raw val : Bytes)
  | array (vs : List Val)
  | hash (es : List (Entry Val))

/-- A container that is being filled. -/
inductive Cont where
  | arr (vs : List Val)
  | hash (es : List (Entry Val))

def Cont.toVal : Cont → Val
  | .arr vs => .array vs
  | .hash es => .hash es

/-- Go on unless there was an error. -/
def andThen {α β : Type} (x : Outcome (Option α)) (f : α → Outcome (Option β)) : Outcome (Option β) :=
  match x with
  | .ub => .ub
  | .ok none => .ok none
  | .ok (some a) => f a

/-- `unescape_string` (libgdnsd/vscf.rl:252-272). -/
def unescape (t : Bytes) : Outcome (Option Bytes) :=
  bif t.isEmpty then .ok (some [])
  else
    andThen (Dname.unescape (t.length + 1) t t.length) fun v => (assert (decide (v.length ≤ t.length))).bind fun _ =>
    .ok (bif v.isEmpty then none else some v)

/-- `simple_new` (libgdnsd/vscf.rl:275-291). -/
def simpleNew (raw : Bytes) : Outcome (Option Val) :=
  andThen (unescape raw) fun v => .ok (some (.simple raw v))

/-! ### The automaton -/

/-- What a string is for. -/
inductive Use where
  | key
  | simple
  | file
deriving DecidableEq, Repr

/-- Where in an escape (libgdnsd/vscf.rl:660-662): not in one, behind the backslash, behind a first digit 0
or 1, behind a first digit 2, behind 25, and with one digit to go. -/
inductive Esc where
  | plain
  | bs
  | d01
  | d2
  | d25
  | last
deriving DecidableEq, Repr

/-- The machines (libgdnsd/vscf.rl:743-764): `main` in its two branches, `hash` and `array`. -/
inductive Ctx where
  | top
  | topArr
  | hash
  | arr
deriving DecidableEq, Repr

/-- Where white space is: at the start of `main`, where an item may come, where an item or a comma may come,
behind a key, before a value, before and behind the name in `$include{}`, and behind the array of
`top_array`. -/
inductive Ws where
  | start
  | item
  | after
  | eq
  | val
  | inc
  | incEnd
  | done
deriving DecidableEq, Repr

/-- A position in a machine. `opr` is behind `=`, `endq` behind the quote that ends a string, `kw n` behind
`n` characters of `$include{`. -/
inductive Pos where
  | ws (w : Ws)
  | comment (w : Ws)
  | opr
  | str (u : Use) (quoted : Bool) (e : Esc)
  | endq (u : Use)
  | kw (n : Nat)
deriving DecidableEq, Repr

/-- Actions (libgdnsd/vscf.rl:626-648, 689-727). The two of each pair for quoted and other strings are one,
and so are `close_array` and `close_hash`, which are the same. -/
inductive Act where
  | start
  | leave (u : Use) (quoted : Bool)
  | openArr
  | openHash
  | close
  | topArr
deriving DecidableEq, Repr

/-- `chr` (libgdnsd/vscf.rl:666). -/
def isChr (c : UInt8) : Bool := !([125, 123, 59, 35, 32, 9, 10, 44, 34, 61, 92, 93, 91].contains c)

/-- `fchr` (libgdnsd/vscf.rl:671). -/
def isFchr (c : UInt8) : Bool := isChr c && c != 36

/-- The first character of a string (libgdnsd/vscf.rl:677-683, 730). -/
def strT (u : Use) (c : UInt8) : Option (Pos × List Act) :=
  bif c == 34 then some (.str u true .plain, [.start])
  else bif c == 92 then some (.str u false .bs, [.start])
  else bif isFchr c then some (.str u false .plain, [.start])
  else none

/-- The first character of a value (libgdnsd/vscf.rl:733-741). Where a machine is called, this is the
position to return to. -/
def valueT (c : UInt8) : Option (Pos × List Act) :=
  bif c == 91 then some (.ws .after, [.openArr])
  else bif c == 123 then some (.ws .after, [.openHash])
  else bif c == 36 then some (.kw 1, [])
  else strT .simple c

/-- The first character of an item, or the end of the items (libgdnsd/vscf.rl:743-764). -/
def itemT (ctx : Ctx) (c : UInt8) : Option (Pos × List Act) :=
  match ctx with
  | .top => bif c == 36 then some (.kw 1, []) else strT .key c
  | .hash =>
    bif c == 125 then some (.ws .after, [.close]) else bif c == 36 then some (.kw 1, []) else strT .key c
  | .arr => bif c == 93 then some (.ws .after, [.close]) else valueT c
  | .topArr => bif c == 93 then some (.ws .done, []) else valueT c

/-- A character where white space may be (libgdnsd/vscf.rl:650-658). -/
def wsT (ctx : Ctx) (w : Ws) (c : UInt8) : Option (Pos × List Act) :=
  bif c == 32 || c == 9 || c == 10 then some (.ws w, [])
  else bif c == 59 || c == 35 then some (.comment w, [])
  else match w with
  | .start => bif c == 91 then some (.ws .item, [.topArr]) else itemT ctx c
  | .item => itemT ctx c
  | .after => bif c == 44 then some (.ws .item, []) else itemT ctx c
  | .eq => bif c == 61 then some (.opr, []) else none
  | .val => valueT c
  | .inc => strT .file c
  | .incEnd => bif c == 125 then some (.ws .after, []) else none
  | .done => none

/-- Where the white space behind a string is. -/
def next : Use → Ws
  | .key => .eq
  | .simple => .after
  | .file => .incEnd

/-- The actions of a transition that leaves a string. -/
def pend (early : Bool) (a : Act) (as : List Act) : List Act :=
  bif early && as == [.start] then [.start, a] else a :: as

/-- `'$include{'` (libgdnsd/vscf.rl:731). -/
def kwText : Bytes := [36, 105, 110, 99, 108, 117, 100, 101, 123]

/-- The transitions inside of escapes (libgdnsd/vscf.rl:660-662). -/
def escT (e : Esc) (c : UInt8) : Option Esc :=
  let dig := 48 ≤ c && c ≤ 57
  match e with
  | .plain => none
  | .bs => bif c == 48 || c == 49 then some .d01 else bif c == 50 then some .d2 else bif dig then none else some .plain
  | .d01 => bif dig then some .last else none
  | .d2 => bif 48 ≤ c && c ≤ 52 then some .last else bif c == 53 then some .d25 else none
  | .d25 => bif 48 ≤ c && c ≤ 53 then some .plain else none
  | .last => bif dig then some .plain else none

/-- The table of the automaton. -/
def trans (early : Bool) (ctx : Ctx) (p : Pos) (c : UInt8) : Option (Pos × List Act) :=
  match p with
  | .ws w => wsT ctx w c
  | .comment w => some (bif c == 10 then .ws w else .comment w, [])
  | .opr => bif c == 62 then some (.ws .val, []) else wsT ctx .val c
  | .kw n => bif kwText[n]? == some c then some (bif n == 8 then .ws .inc else .kw (n + 1), []) else none
  | .str u q .plain =>
    bif c == 92 then some (.str u q .bs, [])
    else bif q then some (bif c == 34 then .endq u else .str u q .plain, [])
    else bif isChr c then some (.str u q .plain, [])
    else (wsT ctx (next u) c).map fun x => (x.1, pend early (.leave u false) x.2)
  | .str u q e => (escT e c).map fun e' => (.str u q e', [])
  | .endq u => (wsT ctx (next u) c).map fun x => (x.1, pend early (.leave u true) x.2)

/-! ### The actions -/

/-- `stat`, `glob` (`none` if it fails, no path if there is no match) and the contents of files (`none` if
`gdnsd_fmap_new` fails). -/
structure Env where
  isDir : Bytes → Bool
  glob : Bytes → Option (List Bytes)
  read : Bytes → Option Bytes

/-- The container that is filled (the top of `cont_stack`) and `cur_key`. -/
structure Dat where
  cur : Cont
  key : Option Bytes

/-- `vscf_scnr_t` (libgdnsd/vscf.rl:100-118): the state, `cs_stack` (only the machine, it always returns to
behind a value), `cont_stack` (its top, and the others
with the key to add to), `cur_key`, and what is between `tstart` and `p` (followed only inside of strings,
before the next string it is not used). -/
structure St where
  ctx : Ctx
  pos : Pos
  ret : List Ctx
  dat : Dat
  up : List (Cont × Bytes)
  tok : Option Bytes

/-- The keys of a hash. -/
def keys (es : List (Entry Val)) : List Bytes := es.map (·.key)

/-- `hash_add_val` (libgdnsd/vscf.rl:170-205) on the list. -/
def addEntry (es : List (Entry Val)) (k : Bytes) (v : Val) : Option (List (Entry Val)) :=
  bif (keys es).contains k then none else some (es ++ [⟨k, false, v⟩])

/-- `add_to_cur_container` with `scnr_hash_add_val` and `array_add_val` (libgdnsd/vscf.rl:207-238, 366-381). -/
def addVal (d : Dat) (v : Val) : Outcome (Option Dat) :=
  match d.cur with
  | .arr vs => .ok (some { d with cur := .arr (vs ++ [v]) })
  | .hash es =>
    match d.key with
    | none => .ub
    | some k => .ok ((addEntry es k v).map fun es' => ⟨.hash es', none⟩)

/-- `cont_stack_push` (libgdnsd/vscf.rl:540-551) and `fcall`. -/
def openC (s : St) (c : Cont) (ctx : Ctx) : Outcome (Option St) :=
  match s.dat.cur with
  | .arr _ => .ok (some { s with up := (s.dat.cur, []) :: s.up, dat := ⟨c, s.dat.key⟩, ret := s.ctx :: s.ret, ctx := ctx, pos := .ws .item })
  | .hash es =>
    match s.dat.key with
    | none => .ub
    | some k =>
      bif (keys es).contains k then .ok none
      else .ok (some { s with up := (s.dat.cur, k) :: s.up, dat := ⟨c, none⟩, ret := s.ctx :: s.ret, ctx := ctx, pos := .ws .item })

/-- A container with a new member. -/
def Cont.put (c : Cont) (k : Bytes) (v : Val) : Cont :=
  match c with
  | .arr vs => .arr (vs ++ [v])
  | .hash es => .hash (es ++ [⟨k, false, v⟩])

/-- `cont_stack_pop` (libgdnsd/vscf.rl:553-558) and `fret`. -/
def closeC (s : St) : Outcome (Option St) :=
  match s.up, s.ret with
  | (c, k) :: up, ctx :: ret => .ok (some { s with up := up, dat := ⟨c.put k s.dat.cur.toVal, s.dat.key⟩, ret := ret, ctx := ctx, pos := .ws .after })
  | _, _ => .ub

/-- A string up to its first zero byte, as C functions see it. -/
def cstr (b : Bytes) : Bytes := b.takeWhile fun c => c != 0

/-- Up to and with the last slash (libgdnsd/vscf.rl:530-531). -/
def dirOf (f : Bytes) : Bytes := (f.reverse.dropWhile fun c => c != 47).reverse

/-- The merge of `vscf_include_file` (libgdnsd/vscf.rl:415-424). -/
def mergeInto : List (Entry Val) → List (Entry Val) → Option (List (Entry Val))
  | es, [] => some es
  | es, e :: r => (addEntry es e.key e.val).bind fun es' => mergeInto es' r

/-- `vscf_include_file` (libgdnsd/vscf.rl:397-431). `load` is `vscf_scan_filename`. -/
def incFile (load : Bytes → Outcome (Option Val)) (d : Dat) (p : Bytes) : Outcome (Option Dat) :=
  andThen (load p) fun v =>
  match d.cur, d.key with
  | .hash es, none =>
    match v with
    | .array _ => .ok none
    | .simple _ _ => .ub
    | .hash r => .ok ((mergeInto es r).map fun es' => ⟨.hash es', none⟩)
  | _, _ => addVal d v

/-- The loop of `vscf_include_glob` (libgdnsd/vscf.rl:455-460). -/
def incFiles (load : Bytes → Outcome (Option Val)) : List Bytes → Dat → Outcome (Option Dat)
  | [], d => .ok (some d)
  | p :: ps, d => andThen (incFile load d p) fun d' => incFiles load ps d'

/-- Where a value is expected and not a key (libgdnsd/vscf.rl:447). -/
def valueCtx (d : Dat) : Bool :=
  match d.cur, d.key with
  | .hash _, none => false
  | _, _ => true

/-- `vscf_include_glob` (libgdnsd/vscf.rl:433-465). -/
def incGlob (load : Bytes → Outcome (Option Val)) (found : Option (List Bytes)) (d : Dat) : Outcome (Option Dat) :=
  match found with
  | none => .ok none
  | some ps => bif valueCtx d && 1 < ps.length then .ok none else incFiles load ps d

/-- `vscf_include_glob_or_dir` (libgdnsd/vscf.rl:467-490): `GLOB_NOCHECK` makes the pattern itself the match
if there is no other. -/
def paths (env : Env) (p : Bytes) : Option (List Bytes) :=
  bif env.isDir p then env.glob (p ++ (bif p.isEmpty || p.getLast? == some 47 then [42] else [47, 42]))
  else (env.glob p).map fun l => bif l.isEmpty then [p] else l

/-- `scnr_proc_include` (libgdnsd/vscf.rl:491-538). -/
def procInclude (env : Env) (load : Bytes → Outcome (Option Val)) (fn : Option Bytes) (t : Bytes) (d : Dat) : Outcome (Option Dat) :=
  bif t.head? == some 47 then incGlob load (paths env (cstr t)) d
  else match fn with
  | none => .ok none
  | some f => incGlob load (paths env (cstr (dirOf f ++ t))) d

/-- The end of a string: `set_key`, `scnr_set_simple` (libgdnsd/vscf.rl:356-364, 383-393) and
`scnr_proc_include`. -/
def leave (env : Env) (load : Bytes → Outcome (Option Val)) (fn : Option Bytes) (u : Use) (t : Bytes) (d : Dat) : Outcome (Option Dat) :=
  match u with
  | .key => andThen (unescape t) fun k => .ok (some { d with key := some k })
  | .simple => andThen (simpleNew t) fun v => addVal d v
  | .file => procInclude env load fn t d

/-- The token without its quotes: `scnr->tstart++` and `fpc - 1`. If they would cross, the length is about
2^32 and the copy leaves the buffer. -/
def token (s : St) (quoted : Bool) : Outcome Bytes :=
  match s.tok with
  | none => .ub
  | some t => bif quoted then (bif t.length < 2 then .ub else .ok (t.drop 1).dropLast) else .ok t

/-- One action. -/
def exec (env : Env) (load : Bytes → Outcome (Option Val)) (fn : Option Bytes) (a : Act) (s : St) : Outcome (Option St) :=
  match a with
  | .start => .ok (some { s with tok := some [] })
  | .leave u q =>
    (token s q).bind fun t => andThen (leave env load fn u t s.dat) fun d => .ok (some { s with dat := d, tok := none })
  | .openArr => openC s (.arr []) .arr
  | .openHash => openC s (.hash []) .hash
  | .close => closeC s
  | .topArr =>
    match s.up, s.dat.cur with
    | [], .hash _ => .ok (some { s with dat := ⟨.arr [], s.dat.key⟩, ctx := .topArr })
    | _, _ => .ub

def execs (env : Env) (load : Bytes → Outcome (Option Val)) (fn : Option Bytes) : List Act → St → Outcome (Option St)
  | [], s => .ok (some s)
  | a :: as, s => andThen (exec env load fn a s) fun s' => execs env load fn as s'

/-- Inside of a string. -/
def Pos.inStr : Pos → Bool
  | .str _ _ _ => true
  | .endq _ => true
  | _ => false

/-- One character. -/
def step (early : Bool) (env : Env) (load : Bytes → Outcome (Option Val)) (fn : Option Bytes) (s : St) (c : UInt8) : Outcome (Option St) :=
  match trans early s.ctx s.pos c with
  | none => .ok none
  | some (p, as) =>
    andThen (execs env load fn as { s with pos := p }) fun s' => .ok (some (bif s'.pos.inStr then { s' with tok := s'.tok.map (· ++ [c]) } else s'))

def run (early : Bool) (env : Env) (load : Bytes → Outcome (Option Val)) (fn : Option Bytes) : Bytes → St → Outcome (Option St)
  | [], s => .ok (some s)
  | c :: r, s => andThen (step early env load fn s c) fun s' => run early env load fn r s'

/-- What is returned (libgdnsd/vscf.rl:835-847). -/
def result (s : St) : Outcome (Option Val) :=
  (assert s.up.isEmpty).bind fun _ => .ok (some s.dat.cur.toVal)

/-- The end of the text (libgdnsd/vscf.rl:818-847): actions that leave a string run in final states, and
other states are errors. -/
def finish (env : Env) (load : Bytes → Outcome (Option Val)) (fn : Option Bytes) (s : St) : Outcome (Option Val) :=
  match s.ctx, s.pos with
  | .top, .ws .start => result s
  | .top, .ws .item => result s
  | .top, .ws .after => result s
  | .top, .str .simple false .plain => andThen (exec env load fn (.leave .simple false) s) result
  | .top, .endq .simple => andThen (exec env load fn (.leave .simple true) s) result
  | .topArr, .ws .done => result s
  | _, _ => .ok none

/-- The start of `vscf_scan_buf` (libgdnsd/vscf.rl:775-793). -/
def init : St :=
  { ctx := .top, pos := .ws .start, ret := [], dat := ⟨.hash [], none⟩, up := [], tok := some [] }

/-- `vscf_scan_buf` (libgdnsd/vscf.rl:775-848). -/
def scanBuf (early : Bool) (env : Env) (load : Bytes → Outcome (Option Val)) (fn : Option Bytes) (text : Bytes) : Outcome (Option Val) :=
  andThen (run early env load fn text init) (finish env load fn)

/-- `vscf_scan_filename` (libgdnsd/vscf.rl:850-865), with stack for `n` files in each other. A failure of
`gdnsd_fmap_delete` is left out. -/
def scanFile (early : Bool) (env : Env) : Nat → Bytes → Outcome (Option Val)
  | 0, _ => .ub
  | n + 1, p =>
    match env.read p with
    | none => .ok none
    | some t => scanBuf early env (scanFile early env n) (some p) t

end Gdnsd.Vscf
