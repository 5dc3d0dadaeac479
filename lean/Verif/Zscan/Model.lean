/-
src/zscan_rfc1035.rl: reading zone files.

The functions called by the scanner are modelled one by one. The automaton that Ragel generates is
modelled as functions that read one token after the other. Where several rules of the grammar match
the same text their actions are the same, except where noted. An action of Ragel runs on the first
character behind its token, so only if that character may follow; `ends` and `isWs` checks come before
the action here. A file is the list of the records it adds (see Verif/Load for adding them): an add
that fails ends the scan, here the list goes on, which can only add failures. Line counts of the
scanner (not of the preprocessor) are left out, and `xmalloc` of very much memory succeeds.

`.ok none` is an error that is reported and makes the zone fail. `.ub` is a failed assertion, an access
outside a buffer, or the end of the daemon by `log_fatal`.
-/
import Verif.Load.Model
namespace Gdnsd.Zscan
open Load (Rdata Add andThen)

/-! ### The preprocessor -/

/-- Where `preprocess_buf` is: between characters, in the inner loop for a comment, or behind a
backslash. -/
inductive Mode where
  | plain
  | comment
  | escape
deriving DecidableEq, Repr

def put (c : UInt8) (x : Outcome (Except Nat Bytes)) : Outcome (Except Nat Bytes) := x.map fun e => e.map (c :: ·)

/-- `preprocess_buf` (src/zscan_rfc1035.rl:766-837): the new contents of the buffer, or the line of the
error. The list is the buffer from `i` on; reading behind it is undefined. -/
def pre (quotes parens : Bool) : Mode → Nat → Bytes → Outcome (Except Nat Bytes)
  | .plain, ln, [] => .ok (bif quotes || parens then .error ln else .ok [])
  | .comment, _, [] => .ub
  | .escape, _, [] => .ub
  | .comment, ln, c :: r =>
    bif c == 10 then put (bif parens then 12 else 10) (pre quotes parens .plain (ln + 1) r)
    else put 32 (pre quotes parens .comment ln r)
  | .escape, ln, c :: r => put c (pre quotes parens .plain (bif c == 10 then ln + 1 else ln) r)
  | .plain, ln, c :: r =>
    bif c == 10 then put (bif parens && !quotes then 12 else 10) (pre quotes parens .plain (ln + 1) r)
    else bif c == 59 then bif quotes then put c (pre quotes parens .plain ln r) else put 32 (pre quotes parens .comment ln r)
    else bif c == 34 then put c (pre (!quotes) parens .plain ln r)
    else bif c == 40 then
      bif quotes then put c (pre quotes parens .plain ln r) else bif parens then .ok (.error ln) else put 32 (pre quotes true .plain ln r)
    else bif c == 41 then
      bif quotes then put c (pre quotes parens .plain ln r) else bif parens then put 32 (pre quotes false .plain ln r) else .ok (.error ln)
    else bif c == 92 then put c (pre quotes parens .escape ln r)
    else bif c == 12 then bif quotes then put c (pre quotes parens .plain ln r) else .ok (.error ln)
    else put c (pre quotes parens .plain ln r)

/-! ### Settings and state -/

/-- `disable_text_autosplit`, the files that can be read (by path), and `inet_pton`. -/
structure Cfg where
  noSplit : Bool
  files : Bytes → Option Bytes
  pton4 : Bytes → Option Bytes
  pton6 : Bytes → Option Bytes

/-- The parts of `zscan_t` (src/zscan_rfc1035.rl:50-87) that outlive a statement. -/
structure Z where
  zone : Bytes
  origin : Bytes
  fileOrigin : Bytes
  lhs : Bytes
  ooz : Bool
  defTtl : UInt32
  fn : Bytes
deriving DecidableEq, Repr

/-! ### Names -/

/-- The loop of `dn_find_final_label_offset` (src/zscan_rfc1035.rl:156-171). -/
def finalGo (d : Bytes) : Nat → Nat → Outcome Nat
  | 0, _ => .ub
  | f + 1, off =>
    (rd d off).bind fun n => (rd d (off + n.toNat + 1)).bind fun t =>
    bif t == 255 then .ok off else finalGo d f (off + n.toNat + 1)

/-- `dn_find_final_label_offset` (src/zscan_rfc1035.rl:156-171). -/
def finalLabel (d : Bytes) : Outcome Nat :=
  (Dname.status d).bind fun s => (assert (s == .partialName)).bind fun _ => finalGo d 256 1

/-- `dn_qualify` (src/zscan_rfc1035.rl:187-220). -/
def qualify (d origin fileOrigin zone : Bytes) : Outcome (Dname.Status × Bytes) :=
  (Dname.status d).bind fun s => (assert (s == .partialName)).bind fun _ =>
  (rd d 0).bind fun d0 => (rd d 2).bind fun d2 =>
  bif d0 == 3 && d2 == 64 then
    (rd d 1).bind fun d1 => (rd d 3).bind fun d3 => (assert (d1 == 1 && d3 == 255)).bind fun _ => .ok (.valid, origin)
  else
    (finalLabel d).bind fun off => (rd d off).bind fun n => (assert (n != 0)).bind fun _ =>
    (rd d (off + 1)).bind fun c =>
    bif n == 2 && c == 64 then
      (rd d (off + 2)).bind fun which =>
      let d' := (d.set off 255).set 0 (d0 - 3)
      bif which == 122 then Dname.cat d' zone else bif which == 102 then Dname.cat d' fileOrigin else .ok (.invalid, d')
    else Dname.cat d origin

/-- `dname_set` (src/zscan_rfc1035.rl:223-267): the name, and `lhs_is_ooz` for a left-hand side. -/
def dnameSet (z : Z) (text : Bytes) (lhs : Bool) : Outcome (Option (Bytes × Bool)) :=
  let first : Outcome (Dname.Status × Bytes) :=
    bif text.isEmpty then (assert lhs).bind fun _ => .ok (.valid, z.origin) else Dname.fromString text text.length
  first.bind fun r =>
  match r.1 with
  | .invalid => .ok none
  | .valid =>
    bif lhs then
      (Dname.isInZone z.zone r.2).bind fun inz =>
      bif inz then (Dname.dropZone r.2 z.zone).bind fun d => .ok (some (d, false)) else .ok (some (r.2, true))
    else .ok (some (r.2, false))
  | .partialName =>
    (qualify r.2 z.origin z.fileOrigin z.zone).bind fun q =>
    match q.1 with
    | .invalid => .ok none
    | .partialName => .ub
    | .valid =>
      bif lhs then (Dname.dropZone q.2 z.zone).bind fun d => .ok (some (d, false)) else .ok (some (q.2, false))

/-! ### Characters -/

def isWs (c : UInt8) : Bool := c == 32 || c == 9 || c == 12

/-- `lit_chr` (src/zscan_rfc1035.rl:931). -/
def isLit (c : UInt8) : Bool := !([59, 32, 9, 12, 34, 10, 92, 41, 40].contains c)

def isDigit (c : UInt8) : Bool := 48 ≤ c && c ≤ 57

def isHex (c : UInt8) : Bool := isDigit c || (65 ≤ c && c ≤ 70) || (97 ≤ c && c ≤ 102)

def isAlpha (c : UInt8) : Bool := (65 ≤ c && c ≤ 90) || (97 ≤ c && c ≤ 122)

/-- Case is ignored in words of the grammar (`'IN'i`). -/
def low (c : UInt8) : UInt8 := bif 65 ≤ c && c ≤ 90 then c + 32 else c

/-- As many characters of the kind, or escapes (src/zscan_rfc1035.rl:922-940), as there are: they and
the rest; `none` for a bad escape. -/
def units (ok : UInt8 → Bool) : Bytes → Option (Bytes × Bytes)
  | [] => some ([], [])
  | c :: r =>
    bif c == 92 then
      match r with
      | [] => none
      | a :: r =>
        bif isDigit a then
          match r with
          | b :: d :: r => bif isDigit b && isDigit d then (units ok r).map fun x => (92 :: a :: b :: d :: x.1, x.2) else none
          | _ => none
        else (units ok r).map fun x => (92 :: a :: x.1, x.2)
    else bif ok c then (units ok r).map fun x => (c :: x.1, x.2)
    else some ([], c :: r)

/-- The characters of a kind at the front, and the rest. -/
def run (ok : UInt8 → Bool) : Bytes → Bytes × Bytes
  | [] => ([], [])
  | c :: r => bif ok c then ((c :: (run ok r).1), (run ok r).2) else ([], c :: r)

/-- `ws` (src/zscan_rfc1035.rl:920), at least one. -/
def ws (s : Bytes) : Option Bytes := bif (run isWs s).1.isEmpty then none else some (run isWs s).2

/-- What may follow the last token of a statement. -/
def ends : Bytes → Bool
  | c :: _ => isWs c || c == 10
  | [] => false

def blank : Bytes → Bool
  | c :: _ => isWs c
  | [] => false

/-! ### Tokens -/

/-- The rest of a quoted string: its contents, and what follows (`qword`, src/zscan_rfc1035.rl:927). -/
def quoted (s : Bytes) : Option (Bytes × Bytes) :=
  (units (fun c => c != 34) s).bind fun x =>
  match x.2 with
  | 34 :: r => some (x.1, r)
  | _ => none

/-- At least one unit. -/
def units1 (ok : UInt8 → Bool) (s : Bytes) : Option (Bytes × Bytes) :=
  (units ok s).bind fun x => bif x.1.isEmpty then none else some x

/-- `tword` or `qword`. -/
def word : Bytes → Option (Bytes × Bytes)
  | 34 :: r => quoted r
  | s => units1 isLit s

/-- The kinds of fields. -/
inductive Kind where
  | num
  | ttl
  | name
  | email
  | ip4
  | ip6
  | item
  | huge
  | prop
  | plug
deriving DecidableEq, Repr

/-- What a field was read as. -/
inductive Val where
  | num (n : UInt32)
  | bytes (b : Bytes)
deriving DecidableEq, Repr

def run1 (ok : UInt8 → Bool) (s : Bytes) : Option (Bytes × Bytes) := bif (run ok s).1.isEmpty then none else some (run ok s)

def isMult (c : UInt8) : Bool := [109, 104, 100, 119].contains (low c)

/-- `ttl` (src/zscan_rfc1035.rl:967-969): digits and a unit. -/
def ttlTok (s : Bytes) : Option (Bytes × Bytes) :=
  (run1 isDigit s).map fun x =>
  match x.2 with
  | c :: r => bif isMult c then (x.1 ++ [c], r) else x
  | [] => x

/-- `dname` or `qword` (src/zscan_rfc1035.rl:927, 940). -/
def nameTok : Bytes → Option (Bytes × Bytes)
  | 36 :: _ => none
  | s => word s

def isPlug (c : UInt8) : Bool := isLit c && c != 33

/-- `dyna_rdata` (src/zscan_rfc1035.rl:934, 963). -/
def plugTok (s : Bytes) : Option (Bytes × Bytes) :=
  (units1 isPlug s).bind fun x =>
  match x.2 with
  | 33 :: r => (units1 isPlug r).map fun y => (x.1 ++ 33 :: y.1, y.2)
  | _ => some x

/-- The token of a kind at the front (without quotes), and the rest (src/zscan_rfc1035.rl:927-989). -/
def tok : Kind → Bytes → Option (Bytes × Bytes)
  | .num, s => run1 isDigit s
  | .ttl, s => ttlTok s
  | .name, s => nameTok s
  | .email, s => nameTok s
  | .ip4, s => run1 (fun c => isDigit c || c == 46) s
  | .ip6, s => run1 (fun c => isHex c || c == 58 || c == 46) s
  | .item, s => word s
  | .huge, s => word s
  | .prop, s => run1 (fun c => isDigit c || isAlpha c) s
  | .plug, s => plugTok s

/-- The decimal value of digits. -/
def decimal (ds : Bytes) : Nat := ds.foldl (fun n d => 10 * n + (d.toNat - 48)) 0

/-- `set_uval` (src/zscan_rfc1035.rl:131-138): `strtoul` has 64 bits, `uval` 32. -/
def uval (ds : Bytes) : Option UInt32 := bif decimal ds < 18446744073709551616 then some (UInt32.ofNat (decimal ds)) else none

/-- `mult_uval` (src/zscan_rfc1035.rl:505-524). -/
def mult (c : UInt8) (v : UInt32) : Outcome UInt32 :=
  bif low c == 109 then .ok (v * 60) else bif low c == 104 then .ok (v * 3600) else bif low c == 100 then .ok (v * 86400)
  else bif low c == 119 then .ok (v * 604800) else .ub

/-- The actions of `ttl`. -/
def ttlVal (t : Bytes) : Outcome (Option UInt32) :=
  match uval (run isDigit t).1, (run isDigit t).2 with
  | none, _ => .ok none
  | some v, [] => .ok (some v)
  | some v, c :: _ => (mult c v).map some

/-- Splitting text in chunks of 255 bytes with their lengths (src/zscan_rfc1035.rl:363-380): `n` whole
chunks and the remainder. -/
def chunks : Nat → Bytes → Bytes
  | 0, t => bif t.isEmpty then [] else UInt8.ofNat t.length :: t
  | n + 1, t => 255 :: t.take 255 ++ chunks n (t.drop 255)

/-- Decoding the escapes of a token, as `text_add_tok`, `text_add_tok_huge` and `set_filename` do. -/
def unesc (tok : Bytes) : Outcome (Option Bytes) :=
  bif tok.isEmpty then .ok (some [])
  else
    (Dname.unescape tok.length tok tok.length).bind fun r =>
    match r with
    | none => .ok none
    | some t => (assert (decide (t.length ≤ tok.length))).map fun _ => some t

/-- `text_add_tok` (src/zscan_rfc1035.rl:336-396): the text so far with the token's. -/
def addTok (cfg : Cfg) (bigOk : Bool) (text tok : Bytes) : Outcome (Option Bytes) :=
  andThen (unesc tok) fun t =>
  bif 255 < t.length then
    bif !bigOk || cfg.noSplit then .ok none
    else bif 16000 < t.length then .ok none
    else
      let rem := t.length % 255
      let whole := (t.length - rem) / 255
      let alloc := t.length + whole + (bif rem == 0 then 0 else 1)
      bif 16000 < alloc + text.length then .ok none
      else (assert ((chunks whole t).length == alloc)).map fun _ => some (text ++ chunks whole t)
  else bif 16000 < t.length + 1 + text.length then .ok none
  else .ok (some (text ++ UInt8.ofNat t.length :: t))

/-- `text_add_tok` for one token after the other. -/
def addToks (cfg : Cfg) (bigOk : Bool) : Bytes → List Bytes → Outcome (Option Bytes)
  | text, [] => .ok (some text)
  | text, t :: ts => andThen (addTok cfg bigOk text t) fun text' => addToks cfg bigOk text' ts

/-- `text_add_tok_huge` (src/zscan_rfc1035.rl:399-424). -/
def hugeTok (tok : Bytes) : Outcome (Option Bytes) :=
  andThen (unesc tok) fun t => bif 16000 < t.length then .ok none else .ok (some t)

/-- A string up to its first zero byte, as C functions see it. -/
def cstr (b : Bytes) : Bytes := b.takeWhile fun c => c != 0

/-- The action of a token (src/zscan_rfc1035.rl:94-138, 336-424, 527-546, 848-912). For `item` the text is
that of this token only, see `build`. -/
def act (cfg : Cfg) (z : Z) : Kind → Bytes → Outcome (Option Val)
  | .num, t => .ok ((uval t).map .num)
  | .ttl, t => (ttlVal t).map fun v => v.map .num
  | .name, t => (dnameSet z t false).map fun d => d.map fun x => .bytes x.1
  | .email, t => (dnameSet z t false).map fun d => d.map fun x => .bytes x.1
  | .ip4, t => .ok (bif 15 < t.length then none else (cfg.pton4 t).map .bytes)
  | .ip6, t => .ok (bif 46 < t.length then none else (cfg.pton6 t).map .bytes)
  | .item, t => (addTok cfg false [] t).map fun x => x.map .bytes
  | .huge, t => (hugeTok t).map fun x => x.map .bytes
  | .prop, t => .ok (bif 255 < t.length then none else some (.bytes t))
  | .plug, t => .ok (bif 255 < t.length then none else some (.bytes (cstr t)))

/-- Fields with white space between them; behind the last one the statement may end. -/
def fields (cfg : Cfg) (z : Z) : List Kind → Bytes → Outcome (Option (List Val × Bytes))
  | [], s => .ok (some ([], s))
  | k :: ks, s =>
    match tok k s with
    | none => .ok none
    | some (t, r) =>
      bif ks.isEmpty then
        bif ends r then andThen (act cfg z k t) fun v => .ok (some ([v], r)) else .ok none
      else
        bif blank r then
          andThen (act cfg z k t) fun v => andThen (fields cfg z ks (run isWs r).2) fun x => .ok (some (v :: x.1, x.2))
        else .ok none

/-! ### Records -/

/-- The fields of the types with a fixed number of them, and whether they are dynamic
(src/zscan_rfc1035.rl:972-989, 1009-1033). -/
def layout (type : Bytes) : Option (List Kind × Bool) :=
  match type with
  | [97] => some ([.ip4], false)
  | [97, 97, 97, 97] => some ([.ip6], false)
  | [110, 115] => some ([.name], false)
  | [99, 110, 97, 109, 101] => some ([.name], false)
  | [112, 116, 114] => some ([.name], false)
  | [109, 120] => some ([.num, .name], false)
  | [115, 114, 118] => some ([.num, .num, .num, .name], false)
  | [110, 97, 112, 116, 114] => some ([.num, .num, .item, .item, .item, .name], false)
  | [115, 111, 97] => some ([.name, .email, .ttl, .ttl, .ttl, .ttl, .ttl], false)
  | [99, 97, 97] => some ([.num, .prop, .huge], false)
  | [100, 121, 110, 97] => some ([.plug], true)
  | [100, 121, 110, 99] => some ([.plug], true)
  | _ => none

/-- The `rec_*` functions (src/zscan_rfc1035.rl:549-722), given the fields: `none` where they report an
error. `min` is `ttl_min`. The texts of NAPTR are limited to 16000 bytes in all, which three of them never
reach. -/
def build (z : Z) (min : UInt32) (type : Bytes) (vs : List Val) : Outcome (Option Rdata) :=
  match type, vs with
  | [97], [.bytes b] => .ok (some (.a b z.ooz))
  | [97, 97, 97, 97], [.bytes b] => .ok (some (.aaaa b z.ooz))
  | [110, 115], [.bytes d] => .ok (bif z.ooz then none else some (.ns d))
  | [99, 110, 97, 109, 101], [.bytes d] => .ok (bif z.ooz then none else some (.cname d))
  | [112, 116, 114], [.bytes d] => .ok (bif z.ooz then none else some (.ptr d))
  | [109, 120], [.num p, .bytes d] => .ok (bif z.ooz then none else some (.mx p d))
  | [115, 114, 118], [.num p, .num w, .num o, .bytes d] => .ok (bif z.ooz then none else some (.srv p w o d))
  | [110, 97, 112, 116, 114], [.num o, .num p, .bytes a, .bytes b, .bytes c, .bytes d] =>
    .ok (bif z.ooz then none else some (.naptr o p (a ++ b ++ c) d))
  | [115, 111, 97], [.bytes m, .bytes e, .num a, .num b, .num c, .num d, .num f] =>
    (rd z.lhs 0).map fun l => bif z.ooz || l != 1 then none else some (.soa m e a b c d f)
  | [99, 97, 97], [.num fl, .bytes p, .bytes v] =>
    .ok (bif decide (255 < fl.toNat) || z.ooz then none else some (.raw 257 (UInt8.ofNat fl.toNat :: UInt8.ofNat p.length :: p ++ v)))
  | [100, 121, 110, 97], [.bytes r] => .ok (bif z.ooz then none else some (.dyna r min))
  | [100, 121, 110, 99], [.bytes r] => .ok (bif z.ooz then none else some (.dync r min))
  | _, _ => .ub

/-- `txt_rdata` behind its first character (src/zscan_rfc1035.rl:957): blanks and items. -/
def txtLoop (cfg : Cfg) : Nat → Bytes → Bytes → Outcome (Option (Bytes × Bytes))
  | 0, _, _ => .ub
  | f + 1, text, s =>
    match s with
    | [] => .ok none
    | c :: r =>
      bif isWs c then txtLoop cfg f text r
      else bif c == 10 then .ok (some (text, s))
      else
        match word s with
        | none => .ok none
        | some (t, r) =>
          bif r.isEmpty then .ok none
          else andThen (addTok cfg true text t) fun text' => txtLoop cfg f text' r

/-- `hexbyte` (src/zscan_rfc1035.rl:475-502). -/
def nibble (c : UInt8) : Nat := bif c ≤ 57 then c.toNat - 48 else (c ||| 32).toNat - 87

def hexbyte (a b : UInt8) : UInt8 := UInt8.ofNat (16 * nibble a + nibble b)

def octetEnds : Bytes → Bool
  | c :: _ => isHex c || isWs c || c == 10
  | [] => false

/-- `(rfc3597_octet+ ws?)**` and `rfc3597_octet` (src/zscan_rfc1035.rl:733-738, 984-986). -/
def octets (len : Nat) (acc : Bytes) : Bytes → Outcome (Option (Bytes × Bytes))
  | [] => .ok none
  | a :: r =>
    bif a == 10 then .ok (some (acc, a :: r))
    else bif isWs a then octets len acc r
    else
      match r with
      | [] => .ok none
      | b :: r =>
        bif isHex a && isHex b && octetEnds r then
          bif acc.length == len then .ok none else octets len (acc ++ [hexbyte a b]) r
        else .ok none

/-- Records with the type's number (`rfc3597_rdata`, src/zscan_rfc1035.rl:984-986; `rfc3597_data_setup`,
725-730; `rec_rfc3597`, 686-695): behind the word TYPE. `xmalloc(0)` ends the daemon
(libgdnsd/alloc.c:39-46). -/
def generic (z : Z) (s : Bytes) : Outcome (Option (Rdata × Bytes)) :=
  match run1 isDigit s with
  | none => .ok none
  | some (t, r) =>
    match uval t, ws r with
    | some type, some (92 :: 35 :: r) =>
      match ws r with
      | none => .ok none
      | some r =>
        match run1 isDigit r with
        | none => .ok none
        | some (t, r) =>
          bif blank r then
            match uval t with
            | none => .ok none
            | some len =>
              (assert (len != 0)).bind fun _ =>
              andThen (octets len.toNat [] (run isWs r).2) fun x =>
              .ok (bif decide (x.1.length < len.toNat) || z.ooz then none else some (.raw type x.1, x.2))
          else .ok none
    | _, _ => .ok none

/-- `rr_rhs` and `rr_rhs_dyn` (src/zscan_rfc1035.rl:1009-1033): the record and the rest. `slash`: the TTL
had two parts, which only the dynamic types allow. -/
def rhs (cfg : Cfg) (z : Z) (ttl min : UInt32) (slash : Bool) (s : Bytes) : Outcome (Option (Add × Bytes)) :=
  let type := (run isAlpha s).1.map low
  let r := (run isAlpha s).2
  andThen
    (bif type == [116, 120, 116] then
      match r with
      | c :: r =>
        bif isWs c && !slash && !(r.headD 10 == 10) then
          andThen (txtLoop cfg (r.length + 1) [] r) fun x => .ok (bif z.ooz then none else some (Rdata.txt x.1, x.2))
        else .ok none
      | [] => .ok none
    else bif type == [116, 121, 112, 101] then bif slash then .ok none else generic z r
    else
      match layout type, ws r with
      | some (ks, dyn), some r =>
        bif slash && !dyn then .ok none
        else andThen (fields cfg z ks r) fun x => andThen (build z min type x.1) fun d => .ok (some (d, x.2))
      | _, _ => .ok none)
    fun x => .ok (some (⟨z.lhs, ttl, x.1⟩, x.2))

/-- `ttl_dyn` (src/zscan_rfc1035.rl:970): TTL, minimum and whether there was a slash; behind it is white
space. `set_ttl_dyn` (883). -/
def ttlDyn (s : Bytes) : Outcome (Option (UInt32 × UInt32 × Bool × Bytes)) :=
  match ttlTok s with
  | none => .ok none
  | some (t, r) =>
    andThen (ttlVal t) fun v =>
    match r with
    | 47 :: r =>
      match ttlTok r with
      | none => .ok none
      | some (t, r) =>
        bif blank r then andThen (ttlVal t) fun m => .ok (some (v, bif m != 0 then m else v >>> 1, true, r)) else .ok none
    | r => .ok (bif blank r then some (v, v >>> 1, false, r) else none)

/-- The class, if there: `'IN'i ws`. -/
def class? (s : Bytes) : Option Bytes :=
  bif (run isAlpha s).1.map low == [105, 110] then ws (run isAlpha s).2 else none

/-- A record behind its owner: TTL and class in any order, both optional (src/zscan_rfc1035.rl:995-1005). -/
def record (cfg : Cfg) (z : Z) (s : Bytes) : Outcome (Option (Add × Bytes)) :=
  bif isDigit (s.headD 0) then
    andThen (ttlDyn s) fun x =>
    let r := (run isWs x.2.2.2).2
    rhs cfg z x.1 x.2.1 x.2.2.1 ((class? r).getD r)
  else
    match class? s with
    | some r =>
      bif isDigit (r.headD 0) then
        andThen (ttlDyn r) fun x => rhs cfg z x.1 x.2.1 x.2.2.1 (run isWs x.2.2.2).2
      else rhs cfg z z.defTtl (z.defTtl >>> 1) false r
    | none => rhs cfg z z.defTtl (z.defTtl >>> 1) false s

/-! ### Statements -/

/-- What a statement does besides changing the state. -/
inductive Eff where
  | nothing
  | add (r : Add)
  | incl (file origin : Bytes)
deriving DecidableEq, Repr

/-- `validate_origin_in_zone` (src/zscan_rfc1035.rl:141-146). -/
def inZone (z : Z) (d : Bytes) : Outcome (Option Unit) :=
  (Dname.isInZone z.zone d).map fun b => bif b then some () else none

/-- The last part of a path with its slash cut off: the directory (`strrchr`). -/
def dirOf (fn : Bytes) : Option Bytes :=
  bif fn.contains 47 then some ((fn.reverse.dropWhile fun c => c != 47).reverse) else none

/-- `_make_zfn` (src/zscan_rfc1035.rl:442-456). -/
def zfn (cur incl : Bytes) : Outcome Bytes :=
  bif incl.head? == some 47 then .ok incl
  else
    match dirOf cur with
    | none => .ub
    | some d => .ok (d ++ incl)

/-- `$INCLUDE` behind the word (src/zscan_rfc1035.rl:427-438, 459-471, 1042). White space behind a file
name is always taken as that before an origin (`$1 %0`). -/
def inclCmd (z : Z) (s : Bytes) : Outcome (Option (Eff × Bytes)) :=
  match ws s with
  | none => .ok none
  | some s =>
    match word s with
    | none => .ok none
    | some (t, r) =>
      bif ends r then
        bif t.isEmpty then .ok none
        else
          andThen (unesc t) fun f =>
          andThen
            (bif blank r then
              match nameTok (run isWs r).2 with
              | none => .ok none
              | some (t, r) => bif ends r then andThen (dnameSet z t false) fun d => .ok (some (d.1, r)) else .ok none
            else .ok (some (z.origin, r)))
            fun x => andThen (inZone z x.1) fun _ => (zfn z.fn (cstr f)).bind fun p => .ok (some (.incl p x.1, x.2))
      else .ok none

/-- `cmd` behind the dollar sign (src/zscan_rfc1035.rl:1039-1043). -/
def cmd (cfg : Cfg) (z : Z) (s : Bytes) : Outcome (Option (Eff × Z × Bytes)) :=
  let name := (run isAlpha s).1.map low
  let r := (run isAlpha s).2
  bif name == [116, 116, 108] then
    match ws r with
    | none => .ok none
    | some r => andThen (fields cfg z [.ttl] r) fun x =>
      match x.1 with
      | [.num v] => .ok (some (.nothing, { z with defTtl := v }, x.2))
      | _ => .ub
  else bif name == [111, 114, 105, 103, 105, 110] then
    match ws r with
    | none => .ok none
    | some r => andThen (fields cfg z [.name] r) fun x =>
      match x.1 with
      | [.bytes d] => andThen (inZone z d) fun _ => .ok (some (.nothing, { z with origin := d }, x.2))
      | _ => .ub
  else bif name == [105, 110, 99, 108, 117, 100, 101] then
    andThen (inclCmd z r) fun x => .ok (some (x.1, z, x.2))
  else .ok none

/-- `statement?` at the start of a line (src/zscan_rfc1035.rl:1036-1048): its effect, the state and the
rest of the line. -/
def statement (cfg : Cfg) (z : Z) (s : Bytes) : Outcome (Option (Eff × Z × Bytes)) :=
  match s with
  | [] => .ok none
  | c :: r =>
    bif c == 10 then .ok (some (.nothing, z, s))
    else bif c == 36 then cmd cfg z r
    else bif isWs c then
      bif (run isWs s).2.headD 0 == 10 then .ok (some (.nothing, z, s))
      else andThen (record cfg z (run isWs s).2) fun x => .ok (some (.add x.1, z, x.2))
    else
      match nameTok s with
      | none => .ok none
      | some (t, r) =>
        bif blank r then
          andThen (dnameSet z t true) fun d =>
          let z' := { z with lhs := d.1, ooz := d.2 }
          andThen (record cfg z' (run isWs r).2) fun x => .ok (some (.add x.1, z', x.2))
        else .ok none

/-- `ws? nl`. -/
def eol (s : Bytes) : Option Bytes :=
  match (run isWs s).2 with
  | 10 :: r => some r
  | _ => none

/-- The records of a statement (src/zscan_rfc1035.rl:459-472, 549-722). `incl` reads an included file. -/
def effect (incl : Bytes → Bytes → UInt32 → Outcome (Option (List Add))) (ttl : UInt32) : Eff → Outcome (Option (List Add))
  | .nothing => .ok (some [])
  | .add r => .ok (some [r])
  | .incl p o => incl p o ttl

/-- `main` (src/zscan_rfc1035.rl:1048): the records of the lines. -/
def lines (cfg : Cfg) (incl : Bytes → Bytes → UInt32 → Outcome (Option (List Add))) : Nat → Z → Bytes → Outcome (Option (List Add))
  | 0, _, _ => .ub
  | f + 1, z, s =>
    bif s.isEmpty then .ok (some [])
    else
      andThen (statement cfg z s) fun x =>
      andThen (effect incl x.2.1.defTtl x.1) fun l =>
      match eol x.2.2 with
      | none => .ok none
      | some r => andThen (lines cfg incl f x.2.1 r) fun m => .ok (some (l ++ m))

/-- `zscan_do` and `scanner` (src/zscan_rfc1035.rl:284-322, 1055-1094). Includes nest as deep as the files
say; at depth `0` the daemon is out of stack, memory or files. -/
def scanFile (cfg : Cfg) (zone : Bytes) : Nat → Bytes → Bytes → UInt32 → Outcome (Option (List Add))
  | 0, _, _, _ => .ub
  | depth + 1, fn, origin, ttl =>
    match cfg.files fn with
    | none => .ok none
    | some buf =>
      (assert (!buf.isEmpty)).bind fun _ =>
      bif buf.getLast? != some 10 then .ok none
      else
        (pre false false .plain 1 buf).bind fun e =>
        match e with
        | .error _ => .ok none
        | .ok s => lines cfg (scanFile cfg zone depth) (s.length + 1) ⟨zone, origin, origin, [1, 0], false, ttl, fn⟩ s

/-- `zscan_rfc1035` (src/zscan_rfc1035.rl:741-745). -/
def scan (cfg : Cfg) (depth : Nat) (zone fn : Bytes) (ttl : UInt32) : Outcome (Option (List Add)) := scanFile cfg zone depth fn zone ttl

end Gdnsd.Zscan
