import Verif.Basic
/-
Model of libgdnsd/dname.c and include/gdnsd/dname.h.

A "dname" is a byte buffer: one overall-length byte, wire-format labels, and a
final 0 (fully qualified) or 255 (partial).  Buffers are byte lists; reading or
writing outside is `Outcome.ub`.
-/
namespace Gdnsd.Dname

/-- include/gdnsd/dname.h: `gdnsd_dname_status_t`. -/
inductive Status where
  | valid | partialName | invalid
deriving Repr, DecidableEq

/-- `in[i] <= '9' && in[i] >= '0'` (dname.c:44). `char` signedness does not
matter for this test: a byte >= 128 is not a digit either way. -/
def isDigit (c : UInt8) : Bool := 48 ≤ c && c ≤ 57

/-- `in[i] - '0'` for a digit (dname.c:52-54). -/
def digitVal (c : UInt8) : Nat := c.toNat - 48

/-- Checked append to an output buffer of capacity `cap` (`*optr++ = x`). -/
def push (cap : Nat) (out : Bytes) (x : UInt8) : Outcome Bytes :=
  if out.length < cap then .ok (out ++ [x]) else .ub

/-- The loop of `gdnsd_dns_unescape` (dname.c:36-66) from index `i`, with `out`
the bytes written so far and `cap` the capacity of the output buffer.
`none` is the `return 0` error exit. -/
def unescapeGo (cap : Nat) (inp : Bytes) (len i : Nat) (out : Bytes) : Outcome (Option Bytes) :=
  if i < len then
    (rd inp i).bind fun c =>
    if c ≠ 92 then
      (push cap out c).bind fun out => unescapeGo cap inp len (i + 1) out
    else if i + 1 ≥ len then .ok none
    else (rd inp (i + 1)).bind fun d1 =>
      if isDigit d1 then
        if i + 3 ≥ len then .ok none
        else (rd inp (i + 2)).bind fun d2 =>
          if !isDigit d2 then .ok none
          else (rd inp (i + 3)).bind fun d3 =>
            if !isDigit d3 then .ok none
            else
              let x := digitVal d1 * 100 + digitVal d2 * 10 + digitVal d3
              if x > 255 then .ok none
              else (push cap out (UInt8.ofNat x)).bind fun out =>
                unescapeGo cap inp len (i + 4) out
      else
        (push cap out d1).bind fun out => unescapeGo cap inp len (i + 2) out
  else .ok (some out)
termination_by len - i

/-- `gdnsd_dns_unescape(out, in, len)` (dname.c:31-67). Result `none` = return
value 0; `some o` = the bytes written (return value `o.length`). -/
def unescape (cap : Nat) (inp : Bytes) (len : Nat) : Outcome (Option Bytes) :=
  (assert (decide (0 < len))).bind fun _ => unescapeGo cap inp len 0 []

/-- `gdnsd_downcase_bytes` on one byte (include/gdnsd/misc.h:71-76). With a signed
`char` a byte ≥ 128 is negative and fails `> 0x40`; the same result. -/
def downcase (c : UInt8) : UInt8 := if c < 0x5B && c > 0x40 then c ||| 0x20 else c

/-- `gdnsd_dns_unescape_label` (dname.c:73-87), output buffer of 252 bytes.
`none` = return value 0. -/
def unescapeLabel (inp : Bytes) (len : Nat) : Outcome (Option Bytes) :=
  if len ≤ 252 then
    (unescape 252 inp len).bind fun r =>
      match r with
      | none => .ok none
      | some o => if o.length ≤ 63 then .ok (some (o.map downcase)) else .ok none
  else .ok none

/-- Loop state of `gdnsd_dname_from_string` (dname.c:89-180): `oal` is `*dname`,
`body` the bytes written after it (the cursor is `body.length + 1`). -/
structure FS where
  escapeNext : Bool := false
  hasDot : Bool := false
  labelStart : Nat := 0
  oal : Nat := 1
  body : Bytes := []
deriving Repr

/-- Checked write of several bytes at the cursor into the 256-byte `dname`. -/
def pushBody (body : Bytes) (xs : Bytes) : Outcome Bytes :=
  if body.length + 1 + xs.length ≤ 256 then .ok (body ++ xs) else .ub

/-- Completion of a label of `rawLlen` input bytes (dname.c:147-170). `none` =
`return DNAME_INVALID`. -/
def fsFinish (instr : Bytes) (i rawLlen : Nat) (s : FS) : Outcome (Option FS) :=
  if rawLlen = 0 then .ok none
  else (unescapeLabel (instr.drop s.labelStart) rawLlen).bind fun r =>
    match r with
    | none => .ok none
    | some l =>
      if l.length + 1 + s.oal > 255 then .ok none
      else (pushBody s.body (UInt8.ofNat l.length :: l)).bind fun body =>
        .ok (some { s with oal := s.oal + (l.length + 1), body := body, labelStart := i + 1 })

/-- One iteration (dname.c:128-171). -/
def fsStep (instr : Bytes) (len i : Nat) (s : FS) : Outcome (Option FS) :=
  (rd instr i).bind fun c =>
  let rawLlen := i - s.labelStart
  let esc := !s.escapeNext && c == 92
  let dot := !s.escapeNext && c != 92 && c == 46
  let s := { s with escapeNext := esc, hasDot := dot }
  if !dot then
    if i = len - 1 then fsFinish instr i (rawLlen + 1) s else .ok (some s)
  else fsFinish instr i rawLlen s

/-- The loop (dname.c:126-172). -/
def fsLoop (instr : Bytes) (len i : Nat) (s : FS) : Outcome (Option FS) :=
  if i < len then
    (fsStep instr len i s).bind fun r =>
      match r with
      | none => .ok none
      | some s => fsLoop instr len (i + 1) s
  else .ok (some s)
termination_by len - i

/-- The walk of `gdnsd_dname_status` (dname.c:249-254): `off` is
`dnptr - dname` with `dname` already past the overall length byte, so byte `k`
of the name is `d[k+1]`. Returns the terminating length byte and the final
offset, or `none` for the run-off-the-end exit. -/
def statusWalk (d : Bytes) (oal off : Nat) : Nat → Outcome (Option (Nat × Nat))
  | 0 => .ub
  | fuel + 1 =>
    (rd d (off + 1)).bind fun b =>
      let llen := b.toNat
      if llen = 0 ∨ llen = 255 then .ok (some (llen, off + 1))
      else
        let off := off + 1 + llen
        if oal ≤ off then .ok none else statusWalk d oal off fuel

/-- `gdnsd_dname_status` (dname.c:239-271). The fuel argument of the walk is the
overall length plus one: each iteration that continues advances `off` by at least 1 and keeps
`off < oal`, so the fuel never runs out (`statusWalk_fuel`). -/
def status (d : Bytes) : Outcome Status :=
  (rd d 0).bind fun oal =>
    let oal := oal.toNat
    if oal = 0 then .ok .invalid
    else (statusWalk d oal 0 (oal + 1)).bind fun r =>
      match r with
      | none => .ok .invalid
      | some (llen, off) =>
        if oal > off then .ok .invalid
        else (assert (oal == off)).bind fun _ =>
          .ok (if llen = 0 then .valid else .partialName)

/-- `gdnsd_dname_from_string` (dname.c:89-190). Result: status and, unless
invalid, the bytes of the dname. -/
def fromString (instr : Bytes) (len : Nat) : Outcome (Status × Bytes) :=
  if len > 1004 then .ok (.invalid, [])
  else if len = 0 then
    let d : Bytes := [1, 255]
    (status d).bind fun st => (assert (st == .partialName)).bind fun _ => .ok (.partialName, d)
  else
    (rd instr 0).bind fun c0 =>
    if len = 1 ∧ c0 = 46 then .ok (.valid, [1, 0])
    else (fsLoop instr len 0 {}).bind fun r =>
      match r with
      | none => .ok (.invalid, [])
      | some s =>
        (pushBody s.body [if s.hasDot then 0 else 255]).bind fun body =>
          let d := UInt8.ofNat s.oal :: body
          let want : Status := if s.hasDot then .valid else .partialName
          (status d).bind fun st => (assert (st == want)).bind fun _ => .ok (want, d)

/-- `'0' + …` digits of a `\DDD` escape (dname.c:205-208). -/
def escByte (x : UInt8) : Bytes :=
  [92, UInt8.ofNat (48 + x.toNat / 100), UInt8.ofNat (48 + (x.toNat / 10) % 10),
   UInt8.ofNat (48 + x.toNat % 10)]

/-- Printing of one label byte (dname.c:201-209). -/
def printByte (x : UInt8) : Bytes :=
  if x > 0x20 && x < 0x7F then [x] else escByte x

/-- Label loop of `gdnsd_dname_to_string` (dname.c:200-211): read `n` bytes of a
label at offset `off`. -/
def printLabel (d : Bytes) (off : Nat) : Nat → Outcome Bytes
  | 0 => .ok []
  | n + 1 => (rd d off).bind fun x =>
      (printLabel d (off + 1) n).bind fun r => .ok (printByte x ++ r)

/-- Outer loop of `gdnsd_dname_to_string` (dname.c:198-212). Returns the final
label length byte (0 or 255) and the text. -/
def printGo (d : Bytes) (off : Nat) : Nat → Outcome (Nat × Bytes)
  | 0 => .ub
  | fuel + 1 =>
    (rd d off).bind fun b =>
      let llen := b.toNat
      if llen = 0 ∨ llen = 255 then .ok (llen, [])
      else (printLabel d (off + 1) llen).bind fun t =>
        (printGo d (off + 1 + llen) fuel).bind fun r => .ok (r.1, t ++ 46 :: r.2)

/-- `gdnsd_dname_to_string` (dname.c:190-222), without the final NUL. The output
buffer size (callers provide 1024) is bounded in the properties rather than
checked here. -/
def toString (d : Bytes) : Outcome Bytes :=
  (status d).bind fun st => (assert (st != .invalid)).bind fun _ =>
    (printGo d 1 (d.length + 1)).bind fun r =>
      .ok (if r.1 = 255 ∧ r.2 ≠ [] then r.2.dropLast else r.2)

/-- `gdnsd_dname_cat` (dname.c:224-241): on success the new contents of `dn1` (up
to its new length), which must have 256 bytes of storage. -/
def cat (d1 d2 : Bytes) : Outcome (Status × Bytes) :=
  (status d1).bind fun s1 => (assert (s1 != .invalid)).bind fun _ =>
  (status d2).bind fun s2 => (assert (s2 != .invalid)).bind fun _ =>
  (rd d1 0).bind fun l1 => (rd d2 0).bind fun l2 =>
    let l1 := l1.toNat
    let l2 := l2.toNat
    let fin := l1 + l2 - 1
    if fin < 256 then
      -- memcpy(dn1 + dn1_len, dn2 + 1, dn2_len)
      if l2 + 1 ≤ d2.length ∧ l1 ≤ d1.length then
        let d := UInt8.ofNat fin :: (d1.take l1).drop 1 ++ ((d2.drop 1).take l2)
        (rd d fin).bind fun t => .ok (if t = 0 then .valid else .partialName, d)
      else .ub
    else .ok (.invalid, d1)

/-- `gdnsd_dname_status_buflen` (dname.h:198-205). -/
def statusBuflen (d : Bytes) (buflen : Nat) : Outcome Status :=
  if buflen = 0 then .ok .invalid
  else (rd d 0).bind fun l => if l.toNat + 1 > buflen then .ok .invalid else status d

/-- `gdnsd_dname_terminate` (dname.h:210-217). -/
def terminate (d : Bytes) : Outcome Bytes :=
  (rd d 0).bind fun l => (assert (decide (0 < l.toNat))).bind fun _ =>
    if l.toNat < d.length then .ok (d.set l.toNat 0) else .ub

/-- `gdnsd_dname_is_partial` (dname.h:223-228). -/
def isPartial (d : Bytes) : Outcome Bool :=
  (rd d 0).bind fun l => (assert (decide (0 < l.toNat))).bind fun _ =>
    (rd d l.toNat).bind fun t => .ok (t == 255)

/-- `memcmp` of the first `n` bytes of two buffers, as a sign; reading outside
either buffer before a difference is found is undefined behaviour. -/
def memcmp : Bytes → Bytes → Nat → Outcome Int
  | _, _, 0 => .ok 0
  | a :: as, b :: bs, n + 1 =>
      if a = b then memcmp as bs n else .ok ((a.toNat : Int) - b.toNat)
  | _, _, _ + 1 => .ub

/-- `gdnsd_dname_cmp` (dname.h:283-295). -/
def cmp (d1 d2 : Bytes) : Outcome Int :=
  (status d1).bind fun s1 => (assert (s1 != .invalid)).bind fun _ =>
  (status d2).bind fun s2 => (assert (s2 != .invalid)).bind fun _ =>
  (rd d1 0).bind fun l1 => (rd d2 0).bind fun l2 =>
    let rv : Int := (l1.toNat : Int) - l2.toNat
    if rv = 0 then memcmp (d1.drop 1) (d2.drop 1) l1.toNat else .ok rv

/-- `gdnsd_label_cmp` (dname.h:298-307). -/
def labelCmp (a b : Bytes) : Outcome Int :=
  (rd a 0).bind fun l1 => (rd b 0).bind fun l2 =>
    let rv : Int := (l1.toNat : Int) - l2.toNat
    if rv = 0 then memcmp (a.drop 1) (b.drop 1) l1.toNat else .ok rv

/-- Label-boundary walk of `gdnsd_dname_isinzone` (dname.h:334-338). `c` is the
child past its length byte. -/
def boundaryWalk (c : Bytes) (target idx : Nat) : Outcome Nat :=
  if _h : idx < target then
    match c[idx]? with
    | none => .ub
    | some b => boundaryWalk c target (idx + 1 + b.toNat)
  else .ok idx
termination_by target - idx

/-- `gdnsd_dname_isinzone` (dname.h:309-342). -/
def isInZone (parent child : Bytes) : Outcome Bool :=
  (status parent).bind fun s1 => (assert (s1 == .valid)).bind fun _ =>
  (status child).bind fun s2 => (assert (s2 == .valid)).bind fun _ =>
  (rd parent 0).bind fun pl => (rd child 0).bind fun cl =>
    let plen := pl.toNat
    let clen := cl.toNat
    (assert (decide (0 < plen))).bind fun _ => (assert (decide (0 < clen))).bind fun _ =>
    if plen > clen then .ok false
    else
      let start := clen - plen
      (memcmp ((child.drop 1).drop start) (parent.drop 1) plen).bind fun r =>
        if r ≠ 0 then .ok false
        else (boundaryWalk (child.drop 1) start 0).bind fun idx => .ok (idx == start)

/-- `gdnsd_dname_drop_zone` (dname.h:351-362). Bytes after the new terminator are
dropped from the modelled buffer (they are dead storage). -/
def dropZone (d z : Bytes) : Outcome Bytes :=
  (status d).bind fun s1 => (assert (s1 == .valid)).bind fun _ =>
  (status z).bind fun s2 => (assert (s2 == .valid)).bind fun _ =>
  (rd d 0).bind fun dl => (rd z 0).bind fun zl =>
    (assert (decide (zl.toNat ≤ dl.toNat))).bind fun _ =>
    let newterm := dl.toNat - (zl.toNat - 1)
    (rd d newterm).bind fun a => (rd z 1).bind fun b => (assert (a == b)).bind fun _ =>
      .ok (UInt8.ofNat newterm :: (d.take newterm).drop 1 ++ [0])

/-- `gdnsd_dname_iswild` (dname.h:366-374). -/
def isWild (d : Bytes) : Outcome Bool :=
  (status d).bind fun s => (assert (s != .invalid)).bind fun _ =>
    (rd d 1).bind fun b1 => if b1 = 1 then (rd d 2).bind fun b2 => .ok (b2 == 42) else .ok false

end Gdnsd.Dname
