/-
libgdnsd/log.c, misc.c, file.c, src/ltree.c: the rate of messages, names in messages, replacing text, and reading files.
-/
import Verif.Basic
namespace Gdnsd.Util

/-! ### The rate of messages -/

/-- The variables of `gdnsd_log_neterr_rate_ok` (libgdnsd/log.c:116-118), which each thread has for itself. -/
structure Rate where
  second : Int
  count : Nat
  defensive : Nat
deriving Repr, DecidableEq

def Rate.init : Rate := ⟨0, 0, 0⟩

/-- What a call does: whether the message is logged, and whether the one about suppression is. -/
structure Said where
  pass : Bool
  meta' : Bool
deriving Repr, DecidableEq

/-- The part about the clock (libgdnsd/log.c:125-146). `rate_limit` is 10. `unsigned` has 32 bits. -/
def Rate.tick (s : Rate) (now : Int) : Rate :=
  if now ≠ s.second then
    ⟨now, 0,
      if s.defensive ≠ 0 then
        if now > s.second + 1 then 0
        else if s.count < 10 then s.defensive - 1
        else s.defensive
      else s.defensive⟩
  else { s with count := (s.count + 1) % 2 ^ 32 }

/-- `gdnsd_log_neterr_rate_ok` (libgdnsd/log.c:114-163) at that time. -/
def Rate.call (s : Rate) (now : Int) : Said × Rate :=
  let s := s.tick now
  if s.count < 10 ∧ s.defensive = 0 then (⟨true, false⟩, s)
  else if s.count = 10 then (⟨false, true⟩, { s with defensive := 2 })
  else (⟨false, false⟩, s)

def Rate.run (s : Rate) : List Int → List Said
  | [] => []
  | t :: ts => (s.call t).1 :: (s.call t).2.run ts

/-! ### The buffer of formatted strings -/

/-- `FMTBUF_SIZE` (libgdnsd/log.c:168). -/
def fmtSize : Nat := 4096

/-- `gdnsd_fmtbuf_alloc` with `fmtbuf_common` (libgdnsd/log.c:170-202), given what is used: the offset, and what is used then, or
the end of the process. -/
def fmtAlloc (used size : Nat) : Option (Nat × Nat) :=
  if size = 0 then none
  else if fmtSize - used ≥ size then some (used, used + size)
  else none

/-- What a message asks for, one after the other, from an empty buffer (libgdnsd/log.c:204-207). -/
def fmtAllocs : Nat → List Nat → Option (List Nat)
  | _, [] => some []
  | used, s :: l => match fmtAlloc used s with
    | none => none
    | some (o, u) => (fmtAllocs u l).map (o :: ·)

/-! ### Names in messages about zones -/

/-- A byte as a `char`, which is signed here. -/
def chr (b : UInt8) : Int := if b.toNat < 128 then b.toNat else (b.toNat : Int) - 256

/-- What is stored when an `int` becomes a `char`. -/
def byte (v : Int) : UInt8 := UInt8.ofNat (v % 256).toNat

/-- One byte of a label in `logf_lstack_labels` (src/ltree.c:86-94). -/
def shown (b : UInt8) : Bytes :=
  if chr b > 0x20 ∧ chr b < 0x7F then [b]
  else [0x5C, byte (0x30 + (chr b).tdiv 100), byte (0x30 + ((chr b).tdiv 10).tmod 10), byte (0x30 + (chr b).tmod 10)]

/-- Storing in a buffer of that size. -/
def put (cap : Nat) (out x : Bytes) : Outcome Bytes := if out.length + x.length ≤ cap then .ok (out ++ x) else .ub

/-- `logf_lstack_labels` (src/ltree.c:78-101): the labels from the one below the zone on, which is the first of `lstack`. Without the
NUL at the end, for which there must be room. -/
def putLabels (cap : Nat) : List Bytes → Bytes → Outcome Bytes
  | [], out => (put cap out [0]).map fun _ => out
  | l :: ls, out => (put cap out (l.flatMap shown ++ [0x2E])).bind fun out => putLabels cap ls out

def lstack (ls : List Bytes) : Outcome Bytes := putLabels 1024 ls.reverse []

/-! ### Replacing text -/

/-- `strstr`: where `n` is for the first time. -/
def strstr (n : Bytes) : Bytes → Option Nat
  | [] => if n.isEmpty then some 0 else none
  | c :: h => if n.isPrefixOf (c :: h) then some 0 else (strstr n h).map (· + 1)

/-- The first loop of `gdnsd_str_subst` (libgdnsd/misc.c:111-117). The first argument bounds the number of
rounds; `.ub` if it is too small, which `Subst.lean` shows it never is. -/
def needles (n : Bytes) : Nat → Bytes → Outcome Nat
  | 0, _ => .ub
  | k + 1, h => match strstr n h with
    | none => .ok 0
    | some i => (needles n k (h.drop (i + n.length))).map (· + 1)

/-- The second one (libgdnsd/misc.c:142-156) with what follows (158-165). -/
def copy (cap : Nat) (n r : Bytes) : Nat → Bytes → Bytes → Outcome Bytes
  | 0, _, _ => .ub
  | k + 1, h, out => match strstr n h with
    | none => put cap out h
    | some i => (put cap out (h.take i)).bind fun out => (put cap out r).bind fun out => copy cap n r k (h.drop (i + n.length)) out

/-- `half_size_bits` with a `size_t` of 64 bits (libgdnsd/misc.c:105). -/
def half : Nat := 2 ^ 32 - 1

/-- `gdnsd_str_subst` (libgdnsd/misc.c:102-172). `none` is the end of the process with a message. -/
def subst (h n r : Bytes) : Outcome (Option Bytes) :=
  (assert (!n.isEmpty)).bind fun _ =>
  if h.length ≥ half ∨ n.length ≥ half ∨ r.length ≥ half then .ok none
  else
    (needles n (h.length + 1) h).bind fun c =>
    (assert (decide (c < half))).bind fun _ =>
    if c = 0 then .ok (some h)
    else
      let p : Int := ((r.length : Int) - n.length) * c
      if p < -2 ^ 63 ∨ p ≥ 2 ^ 63 ∨ p + h.length ≥ 2 ^ 63 then .ub
      else
        let len := ((h.length + p) % 2 ^ 64).toNat
        if len ≥ half then .ok none
        else
          (copy len n r (h.length + 1) h []).bind fun out =>
          (assert (decide (out.length = len))).map fun _ => some out

/-! ### Reading files -/

/-- What `read` gives: bytes, an error, or an interruption. -/
inductive Read where
  | got (b : Bytes)
  | err
  | intr
deriving Repr, DecidableEq

/-- How the loop of `gdnsd_fmap_new` (libgdnsd/file.c:88-102) ends with these results of `read`: the buffer, an error, or it still goes on. A result that is longer
than what was asked for does not occur. -/
inductive Slurp where
  | done (buf : Bytes)
  | failed
  | more
deriving Repr, DecidableEq

def slurp (len : Nat) : Bytes → List Read → Outcome Slurp
  | _, [] => .ok .more
  | buf, .got b :: l =>
    if buf.length + b.length > len then .ub
    else if buf.length + b.length < len then slurp len (buf ++ b) l else .ok (.done (buf ++ b))
  | _, .err :: _ => .ok .failed
  | buf, .intr :: l => slurp len buf l

end Gdnsd.Util
