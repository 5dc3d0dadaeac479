import Verif.Basic
/-
Model of name compression: src/dnspacket.c:762-892.

The packet is the list of bytes written so far. The encoders leave a two-byte hole for
the length of the data and fill it in afterwards; here a name's bytes are computed first
and the length is written directly, so the bytes end up the same.
-/
namespace Gdnsd.Enc

/-- `ctarget_t` (src/dnspacket.c:54-59): `orig` is the memory from the pointer on. -/
structure CT where
  orig : Bytes
  len : Nat
  off : Nat
deriving Repr, DecidableEq

/-- `COMPTARGETS_MAX` (src/dnspacket.c:47). -/
def COMPMAX : Nat := 16

/-- `*dname_read + 1U` (src/dnspacket.c:776, 817, 847). -/
def jumpAt (d : Bytes) (pos : Nat) : Outcome Nat :=
  (rd d pos).bind fun b => .ok (b.toNat + 1)

/-- The loop shared by `ctargets_add_qname` (src/dnspacket.c:772-783) and by the tail of
`store_dname_comp` (src/dnspacket.c:842-851): append the name's remaining suffixes as
targets while there is room. `fuel` bounds the number of labels. -/
def addTargets (d : Bytes) : Nat → List CT → Nat → Nat → Nat → Outcome (List CT)
  | 0, ts, _, len, _ => if len > 2 && ts.length < COMPMAX then .ub else .ok ts
  | fuel + 1, ts, pos, len, off =>
    if len > 2 && ts.length < COMPMAX then
      (jumpAt d pos).bind fun j =>
      addTargets d fuel (ts ++ [CT.mk (d.drop pos) len off]) (pos + j) (len - j) (off + j)
    else .ok ts

/-- `ctargets_add_qname` (src/dnspacket.c:764-783): called with no targets yet. -/
def addQname (lq : Bytes) : Outcome (List CT) :=
  (rd lq 0).bind fun l => addTargets lq 128 [] 1 l.toNat 12

/-- Where the search of `store_dname_comp` ended: a match (its depth in the name and the
target's offset), or the position reached in the name. -/
inductive Found where
  | hit (depth off : Nat)
  | miss (pos len off : Nat)
deriving Repr, DecidableEq

/-- `!memcmp(a, b, n)` with both reads in bounds. -/
def memeq (a b : Bytes) (n : Nat) : Outcome Bool :=
  if n ≤ a.length && n ≤ b.length then .ok (a.take n == b.take n) else .ub

/-- The two nested loops of `store_dname_comp` (src/dnspacket.c:803-836). `done` is
`ctargets[0..i)` and `rest` is `ctargets[i..ctarget_count)`. -/
def search (d : Bytes) (full : Nat) (mk : Bool) :
    Nat → List CT → List CT → Nat → Nat → Nat → Outcome (Found × List CT)
  | 0, _, _, _, _, _ => .ub
  | _ + 1, done, [], pos, len, off => .ok (.miss pos len off, done)
  | fuel + 1, done, t :: rest, pos, len, off =>
    if t.len < len then
      if mk && done.length + (rest.length + 1) < COMPMAX then
        (assert (len > 2)).bind fun _ =>
        (jumpAt d pos).bind fun j =>
        search d full mk fuel (done ++ [CT.mk (d.drop pos) len off]) (t :: rest) (pos + j) (len - j) (off + j)
      else
        (jumpAt d pos).bind fun j =>
        search d full mk fuel done (t :: rest) (pos + j) (len - j) (off + j)
    else if t.len = len then
      (memeq (d.drop pos) t.orig len).bind fun eq =>
      if eq then .ok (.hit (full - len) t.off, done ++ t :: rest)
      else search d full mk fuel (done ++ [t]) rest pos len off
    else search d full mk fuel (done ++ [t]) rest pos len off

/-- Two bytes of `gdnsd_put_una16(htons(v))`. -/
def put16 (v : Nat) : Bytes := [UInt8.ofNat (v / 256 % 256), UInt8.ofNat (v % 256)]

/-- `store_dname_comp` (src/dnspacket.c:789-857): the bytes written at `offset` and the
new target list. `pkt` is the packet written so far, `lq` the lower-cased query name. -/
def storeComp (pkt lq : Bytes) (ts : List CT) (d : Bytes) (offset : Nat) (mk : Bool) :
    Outcome (Bytes × List CT) :=
  (if ts.isEmpty then addQname lq else .ok ts).bind fun ts =>
  (rd d 0).bind fun full =>
  (search d full.toNat mk (full.toNat + ts.length + 1) [] ts 1 full.toNat offset).bind fun r =>
  match r with
  | (.hit depth off, ts') =>
    (assert (1 + depth ≤ d.length)).bind fun _ =>
    (rd pkt off).bind fun b =>
    (assert (b &&& 0xC0 == 0)).bind fun _ =>
    .ok ((d.drop 1).take depth ++ put16 (0xC000 ||| off), ts')
  | (.miss pos len off, ts') =>
    (assert (1 + full.toNat ≤ d.length)).bind fun _ =>
    (if mk then addTargets d 128 ts' pos len off else .ok ts').bind fun ts2 =>
    .ok ((d.drop 1).take full.toNat, ts2)

/-- `store_dname_nocomp` (src/dnspacket.c:861-866). -/
def storeNocomp (d : Bytes) : Outcome Bytes :=
  (rd d 0).bind fun full =>
  (assert (1 + full.toNat ≤ d.length)).bind fun _ =>
  .ok ((d.drop 1).take full.toNat)

/-- `repeat_name` (src/dnspacket.c:875-894). -/
def repeatName (pkt : Bytes) (orig : Nat) : Outcome Bytes :=
  (rd pkt orig).bind fun b =>
  if b ≠ 0 then
    if b &&& 0xC0 ≠ 0 then
      (rd pkt (orig + 1)).bind fun c => .ok [b, c]
    else .ok (put16 (0xC000 ||| orig))
  else .ok [0]

end Gdnsd.Enc
