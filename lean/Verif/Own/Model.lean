/-
src/ltree.c, src/zscan_rfc1035.rl, src/zsrc_rfc1035.c: who frees the memory of zone data.

Memory is a list of blocks that are allocated, by number. `free` of anything else is undefined. What is
stored in the blocks is left out, except for the pointers to other blocks. What the input is like is given
by flags that say which of the checks fails: what the checks are is in Verif/Load and Verif/Zscan.

Simplified: a block keeps its number when it is reallocated. Allocation does not fail (`xmalloc` ends the
process instead). The slots of a hash table (see Verif/Tree/Table.lean) are the list of the children in it. A
mapped file has no block for its contents. Worker threads take turns file by file.
-/
import Verif.Basic
namespace Gdnsd.Own

/-! ### Memory -/

structure Heap where
  next : Nat
  live : List Nat
deriving Repr, DecidableEq

/-- `malloc`, `calloc`, `strdup`. -/
def Heap.alloc (h : Heap) : Nat × Heap := (h.next, ⟨h.next + 1, h.next :: h.live⟩)

/-- `free` of a pointer that is not NULL. -/
def Heap.free (h : Heap) (p : Nat) : Outcome Heap :=
  if p ∈ h.live then .ok ⟨h.next, h.live.erase p⟩ else .ub

/-- `free`, also of NULL. -/
def Heap.freeOpt (h : Heap) : Option Nat → Outcome Heap
  | none => .ok h
  | some p => h.free p

/-- `realloc`, also of NULL. -/
def Heap.realloc (h : Heap) : Option Nat → Outcome (Nat × Heap)
  | none => .ok h.alloc
  | some p => if p ∈ h.live then .ok (p, h) else .ub

/-- `free` of each in turn. -/
def Heap.freeAll (h : Heap) : List Nat → Outcome Heap
  | [] => .ok h
  | p :: l => (h.free p).bind fun h => h.freeAll l

def Heap.freeOpts (h : Heap) : List (Option Nat) → Outcome Heap
  | [] => .ok h
  | p :: l => (h.freeOpt p).bind fun h => h.freeOpts l

/-! ### Arenas (contents: Verif/Arena) -/

/-- `struct ltarena` (src/ltarena.c:54-59): the block of the struct, that of the array, and the pools. -/
structure Arena where
  self : Nat
  array : Nat
  pools : List Nat
  off : Nat
deriving Repr, DecidableEq

/-- `lta_new` (src/ltarena.c:61-68). -/
def Arena.new (h : Heap) : Arena × Heap :=
  let a := h.alloc
  let b := a.2.alloc
  let c := b.2.alloc
  (⟨a.1, b.1, [c.1], 0⟩, c.2)

/-- `lta_malloc` for `lta_labeldup` (src/ltarena.c:103-126). -/
def Arena.dup (a : Arena) (size : Nat) (h : Heap) : Arena × Heap :=
  if a.off + size > 1024 then
    let r := h.alloc
    ({ a with pools := r.1 :: a.pools, off := size }, r.2)
  else ({ a with off := a.off + size }, h)

/-- `lta_destroy` (src/ltarena.c:75-82). -/
def Arena.destroy (a : Arena) (h : Heap) : Outcome Heap :=
  (h.freeAll a.pools).bind fun h => (h.free a.array).bind fun h => h.free a.self

/-- `lta_merge` (src/ltarena.c:84-101). -/
def Arena.merge (t s : Arena) (h : Heap) : Outcome (Arena × Heap) :=
  (h.free s.array).bind fun h => (h.free s.self).map fun h => ({ t with pools := s.pools ++ t.pools }, h)

/-! ### Trees -/

/-- `ltree_rrset_t` (src/ltree.h:120-290): `data` is `addrs` or `rdata`, `texts` are the blocks that the
elements of `rdata` refer to. -/
structure RRset where
  id : Nat
  type : Nat
  count : Nat
  data : Option Nat
  texts : List (Option Nat)
deriving Repr, DecidableEq

/-- `ltree_node_t` (src/ltree.h:292-310) without its children. -/
structure Hdr where
  id : Nat
  label : Bytes
  zcut : Bool
  rrsets : List RRset
  table : Option Nat
deriving Repr, DecidableEq

/-- The children of a node: one of them, its children, and the others. -/
inductive Kids where
  | nil
  | cons (n : Hdr) (kids next : Kids)
deriving Repr, DecidableEq

def Kids.count : Kids → Nat
  | .nil => 0
  | .cons _ _ next => next.count + 1

def Kids.has (l : Bytes) : Kids → Bool
  | .nil => false
  | .cons n _ next => n.label == l || next.has l

def snoc (c : Hdr) (ck : Kids) : Kids → Kids
  | .nil => .cons c ck .nil
  | .cons n k next => .cons n k (snoc c ck next)

/-- What a function that works on a node leaves: whether it failed, and the node. -/
structure Res where
  bad : Bool
  n : Hdr
  k : Kids
  a : Arena
  h : Heap

structure KRes where
  bad : Bool
  k : Kids
  a : Arena
  h : Heap

/-- Going on with the child of that label. -/
def Kids.upd (l : Bytes) (g : Hdr → Kids → Arena → Heap → Outcome Res) : Kids → Arena → Heap → Outcome KRes
  | .nil, _, _ => .ub
  | .cons n k next, a, h =>
    if n.label = l then (g n k a h).map fun r => ⟨r.bad, .cons r.n r.k next, r.a, r.h⟩
    else (next.upd l g a h).map fun r => ⟨r.bad, .cons n k r.k, r.a, r.h⟩

/-- `count2mask_sz` (include/gdnsd/misc.h) of a number that is not zero. -/
def mask (n : Nat) : Nat := 2 ^ (Nat.log2 n + 1) - 1

/-- Growing the table (src/ltree.c:148-160). -/
def grow (n : Hdr) (count : Nat) (h : Heap) : Outcome (Hdr × Heap) :=
  if count = 0 ∨ count = mask (count ||| 1) then
    let r := h.alloc
    (r.2.freeOpt n.table).map fun h => ({ n with table := some r.1 }, h)
  else .ok (n, h)

/-- `ltree_node_find_or_add_child` (src/ltree.c:130-166) for one label after the other, as in
`ltree_find_or_add_dname` (src/ltree.c:174-188) and `ltree_merge_zone` (src/ltree.c:1502-1510, with the
check `stop`), and what is then done with the node. -/
def descend (stop : Hdr → Bool) (f : Hdr → Kids → Arena → Heap → Outcome Res) :
    List Bytes → Hdr → Kids → Arena → Heap → Outcome Res
  | [], n, k, a, h => f n k a h
  | l :: p, n, k, a, h =>
    if stop n then .ok ⟨true, n, k, a, h⟩
    else if k.has l then (k.upd l (descend stop f p) a h).map fun r => ⟨r.bad, n, r.k, r.a, r.h⟩
    else
      (grow n k.count h).bind fun g =>
      (descend stop f p ⟨g.2.alloc.1, l, false, [], none⟩ .nil (a.dup (l.length + 1) g.2.alloc.2).1
        (a.dup (l.length + 1) g.2.alloc.2).2).map fun r =>
      ⟨r.bad, g.1, snoc r.n r.k k, r.a, r.h⟩

/-- `LTREE_V4A_SIZE` with pointers of 64 bits (src/ltree.h:183). -/
def v4a : Nat := 4

/-- Freeing a set (src/ltree.c:1340-1386). A set of addresses holds up to four of them itself; then
`addrs` is not a pointer. -/
def RRset.destroy (r : RRset) (h : Heap) : Outcome Heap :=
  let texts : Outcome Heap :=
    if r.count ≤ r.texts.length then
      (h.freeOpts (r.texts.take r.count)).bind fun h => h.freeOpt r.data
    else .ub
  (if r.type = 1 then
    if r.count > v4a then match r.data with | some p => h.free p | none => .ub else .ok h
  else if r.type = 28 then
    if r.count ≠ 0 then match r.data with | some p => h.free p | none => .ub else .ok h
  else if r.type = 35 then texts
  else if r.type = 16 then texts
  else if r.type = 2 ∨ r.type = 15 ∨ r.type = 12 ∨ r.type = 33 then h.freeOpt r.data
  else if r.type = 6 ∨ r.type = 5 ∨ r.type = 65295 then .ok h
  else texts).bind fun h => h.free r.id

def destroyRRs : List RRset → Heap → Outcome Heap
  | [], h => .ok h
  | r :: l, h => (r.destroy h).bind fun h => destroyRRs l h

/-- `ltree_destroy` (src/ltree.c:1337-1396) for the children of a node. -/
def Kids.destroy : Kids → Heap → Outcome Heap
  | .nil, h => .ok h
  | .cons n k next, h =>
    (destroyRRs n.rrsets h).bind fun h =>
    (if n.table.isSome then (k.destroy h).bind fun h => h.freeOpt n.table else .ok h).bind fun h =>
    (h.free n.id).bind fun h => next.destroy h

/-- `ltree_destroy` (src/ltree.c:1337-1396). -/
def destroyTree (n : Hdr) (k : Kids) (h : Heap) : Outcome Heap :=
  (destroyRRs n.rrsets h).bind fun h =>
  (if n.table.isSome then (k.destroy h).bind fun h => h.freeOpt n.table else .ok h).bind fun h => h.free n.id

/-! ### Records -/

inductive Kind where
  | a | aaaa | dyna | cname | dync | ptr | ns | mx | srv | naptr | txt | soa
  | raw (type : Nat)
deriving Repr, DecidableEq

/-- A record: its labels below the zone from the top (or the two for glue outside of it, src/ltree.c:259-262), the
size of the names that are stored, and the checks: `early` if one fails before the node is looked up,
`mid` if one fails behind that, `ttl` if the one of the TTL fails, `late` if one fails after the set was
changed. -/
structure Rec where
  kind : Kind
  path : List Bytes
  size : Nat
  early : Bool
  mid : Bool
  ttl : Bool
  late : Bool
deriving Repr, DecidableEq

structure SRes where
  bad : Bool
  rs : List RRset
  h : Heap

/-- A set of that type is changed by `old`, or made by `new` at the end of the list
(`MK_RRSET_GET`, `MK_RRSET_ADD`, src/ltree.c:190-238). -/
def onSet (t : Nat) (old : RRset → Heap → Outcome (Bool × RRset × Heap)) (new : Heap → RRset × Heap) :
    List RRset → Heap → Outcome SRes
  | [], h => .ok ⟨false, [(new h).1], (new h).2⟩
  | r :: l, h =>
    if r.type = t then (old r h).map fun x => ⟨x.1, x.2.1 :: l, x.2.2⟩
    else (onSet t old new l h).map fun x => ⟨x.bad, r :: x.rs, x.h⟩

/-- The checks of a set that exists: TTL and number. -/
def full (c : Rec) (r : RRset) : Bool := c.ttl || r.count == 65535

/-- `ltree_add_rec_a` (src/ltree.c:255-301), for a set that exists. -/
def oldA (c : Rec) (r : RRset) (h : Heap) : Outcome (Bool × RRset × Heap) :=
  if r.count = 0 then .ok (true, r, h)
  else if full c r then .ok (true, r, h)
  else if r.count ≤ v4a then
    if r.count = v4a then .ok (false, { r with data := some h.alloc.1, count := v4a + 1 }, h.alloc.2)
    else .ok (false, { r with count := r.count + 1 }, h)
  else (h.realloc r.data).map fun x => (false, { r with data := some x.1, count := r.count + 1 }, x.2)

def newA (h : Heap) : RRset × Heap := (⟨h.alloc.1, 1, 1, none, []⟩, h.alloc.2)

/-- `ltree_add_rec_aaaa` (src/ltree.c:303-334). -/
def oldAaaa (c : Rec) (r : RRset) (h : Heap) : Outcome (Bool × RRset × Heap) :=
  if r.count = 0 then .ok (true, r, h)
  else if full c r then .ok (true, r, h)
  else (h.realloc r.data).map fun x => (false, { r with data := some x.1, count := r.count + 1 }, x.2)

def newAaaa (h : Heap) : RRset × Heap := (⟨h.alloc.1, 28, 1, some h.alloc.2.alloc.1, []⟩, h.alloc.2.alloc.2)

/-- `INSERT_NEXT_RR` (src/ltree.c:459-480) and, in `ltree_add_rec_rfc3597` (src/ltree.c:700-715), the same: the
new element gets `text`, which stays out of the list for types whose elements have no such pointer. -/
def oldNext (assume : Nat) (texts : List (Option Nat)) (c : Rec) (r : RRset) (h : Heap) : Outcome (Bool × RRset × Heap) :=
  if full c r then .ok (true, r, h)
  else if assume = 1 ∨ r.count ≥ assume then
    (h.realloc r.data).map fun x => (false, { r with data := some x.1, count := r.count + 1, texts := r.texts ++ texts }, x.2)
  else .ok (false, { r with count := r.count + 1, texts := r.texts ++ texts }, h)

def newNext (t : Nat) (texts : List (Option Nat)) (h : Heap) : RRset × Heap :=
  (⟨h.alloc.1, t, 1, some h.alloc.2.alloc.1, texts⟩, h.alloc.2.alloc.2)

def hasSet (t : Nat) (rs : List RRset) : Bool := rs.any fun r => r.type == t

/-- A set without further blocks at the end of the list. -/
def addSet (t count : Nat) (n : Hdr) (h : Heap) : Hdr × Heap :=
  ({ n with rrsets := n.rrsets ++ [⟨h.alloc.1, t, count, none, []⟩] }, h.alloc.2)

/-- The number of a set of that type. -/
def countOf (t : Nat) (rs : List RRset) : Nat :=
  match rs.find? fun r => r.type == t with
  | some r => r.count
  | none => 0

/-- A record for a set with elements: `onSet`, and the names in the arena. -/
def next (t assume : Nat) (texts : List (Option Nat)) (c : Rec) (n : Hdr) (k : Kids) (a : Arena) (h : Heap) : Outcome Res :=
  (onSet t (oldNext assume texts c) (newNext t texts) n.rrsets h).map fun s =>
  if s.bad then ⟨true, { n with rrsets := s.rs }, k, a, s.h⟩
  else ⟨c.late, { n with rrsets := s.rs }, k, (a.dup c.size s.h).1, (a.dup c.size s.h).2⟩

/-- Types that `ltree_add_rec_rfc3597` does not take (src/ltree.c:673-693). -/
def refused (t : Nat) : Bool :=
  [1, 28, 6, 5, 2, 12, 15, 33, 35, 16].contains t || t == 13 || t == 65295 || (decide (127 < t) && decide (t < 256)) || t == 0

/-- The `ltree_add_rec_*` functions (src/ltree.c:255-719), behind looking up the node. `top` is whether that
is the zone's own. -/
def onNode (c : Rec) (top : Bool) (text : Option Nat) (n : Hdr) (k : Kids) (a : Arena) (h : Heap) : Outcome Res :=
  match c.kind with
  | .a => (onSet 1 (oldA c) newA n.rrsets h).map fun s => ⟨s.bad, { n with rrsets := s.rs }, k, a, s.h⟩
  | .aaaa => (onSet 28 (oldAaaa c) newAaaa n.rrsets h).map fun s => ⟨s.bad, { n with rrsets := s.rs }, k, a, s.h⟩
  | .dyna =>
    if hasSet 1 n.rrsets || hasSet 28 n.rrsets then .ok ⟨true, n, k, a, h⟩
    else if c.mid then .ok ⟨true, n, k, a, h⟩
    else
      let x := addSet 1 0 n h
      let y := addSet 28 0 x.1 x.2
      .ok ⟨c.late, y.1, k, a, y.2⟩
  | .cname =>
    if !n.rrsets.isEmpty then .ok ⟨true, n, k, a, h⟩
    else
      let x := addSet 5 1 n h
      .ok ⟨false, x.1, k, (a.dup c.size x.2).1, (a.dup c.size x.2).2⟩
  | .dync =>
    if !n.rrsets.isEmpty then .ok ⟨true, n, k, a, h⟩
    else
      let x := addSet 65295 0 n h
      .ok ⟨c.late, x.1, k, a, x.2⟩
  | .ptr => next 12 1 [] c n k a h
  | .ns =>
    let n := if top then n else { n with zcut := true }
    if !top && c.mid then .ok ⟨true, n, k, a, h⟩
    else
      (onSet 2 (oldNext 2 [] c) (newNext 2 []) n.rrsets h).map fun s =>
      if s.bad || decide (countOf 2 s.rs > 64) then ⟨true, { n with rrsets := s.rs }, k, a, s.h⟩
      else ⟨false, { n with rrsets := s.rs }, k, (a.dup c.size s.h).1, (a.dup c.size s.h).2⟩
  | .mx => next 15 2 [] { c with late := false } n k a h
  | .srv => next 33 1 [] { c with late := false } n k a h
  | .naptr => next 35 1 [text] { c with late := false } n k a h
  | .txt =>
    if c.mid then .ok ⟨true, n, k, a, h⟩
    else (onSet 16 (oldNext 1 [text] c) (newNext 16 [text]) n.rrsets h).map fun s => ⟨s.bad, { n with rrsets := s.rs }, k, a, s.h⟩
  | .soa =>
    (assert top).bind fun _ =>
    if hasSet 6 n.rrsets then .ok ⟨true, n, k, a, h⟩
    else
      let x := addSet 6 0 n h
      .ok ⟨false, x.1, k, (a.dup c.size x.2).1, (a.dup c.size x.2).2⟩
  | .raw t =>
    if refused t then .ok ⟨true, n, k, a, h⟩
    else (onSet t (oldNext 1 [text] c) (newNext t [text]) n.rrsets h).map fun s => ⟨s.bad, { n with rrsets := s.rs }, k, a, s.h⟩

/-! ### Zones -/

/-- `zone_t` (src/ltree.h:312-320). -/
structure Zone where
  self : Nat
  dname : Nat
  root : Hdr
  kids : Kids
  arena : Arena
deriving Repr, DecidableEq

/-- `ltree_new_zone` (src/ltree.c:1461-1491), given that the name is legal: the size of its first label. -/
def Zone.new (size : Nat) (h : Heap) : Zone × Heap :=
  let z := h.alloc
  let r := z.2.alloc
  let d := r.2.alloc
  let a := Arena.new d.2
  let b := if size = 0 then a else a.1.dup size a.2
  (⟨z.1, d.1, ⟨r.1, [], true, [], none⟩, .nil, b.1⟩, b.2)

/-- `ltree_destroy_zone` (src/ltree.c:1398-1403). -/
def Zone.destroy (z : Zone) (h : Heap) : Outcome Heap :=
  (destroyTree z.root z.kids h).bind fun h => (h.free z.dname).bind fun h => h.free z.self

structure ZRes where
  bad : Bool
  z : Zone
  h : Heap

/-- `ltree_add_rec_*`. -/
def Zone.add (z : Zone) (c : Rec) (text : Option Nat) (h : Heap) : Outcome ZRes :=
  if c.early then .ok ⟨true, z, h⟩
  else
    (descend (fun _ => false) (onNode c c.path.isEmpty text) c.path z.root z.kids z.arena h).map fun r =>
    ⟨r.bad, { z with root := r.n, kids := r.k, arena := r.a }, r.h⟩

/-- `ltree_merge_zone` behind its loop (src/ltree.c:1512-1531). -/
def mergeInto (z : Zone) (n : Hdr) (k : Kids) (a : Arena) (h : Heap) : Outcome Res :=
  if n.zcut then .ok ⟨true, n, k, a, h⟩
  else if k.count ≠ 0 then .ok ⟨true, n, k, a, h⟩
  else
    (assert (n.table.isNone && n.rrsets.isEmpty)).bind fun _ =>
    (h.free z.root.id).bind fun h =>
    (h.free z.dname).bind fun h =>
    (a.merge z.arena h).bind fun m =>
    (m.2.free z.self).map fun h =>
    ⟨false, { z.root with id := n.id, label := n.label }, z.kids, m.1, h⟩

/-- `ltree_merge_zone` (src/ltree.c:1493-1532), for a zone with these labels from the top. The label of the
node that is overwritten is the same string in another arena. -/
def merge (path : List Bytes) (z : Zone) (n : Hdr) (k : Kids) (a : Arena) (h : Heap) : Outcome Res :=
  (assert z.root.zcut).bind fun _ => descend Hdr.zcut (mergeInto z) path n k a h

/-! ### Zone files -/

/-- A statement: a record without texts; one with texts (NAPTR or TXT), given whether each text can be read and
whether there is an error behind them; CAA, given whether its value can be read and whether there is an error behind it;
one of any type, given whether there is an error in its data; or an error elsewhere. -/
inductive Stmt where
  | plain (r : Rec)
  | texts (naptr : Bool) (toks : List Bool) (cut : Bool) (r : Rec)
  | caa (tok cut : Bool) (r : Rec)
  | raw (type : Nat) (cut : Bool) (r : Rec)
  | err
deriving Repr, DecidableEq

/-- What becomes of opening and closing a file (libgdnsd/file.c:44-156): it cannot be opened, it cannot be
read, or it can; then it may be mapped, and closing it may fail. -/
inductive Open where
  | no
  | unread
  | ok (mapped closeBad : Bool)
deriving Repr, DecidableEq

/-- A zone file: the end, with an error or not; a statement; or an include, given whether its file name can
be read and its origin is in the zone. -/
inductive File where
  | done (bad : Bool)
  | stmt (s : Stmt) (rest : File)
  | incl (nameOk originOk : Bool) (o : Open) (sub rest : File)
deriving Repr, DecidableEq

/-- The blocks of `zscan_t` (src/zscan_rfc1035.rl:53-87) and of its file. -/
structure Scan where
  self : Nat
  fmap : Nat
  buf : Option Nat
  text : Option Nat
  raw : Option Nat
  name : Option Nat
deriving Repr, DecidableEq

structure CRes where
  bad : Bool
  s : Scan
  z : Zone
  h : Heap

/-- `text_add_tok` (src/zscan_rfc1035.rl:336-396), one after the other. -/
def addToks : List Bool → Scan → Heap → Outcome (Bool × Scan × Heap)
  | [], s, h => .ok (false, s, h)
  | t :: l, s, h =>
    if t then
      (h.alloc.2.realloc s.text).bind fun x =>
      (x.2.free h.alloc.1).bind fun h => addToks l { s with text := some x.1 } h
    else (h.alloc.2.free h.alloc.1).map fun h => (true, s, h)

/-- The record actions (src/zscan_rfc1035.rl:549-738) with what comes before them. Failing is `siglongjmp`. -/
def stmt (st : Stmt) (s : Scan) (z : Zone) (h : Heap) : Outcome CRes :=
  match st with
  | .plain r =>
    if decide (r.kind = .soa) && !r.path.isEmpty then .ok ⟨true, s, z, h⟩
    else (z.add r none h).map fun x => ⟨x.bad, s, x.z, x.h⟩
  | .texts naptr toks cut r =>
    (assert s.text.isNone).bind fun _ =>
    (addToks toks s h).bind fun x =>
    if x.1 || cut then .ok ⟨true, x.2.1, z, x.2.2⟩
    else
      (z.add { r with kind := if naptr then .naptr else .txt } x.2.1.text x.2.2).map fun y =>
      if y.bad then ⟨true, x.2.1, y.z, y.h⟩ else ⟨false, { x.2.1 with text := none }, y.z, y.h⟩
  | .caa tok cut r =>
    (assert s.text.isNone).bind fun _ =>
    if !tok then (h.alloc.2.free h.alloc.1).map fun h => ⟨true, s, z, h⟩
    else
      let s := { s with text := some h.alloc.1 }
      if cut then .ok ⟨true, s, z, h.alloc.2⟩
      else
        (z.add { r with kind := .raw 257 } (some h.alloc.2.alloc.1) h.alloc.2.alloc.2).bind fun y =>
        if y.bad then (y.h.free h.alloc.2.alloc.1).map fun h => ⟨true, s, y.z, h⟩
        else (y.h.freeOpt s.text).map fun h => ⟨false, { s with text := none }, y.z, h⟩
  | .raw t cut r =>
    let s := { s with raw := some h.alloc.1 }
    if cut then .ok ⟨true, s, z, h.alloc.2⟩
    else
      (z.add { r with kind := .raw t } s.raw h.alloc.2).map fun y =>
      if y.bad then ⟨true, s, y.z, y.h⟩ else ⟨false, { s with raw := none }, y.z, y.h⟩
  | .err => .ok ⟨true, s, z, h⟩

/-- Opening a file in `zscan_do` (src/zscan_rfc1035.rl:290-306; libgdnsd/file.c:44-118). -/
def openScan (o : Open) (h : Heap) : Outcome (Option Scan × Heap) :=
  match o with
  | .no => .ok (none, h)
  | .unread => (h.alloc.2.free h.alloc.1).map fun h => (none, h)
  | .ok mapped _ =>
    let b : Option Nat × Heap := if mapped then (none, h) else (some h.alloc.1, h.alloc.2)
    let f := b.2.alloc
    let s := f.2.alloc
    .ok (some ⟨s.1, f.1, b.1, none, none, none⟩, s.2)

/-- The end of `zscan_do` (src/zscan_rfc1035.rl:308-324; libgdnsd/file.c:138-156). -/
def closeScan (o : Open) (bad : Bool) (s : Scan) (h : Heap) : Outcome (Bool × Heap) :=
  (h.freeOpt s.buf).bind fun h =>
  (h.free s.fmap).bind fun h =>
  (h.freeOpt s.text).bind fun h =>
  (h.freeOpt s.raw).bind fun h =>
  (h.freeOpt s.name).bind fun h =>
  (h.free s.self).map fun h =>
  ((match o with | .ok true true => true | _ => bad), h)

/-- The scanner, with `set_filename` and `process_include` (src/zscan_rfc1035.rl:426-471). -/
def scan : File → Scan → Zone → Heap → Outcome CRes
  | .done bad, s, z, h => .ok ⟨bad, s, z, h⟩
  | .stmt st rest, s, z, h =>
    (stmt st s z h).bind fun r => if r.bad then .ok r else scan rest r.s r.z r.h
  | .incl nameOk originOk o sub rest, s, z, h =>
    if !nameOk then (h.alloc.2.free h.alloc.1).map fun h => ⟨true, s, z, h⟩
    else
      let s := { s with name := some h.alloc.1 }
      if !originOk then .ok ⟨true, s, z, h.alloc.2⟩
      else
        (h.alloc.2.alloc.2.free h.alloc.1).bind fun h2 =>
        let s := { s with name := none }
        (openScan o h2).bind fun p =>
        match p.1 with
        | none => (p.2.free h.alloc.2.alloc.1).map fun h => ⟨true, s, z, h⟩
        | some s2 =>
          (scan sub s2 z p.2).bind fun r =>
          (closeScan o r.bad r.s r.h).bind fun c =>
          (c.2.free h.alloc.2.alloc.1).bind fun h =>
          if c.1 then .ok ⟨true, s, r.z, h⟩ else scan rest s r.z h

/-- `zscan_rfc1035` (src/zscan_rfc1035.rl:285-324, 741-746). -/
def scanFile (o : Open) (f : File) (z : Zone) (h : Heap) : Outcome ZRes :=
  (openScan o h).bind fun p =>
  match p.1 with
  | none => .ok ⟨true, z, p.2⟩
  | some s => (scan f s z p.2).bind fun r => (closeScan o r.bad r.s r.h).map fun c => ⟨c.1, r.z, c.2⟩

/-! ### The directory of zones -/

/-- A zone file: whether its name is short enough and a legal name of a zone, its labels from the top, what
becomes of reading it, and whether the checks of the whole zone fail. -/
structure ZFile where
  short : Bool
  legal : Bool
  path : List Bytes
  opn : Open
  file : File
  postBad : Bool
deriving Repr, DecidableEq

/-- `zf_list_t` (src/zsrc_rfc1035.c:78-83). -/
structure Entry where
  self : Nat
  fullFn : Nat
  zone : Option Zone
  src : ZFile
deriving Repr, DecidableEq

/-- What the zone's name takes in its arena: the first of its labels. -/
def ZFile.size (f : ZFile) : Nat := match f.path.getLast? with | some l => l.length + 1 | none => 0

/-- One round of `zones_worker` (src/zsrc_rfc1035.c:147-159): whether it ends there. -/
def Entry.work (e : Entry) (h : Heap) : Outcome (Bool × Entry × Heap) :=
  if !e.src.short then .ok (true, e, h)
  else
    let name := h.alloc
    if !e.src.legal then (name.2.free name.1).map fun h => (true, e, h)
    else
      let z := Zone.new e.src.size name.2
      (z.2.free name.1).bind fun h =>
      (scanFile e.src.opn e.src.file z.1 h).map fun r => (r.bad || e.src.postBad, { e with zone := some r.z }, r.h)

/-- A worker thread: the part of its list that it went through, the rest, and whether it returned `1`. -/
structure Worker where
  done : List Entry
  todo : List Entry
  bad : Bool
deriving Repr, DecidableEq

/-- A worker gets on by one file. -/
def Worker.step (w : Worker) (h : Heap) : Outcome (Worker × Heap) :=
  if w.bad then .ok (w, h)
  else match w.todo with
    | [] => .ok (w, h)
    | e :: l => (e.work h).map fun r => (⟨w.done ++ [r.2.1], l, r.1⟩, r.2.2)

/-- The `i`th worker gets on. -/
def stepAt : Nat → List Worker → Heap → Outcome (List Worker × Heap)
  | _, [], h => .ok ([], h)
  | 0, w :: l, h => (w.step h).map fun r => (r.1 :: l, r.2)
  | i + 1, w :: l, h => (stepAt i l h).map fun r => (w :: r.1, r.2)

def interleave : List Nat → List Worker → Heap → Outcome (List Worker × Heap)
  | [], l, h => .ok (l, h)
  | i :: s, l, h => (stepAt i l h).bind fun r => interleave s r.1 r.2

/-- A worker goes on to its end. -/
def Worker.finish : Nat → Worker → Heap → Outcome (Worker × Heap)
  | 0, w, h => .ok (w, h)
  | n + 1, w, h => (w.step h).bind fun r => r.1.finish n r.2

def finishAll : List Worker → Heap → Outcome (List Worker × Heap)
  | [], h => .ok ([], h)
  | w :: l, h => (w.finish w.todo.length h).bind fun r => (finishAll l r.2).map fun s => (r.1 :: s.1, s.2)

/-- Merging the zone of an entry (src/zsrc_rfc1035.c:176-179). -/
def harvestMerge (bad : Bool) (e : Entry) (n : Hdr) (k : Kids) (a : Arena) (h : Heap) : Outcome Res :=
  if bad then .ok ⟨true, n, k, a, h⟩
  else match e.zone with
    | none => .ub
    | some z => merge e.src.path z n k a h

/-- Destroying it instead (src/zsrc_rfc1035.c:180-181). -/
def harvestDrop (bad : Bool) (e : Entry) (h : Heap) : Outcome Heap :=
  match e.zone with
  | some z => if bad then z.destroy h else .ok h
  | none => .ok h

/-- `harvest_zone_worker` (src/zsrc_rfc1035.c:174-188), for the entries in turn. -/
def harvest : List Entry → Bool → Hdr → Kids → Arena → Heap → Outcome Res
  | [], bad, n, k, a, h => .ok ⟨bad, n, k, a, h⟩
  | e :: l, bad, n, k, a, h =>
    (h.free e.fullFn).bind fun h =>
    (harvestMerge bad e n k a h).bind fun r =>
    (harvestDrop r.bad e r.h).bind fun h =>
    (h.free e.self).bind fun h => harvest l r.bad r.n r.k r.a h

/-- The loop over the workers (src/zsrc_rfc1035.c:224-226, 168-172). A list without entries is a NULL
pointer that `harvest_zone_worker` reads. -/
def harvestAll : List Worker → Bool → Hdr → Kids → Arena → Heap → Outcome Res
  | [], bad, n, k, a, h => .ok ⟨bad, n, k, a, h⟩
  | w :: l, bad, n, k, a, h =>
    if (w.done ++ w.todo).isEmpty then .ub
    else (harvest (w.done ++ w.todo) (bad || w.bad) n k a h).bind fun r => harvestAll l r.bad r.n r.k r.a r.h

/-- `zf_threads_t` (src/zsrc_rfc1035.c:95-101). -/
structure Threads where
  self : Nat
  ids : Nat
  array : Nat
  nextT : Nat
  total : Nat
  lists : List (List Entry)
deriving Repr, DecidableEq

/-- `zf_threads_new` (src/zsrc_rfc1035.c:103-111). -/
def Threads.new (n : Nat) (h : Heap) : Threads × Heap :=
  (⟨h.alloc.1, h.alloc.2.alloc.1, h.alloc.2.alloc.2.alloc.1, 0, 0, List.replicate n []⟩, h.alloc.2.alloc.2.alloc.2)

/-- The end of the list at an index. -/
def putAt (e : Entry) : Nat → List (List Entry) → Outcome (List (List Entry))
  | _, [] => .ub
  | 0, l :: ls => .ok ((l ++ [e]) :: ls)
  | i + 1, l :: ls => (putAt e i ls).map (l :: ·)

/-- `zf_threads_add_zone` (src/zsrc_rfc1035.c:113-127). -/
def Threads.add (t : Threads) (f : ZFile) (fullFn : Nat) (h : Heap) : Outcome (Threads × Heap) :=
  (putAt ⟨h.alloc.1, fullFn, none, f⟩ t.nextT t.lists).map fun ls =>
  ({ t with lists := ls, nextT := (t.nextT + 1) % t.lists.length, total := t.total + 1 }, h.alloc.2)

/-- `zf_list_early_destroy` (src/zsrc_rfc1035.c:85-93): the last one first. -/
def dropList : List Entry → Heap → Outcome Heap
  | [], h => .ok h
  | e :: l, h =>
    (dropList l h).bind fun h => (assert e.zone.isNone).bind fun _ => (h.free e.fullFn).bind fun h => h.free e.self

def dropLists : List (List Entry) → Heap → Outcome Heap
  | [], h => .ok h
  | l :: ls, h => (dropList l h).bind fun h => dropLists ls h

/-- The end of `zf_threads_early_destroy` and of `zf_threads_load_zones` (src/zsrc_rfc1035.c:137-139, 231-233). -/
def Threads.free (t : Threads) (h : Heap) : Outcome Heap :=
  (h.free t.array).bind fun h => (h.free t.ids).bind fun h => h.free t.self

/-- `zf_threads_load_zones` (src/zsrc_rfc1035.c:198-236). `sched` is the order in which workers get on before
they are joined. -/
def Threads.load (t : Threads) (sched : List Nat) (n : Hdr) (k : Kids) (a : Arena) (h : Heap) : Outcome Res :=
  let useful := if t.total < t.lists.length then t.total else t.lists.length
  (interleave sched ((t.lists.take useful).map fun l => ⟨[], l, false⟩) h).bind fun w =>
  (finishAll w.1 w.2).bind fun w =>
  (harvestAll w.1 false n k a w.2).bind fun r =>
  (t.free r.h).map fun h => { r with h := h }

/-- What `readdir` and `stat` give: a name with a dot, one that cannot be looked at, one that is not a
file, or a file. -/
inductive Dirent where
  | dot
  | statBad
  | other
  | file (f : ZFile)
deriving Repr, DecidableEq

/-- The loop of `zsrc_rfc1035_load_zones` (src/zsrc_rfc1035.c:258-282). -/
def readDir : List Dirent → Bool → Threads → Heap → Outcome (Bool × Threads × Heap)
  | [], endBad, t, h => .ok (endBad, t, h)
  | .dot :: l, b, t, h => readDir l b t h
  | .statBad :: _, _, t, h => (h.alloc.2.free h.alloc.1).map fun h => (true, t, h)
  | .other :: l, b, t, h => (h.alloc.2.free h.alloc.1).bind fun h => readDir l b t h
  | .file f :: l, b, t, h => (t.add f h.alloc.1 h.alloc.2).bind fun r => readDir l b r.1 r.2

/-- The directory: it does not exist, cannot be opened, or has entries; then `readdir` may fail at the end, and
`closedir`. -/
inductive Dir where
  | absent
  | no
  | ok (l : List Dirent) (endBad closeBad : Bool)
deriving Repr, DecidableEq

/-- `zsrc_rfc1035_load_zones` (src/zsrc_rfc1035.c:242-295). -/
def loadZones (threads : Nat) (d : Dir) (sched : List Nat) (n : Hdr) (k : Kids) (a : Arena) (h : Heap) : Outcome Res :=
  match d with
  | .absent => .ok ⟨false, n, k, a, h⟩
  | .no => .ok ⟨true, n, k, a, h⟩
  | .ok l endBad closeBad =>
    (readDir l endBad (Threads.new threads h).1 (Threads.new threads h).2).bind fun r =>
    if r.1 || closeBad then
      (dropLists r.2.1.lists r.2.2).bind fun h => (r.2.1.free h).map fun h => ⟨true, n, k, a, h⟩
    else r.2.1.load sched n k a r.2.2

/-! ### Reloading -/

/-- The process: its memory, and `root_tree` with `root_arena` (src/ltree.c:40-50). -/
structure Proc where
  heap : Heap
  data : Option (Hdr × Kids × Arena)
deriving Repr, DecidableEq

/-- Before the first load. -/
def Proc.init : Proc := ⟨⟨0, []⟩, none⟩

/-- `ltree_zones_reloader_thread` (src/ltree.c:1407-1452): whether it failed. -/
def Proc.reload (p : Proc) (threads : Nat) (d : Dir) (sched : List Nat) : Outcome (Bool × Proc) :=
  let a := Arena.new p.heap
  let r := a.2.alloc
  (loadZones threads d sched ⟨r.1, [], false, [], none⟩ .nil a.1 r.2).bind fun x =>
  if x.bad then
    (destroyTree x.n x.k x.h).bind fun h => (x.a.destroy h).map fun h => (true, { p with heap := h })
  else
    (match p.data with
      | some (n, k, a) => (destroyTree n k x.h).bind fun h => a.destroy h
      | none => .ok x.h).map fun h => (false, ⟨h, some (x.n, x.k, x.a)⟩)

end Gdnsd.Own
