/-
src/ltarena.c and `lta_labeldup` of src/ltarena.h: the storage of labels and names of zone data.

The heap is a counter of pools allocated so far, the pools that are not freed, and their bytes. An arena's
array of pointers is a list, a slot that was never written is `none`. Handles of arenas are numbers; a handle
that was destroyed or merged away is `none`.

Simplified: allocation does not fail (`xmalloc` ends the process instead).
-/
import Verif.Basic
namespace Gdnsd.Arena

/-- `POOL_SIZE`, `MAX_OBJ`, `INIT_POOLS_ALLOC` (src/ltarena.c:44-46). -/
def poolSize : Nat := 1024
def maxObj : Nat := 256
def initPools : Nat := 4

/-- `struct ltarena` (src/ltarena.c:54-59). -/
structure Lta where
  pools : List (Option Nat)
  pool : Nat
  poffs : Nat
  palloc : Nat
deriving Repr, DecidableEq

structure Heap where
  next : Nat
  live : List Nat
  mem : Nat → Nat → UInt8

/-- `xcalloc(POOL_SIZE)`. -/
def Heap.calloc (h : Heap) : Nat × Heap :=
  (h.next, ⟨h.next + 1, h.next :: h.live, fun p o => if p = h.next then 0 else h.mem p o⟩)

/-- `free`: freeing what is not allocated is undefined. -/
def Heap.free (h : Heap) (p : Nat) : Outcome Heap :=
  if p ∈ h.live then .ok { h with live := h.live.filter (· != p) } else .ub

/-- `memcpy` of a string into a pool, within it. -/
def Heap.write (h : Heap) (p o : Nat) (s : Bytes) : Outcome Heap :=
  if p ∈ h.live ∧ o + s.length ≤ poolSize then
    .ok { h with mem := fun p' o' => if p' = p ∧ o ≤ o' ∧ o' < o + s.length then s.getD (o' - o) 0 else h.mem p' o' }
  else .ub

/-- A store into the array of pointers. -/
def Lta.put (a : Lta) (i p : Nat) : Outcome Lta :=
  if i < a.pools.length then .ok { a with pools := a.pools.set i (some p) } else .ub

/-- A load from it. -/
def Lta.get (a : Lta) (i : Nat) : Outcome Nat :=
  match a.pools[i]? with
  | some (some p) => .ok p
  | _ => .ub

/-- `xrealloc_n` of the array. -/
def Lta.realloc (a : Lta) (n : Nat) : Lta := { a with pools := a.pools.take n ++ List.replicate (n - a.pools.length) none }

/-- `lta_new` (src/ltarena.c:61-68). -/
def ltaNew (h : Heap) : Outcome (Lta × Heap) :=
  let r := h.calloc
  ((⟨List.replicate initPools none, 0, 0, initPools⟩ : Lta).put 0 r.1).map fun a => (a, r.2)

/-- `lta_close` (src/ltarena.c:70-73). -/
def ltaClose (a : Lta) : Lta := a.realloc (a.pool + 1)

/-- The loop of `lta_destroy`, from `whichp` down (src/ltarena.c:77-79). -/
def freePools (a : Lta) : Nat → Heap → Outcome Heap
  | 0, h => .ok h
  | w + 1, h => (a.get w).bind fun p => (h.free p).bind fun h => freePools a w h

/-- `lta_destroy` (src/ltarena.c:75-82). -/
def ltaDestroy (a : Lta) (h : Heap) : Outcome Heap := freePools a (a.pool + 1) h

/-- The doubling of `palloc` until it exceeds `need` (src/ltarena.c:90-92); `none` if it does not end
within so many rounds. -/
def double : Nat → Nat → Nat → Option Nat
  | 0, _, _ => none
  | fuel + 1, palloc, need => if need ≥ palloc then double fuel (palloc * 2) need else some palloc

/-- The `memcpy` of pointers (src/ltarena.c:95), of `n` of them from index `i` on. -/
def copyPools (s : Lta) : Nat → Nat → Lta → Nat → Outcome Lta
  | 0, _, t, _ => .ok t
  | n + 1, i, t, j =>
    match s.pools[i]? with
    | none => .ub
    | some v => if j < t.pools.length then copyPools s n (i + 1) { t with pools := t.pools.set j v } (j + 1) else .ub

/-- The growth of the array in `lta_merge` (src/ltarena.c:89-94). A loop that never ends is undefined
behaviour here. -/
def Lta.growTo (t : Lta) (new : Nat) : Outcome Lta :=
  if new ≥ t.palloc then
    match double (new + 1) t.palloc new with
    | none => .ub
    | some p => .ok ({ t with palloc := p }.realloc p)
  else .ok t

/-- `lta_merge` (src/ltarena.c:84-101). -/
def ltaMerge (t s : Lta) : Outcome Lta :=
  (t.get t.pool).bind fun last =>
  let cnt := s.pool + 1
  let new := cnt + t.pool + 1
  (t.growTo new).bind fun t =>
  (copyPools s cnt 0 t t.pool).bind fun t =>
  ({ t with pool := t.pool + s.pool + 1 }).put (t.pool + s.pool + 1) last

/-- `lta_malloc` (src/ltarena.c:103-126): the pool and the offset. -/
def ltaMalloc (a : Lta) (size : Nat) (h : Heap) : Outcome (Nat × Nat × Lta × Heap) :=
  (assert (decide (size ≠ 0))).bind fun _ =>
  (assert (decide (size ≤ maxObj))).bind fun _ =>
  (if a.poffs + size > poolSize then
    let a := { a with pool := a.pool + 1 }
    let a := if a.pool = a.palloc then { a with palloc := a.palloc * 2 }.realloc (a.palloc * 2) else a
    let r := h.calloc
    (a.put a.pool r.1).map fun a => ({ a with poffs := 0 }, r.2)
  else Outcome.ok (a, h)).bind fun (a, h) =>
  (a.get a.pool).map fun p => (p, a.poffs, { a with poffs := a.poffs + size }, h)

/-- `lta_labeldup` and `lta_dnamedup` (src/ltarena.h:44-55). -/
def labelDup (a : Lta) (label : Bytes) (h : Heap) : Outcome (Nat × Nat × Lta × Heap) :=
  (rd label 0).bind fun n =>
  let sz := n.toNat + 1
  (ltaMalloc a sz h).bind fun (p, o, a, h) =>
  if sz ≤ label.length then (h.write p o (label.take sz)).map fun h => (p, o, a, h)
  else .ub

/-! ### A process that uses arenas -/

structure Sys where
  heap : Heap
  arenas : List (Option Lta)

def Sys.init : Sys := ⟨⟨0, [], fun _ _ => 0⟩, []⟩

inductive Op where
  | new
  | dup (a : Nat) (label : Bytes)
  | close (a : Nat)
  | merge (t s : Nat)
  | destroy (a : Nat)
deriving Repr, DecidableEq

def Sys.arena (s : Sys) (a : Nat) : Outcome Lta :=
  match s.arenas[a]? with
  | some (some l) => .ok l
  | _ => .ub

/-- The call, and the address that `dup` returns. -/
def Sys.step (s : Sys) : Op → Outcome (Sys × Option (Nat × Nat))
  | .new => (ltaNew s.heap).map fun (a, h) => (⟨h, s.arenas ++ [some a]⟩, none)
  | .dup a l => (s.arena a).bind fun x => (labelDup x l s.heap).map fun (p, o, x, h) => (⟨h, s.arenas.set a (some x)⟩, some (p, o))
  | .close a => (s.arena a).map fun x => (⟨s.heap, s.arenas.set a (some (ltaClose x))⟩, none)
  | .merge t o => (s.arena t).bind fun x => (s.arena o).bind fun y => (ltaMerge x y).map fun x => (⟨s.heap, (s.arenas.set t (some x)).set o none⟩, none)
  | .destroy a => (s.arena a).bind fun x => (ltaDestroy x s.heap).map fun h => (⟨h, s.arenas.set a none⟩, none)

end Gdnsd.Arena
