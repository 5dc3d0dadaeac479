/-
libgdnsd/vscf.rl: the hash table behind hashes (lines 72-89, 121-204, 936-1040), and `count2mask`
(include/gdnsd/misc.h:89-115).

Entries are numbered as they are allocated; the chains of the table and the array `ordered` hold these
numbers, as they hold pointers in the code. `hash_mm3_u32` is a parameter. Numbers of entries are natural
numbers; where the size of a table would not fit 32 bits the model says `ub`. `.ok none` is a result
`false` or `NULL`.
-/
import Verif.Vscf.Model
namespace Gdnsd.Vscf

/-- `count2mask` without the builtin (include/gdnsd/misc.h:94-104), for numbers of 32 bits. -/
def c2m (x : Nat) : Nat :=
  let x := x ||| 1
  let x := x ||| (x >>> 1)
  let x := x ||| (x >>> 2)
  let x := x ||| (x >>> 4)
  let x := x ||| (x >>> 8)
  x ||| (x >>> 16)

/-- `count2mask` with the builtin (include/gdnsd/misc.h:109-115). `__builtin_clz(y)` is `31 - log2 y` for
`y` other than 0. -/
def c2mClz (x : Nat) : Nat := ((2 <<< (31 ^^^ (31 - (x ||| 1).log2))) % 2 ^ 32 + 2 ^ 32 - 1) % 2 ^ 32

/-- `vscf_hentry_t` (libgdnsd/vscf.rl:72-80). -/
structure Node (α : Type) where
  key : Bytes
  index : Nat
  marked : Bool
  val : α
deriving DecidableEq, Repr

/-- `vscf_hash_t` (libgdnsd/vscf.rl:82-88) and its entries. `cap` is the size of `ordered`. -/
structure Table (α : Type) where
  count : Nat
  nodes : List (Node α)
  children : Option (List (List Nat))
  ordered : List Nat
  cap : Nat

/-- `hash_new` (libgdnsd/vscf.rl:131-136). -/
def Table.new {α : Type} : Table α := ⟨0, [], none, [], 0⟩

/-- Append to a chain (libgdnsd/vscf.rl:152-158). -/
def link (tab : List (List Nat)) (slot id : Nat) : Outcome (List (List Nat)) :=
  match tab[slot]? with
  | none => .ub
  | some c => .ok (tab.set slot (c ++ [id]))

/-- Move the entries of a chain (libgdnsd/vscf.rl:146-161). -/
def moveChain {α : Type} (H : Bytes → Nat) (nodes : List (Node α)) (mask : Nat) : List Nat → List (List Nat) → Outcome (List (List Nat))
  | [], tab => .ok tab
  | id :: r, tab =>
    match nodes[id]? with
    | none => .ub
    | some n => (link tab (H n.key &&& mask) id).bind fun tab => moveChain H nodes mask r tab

/-- All chains, from the first (libgdnsd/vscf.rl:144-162). -/
def moveAll {α : Type} (H : Bytes → Nat) (nodes : List (Node α)) (mask : Nat) (old : List (List Nat)) : Nat → Nat → List (List Nat) → Outcome (List (List Nat))
  | 0, _, tab => .ok tab
  | n + 1, i, tab =>
    match old[i]? with
    | none => .ub
    | some c => (moveChain H nodes mask c tab).bind fun tab => moveAll H nodes mask old n (i + 1) tab

/-- `hash_grow` (libgdnsd/vscf.rl:139-168). -/
def grow {α : Type} (H : Bytes → Nat) (t : Table α) (old : List (List Nat)) : Outcome (Table α) :=
  let o := c2m t.count
  let m := (o <<< 1) ||| 1
  (assert (decide (m + 1 < 2 ^ 32))).bind fun _ =>
  (moveAll H t.nodes m old (o + 1) 0 (List.replicate (m + 1) [])).bind fun tab =>
  .ok { t with children := some tab, cap := m + 1 }

/-- The entry with this key in a chain (libgdnsd/vscf.rl:184-189, 946-953, 988-992). -/
def seek {α : Type} (nodes : List (Node α)) (key : Bytes) : List Nat → Outcome (Option Nat)
  | [] => .ok none
  | id :: r =>
    match nodes[id]? with
    | none => .ub
    | some n => if key = n.key then .ok (some id) else seek nodes key r

/-- The table and the size of `ordered` at the start of `hash_add_val` (libgdnsd/vscf.rl:175-178). -/
def Table.start {α : Type} (t : Table α) : List (List Nat) × Nat :=
  match t.children with
  | none => (List.replicate 2 [], 2)
  | some tab => (tab, t.cap)

/-- `hash_add_val` (libgdnsd/vscf.rl:171-206). -/
def add {α : Type} (H : Bytes → Nat) (t : Table α) (key : Bytes) (v : α) : Outcome (Option (Table α)) :=
  let (tab, cap) := t.start
  let mask := c2m t.count
  let slot := H key &&& mask
  match tab[slot]? with
  | none => .ub
  | some c =>
    (seek t.nodes key c).bind fun
    | some _ => .ok none
    | none =>
      let id := t.nodes.length
      let tab := tab.set slot (c ++ [id])
      let t : Table α := { t with nodes := t.nodes ++ [⟨key, t.count, false, v⟩], children := some tab, cap }
      (if t.count = mask then grow H t tab else .ok t : Outcome (Table α)).bind fun t =>
      (assert (decide (t.count < t.cap ∧ t.count = t.ordered.length))).bind fun _ =>
      .ok (some { t with ordered := t.ordered ++ [id], count := t.count + 1 })

/-- The search of `vscf_hash_get_data_bykey` and `vscf_hash_get_index_bykey` (libgdnsd/vscf.rl:942-953,
984-992). -/
def lookup {α : Type} (H : Bytes → Nat) (t : Table α) (key : Bytes) : Outcome (Option Nat) :=
  if t.count = 0 then .ok none
  else
    match t.children with
    | none => .ub
    | some tab =>
      match tab[H key &&& c2m t.count]? with
      | none => .ub
      | some c => seek t.nodes key c

/-- `vscf_hash_get_data_bykey` (libgdnsd/vscf.rl:939-957). -/
def getKey {α : Type} (H : Bytes → Nat) (t : Table α) (key : Bytes) (mark : Bool) : Outcome (Table α × Option α) :=
  (lookup H t key).bind fun
  | none => .ok (t, none)
  | some id =>
    match t.nodes[id]? with
    | none => .ub
    | some n => .ok (if mark = true then { t with nodes := t.nodes.set id { n with marked := true } } else t, some n.val)

/-- The entry at an index: `vscf_hash_get_key_byindex` and `vscf_hash_get_data_byindex`
(libgdnsd/vscf.rl:959-979). -/
def getAt {α : Type} (t : Table α) (i : Nat) : Outcome (Option (Node α)) :=
  if i ≥ t.count then .ok none
  else
    match t.ordered[i]? with
    | none => .ub
    | some id =>
      match t.nodes[id]? with
      | none => .ub
      | some n => .ok (some n)

/-- `vscf_hash_get_index_bykey` (libgdnsd/vscf.rl:981-997). -/
def indexOf {α : Type} (H : Bytes → Nat) (t : Table α) (key : Bytes) : Outcome Int :=
  (lookup H t key).bind fun
  | none => .ok (-1)
  | some id =>
    match t.nodes[id]? with
    | none => .ub
    | some n => .ok n.index

/-- `vscf_hash_iterate` and `vscf_hash_iterate_const` (libgdnsd/vscf.rl:999-1019), from an index. `f` is the
callback, with what it keeps. -/
def iterate {α σ : Type} (t : Table α) (ignore : Bool) (f : σ → Bytes → α → Bool × σ) : Nat → Nat → σ → Outcome σ
  | 0, _, x => .ok x
  | n + 1, i, x =>
    match t.ordered[i]? with
    | none => .ub
    | some id =>
      match t.nodes[id]? with
      | none => .ub
      | some nd =>
        if ignore = false ∨ nd.marked = false then
          match f x nd.key nd.val with
          | (true, y) => iterate t ignore f n (i + 1) y
          | (false, y) => .ok y
        else iterate t ignore f n (i + 1) x

/-- The second part of `vscf_hash_sort` (libgdnsd/vscf.rl:1027-1028). -/
def reindex {α : Type} (ordered : List Nat) : Nat → Nat → List (Node α) → Outcome (List (Node α))
  | 0, _, nodes => .ok nodes
  | n + 1, i, nodes =>
    match ordered[i]? with
    | none => .ub
    | some id =>
      match nodes[id]? with
      | none => .ub
      | some nd => reindex ordered n (i + 1) (nodes.set id { nd with index := i })

/-- `vscf_hash_sort` (libgdnsd/vscf.rl:1021-1029). `qsort` leaves the entries in some order, given by the
old positions `p`. -/
def sort {α : Type} (t : Table α) (p : List Nat) : Outcome (Table α) :=
  let o := p.filterMap fun i => t.ordered[i]?
  (reindex o t.count 0 t.nodes).bind fun nodes => .ok { t with ordered := o, nodes }

end Gdnsd.Vscf
