import Verif.Basic
/-
Model of the hash table of a node's children: src/ltree.h:425-454 and 477-499,
src/ltree.c:106-167. The payload type stands for the rest of the child node. Following the
pointer of an empty slot or leaving the table is `ub`; so is a probe loop that does not end.
-/
namespace Gdnsd.Table

/-- `ltree_hslot` (src/ltree.h:252-255): hash, and the child's label and payload. An empty
slot has a NULL `node`. -/
abbrev Slot (α : Type) := Option (UInt64 × Bytes × α)

/-- `ccount` and `child_table` of a node. No table is the empty list. -/
structure Tbl (α : Type) where
  ccount : Nat := 0
  tab : List (Slot α) := []

/-- `count2mask_sz` (src/ltree.h:425-445) with the builtin: 63 xor the leading zeros is the
index of the top bit. Shifting bit 63 left by one gives 0, so the wrap-around result is all
ones. -/
def count2mask (x : Nat) : Outcome UInt64 :=
  (assert (decide (x ≠ 0))).bind fun _ => .ok (UInt64.ofNat (2 ^ (Nat.log2 x + 1) % 2 ^ 64) - 1)

/-- `(h + probe_dist) & mask`. -/
def slotOf (h : UInt64) (p : Nat) (mask : UInt64) : Nat := ((h + UInt64.ofNat p) &&& mask).toNat

/-- `(slot - s->hash) & mask`. -/
def pdist (slot : Nat) (h mask : UInt64) : Nat := ((UInt64.ofNat slot - h) &&& mask).toNat

/-- `table[i]`. -/
def slotAt {α} (t : List (Slot α)) (i : Nat) : Outcome (Slot α) :=
  match t[i]? with
  | some s => .ok s
  | none => .ub

/-- The probe loop of `ltree_node_find_child` (src/ltree.h:487-495) and of
`ltree_node_find_or_add_child` (src/ltree.c:137-145): the child, or the distance at which the
search gave up. -/
def probe {α} (t : List (Slot α)) (mask kh : UInt64) (label : Bytes) : Nat → Nat → Outcome (Option α × Nat)
  | 0, _ => .ub
  | fuel + 1, p =>
    (slotAt t (slotOf kh p mask)).bind fun s =>
    match s with
    | none => .ok (none, p)
    | some (h, l, v) =>
      if pdist (slotOf kh p mask) h mask < p then .ok (none, p)
      else if h = kh ∧ l = label then .ok (some v, p)
      else probe t mask kh label fuel (p + 1)

/-- `ltree_node_find_child` (src/ltree.h:477-499). -/
def find {α} (hash : Bytes → UInt64) (n : Tbl α) (label : Bytes) : Outcome (Option α) :=
  if n.tab = [] then .ok none
  else
    (assert (decide (n.ccount ≠ 0))).bind fun _ =>
    (count2mask n.ccount).bind fun mask =>
    (probe n.tab mask (hash label) label (n.tab.length + 1) 0).bind fun r => .ok r.1

/-- `ltree_node_insert` (src/ltree.c:106-128). -/
def insert {α} (mask : UInt64) : Nat → List (Slot α) → UInt64 × Bytes × α → Nat → Outcome (List (Slot α))
  | 0, _, _, _ => .ub
  | fuel + 1, t, c, p =>
    (slotAt t (slotOf c.1 p mask)).bind fun s =>
    match s with
    | none => .ok (t.set (slotOf c.1 p mask) (some c))
    | some x =>
      if pdist (slotOf c.1 p mask) x.1 mask < p then
        insert mask fuel (t.set (slotOf c.1 p mask) (some c)) x (pdist (slotOf c.1 p mask) x.1 mask + 1)
      else insert mask fuel t c (p + 1)

/-- The re-insertion loop of a growing table (src/ltree.c:152-155). -/
def reinsert {α} (mask : UInt64) (n : Nat) : List (Slot α) → List (Slot α) → Outcome (List (Slot α))
  | [], t => .ok t
  | none :: r, t => reinsert mask n r t
  | some x :: r, t => (insert mask n t x 0).bind fun t => reinsert mask n r t

/-- The growth step (src/ltree.c:146-158): new mask, table and saved distance. -/
def grow {α} (n : Tbl α) (mask : UInt64) (p : Nat) : Outcome (UInt64 × List (Slot α) × Nat) :=
  if n.ccount = 0 ∨ UInt64.ofNat n.ccount = mask then
    let mask' := ((if n.ccount = 0 then 0 else mask) <<< 1) + 1
    let size := (mask' + 1).toNat
    (reinsert mask' (size + 1) n.tab (List.replicate size none)).bind fun t => .ok (mask', t, 0)
  else .ok (mask, n.tab, p)

/-- `ltree_node_find_or_add_child` (src/ltree.c:130-167): the child and the new table; `v` is
the fresh child. -/
def findOrAdd {α} (hash : Bytes → UInt64) (n : Tbl α) (label : Bytes) (v : α) : Outcome (α × Tbl α) :=
  (count2mask (n.ccount ||| 1)).bind fun mask =>
  (if n.ccount = 0 then .ok (none, 0)
    else probe n.tab mask (hash label) label (n.tab.length + 1) 0).bind fun r =>
  match r.1 with
  | some x => .ok (x, n)
  | none =>
    (grow n mask r.2).bind fun g =>
    (insert g.1 (g.2.1.length + 1) g.2.1 (hash label, label, v) g.2.2).bind fun t =>
    .ok (v, ⟨n.ccount + 1, t⟩)

end Gdnsd.Table
