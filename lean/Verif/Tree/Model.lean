import Verif.Dname.Model
import Verif.Enc.Data
/-
Model of the label tree: src/ltree.h, and the search functions of src/ltree.c and
src/dnspacket.c.

A node's children are a list of pairs instead of a hash table; `Verif/Tree/Table.lean`
models the hash table and shows that it acts as a map. The labels are kept without their
length byte.
-/
namespace Gdnsd.Tree
open Enc

/-- `struct ltree_node` (src/ltree.h:255-260, flags 262-276): the zone-cut flag, the rrset
list and the children. The glue-used flag only drives warnings and is left out. -/
inductive Node where
  | mk (zcut : Bool) (rrs : List RRset) (kids : List (Bytes × Node))

def Node.zcut : Node → Bool
  | .mk z _ _ => z

def Node.rrs : Node → List RRset
  | .mk _ r _ => r

def Node.kids : Node → List (Bytes × Node)
  | .mk _ _ k => k

/-- A node fresh from `xcalloc`. -/
def Node.empty : Node := .mk false [] []

/-- First pair with a key. -/
def lookupKid : List (Bytes × Node) → Bytes → Option Node
  | [], _ => none
  | (k, n) :: r, l => if k = l then some n else lookupKid r l

/-- `ltree_node_find_child` (src/ltree.h:479-499). -/
def Node.find (n : Node) (l : Bytes) : Option Node := lookupKid n.kids l

/-- Replace the first pair with a key, or append. -/
def setKid : List (Bytes × Node) → Bytes → Node → List (Bytes × Node)
  | [], l, x => [(l, x)]
  | (k, n) :: r, l, x => if k = l then (k, x) :: r else (k, n) :: setKid r l x

/-- The label `*`. -/
def wild : Bytes := [42]

/-- The loop of `dname_to_lstack` (src/ltree.h:467-471): labels in the order of the name.
`fuel` bounds the number of labels. -/
def lstackGo (d : Bytes) : Nat → Nat → Outcome (List Bytes)
  | 0, pos => (rd d pos).bind fun b => if b = 0 then .ok [] else .ub
  | fuel + 1, pos =>
    (rd d pos).bind fun b =>
    if b = 0 then .ok []
    else
      (assert (decide (pos + 1 + b.toNat ≤ d.length))).bind fun _ =>
      (lstackGo d fuel (pos + 1 + b.toNat)).bind fun r =>
      .ok ((d.drop (pos + 1)).take b.toNat :: r)

/-- `dname_to_lstack` (src/ltree.h:460-474). The stack array has 127 entries. -/
def lstack (d : Bytes) : Outcome (List Bytes) :=
  (Dname.status d).bind fun s =>
  (assert (decide (s = .valid))).bind fun _ => lstackGo d 127 1

/-- `ltree_dname_status_t` (src/ltree.h:86-90). -/
inductive Auth where
  | noauth
  | auth
  | deleg
deriving DecidableEq, Repr

/-- `search_result_t` (src/dnspacket.c:1610-1614) with the status and `depth_lc`. -/
structure Found where
  status : Auth
  dom : Option Node
  auth : Option Node
  depth : Nat

/-- The loop of `search_ltree_for_dname` (src/dnspacket.c:1635-1664). `auth` and `depth` are
the state, `rest` the labels still to go, last label of the name first; its length is
`lcount`. The status is DNAME_AUTH exactly when `auth` is set (the two assertions in the loop
say so). -/
def walk (cur : Node) (auth : Option Node) (depth : Nat) : List Bytes → Found
  | [] =>
    bif cur.zcut && auth.isSome then ⟨.deleg, some cur, auth, 0⟩
    else bif cur.zcut then ⟨.auth, some cur, some cur, 0⟩
    else ⟨bif auth.isSome then .auth else .noauth, some cur, auth, depth⟩
  | l :: rest =>
    bif cur.zcut && auth.isSome then ⟨.deleg, some cur, auth, rest.length + 1⟩
    else
      let auth' := bif cur.zcut then some cur else auth
      let depth' := bif cur.zcut then rest.length + 1 else depth
      match cur.find l with
      | some next => walk next auth' depth' rest
      | none => bif auth'.isSome then ⟨.auth, cur.find wild, auth', depth'⟩ else ⟨.noauth, none, auth', depth'⟩

/-- `search_ltree_for_dname` (src/dnspacket.c:1617-1683): the result and `auth_depth`. -/
def search (root : Node) (d : Bytes) : Outcome (Found × Nat) :=
  (rd d 0).bind fun b =>
  (assert (decide (b ≠ 0) && decide (b ≠ 2))).bind fun _ =>
  (lstack d).bind fun ls =>
  let r := walk root none ls.length ls.reverse
  let ad := bif decide (r.status = .noauth) then 0 else ((ls.take r.depth).map fun l => l.length + 1).sum
  .ok (r, ad)

/-- The loop of `ltree_search_dname_zone` (src/ltree.c:741-761): node, status, deepest cut
seen. `top` says that `cur` is the zone root. -/
def zwalk (cur : Node) (top : Bool) (st : Auth) (cut : Option Node) : List Bytes → Option Node × Auth × Option Node
  | [] =>
    bif cur.zcut && !top then (some cur, .deleg, some cur) else (some cur, st, cut)
  | l :: rest =>
    let st' := bif cur.zcut && !top then Auth.deleg else st
    let cut' := bif cur.zcut && !top then some cur else cut
    match cur.find l with
    | some next => zwalk next false st' cut' rest
    | none => (bif decide (st' = .auth) then cur.find wild else none, st', cut')

/-- `zone_t` (src/ltree.h:304-309) without its arena and serial. -/
structure Zone where
  dname : Bytes
  root : Node

/-- `ltree_search_dname_zone` (src/ltree.c:720-766): node, status and `*deleg_out` (`cut` is
what that held before). -/
def searchZone (z : Zone) (d : Bytes) (cut : Option Node) : Outcome (Option Node × Auth × Option Node) :=
  (rd d 0).bind fun b =>
  (assert (decide (b ≠ 0) && decide (b ≠ 2))).bind fun _ =>
  (Dname.isInZone z.dname d).bind fun inz =>
  bif inz then
    (Dname.dropZone d z.dname).bind fun loc =>
    (lstack loc).bind fun ls => .ok (zwalk z.root true .auth cut ls.reverse)
  else .ok (none, .noauth, cut)

/-- First rrset of a type: `ltree_node_get_rrset_*` (src/ltree.c:193-204). -/
def getType (rrs : List RRset) (t : Nat) : Option RRset := rrs.find? fun r => r.type == t

end Gdnsd.Tree
