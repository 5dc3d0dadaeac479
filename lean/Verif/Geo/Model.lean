/-
Model of the client-network database of libgdmaps: network lists
(libgdmaps/nlist.c), the lookup tree (libgdmaps/ntree.c, ntree.h), the lists made from
configured networks (libgdmaps/nets.c) and from a GeoIP2 database
(libgdmaps/gdgeoip2.c:358-443).

Not modelled: memory allocation, logging, the text syntax of `nets` entries
(nets.c:69-91), the MMDB file format below `MMDB_read_node` and the location-to-list
mapping (dcmap.c): the list for a data record is a parameter.
-/
import Verif.Basic
namespace Gdnsd.Geo

/-- `net_t` (libgdmaps/nlist.c:34-38); `mask` and `dclist` are `unsigned`. -/
structure Net where
  ip : Bytes
  mask : Nat
  dc : Nat
deriving Repr, DecidableEq, Inhabited

/-- `NN_UNDEF` (libgdmaps/ntree.h:118): UINT32_MAX. -/
def UNDEF : Nat := 4294967295

/-- 2^31, the bit that marks a list (libgdmaps/ntree.h:120-122). -/
def HI : Nat := 2147483648

/-- `NN_IS_DCLIST` (libgdmaps/ntree.h:120), on 32-bit values. -/
def isDc (x : Nat) : Bool := (x &&& HI) != 0

/-- `NN_GET_DCLIST` (libgdmaps/ntree.h:121): clears bit 31 of a 32-bit value. -/
def getDc (x : Nat) : Nat := x &&& 2147483647

/-- `NN_SET_DCLIST` (libgdmaps/ntree.h:122). -/
def setDc (x : Nat) : Nat := x ||| HI

/-- `SETBIT_v6` (libgdmaps/ntree.h:37-42). `~bit & 7` is `7 - bit % 8`. -/
def setBit (ip : Bytes) (bit : Nat) : Outcome Bytes :=
  (assert (decide (bit < 128))).bind fun _ =>
    (rd ip (bit / 8)).bind fun b =>
      .ok (ip.set (bit / 8) (b ||| UInt8.ofNat (2 ^ (7 - bit % 8))))

/-- `CHKBIT_v6` (libgdmaps/ntree.c:137-142). -/
def chkBit6 (ip : Bytes) (bit : Nat) : Outcome Bool :=
  (assert (decide (bit < 128))).bind fun _ =>
    (rd ip (bit / 8)).bind fun b => .ok ((b &&& UInt8.ofNat (2 ^ (7 - bit % 8))) != 0)

/-- `CHKBIT_v4` (libgdmaps/ntree.c:163-167); `ip` is a 32-bit number in host order. -/
def chkBit4 (ip : Nat) (bit : Nat) : Outcome Bool :=
  (assert (decide (bit < 32))).bind fun _ => .ok ((ip &&& 2 ^ (31 - bit)) != 0)

/-- `clear_mask_bits` (libgdmaps/nlist.c:109-139) without the warning. The byte at
`bbyte` loses the bits beyond the mask and all bytes after it become zero. -/
def clearMaskBits (ip : Bytes) (mask : Nat) : Outcome Bytes :=
  (assert (decide (mask < 129))).bind fun _ =>
    if mask = 0 then .ok (List.replicate 16 0) else
      let rev := 128 - mask
      let bbyte := 15 - rev / 8
      (rd ip bbyte).bind fun b =>
        .ok (ip.take bbyte ++ (b &&& ~~~ UInt8.ofNat (2 ^ (rev % 8) - 1)) ::
          List.replicate (15 - bbyte) 0)

/-- `assert_clear_mask_bits` (libgdmaps/nlist.c:87-104). -/
def assertClear (ip : Bytes) (mask : Nat) : Outcome Unit :=
  (clearMaskBits ip mask).bind fun c => assert (c == ip)

/-- `memcmp(a, b, 16) < 0` (libgdmaps/nlist.c:152): unsigned bytes, first difference. -/
def memLt : Bytes → Bytes → Bool
  | a :: as, b :: bs => a < b || (a == b && memLt as bs)
  | _, _ => false

/-- `net_sorter(a, b) < 0` (libgdmaps/nlist.c:143-158). -/
def netLt (a b : Net) : Bool :=
  memLt a.ip b.ip || (a.ip == b.ip && a.mask < b.mask)

/-- `masked_net_eq` (libgdmaps/nlist.c:160-171). -/
def maskedEq (a b : Bytes) (mask : Nat) : Outcome Bool :=
  (assert (decide (mask < 128))).bind fun _ =>
    let bytes := mask / 8
    let bm := UInt8.ofNat (0xFF00 / 2 ^ (mask % 8) % 256)
    (rd a bytes).bind fun x => (rd b bytes).bind fun y =>
      .ok (a.take bytes == b.take bytes && (x &&& bm) == (y &&& bm))

/-- `mergeable_nets` (libgdmaps/nlist.c:173-184). `mask - 1` of 0 is UINT_MAX. -/
def mergeable (a b : Net) : Outcome Bool :=
  if a.dc = b.dc then
    if a.mask = b.mask then
      maskedEq a.ip b.ip (if a.mask = 0 then 4294967295 else a.mask - 1)
    else if a.mask < b.mask then maskedEq a.ip b.ip a.mask
    else .ok false
  else .ok false

/-- `net_eq` (libgdmaps/nlist.c:226-230). -/
def netEq (a b : Net) : Bool := a.mask == b.mask && a.ip == b.ip

/-- The merge loop of `nlist_append` on a list kept normalized
(libgdmaps/nlist.c:207-218), on the array in reverse order (last entry first). -/
def mergeBack (nb : Net) : List Net → Outcome (List Net)
  | [] => .ok [nb]
  | na :: rest =>
    (mergeable na nb).bind fun m =>
      bif m then mergeBack { na with mask := if na.mask = nb.mask then na.mask - 1 else na.mask } rest
      else .ok (nb :: na :: rest)

/-- `nlist_append` (libgdmaps/nlist.c:186-224). `norm` is `nl->normalized`. -/
def append (norm : Bool) (l : List Net) (ip : Bytes) (mask dc : Nat) : Outcome (List Net) :=
  bif norm then
    (assertClear ip mask).bind fun _ =>
      (mergeBack ⟨ip, mask, dc⟩ l.reverse).map List.reverse
  else (clearMaskBits ip mask).bind fun c => .ok (l ++ [⟨c, mask, dc⟩])

/-- What a removed entry is overwritten with (libgdmaps/nlist.c:258-259). -/
def deleted (n : Net) : Net := { n with ip := List.replicate 16 255, mask := 255 }

/-- The inner loop of `nlist_normalize_1pass` (libgdmaps/nlist.c:245-262): `na` takes in
the entries after it. Result: the new `na`, the removed entries as overwritten, and the
entries from the first one not taken in. -/
def absorb : Net → List Net → Outcome (Net × List Net × List Net)
  | na, [] => .ok (na, [], [])
  | na, nb :: rest =>
    if netEq na nb then
      (absorb na rest).map fun r => (r.1, deleted nb :: r.2.1, r.2.2)
    else
      (mergeable na nb).bind fun m =>
        bif m then
          (absorb { na with mask := if na.mask = nb.mask then na.mask - 1 else na.mask } rest).map
            fun r => (r.1, deleted nb :: r.2.1, r.2.2)
        else .ok (na, [], nb :: rest)

/-- The outer loop of `nlist_normalize_1pass` (libgdmaps/nlist.c:243-264). Result: the
array after the pass and how many entries were removed. The first argument bounds the
number of rounds by the number of entries. -/
def passLoop : Nat → List Net → Outcome (List Net × Nat)
  | 0, l => if l.isEmpty then .ok ([], 0) else .ub
  | _, [] => .ok ([], 0)
  | k + 1, na :: rest =>
    (absorb na rest).bind fun r =>
      (passLoop k r.2.2).map fun t => (r.1 :: r.2.1 ++ t.1, r.2.1.length + t.2)

/-- `nlist_normalize_1pass` (libgdmaps/nlist.c:232-279): the new entries and whether
anything was removed. `sort` is `qsort` with `net_sorter`. -/
def pass (sort : List Net → List Net) (l : List Net) : Outcome (List Net × Bool) :=
  (assert (!l.isEmpty)).bind fun _ =>
    (passLoop l.length l).bind fun r =>
      if r.2 ≠ 0 then .ok ((sort r.1).take (l.length - r.2), true) else .ok (r.1, false)

/-- The loop of `nlist_normalize` (libgdmaps/nlist.c:289-291). The bound on the number of
passes stands for "the loop ends": reaching it is an error here, and is proved
not to happen. -/
def normLoop (sort : List Net → List Net) : Nat → List Net → Outcome (List Net)
  | 0, _ => .ub
  | k + 1, l => (pass sort l).bind fun r => bif r.2 then normLoop sort k r.1 else .ok r.1

/-- `nlist_normalize` (libgdmaps/nlist.c:281-302). -/
def normalize (sort : List Net → List Net) (postMerge : Bool) (l : List Net) : Outcome (List Net) :=
  if l.isEmpty then .ok l
  else normLoop sort (l.length + 1) (bif postMerge then l else sort l)

/-- `nlist_finish` (libgdmaps/nlist.c:304-319), with the assertion of debug builds. -/
def finish (sort : List Net → List Net) (norm : Bool) (l : List Net) : Outcome (List Net) :=
  bif norm then
    (normalize sort false l).bind fun c => (assert (decide (c = l))).bind fun _ => .ok l
  else normalize sort false l

/-- `net_subnet_of` (libgdmaps/nlist.c:321-337). -/
def subnetOf (sub super : Net) : Outcome Bool :=
  (assert (decide (sub.mask < 129))).bind fun _ => (assert (decide (super.mask < 129))).bind fun _ =>
    if super.mask ≤ sub.mask then
      let wbyte := super.mask / 8
      let bm := UInt8.ofNat (0xFF * 2 ^ (8 - super.mask % 8) % 256)
      if sub.ip.take wbyte == super.ip.take wbyte then
        if wbyte = 16 then .ok true
        else (rd super.ip wbyte).bind fun x => (rd sub.ip wbyte).bind fun y =>
          .ok ((x &&& bm) == (y &&& bm))
      else .ok false
    else .ok false

/-- `while (n_a < end_a && net_subnet_of(n_a, n_b)) n_a++` (libgdmaps/nlist.c:363-364). -/
def skipSub (nb : Net) : List Net → Outcome (List Net)
  | [] => .ok []
  | na :: as => (subnetOf na nb).bind fun s => bif s then skipSub nb as else .ok (na :: as)

/-- The loops of `nlist_merge` (libgdmaps/nlist.c:352-378); `m` is the list `merged`. The
first argument bounds the rounds by the number of entries. -/
def mergeLoop : Nat → List Net → List Net → List Net → Outcome (List Net)
  | 0, _, _, _ => .ub
  | k + 1, m, na :: as, nb :: bs =>
    bif netLt na nb then
      (append false m na.ip na.mask na.dc).bind fun m' => mergeLoop k m' as (nb :: bs)
    else
      (append false m nb.ip nb.mask nb.dc).bind fun m' =>
        (skipSub nb (na :: as)).bind fun as' => mergeLoop k m' as' bs
  | k + 1, m, [], nb :: bs =>
    (append false m nb.ip nb.mask nb.dc).bind fun m' => mergeLoop k m' [] bs
  | k + 1, m, na :: as, [] =>
    (append false m na.ip na.mask na.dc).bind fun m' => mergeLoop k m' as []
  | _ + 1, m, [], [] => .ok m

/-- `nlist_merge` (libgdmaps/nlist.c:339-382). -/
def merge (sort : List Net → List Net) (a b : List Net) : Outcome (List Net) :=
  (mergeLoop (a.length + b.length + 1) [] a b).bind fun m => normalize sort true m

/-! ### The tree -/

/-- `nnode_t` (libgdmaps/ntree.h:124-127). -/
structure Node where
  zero : Nat
  one : Nat
deriving Repr, DecidableEq, Inhabited

/-- `ntree_t` (libgdmaps/ntree.h:129-134): the first `count` entries of `store`. -/
structure Tree where
  store : List Node
  ipv4 : Nat
deriving Repr, DecidableEq, Inhabited

/-- What `nxt_rec` works on: the rest of the list (`*nl` up to `nl_end`) and the store. -/
structure Build where
  rest : List Net
  store : List Node
deriving Repr, DecidableEq, Inhabited

/-- `ntree_add_node` (libgdmaps/ntree.c:45-56). The fields of a new node are not
initialised in C; both are written before they are read. -/
def addNode (s : List Node) : Outcome (List Node × Nat) :=
  (assert (decide (s.length < 16777216))).bind fun _ => .ok (s ++ [⟨0, 0⟩], s.length)

/-- One child slot is written (libgdmaps/nlist.c:426-429). -/
def setChild (s : List Node) (idx : Nat) (dir : Bool) (v : Nat) : List Node :=
  s.modify idx fun n => bif dir then { n with one := v } else { n with zero := v }

/-- `nxt_rec_dir` (libgdmaps/nlist.c:387-430); `deeper` is `nxt_rec`. -/
def dirStep (deeper : Build → Net → Outcome (Build × Nat)) (b : Build) (t : Net) (idx : Nat) (dir : Bool) : Outcome Build :=
  (assert (decide (t.mask < 129 ∧ 0 < t.mask))).bind fun _ =>
    let leaf (r : List Net) (d : Nat) : Outcome Build := .ok ⟨r, setChild b.store idx dir (setDc d)⟩
    let down (r : List Net) (t' : Net) : Outcome Build :=
      (deeper ⟨r, b.store⟩ t').bind fun x => .ok ⟨x.1.rest, setChild x.1.store idx dir x.2⟩
    match b.rest with
    | [] => leaf [] t.dc
    | nl :: r =>
      (subnetOf nl t).bind fun s =>
        bif s then
          if t.mask = nl.mask then
            match r with
            | [] => leaf r nl.dc
            | nx :: _ =>
              (subnetOf nx nl).bind fun s' =>
                bif s' then down r { t with dc := nl.dc } else leaf r nl.dc
          else down (nl :: r) t
        else leaf (nl :: r) t.dc

/-- `nxt_rec` (libgdmaps/nlist.c:432-452); `down` is `nxt_rec_dir`. -/
def recStep (down : Build → Net → Nat → Bool → Outcome Build) (b : Build) (t : Net) : Outcome (Build × Nat) :=
  (assert (decide (t.mask < 128))).bind fun _ =>
    let t1 := { t with mask := t.mask + 1 }
    (addNode b.store).bind fun a =>
      (down ⟨b.rest, a.1⟩ t1 a.2 false).bind fun b1 =>
        (setBit t1.ip (t1.mask - 1)).bind fun ip =>
          (down b1 { t1 with ip := ip } a.2 true).bind fun b2 =>
            match b2.store[a.2]? with
            | none => .ub
            | some n =>
              if n.zero = n.one ∧ 0 < a.2 then .ok (⟨b2.rest, b2.store.take (b2.store.length - 1)⟩, n.zero)
              else .ok (b2, a.2)

/-- `nxt_rec` and `nxt_rec_dir` calling each other. The first argument is
`127 - tree_net.mask`, the levels left below this net; `nxt_rec` at mask 128 fails its
assertion. -/
def rec : Nat → Build → Net → Outcome (Build × Nat)
  | 0 => recStep (dirStep fun _ _ => .ub)
  | k + 1 => recStep (dirStep (rec k))

/-- `nxt_rec_dir` at the level `128 - tree_net.mask`. -/
def recDir : Nat → Build → Net → Nat → Bool → Outcome Build
  | 0 => dirStep fun _ _ => .ub
  | k + 1 => dirStep (rec k)

/-- `ntree_find_v4root` (libgdmaps/ntree.c:63-74): the loop with `mask_depth` rounds left. -/
def findV4 (s : List Node) : Nat → Nat → Outcome Nat
  | 0, off => .ok off
  | k + 1, off =>
    match s[off]? with
    | none => .ub
    | some n => if k ≠ 0 ∧ isDc n.zero = false then findV4 s k n.zero else .ok n.zero

/-- `ntree_assert_optimal` (libgdmaps/ntree.c:121-133). -/
def assertOptimal (s : List Node) : Outcome Unit :=
  if 1 < s.length then assert (s.all fun n => n.zero != n.one) else .ok ()

/-- `nlist_xlate_tree` (libgdmaps/nlist.c:454-490) with `ntree_finish`
(libgdmaps/ntree.c:76-81). -/
def xlate (l : List Net) : Outcome Tree :=
  let start : Nat × List Net :=
    match l with
    | [] => (0, [])
    | n :: r => if n.mask = 0 then (n.dc, r) else (0, n :: r)
  (rec 127 ⟨start.2, []⟩ ⟨List.replicate 16 0, 0, start.1⟩).bind fun x =>
    (assert x.1.rest.isEmpty).bind fun _ =>
      (findV4 x.1.store 96 0).bind fun v4 =>
        (assertOptimal x.1.store).bind fun _ => .ok ⟨x.1.store, v4⟩

/-- `nlist_merge2_tree` (libgdmaps/nlist.c:492-498). -/
def merge2tree (sort : List Net → List Net) (a b : List Net) : Outcome Tree :=
  (merge sort a b).bind xlate

/-- `ntree_lookup_v6` (libgdmaps/ntree.c:144-161): list and mask. The first argument
bounds the loop: `CHKBIT_v6` fails at bit 128. -/
def lookup6 (t : Tree) (ip : Bytes) : Nat → Nat → Nat → Outcome (Nat × Nat)
  | 0, _, _ => .ub
  | k + 1, chk, off =>
    match t.store[off]? with
    | none => .ub
    | some n =>
      (assert (decide (n.one ≠ 0 ∧ n.zero ≠ 0))).bind fun _ =>
        (chkBit6 ip chk).bind fun b =>
          let off' := bif b then n.one else n.zero
          (assert (decide (chk + 1 < 129))).bind fun _ =>
            bif isDc off' then
              (assert (decide (off' ≠ UNDEF))).bind fun _ => .ok (getDc off', chk + 1)
            else lookup6 t ip k (chk + 1) off'

/-- `ntree_lookup_v4` (libgdmaps/ntree.c:174-193). -/
def lookup4 (t : Tree) (ip : Nat) : Nat → Nat → Nat → Outcome (Nat × Nat)
  | k, chk, off =>
    bif isDc off then
      (assert (decide (off ≠ UNDEF))).bind fun _ => .ok (getDc off, chk)
    else
      match k, t.store[off]? with
      | 0, _ => .ub
      | _, none => .ub
      | k + 1, some n =>
        (assert (decide (n.one ≠ 0 ∧ n.zero ≠ 0))).bind fun _ =>
          (chkBit4 ip chk).bind fun b =>
            (assert (decide (chk + 1 < 33))).bind fun _ =>
              lookup4 t ip k (chk + 1) (bif b then n.one else n.zero)

/-- The address fragments of libgdmaps/ntree.h:44-92. -/
def v4mapped : Bytes := [0,0,0,0, 0,0,0,0, 0,0,0xFF,0xFF, 0,0,0,0]
@[inherit_doc v4mapped] def siit : Bytes := [0,0,0,0, 0,0,0,0, 0xFF,0xFF,0,0, 0,0,0,0]
@[inherit_doc v4mapped] def wkp : Bytes := [0,0x64,0xFF,0x9B, 0,0,0,0, 0,0,0,0, 0,0,0,0]
@[inherit_doc v4mapped] def sixto4 : Bytes := [0x20,0x02,0,0, 0,0,0,0, 0,0,0,0, 0,0,0,0]
@[inherit_doc v4mapped] def teredo : Bytes := [0x20,0x01,0,0, 0,0,0,0, 0,0,0,0, 0,0,0,0]

/-- `ntohl` of four bytes (`gdnsd_get_una32`). -/
def be32 : Bytes → Nat
  | [a, b, c, d] => a.toNat * 16777216 + b.toNat * 65536 + c.toNat * 256 + d.toNat
  | _ => 0

/-- `v6_v4fixup` (libgdmaps/ntree.c:195-218): the IPv4 address and `mask_adj`. -/
def v4fixup (ip : Bytes) : Nat × Nat :=
  if ip.take 12 == v4mapped.take 12 || ip.take 12 == siit.take 12 || ip.take 12 == wkp.take 12 then
    (be32 ((ip.drop 12).take 4), 96)
  else if ip.take 4 == teredo.take 4 then (be32 (((ip.drop 12).take 4).map (· ^^^ 255)), 96)
  else if ip.take 2 == sixto4.take 2 then (be32 ((ip.drop 2).take 4), 16)
  else (0, 0)

/-- A client address: `gdnsd_anysin_t` of family AF_INET (host order) or AF_INET6. -/
inductive Addr where
  | v4 (ip : Nat)
  | v6 (ip : Bytes)
deriving Repr, DecidableEq

/-- `ntree_lookup_inner` (libgdmaps/ntree.c:220-241): list and scope mask. -/
def lookupInner (t : Tree) : Addr → Outcome (Nat × Nat)
  | .v4 ip => (assert (decide (t.ipv4 ≠ 0))).bind fun _ => lookup4 t ip 32 0 t.ipv4
  | .v6 ip =>
    let f := v4fixup ip
    if f.2 ≠ 0 then
      (assert (decide (t.ipv4 ≠ 0))).bind fun _ =>
        (lookup4 t f.1 32 0 t.ipv4).map fun r => (r.1, r.2 + f.2)
    else lookup6 t ip 128 0 0

/-- `client_info_t` (include/gdnsd/plugapi.h): where the request came from and its client
subnet option (`ecsMask` 0: none). -/
structure Client where
  src : Addr
  ecs : Addr
  ecsMask : Nat

/-- `ntree_lookup` (libgdmaps/ntree.c:243-258). -/
def lookup (t : Tree) (c : Client) (ignoreEcs : Bool) : Outcome (Nat × Nat) :=
  (assert (decide (t.ipv4 ≠ 0))).bind fun _ =>
    if c.ecsMask ≠ 0 ∧ ignoreEcs = false then lookupInner t c.ecs
    else (lookupInner t c.src).map fun r => (r.1, 0)

/-! ### Lists from configured networks -/

/-- `v6_subnet_of` (libgdmaps/nets.c:35-46). -/
def v6SubnetOf (ip : Bytes) (mask : Nat) (v4 : Bytes) (v4mask : Nat) : Bool :=
  decide (v4mask ≤ mask) && ip.take (v4mask / 8) == v4.take (v4mask / 8)

/-- `check_v4_issues` (libgdmaps/nets.c:48-60). -/
def v4Issues (ip : Bytes) (mask : Nat) : Bool :=
  v6SubnetOf ip mask v4mapped 96 || v6SubnetOf ip mask siit 96 || v6SubnetOf ip mask wkp 96 ||
    v6SubnetOf ip mask teredo 32 || v6SubnetOf ip mask sixto4 16

/-- A parsed `nets` entry: address, mask and index of its list (nets.c:86-121). -/
inductive Entry where
  | v4 (ip : Bytes) (mask : Nat) (dc : Nat)
  | v6 (ip : Bytes) (mask : Nat) (dc : Nat)
deriving Repr, DecidableEq

/-- The loop of `nets_parse` (libgdmaps/nets.c:69-124) after the text of an entry was
parsed. `none`: the entry is refused and loading fails. -/
def netsParse (l : List Net) : List Entry → Outcome (Option (List Net))
  | [] => .ok (some l)
  | .v6 ip mask dc :: es =>
    if 128 < mask then .ok none
    else if v4Issues ip mask then .ok none
    else (append false l ip mask dc).bind fun l' => netsParse l' es
  | .v4 ip mask dc :: es =>
    if 128 < mask + 96 then .ok none
    else (append false l (List.replicate 12 0 ++ ip) (mask + 96) dc).bind fun l' => netsParse l' es

/-- The five areas masked out (libgdmaps/nets.c:150-154). -/
def undefNets : List Net :=
  [⟨v4mapped, 96, UNDEF⟩, ⟨siit, 96, UNDEF⟩, ⟨wkp, 96, UNDEF⟩, ⟨sixto4, 16, UNDEF⟩, ⟨teredo, 32, UNDEF⟩]

/-- Appends in order (libgdmaps/nets.c:150-154). -/
def appendAll (l : List Net) : List Net → Outcome (List Net)
  | [] => .ok l
  | n :: ns => (append false l n.ip n.mask n.dc).bind fun l' => appendAll l' ns

/-- `nets_make_list` (libgdmaps/nets.c:129-159). -/
def netsMakeList (sort : List Net → List Net) (es : List Entry) : Outcome (Option (List Net)) :=
  (netsParse [] es).bind fun
    | none => .ok none
    | some l => (appendAll l undefNets).bind fun l' => (finish sort false l').map some

/-! ### Lists from a GeoIP2 database -/

/-- A record of a search node (`MMDB_search_node_s`); `data` carries the entry's offset. -/
inductive Rec where
  | node (n : Nat)
  | empty
  | data (off : Nat)
  | bad
deriving Repr, DecidableEq

/-- The database as seen through libmaxminddb: `MMDB_read_node` (`none`: an error) and the
list of a data record (`geoip2_get_dclist_cached`, gdgeoip2.c:334-356: the cache
returns what was computed first for that offset). -/
structure Mmdb where
  read : Nat → Option (Rec × Rec)
  dcOf : Nat → Nat

/-- The areas not walked (libgdmaps/gdgeoip2.c:368-376). -/
def skipArea (ip : Bytes) (depth : Nat) : Bool :=
  (decide (depth = 32) && (ip.take 12 == v4mapped.take 12 || ip.take 12 == siit.take 12 || ip.take 12 == wkp.take 12)) ||
    (decide (depth = 96) && ip.take 4 == teredo.take 4) || (decide (depth = 112) && ip.take 2 == sixto4.take 2)

/-- One record (libgdmaps/gdgeoip2.c:389-403 and 407-421); `d` is `new_depth`, `down`
descends into a node. -/
def recordStep (down : List Net → Bytes → Nat → Outcome (Option (List Net))) (db : Mmdb) (d : Nat) (l : List Net) (ip : Bytes) :
    Rec → Outcome (Option (List Net))
  | .node n => down l ip n
  | .empty => (append true l ip (128 - d) 0).map some
  | .data off => (append true l ip (128 - d) (db.dcOf off)).map some
  | .bad => .ok none

/-- `geoip2_list_xlate_recurse` (libgdmaps/gdgeoip2.c:358-422); the first number is
`depth`. `none` is the `siglongjmp`. -/
def walk (db : Mmdb) : Nat → List Net → Bytes → Nat → Outcome (Option (List Net))
  | 0, _, _, _ => .ok none
  | d + 1, l, ip, num =>
    (assert (decide (d + 1 < 129))).bind fun _ =>
      bif skipArea ip (d + 1) then .ok (some l) else
        match db.read num with
        | none => .ok none
        | some (left, right) =>
          (recordStep (walk db d) db d l ip left).bind fun
            | none => .ok none
            | some l1 =>
              (setBit ip (128 - d - 1)).bind fun ip1 => recordStep (walk db d) db d l1 ip1 right

/-- One record with the descent. -/
def walkRec (db : Mmdb) (d : Nat) : List Net → Bytes → Rec → Outcome (Option (List Net)) := recordStep (walk db d) db d

/-- `isolate_jmp` with `geoip2_list_xlate` (libgdmaps/gdgeoip2.c:424-443). -/
def geoList (sort : List Net → List Net) (db : Mmdb) (isV4 : Bool) : Outcome (Option (List Net)) :=
  (walk db (bif isV4 then 32 else 128) [] (List.replicate 16 0) 0).bind fun
    | none => .ok none
    | some l => (finish sort true l).map some

end Gdnsd.Geo
