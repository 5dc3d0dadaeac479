import Verif.Basic
/-
The record sets stored in the zone tree (src/ltree.h:104-300), as values instead of
linked structures. Names are in the internal form: a length byte, then the wire form.
Arrays with a count become lists; 16-bit fields kept in network order become the two bytes
that are written out; TTLs stay 32-bit values in network order.
-/
namespace Gdnsd.Enc

/-- A glue address set referenced by an NS record: `ltree_rrset_a_t` or
`ltree_rrset_aaaa_t` reached through `glue_v4`/`glue_v6` (src/ltree.h:106-110). -/
structure Glue where
  ttl : UInt32
  addrs : List Bytes
deriving Repr, DecidableEq

/-- `ltree_rdata_ns` (src/ltree.h:106-110). -/
structure NsRd where
  dname : Bytes
  glue4 : Option Glue
  glue6 : Option Glue
deriving Repr, DecidableEq

/-- The type-specific part of an rrset (src/ltree.h:112-255). `dynA`/`dynAAAA` are address
sets with `gen.count == 0`: a plugin resource number and the minimum TTL in host order.
`soa` holds mname, rname and the 20 bytes of `times`. `mx`, `srv` and `naptr` hold their
numeric fields as bytes in wire order. -/
inductive Body where
  | a (addrs : List Bytes)
  | aaaa (addrs : List Bytes)
  | dynA (res : Nat) (ttlMin : UInt32)
  | dynAAAA (res : Nat) (ttlMin : UInt32)
  | soa (mname rname times : Bytes)
  | cname (dname : Bytes)
  | dync (res : Nat) (ttlMin : UInt32)
  | ns (l : List NsRd)
  | ptr (l : List Bytes)
  | mx (l : List (Bytes × Bytes))
  | srv (l : List (Bytes × Bytes))
  | naptr (l : List (Bytes × Bytes × Bytes))
  | txt (l : List Bytes)
  | raw (type : Nat) (l : List Bytes)
deriving Repr, DecidableEq

/-- An rrset: `gen.ttl` (network order) and its data. -/
structure RRset where
  ttl : UInt32
  body : Body
deriving Repr, DecidableEq

/-- `gen.type` (src/ltree.h:149-154, src/dnswire.h). -/
def Body.type : Body → Nat
  | .a _ => 1
  | .dynA _ _ => 1
  | .ns _ => 2
  | .cname _ => 5
  | .soa _ _ _ => 6
  | .ptr _ => 12
  | .mx _ => 15
  | .txt _ => 16
  | .aaaa _ => 28
  | .dynAAAA _ _ => 28
  | .srv _ => 33
  | .naptr _ => 35
  | .dync _ _ => 0xFF0F
  | .raw t _ => t

def RRset.type (r : RRset) : Nat := r.body.type

/-- What a plugin resource returned (`dyn_result_t`, src/plugins/plugapi.h:141-152, and
the returned `gdnsd_sttl_t`). -/
structure DynRes where
  sttl : UInt32
  cname : Option Bytes
  v4 : List Bytes
  v6 : List Bytes
  scope : Nat
deriving Repr, DecidableEq

end Gdnsd.Enc
