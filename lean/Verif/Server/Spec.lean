import Verif.Load.ReplySpec
import Verif.Packet.Spec
/-
What a whole reply message says, independent of how it is made.
-/
namespace Gdnsd.ServerSpec
open EncSpec PacketSpec LookupSpec

/-- The fixed part of a message (RFC 1035 4.1.1): the identification, the response, authority
and truncation bits, the response code, and the four counts. -/
structure HeaderAt (m : Bytes) (id : Bytes) (aa tc : Bool) (rcode qd an ns ar : Nat) : Prop where
  id : m.take 2 = id ∧ id.length = 2
  flags : ∃ f r : UInt8, m[2]? = some f ∧ m[3]? = some r ∧ 128 ≤ f.toNat ∧ f.toNat / 4 % 2 = aa.toNat ∧
    f.toNat / 2 % 2 = tc.toNat ∧ r.toNat = rcode
  counts : U16At m 4 qd ∧ U16At m 6 an ∧ U16At m 8 ns ∧ U16At m 10 ar

/-- What a UDP reply may not exceed: 512 bytes or what the request's OPT record and the server
allow (`most`), or less without a valid cookie (`nocookie`). -/
def UdpLimit (most nocookie : Nat) (p : Bytes) (lim : Nat) : Prop :=
  ∃ m, (m = 512 ∨ ∃ dobit size rdata, HasOpt p 0 dobit size rdata ∧ m = min (max size 512) most) ∧
    (lim = m ∨ (lim = nocookie ∧ lim ≠ 0 ∧ lim < m))

/-- The sections of a reply between `off` and `e`, each in some order. -/
def SectionsAt (m : Bytes) (off : Nat) (rep : Reply) (e : Nat) : Prop :=
  ∃ an ns ar, RecsAt m off (an ++ ns ++ ar) e ∧ an.Perm rep.answer ∧ ns.Perm rep.authority ∧ ar.Perm rep.additional

end Gdnsd.ServerSpec
