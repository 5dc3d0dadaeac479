import Verif.Dname.Spec
/-
Specification of DNS requests over byte lists (RFC 1035 4.1, RFC 6891, RFC 7871,
RFC 7873), independent of the decoder's offset arithmetic.
-/
namespace Gdnsd.PacketSpec

def be16 (a b : UInt8) : Nat := a.toNat * 256 + b.toNat

/-! ### EDNS Client Subnet (RFC 7871 section 6) -/

/-- Bit `i` (0 = most significant bit of the first byte) of an address. -/
def addrBit (addr : Bytes) (i : Nat) : Bool :=
  match addr[i / 8]? with
  | some b => b.toNat.testBit (7 - i % 8)
  | none => false

/-- A legal request option: known family, prefix in range, zero scope, the fewest
address bytes covering the prefix, no bit set beyond the prefix. -/
structure EcsLegal (data : Bytes) (family src : Nat) (addr : Bytes) : Prop where
  shape : ∃ f1 f2 s : UInt8, data = f1 :: f2 :: s :: 0 :: addr ∧ family = be16 f1 f2 ∧ src = s.toNat
  range : (family = 1 ∧ src ≤ 32) ∨ (family = 2 ∧ src ≤ 128)
  minimal : 8 * addr.length < src + 8 ∧ src ≤ 8 * addr.length
  zeros : ∀ i, src ≤ i → addrBit addr i = false

/-! ### Requests -/

/-- Skip an owner name: labels of up to 63 bytes ending in the root or in a
two-byte pointer. Gives the bytes used, whether it ended in a pointer, and the rest. -/
def skipName (b : Bytes) : Option (Nat × Bool × Bytes) :=
  match b with
  | [] => none
  | c :: r =>
    if c = 0 then some (1, false, r)
    else if c.toNat ≥ 64 then
      match r with
      | [] => none
      | _ :: r => some (2, true, r)
    else if r.length < c.toNat then none
    else (skipName (r.drop c.toNat)).map fun x => (x.1 + 1 + c.toNat, x.2)
termination_by b.length
decreasing_by simp; omega

/-- Owner names are limited to 255 bytes (254 when they end in a pointer). -/
def ownerName (b : Bytes) : Option Bytes :=
  match skipName b with
  | some (n, isPtr, r) => if n + (if isPtr then 1 else 0) ≤ 255 then some r else none
  | none => none

/-- A question after the first one: name, type, class. -/
def question (b : Bytes) : Option Bytes :=
  (ownerName b).bind fun r => if r.length < 4 then none else some (r.drop 4)

/-- A resource record: name, type, class, TTL, length-prefixed data. -/
def record (b : Bytes) : Option Bytes :=
  (ownerName b).bind fun r =>
    match r with
    | _ :: _ :: _ :: _ :: _ :: _ :: _ :: _ :: h :: l :: r =>
      if r.length < be16 h l then none else some (r.drop (be16 h l))
    | _ => none

/-- `n` records in a row. -/
def repeatN (f : Bytes → Option Bytes) : Nat → Bytes → Option Bytes
  | 0, b => some b
  | n + 1, b => (f b).bind (repeatN f n)

/-- The facts about configuration and connection the verdict depends on. -/
structure Env where
  /-- client subnet support enabled -/
  ecs : Bool
  /-- cookies enabled -/
  cookies : Bool
  /-- DNS Stateful Operations enabled -/
  dso : Bool
  /-- request arrived on a TCP connection with an established DSO session -/
  inDso : Bool

/-- What happens to a request. -/
inductive Verdict where
  | drop | formerr | badvers | notimp | answer | dso
deriving DecidableEq, Repr

open Classical in
/-- One EDNS option: `some v` rejects the request with `v`. Only the first cookie counts. -/
noncomputable def option (env : Env) (cookieSeen : Bool) (code : Nat) (data : Bytes) : Option Verdict :=
  if code = 8 then
    if env.ecs = false ∨ ∃ f s a, EcsLegal data f s a then none else some .formerr
  else if code = 3 then (if data = [] then none else some .formerr)
  else if code = 11 then (if env.inDso then some .drop else none)
  else if code = 10 then
    if env.cookies = false ∨ cookieSeen = true ∨ data.length = 8 ∨ (16 ≤ data.length ∧ data.length ≤ 40)
    then none else some .formerr
  else none

/-- A sequence of options (RFC 6891 6.1.2). Gives the first rejection, and whether a
cookie option was processed. -/
noncomputable def options (env : Env) (seen : Bool) (b : Bytes) : Option Verdict × Bool :=
  match b with
  | [] => (none, seen)
  | c1 :: c2 :: l1 :: l2 :: r =>
    if r.length < be16 l1 l2 then (some .formerr, seen)
    else
      match option env seen (be16 c1 c2) (r.take (be16 l1 l2)) with
      | some v => (some v, seen)
      | none => options env (seen || (env.cookies && be16 c1 c2 == 10)) (r.drop (be16 l1 l2))
  | _ => (some .formerr, seen)
termination_by b.length
decreasing_by simp; omega

/-- The options of an OPT record, in order (up to the first that does not fit). -/
def optList (b : Bytes) : List (Nat × Bytes) :=
  match b with
  | c1 :: c2 :: l1 :: l2 :: r =>
    if r.length < be16 l1 l2 then []
    else (be16 c1 c2, r.take (be16 l1 l2)) :: optList (r.drop (be16 l1 l2))
  | _ => []
termination_by b.length
decreasing_by simp; omega

/-- One of the next `n` records of `b` is an OPT record of the given version, DO bit,
advertised size and data. -/
def OptIn (n : Nat) (b : Bytes) (ver : UInt8) (dobit : Bool) (size : Nat) (rdata : Bytes) : Prop :=
  ∃ k s1 s2 x f1 f2 h l post, k < n ∧
    repeatN record k b = some ([0, 0, 41, s1, s2, x, ver, f1, f2, h, l] ++ rdata ++ post) ∧
    rdata.length = be16 h l ∧ size = be16 s1 s2 ∧ dobit = decide (128 ≤ f1.toNat)

/-- The additional section: at most one OPT record, whose options must be acceptable;
everything else is skipped. -/
noncomputable def additional (env : Env) : Nat → Bool → Bool → Bytes → Option Verdict × Bool
  | 0, _, cookie, _ => (none, cookie)
  | n + 1, optSeen, cookie, b =>
    match b with
    | 0 :: 0 :: 41 :: _ :: _ :: _ :: ver :: _ :: _ :: h :: l :: r =>
      if optSeen then (some .formerr, cookie)
      else if ver ≠ 0 then (some .badvers, cookie)
      else if r.length < be16 h l then (some .formerr, cookie)
      else
        match options env cookie (r.take (be16 h l)) with
        | (some v, k) => (some v, k)
        | (none, k) => additional env n true k (r.drop (be16 h l))
    | _ =>
      match record b with
      | none => (some .formerr, cookie)
      | some r => additional env n optSeen cookie r

/-- The first question: an uncompressed legal name, type and class. -/
def FirstQuestion (b : Bytes) (ls : List Bytes) (qtype qclass : Nat) (rest : Bytes) : Prop :=
  DnameSpec.WF ls ∧ ∃ t1 t2 c1 c2, b = DnameSpec.wireLabels ls ++ 0 :: t1 :: t2 :: c1 :: c2 :: rest ∧
    qtype = be16 t1 t2 ∧ qclass = be16 c1 c2

/-- The question section: nothing, or the first question followed by others. Gives the
type of the first question (0 without one) and the rest. -/
inductive Questions : Nat → Bytes → Nat → Bytes → Prop
  | none (b : Bytes) : Questions 0 b 0 b
  | some {n b ls ty cl r r'} : FirstQuestion b ls ty cl r → repeatN question n r = some r' →
      Questions (n + 1) b ty r'

/-- The request has, in its additional section, an OPT record of the given version,
DO bit, advertised size and data. -/
def HasOpt (p : Bytes) (ver : UInt8) (dobit : Bool) (size : Nat) (rdata : Bytes) : Prop :=
  ∃ x0 x1 f1 f2 q1 q2 a1 a2 n1 n2 r1 r2 body ty b rest,
    p = x0 :: x1 :: f1 :: f2 :: q1 :: q2 :: a1 :: a2 :: n1 :: n2 :: r1 :: r2 :: body ∧
    Questions (be16 q1 q2) body ty b ∧
    (repeatN record (be16 a1 a2) b).bind (repeatN record (be16 n1 n2)) = some rest ∧
    OptIn (be16 r1 r2) rest ver dobit size rdata

/-- What the protocol demands once all sections are readable. -/
def opVerdict (env : Env) (opcode qdcount qtype : Nat) (cookie : Bool) : Verdict :=
  if opcode = 0 then
    if qdcount = 1 ∨ (qdcount = 0 ∧ cookie = true) then
      if 128 ≤ qtype ∧ qtype ≤ 254 then .notimp else .answer
    else .formerr
  else if opcode = 6 ∧ env.dso = true then .dso
  else .notimp

open Classical in
/-- The verdict on a whole packet. -/
noncomputable def verdict (env : Env) (p : Bytes) : Verdict :=
  match p with
  | _ :: _ :: f1 :: _ :: q1 :: q2 :: a1 :: a2 :: n1 :: n2 :: r1 :: r2 :: body =>
    if f1.toNat ≥ 128 then .drop
    else if h : ∃ x : Nat × Bytes, Questions (be16 q1 q2) body x.1 x.2 then
      match (repeatN record (be16 a1 a2) h.choose.2).bind (repeatN record (be16 n1 n2)) with
      | none => .formerr
      | some rest =>
        match additional env (be16 r1 r2) false false rest with
        | (some v, _) => v
        | (none, cookie) => opVerdict env (f1.toNat / 8 % 16) (be16 q1 q2) h.choose.1 cookie
    else .formerr
  | _ => .drop

end Gdnsd.PacketSpec

namespace Gdnsd.PacketSpec

/-! ### DNS Stateful Operations (RFC 8490) -/

/-- A sequence of type-length-value items filling the whole of `b`. -/
def tlvs (b : Bytes) : Option (List (Nat × Bytes)) :=
  match b with
  | [] => some []
  | t1 :: t2 :: l1 :: l2 :: r =>
    if r.length < be16 l1 l2 then none
    else (tlvs (r.drop (be16 l1 l2))).map ((be16 t1 t2, r.take (be16 l1 l2)) :: ·)
  | _ => none
termination_by b.length
decreasing_by simp; omega

/-- What a DSO request leads to. -/
inductive DsoVerdict where
  /-- the connection is aborted -/
  | abort
  /-- FORMERR, connection kept -/
  | formerr
  /-- DSOTYPENI, connection kept -/
  | notimpl
  /-- the session is established (or stays so) and the timeouts are returned -/
  | keepalive
deriving DecidableEq, Repr

/-- RFC 8490: FORMERR off TCP or with records; abort on unidirectional messages, on
unparseable TLVs, on a missing or misplaced primary TLV and on a keepalive of the wrong
size; keepalive (type 1) is the only supported request. -/
def dsoVerdict (tcp : Bool) (p : Bytes) : DsoVerdict :=
  match p with
  | i0 :: i1 :: _ :: _ :: q1 :: q2 :: a1 :: a2 :: n1 :: n2 :: r1 :: r2 :: body =>
    if tcp = false ∨ ¬ (be16 q1 q2 = 0 ∧ be16 a1 a2 = 0 ∧ be16 n1 n2 = 0 ∧ be16 r1 r2 = 0) then .formerr
    else if be16 i0 i1 = 0 then .abort
    else match tlvs body with
      | none => .abort
      | some [] => .abort
      | some ((ty, d) :: _) =>
        if ty = 1 then (if d.length = 8 then .keepalive else .abort)
        else if ty = 2 ∨ ty = 3 then .abort
        else .notimpl
  | _ => .abort

end Gdnsd.PacketSpec

namespace Gdnsd.PacketSpec

/-- A whole message whose section counts are the number of entries it contains (at most
one question). -/
def WellCounted (m : Bytes) : Prop :=
  ∃ x0 x1 f1 f2 q1 q2 a1 a2 n1 n2 r1 r2 body rest,
    m = x0 :: x1 :: f1 :: f2 :: q1 :: q2 :: a1 :: a2 :: n1 :: n2 :: r1 :: r2 :: body ∧
    ((be16 q1 q2 = 0 ∧ rest = body) ∨ (be16 q1 q2 = 1 ∧ ∃ ls ty cl, FirstQuestion body ls ty cl rest)) ∧
    repeatN record (be16 a1 a2 + be16 n1 n2 + be16 r1 r2) rest = some []

end Gdnsd.PacketSpec
