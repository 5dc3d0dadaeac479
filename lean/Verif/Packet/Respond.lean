import Verif.Packet.Decode
/-
Model of response assembly in src/dnspacket.c (lines 1876-2270).

The C code overwrites the request buffer in place. The model keeps the request
bytes and builds the response as header ++ question ++ answer data ++ OPT record;
`pkt_t.raw` has MAX_RESPONSE_BUF = 16382 bytes (src/dnspacket.h:111-115,
src/dnswire.h:45), so exceeding that is `Outcome.ub`. Statistics are omitted.
-/
namespace Gdnsd.Packet

def maxResponseBuf : Nat := 16382   -- MAX_RESPONSE_BUF, src/dnswire.h:45
def maxResponseData : Nat := 16376  -- MAX_RESPONSE_DATA, src/dnswire.h:55
def padBlock : Nat := 468           -- PAD_BLOCK_SIZE, src/dnswire.h:48

/-- What `db_lookup` (dnspacket.c:1836-1873) leaves behind: the bytes appended after
the question, the AA bit, the rcode put into `flags2`, the three record counts
(`an` includes `cname_ancount`) and the ECS scope. Modelled separately. -/
structure DbAnswer where
  data : Bytes
  aa : Bool
  rcode : UInt8
  an : Nat
  ns : Nat
  ar : Nat
  scope : Nat

/-- `htons` into two bytes; values are truncated to 16 bits as in the code. -/
def put16 (n : Nat) : Bytes := [UInt8.ofNat (n / 256), UInt8.ofNat n]

/-- `htonl` into four bytes. -/
def put32 (n : Nat) : Bytes :=
  [UInt8.ofNat (n / 16777216), UInt8.ofNat (n / 65536), UInt8.ofNat (n / 256), UInt8.ofNat n]

/-- The response being assembled: `txn` counters, the two flag bytes and the bytes
after the header. -/
structure Resp where
  tc : Bool := false
  aa : Bool := false
  rcode : UInt8 := 0
  body : Bytes
  an : Nat := 0
  ns : Nat := 0
  ar : Nat := 0
  scope : Nat := 0

/-- `answer_from_db` (dnspacket.c:1876-1914). `q` is the question section echoed.
`db_lookup` writes into the response buffer, hence the check. -/
def answerFromDb (g : Cfg) (c : Ctx) (db : Txn → DbAnswer) (t : Txn) (q : Bytes) :
    Outcome Resp :=
  let a := db t
  let full : Resp := { aa := a.aa, rcode := a.rcode, body := q ++ a.data, an := a.an, ns := a.ns, ar := a.ar, scope := a.scope }
  (assert (decide (12 + full.body.length ≤ maxResponseBuf))).bind fun _ =>
  if c.isUdp then
    let thisMax := if !t.edns.cookieValid && decide (g.max_nocookie_response ≠ 0) &&
        decide (g.max_nocookie_response < t.thisMax) then g.max_nocookie_response else t.thisMax
    if 12 + full.body.length + t.edns.outBytes > thisMax then
      .ok { tc := true, aa := a.aa, rcode := 0, body := q, scope := a.scope }
    else .ok full
  else .ok full

/-- The ECS part of `do_edns_output` (dnspacket.c:1938-1963). -/
def ecsOutput (e : Edns) (scope : Nat) : Outcome Bytes :=
  if e.respondClientSubnet then
    let src := e.ednsClientMask
    let scope := if src ≠ 0 then scope else 0
    let n := src / 8 + (if src % 8 ≠ 0 then 1 else 0)
    let hd := put16 8 ++ put16 (4 + n) ++ put16 e.clientFamily ++ [UInt8.ofNat src, UInt8.ofNat scope]
    if src ≠ 0 then
      (assert (decide (n ≠ 0))).bind fun _ =>
      if e.clientFamily = 1 then (rdN e.addr4 0 n).bind fun a => .ok (hd ++ a)
      else (assert (e.clientFamily == 2)).bind fun _ => (rdN e.addr6 0 n).bind fun a => .ok (hd ++ a)
    else .ok hd
  else .ok []

/-- The cookie part (dnspacket.c:1965-1975). -/
def cookieOutput (e : Edns) : Outcome Bytes :=
  if e.cookieRespond then
    (assert e.cookieRecvd).bind fun _ =>
    (rdN e.cookieOutput 0 16).bind fun o => .ok (put16 10 ++ put16 16 ++ o)
  else .ok []

/-- The TCP keepalive part (dnspacket.c:1981-1992). -/
def keepaliveOutput (c : Ctx) : Bytes :=
  if !c.isUdp && !c.dsoEstab then put16 11 ++ put16 2 ++ put16 c.ednsTcpKeepalive else []

/-- The NSID part (dnspacket.c:1994-2004). -/
def nsidOutput (g : Cfg) (e : Edns) : Outcome Bytes :=
  if e.respondNsid then
    (assert (decide (g.nsid.length ≠ 0))).bind fun _ => .ok (put16 3 ++ put16 g.nsid.length ++ g.nsid)
  else .ok []

/-- The padding part (dnspacket.c:2013-2036), `off` is `res_offset`. -/
def padOutput (c : Ctx) (off : Nat) : Outcome Bytes :=
  if c.tcpPad then
    (assert (!c.isUdp)).bind fun _ =>
    (assert (decide (off ≤ maxResponseData))).bind fun _ =>
    let n := ((off + 4 + padBlock - 1) / padBlock) * padBlock - 4 - off
    (assert (decide (off + 4 + n ≤ maxResponseBuf))).bind fun _ =>
    (assert (decide ((off + 4 + n) % padBlock = 0))).bind fun _ =>
    .ok (put16 12 ++ put16 n ++ List.replicate n 0)
  else .ok []

/-- `do_edns_output` (dnspacket.c:1917-2047): the bytes of the OPT record. -/
def ednsOutput (g : Cfg) (c : Ctx) (e : Edns) (scope : Nat) (badvers : Bool) (off : Nat) : Outcome Bytes :=
  (ecsOutput e scope).bind fun o1 => (cookieOutput e).bind fun o2 =>
  let o3 := keepaliveOutput c
  (nsidOutput g e).bind fun o4 =>
  let opts := o1 ++ o2 ++ o3 ++ o4
  (assert (e.outBytes == 11 + opts.length)).bind fun _ =>
  (padOutput c (off + 11 + opts.length)).bind fun pad =>
  let ext := (if badvers then 0x01000000 else 0) + (if e.doBit then 0x8000 else 0)
  .ok ([0] ++ put16 41 ++ put16 1024 ++ put32 ext ++ put16 (opts ++ pad).length ++ (opts ++ pad))

/-- The TLV walk of `handle_dso` (dnspacket.c:2111-2114). Fuel: the packet length
(each step advances by at least 4). -/
def dsoWalk (p : Bytes) : Nat → Nat → Outcome Nat
  | 0, off => .ok off
  | fuel + 1, off =>
    if p.length ≥ off + 4 then (rd16 p (off + 2)).bind fun n => dsoWalk p fuel (off + (4 + n))
    else .ok off

/-- The connection's DSO state (`dso_state_t`, src/dnspacket.h). -/
structure DsoState where
  estab : Bool
  lastWasKa : Bool
deriving DecidableEq, Repr

/-- `handle_dso` (dnspacket.c:2050-2158). `none` is the return value 0 (abort the
connection); otherwise the response bytes. `f1` is the request's first flag byte. -/
def handleDso (c : Ctx) (s : DsoState) (p : Bytes) (id0 id1 f1 : UInt8) : Outcome (Option Bytes × DsoState) :=
  let flags1 := ((f1 &&& 0x79) ||| 0x80) &&& 0xF8
  (rdN p 4 8).bind fun counts =>
  if c.isUdp || decide (∃ x ∈ counts, x ≠ 0) then
    .ok (some ([id0, id1, flags1, 1] ++ List.replicate 8 0), s)
  else if (id0 = 0 ∧ id1 = 0) ∨ p.length < 12 + 4 then .ok (none, s)
  else
    (rd16 p 12).bind fun dtype =>
    if dtype = 2 ∨ dtype = 3 then .ok (none, s)
    else (rd16 p 14).bind fun dlen =>
      (dsoWalk p p.length (16 + dlen)).bind fun fin =>
      if fin ≠ p.length then .ok (none, s)
      else if dtype = 1 then
        if dlen ≠ 8 then .ok (none, s)
        else .ok (some ([id0, id1, flags1, 0] ++ counts ++ (p.drop 12).take 4 ++ put32 0xFFFFFFFF ++
                    put32 c.dsoInactivity), { estab := true, lastWasKa := true })
      else .ok (some ([id0, id1, flags1, 11] ++ counts), s)

/-- `handle_dso_with_padding` (dnspacket.c:2161-2189). -/
def handleDsoPad (c : Ctx) (s : DsoState) (p : Bytes) (id0 id1 f1 : UInt8) : Outcome (Option Bytes × DsoState) :=
  (handleDso c s p id0 id1 f1).bind fun r =>
  match r.1 with
  | none => .ok r
  | some out =>
    (assert (decide (out.length ≤ padBlock - 4))).bind fun _ =>
    if c.tcpPad then
      (assert (!c.isUdp)).bind fun _ =>
      let n := padBlock - out.length - 4
      let out := out ++ put16 3 ++ put16 n ++ List.replicate n 0
      (assert (decide (out.length = padBlock))).bind fun _ => .ok (some out, r.2)
    else .ok r

/-- The answer part of `process_dns_query` (dnspacket.c:2228-2259). -/
def answerPart (g : Cfg) (c : Ctx) (db : Txn → DbAnswer) (status : Rc) (wireQd : Nat) (t : Txn) (q : Bytes) :
    Outcome Resp :=
  match status with
  | .ok =>
    if wireQd = 1 then
      if t.qclass = 1 ∨ t.qclass = 255 then answerFromDb g c db t q
      else if t.qclass = 3 then .ok { body := q ++ g.chaos, an := 1 }
      else .ok { body := q, rcode := 5 }
    else (assert t.edns.cookieRecvd).bind fun _ => .ok { body := q }
  | .formerr => .ok { body := q, rcode := 1 }
  | .notimp => .ok { body := q, rcode := 4 }
  | .badvers => .ok { body := q }
  | _ => .ub

/-- `process_dns_query` (dnspacket.c:2191-2270) from the decoder's result. The `Option`
is `none` when 0 is returned (nothing sent; over TCP the connection is dropped). -/
def processQuery (g : Cfg) (c : Ctx) (db : Txn → DbAnswer) (s : DsoState) (p : Bytes) :
    Outcome (Option Bytes × DsoState) :=
  (assert (decide (p.length ≤ 1024))).bind fun _ =>
  (decodeQuery g { c with dsoEstab := s.estab } p (initTxn c)).bind fun r =>
  match r.1 with
  | .ignore => .ok (none, s)
  | status =>
    (rd p 0).bind fun id0 => (rd p 1).bind fun id1 => (rd p 2).bind fun f1 =>
    if status = .dso then handleDsoPad c s p id0 id1 f1
    else
      (rd16 p 4).bind fun wireQd =>
      let t := r.2.1
      let q := (p.drop 12).take (r.2.2 - 12)
      (answerPart g c db status wireQd t q).bind fun a =>
      (if t.edns.reqEdns then
        ednsOutput g { c with dsoEstab := s.estab } t.edns a.scope (decide (status = .badvers)) (12 + a.body.length)
       else .ok []).bind fun opt =>
      let flags1 := ((f1 &&& 0x79) ||| 0x80) ||| (if a.tc then 2 else 0) ||| (if a.aa then 4 else 0)
      let out := [id0, id1, flags1, a.rcode] ++ put16 t.qdcount ++ put16 a.an ++ put16 a.ns ++
        put16 (a.ar + (if t.edns.reqEdns then 1 else 0)) ++ a.body ++ opt
      (assert (decide (out.length ≤ maxResponseBuf))).bind fun _ => .ok (some out, s)

end Gdnsd.Packet
