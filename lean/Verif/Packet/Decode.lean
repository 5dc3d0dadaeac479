import Verif.Basic
/-
Model of the request decoder of src/dnspacket.c (lines 284-760).

`pkt` is exactly the received bytes (`packet_len = pkt.length`); the C buffer is
larger, so treating any read beyond the received bytes as `Outcome.ub` is
stricter than memory safety.
-/
namespace Gdnsd.Packet

/-- Configuration read by the decoder (src/conf.h `cfg_t`). -/
structure Cfg where
  edns_client_subnet : Bool
  disable_cookies : Bool
  disable_tcp_dso : Bool
  /-- `nsid.data`; `nsid.len` is its length (conf.c: at most 128 bytes). -/
  nsid : Bytes
  /-- `chaos.data`: a complete TXT RR as stored by `set_chaos` (conf.c:70-85). -/
  chaos : Bytes
  max_nocookie_response : Nat

/-- The per-thread context fields (`struct dnsp_ctx`, dnspacket.c:165-200) plus the
connection's DSO state `dso->estab` (meaningful only when not UDP). -/
structure Ctx where
  isUdp : Bool
  tcpPad : Bool
  udpEdnsMax : Nat
  ednsTcpKeepalive : Nat
  dsoInactivity : Nat
  dsoEstab : Bool
  /-- `cookie_process` for this request's source address: option data to
  (validity, 16 output bytes). Modelled in `Verif/Cookie/Model.lean`. -/
  cookieFn : Bytes → Bool × Bytes

/-- `edns_t` (dnspacket.c:79-110), with the union of addresses split into its two
non-overlapping address fields (`sin4.sin_addr` at offset 4, `sin6.sin6_addr` at
offset 8 of the union). `af` is the stored `sa_family`. -/
structure Edns where
  af : Option Nat := none
  addr4 : Bytes := [0, 0, 0, 0]
  addr6 : Bytes := [0, 0, 0, 0, 0, 0, 0, 0, 0, 0, 0, 0, 0, 0, 0, 0]
  ednsClientMask : Nat := 0
  clientScopeMask : Nat := 0
  outBytes : Nat := 0
  reqEdns : Bool := false
  doBit : Bool := false
  respondClientSubnet : Bool := false
  clientFamily : Nat := 0
  respondNsid : Bool := false
  cookieRecvd : Bool := false
  cookieRespond : Bool := false
  cookieValid : Bool := false
  cookieOutput : Bytes := []
deriving DecidableEq, Repr

/-- The fields of `txn_t` (dnspacket.c:114-163) that decoding sets. -/
structure Txn where
  thisMax : Nat
  qtype : Nat := 0
  qclass : Nat := 0
  qdcount : Nat := 0
  lqname : Bytes := []
  edns : Edns := {}
deriving DecidableEq, Repr

/-- `rcode_rv_t` (dnspacket.c:284-292). -/
inductive Rc where
  | ignore | formerr | badvers | notimp | ok | dso
deriving DecidableEq, Repr

/-- `ntohs(gdnsd_get_una16(&p[i]))`. -/
def rd16 (p : Bytes) (i : Nat) : Outcome Nat :=
  (rd p i).bind fun a => (rd p (i + 1)).bind fun b => .ok (a.toNat * 256 + b.toNat)

/-- Reading `n` consecutive bytes (source side of a `memcpy`). -/
def rdN (p : Bytes) (i n : Nat) : Outcome Bytes :=
  if i + n ≤ p.length then .ok ((p.drop i).take n) else .ub

/-- `memcpy(dst, src, n)` onto a fixed-size destination: the first bytes are
replaced; overflowing the destination is undefined behaviour. -/
def overwrite (dst src : Bytes) : Outcome Bytes :=
  if src.length ≤ dst.length then .ok (src ++ dst.drop src.length) else .ub

/-- `handle_edns_client_subnet` (dnspacket.c:294-364). -/
def handleEcs (e : Edns) (p : Bytes) (off optLen : Nat) : Outcome (Rc × Edns) :=
  if optLen < 4 then .ok (.formerr, e)
  else
    (rd16 p off).bind fun family =>
    (rd p (off + 2)).bind fun srcMask =>
    (rd p (off + 3)).bind fun scopeMask =>
    let srcMask := srcMask.toNat
    let off := off + 4
    if scopeMask ≠ 0 then .ok (.formerr, e)
    else if family = 1 ∧ srcMask > 32 then .ok (.formerr, e)
    else if family = 2 ∧ srcMask > 128 then .ok (.formerr, e)
    else if family ≠ 1 ∧ family ≠ 2 then .ok (.formerr, e)
    else
      let trailing := srcMask % 8
      let addrBytes := srcMask / 8 + (if trailing ≠ 0 then 1 else 0)
      if optLen ≠ 4 + addrBytes then .ok (.formerr, e)
      else
        (if trailing ≠ 0 then
          (rd p (off + srcMask / 8)).bind fun fb =>
            -- final_mask = ~(0xFF << (8 - trailing)) & 0xFF, i.e. the low 8-trailing bits
            .ok (decide (fb.toNat % 2 ^ (8 - trailing) ≠ 0))
        else .ok false).bind fun bad =>
        if bad then .ok (.formerr, e)
        else
          let fin (e : Edns) : Outcome (Rc × Edns) :=
            .ok (.ok, { e with outBytes := e.outBytes + (8 + addrBytes), respondClientSubnet := true,
                               ednsClientMask := srcMask, clientFamily := family })
          if srcMask ≠ 0 then
            (rdN p off addrBytes).bind fun data =>
            if family = 1 then
              (overwrite e.addr4 data).bind fun a => fin { e with af := some 4, addr4 := a }
            else
              (assert (family == 2)).bind fun _ =>
              (overwrite e.addr6 data).bind fun a => fin { e with af := some 6, addr6 := a }
          else fin e

/-- `handle_edns_cookie` (dnspacket.c:367-385). -/
def handleCookie (c : Ctx) (e : Edns) (p : Bytes) (off optLen : Nat) : Outcome (Rc × Edns) :=
  let e := { e with cookieRecvd := true }
  if optLen ≠ 8 ∧ (optLen < 16 ∨ optLen > 40) then .ok (.formerr, e)
  else (rdN p off optLen).bind fun data =>
    let r := c.cookieFn data
    .ok (.ok, { e with cookieRespond := true, outBytes := e.outBytes + 20,
                       cookieValid := r.1, cookieOutput := r.2 })

/-- `handle_edns_option` (dnspacket.c:388-433); statistics are omitted. -/
def handleOption (g : Cfg) (c : Ctx) (e : Edns) (p : Bytes) (code off optLen : Nat) :
    Outcome (Rc × Edns) :=
  if code = 8 then
    if g.edns_client_subnet then handleEcs e p off optLen else .ok (.ok, e)
  else if code = 3 then
    if optLen = 0 then
      if g.nsid.length ≠ 0 then
        .ok (.ok, { e with outBytes := e.outBytes + (4 + g.nsid.length), respondNsid := true })
      else .ok (.ok, e)
    else .ok (.formerr, e)
  else if code = 11 then
    if !c.isUdp && c.dsoEstab then .ok (.ignore, e) else .ok (.ok, e)
  else if code = 12 then .ok (.ok, e)
  else if code = 10 then
    if !g.disable_cookies && !e.cookieRecvd then handleCookie c e p off optLen else .ok (.ok, e)
  else .ok (.ok, e)

/-- The loop of `handle_edns_options` (dnspacket.c:436-463) with `rdlen` bytes of
options left at `off`. -/
def handleOptions (g : Cfg) (c : Ctx) (p : Bytes) (e : Edns) (off rdlen : Nat) : Outcome (Rc × Edns) :=
  if rdlen < 4 then .ok (.formerr, e)
  else
    (rd16 p off).bind fun code =>
    (rd16 p (off + 2)).bind fun dlen =>
    if dlen > rdlen - 4 then .ok (.formerr, e)
    else (handleOption g c e p code (off + 4) dlen).bind fun r =>
      if r.1 ≠ .ok then .ok r
      else if rdlen - 4 - dlen = 0 then .ok (.ok, r.2)
      else handleOptions g c p r.2 (off + 4 + dlen) (rdlen - 4 - dlen)
termination_by rdlen

/-- `parse_optrr` (dnspacket.c:466-529). The returned offset is meaningful only
with `Rc.ok`. -/
def parseOptRR (g : Cfg) (c : Ctx) (p : Bytes) (t : Txn) (offset : Nat) : Outcome (Rc × Txn × Nat) :=
  (assert (decide (offset + 11 ≤ p.length))).bind fun _ =>
  (rd p offset).bind fun n0 => (assert (n0 == 0)).bind fun _ =>
  (rd16 p (offset + 1)).bind fun ty => (assert (ty == 41)).bind fun _ =>
  (rd16 p (offset + 3)).bind fun maxsize =>
  (rd16 p (offset + 5)).bind fun ext_hi =>
  (rd16 p (offset + 7)).bind fun ext_lo =>
  (rd16 p (offset + 9)).bind fun rdlen =>
  let offset := offset + 11
  -- edns_extflags & 0x8000, and (edns_extflags & 0xFF0000) >> 16
  let doBit := ext_lo / 0x8000 % 2 = 1
  let version := ext_hi % 256
  let e := { t.edns with reqEdns := true, outBytes := 11, doBit := t.edns.doBit || decide doBit }
  if version = 0 then
    let t := if c.isUdp then
        let ms := if maxsize < 512 then 512 else maxsize
        { t with thisMax := if ms < c.udpEdnsMax then ms else c.udpEdnsMax }
      else t
    let e := if !c.isUdp && !c.dsoEstab then { e with outBytes := e.outBytes + 6 } else e
    if rdlen ≠ 0 then
      if p.length < offset + rdlen then .ok (.formerr, { t with edns := e }, offset)
      else (handleOptions g c p e offset rdlen).bind fun r =>
        .ok (r.1, { t with edns := r.2 }, offset + rdlen)
    else .ok (.ok, { t with edns := e }, offset)
  else .ok (.badvers, { t with edns := e }, offset)

/-- Checked write to `lqname[256]`: bytes are stored in order, `lq` holds those
after the length byte. -/
def pushLq (lq : Bytes) (x : UInt8) : Outcome Bytes :=
  if lq.length + 1 < 256 then .ok (lq ++ [x]) else .ub

/-- `if (buf[pos] < 0x5B && buf[pos] > 0x40) … | 0x20` (dnspacket.c:560-563). -/
def lowerByte (c : UInt8) : UInt8 := if c < 0x5B && c > 0x40 then c ||| 0x20 else c

/-- The inner copy loop (dnspacket.c:558-564). -/
def copyLabel (p : Bytes) (base : Nat) : Nat → Nat → Bytes → Outcome (Nat × Bytes)
  | 0, pos, lq => .ok (pos, lq)
  | n + 1, pos, lq =>
    (rd p (base + pos)).bind fun b => (pushLq lq (lowerByte b)).bind fun lq =>
      copyLabel p base n (pos + 1) lq

/-- The label loop of `parse_first_question` (dnspacket.c:541-565). `none` is
`return true`. The fuel (256) is never exhausted: each iteration that continues
advances `pos` by at least 2 and keeps `pos ≤ 254`. -/
def questionLoop (p : Bytes) (base len : Nat) : Nat → Nat → Bytes → Outcome (Option (Nat × Bytes))
  | 0, _, _ => .ub
  | fuel + 1, pos, lq =>
    (rd p (base + pos)).bind fun b => (pushLq lq b).bind fun lq =>
    let pos := pos + 1
    let llen := b.toNat
    if llen = 0 then .ok (some (pos, lq))
    else if llen ≥ 64 then .ok none   -- llen & 0xC0
    else if pos + llen ≥ len then .ok none
    else if pos + llen > 254 then .ok none
    else (copyLabel p base llen pos lq).bind fun r => questionLoop p base len fuel r.1 r.2

/-- `parse_first_question` (dnspacket.c:532-582). `none` is `return true` (error). -/
def parseFirstQuestion (p : Bytes) (t : Txn) (offset : Nat) : Outcome (Option (Txn × Nat)) :=
  let len := p.length - offset
  if len = 0 then .ok none
  else (questionLoop p offset len 256 0 []).bind fun r =>
    match r with
    | none => .ok none
    | some (pos, lq) =>
      if pos + 4 ≤ len then
        (rd16 p (offset + pos)).bind fun qtype =>
        (rd16 p (offset + pos + 2)).bind fun qclass =>
          (assert (decide (offset + (pos + 4) ≤ p.length))).bind fun _ =>
          .ok (some ({ t with lqname := UInt8.ofNat pos :: lq, qtype := qtype, qclass := qclass },
                     offset + (pos + 4)))
      else .ok none

/-- The loop of `parse_rr_name_minimal` (dnspacket.c:585-607), `len` already capped
at 255. Result 0 is failure. Fuel as for `questionLoop`. -/
def rrNameLoop (p : Bytes) (base len : Nat) : Nat → Nat → Outcome Nat
  | 0, _ => .ub
  | fuel + 1, pos =>
    (rd p (base + pos)).bind fun b =>
    let pos := pos + 1
    let llen := b.toNat
    if llen = 0 then .ok pos
    else if llen ≥ 64 then
      let pos := pos + 1
      if pos ≥ len then .ok 0 else .ok pos
    else
      let pos := pos + llen
      if pos ≥ len then .ok 0 else rrNameLoop p base len fuel pos

/-- `parse_rr_name_minimal` (dnspacket.c:585-607). -/
def parseRrName (p : Bytes) (base len : Nat) : Outcome Nat :=
  (assert (decide (0 < len))).bind fun _ =>
    rrNameLoop p base (if len > 255 then 255 else len) 256 0

/-- `parse_rr_minimal` (dnspacket.c:610-639). `none` is `return true` (error). -/
def parseRr (p : Bytes) (offset : Nat) (hasData : Bool) : Outcome (Option Nat) :=
  let len := p.length - offset
  if len = 0 then .ok none
  else (parseRrName p offset len).bind fun pos =>
    if pos = 0 then .ok none
    else if hasData then
      if pos + 10 > len then .ok none
      else (rd16 p (offset + (pos + 8))).bind fun rdlen =>
        let pos := pos + 8 + 2 + rdlen
        if pos > len then .ok none
        else (assert (decide (offset + pos ≤ p.length))).bind fun _ => .ok (some (offset + pos))
    else if pos + 4 > len then .ok none
    else (assert (decide (offset + (pos + 4) ≤ p.length))).bind fun _ => .ok (some (offset + (pos + 4)))

/-- The counting loops over questions 2.., answers and authorities (dnspacket.c:669-679). -/
def parseRrs (p : Bytes) (hasData : Bool) : Nat → Nat → Outcome (Option Nat)
  | 0, offset => .ok (some offset)
  | n + 1, offset => (parseRr p offset hasData).bind fun r =>
      match r with
      | none => .ok none
      | some offset => parseRrs p hasData n offset

/-- The additional-section loop (dnspacket.c:681-697). -/
def parseAdditional (g : Cfg) (c : Ctx) (p : Bytes) : Nat → Bool → Txn → Nat → Outcome (Rc × Txn)
  | 0, _, t, _ => .ok (.ok, t)
  | n + 1, seen, t, offset =>
    (if p.length ≥ offset + 11 then
      (rd p offset).bind fun b =>
        if b = 0 then (rd16 p (offset + 1)).bind fun ty => .ok (decide (ty = 41)) else .ok false
     else .ok false).bind fun isOpt =>
    if isOpt then
      if seen then .ok (.formerr, t)
      else (parseOptRR g c p t offset).bind fun r =>
        if r.1 ≠ .ok then .ok (r.1, r.2.1)
        else parseAdditional g c p n true r.2.1 r.2.2
    else (parseRr p offset true).bind fun r =>
      match r with
      | none => .ok (.formerr, t)
      | some offset => parseAdditional g c p n seen t offset

/-- `parse_query_rrs` (dnspacket.c:642-699). The `Nat` is `*output_offset_ptr`. -/
def parseQueryRrs (g : Cfg) (c : Ctx) (p : Bytes) (t : Txn) : Outcome (Rc × Txn × Nat) :=
  (assert (decide (12 ≤ p.length))).bind fun _ =>
  (assert (t.qdcount == 0)).bind fun _ =>
  (rd16 p 4).bind fun qdcount => (rd16 p 6).bind fun ancount =>
  (rd16 p 8).bind fun nscount => (rd16 p 10).bind fun arcount =>
  (if qdcount ≠ 0 then
    (parseFirstQuestion p t 12).bind fun r => match r with
      | none => .ok none
      | some (t, offset) => .ok (some ({ t with qdcount := 1 }, offset))
   else .ok (some (t, 12))).bind fun r =>
  match r with
  | none => .ok (.formerr, t, 12)
  | some (t, out) =>
    (parseRrs p false (qdcount - 1) out).bind fun r => match r with
    | none => .ok (.formerr, t, out)
    | some offset => (parseRrs p true ancount offset).bind fun r => match r with
      | none => .ok (.formerr, t, out)
      | some offset => (parseRrs p true nscount offset).bind fun r => match r with
        | none => .ok (.formerr, t, out)
        | some offset => (parseAdditional g c p arcount false t offset).bind fun r =>
          .ok (r.1, r.2, out)

/-- `decode_query` (dnspacket.c:702-760). -/
def decodeQuery (g : Cfg) (c : Ctx) (p : Bytes) (t : Txn) : Outcome (Rc × Txn × Nat) :=
  if p.length < 12 then .ok (.ignore, t, 12)
  else (rd p 2).bind fun flags1 =>
    if flags1.toNat ≥ 128 then .ok (.ignore, t, 12)   -- flags1 & 0x80
    else (parseQueryRrs g c p t).bind fun r =>
      if r.1 ≠ .ok then .ok r
      else
        let opcode := flags1.toNat / 8 % 16    -- (flags1 & 0x78) >> 3
        if opcode = 0 then
          (rd16 p 4).bind fun qd =>
          if qd > 1 ∨ (qd = 0 ∧ r.2.1.edns.cookieRecvd = false) then .ok (.formerr, r.2)
          else if r.2.1.qtype > 127 ∧ r.2.1.qtype < 255 then .ok (.notimp, r.2)
          else .ok (.ok, r.2)
        else if opcode = 6 ∧ g.disable_tcp_dso = false then .ok (.dso, r.2)
        else .ok (.notimp, r.2)

/-- The transaction state set up by `process_dns_query` before decoding
(dnspacket.c:2196-2211). -/
def initTxn (c : Ctx) : Txn := { thisMax := if c.isUdp then 512 else 16376 }

end Gdnsd.Packet
