/-
src/statio.c: statistics of the daemon, their JSON report, and their transfer to a replacement daemon.

Counters are 64-bit. Every counter of a thread is read exactly once per report, so a report works on a
snapshot of the values read (`Thread`), whatever the threads do meanwhile. Text is bytes.
-/
import Verif.Basic
namespace Gdnsd.Statio

/-- `dnspacket_stats_t` (src/dnspacket.h:33-92), as read: the parts of the union are separate fields, only
those of the thread's protocol mean something. -/
structure Thread where
  isUdp : Bool
  (udpRecvfail udpSendfail udpTc udpEdnsBig udpEdnsTc : UInt64)
  (tcpRecvfail tcpSendfail tcpConns tcpCloseC tcpCloseSOk tcpCloseSErr tcpCloseSKill tcpProxy tcpProxyFail tcpDsoEstab tcpDsoProtoerr tcpDsoTypeni tcpAcceptfail : UInt64)
  (noerror refused nxdomain notimp badvers formerr dropped v6 edns ednsClientsub ednsDo ednsCookieFormerr ednsCookieOk ednsCookieInit ednsCookieBad : UInt64)
deriving Repr, DecidableEq

/-- `SLOT_COUNT` (src/statio.c:74). -/
def slotCount : Nat := 35

/-- `statio[i] += v`. -/
def add (st : List UInt64) (p : Nat × UInt64) : List UInt64 := st.set p.1 (st.getD p.1 0 + p.2)

/-- The additions of `accumulate_statio`, with the slots of `slot_t` (src/statio.c:37-75, 145-200). -/
def adds (t : Thread) : List (Nat × UInt64) :=
  let reqs := t.noerror + t.refused + t.nxdomain + t.notimp + t.badvers + t.formerr + t.dropped
  [(12, t.noerror), (13, t.refused), (14, t.nxdomain), (15, t.notimp), (16, t.badvers), (17, t.formerr), (18, t.dropped)] ++
  (bif t.isUdp then [(22, reqs), (0, t.udpRecvfail), (1, t.udpSendfail), (2, t.udpTc), (3, t.udpEdnsBig), (4, t.udpEdnsTc)]
  else [(23, reqs), (5, t.tcpRecvfail), (6, t.tcpSendfail), (7, t.tcpConns), (8, t.tcpCloseC), (9, t.tcpCloseSOk), (10, t.tcpCloseSErr), (11, t.tcpCloseSKill), (29, t.tcpProxy), (30, t.tcpProxyFail), (31, t.tcpDsoEstab), (32, t.tcpDsoProtoerr), (33, t.tcpDsoTypeni), (34, t.tcpAcceptfail)]) ++
  [(19, t.v6), (20, t.edns), (21, t.ednsClientsub), (24, t.ednsDo), (25, t.ednsCookieFormerr), (26, t.ednsCookieOk), (27, t.ednsCookieInit), (28, t.ednsCookieBad)]

def accumulate (st : List UInt64) (t : Thread) : List UInt64 := (adds t).foldl add st

/-- `populate_statio` (src/statio.c:202-207), of what the threads' counters were. -/
def populate (base : List UInt64) (ts : List Thread) : List UInt64 := ts.foldl accumulate base

def txt (s : String) : Bytes := s.toList.map fun c => c.toNat.toUInt8

/-- `json_fixed` (src/statio.c:77-121), with `PRIu64` and `PRISTATS` of a 64-bit system. -/
def jsonFixed : Bytes := [
  "{\n",
  "\t\"uptime\": %lu,\n",
  "\t\"stats\": {\n",
  "\t\t\"noerror\": %lu,\n",
  "\t\t\"refused\": %lu,\n",
  "\t\t\"nxdomain\": %lu,\n",
  "\t\t\"notimp\": %lu,\n",
  "\t\t\"badvers\": %lu,\n",
  "\t\t\"formerr\": %lu,\n",
  "\t\t\"dropped\": %lu,\n",
  "\t\t\"v6\": %lu,\n",
  "\t\t\"edns\": %lu,\n",
  "\t\t\"edns_clientsub\": %lu,\n",
  "\t\t\"edns_do\": %lu,\n",
  "\t\t\"edns_cookie_formerr\": %lu,\n",
  "\t\t\"edns_cookie_ok\": %lu,\n",
  "\t\t\"edns_cookie_init\": %lu,\n",
  "\t\t\"edns_cookie_bad\": %lu\n",
  "\t},\n",
  "\t\"udp\": {\n",
  "\t\t\"reqs\": %lu,\n",
  "\t\t\"recvfail\": %lu,\n",
  "\t\t\"sendfail\": %lu,\n",
  "\t\t\"tc\": %lu,\n",
  "\t\t\"edns_big\": %lu,\n",
  "\t\t\"edns_tc\": %lu\n",
  "\t},\n",
  "\t\"tcp\": {\n",
  "\t\t\"reqs\": %lu,\n",
  "\t\t\"recvfail\": %lu,\n",
  "\t\t\"sendfail\": %lu,\n",
  "\t\t\"conns\": %lu,\n",
  "\t\t\"close_c\": %lu,\n",
  "\t\t\"close_s_ok\": %lu,\n",
  "\t\t\"close_s_err\": %lu,\n",
  "\t\t\"close_s_kill\": %lu,\n",
  "\t\t\"proxy\": %lu,\n",
  "\t\t\"proxy_fail\": %lu,\n",
  "\t\t\"dso_estab\": %lu,\n",
  "\t\t\"dso_protoerr\": %lu,\n",
  "\t\t\"dso_typeni\": %lu,\n",
  "\t\t\"acceptfail\": %lu\n",
  "\t}\n",
  "}\n"].flatMap txt

/-- The format as literal bytes and conversions (`none`). -/
def parseFmt : Bytes → List (Option UInt8)
  | 37 :: 108 :: 117 :: r => none :: parseFmt r
  | c :: r => some c :: parseFmt r
  | [] => []

/-- The digits of a number below `10 ^ fuel`. -/
def digits : Nat → Nat → Bytes
  | 0, _ => []
  | f + 1, n => bif n < 10 then [(48 + n).toUInt8] else digits f (n / 10) ++ [(48 + n % 10).toUInt8]

/-- `%lu`. -/
def dec (v : UInt64) : Bytes := digits 20 v.toNat

/-- `snprintf` without the limit: a missing argument is undefined. -/
def fill : List (Option UInt8) → List UInt64 → Outcome Bytes
  | [], _ => .ok []
  | some c :: r, as => (fill r as).map (c :: ·)
  | none :: r, a :: as => (fill r as).map (dec a ++ ·)
  | none :: _, [] => .ub

/-- The order of the slots in the report (src/statio.c:216). -/
def order : List Nat := [12, 13, 14, 15, 16, 17, 18, 19, 20, 21, 24, 25, 26, 27, 28, 22, 0, 1, 2, 3, 4, 23, 5, 6, 7, 8, 9, 10, 11, 29, 30, 31, 32, 33, 34]

/-- `json_buffer_max` (src/statio.c:254-265). -/
def jsonMax : Nat := 2 * (jsonFixed.length + (20 - 2) + slotCount * (20 - 2))

/-- `statio_get_json` (src/statio.c:209-221). -/
def getJson (base : List UInt64) (start : UInt64) (ts : List Thread) (now : UInt64) : Outcome Bytes :=
  let st := populate base ts
  (fill (parseFmt jsonFixed) ((now - start) :: order.map fun i => st.getD i 0)).bind fun s =>
  (assert (decide (0 < s.length ∧ s.length < jsonMax))).map fun _ => s

def le64 (v : UInt64) : Bytes := (List.range 8).map fun i => (v.toNat / 256 ^ i % 256).toUInt8

/-- `statio_serialize` (src/statio.c:226-237). -/
def serialize (base : List UInt64) (start : UInt64) (ts : List Thread) : Bytes :=
  let st := populate base ts
  (((List.range slotCount).map fun i => st.getD i 0) ++ [start]).flatMap le64

/-- `data[i]` of an array of `dlen` bytes. -/
def get64 (data : Bytes) (i : Nat) : Outcome UInt64 :=
  if 8 * i + 8 ≤ data.length then .ok ((((data.drop (8 * i)).take 8).foldr (fun (b : UInt8) (n : Nat) => b.toNat + 256 * n) 0).toUInt64) else .ub

/-- The loop of `statio_deserialize` (src/statio.c:252-253), from slot `i` on for `n` slots. -/
def load (data : Bytes) : Nat → Nat → List UInt64 → Outcome (List UInt64)
  | 0, _, base => .ok base
  | n + 1, i, base => (get64 data i).bind fun v => load data n (i + 1) (base.set i v)

/-- `statio_deserialize` (src/statio.c:245-255): the new base and start time. `(dlen >> 3) - 1` wraps. -/
def deserialize (data : Bytes) (base : List UInt64) (start : UInt64) : Outcome (List UInt64 × UInt64) :=
  if data.length = 0 ∨ (data.length / 4) % 2 = 1 then .ok (base, start)
  else
    let count := (data.length / 8 + (2 ^ 64 - 1)) % 2 ^ 64
    (get64 data count).bind fun s =>
    (load data (min slotCount count) 0 base).map fun b => (b, s)

/-- `statio_init` (src/statio.c:257-265). -/
def initBase : List UInt64 := List.replicate slotCount 0

/-! ### The transfer over the control socket -/

/-- What a call of `send` or `recv` does. -/
inductive Io where
  | part (n : Nat)
  | error
deriving Repr, DecidableEq

/-- The loop of `css_send_stats_handoff` (src/css.c:1227-1237): what was sent. -/
def sendAll : List Io → Bytes → Bytes
  | _, [] => []
  | [], _ => []
  | .error :: _, _ => []
  | .part n :: l, b :: d => (b :: d).take n ++ sendAll l ((b :: d).drop n)

/-- `css_send_stats_handoff` (src/css.c:1203-1240), for the bytes in the socket. `first` is what the `send` of
the header does. -/
def sendHandoff (first : Io) (l : List Io) (data : Bytes) : Bytes :=
  let hdr : Bytes := [115, 0, 0, 0] ++ (List.range 4).map fun i => (data.length / 256 ^ i % 256).toUInt8
  match first with
  | .error => []
  | .part n => if 8 ≤ n then hdr ++ sendAll l data else hdr.take n

/-- The loop of `csc_get_stats_handoff` (src/csc.c:418-428): `none` for failure. -/
def recvAll : List Io → Nat → Bytes → Option Bytes
  | _, 0, _ => some []
  | [], _ + 1, _ => none
  | .error :: _, _ + 1, _ => none
  | .part n :: l, w + 1, s =>
    let k := min n (min (w + 1) s.length)
    if k = 0 then none else (recvAll l (w + 1 - k) (s.drop k)).map (s.take k ++ ·)

/-- `csc_get_stats_handoff` (src/csc.c:384-432), of the bytes in the socket. -/
def recvHandoff (first : Io) (l : List Io) (s : Bytes) : Option Bytes :=
  match first with
  | .error => none
  | .part n =>
    if min n (min 8 s.length) ≠ 8 then none
    else if s.getD 0 0 ≠ 115 then none
    else
      let d := ((s.drop 4).take 4).foldr (fun (b : UInt8) (n : Nat) => b.toNat + 256 * n) 0
      if d = 0 ∨ 65535 < d then none
      else recvAll l d (s.drop 8)

/-- The end of the start of a replacement daemon (src/main.c:562-573). -/
def takeOver (got : Option Bytes) (base : List UInt64) (start : UInt64) : Outcome (List UInt64 × UInt64) :=
  match got with
  | none => .ok (base, start)
  | some data => deserialize data base start

end Gdnsd.Statio
