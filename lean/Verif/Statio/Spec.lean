/-
What a report says: an independent description of the JSON document, in terms of the counters.
-/
import Verif.Statio.Model
namespace Gdnsd.Statio

/-- All requests of a thread. -/
def Thread.reqs (t : Thread) : UInt64 := t.noerror + t.refused + t.nxdomain + t.notimp + t.badvers + t.formerr + t.dropped

def ofUdp (f : Thread → UInt64) (t : Thread) : UInt64 := if t.isUdp then f t else 0
def ofTcp (f : Thread → UInt64) (t : Thread) : UInt64 := if t.isUdp then 0 else f t

/-- The members of the objects of the report. -/
def doc : List (String × List (String × (Thread → UInt64))) :=
  [("stats", [("noerror", Thread.noerror), ("refused", Thread.refused), ("nxdomain", Thread.nxdomain), ("notimp", Thread.notimp), ("badvers", Thread.badvers), ("formerr", Thread.formerr), ("dropped", Thread.dropped), ("v6", Thread.v6), ("edns", Thread.edns), ("edns_clientsub", Thread.ednsClientsub), ("edns_do", Thread.ednsDo), ("edns_cookie_formerr", Thread.ednsCookieFormerr), ("edns_cookie_ok", Thread.ednsCookieOk), ("edns_cookie_init", Thread.ednsCookieInit), ("edns_cookie_bad", Thread.ednsCookieBad)]),
   ("udp", [("reqs", ofUdp Thread.reqs), ("recvfail", ofUdp Thread.udpRecvfail), ("sendfail", ofUdp Thread.udpSendfail), ("tc", ofUdp Thread.udpTc), ("edns_big", ofUdp Thread.udpEdnsBig), ("edns_tc", ofUdp Thread.udpEdnsTc)]),
   ("tcp", [("reqs", ofTcp Thread.reqs), ("recvfail", ofTcp Thread.tcpRecvfail), ("sendfail", ofTcp Thread.tcpSendfail), ("conns", ofTcp Thread.tcpConns), ("close_c", ofTcp Thread.tcpCloseC), ("close_s_ok", ofTcp Thread.tcpCloseSOk), ("close_s_err", ofTcp Thread.tcpCloseSErr), ("close_s_kill", ofTcp Thread.tcpCloseSKill), ("proxy", ofTcp Thread.tcpProxy), ("proxy_fail", ofTcp Thread.tcpProxyFail), ("dso_estab", ofTcp Thread.tcpDsoEstab), ("dso_protoerr", ofTcp Thread.tcpDsoProtoerr), ("dso_typeni", ofTcp Thread.tcpDsoTypeni), ("acceptfail", ofTcp Thread.tcpAcceptfail)])]

/-- The sum of a counter. -/
def total (f : Thread → UInt64) (ts : List Thread) : UInt64 := (ts.map f).foldr (· + ·) 0

def sepBy (sep : Bytes) : List Bytes → Bytes
  | [] => []
  | [x] => x
  | x :: y :: l => x ++ sep ++ sepBy sep (y :: l)

/-- A member of an object, at some depth. -/
def member (depth : Nat) (key : String) (value : Bytes) : Bytes := List.replicate depth 9 ++ txt "\"" ++ txt key ++ txt "\": " ++ value

def object (depth : Nat) (members : List Bytes) : Bytes := txt "{\n" ++ sepBy (txt ",\n") members ++ txt "\n" ++ List.replicate depth 9 ++ txt "}"

/-- The report of the counters of `ts`, by a daemon that is up for `uptime`. -/
def report (uptime : UInt64) (ts : List Thread) : Bytes :=
  object 0 (member 1 "uptime" (dec uptime) :: doc.map fun o => member 1 o.1 (object 1 (o.2.map fun m => member 2 m.1 (dec (total m.2 ts))))) ++ txt "\n"

/-- The decimal value of a string of digits. -/
def value (ds : Bytes) : Nat := ds.foldl (fun n d => 10 * n + (d.toNat - 48)) 0

/-- Daemons that replace each other: the base and start time of the last one, and the counters of all
those before it when they handed over, since the first one or a hand-over that failed. -/
inductive Gen : List UInt64 → UInt64 → List Thread → Prop
  | first (now) : Gen initBase now []
  | next (base start ts last now first l first' l' got base' start') : Gen base start ts →
      recvHandoff first' l' (sendHandoff first l (serialize base start last)) = some got →
      takeOver (some got) initBase now = .ok (base', start') → Gen base' start' (ts ++ last)

end Gdnsd.Statio
