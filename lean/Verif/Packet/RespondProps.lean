import Verif.Packet.EdnsAnswer
import Verif.Packet.Props
/-
Property theorems about responses: C10, C11, C12, C13, C42, C52.

`processQuery g c db s p` is `process_dns_query` for the received bytes `p` under
configuration `g`, connection context `c`, DSO state `s` and database `db`. `Sane` lists
the limits the configuration code enforces, `DbFits` what zone loading checks (C22).
-/
namespace Gdnsd.Packet
open PacketSpec DnameSpec

/-! ### C11: the EDNS section occupies the bytes reserved for it -/

/-- C11, part: unless the request repeats a client-subnet or NSID option, or is answered
BADVERS on a TCP connection without DSO session, building the OPT record succeeds and
(padding apart) takes exactly the reserved bytes, wherever it is placed. Missing: the
excluded requests, for which the claim is false (below). -/
theorem C11_exact_partial (g : Cfg) (c : Ctx) (hs : Sane g c) (p : Bytes) (rc : Rc) (t : Txn) (off : Nat)
    (hdec : decodeQuery g c p (initTxn c) = .ok (rc, t, off)) (hreq : t.edns.reqEdns = true)
    (hrep : NoRepeat g p) (hbad : rc = .badvers → c.isUdp = true ∨ c.dsoEstab = true)
    (scope pos : Nat) (hpos : pos + t.edns.outBytes ≤ maxResponseData) :
    ∃ o, ednsOutput g c t.edns scope (decide (rc = .badvers)) pos = .ok o ∧ t.edns.outBytes ≤ o.length ∧
      (c.tcpPad = false → o.length = t.edns.outBytes) := by
  obtain ⟨rc', t', off', h', -, hd⟩ := decodeQuery_eq g c p
  rw [hdec] at h'
  simp only [Outcome.ok.injEq, Prod.mk.injEq] at h'
  obtain ⟨rfl, rfl, rfl⟩ := h'
  have hf := ednsFacts hd
  have hx := hf.exact hreq hrep hbad
  obtain ⟨o, h1, h2, h3, -⟩ := ednsOutput_eq hf.inv hs.cookie scope pos (decide (rc = .badvers)) hx hs.pad
    (fun _ => by omega)
  exact ⟨o, h1, by omega, fun h => by rw [h3 h, hx]⟩

/-- C11. For every request not answered BADVERS (repeated options included) the bytes
reserved are at least those of the fixed part and the options that will be emitted, so an
answer sized with the reservation is never too long. -/
theorem C11_reserved (g : Cfg) (c : Ctx) (hs : Sane g c) (p : Bytes) (rc : Rc) (t : Txn) (off : Nat)
    (hdec : decodeQuery g c p (initTxn c) = .ok (rc, t, off)) (hreq : t.edns.reqEdns = true) (hrc : rc ≠ .badvers)
    (scope : Nat) :
    ∃ o1 o2 o4, ecsOutput t.edns scope = .ok o1 ∧ cookieOutput t.edns = .ok o2 ∧ nsidOutput g t.edns = .ok o4 ∧
      11 + (o1 ++ o2 ++ keepaliveOutput c ++ o4).length ≤ t.edns.outBytes := by
  obtain ⟨rc', t', off', h', -, hd⟩ := decodeQuery_eq g c p
  rw [hdec] at h'
  simp only [Outcome.ok.injEq, Prod.mk.injEq] at h'
  obtain ⟨rfl, rfl, rfl⟩ := h'
  have hf := ednsFacts hd
  obtain ⟨o1, h1, l1⟩ := ecsOutput_eq hf.inv scope
  obtain ⟨o2, h2, l2⟩ := cookieOutput_eq hf.inv hs.cookie
  obtain ⟨o4, h4, l4⟩ := nsidOutput_eq hf.inv
  have l3 := keepaliveOutput_length c
  refine ⟨o1, o2, o4, h1, h2, h4, ?_⟩
  have := hf.le hreq hrc
  simp only [emitLen] at this
  simp only [List.length_append, l1, l2, l3, l4]; omega

/-- A database with nothing in it. -/
def exDb : Txn → DbAnswer := fun _ => { data := [], aa := true, rcode := 3, an := 0, ns := 0, ar := 0, scope := 0 }

theorem exSane : Sane exCfg exUdp :=
  ⟨fun _ => rfl, by decide, by decide, by decide, by decide⟩

theorem exReq_opts : ∀ dobit size rdata, HasOpt exReq 0 dobit size rdata → optList rdata = [(8, [0, 1, 8, 0, 10])] := by
  intro dobit size rdata ⟨x0, x1, f1, f2, q1, q2, a1, a2, n1, n2, r1, r2, body, ty, b, rest, hp, hq, hr, hin⟩
  simp only [exReq, List.cons_append, List.nil_append, List.cons.injEq] at hp
  obtain ⟨rfl, rfl, rfl, rfl, rfl, rfl, rfl, rfl, rfl, rfl, rfl, rfl, rfl⟩ := hp
  have hq1 : Questions 1 [2, 65, 98, 0, 0, 1, 0, 1, 0, 0, 41, 16, 0, 0, 0, 0, 0, 0, 9, 0, 8, 0, 5, 0, 1, 8, 0, 10] 1
      [0, 0, 41, 16, 0, 0, 0, 0, 0, 0, 9, 0, 8, 0, 5, 0, 1, 8, 0, 10] :=
    .some (n := 0) (ls := [[65, 98]]) (cl := 1) ⟨by decide, 0, 1, 0, 1, rfl, rfl, rfl⟩ rfl
  obtain ⟨-, rfl⟩ := Questions_unique hq hq1
  simp only [show be16 0 0 = 0 from rfl, repeatN, Option.bind_some, Option.some.injEq] at hr
  subst hr
  obtain ⟨k, s1, s2, x, f1, f2, h, l, post, hk, hb, hlen, -⟩ := hin
  have hk0 : k = 0 := by
    have : be16 (0 : UInt8) 1 = 1 := rfl
    omega
  subst hk0
  simp only [repeatN, Option.some.injEq, List.cons_append, List.nil_append, List.cons.injEq] at hb
  obtain ⟨-, -, -, -, -, -, -, -, -, rfl, rfl, hb⟩ := hb
  have hl : rdata.length = 9 := hlen
  have : rdata = [0, 8, 0, 5, 0, 1, 8, 0, 10] := by
    have := congrArg (List.take 9) hb
    rw [← hl, List.take_left] at this
    rw [← this, hl]; rfl
  subst this
  rw [optList_cons, if_neg (by decide)]
  simp [be16, optList_nil]

/-- The hypotheses hold of the example request (with its one ECS option). -/
example : NoRepeat exCfg exReq := by
  intro dobit size rdata h
  rw [exReq_opts dobit size rdata h]
  exact ⟨fun _ => by decide, fun _ => by decide⟩
example : (decodeQuery exCfg exUdp exReq (initTxn exUdp)).map (fun r => (r.1, r.2.1.edns.reqEdns, r.2.1.edns.outBytes)) =
    .ok (.ok, true, 20) := by decide +kernel
example : Sane exCfg exUdp := exSane

/-- C11 is false for a repeated client-subnet option: the request below is legal and makes
the size assertion fail. -/
theorem C11_false_repeated_ecs :
    processQuery exCfg exUdp exDb ⟨false, false⟩
      ([0x12, 0x34, 1, 0, 0, 1, 0, 0, 0, 0, 0, 1] ++ [2, 65, 98, 0, 0, 1, 0, 1] ++
       [0, 0, 41, 16, 0, 0, 0, 0, 0, 0, 18, 0, 8, 0, 5, 0, 1, 8, 0, 10, 0, 8, 0, 5, 0, 1, 8, 0, 10]) = .ub := by
  decide +kernel

/-- C11 is false for a repeated NSID option. -/
theorem C11_false_repeated_nsid :
    processQuery exCfg exUdp exDb ⟨false, false⟩
      ([0x12, 0x34, 1, 0, 0, 1, 0, 0, 0, 0, 0, 1] ++ [2, 65, 98, 0, 0, 1, 0, 1] ++
       [0, 0, 41, 16, 0, 0, 0, 0, 0, 0, 8, 0, 3, 0, 0, 0, 3, 0, 0]) = .ub := by
  decide +kernel

/-- C11 is false for an unsupported EDNS version over plain TCP: the keepalive option is
emitted but was not reserved. -/
theorem C11_false_badvers_tcp :
    processQuery exCfg exTcp exDb ⟨false, false⟩
      ([0x12, 0x34, 1, 0, 0, 1, 0, 0, 0, 0, 0, 1] ++ [2, 65, 98, 0, 0, 1, 0, 1] ++
       [0, 0, 41, 16, 0, 0, 1, 0, 0, 0, 0]) = .ub := by
  decide +kernel

/-! ### C10: response sizes -/

theorem ednsMax_193 {g : Cfg} (h : g.nsid.length ≤ 128) : ednsMax g ≤ 193 := by
  unfold ednsMax
  have a1 : (if g.edns_client_subnet then 24 else 0) ≤ 24 := by split <;> omega
  have a2 : (if g.nsid.length ≠ 0 then 4 + g.nsid.length else 0) ≤ 132 := by split <;> omega
  have a3 : (if !g.disable_cookies then 20 else 0) ≤ 20 := by split <;> omega
  omega

theorem out_length {g : Cfg} {c : Ctx} {db : Txn → DbAnswer} {s : DsoState} {p : Bytes} {rc : Rc} {t : Txn} {off : Nat}
    {a : Resp} {opt out : Bytes} (h : Processed g c db s p rc t off a opt out) :
    out.length = 12 + a.body.length + opt.length := by
  obtain ⟨_, _, _, -, -, -, rfl⟩ := h.out
  simp [put16]; omega

/-- C10, part: a UDP response is at most 512 bytes, or the request carries an OPT record
and the response is at most the smaller of the advertised size (at least 512) and the
configured limit. Missing: CHAOS queries when the configured CHAOS record is longer than
48 bytes (false, see below). -/
theorem C10_udp_partial (g : Cfg) (c : Ctx) (db : Txn → DbAnswer) (s s' : DsoState) (p : Bytes) (out : Bytes)
    (hs : Sane g c) (hdb : DbFits g db) (hu : c.isUdp = true)
    (hch : g.chaos.length ≤ 48 ∨ ∀ ls ty rest, ¬ FirstQuestion (p.drop 12) ls ty 3 rest)
    (h : processQuery g c db s p = .ok (some out, s')) :
    out.length ≤ 512 ∨ ∃ dobit size rdata, HasOpt p 0 dobit size rdata ∧ out.length ≤ min (max size 512) c.udpEdnsMax := by
  obtain ⟨hp, rc, t, off, hdec, hv, hd, hcase⟩ := processQuery_inv hs hdb h
  have h193 := ednsMax_193 hs.nsid
  rcases hcase with ⟨-, h1, -⟩ | ⟨-, id0, id1, f1, -, -, -, h1, -⟩ | ⟨h1, h2, rfl, hx, a, opt, out', h3, hP⟩
  · simp at h1
  · left
    have hpad : c.tcpPad = false := by
      cases hp : c.tcpPad with
      | false => rfl
      | true => rw [hs.pad hp] at hu; simp at hu
    have hlen : ∀ v o, (dsoReply c id0 id1 f1 v).map (dsoPadded c) = some o → o.length ≤ 24 := by
      intro v o
      cases v <;> simp [dsoReply, dsoPadded, hpad] <;> intro h <;> subst h <;> simp
    have := hlen _ _ h1.symm
    omega
  · simp only [Option.some.injEq] at h3
    subst h3
    have hef := ednsFacts hd
    have hem := emitLen_le hef.inv
    have hol := out_length hP
    have hpad : c.tcpPad = false := by
      cases hp : c.tcpPad with
      | false => rfl
      | true => rw [hs.pad hp] at hu; simp at hu
    have hopt : opt.length ≤ ednsMax g := by
      cases hr : t.edns.reqEdns with
      | false => rw [hP.optNone hr]; simp
      | true => rw [hP.optLen hr hpad]; exact hem
    have hopt2 : opt.length ≤ t.edns.outBytes := by
      cases hr : t.edns.reqEdns with
      | false => rw [hP.optNone hr]; simp
      | true => rw [hP.optLen hr hpad, hx hr]; exact Nat.le_refl _
    have hq := hP.qlen
    generalize hqq : (p.drop 12).take (off - 12) = q at hq
    have hshape := hP.shape
    rw [hqq] at hshape
    cases hshape with
    | db hrc _ hle =>
      have hle := hle hu
      simp only at hol
      have hl : udpLimit g t ≤ t.thisMax := by
        unfold udpLimit
        split
        · rename_i hc; simp at hc; omega
        · exact Nat.le_refl _
      rcases hef.max hu with hm | hm | hm | ⟨dobit, size, rdata, h4, h5⟩
      · left; omega
      · rw [hm] at hrc; simp at hrc
      · rw [hm] at hrc; simp at hrc
      · right
        simp only at h5
        exact ⟨dobit, size, rdata, h4, by omega⟩
    | trunc => left; simp only at hol; omega
    | chaos hrc hcl =>
      left
      simp only [List.length_append] at hol
      rcases hch with hch | hch
      · omega
      · exfalso
        rcases echo hd with ⟨h5, -⟩ | ⟨-, -, ls, h5, -⟩
        · obtain ⟨t1, hst, ht⟩ := hd.steps
          have keep : t.qtype = t1.qtype ∧ t.qclass = t1.qclass ∧ t.qdcount = t1.qdcount ∧ t.lqname = t1.lqname := by
            rcases ht with ⟨rfl, -⟩ | ⟨rc0, ht, -⟩
            · exact ⟨rfl, rfl, rfl, rfl⟩
            · exact OptEffect_keep ht
          rcases hst with ⟨rfl, -⟩ | ⟨ls, ty, cl, hf, -, -, -, rfl⟩
          · rw [keep.2.1] at hcl; simp [initTxn] at hcl
          · rw [keep.2.1] at hcl; simp only at hcl; subst hcl; exact hch _ _ _ hf
        · rw [hcl] at h5; exact hch _ _ _ h5
    | empty => left; simp only at hol; omega

/-- C10. Over TCP (and UDP) a response never exceeds the response buffer. -/
theorem C10_buffer (g : Cfg) (c : Ctx) (db : Txn → DbAnswer) (s s' : DsoState) (p : Bytes) (out : Bytes)
    (hs : Sane g c) (hdb : DbFits g db) (h : processQuery g c db s p = .ok (some out, s')) : out.length ≤ 16382 := by
  obtain ⟨hp, rc, t, off, hdec, hv, hd, hcase⟩ := processQuery_inv hs hdb h
  have h193 := ednsMax_193 hs.nsid
  rcases hcase with ⟨-, h1, -⟩ | ⟨-, id0, id1, f1, -, -, -, h1, -⟩ | ⟨h1, h2, rfl, hx, a, opt, out', h3, hP⟩
  · simp at h1
  · have hlen : ∀ v o, (dsoReply c id0 id1 f1 v).map (dsoPadded c) = some o → o.length ≤ 468 := by
      intro v o
      have hl : ∀ o', dsoReply c id0 id1 f1 v = some o' → o'.length ≤ 24 := by
        intro o' h; cases v <;> simp [dsoReply] at h <;> subst h <;> simp
      cases hv : dsoReply c id0 id1 f1 v with
      | none => simp
      | some o' =>
        intro h
        have := hl o' hv
        simp only [Option.map_some, Option.some.injEq, dsoPadded] at h
        subst h
        cases c.tcpPad with
        | false => rw [if_neg (by simp)]; omega
        | true =>
          rw [if_pos rfl]
          simp only [List.length_append, put16_length, List.length_replicate]; omega
    have := hlen _ _ h1.symm
    omega
  · simp only [Option.some.injEq] at h3
    subst h3
    have hem := emitLen_le (ednsFacts hd).inv
    have hol := out_length hP
    have hc := hs.chaos
    cases hr : t.edns.reqEdns with
    | false =>
      rw [hP.optNone hr] at hol
      rcases hP.fits with h | h
      · unfold maxResponseData at h; simp at hol; omega
      · simp at hol; omega
    | true =>
      cases hpad : c.tcpPad with
      | true => have := (hP.optPad hr hpad).2; unfold maxResponseBuf at this; omega
      | false =>
        rw [hP.optLen hr hpad] at hol
        rcases hP.fits with h | h
        · unfold maxResponseData at h; omega
        · omega

/-- C10. Truncation. For a UDP query the full answer (question, database answer and OPT
record) is sent when it fits the limit in force; when it does not, TC is set and nothing
of the answer is sent: the reply is the header with zero counts (one for OPT), the
question and the OPT record. The limit is 512 or that of the OPT record, lowered to
`max_nocookie_response` when the request has no valid cookie. -/
theorem C10_truncation (g : Cfg) (c : Ctx) (db : Txn → DbAnswer) (s s' : DsoState) (p : Bytes) (out : Bytes)
    (hs : Sane g c) (hdb : DbFits g db) (hu : c.isUdp = true) (h : processQuery g c db s p = .ok (some out, s'))
    (t : Txn) (off : Nat) (hdec : decodeQuery g { c with dsoEstab := s.estab } p (initTxn c) = .ok (.ok, t, off))
    (hq : rd16 p 4 = .ok 1) (hin : t.qclass = 1 ∨ t.qclass = 255) :
    ∃ m lim opt flags, (m = 512 ∨ ∃ dobit size rdata, HasOpt p 0 dobit size rdata ∧ m = min (max size 512) c.udpEdnsMax) ∧
      (lim = m ∨ (lim = g.max_nocookie_response ∧ lim ≠ 0 ∧ lim < m ∧ t.edns.cookieValid = false)) ∧
      (12 + (off - 12) + (db t).data.length + opt.length ≤ lim →
        flags.toNat / 2 % 2 = 0 ∧
        out = p.take 2 ++ [flags, (db t).rcode] ++ [0, 1] ++ put16 (db t).an ++ put16 (db t).ns ++
          put16 ((db t).ar + (if t.edns.reqEdns then 1 else 0)) ++ (p.drop 12).take (off - 12) ++ (db t).data ++ opt) ∧
      (lim < 12 + (off - 12) + (db t).data.length + opt.length →
        flags.toNat / 2 % 2 = 1 ∧
        out = p.take 2 ++ [flags, 0] ++ [0, 1, 0, 0, 0, 0, 0, if t.edns.reqEdns then 1 else 0] ++
          (p.drop 12).take (off - 12) ++ opt) := by
  obtain ⟨hp, rc, t', off', hdec', hv, hd, hcase⟩ := processQuery_inv hs hdb h
  rw [hdec] at hdec'
  simp only [Outcome.ok.injEq, Prod.mk.injEq] at hdec'
  obtain ⟨rfl, rfl, rfl⟩ := hdec'
  rcases hcase with ⟨h1, -⟩ | ⟨h1, -⟩ | ⟨-, -, rfl, hx, a, opt, out', h3, hP⟩
  · simp at h1
  · simp at h1
  simp only [Option.some.injEq] at h3
  subst h3
  have hef := ednsFacts hd
  have hpad : c.tcpPad = false := by
    cases hp : c.tcpPad with
    | false => rfl
    | true => rw [hs.pad hp] at hu; simp at hu
  have hopt : opt.length = t.edns.outBytes := by
    cases hr : t.edns.reqEdns with
    | false => rw [hP.optNone hr, (hef.none hr).1]; rfl
    | true => rw [hP.optLen hr hpad, hx hr]
  have hoff := C06_offset_inside g _ p .ok t off hdec (by simp)
  have hqlen : ((p.drop 12).take (off - 12)).length = off - 12 := by simp; omega
  obtain ⟨id0, id1, f1, r0, r1, r2, hout⟩ := hP.out
  have htake : p.take 2 = [id0, id1] := by
    have hl := hd.length (by simp)
    match p, hl with
    | x :: y :: p', _ => simp [rd] at r0 r1; simp [r0, r1]
    | [x], h => simp at h
    | [], h => simp at h
  have hqd : t.qdcount = 1 := by
    rcases hd.answer rfl with ⟨-, h⟩ | ⟨h, -⟩
    · exact h
    · rw [hq] at h; simp at h
  rw [hqd] at hout
  have flagT : ∀ aa, (flags1Of f1 true aa).toNat / 2 % 2 = 1 := by
    intro aa
    have : ∀ x : BitVec 8, ∀ aa, (flags1Of ⟨x⟩ true aa).toNat / 2 % 2 = 1 := by decide +kernel
    exact this f1.toBitVec aa
  have flagF : ∀ aa, (flags1Of f1 false aa).toNat / 2 % 2 = 0 := by
    intro aa
    have : ∀ x : BitVec 8, ∀ aa, (flags1Of ⟨x⟩ false aa).toNat / 2 % 2 = 0 := by decide +kernel
    exact this f1.toBitVec aa
  refine ⟨t.thisMax, udpLimit g t, opt, flags1Of f1 a.tc a.aa, ?_, ?_, ?_, ?_⟩
  · rcases hef.max hu with h | h | h | h
    · exact .inl h
    · simp at h
    · simp at h
    · exact .inr h
  · unfold udpLimit
    split
    · rename_i hc; simp at hc; exact .inr ⟨rfl, hc.1.2, hc.2, hc.1.1⟩
    · exact .inl rfl
  all_goals
    have hsh := hP.shape
    intro hfit
    cases hsh with
    | db hrc _ hle =>
      have hle := hle hu
      simp only [List.length_append, hqlen] at hle
      first
      | (exfalso; omega)
      | (refine ⟨flagF _, ?_⟩; rw [hout, htake]; simp [put16])
    | trunc hrc _ _ hgt =>
      simp only [List.length_append, hqlen] at hgt
      first
      | (exfalso; omega)
      | (refine ⟨flagT _, ?_⟩; rw [hout, htake]; cases t.edns.reqEdns <;> simp [put16])
    | chaos _ h3 => omega
    | empty rcode h1 h2 h3 h4 =>
      exfalso
      rcases h1 rfl with h1 | h1
      · rcases hin with h | h <;> simp [h] at h1
      · omega

/-- C10. Every request is answered, unless the protocol says to drop it: outside the
requests of `C11_false_*` processing never fails, and nothing is sent exactly when the
verdict is to drop the packet or to abort the DSO session. -/
theorem C10_responds_partial (g : Cfg) (c : Ctx) (db : Txn → DbAnswer) (s : DsoState) (p : Bytes)
    (hs : Sane g c) (hdb : DbFits g db) (hp : p.length ≤ 1024) (hrep : NoRepeat g p)
    (hbad : verdict (envOf g { c with dsoEstab := s.estab }) p = .badvers → c.isUdp = true ∨ s.estab = true) :
    ∃ r s', processQuery g c db s p = .ok (r, s') ∧
      (r = none ↔ verdict (envOf g { c with dsoEstab := s.estab }) p = .drop ∨
        (verdict (envOf g { c with dsoEstab := s.estab }) p = .dso ∧ dsoVerdict (!c.isUdp) p = .abort)) := by
  obtain ⟨rc, t, off, hdec, hv, hd⟩ := decodeQuery_eq g { c with dsoEstab := s.estab } p
  have hex : ∃ r s', processQuery g c db s p = .ok (r, s') := by
    by_cases hi : rc = .ignore
    · subst hi
      unfold processQuery
      rw [decide_eq_true hp, show initTxn c = initTxn { c with dsoEstab := s.estab } from rfl, hdec]
      exact ⟨_, _, rfl⟩
    have hl := hd.length hi
    by_cases hdso : rc = .dso
    · subst hdso
      have r0 : rd p 0 = .ok (p[0]'(by omega)) := rd_lt (by omega)
      have r1 : rd p 1 = .ok (p[1]'(by omega)) := rd_lt (by omega)
      have r2 : rd p 2 = .ok (p[2]'(by omega)) := rd_lt (by omega)
      unfold processQuery
      rw [decide_eq_true hp, show initTxn c = initTxn { c with dsoEstab := s.estab } from rfl, hdec]
      simp only [assert_true, Outcome.bind_ok, r0, r1, r2, if_true]
      rw [handleDsoPad_eq c s p _ _ _ hl r0 r1 hs.pad]
      exact ⟨_, _, rfl⟩
    · obtain ⟨a, opt, out, h1, -⟩ := processQuery_eq hp hs (fun _ _ _ => hdb _) hdec hd hi hdso (fun hreq =>
        (ednsFacts hd).exact hreq hrep (fun hb => hbad (by
          rw [hv] at hb
          cases hvv : verdict (envOf g { c with dsoEstab := s.estab }) p <;> rw [hvv] at hb <;> simp [toRc] at hb)))
      exact ⟨_, _, h1⟩
  obtain ⟨r, s', h⟩ := hex
  refine ⟨r, s', h, ?_⟩
  have hto : ∀ v, (toRc v = .ignore ↔ v = .drop) ∧ (toRc v = .dso ↔ v = .dso) := by intro v; cases v <;> simp [toRc]
  obtain ⟨-, rc', t', off', hdec', hv', hd', hcase⟩ := processQuery_inv hs hdb h
  rw [← (hto _).1, ← (hto _).2, ← hv']
  rcases hcase with ⟨h1, h2, -⟩ | ⟨h1, id0, id1, f1, -, -, -, h2, -⟩ | ⟨h1, h2, -, -, a, opt, out, h3, -⟩
  · simp [h1, h2]
  · rw [h2, h1]
    simp only [Option.map_eq_none_iff]
    cases dsoVerdict (!c.isUdp) p <;> simp [dsoReply]
  · simp [h1, h2, h3]

/-- The example request is answered; a database that fits exists. -/
example : DbFits exCfg (fun t => { exDb t with data := List.replicate (16000 - t.lqname.length) 0 }) := by
  intro t; simp [exCfg, ednsMax, maxResponseData]; omega
theorem exDbFits : DbFits exCfg exDb := by
  intro t; simp [exCfg, exDb, ednsMax, maxResponseData]; omega
example : (processQuery exCfg exUdp exDb ⟨false, false⟩ exReq).map (fun r => r.1.map (·.length)) = .ok (some 40) := by
  decide +kernel

/-- A configuration whose CHAOS answer is long (the longest accepted is 267 bytes). -/
def exChaos : Cfg := { exCfg with chaos := List.replicate 267 0 }

/-- A query of class CH for a name of 255 bytes, without EDNS. -/
def exChaosReq : Bytes :=
  [0, 1, 0, 0, 0, 1, 0, 0, 0, 0, 0, 0] ++ (63 :: List.replicate 63 97) ++ (63 :: List.replicate 63 97) ++
    (63 :: List.replicate 63 97) ++ (61 :: List.replicate 61 97) ++ [0, 0, 16, 0, 3]

/-- C10 is false for CHAOS queries over UDP: they are never truncated, so without EDNS
the reply may have 538 bytes. -/
theorem C10_false_chaos :
    (processQuery exChaos exUdp exDb ⟨false, false⟩ exChaosReq).map (fun r => r.1.map (·.length)) = .ok (some 538) ∧
    Sane exChaos exUdp ∧ ∀ dobit size rdata, ¬ HasOpt exChaosReq 0 dobit size rdata := by
  refine ⟨by decide +kernel, ⟨fun _ => rfl, by decide, by decide +kernel, by decide, by decide⟩, ?_⟩
  intro dobit size rdata ⟨x0, x1, f1, f2, q1, q2, a1, a2, n1, n2, r1, r2, body, ty, b, rest, hp, hq, hr, hin⟩
  simp only [exChaosReq, List.cons_append, List.nil_append, List.cons.injEq] at hp
  obtain ⟨-, -, -, -, -, -, -, -, -, -, rfl, rfl, -⟩ := hp
  obtain ⟨k, _, _, _, _, _, _, _, _, hk, -⟩ := hin
  simp [be16] at hk

/-! ### C12: padding -/

/-- C12. On a padded connection every response to a request with EDNS (not DSO), and
every DSO response, has a length that is a multiple of 468. -/
theorem C12_padded (g : Cfg) (c : Ctx) (db : Txn → DbAnswer) (s s' : DsoState) (p : Bytes) (out : Bytes)
    (hs : Sane g c) (hdb : DbFits g db) (hpad : c.tcpPad = true) (h : processQuery g c db s p = .ok (some out, s'))
    (rc : Rc) (t : Txn) (off : Nat) (hdec : decodeQuery g { c with dsoEstab := s.estab } p (initTxn c) = .ok (rc, t, off))
    (hed : rc = .dso ∨ t.edns.reqEdns = true) : out.length % 468 = 0 := by
  obtain ⟨hp, rc', t', off', hdec', hv, hd, hcase⟩ := processQuery_inv hs hdb h
  rw [hdec] at hdec'
  simp only [Outcome.ok.injEq, Prod.mk.injEq] at hdec'
  obtain ⟨rfl, rfl, rfl⟩ := hdec'
  rcases hcase with ⟨-, h1, -⟩ | ⟨-, id0, id1, f1, -, -, -, h1, -⟩ | ⟨h1, h2, rfl, hx, a, opt, out', h3, hP⟩
  · simp at h1
  · cases hv : dsoReply c id0 id1 f1 (dsoVerdict (!c.isUdp) p) with
    | none => rw [hv] at h1; simp at h1
    | some o =>
      have hl : ∀ v o', dsoReply c id0 id1 f1 v = some o' → o'.length ≤ 24 := by
        intro v o' h; cases v <;> simp [dsoReply] at h <;> subst h <;> simp
      have := hl _ _ hv
      rw [hv] at h1
      simp only [Option.map_some, Option.some.injEq, dsoPadded, hpad, if_true] at h1
      subst h1
      simp only [List.length_append, put16_length, List.length_replicate]
      omega
  · simp only [Option.some.injEq] at h3
    subst h3
    rcases hed with h | h
    · exact absurd h h2
    · rw [out_length hP]; exact (hP.optPad h hpad).1

/-- C12, C52. The OPT record of the reply to an accepted request. The reply ends with an OPT record exactly
when the request has one, and the options in it are exactly: the request's client subnet
with the scope filled in, the server cookie for the request's first cookie, the idle
timeout (TCP without DSO session), the server identifier if asked for, and a padding
option of zeros exactly on padded connections. -/
theorem C52_options (g : Cfg) (c : Ctx) (db : Txn → DbAnswer) (s s' : DsoState) (p : Bytes) (out : Bytes)
    (hs : Sane g c) (hdb : DbFits g db) (h : processQuery g c db s p = .ok (some out, s'))
    (t : Txn) (off : Nat) (hdec : decodeQuery g { c with dsoEstab := s.estab } p (initTxn c) = .ok (.ok, t, off)) :
    ((∀ ver dobit size rdata, ¬ HasOpt p ver dobit size rdata) ∧ ∃ body, out = out.take 12 ++ (p.drop 12).take (off - 12) ++ body ∧
      (body = [] ∨ body = (db t).data ∨ body = g.chaos)) ∨
    (∃ dobit size rdata, HasOpt p 0 dobit size rdata ∧
      ∃ pre l1 l2 rd' npad scope, out = pre ++ [0, 0, 41, 4, 0, 0, 0, if dobit then 128 else 0, 0, l1, l2] ++ rd' ∧ rd'.length = be16 l1 l2 ∧
        optList rd' = answerOpts g { c with dsoEstab := s.estab } (optList rdata) scope npad ∧
        (scope = 0 ∨ scope = (db t).scope) ∧ npad < 468) := by
  obtain ⟨hp, rc', t', off', hdec', hv, hd, hcase⟩ := processQuery_inv hs hdb h
  rw [hdec] at hdec'
  simp only [Outcome.ok.injEq, Prod.mk.injEq] at hdec'
  obtain ⟨rfl, rfl, rfl⟩ := hdec'
  rcases hcase with ⟨h1, -⟩ | ⟨h1, -⟩ | ⟨-, -, rfl, hx, a, opt, out', h3, hP⟩
  · simp at h1
  · simp at h1
  simp only [Option.some.injEq] at h3
  subst h3
  obtain ⟨id0, id1, f1, r0, r1, r2, hout⟩ := hP.out
  cases hreq : t.edns.reqEdns with
  | false =>
    left
    rw [hP.optNone hreq] at hout
    have ht : out.take 12 ++ a.body = out := by
      rw [hout]; simp [put16]
    have hsh := hP.shape
    refine ⟨?_, ?_⟩
    · obtain ⟨t1, -, hst⟩ := hd.steps
      rcases hst with ⟨-, -, h⟩ | ⟨rc0, hst, -⟩
      · exact h rfl
      · have hreq1 : t.edns.reqEdns = true := OptEffect_req hst
        rw [hreq] at hreq1; simp at hreq1
    cases hsh with
    | db => exact ⟨(db t).data, by rw [List.append_assoc]; exact ht.symm, .inr (.inl rfl)⟩
    | trunc => exact ⟨[], by rw [List.append_nil]; exact ht.symm, .inl rfl⟩
    | chaos => exact ⟨g.chaos, by rw [List.append_assoc]; exact ht.symm, .inr (.inr rfl)⟩
    | empty => exact ⟨[], by rw [List.append_nil]; exact ht.symm, .inl rfl⟩
  | true =>
    right
    obtain ⟨size, rdata, hH, hrel⟩ := decoded_rel hd hreq
    refine ⟨t.edns.doBit, size, rdata, hH, ?_⟩
    obtain ⟨e1, e2, e3, e4, l1, l2, rd', npad, ho, hl, he1, he2, he3, he4, hol, hnp⟩ :=
      ednsOutput_is (ednsFacts hd).inv hs.cookie hs.nsid (hP.optIs hreq)
    rw [respOpts_eq hrel] at hol
    simp at he1
    subst he1 he2 he3 he4
    refine ⟨out.take (out.length - opt.length), l1, l2, rd', npad, a.scope, ?_, hl, hol, ?_, hnp⟩
    · rw [List.append_assoc, ← ho]
      have : out = out.take (out.length - opt.length) ++ out.drop (out.length - opt.length) := by simp
      conv => lhs; rw [this]
      congr 1
      have hlen : ∀ (x : Bytes), (x ++ opt).drop ((x ++ opt).length - opt.length) = opt := by intro x; simp
      rw [hout]; exact hlen _
    · have hsh := hP.shape
      cases hsh with
      | db => exact .inr rfl
      | trunc => exact .inr rfl
      | chaos => exact .inl rfl
      | empty => exact .inl rfl

/-- C12. Without padding on the connection no reply to an accepted request carries a
padding option. -/
theorem C12_unpadded (g : Cfg) (c : Ctx) (l : List (Nat × Bytes)) (scope npad : Nat) (h : c.tcpPad = false) :
    ∀ x ∈ answerOpts g c l scope npad, x.1 ≠ 12 := by
  intro x hx
  unfold answerOpts at hx
  simp only [h, List.mem_append] at hx
  rcases hx with (((hx | hx) | hx) | hx) | hx
  · split at hx
    · simp at hx; simp [hx]
    · simp at hx
  · split at hx
    · simp at hx; simp [hx]
    · simp at hx
  · split at hx
    · simp at hx; simp [hx]
    · simp at hx
  · split at hx
    · simp at hx; simp [hx]
    · simp at hx
  · simp at hx

/-! ### C13: the header -/

/-- C13. Every response that is not a DSO response carries the request's ID, opcode and RD
bit, has QR set and RA, Z, AD, CD clear (given that the database's rcode is a rcode), and
echoes the question section whenever the request has a legal one. -/
theorem C13_header (g : Cfg) (c : Ctx) (db : Txn → DbAnswer) (s s' : DsoState) (p : Bytes) (out : Bytes)
    (hs : Sane g c) (hdb : DbFits g db) (hr : ∀ t, (db t).rcode.toNat < 16)
    (h : processQuery g c db s p = .ok (some out, s'))
    (hd : verdict (envOf g { c with dsoEstab := s.estab }) p ≠ .dso) :
    ∃ i0 i1 f1 f2 rest g1 g2 rest', p = i0 :: i1 :: f1 :: f2 :: rest ∧ out = i0 :: i1 :: g1 :: g2 :: rest' ∧
      f1.toNat < 128 ∧ g1.toNat ≥ 128 ∧ g1.toNat / 8 % 16 = f1.toNat / 8 % 16 ∧ g1.toNat % 2 = f1.toNat % 2 ∧ g2.toNat < 16 := by
  obtain ⟨hp, rc, t, off, hdec, hv, hde, hcase⟩ := processQuery_inv hs hdb h
  rcases hcase with ⟨-, h1, -⟩ | ⟨h1, -⟩ | ⟨h1, h2, rfl, hx, a, opt, out', h3, hP⟩
  · simp at h1
  · rw [h1] at hv
    exfalso; apply hd
    cases hvv : verdict (envOf g { c with dsoEstab := s.estab }) p <;> rw [hvv] at hv <;> simp [toRc] at hv
  simp only [Option.some.injEq] at h3
  subst h3
  have hl := hde.length h1
  obtain ⟨id0, id1, f1, r0, r1, r2, hout⟩ := hP.out
  have hf1 : f1.toNat < 128 := by
    refine Classical.byContradiction fun hc => h1 ?_
    unfold decodeQuery at hdec
    rw [if_neg (by omega), r2, Outcome.bind_ok, if_pos (by omega)] at hdec
    simp at hdec; exact hdec.1.symm
  have fb : ∀ x : BitVec 8, ∀ tc aa, (flags1Of ⟨x⟩ tc aa).toNat ≥ 128 ∧
      (flags1Of ⟨x⟩ tc aa).toNat / 8 % 16 = (UInt8.ofBitVec x).toNat / 8 % 16 ∧
      (flags1Of ⟨x⟩ tc aa).toNat % 2 = (UInt8.ofBitVec x).toNat % 2 := by decide +kernel
  obtain ⟨b1, b2, b3⟩ := fb f1.toBitVec a.tc a.aa
  match p, hl with
  | x :: y :: z :: w :: p', _ =>
    simp [rd] at r0 r1 r2
    subst r0 r1 r2
    refine ⟨x, y, z, w, p', _, _, _, rfl, by rw [hout]; rfl, hf1, b1, b2, b3, ?_⟩
    have hsh := hP.shape
    cases hsh with
    | db => exact hr t
    | trunc => simp
    | chaos => simp
    | empty rcode k1 k2 k3 k4 =>
      simp only
      cases rc with
      | ok => rcases k1 rfl with ⟨k, -⟩ | ⟨k, -⟩ <;> simp [k]
      | ignore => exact absurd rfl h1
      | formerr => simp [k2 rfl]
      | badvers => simp [k4 rfl]
      | notimp => simp [k3 rfl]
      | dso => exact absurd rfl h2

/-- C13. A legal first question is always echoed byte for byte, with a question count of
one; otherwise the reply's question section is empty. -/
theorem C13_question (g : Cfg) (c : Ctx) (db : Txn → DbAnswer) (s s' : DsoState) (p : Bytes) (out : Bytes)
    (hs : Sane g c) (hdb : DbFits g db) (h : processQuery g c db s p = .ok (some out, s'))
    (hd : verdict (envOf g { c with dsoEstab := s.estab }) p ≠ .dso) :
    (∃ n ls ty cl rest q tail, rd16 p 4 = .ok (n + 1) ∧ FirstQuestion (p.drop 12) ls ty cl rest ∧ p.drop 12 = q ++ rest ∧
      out.drop 12 = q ++ tail ∧ rd16 out 4 = .ok 1) ∨
    (rd16 out 4 = .ok 0 ∧ (rd16 p 4 = .ok 0 ∨ ∀ ls ty cl rest, ¬ FirstQuestion (p.drop 12) ls ty cl rest)) := by
  obtain ⟨hp, rc, t, off, hdec, hv, hde, hcase⟩ := processQuery_inv hs hdb h
  rcases hcase with ⟨-, h1, -⟩ | ⟨h1, -⟩ | ⟨h1, h2, rfl, hx, a, opt, out', h3, hP⟩
  · simp at h1
  · rw [h1] at hv
    exfalso; apply hd
    cases hvv : verdict (envOf g { c with dsoEstab := s.estab }) p <;> rw [hvv] at hv <;> simp [toRc] at hv
  simp only [Option.some.injEq] at h3
  subst h3
  have hl := hde.length h1
  obtain ⟨id0, id1, f1, r0, r1, r2, hout⟩ := hP.out
  have hq4 : rd16 out 4 = .ok t.qdcount ∧ out.drop 12 = a.body ++ opt := by
    have hqd : t.qdcount < 65536 := by rcases echo hde with ⟨h, -⟩ | ⟨h, -⟩ <;> omega
    rw [hout]
    constructor
    · simp only [put16, List.cons_append, List.nil_append]
      rw [rd16_cons_succ, rd16_cons_succ, rd16_cons_succ, rd16_cons_succ, rd16_cons]
      rw [be16_put16 hqd]
    · simp [put16]
  have hbody : ∃ tl, a.body = (p.drop 12).take (off - 12) ++ tl := by
    have hsh := hP.shape
    cases hsh with
    | db => exact ⟨_, rfl⟩
    | trunc => exact ⟨[], by simp⟩
    | chaos => exact ⟨_, rfl⟩
    | empty => exact ⟨[], by simp⟩
  obtain ⟨tl, htl⟩ := hbody
  obtain ⟨n, hn, -⟩ := rd16_ok (p := p) (i := 4) (by omega)
  have hnoqr : ¬ ∃ b, rd p 2 = .ok b ∧ b.toNat ≥ 128 := by
    rintro ⟨b, hb, hb2⟩
    apply h1
    unfold decodeQuery at hdec
    rw [if_neg (by omega), hb, Outcome.bind_ok, if_pos hb2] at hdec
    simp at hdec; exact hdec.1.symm
  rcases echo hde with ⟨k1, k2, k3⟩ | ⟨k1, k4, ls, k2, k3, -⟩
  · right
    rw [hq4.1, k1]
    refine ⟨rfl, ?_⟩
    rcases k3 with k3 | k3 | k3 | k3
    · omega
    · exact absurd k3 hnoqr
    · exact .inl k3
    · exact .inr k3
  · cases n with
    | zero =>
      exact absurd hn k4
    | succ n =>
      left
      exact ⟨n, ls, t.qtype, t.qclass, p.drop off, _, tl ++ opt, hn, k2, k3, by rw [hq4.2, htl, List.append_assoc],
        by rw [hq4.1, k1]⟩

/-- C13. The section counts are the numbers of entries: if the database's and the CHAOS
answer are made of as many records as they claim, the whole reply parses as a message with
exactly the counts in its header. -/
theorem C13_counts (g : Cfg) (c : Ctx) (db : Txn → DbAnswer) (s s' : DsoState) (p : Bytes) (out : Bytes)
    (hs : Sane g c) (hdb : DbFits g db) (h : processQuery g c db s p = .ok (some out, s'))
    (hd : verdict (envOf g { c with dsoEstab := s.estab }) p ≠ .dso)
    (hrec : ∀ t, repeatN record ((db t).an + (db t).ns + (db t).ar) (db t).data = some [])
    (hch : record g.chaos = some []) : WellCounted out := by
  obtain ⟨hp, rc, t, off, hdec, hv, hde, hcase⟩ := processQuery_inv hs hdb h
  rcases hcase with ⟨-, h1, -⟩ | ⟨h1, -⟩ | ⟨h1, h2, rfl, hx, a, opt, out', h3, hP⟩
  · simp at h1
  · rw [h1] at hv
    exfalso; apply hd
    cases hvv : verdict (envOf g { c with dsoEstab := s.estab }) p <;> rw [hvv] at hv <;> simp [toRc] at hv
  simp only [Option.some.injEq] at h3
  subst h3
  obtain ⟨id0, id1, f1, r0, r1, r2, hout⟩ := hP.out
  -- the records of the body
  obtain ⟨dat, hbody, hdat⟩ : ∃ dat, a.body = (p.drop 12).take (off - 12) ++ dat ∧
      repeatN record (a.an + a.ns + a.ar) dat = some [] := by
    have hsh := hP.shape
    cases hsh with
    | db => exact ⟨_, rfl, hrec t⟩
    | trunc => exact ⟨[], by simp, rfl⟩
    | chaos => exact ⟨_, rfl, by simp [repeatN, hch]⟩
    | empty => exact ⟨[], by simp, rfl⟩
  have hopt : repeatN record (if t.edns.reqEdns then 1 else 0) opt = some [] := by
    cases hreq : t.edns.reqEdns with
    | false => rw [hP.optNone hreq]; rfl
    | true =>
      obtain ⟨e1, e2, e3, e4, l1, l2, rd', npad, ho, hl, -⟩ :=
        ednsOutput_is (ednsFacts hde).inv hs.cookie hs.nsid (hP.optIs hreq)
      rw [ho]
      simp only [if_true, repeatN]
      rw [opt_record _ _ _ _ _ _ _ hl]; rfl
  have hall : repeatN record (a.an + a.ns + (a.ar + (if t.edns.reqEdns then 1 else 0))) (dat ++ opt) = some [] := by
    rw [← Nat.add_assoc, repeatN_add, repeatN_append (fun b r x h => record_append h x) _ _ _ opt hdat]
    simpa using hopt
  have hsize : 11 * (a.an + a.ns + (a.ar + (if t.edns.reqEdns then 1 else 0))) ≤ 16382 := by
    have h1 := repeatN_record_len _ _ _ hall
    have h2 := out_length hP
    have h3 := C10_buffer g c db s' s' p out hs hdb h
    rw [hbody] at h2
    simp only [List.length_append, List.length_nil] at h1 h2
    omega
  have hqd : t.qdcount < 65536 := by rcases echo hde with ⟨h, -⟩ | ⟨h, -⟩ <;> omega
  generalize har : a.ar + (if t.edns.reqEdns then 1 else 0) = ar at hout hall hsize
  refine ⟨_, _, _, _, _, _, _, _, _, _, _, _, a.body ++ opt, dat ++ opt, by rw [hout]; simp [put16]; exact ⟨rfl, rfl, rfl, rfl, rfl, rfl, rfl, rfl, rfl, rfl, rfl, rfl⟩, ?_, ?_⟩
  · rw [be16_put16 hqd, hbody]
    rcases echo hde with ⟨k1, k2, -⟩ | ⟨k1, -, ls, -, -, k4⟩
    · left; rw [k1, k2]; simp
    · right
      refine ⟨k1, ls, t.qtype, t.qclass, ?_⟩
      rw [List.append_assoc]; exact k4 _
  · rw [be16_put16 (by omega), be16_put16 (by omega), be16_put16 (by omega)]
    exact hall

/-- The example database and CHAOS record satisfy the hypotheses. -/
example : ∀ t, repeatN record ((exDb t).an + (exDb t).ns + (exDb t).ar) (exDb t).data = some [] := fun _ => rfl
example : record [192, 12, 0, 16, 0, 3, 0, 0, 0, 0, 0, 2, 1, 65] = some [] := by
  unfold record ownerName; rw [skipName_cons]; decide +kernel

/-! ### C08: response codes -/

/-- C08. The reply to every request that is neither dropped nor a DSO request carries the
response code of the verdict: FORMERR (1), NOTIMP (4), or BADVERS (16, split over header
and OPT record); a reply to a rejected request carries no answer data and is neither
authoritative nor truncated. -/
theorem C08_rcode (g : Cfg) (c : Ctx) (db : Txn → DbAnswer) (s s' : DsoState) (p : Bytes) (out : Bytes)
    (hs : Sane g c) (hdb : DbFits g db) (h : processQuery g c db s p = .ok (some out, s'))
    (v : Verdict) (hvd : verdict (envOf g { c with dsoEstab := s.estab }) p = v)
    (hv' : v = .formerr ∨ v = .notimp ∨ v = .badvers) :
    ∃ f1 q1 q2 ar q opt, out = p.take 2 ++ [f1, (if v = .formerr then 1 else if v = .notimp then 4 else 0), q1, q2, 0, 0, 0, 0, 0, ar] ++ q ++ opt ∧
      f1.toNat / 2 % 4 = 0 ∧ (q = [] ∨ ∃ rest, p.drop 12 = q ++ rest) ∧
      (ar = 0 ∧ opt = [] ∧ v ≠ .badvers ∨
       ar = 1 ∧ ∃ l1 l2 e3 r, opt = [0, 0, 41, 4, 0, (if v = .badvers then 1 else 0), 0, e3, 0, l1, l2] ++ r ∧ r.length = be16 l1 l2) := by
  obtain ⟨hp, rc, t, off, hdec, hv, hd, hcase⟩ := processQuery_inv hs hdb h
  rw [hvd] at hv
  have hrc : rc ≠ .ignore ∧ rc ≠ .dso ∧ rc ≠ .ok := by
    rcases hv' with rfl | rfl | rfl <;> simp [hv, toRc]
  rcases hcase with ⟨h1, -⟩ | ⟨h1, -⟩ | ⟨-, -, rfl, hx, a, opt, out', h3, hP⟩
  · exact absurd h1 hrc.1
  · exact absurd h1 hrc.2.1
  simp only [Option.some.injEq] at h3
  subst h3
  obtain ⟨id0, id1, f1, r0, r1, r2, hout⟩ := hP.out
  have htake : p.take 2 = [id0, id1] := by
    have hl := hd.length hrc.1
    match p, hl with
    | x :: y :: p', _ => simp [rd] at r0 r1; simp [r0, r1]
    | [x], h => simp at h
    | [], h => simp at h
  have fb : ∀ x : BitVec 8, (flags1Of ⟨x⟩ false false).toNat / 2 % 4 = 0 := by decide +kernel
  have hb := fb f1.toBitVec
  have hopt : (t.edns.reqEdns = false ∧ opt = [] ∧ v ≠ .badvers) ∨ (t.edns.reqEdns = true ∧
      ∃ l1 l2 e3 r, opt = [0, 0, 41, 4, 0, (if v = .badvers then 1 else 0), 0, e3, 0, l1, l2] ++ r ∧ r.length = be16 l1 l2) := by
    cases hreq : t.edns.reqEdns with
    | false =>
      refine .inl ⟨rfl, hP.optNone hreq, ?_⟩
      intro hb
      have := ((ednsFacts hd).bad (by rw [hv, hb]; rfl)).1
      rw [hreq] at this; simp at this
    | true =>
      obtain ⟨e1, e2, e3, e4, l1, l2, rd', npad, ho, hl, he1, he2, -, he4, -⟩ :=
        ednsOutput_is (ednsFacts hd).inv hs.cookie hs.nsid (hP.optIs hreq)
      right
      refine ⟨rfl, l1, l2, e3, rd', ?_, hl⟩
      rw [ho, he1, he2, he4]
      rcases hv' with rfl | rfl | rfl <;> simp [hv, toRc]
  have hsh := hP.shape
  cases hsh with
  | db h => exact absurd h hrc.2.2
  | trunc h => exact absurd h hrc.2.2
  | chaos h => exact absurd h hrc.2.2
  | empty rcode k1 k2 k3 k4 =>
    have hcode : rcode = (if v = .formerr then 1 else if v = .notimp then 4 else 0) := by
      rcases hv' with rfl | rfl | rfl
      · simp [k2 (by rw [hv]; rfl)]
      · simp [k3 (by rw [hv]; rfl)]
      · simp [k4 (by rw [hv]; rfl)]
    refine ⟨_, UInt8.ofNat (t.qdcount / 256), UInt8.ofNat t.qdcount, if t.edns.reqEdns then 1 else 0, (p.drop 12).take (off - 12), opt, ?_, hb, ?_, ?_⟩
    · rw [htake, hout, ← hcode]
      cases t.edns.reqEdns <;> simp [put16]
    · exact .inr ⟨(p.drop 12).drop (off - 12), (List.take_append_drop _ _).symm⟩
    · rcases hopt with ⟨e1, e2, e3⟩ | ⟨e1, e2⟩
      · left; simp [e1, e2, e3]
      · right; exact ⟨by simp [e1], e2⟩

/-- An unsupported EDNS version over UDP: extended rcode 1 in the OPT record. -/
example :
    (processQuery exCfg exUdp exDb ⟨false, false⟩
      ([0x12, 0x34, 1, 0, 0, 1, 0, 0, 0, 0, 0, 1] ++ [2, 65, 98, 0, 0, 1, 0, 1] ++
       [0, 0, 41, 16, 0, 0, 1, 0, 0, 0, 0])).map (·.1) =
      .ok (some ([0x12, 0x34, 0x81, 0, 0, 1, 0, 0, 0, 0, 0, 1] ++ [2, 65, 98, 0, 0, 1, 0, 1] ++ [0, 0, 41, 4, 0, 1, 0, 0, 0, 0, 0])) := by
  decide +kernel

/-! ### C08: classes -/

/-- C08. An accepted query of a class other than IN, CH and ANY is REFUSED with no data
beyond the question (and the OPT record); class CH gets the configured CHAOS record. -/
theorem C08_class (g : Cfg) (c : Ctx) (db : Txn → DbAnswer) (s s' : DsoState) (p : Bytes) (out : Bytes)
    (hs : Sane g c) (hdb : DbFits g db) (h : processQuery g c db s p = .ok (some out, s'))
    (t : Txn) (off : Nat) (hdec : decodeQuery g { c with dsoEstab := s.estab } p (initTxn c) = .ok (.ok, t, off))
    (hq : rd16 p 4 = .ok 1) (hcl : t.qclass ≠ 1 ∧ t.qclass ≠ 255) :
    ∃ flags rcode an ar opt, out = p.take 2 ++ [flags, rcode, 0, 1, 0, an, 0, 0, 0, ar] ++ (p.drop 12).take (off - 12) ++
        (if t.qclass = 3 then g.chaos else []) ++ opt ∧
      rcode = (if t.qclass = 3 then 0 else 5) ∧ an = (if t.qclass = 3 then 1 else 0) ∧
      (ar = 0 ∧ opt = [] ∨ ar = 1 ∧ record opt = some []) := by
  obtain ⟨hp, rc', t', off', hdec', hv, hd, hcase⟩ := processQuery_inv hs hdb h
  rw [hdec] at hdec'
  simp only [Outcome.ok.injEq, Prod.mk.injEq] at hdec'
  obtain ⟨rfl, rfl, rfl⟩ := hdec'
  rcases hcase with ⟨h1, -⟩ | ⟨h1, -⟩ | ⟨-, -, rfl, hx, a, opt, out', h3, hP⟩
  · simp at h1
  · simp at h1
  simp only [Option.some.injEq] at h3
  subst h3
  obtain ⟨id0, id1, f1, r0, r1, r2, hout⟩ := hP.out
  have htake : p.take 2 = [id0, id1] := by
    have hl := hd.length (by simp)
    match p, hl with
    | x :: y :: p', _ => simp [rd] at r0 r1; simp [r0, r1]
    | [x], h => simp at h
    | [], h => simp at h
  have hqd : t.qdcount = 1 := by
    rcases hd.answer rfl with ⟨-, h⟩ | ⟨h, -⟩
    · exact h
    · rw [hq] at h; simp at h
  have hopt : (t.edns.reqEdns = false ∧ opt = []) ∨ (t.edns.reqEdns = true ∧ record opt = some []) := by
    cases hreq : t.edns.reqEdns with
    | false => exact .inl ⟨rfl, hP.optNone hreq⟩
    | true =>
      obtain ⟨e1, e2, e3, e4, l1, l2, rd', npad, ho, hl, -⟩ :=
        ednsOutput_is (ednsFacts hd).inv hs.cookie hs.nsid (hP.optIs hreq)
      right
      rw [ho]
      exact ⟨rfl, opt_record _ _ _ _ _ _ _ hl⟩
  refine ⟨flags1Of f1 a.tc a.aa, if t.qclass = 3 then 0 else 5, if t.qclass = 3 then 1 else 0,
    if t.edns.reqEdns then 1 else 0, opt, ?_, rfl, rfl, ?_⟩
  · have hsh := hP.shape
    rw [htake, hout, hqd]
    cases hsh with
    | db _ h => omega
    | trunc _ h => omega
    | chaos _ h3 => rw [if_pos h3, if_pos h3, if_pos h3]; cases t.edns.reqEdns <;> simp [put16]
    | empty rcode k1 =>
      rcases k1 rfl with ⟨k, -, -, -, h3⟩ | ⟨-, k⟩
      · rw [if_neg h3, if_neg h3, if_neg h3, k]; cases t.edns.reqEdns <;> simp [put16]
      · omega
  · rcases hopt with ⟨h1, h2⟩ | ⟨h1, h2⟩
    · left; simp [h1, h2]
    · right; simp [h1, h2]

/-! ### C42: DNS Stateful Operations -/

/-- C42. Whatever the message, a DSO request is handled as RFC 8490 prescribes
(`PacketSpec.dsoVerdict`): the connection is aborted (no reply), or the reply has the
request's ID and opcode, no RD bit, no records and the right rcode, followed by the
keepalive TLV with the server's timeouts when the session is (re)established, and by
padding to 468 bytes on padded connections. The session is established exactly by a valid
keepalive. -/
theorem C42_dso (g : Cfg) (c : Ctx) (db : Txn → DbAnswer) (s s' : DsoState) (p : Bytes) (r : Option Bytes)
    (hs : Sane g c) (hdb : DbFits g db) (h : processQuery g c db s p = .ok (r, s'))
    (hd : verdict (envOf g { c with dsoEstab := s.estab }) p = .dso) :
    (s'.estab = (s.estab || decide (dsoVerdict (!c.isUdp) p = .keepalive))) ∧
    (r = none ↔ dsoVerdict (!c.isUdp) p = .abort) ∧
    ∀ out, r = some out → ∃ f1 f1' rcode tail pad, p[2]? = some f1 ∧
      out = p.take 2 ++ [f1', rcode, 0, 0, 0, 0, 0, 0, 0, 0] ++ tail ++ pad ∧
      f1'.toNat / 8 = 16 + f1.toNat / 8 % 16 ∧ f1'.toNat % 8 = 0 ∧
      (dsoVerdict (!c.isUdp) p = .formerr → rcode = 1 ∧ tail = []) ∧
      (dsoVerdict (!c.isUdp) p = .notimpl → rcode = 11 ∧ tail = []) ∧
      (dsoVerdict (!c.isUdp) p = .keepalive → rcode = 0 ∧
        tail = [0, 1, 0, 8, 255, 255, 255, 255] ++ put32 c.dsoInactivity) ∧
      (c.tcpPad = false → pad = []) ∧
      (c.tcpPad = true → out.length = 468 ∧ ∃ n, pad = [0, 3] ++ put16 n ++ List.replicate n 0) := by
  obtain ⟨hp, rc, t, off, hdec, hv, hde, hcase⟩ := processQuery_inv hs hdb h
  have hrc : rc = .dso := by rw [hv, hd]; rfl
  rcases hcase with ⟨h1, -⟩ | ⟨h1, id0, id1, f1, r0, r1, r2, h2, h3⟩ | ⟨-, h1, -⟩
  · rw [h1] at hrc; simp at hrc
  · refine ⟨?_, ?_, ?_⟩
    · rw [h3]; split <;> rename_i hk <;> simp [hk]
    · rw [h2, Option.map_eq_none_iff]
      cases dsoVerdict (!c.isUdp) p <;> simp [dsoReply]
    · intro out ho
      have hl := hde.length (by simp [hrc])
      have htake : p.take 2 = [id0, id1] ∧ p[2]? = some f1 := by
        match p, hl with
        | x :: y :: z :: p', _ => simp [rd] at r0 r1 r2; simp [r0, r1, r2]
      have fb : ∀ x : BitVec 8, (UInt8.toNat ((((UInt8.ofBitVec x) &&& 0x79) ||| 0x80) &&& 0xF8)) / 8 = 16 + (UInt8.ofBitVec x).toNat / 8 % 16 ∧
          (UInt8.toNat ((((UInt8.ofBitVec x) &&& 0x79) ||| 0x80) &&& 0xF8)) % 8 = 0 := by decide +kernel
      obtain ⟨b1, b2⟩ := fb f1.toBitVec
      rw [h2] at ho
      have main : ∀ rcode tail, dsoReply c id0 id1 f1 (dsoVerdict (!c.isUdp) p) =
            some ([id0, id1, (((f1 &&& 0x79) ||| 0x80) &&& 0xF8), rcode] ++ List.replicate 8 0 ++ tail) → tail.length ≤ 12 →
          ∃ pad, out = p.take 2 ++ [(((f1 &&& 0x79) ||| 0x80) &&& 0xF8), rcode, 0, 0, 0, 0, 0, 0, 0, 0] ++ tail ++ pad ∧
            (c.tcpPad = false → pad = []) ∧
            (c.tcpPad = true → out.length = 468 ∧ ∃ n, pad = [0, 3] ++ put16 n ++ List.replicate n 0) := by
        intro rcode tail he htl
        rw [he] at ho
        simp only [Option.map_some, Option.some.injEq, dsoPadded] at ho
        rw [htake.1]
        cases ht : c.tcpPad with
        | false =>
          rw [ht, if_neg (by simp)] at ho
          exact ⟨[], by rw [← ho]; simp, fun _ => rfl, fun h => by simp at h⟩
        | true =>
          rw [ht, if_pos rfl] at ho
          generalize hn : 464 - (_ : Bytes).length = n at ho
          refine ⟨[0, 3] ++ put16 n ++ List.replicate n 0, ?_, fun h => by simp at h, fun _ => ⟨?_, n, rfl⟩⟩
          · rw [← ho]; simp [put16]
          · rw [← ho]
            simp only [List.length_append, List.length_cons, List.length_nil, List.length_replicate, put16_length] at hn ⊢
            omega
      cases hvd : dsoVerdict (!c.isUdp) p with
      | abort => rw [hvd] at ho; simp [dsoReply] at ho
      | formerr =>
        obtain ⟨pad, m1, m2, m3⟩ := main 1 [] (by rw [hvd]; simp [dsoReply]) (by simp)
        exact ⟨f1, _, _, _, pad, htake.2, m1, b1, b2, fun _ => ⟨rfl, rfl⟩, by simp, by simp, m2, m3⟩
      | notimpl =>
        obtain ⟨pad, m1, m2, m3⟩ := main 11 [] (by rw [hvd]; simp [dsoReply]) (by simp)
        exact ⟨f1, _, _, _, pad, htake.2, m1, b1, b2, by simp, fun _ => ⟨rfl, rfl⟩, by simp, m2, m3⟩
      | keepalive =>
        obtain ⟨pad, m1, m2, m3⟩ := main 0 ([0, 1, 0, 8, 255, 255, 255, 255] ++ put32 c.dsoInactivity)
          (by rw [hvd]; simp [dsoReply, put32]) (by simp [put32])
        exact ⟨f1, _, _, _, pad, htake.2, m1, b1, b2, by simp, by simp, fun _ => ⟨rfl, rfl⟩, m2, m3⟩
  · exact absurd hrc h1

/-- C42. No other request changes the session. -/
theorem C42_other (g : Cfg) (c : Ctx) (db : Txn → DbAnswer) (s s' : DsoState) (p : Bytes) (r : Option Bytes)
    (hs : Sane g c) (hdb : DbFits g db) (h : processQuery g c db s p = .ok (r, s'))
    (hd : verdict (envOf g { c with dsoEstab := s.estab }) p ≠ .dso) : s' = s := by
  obtain ⟨hp, rc, t, off, hdec, hv, hde, hcase⟩ := processQuery_inv hs hdb h
  rcases hcase with ⟨-, -, h1⟩ | ⟨h1, -⟩ | ⟨-, h1, h2, -⟩
  · exact h1
  · rw [h1] at hv
    exfalso; apply hd
    cases hvv : verdict (envOf g { c with dsoEstab := s.estab }) p <;> rw [hvv] at hv <;> simp [toRc] at hv
  · exact h2

/-- The DSO state of a connection after a sequence of requests. -/
def dsoRun (g : Cfg) (c : Ctx) (db : Txn → DbAnswer) (s : DsoState) : List Bytes → Outcome DsoState
  | [] => .ok s
  | p :: ps => (processQuery g c db s p).bind fun r => dsoRun g c db r.2 ps

/-- C42. Over any history of requests on a TCP connection, the session is established
exactly when it was at the start or one of the requests was a DSO keepalive request: once
established it stays so, and nothing else establishes it. -/
theorem C42_history (g : Cfg) (c : Ctx) (db : Txn → DbAnswer) (hs : Sane g c) (hdb : DbFits g db) (ps : List Bytes) :
    ∀ s s', dsoRun g c db s ps = .ok s' →
      (s'.estab = true ↔ s.estab = true ∨ ∃ pre p post sp, ps = pre ++ p :: post ∧ dsoRun g c db s pre = .ok sp ∧
        verdict (envOf g { c with dsoEstab := sp.estab }) p = .dso ∧ dsoVerdict (!c.isUdp) p = .keepalive) := by
  induction ps with
  | nil =>
    intro s s' h
    simp only [dsoRun, Outcome.ok.injEq] at h
    subst h
    simp
  | cons p ps ih =>
    intro s s' h
    simp only [dsoRun] at h
    cases hq : processQuery g c db s p with
    | ub => rw [hq] at h; simp [Outcome.bind] at h
    | ok rs =>
      obtain ⟨r, s1⟩ := rs
      rw [hq, Outcome.bind_ok] at h
      rw [ih _ _ h]
      have hstep : s1.estab = true ↔ s.estab = true ∨
          (verdict (envOf g { c with dsoEstab := s.estab }) p = .dso ∧ dsoVerdict (!c.isUdp) p = .keepalive) := by
        by_cases hd : verdict (envOf g { c with dsoEstab := s.estab }) p = .dso
        · rw [(C42_dso g c db s s1 p r hs hdb hq hd).1]
          simp [hd]
        · rw [C42_other g c db s s1 p r hs hdb hq hd]
          simp [hd]
      rw [hstep]
      constructor
      · rintro ((h1 | h1) | ⟨pre, q, post, sp, rfl, h2, h3, h4⟩)
        · exact .inl h1
        · exact .inr ⟨[], p, ps, s, rfl, rfl, h1⟩
        · exact .inr ⟨p :: pre, q, post, sp, rfl, by simp only [dsoRun]; rw [hq]; exact h2, h3, h4⟩
      · rintro (h1 | ⟨pre, q, post, sp, h1, h2, h3, h4⟩)
        · exact .inl (.inl h1)
        · cases pre with
          | nil =>
            simp only [List.nil_append, List.cons.injEq] at h1
            simp only [dsoRun, Outcome.ok.injEq] at h2
            obtain ⟨rfl, rfl⟩ := h1
            subst h2
            exact .inl (.inr ⟨h3, h4⟩)
          | cons x pre =>
            simp only [List.cons_append, List.cons.injEq] at h1
            obtain ⟨rfl, rfl⟩ := h1
            simp only [dsoRun] at h2
            rw [hq] at h2
            exact .inr ⟨pre, q, post, sp, rfl, h2, h3, h4⟩

/-- A padded connection: the hypotheses of `C12_padded` and `C52_options` are met by an
ordinary request with EDNS, whose reply is one block. -/
example : Sane exCfg { exTcp with tcpPad := true } := ⟨fun _ => rfl, by decide, by decide, by decide, by decide⟩
example :
    (processQuery exCfg { exTcp with tcpPad := true } exDb ⟨false, false⟩ exReq).map
      (fun r => r.1.map (·.length)) = .ok (some 468) := by decide +kernel

/-- A DSO keepalive request on a padded TCP connection: the reply, its length, the state. -/
example :
    (processQuery exCfg { exTcp with tcpPad := true } exDb ⟨false, false⟩
      ([0x12, 0x34, 0x30, 0, 0, 0, 0, 0, 0, 0, 0, 0] ++ [0, 1, 0, 8, 0, 0, 0, 1, 0, 0, 0, 1])).map
        (fun r => (r.1.map (·.length), r.1.map (·.take 24), r.2.estab)) =
      .ok (some 468, some ([0x12, 0x34, 0xB0, 0, 0, 0, 0, 0, 0, 0, 0, 0] ++ [0, 1, 0, 8, 255, 255, 255, 255] ++ put32 exTcp.dsoInactivity), true) := by
  decide +kernel

end Gdnsd.Packet
