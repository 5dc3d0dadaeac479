import Verif.Packet.RespondLemmas
/- Proof helpers: `process_dns_query`. -/
namespace Gdnsd.Packet
open PacketSpec DnameSpec

/-- No OPT record of the request repeats a client-subnet or NSID option (as far as those
are enabled). -/
def NoRepeat (g : Cfg) (p : Bytes) : Prop :=
  ∀ dobit size rdata, HasOpt p 0 dobit size rdata →
    (g.edns_client_subnet = true → countCode 8 (optList rdata) ≤ 1) ∧
    (g.nsid ≠ [] → countCode 3 (optList rdata) ≤ 1)

theorem countCode_prefix {k : Nat} {l l' : List (Nat × Bytes)} (h : l <+: l') : countCode k l ≤ countCode k l' := by
  obtain ⟨t, rfl⟩ := h
  simp [countCode]

/-- What decoding leaves in the EDNS state. -/
structure EdnsFacts (g : Cfg) (c : Ctx) (p : Bytes) (rc : Rc) (t : Txn) : Prop where
  inv : EInv g c t.edns
  none : t.edns.reqEdns = false → t.edns = {} ∧ t.thisMax = (initTxn c).thisMax
  le : t.edns.reqEdns = true → rc ≠ .badvers → emitLen g c t.edns ≤ t.edns.outBytes
  exact : t.edns.reqEdns = true → NoRepeat g p → (rc = .badvers → c.isUdp = true ∨ c.dsoEstab = true) →
    t.edns.outBytes = emitLen g c t.edns
  bad : rc = .badvers → t.edns.reqEdns = true ∧ t.edns.outBytes = 11 ∧
    emitLen g c t.edns = 11 + (bif !c.isUdp && !c.dsoEstab then 6 else 0)
  max : c.isUdp = true → t.thisMax = 512 ∨ rc = .formerr ∨ rc = .ignore ∨
    ∃ dobit size rdata, HasOpt p 0 dobit size rdata ∧ t.thisMax = min (max size 512) c.udpEdnsMax

theorem EInv_base (g : Cfg) (c : Ctx) (e : Edns) (he : e = {}) (d : Bool) (n : Nat) :
    EInv g c { e with reqEdns := true, outBytes := n, doBit := e.doBit || d } := by
  subst he
  exact ⟨⟨rfl, rfl⟩, by simp, by simp, by simp⟩

theorem emitLen_base (g : Cfg) (c : Ctx) (d : Bool) :
    (optBase c {} d).outBytes = emitLen g c (optBase c {} d) := by
  simp only [optBase, emitLen, cond_false]
  cases !c.isUdp && !c.dsoEstab <;> rfl

theorem ednsFacts {g : Cfg} {c : Ctx} {p : Bytes} {rc : Rc} {t : Txn} {off : Nat}
    (hd : Decoded g c p rc t off) : EdnsFacts g c p rc t := by
  obtain ⟨t1, hq, ht⟩ := hd.steps
  have he1 : t1.edns = {} ∧ t1.thisMax = (initTxn c).thisMax := by
    rcases hq with ⟨rfl, -⟩ | ⟨ls, ty, cl, -, -, -, -, rfl⟩ <;> exact ⟨rfl, rfl⟩
  have hinit : c.isUdp = true → (initTxn c).thisMax = 512 := by intro h; simp [initTxn, h]
  rcases ht with ⟨rfl, hne, -⟩ | ⟨rc0, ht, hrc⟩
  · refine ⟨by rw [he1.1]; exact ⟨⟨rfl, rfl⟩, by simp, by simp, by simp⟩, fun _ => he1, ?_, ?_, fun h => absurd h hne, ?_⟩
    · intro h; rw [he1.1] at h; simp at h
    · intro h; rw [he1.1] at h; simp at h
    · intro h; left; rw [he1.2]; exact hinit h
  · cases ht with
    | badvers d =>
      have hrc : rc = .badvers := by
        rcases hrc with h | ⟨h, -⟩
        · exact h.symm
        · simp at h
      have hem : emitLen g c { t1.edns with reqEdns := true, outBytes := 11, doBit := t1.edns.doBit || d } =
          11 + (bif !c.isUdp && !c.dsoEstab then 6 else 0) := by
        rw [he1.1]; simp [emitLen]
      refine ⟨EInv_base g c _ he1.1 d 11, by simp, fun _ h => absurd hrc h, ?_, fun _ => ⟨rfl, rfl, hem⟩, ?_⟩
      · intro _ _ h
        simp only
        rw [hem]
        rcases h hrc with h | h <;> simp [h]
      · intro h; left; rw [he1.2]; exact hinit h
    | short d size =>
      have hrc' : rc = .formerr := by
        rcases hrc with h | ⟨h, -⟩
        · exact h.symm
        · simp at h
      have hb : optBase c t1.edns d = optBase c {} d := by rw [he1.1]
      refine ⟨EInv_base g c _ he1.1 d _, by simp [optBase], ?_, ?_, by simp [hrc'], by simp [hrc']⟩
      · intro _ _
        simp only [hb]
        exact Nat.le_of_eq (emitLen_base g c d).symm
      · intro _ _ _
        simp only [hb]
        exact emitLen_base g c d
    | opts d size rdata l e1 e' rc' hH hsteps hpre hend =>
      have hb : optBase c t1.edns d = optBase c {} d := by rw [he1.1]
      have hbi : EInv g c (optBase c t1.edns d) := EInv_base g c _ he1.1 d _
      have hi1 := OptsStep_EInv hsteps hbi
      have hle1 := OptsStep_le hsteps hbi (by rw [hb]; exact Nat.le_of_eq (emitLen_base g c d).symm)
      have hreq1 : ∀ {a l b}, OptsStep g c a l b → a.reqEdns = true → b.reqEdns = true := by
        intro a l b h
        induction h with
        | nil => exact id
        | cons h1 _ ih =>
          intro ha
          apply ih
          generalize hrc : Rc.ok = r at h1
          cases h1 with
          | reject v e' _ hv h => cases v <;> simp [toRc] at hrc hv
          | none => exact ha
          | ecs => exact ha
          | nsid => exact ha
          | cookie => exact ha
      have hr1 : e1.reqEdns = true := hreq1 hsteps rfl
      have he' : e' = e1 ∨ e' = { e1 with cookieRecvd := true } := by
        rcases hend with ⟨-, h, -⟩ | ⟨-, h⟩
        · exact .inl h
        · exact h
      have hi' : EInv g c e' := by
        rcases he' with rfl | rfl
        · exact hi1
        · exact ⟨hi1.eok, fun h => ⟨rfl, (hi1.cookie h).2⟩, hi1.nsid, hi1.ecs⟩
      have hem' : emitLen g c e' = emitLen g c e1 ∧ e'.outBytes = e1.outBytes ∧ e'.reqEdns = true := by
        rcases he' with rfl | rfl
        · exact ⟨rfl, rfl, hr1⟩
        · exact ⟨rfl, rfl, hr1⟩
      have hnb : rc ≠ .badvers := by
        rcases hrc with rfl | ⟨-, h⟩
        · rcases hend with ⟨h, -⟩ | ⟨h | h, -⟩ <;> simp [h]
        · exact h
      refine ⟨hi', ?_, ?_, ?_, fun h => absurd h hnb, ?_⟩
      · simp only; intro h; rw [hem'.2.2] at h; simp at h
      · intro _ _; simp only; rw [hem'.1, hem'.2.1]; exact hle1
      · intro _ hnr _
        simp only
        rw [hem'.1, hem'.2.1]
        obtain ⟨n8, n3⟩ := hnr d size rdata hH
        refine OptsStep_exact hsteps hbi (by rw [hb]; exact emitLen_base g c d) ?_ ?_
        · intro h
          have := n8 h
          have := countCode_prefix (k := 8) hpre
          rw [hb]; simp [optBase]; omega
        · intro h
          have := n3 h
          have := countCode_prefix (k := 3) hpre
          rw [hb]; simp [optBase]; omega
      · intro hu
        right; right; right
        exact ⟨d, size, rdata, hH, by simp [newMax, hu]⟩

/-! ### Answers -/

/-- Limits guaranteed by the configuration code (conf.c, socks.c). -/
structure Sane (g : Cfg) (c : Ctx) : Prop where
  cookie : ∀ d, (c.cookieFn d).2.length = 16
  nsid : g.nsid.length ≤ 128
  chaos : g.chaos.length ≤ 267
  udpMax : 512 ≤ c.udpEdnsMax
  pad : c.tcpPad = true → c.isUdp = false

/-- The database answer fits in MAX_RESPONSE_DATA together with the header, the question
and the largest possible EDNS section (this is what zone loading checks, C22). -/
def DbFits (g : Cfg) (db : Txn → DbAnswer) : Prop :=
  ∀ t, t.lqname.length ≤ 256 → 12 + (t.lqname.length - 1 + 4) + (db t).data.length + ednsMax g ≤ maxResponseData

/-- The same for one query. -/
def FitsAt (g : Cfg) (db : Txn → DbAnswer) (t : Txn) : Prop :=
  t.lqname.length ≤ 256 → 12 + (t.lqname.length - 1 + 4) + (db t).data.length + ednsMax g ≤ maxResponseData

/-- The UDP limit in force for an answer. -/
def udpLimit (g : Cfg) (t : Txn) : Nat :=
  if !t.edns.cookieValid && decide (g.max_nocookie_response ≠ 0) &&
    decide (g.max_nocookie_response < t.thisMax) then g.max_nocookie_response else t.thisMax

/-- The shapes of an answer. -/
inductive AnsShape (g : Cfg) (c : Ctx) (db : Txn → DbAnswer) (rc : Rc) (t : Txn) (q : Bytes) : Resp → Prop
  | db : rc = .ok → (t.qclass = 1 ∨ t.qclass = 255) → (c.isUdp = true → 12 + (q ++ (db t).data).length + t.edns.outBytes ≤ udpLimit g t) →
      AnsShape g c db rc t q
        { aa := (db t).aa, rcode := (db t).rcode, body := q ++ (db t).data, an := (db t).an, ns := (db t).ns,
          ar := (db t).ar, scope := (db t).scope }
  | trunc : rc = .ok → (t.qclass = 1 ∨ t.qclass = 255) → c.isUdp = true → udpLimit g t < 12 + (q ++ (db t).data).length + t.edns.outBytes →
      AnsShape g c db rc t q { tc := true, aa := (db t).aa, body := q, scope := (db t).scope }
  | chaos : rc = .ok → t.qclass = 3 → AnsShape g c db rc t q { body := q ++ g.chaos, an := 1 }
  | empty (rcode : UInt8) : (rc = .ok → (rcode = 5 ∧ t.qdcount = 1 ∧ t.qclass ≠ 1 ∧ t.qclass ≠ 255 ∧ t.qclass ≠ 3) ∨ (rcode = 0 ∧ t.qdcount = 0)) → (rc = .formerr → rcode = 1) → (rc = .notimp → rcode = 4) →
      (rc = .badvers → rcode = 0) → AnsShape g c db rc t q { body := q, rcode := rcode }

theorem ednsMax_pos (g : Cfg) : 17 ≤ ednsMax g := by unfold ednsMax; omega

theorem answerPart_eq {g : Cfg} {c : Ctx} {db : Txn → DbAnswer} {rc : Rc} {t : Txn} {q : Bytes} {p : Bytes} {off : Nat}
    {c' : Ctx} (hd : Decoded g c' p rc t off) (hdb : rc = .ok → (t.qclass = 1 ∨ t.qclass = 255) → t.qdcount = 1 → FitsAt g db t) (hq : q = (p.drop 12).take (off - 12))
    (hrc : rc ≠ .ignore) (hrc' : rc ≠ .dso) (n : Nat) (hn : rd16 p 4 = .ok n) :
    ∃ a, answerPart g c db rc n t q = .ok a ∧ AnsShape g c db rc t q a ∧ q.length ≤ 259 ∧
      12 + a.body.length + ednsMax g ≤ max maxResponseData (271 + g.chaos.length + ednsMax g) := by
  have hql : q.length ≤ 259 ∧ (t.qdcount = 1 → q.length = t.lqname.length - 1 + 4) := by
    obtain ⟨t1, hs, ht⟩ := hd.steps
    have keep : t.qtype = t1.qtype ∧ t.qclass = t1.qclass ∧ t.qdcount = t1.qdcount ∧ t.lqname = t1.lqname := by
      rcases ht with ⟨rfl, -⟩ | ⟨rc0, ht, -⟩
      · exact ⟨rfl, rfl, rfl, rfl⟩
      · exact OptEffect_keep ht
    rw [hq]
    rcases hs with ⟨rfl, rfl, -⟩ | ⟨ls, ty, cl, hf, h1, h2, hq0, rfl⟩
    · refine ⟨by simp, fun h => ?_⟩
      rw [h] at keep; exact absurd keep.2.2.1 (by simp [initTxn])
    · have hw := hf.1.2
      refine ⟨by simp; omega, fun _ => ?_⟩
      rw [keep.2.2.2]
      simp only
      rw [Dname.encode_length, Dname.wireLen_map_lower]
      simp; omega
  have hbnd : 12 + q.length + ednsMax g ≤ max maxResponseData (271 + g.chaos.length + ednsMax g) := by omega
  unfold answerPart
  cases rc with
  | ignore => exact absurd rfl hrc
  | dso => exact absurd rfl hrc'
  | formerr => exact ⟨_, rfl, .empty 1 (by simp) (by simp) (by simp) (by simp), hql.1, hbnd⟩
  | notimp => exact ⟨_, rfl, .empty 4 (by simp) (by simp) (by simp) (by simp), hql.1, hbnd⟩
  | badvers => exact ⟨_, rfl, .empty 0 (by simp) (by simp) (by simp) (by simp), hql.1, hbnd⟩
  | ok =>
    have hans := hd.answer rfl
    rw [hn] at hans
    simp only
    rcases hans with ⟨h1, h2⟩ | ⟨h1, h2, h3⟩
    · simp only [Outcome.ok.injEq] at h1
      rw [if_pos h1]
      by_cases hcl : t.qclass = 1 ∨ t.qclass = 255
      · rw [if_pos hcl]
        have hl := hql.2 h2
        have hf := hdb rfl hcl h2 (by omega)
        have he := ednsMax_pos g
        have hfit : 12 + (q ++ (db t).data).length + ednsMax g ≤ maxResponseData := by simp; omega
        unfold answerFromDb
        simp only
        rw [decide_eq_true (by unfold maxResponseData at hfit; unfold maxResponseBuf; omega)]
        simp only [assert_true, Outcome.bind_ok]
        by_cases hu : c.isUdp = true
        · rw [if_pos hu]
          by_cases hm : 12 + (q ++ (db t).data).length + t.edns.outBytes > udpLimit g t
          · rw [if_pos (by exact hm)]
            exact ⟨_, rfl, .trunc rfl hcl hu hm, hql.1, hbnd⟩
          · rw [if_neg (by exact hm)]
            exact ⟨_, rfl, .db rfl hcl (fun _ => by omega), hql.1, by simp only; omega⟩
        · rw [if_neg hu]
          exact ⟨_, rfl, .db rfl hcl (fun h => absurd h hu), hql.1, by simp only; omega⟩
      · rw [if_neg hcl]
        by_cases h3 : t.qclass = 3
        · rw [if_pos h3]
          exact ⟨_, rfl, .chaos rfl h3, hql.1, by simp; omega⟩
        · rw [if_neg h3]
          exact ⟨_, rfl, .empty 5 (fun _ => .inl ⟨rfl, h2, fun h => hcl (.inl h), fun h => hcl (.inr h), h3⟩) (by simp) (by simp) (by simp), hql.1, hbnd⟩
    · simp only [Outcome.ok.injEq] at h1
      rw [if_neg (by omega), h3]
      exact ⟨_, rfl, .empty 0 (fun _ => .inr ⟨rfl, h2⟩) (by simp) (by simp) (by simp), hql.1, hbnd⟩

/-- The first flag byte of a response. -/
def flags1Of (f1 : UInt8) (tc aa : Bool) : UInt8 :=
  ((f1 &&& 0x79) ||| 0x80) ||| (if tc then 2 else 0) ||| (if aa then 4 else 0)

/-- Everything about one processed request that is neither dropped nor DSO. -/
structure Processed (g : Cfg) (c : Ctx) (db : Txn → DbAnswer) (s : DsoState) (p : Bytes) (rc : Rc) (t : Txn) (off : Nat)
    (a : Resp) (opt : Bytes) (out : Bytes) : Prop where
  shape : AnsShape g c db rc t ((p.drop 12).take (off - 12)) a
  qlen : ((p.drop 12).take (off - 12)).length ≤ 259
  fits : 12 + a.body.length + ednsMax g ≤ maxResponseData ∨ 12 + a.body.length ≤ 271 + g.chaos.length
  optNone : t.edns.reqEdns = false → opt = []
  optLe : t.edns.reqEdns = true → emitLen g { c with dsoEstab := s.estab } t.edns ≤ opt.length
  optLen : t.edns.reqEdns = true → c.tcpPad = false → opt.length = emitLen g { c with dsoEstab := s.estab } t.edns
  optPad : t.edns.reqEdns = true → c.tcpPad = true → (12 + a.body.length + opt.length) % 468 = 0 ∧
    12 + a.body.length + opt.length ≤ maxResponseBuf
  optIs : t.edns.reqEdns = true →
    ednsOutput g { c with dsoEstab := s.estab } t.edns a.scope (decide (rc = .badvers)) (12 + a.body.length) = .ok opt
  out : ∃ id0 id1 f1, rd p 0 = .ok id0 ∧ rd p 1 = .ok id1 ∧ rd p 2 = .ok f1 ∧
    out = [id0, id1, flags1Of f1 a.tc a.aa, a.rcode] ++ put16 t.qdcount ++ put16 a.an ++ put16 a.ns ++
        put16 (a.ar + (if t.edns.reqEdns then 1 else 0)) ++ a.body ++ opt

theorem processQuery_eq {g : Cfg} {c : Ctx} {db : Txn → DbAnswer} {s : DsoState} {p : Bytes} {rc : Rc} {t : Txn} {off : Nat}
    (hp : p.length ≤ 1024) (hs : Sane g c) (hdb : rc = .ok → (t.qclass = 1 ∨ t.qclass = 255) → t.qdcount = 1 → FitsAt g db t)
    (hdec : decodeQuery g { c with dsoEstab := s.estab } p (initTxn c) = .ok (rc, t, off))
    (hd : Decoded g { c with dsoEstab := s.estab } p rc t off)
    (hrc : rc ≠ .ignore) (hrc' : rc ≠ .dso)
    (hx : t.edns.reqEdns = true → t.edns.outBytes = emitLen g { c with dsoEstab := s.estab } t.edns) :
    ∃ a opt out, processQuery g c db s p = .ok (some out, s) ∧ Processed g c db s p rc t off a opt out := by
  have hl := hd.length hrc
  obtain ⟨n, hn, -⟩ := rd16_ok (p := p) (i := 4) (by omega)
  have hef := ednsFacts hd
  obtain ⟨a, ha, hsh, hq259, hfit⟩ := answerPart_eq (c := c) hd hdb rfl hrc hrc' n hn
  have hbody : 12 + a.body.length + ednsMax g ≤ maxResponseData := by
    have h1 := hs.chaos
    have h2 := hs.nsid
    have h3 : ednsMax g ≤ 193 := by
      unfold ednsMax
      have a1 : (if g.edns_client_subnet then 24 else 0) ≤ 24 := by split <;> omega
      have a2 : (if g.nsid.length ≠ 0 then 4 + g.nsid.length else 0) ≤ 132 := by split <;> omega
      have a3 : (if !g.disable_cookies then 20 else 0) ≤ 20 := by split <;> omega
      omega
    unfold maxResponseData at *; omega
  have hem := emitLen_le hef.inv
  have r0 : rd p 0 = .ok (p[0]'(by omega)) := rd_lt (by omega)
  have r1 : rd p 1 = .ok (p[1]'(by omega)) := rd_lt (by omega)
  have r2 : rd p 2 = .ok (p[2]'(by omega)) := rd_lt (by omega)
  -- the OPT record
  have hopt : ∃ opt, (if t.edns.reqEdns then
        ednsOutput g { c with dsoEstab := s.estab } t.edns a.scope (decide (rc = .badvers)) (12 + a.body.length)
       else Outcome.ok []) = .ok opt ∧
      (t.edns.reqEdns = false → opt = []) ∧
      (t.edns.reqEdns = true → emitLen g { c with dsoEstab := s.estab } t.edns ≤ opt.length) ∧
      (t.edns.reqEdns = true → c.tcpPad = false → opt.length = emitLen g { c with dsoEstab := s.estab } t.edns) ∧
      (t.edns.reqEdns = true → c.tcpPad = true → (12 + a.body.length + opt.length) % 468 = 0 ∧
        12 + a.body.length + opt.length ≤ maxResponseBuf) := by
    cases hreq : t.edns.reqEdns with
    | false => exact ⟨[], by simp, by simp, by simp, by simp, by simp⟩
    | true =>
      obtain ⟨o, h1, h2, h3, h4⟩ := ednsOutput_eq (c := { c with dsoEstab := s.estab }) hef.inv hs.cookie a.scope
        (12 + a.body.length) (decide (rc = .badvers)) (hx hreq) hs.pad (fun _ => by omega)
      exact ⟨o, by simpa using h1, by simp, fun _ => h2, fun _ h => h3 h, fun _ h => ⟨(h4 h).1, (h4 h).2.1⟩⟩
  obtain ⟨opt, ho, ho1, ho2, ho3, ho4⟩ := hopt
  have htot : 12 + a.body.length + opt.length ≤ maxResponseBuf := by
    cases hreq : t.edns.reqEdns with
    | false => rw [ho1 hreq]; unfold maxResponseBuf maxResponseData at *; simp; omega
    | true =>
      cases hpad : c.tcpPad with
      | true => exact (ho4 hreq hpad).2
      | false => rw [ho3 hreq hpad]; unfold maxResponseBuf maxResponseData at *; omega
  refine ⟨a, opt, _, ?_, ⟨hsh, hq259, .inl hbody, ho1, ho2, ho3, ho4, fun h => by rw [if_pos h] at ho; exact ho, _, _, _, r0, r1, r2, rfl⟩⟩
  unfold processQuery
  rw [decide_eq_true hp, hdec]
  simp only [assert_true, Outcome.bind_ok, r0, r1, r2, hn, ha]
  have key : (if rc = Rc.dso then handleDsoPad c s p (p[0]'(by omega)) (p[1]'(by omega)) (p[2]'(by omega))
    else ((if t.edns.reqEdns then
        ednsOutput g { c with dsoEstab := s.estab } t.edns a.scope (decide (rc = .badvers)) (12 + a.body.length)
       else Outcome.ok []).bind fun opt =>
      (assert (decide (([(p[0]'(by omega)), (p[1]'(by omega)), (((p[2]'(by omega)) &&& 0x79) ||| 0x80) ||| (if a.tc then 2 else 0) ||| (if a.aa then 4 else 0), a.rcode] ++ put16 t.qdcount ++ put16 a.an ++ put16 a.ns ++
        put16 (a.ar + (if t.edns.reqEdns then 1 else 0)) ++ a.body ++ opt).length ≤ maxResponseBuf))).bind fun _ =>
        Outcome.ok (some ([(p[0]'(by omega)), (p[1]'(by omega)), (((p[2]'(by omega)) &&& 0x79) ||| 0x80) ||| (if a.tc then 2 else 0) ||| (if a.aa then 4 else 0), a.rcode] ++ put16 t.qdcount ++ put16 a.an ++ put16 a.ns ++
        put16 (a.ar + (if t.edns.reqEdns then 1 else 0)) ++ a.body ++ opt), s))) =
      .ok (some ([(p[0]'(by omega)), (p[1]'(by omega)), flags1Of (p[2]'(by omega)) a.tc a.aa, a.rcode] ++ put16 t.qdcount ++ put16 a.an ++ put16 a.ns ++
        put16 (a.ar + (if t.edns.reqEdns then 1 else 0)) ++ a.body ++ opt), s) := by
    rw [if_neg hrc', ho, Outcome.bind_ok, decide_eq_true]
    · rfl
    · simp only [List.length_append, List.length_cons, List.length_nil, put16_length]; omega
  cases rc with
  | ignore => exact absurd rfl hrc
  | dso => exact absurd rfl hrc'
  | _ => exact key

end Gdnsd.Packet
