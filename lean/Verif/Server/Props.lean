import Verif.Server.Lemmas
/-
C65: what a server with loaded zone files replies to a request packet.
-/
namespace Gdnsd.Server
open Packet PacketSpec Dname DnameSpec EncSpec LookupSpec LoadSpec Load ServerSpec

/-- The settings that zone loading and packet handling share. -/
structure SameSettings (cfg : Load.Cfg) (g : Packet.Cfg) : Prop where
  ecs : cfg.ecs = g.edns_client_subnet
  cookies : cfg.cookies = !g.disable_cookies
  nsid : cfg.nsidLen = g.nsid.length

/-- What a server answers from besides the zone files: legal random numbers, plugins that keep
their promises, and a table of these challenges. -/
structure SiteOk (cfg : Load.Cfg) (site : Site) (chals : List Bytes → List (Nat × Bytes)) : Prop where
  draws : ∀ k, Rand.Spec.Legal (site.draws k)
  plugins : ∀ t, PlugOk cfg (site.resolve t)
  chals : ∀ ls, WF ls → site.chals (encode ls true) = (chals ls).map Lookup.chalBody ∧
    ∀ c ∈ chals ls, c.1 < 4294967296 ∧ c.2.length = 44

/-- What the zone files are answered with for one client and query name (as sent). -/
def world (site : Site) (chals : List Bytes → List (Nat × Bytes)) (qraw : List Bytes) (t : Txn) : World :=
  { resolve := site.resolve t, chals := chals, follow := fun z => site.noChain = false ∧ z <:+ qraw }

theorem around {cfg : Load.Cfg} {site : Site} {chals : List Bytes → List (Nat × Bytes)} (hs : SiteOk cfg site chals)
    (hn : cfg.nsidLen ≤ 128) {qraw : List Bytes} {t : Txn} (ht : t.lqname = encode (lowerName qraw) true) :
    Around cfg qraw (site.env t) (world site chals qraw t) :=
  ⟨ht, hs.draws, rfl, hs.chals, fun _ => Iff.rfl, hs.plugins t, hn⟩

theorem fileReply_rcode {cfg : Load.Cfg} {w : World} {zones : Zones} {t k : Nat} {q : List Bytes} {rep : Reply}
    (h : FileReply cfg w zones t k q rep) : rep.rcode < 256 := by
  have hf : ∀ zone l q src, (finalIn cfg w t k zone l q src).rcode < 256 := by
    intro zone l q src
    have hi : ∀ (P : Prop) [Decidable P] (a b : Reply), a.rcode < 256 → b.rcode < 256 → (if P then a else b).rcode < 256 := by
      intro P _ a b ha hb
      split <;> assumption
    refine hi _ _ _ (by simp) (hi _ _ _ (by simp) ?_)
    show (if _ then 0 else 3) < 256
    split <;> simp
  induction h with
  | refused => simp
  | referral => simp
  | missing => exact hf ..
  | data => exact hf ..
  | chain _ _ _ _ _ ih => exact ih

theorem noChal {w : World} (h : ∀ ls, w.chals ls = []) (e : List Bytes) : chalRecs w e = [] := by
  unfold chalRecs
  cases e with
  | nil => rfl
  | cons a r => simp [h]

/-- What decoding an answerable request yields. -/
theorem decoded_query {g : Packet.Cfg} {c : Ctx} {s : DsoState} {p : Bytes}
    (hv : verdict (envOf g { c with dsoEstab := s.estab }) p = .answer) {qraw : List Bytes} {ty cl : Nat} {rest : Bytes}
    (hn : U16At p 4 1) (hq : FirstQuestion (p.drop 12) qraw ty cl rest) :
    ∃ t off, decodeQuery g { c with dsoEstab := s.estab } p (initTxn c) = .ok (.ok, t, off) ∧
      Decoded g { c with dsoEstab := s.estab } p .ok t off ∧ rd16 p 4 = .ok 1 ∧ 12 ≤ p.length ∧
      t.lqname = encode (lowerName qraw) true ∧ t.qtype = ty ∧ t.qclass = cl ∧ t.qdcount = 1 ∧
      off = 12 + wireLen qraw + 4 ∧ off ≤ p.length ∧ (ty < 128 ∨ 256 ≤ ty ∨ ty = 255) := by
  obtain ⟨rc, t, off, hdec, hrc, hd⟩ := decodeQuery_eq g { c with dsoEstab := s.estab } p
  rw [hv] at hrc
  have hrc : rc = .ok := hrc
  subst hrc
  have h1 : rd16 p 4 = .ok 1 := by
    obtain ⟨a, b, ha, hb, hab⟩ := hn
    simp only [rd16, rd, ha, hb, Outcome.bind_ok, ← hab]
  have hqd : t.qdcount = 1 := by
    rcases hd.answer rfl with ⟨-, h⟩ | ⟨h, -⟩
    · exact h
    · rw [h1] at h; simp at h
  obtain ⟨t1, hs, ht⟩ := hd.steps
  have keep : t.qtype = t1.qtype ∧ t.qclass = t1.qclass ∧ t.qdcount = t1.qdcount ∧ t.lqname = t1.lqname := by
    rcases ht with ⟨rfl, -⟩ | ⟨rc0, ht, -⟩
    · exact ⟨rfl, rfl, rfl, rfl⟩
    · exact OptEffect_keep ht
  rcases hs with ⟨rfl, -⟩ | ⟨ls, ty', cl', hf, hoff, hle, -, rfl⟩
  · rw [hqd] at keep; exact absurd keep.2.2.1 (by simp [initTxn])
  · obtain ⟨rfl, rfl, rfl, -⟩ := FirstQuestion_unique hq hf
    refine ⟨t, off, hdec, hd, h1, hd.length (by simp), keep.2.2.2, keep.1, keep.2.1, hqd, hoff, hle, ?_⟩
    have hty : t.qtype = ty := keep.1
    unfold decodeQuery at hdec
    split at hdec
    · simp at hdec
    cases r2 : rd p 2 with
    | ub => rw [r2] at hdec; cases hdec
    | ok f =>
      rw [r2, Outcome.bind_ok] at hdec
      split at hdec
      · simp at hdec
      cases hr : parseQueryRrs g { c with dsoEstab := s.estab } p (initTxn { c with dsoEstab := s.estab }) with
      | ub => rw [hr] at hdec; cases hdec
      | ok r =>
        rw [hr, Outcome.bind_ok] at hdec
        split at hdec
        · next hne => cases hdec; exact absurd rfl hne
        simp only [h1, Outcome.bind_ok] at hdec
        split at hdec
        · split at hdec
          · simp at hdec
          · split at hdec
            · simp at hdec
            · next hno =>
              simp only [Outcome.ok.injEq, Prod.mk.injEq, true_and] at hdec
              rw [hdec] at hno
              simp only at hno
              omega
        · split at hdec <;> simp at hdec

theorem bits (f1 : UInt8) (tc aa : Bool) : 128 ≤ (flags1Of f1 tc aa).toNat ∧ (flags1Of f1 tc aa).toNat / 4 % 2 = aa.toNat ∧
    (flags1Of f1 tc aa).toNat / 2 % 2 = tc.toNat := by
  have : ∀ x : BitVec 8, ∀ tc aa, 128 ≤ (flags1Of ⟨x⟩ tc aa).toNat ∧ (flags1Of ⟨x⟩ tc aa).toNat / 4 % 2 = aa.toNat ∧
    (flags1Of ⟨x⟩ tc aa).toNat / 2 % 2 = tc.toNat := by decide +kernel
  exact this f1.toBitVec tc aa

/-- Reading the header of a reply. -/
theorem header {id0 id1 f1 : UInt8} {tc aa : Bool} {rc : UInt8} {qd an ns ar : Nat} {x : Bytes}
    (hqd : qd < 65536) (han : an < 65536) (hns : ns < 65536) (har : ar < 65536) :
    HeaderAt ([id0, id1, flags1Of f1 tc aa, rc] ++ put16 qd ++ put16 an ++ put16 ns ++ put16 ar ++ x) [id0, id1] aa tc rc.toNat qd an ns ar := by
  obtain ⟨b1, b2, b3⟩ := bits f1 tc aa
  exact ⟨⟨rfl, rfl⟩, ⟨_, _, rfl, rfl, b1, b2, b3, rfl⟩, U16At_put hqd rfl rfl, U16At_put han rfl rfl, U16At_put hns rfl rfl, U16At_put har rfl rfl⟩

theorem ednsMax_room {cfg : Load.Cfg} {g : Packet.Cfg} (h : SameSettings cfg g) : ednsRoom cfg = ednsMax g := by
  unfold ednsRoom ednsMax
  rw [h.ecs, h.cookies, h.nsid]

/-- C65. A server with loaded zone files replies to a query with a message that says what the
zone files say: its header has the identification of the request and the right bits and
counts, the question is repeated, and the sections are those of the one reply that the records
of the zone files make for the query. Over UDP, if all this does not fit into the limit, the
message is marked as truncated and has no records. `opt` is the OPT record at the end: there is
one exactly if the request has one, with the options that answer those of the request.

`t` is the request as decoded; the plugins' results and the limit depend on it. Missing:
requests for which C11 is false, numbers of RFC 3597 records of more than 16 bits (C64_false),
and large sets of challenges over TCP (C66). -/
theorem C65_reply_partial {cfg : Load.Cfg} {threads : Nat} {files : List File} {root : Tree.Node} (h : Accepted cfg threads files root)
    {g : Packet.Cfg} {c : Ctx} (hset : SameSettings cfg g) (hs : Sane g c) {site : Site} {chals : List Bytes → List (Nat × Bytes)}
    (hsite : SiteOk cfg site chals) (hroot : ∀ i, site.root i = root) {s : DsoState} {p : Bytes} (hp : p.length ≤ 1024)
    (hrep : NoRepeat g p) (hv : verdict (envOf g { c with dsoEstab := s.estab }) p = .answer) {qraw : List Bytes} {ty cl : Nat}
    {rest : Bytes} (hn : U16At p 4 1) (hq : FirstQuestion (p.drop 12) qraw ty cl rest) (hcl : cl = 1 ∨ cl = 255)
    (hroom : ty = 16 → (∀ ls, chals ls = []) ∨ (c.isUdp = true ∧ c.udpEdnsMax + ednsMax g ≤ 16376)) (fuel : Nat) (hf : 16 < fuel) :
    ∃ t off k rep out opt n, decodeQuery g { c with dsoEstab := s.estab } p (initTxn c) = .ok (.ok, t, off) ∧
      FileReply cfg (world site chals qraw t) (zonesOf files) ty k (lowerName qraw) rep ∧
      (∀ rep', FileReply cfg (world site chals qraw t) (zonesOf files) ty k (lowerName qraw) rep' → rep = rep') ∧
      process g c site fuel s p = .ok (some out, s) ∧ out.length ≤ 16382 ∧
      (out.drop 12).take (wireLen qraw + 4) = (p.drop 12).take (wireLen qraw + 4) ∧
      opt <:+ out ∧
      ((n = 0 ∧ opt = [] ∧ ∀ ver dobit size rdata, ¬ HasOpt p ver dobit size rdata) ∨
       (n = 1 ∧ ∃ dobit size rdata l1 l2 opts npad, HasOpt p 0 dobit size rdata ∧
          opt = [0, 0, 41, 4, 0, 0, 0, if dobit then 128 else 0, 0, l1, l2] ++ opts ∧ opts.length = PacketSpec.be16 l1 l2 ∧
          optList opts = answerOpts g { c with dsoEstab := s.estab } (optList rdata) rep.scope npad ∧ npad < 468)) ∧
      ((HeaderAt out (p.take 2) rep.aa false rep.rcode 1 rep.answer.length rep.authority.length (rep.additional.length + n) ∧
          SectionsAt out (12 + (wireLen qraw + 4)) rep (out.length - opt.length) ∧
          (c.isUdp = true → ∃ lim, UdpLimit c.udpEdnsMax g.max_nocookie_response p lim ∧ out.length ≤ lim)) ∨
       (c.isUdp = true ∧ HeaderAt out (p.take 2) rep.aa true 0 1 0 0 n ∧ out.length = 12 + (wireLen qraw + 4) + opt.length ∧
          ∃ lim full, UdpLimit c.udpEdnsMax g.max_nocookie_response p lim ∧ SectionsAt full (12 + (wireLen qraw + 4)) rep full.length ∧
            lim < full.length + opt.length)) := by
  obtain ⟨t, off, hdec, hd, h1, h12, hlq, hty, hcl', hqd, hoff, hle, hrange⟩ := decoded_query hv hn hq
  have hw : WF qraw := hq.1
  have hnsid : cfg.nsidLen ≤ 128 := by rw [hset.nsid]; exact hs.nsid
  have ha := around hsite hnsid hlq
  -- the packet up to the end of the question
  obtain ⟨-, t1, t2, c1, c2, hbody, -, -⟩ := hq
  have hpkt : p.take off = Lookup.asked (p.take 12) qraw [t1, t2, c1, c2] := by
    have hl : (wireLabels qraw ++ [0] ++ [t1, t2, c1, c2]).length = wireLen qraw + 4 := by
      have := wireLabels_length qraw
      have := wireLen_pos qraw
      simp only [List.length_append, List.length_cons, List.length_nil]; omega
    have e : p = p.take 12 ++ ((wireLabels qraw ++ [0] ++ [t1, t2, c1, c2]) ++ rest) := by
      have e0 : wireLabels qraw ++ [0] ++ [t1, t2, c1, c2] ++ rest = p.drop 12 := by rw [hbody]; simp
      rw [e0, List.take_append_drop]
    have hl12 : (p.take 12).length = 12 := by simp; omega
    unfold Lookup.asked
    conv => lhs; rw [e]
    rw [List.take_append, List.take_of_length_le (by omega), hl12, hoff, show 12 + wireLen qraw + 4 - 12 = wireLen qraw + 4 by omega, ← hl,
      List.take_left]
    simp
  have hlh : (p.take 12).length = 12 := by simp; omega
  obtain ⟨k, rep, hF, hU, st, an, ns, ar, hst, hpre, hrecs, pan, pns, par, can, cns, car, crc, caa, csc, -, -⟩ :=
    C64_reply_partial h ha hw (p.take 12) [t1, t2, c1, c2] hlh rfl ty hrange fuel hf
  -- sizes
  have hsize : st.out.length + ednsMax g ≤ 16376 := by
    obtain ⟨cs, e, v, hc, hv, hlen, hdb, hfit, st', k', an', ns', ar', hst', -, -, -, -, -, -, -, -, -, -, -, h2, -⟩ :=
      lookup_files h ha hw (p.take 12) [t1, t2, c1, c2] hlh rfl ty hrange fuel hf
    rw [hst] at hst'
    cases hst'
    rw [← ednsMax_room hset]
    rcases h2 with ⟨a, b, hm⟩ | h2
    · rcases hroom a with hno | ⟨hu, hmax⟩
      · exact absurd (noChal hno e) b
      · have h193 := ednsMax_193 hs.nsid
        have htm : t.thisMax ≤ max 512 c.udpEdnsMax := by
          rcases (ednsFacts hd).max hu with h | h | h | ⟨_, _, _, -, h⟩
          · omega
          · cases h
          · cases h
          · simp only at h; omega
        have hm : st.out.length ≤ t.thisMax := hm
        rw [ednsMax_room hset]
        omega
    · omega
  obtain ⟨data, hdata⟩ := hpre
  have hal : (p.take off).length = off := by simp; omega
  have hout : st.out = p.take 12 ++ ((p.drop 12).take (off - 12) ++ data) := by
    rw [← hdata, ← hpkt, ← List.append_assoc]
    congr 1
    conv => lhs; rw [show off = 12 + (off - 12) by omega]
    exact List.take_add
  have hqlen : ((p.drop 12).take (off - 12)).length = off - 12 := by simp; omega
  have hstlen : st.out.length = off + data.length := by
    rw [hout]; simp only [List.length_append, hqlen, hlh]; omega
  obtain ⟨a, hadef⟩ : ∃ a : DbAnswer, a = { data := data, aa := st.aa, rcode := UInt8.ofNat st.rcode, an := st.cn + st.an, ns := st.ns, ar := st.ar, scope := st.scope } := ⟨_, rfl⟩
  have hlook : lookup site fuel (p.take off) t = .ok a := by
    unfold lookup
    have er : site.root = fun _ => root := funext hroot
    have e2 : t.lqname = (site.env t).lq := rfl
    rw [er, e2, hty, hpkt, hst, Outcome.bind_ok, hadef]
    have : st.out.drop (Lookup.asked (p.take 12) qraw [t1, t2, c1, c2]).length = data := by rw [← hdata, List.drop_left]
    rw [this]
  have hfits : FitsAt g (fun _ => a) t := by
    intro _
    have : t.lqname.length = wireLen qraw + 1 := by rw [hlq, encode_length, Lookup.lowerName_wireLen]
    rw [this, hadef]
    unfold maxResponseData
    simp only
    omega
  have hx : t.edns.reqEdns = true → t.edns.outBytes = emitLen g { c with dsoEstab := s.estab } t.edns :=
    fun hreq => (ednsFacts hd).exact hreq hrep (fun hb => by cases hb)
  obtain ⟨resp, opt, out, hproc, hP⟩ := processQuery_eq hp hs (fun _ _ _ => hfits) hdec hd (by simp) (by simp) hx
  obtain ⟨id0, id1, f1, r0, r1, r2, hmsg⟩ := hP.out
  have htake : p.take 2 = [id0, id1] := by
    match p, h12 with
    | x :: y :: p', _ => simp [rd] at r0 r1; simp [r0, r1]
    | [x], h => simp at h
    | [], h => simp at h
  have hrun : process g c site fuel s p = .ok (some out, s) := by
    unfold process
    rw [decide_eq_true hp, assert_true, Outcome.bind_ok, hdec, Outcome.bind_ok]
    simp only
    rw [if_pos ⟨trivial, h1, by rw [hcl']; exact hcl⟩, hlook, Outcome.bind_ok, hproc]
  have hcount := RecsAt_count hrecs
  simp only [List.length_append] at hcount
  have hlen65 : st.out.length ≤ 16376 := by omega
  have hn1 : (if t.edns.reqEdns then 1 else 0) ≤ 1 := by split <;> omega
  have hasked : (Lookup.asked (p.take 12) qraw [t1, t2, c1, c2]).length = 12 + (wireLen qraw + 4) := by
    rw [← hpkt, hal]; omega
  rw [hasked] at hrecs
  refine ⟨t, off, k, rep, out, opt, if t.edns.reqEdns then 1 else 0, hdec, hF, hU, hrun, ?_, ?_, ⟨_, hmsg.symm⟩, ?_, ?_⟩
  · have h193 := ednsMax_193 hs.nsid
    have hem := emitLen_le (ednsFacts hd).inv
    have hol := out_length hP
    have hc := hs.chaos
    cases hr : t.edns.reqEdns with
    | false =>
      rw [hP.optNone hr] at hol
      rcases hP.fits with h | h
      · unfold maxResponseData at h; simp at hol; omega
      · simp at hol; omega
    | true =>
      cases hpad : c.tcpPad with
      | true => have := (hP.optPad hr hpad).2; unfold maxResponseBuf at this; omega
      | false =>
        rw [hP.optLen hr hpad] at hol
        rcases hP.fits with h | h
        · unfold maxResponseData at h; omega
        · omega
  · -- the question
    have e : out.drop 12 = resp.body ++ opt := by rw [hmsg]; rfl
    have hb : ∃ y, resp.body = (p.drop 12).take (off - 12) ++ y := by
      cases hP.shape with
      | db => exact ⟨_, rfl⟩
      | trunc => exact ⟨[], by simp⟩
      | chaos => exact ⟨_, rfl⟩
      | empty => exact ⟨[], by simp⟩
    obtain ⟨y, hy⟩ := hb
    rw [e, hy, List.append_assoc, show wireLen qraw + 4 = off - 12 by omega]
    exact List.take_left' hqlen
  · cases hreq : t.edns.reqEdns with
    | false =>
      refine .inl ⟨rfl, hP.optNone hreq, ?_⟩
      obtain ⟨t1, -, hst⟩ := hd.steps
      rcases hst with ⟨-, -, h⟩ | ⟨rc0, hst, -⟩
      · exact h rfl
      · have hreq1 : t.edns.reqEdns = true := OptEffect_req hst
        rw [hreq] at hreq1; simp at hreq1
    | true =>
      obtain ⟨size, rdata, hH, hrel⟩ := decoded_rel hd hreq
      obtain ⟨e1, e2, e3, e4, l1, l2, opts, npad, ho, hl, he1, he2, he3, he4, hol, hnp⟩ :=
        ednsOutput_is (ednsFacts hd).inv hs.cookie hs.nsid (hP.optIs hreq)
      rw [respOpts_eq hrel] at hol
      simp at he1
      subst he1 he2 he3 he4
      have hscope : resp.scope = rep.scope := by
        rw [← csc]
        cases hP.shape with
        | db => rw [hadef]
        | trunc => rw [hadef]
        | chaos _ h3 => rw [hcl'] at h3; omega
        | empty rcode k1 =>
          exfalso
          rcases k1 rfl with k1 | k1
          · rcases hcl with h | h <;> simp [hcl', h] at k1
          · omega
      rw [hscope] at hol
      exact .inr ⟨rfl, _, _, _, _, _, _, _, hH, ho, hl, hol, hnp⟩
  have hlimit : c.isUdp = true → UdpLimit c.udpEdnsMax g.max_nocookie_response p (udpLimit g t) := by
    intro hu
    refine ⟨t.thisMax, ?_, ?_⟩
    · rcases (ednsFacts hd).max hu with h | h | h | h
      · exact .inl h
      · cases h
      · cases h
      · exact .inr h
    · unfold udpLimit
      split
      · rename_i hc; simp at hc; exact .inr ⟨rfl, hc.1.2, hc.2⟩
      · exact .inl rfl
  have hobytes : c.isUdp = true → opt.length = t.edns.outBytes := by
    intro hu
    have hpad : c.tcpPad = false := by
      cases hp : c.tcpPad with
      | false => rfl
      | true => rw [hs.pad hp] at hu; simp at hu
    cases hr : t.edns.reqEdns with
    | false => rw [hP.optNone hr, ((ednsFacts hd).none hr).1]; rfl
    | true => rw [hP.optLen hr hpad, hx hr]
  have hol := out_length hP
  have hrc256 := fileReply_rcode hF
  have htc := hcl'.symm ▸ hcl
  rw [hqd] at hmsg
  cases hP.shape with
  | db _ _ hle2 =>
    left
    rw [hadef] at hmsg hol hle2
    simp only at hmsg hol hle2
    refine ⟨?_, ⟨an, ns, ar, ?_, pan, pns, par⟩, fun hu => ⟨_, hlimit hu, ?_⟩⟩
    · have := header (id0 := id0) (id1 := id1) (f1 := f1) (tc := false) (aa := st.aa) (rc := UInt8.ofNat st.rcode) (qd := 1)
        (an := st.cn + st.an) (ns := st.ns) (ar := st.ar + if t.edns.reqEdns then 1 else 0) (x := (p.drop 12).take (off - 12) ++ data ++ opt)
        (by omega) (by omega) (by omega) (by omega)
      rw [crc, UInt8.toNat_ofNat', Nat.mod_eq_of_lt (by omega), caa, can, cns, car, pan.length_eq, pns.length_eq, par.length_eq] at this
      rw [htake, hmsg, crc, caa, can, cns, car, pan.length_eq, pns.length_eq, par.length_eq]
      rw [List.append_assoc _ _ opt]
      exact this
    · rw [hout] at hrecs
      have := RecsAt_over (h' := [id0, id1, flags1Of f1 false st.aa, UInt8.ofNat st.rcode] ++ put16 1 ++ put16 (st.cn + st.an) ++ put16 st.ns ++
        put16 (st.ar + if t.edns.reqEdns then 1 else 0)) (y := opt) hlh rfl hrecs (by omega)
      rw [hol]
      rw [hmsg]
      rw [← hout, hstlen] at this
      simp only [List.length_append, hqlen]
      rw [show 12 + (off - 12 + data.length) + opt.length - opt.length = off + data.length by omega]
      exact this
    · have := hle2 hu
      have := hobytes hu
      omega
  | trunc _ _ hu hgt =>
    right
    rw [hadef] at hmsg hol hgt
    simp only at hmsg hol hgt
    refine ⟨hu, ?_, by rw [hol, hqlen]; omega, _, st.out, hlimit hu, ⟨an, ns, ar, hrecs, pan, pns, par⟩, ?_⟩
    · have := header (id0 := id0) (id1 := id1) (f1 := f1) (tc := true) (aa := st.aa) (rc := 0) (qd := 1)
        (an := 0) (ns := 0) (ar := 0 + if t.edns.reqEdns then 1 else 0) (x := (p.drop 12).take (off - 12) ++ opt)
        (by omega) (by omega) (by omega) (by omega)
      rw [caa] at this
      rw [htake, hmsg, caa]
      rw [List.append_assoc _ _ opt]
      simpa using this
    · have := hobytes hu
      simp only [List.length_append, hqlen] at hgt
      omega
  | chaos _ h3 => rw [hcl'] at h3; omega
  | empty rcode k1 =>
    exfalso
    rcases k1 rfl with k1 | k1
    · rcases hcl with h | h <;> simp [hcl', h] at k1
    · omega

namespace Ex

/-- A request for the addresses of `A.z.`, without OPT record. -/
def req : Bytes := [0x12, 0x34, 1, 0, 0, 1, 0, 0, 0, 0, 0, 0] ++ [1, 65, 1, 122, 0, 0, 1, 0, 1]

def g : Packet.Cfg := { exCfg with nsid := [1, 2, 3, 4] }

def site (root : Tree.Node) : Site :=
  { root := fun _ => root, draws := fun _ _ => 0, resolve := fun _ _ => Lookup.Ex.dyn, noChain := false, chals := fun _ => [] }

theorem siteOk (root : Tree.Node) : SiteOk Load.Ex.cfg (site root) (fun _ => []) := by
  refine ⟨fun k i => ?_, fun t => ?_, fun ls _ => ⟨rfl, nofun⟩⟩
  · show (0 : UInt32).toNat ≤ i
    exact Nat.zero_le _
  · constructor
    · intro rhs res h
      exact ⟨(by unfold DynOk; decide : DynOk Lookup.Ex.dyn), (by decide : Lookup.Ex.dyn.v4.length * 16 ≤ Load.Ex.cfg.dynaMax),
        (by decide : Lookup.Ex.dyn.v6.length * 28 ≤ Load.Ex.cfg.dynaMax)⟩
    · intro rhs o res h
      exact ⟨(by decide : Mon.Valid Lookup.Ex.dyn.sttl), nofun, (by decide : ∀ a ∈ Lookup.Ex.dyn.v4, a.length = 4),
        (by decide : ∀ a ∈ Lookup.Ex.dyn.v6, a.length = 16), (by decide : Lookup.Ex.dyn.v4.length ≤ 360),
        (by decide : Lookup.Ex.dyn.v6.length ≤ 360)⟩

theorem noOpt : ∀ ver dobit size rdata, ¬ HasOpt req ver dobit size rdata := by
  intro ver dobit size rdata ⟨x0, x1, f1, f2, q1, q2, a1, a2, n1, n2, r1, r2, body, ty, b, rest, hp, hq, hr, hin⟩
  simp only [req, List.cons_append, List.nil_append, List.cons.injEq] at hp
  obtain ⟨rfl, rfl, rfl, rfl, rfl, rfl, rfl, rfl, rfl, rfl, rfl, rfl, rfl⟩ := hp
  obtain ⟨k, s1, s2, x, f1, f2, h, l, post, hk, -⟩ := hin
  have : be16 (0 : UInt8) 0 = 0 := rfl
  omega

theorem answered : verdict (envOf g exUdp) req = .answer := by
  obtain ⟨rc, t, off, hdec, hrc, -⟩ := decodeQuery_eq g exUdp req
  have : (decodeQuery g exUdp req (initTxn exUdp)).map (·.1) = .ok .ok := by decide +kernel
  rw [hdec] at this
  have hrc' : rc = .ok := Outcome.ok.inj this
  rw [hrc'] at hrc
  revert hrc
  cases verdict (envOf g exUdp) req <;> intro h <;> first | rfl | cases h

theorem question : FirstQuestion (req.drop 12) [[65], [122]] 1 1 [] := ⟨by decide, 0, 1, 0, 1, rfl, rfl, rfl⟩

/-- The hypotheses hold of the request for `A.z.` and the zone files `z` and `y`, whatever
else is asked. -/
example : ∃ root, Accepted Load.Ex.cfg 2 [Load.Ex.file, Load.Ex.file2] root ∧
    ∃ out, process g exUdp (site root) 17 ⟨false, false⟩ req = .ok (some out, ⟨false, false⟩) := by
  obtain ⟨root, h⟩ := Load.Ex.accepted
  obtain ⟨_, _, _, _, out, _, _, _, _, _, hout, -⟩ := C65_reply_partial h (g := g) (c := exUdp) (s := ⟨false, false⟩) ⟨rfl, rfl, rfl⟩ ⟨fun _ => rfl, by decide, by decide, by decide, by decide⟩
    (siteOk root) (fun _ => rfl) (by decide : req.length ≤ 1024) (fun _ _ _ hh => absurd hh (noOpt _ _ _ _)) answered ⟨0, 1, rfl, rfl, rfl⟩
    question (.inl rfl) (fun h => by cases h) 17 (by decide)
  exact ⟨root, h, out, hout⟩

end Ex

/-! ### C66: challenges and the reply buffer -/

/-- C66. However many challenges there are for a name, answering a query is safe and the reply
fits into the buffer of 16382 bytes. Missing: TCP, where it is false (C66_false), limits for UDP
close to the size of the buffer, and requests for which C11 is false. -/
theorem C66_fits_partial {cfg : Load.Cfg} {threads : Nat} {files : List File} {root : Tree.Node} (h : Accepted cfg threads files root)
    {g : Packet.Cfg} {c : Ctx} (hset : SameSettings cfg g) (hs : Sane g c) {site : Site} {chals : List Bytes → List (Nat × Bytes)}
    (hsite : SiteOk cfg site chals) (hroot : ∀ i, site.root i = root) {s : DsoState} {p : Bytes} (hp : p.length ≤ 1024)
    (hrep : NoRepeat g p) (hv : verdict (envOf g { c with dsoEstab := s.estab }) p = .answer) {qraw : List Bytes} {ty cl : Nat}
    {rest : Bytes} (hn : U16At p 4 1) (hq : FirstQuestion (p.drop 12) qraw ty cl rest) (hcl : cl = 1 ∨ cl = 255)
    (hudp : c.isUdp = true) (hmax : c.udpEdnsMax + ednsMax g ≤ 16376) (fuel : Nat) (hf : 16 < fuel) :
    ∃ out, process g c site fuel s p = .ok (some out, s) ∧ out.length ≤ 16382 := by
  obtain ⟨t, off, k, rep, out, opt, n, -, -, -, hout, hlen, -⟩ :=
    C65_reply_partial h hset hs hsite hroot hp hrep hv hn hq hcl (fun _ => .inr ⟨hudp, hmax⟩) fuel hf
  exact ⟨out, hout, hlen⟩

namespace Ex

/-- A zone `z.` with 16000 bytes of text at `_acme-challenge.z.`. -/
def bigFile : File := ⟨[122], some [Load.Ex.soa, Load.Ex.ns, ⟨Load.Ex.nm [Lookup.acmeLabel], 60, .txt (List.replicate 16000 0)⟩]⟩

def bigCfg : Load.Cfg := { Load.Ex.cfg with nsidLen := 128 }
def bigG : Packet.Cfg := { exCfg with nsid := List.replicate 128 110 }

/-- A request for the text of `_acme-challenge.z.` with the NSID option. -/
def bigReq : Bytes := [0x12, 0x34, 1, 0, 0, 1, 0, 0, 0, 0, 0, 1] ++ ([15] ++ Lookup.acmeLabel ++ [1, 122, 0, 0, 16, 0, 1]) ++
  [0, 0, 41, 16, 0, 0, 0, 0, 0, 0, 4, 0, 3, 0, 0]

def bigChals (_ : List Bytes) : List (Nat × Bytes) := List.replicate 5 (600, List.replicate 44 0)

def bigSite (root : Tree.Node) : Site := { site root with chals := fun _ => (bigChals []).map Lookup.chalBody }

/-- Whether the request makes a server with these settings overflow. -/
def overflows (site : Tree.Node → Site) : Bool := match loadZones bigCfg 2 [bigFile] with
  | .ok (some root) => match process bigG exTcp (site root) 17 ⟨false, false⟩ bigReq with
    | .ub => true
    | _ => false
  | _ => false

theorem overflows_true : overflows bigSite = true := by decide +kernel

/-- Without the challenges the request is answered. -/
example : overflows (fun root => site root) = false := by decide +kernel

theorem bigScanned : Scanned bigFile := by
  intro zone l hz hl r hr
  cases Load.Ex.only Load.Ex.name1 hz
  cases hl
  simp only [List.mem_cons, List.not_mem_nil, or_false] at hr
  rcases hr with rfl | rfl | rfl
  · exact Load.Ex.soaOk _ (by decide)
  · exact Load.Ex.nsOk _ (by decide)
  · exact ⟨[Lookup.acmeLabel], rfl, trivial, (by decide : WF [Lookup.acmeLabel, [122]])⟩

theorem bigSiteOk (root : Tree.Node) : SiteOk bigCfg (bigSite root) bigChals := by
  obtain ⟨h1, h2, -⟩ := siteOk root
  refine ⟨h1, fun t => ⟨(h2 t).1, (h2 t).2⟩, fun ls _ => ⟨rfl, ?_⟩⟩
  intro c hc
  rw [List.eq_of_mem_replicate hc]
  decide

theorem bigNoRepeat : NoRepeat bigG bigReq := by
  intro dobit size rdata ⟨x0, x1, f1, f2, q1, q2, a1, a2, n1, n2, r1, r2, body, ty, b, rest, hp, hq, hr, hin⟩
  simp only [bigReq, List.cons_append, List.nil_append, List.cons.injEq] at hp
  obtain ⟨rfl, rfl, rfl, rfl, rfl, rfl, rfl, rfl, rfl, rfl, rfl, rfl, rfl⟩ := hp
  have hq1 : Questions 1 (15 :: (Lookup.acmeLabel ++ [1, 122, 0, 0, 16, 0, 1] ++ [0, 0, 41, 16, 0, 0, 0, 0, 0, 0, 4, 0, 3, 0, 0])) 16
      [0, 0, 41, 16, 0, 0, 0, 0, 0, 0, 4, 0, 3, 0, 0] :=
    .some (n := 0) (ls := [Lookup.acmeLabel, [122]]) (cl := 1) ⟨by decide, 0, 16, 0, 1, rfl, rfl, rfl⟩ rfl
  obtain ⟨-, rfl⟩ := Questions_unique hq hq1
  simp only [show be16 0 0 = 0 from rfl, repeatN, Option.bind_some, Option.some.injEq] at hr
  subst hr
  obtain ⟨k, s1, s2, x, f1, f2, h, l, post, hk, hb, hlen, -⟩ := hin
  have hk0 : k = 0 := by
    have : be16 (0 : UInt8) 1 = 1 := rfl
    omega
  subst hk0
  simp only [repeatN, Option.some.injEq, List.cons_append, List.nil_append, List.cons.injEq] at hb
  obtain ⟨-, -, -, -, -, -, -, -, -, rfl, rfl, hb⟩ := hb
  have hl : rdata.length = 4 := hlen
  have : rdata = [0, 3, 0, 0] := by
    have := congrArg (List.take 4) hb
    rw [← hl, List.take_left] at this
    rw [← this, hl]; rfl
  subst this
  rw [optList_cons, if_neg (by decide)]
  have e : ∀ x : Bytes, optList (x.drop (PacketSpec.be16 0 0)) = optList x := fun x => rfl
  rw [e, optList_nil]
  exact ⟨fun _ => by decide, fun _ => by decide⟩

theorem bigAnswered : verdict (envOf bigG exTcp) bigReq = .answer := by
  obtain ⟨rc, t, off, hdec, hrc, -⟩ := decodeQuery_eq bigG exTcp bigReq
  have : (decodeQuery bigG exTcp bigReq (initTxn exTcp)).map (·.1) = .ok .ok := by decide +kernel
  rw [hdec] at this
  have hrc' : rc = .ok := Outcome.ok.inj this
  rw [hrc'] at hrc
  revert hrc
  cases verdict (envOf bigG exTcp) bigReq <;> intro h <;> first | rfl | cases h

end Ex

/-- C66 is false for TCP: the zone `z.` loads, its largest reply fits with room for all EDNS
options, and five challenges (of 54 bytes and a name each) for `_acme-challenge.z.` make the
reply to a request with the NSID option exceed the buffer, because `chal_respond` leaves no room
for the OPT record (src/chal.c:487-493) and there is no truncation over TCP
(src/dnspacket.c:1893-1914). -/
theorem C66_false : ∃ (cfg : Load.Cfg) (files : List File) (root : Tree.Node) (g : Packet.Cfg) (c : Ctx) (site : Site)
    (chals : List Bytes → List (Nat × Bytes)) (p : Bytes),
    Accepted cfg 2 files root ∧ SameSettings cfg g ∧ Sane g c ∧ SiteOk cfg site chals ∧ (∀ i, site.root i = root) ∧
    (∀ ls, (chals ls).length = 5) ∧ p.length = 50 ∧ NoRepeat g p ∧ verdict (envOf g c) p = .answer ∧ c.isUdp = false ∧
    process g c site 17 ⟨false, false⟩ p = .ub := by
  have h := Ex.overflows_true
  unfold Ex.overflows at h
  split at h
  · next root hl =>
    split at h
    · next hub =>
      exact ⟨Ex.bigCfg, [Ex.bigFile], root, Ex.bigG, exTcp, Ex.bigSite root, Ex.bigChals, Ex.bigReq,
        ⟨by decide, by decide, fun f hf => by cases List.mem_singleton.mp hf; exact Ex.bigScanned, hl⟩, ⟨rfl, rfl, rfl⟩,
        ⟨fun _ => rfl, by decide +kernel, by decide +kernel, by decide +kernel, by decide +kernel⟩, Ex.bigSiteOk root, fun _ => rfl, fun _ => rfl, rfl, Ex.bigNoRepeat,
        Ex.bigAnswered, rfl, hub⟩
    · cases h
  · cases h

end Gdnsd.Server
