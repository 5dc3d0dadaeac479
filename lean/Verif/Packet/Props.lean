import Verif.Packet.DecodeLemmas
/-
Property theorems about request decoding: C06, C07, C08, C09.

`decodeQuery g c p (initTxn c)` is `decode_query` on the received bytes `p` under
configuration `g` and connection context `c`, from the zeroed transaction.
-/
namespace Gdnsd.Packet
open PacketSpec DnameSpec

/-! ### C06: decoding stays inside the packet -/

/-- C06. For every packet, configuration and connection, decoding has no undefined
behaviour: no read outside the received bytes, no write outside `lqname[256]` or the
address buffers, no failed assertion. -/
theorem C06_decode_defined (g : Cfg) (c : Ctx) (p : Bytes) :
    ∃ rc t off, decodeQuery g c p (initTxn c) = .ok (rc, t, off) := by
  obtain ⟨rc, t, off, h, -⟩ := decodeQuery_eq g c p
  exact ⟨rc, t, off, h⟩

/-- C06. The reported end of the question lies inside the packet (when not dropped). -/
theorem C06_offset_inside (g : Cfg) (c : Ctx) (p : Bytes) (rc : Rc) (t : Txn) (off : Nat)
    (h : decodeQuery g c p (initTxn c) = .ok (rc, t, off)) (hrc : rc ≠ .ignore) :
    12 ≤ off ∧ off ≤ p.length ∧ off ≤ 271 := by
  obtain ⟨rc', t', off', h', -, hd⟩ := decodeQuery_eq g c p
  rw [h] at h'
  simp only [Outcome.ok.injEq, Prod.mk.injEq] at h'
  obtain ⟨rfl, rfl, rfl⟩ := h'
  have hl := hd.length hrc
  obtain ⟨t1, hq, -⟩ := hd.steps
  rcases hq with ⟨-, rfl, -⟩ | ⟨ls, ty, cl, hf, h1, h2, -⟩
  · exact ⟨Nat.le_refl _, hl, by omega⟩
  · have := hf.1.2
    exact ⟨by omega, h2, by omega⟩

/-- Example request used below: ID 0x1234, RD, one question `Ab.` type A class IN, and an
OPT record with an ECS option 10.0.0.0/8. -/
def exReq : Bytes :=
  [0x12, 0x34, 1, 0, 0, 1, 0, 0, 0, 0, 0, 1] ++ [2, 65, 98, 0, 0, 1, 0, 1] ++
  [0, 0, 41, 16, 0, 0, 0, 0, 0, 0, 9, 0, 8, 0, 5, 0, 1, 8, 0, 10]

def exCfg : Cfg :=
  { edns_client_subnet := true, disable_cookies := false, disable_tcp_dso := false, nsid := [110, 115],
    chaos := [], max_nocookie_response := 0 }

def exUdp : Ctx :=
  { isUdp := true, tcpPad := false, udpEdnsMax := 1232, ednsTcpKeepalive := 0, dsoInactivity := 0,
    dsoEstab := false, cookieFn := fun _ => (false, List.replicate 16 0) }

def exTcp : Ctx := { exUdp with isUdp := false, ednsTcpKeepalive := 370, dsoInactivity := 37000 }

deriving instance DecidableEq for Except

/-- The example is accepted, with the question read as `ab.`, type 1, class 1. -/
example : (decodeQuery exCfg exUdp exReq (initTxn exUdp)).map
    (fun r => (r.1, r.2.1.lqname, r.2.1.qtype, r.2.1.qclass, r.2.2)) =
    .ok (.ok, [4, 2, 97, 98, 0], 1, 1, 20) := by decide +kernel

/-! ### C07: the question decoded is the question sent -/

/-- C07. When a request with one question is accepted, the bytes after the header are a
legal uncompressed name, a type and a class, and exactly those are what the server
uses (the name lower-cased). -/
theorem C07_question (g : Cfg) (c : Ctx) (p : Bytes) (t : Txn) (off : Nat)
    (h : decodeQuery g c p (initTxn c) = .ok (.ok, t, off)) (hq : rd16 p 4 ≠ .ok 0) :
    ∃ ls rest, FirstQuestion (p.drop 12) ls t.qtype t.qclass rest ∧
      t.lqname = encode (ls.map (·.map lower)) true ∧ rest = p.drop off := by
  obtain ⟨rc', t', off', h', -, hd⟩ := decodeQuery_eq g c p
  rw [h] at h'
  simp only [Outcome.ok.injEq, Prod.mk.injEq] at h'
  obtain ⟨rfl, rfl, rfl⟩ := h'
  have ha := hd.answer rfl
  rcases ha with ⟨-, ha⟩ | ⟨ha, -⟩
  · obtain ⟨t1, hs, ht⟩ := hd.steps
    have keep : t.qtype = t1.qtype ∧ t.qclass = t1.qclass ∧ t.qdcount = t1.qdcount ∧ t.lqname = t1.lqname := by
      rcases ht with ⟨rfl, -⟩ | ⟨rc0, ht, -⟩
      · exact ⟨rfl, rfl, rfl, rfl⟩
      · exact OptEffect_keep ht
    rcases hs with ⟨rfl, -⟩ | ⟨ls, ty, cl, hf, -, -, -, rfl⟩
    · rw [ha] at keep; exact absurd keep.2.2.1 (by simp [initTxn])
    · exact ⟨ls, _, by rw [keep.1, keep.2.1]; exact hf, keep.2.2.2, rfl⟩
  · exact absurd ha hq

/-- C07. Conversely a legal question is always read, as itself. -/
theorem C07_question_read (p : Bytes) (t : Txn) (ls : List Bytes) (ty cl : Nat) (rest : Bytes)
    (hp : 12 ≤ p.length) (h : FirstQuestion (p.drop 12) ls ty cl rest) :
    ∃ off, parseFirstQuestion p t 12 =
        .ok (some ({ t with lqname := encode (ls.map (·.map lower)) true, qtype := ty, qclass := cl }, off)) ∧
      p.drop off = rest := by
  rcases parseFirstQuestion_eq p t 12 hp with ⟨ls', ty', cl', o', h1, -, -, -, h2⟩ | ⟨h1, -⟩
  · obtain ⟨rfl, rfl, rfl, rfl⟩ := FirstQuestion_unique h h1
    exact ⟨o', h2, rfl⟩
  · exact absurd h (h1 _ _ _ _)

/-- C07. A request that announces a question but has none that is legal (compressed,
over-long, running off the end, ...) is never answered, whatever follows. -/
theorem C07_malformed_rejected (g : Cfg) (c : Ctx) (p : Bytes) (rc : Rc) (t : Txn) (off n : Nat)
    (h : decodeQuery g c p (initTxn c) = .ok (rc, t, off)) (hq : rd16 p 4 = .ok (n + 1))
    (hbad : ∀ ls ty cl rest, ¬ FirstQuestion (p.drop 12) ls ty cl rest) :
    rc = .formerr ∨ (rc = .ignore ∧ ∃ b, rd p 2 = .ok b ∧ b.toNat ≥ 128) ∨ (rc = .ignore ∧ p.length < 12) := by
  obtain ⟨rc', t', off', h', hv, -⟩ := decodeQuery_eq g c p
  rw [h] at h'
  simp only [Outcome.ok.injEq, Prod.mk.injEq] at h'
  obtain ⟨rfl, rfl, rfl⟩ := h'
  match p, hv, hq, hbad with
  | x0 :: x1 :: f1 :: f2 :: q1 :: q2 :: a1 :: a2 :: n1 :: n2 :: r1 :: r2 :: body, hv, hq, hbad =>
    by_cases hqr : f1.toNat ≥ 128
    · right; left
      refine ⟨?_, f1, rfl, hqr⟩
      rw [hv, verdict, if_pos hqr]; rfl
    · left
      rw [hv, verdict_none _ _ _ _ _ _ _ _ _ _ _ _ _ _ hqr]; rfl
      intro ty r hc
      have : be16 q1 q2 = n + 1 := by
        simpa [rd16_cons_succ] using hq
      rw [this] at hc
      cases hc with
      | some e1 _ => exact hbad _ _ _ _ e1
  | [], hv, _, _ | [_], hv, _, _ | [_, _], hv, _, _ | [_, _, _], hv, _, _ | [_, _, _, _], hv, _, _
  | [_, _, _, _, _], hv, _, _ | [_, _, _, _, _, _], hv, _, _ | [_, _, _, _, _, _, _], hv, _, _
  | [_, _, _, _, _, _, _, _], hv, _, _ | [_, _, _, _, _, _, _, _, _], hv, _, _
  | [_, _, _, _, _, _, _, _, _, _], hv, _, _ | [_, _, _, _, _, _, _, _, _, _, _], hv, _, _ =>
    right; right
    rw [verdict_short _ _ (by simp)] at hv
    exact ⟨hv, by simp⟩

/-- A legal question and an illegal (compressed) one. -/
example : FirstQuestion (exReq.drop 12) [[65, 98]] 1 1 (exReq.drop 20) :=
  ⟨by decide, 0, 1, 0, 1, rfl, rfl, rfl⟩
example : (decodeQuery exCfg exUdp ([0, 1, 1, 0, 0, 1, 0, 0, 0, 0, 0, 0] ++ [192, 12, 0, 1, 0, 1]) (initTxn exUdp)).map
    (fun r => r.1) = .ok .formerr := by decide +kernel

/-! ### C08: disposition of a request -/

/-- C08. For every packet the decoder's decision is the one the protocol specification
`PacketSpec.verdict` prescribes. -/
theorem C08_verdict (g : Cfg) (c : Ctx) (p : Bytes) (rc : Rc) (t : Txn) (off : Nat)
    (h : decodeQuery g c p (initTxn c) = .ok (rc, t, off)) : rc = toRc (verdict (envOf g c) p) := by
  obtain ⟨rc', t', off', h', hv, -⟩ := decodeQuery_eq g c p
  rw [h] at h'
  simp only [Outcome.ok.injEq, Prod.mk.injEq] at h'
  rw [h'.1]; exact hv

/-- C08. Outside an established DSO session a packet is dropped exactly when it is
shorter than a header or is itself a response. -/
theorem C08_dropped (g : Cfg) (c : Ctx) (p : Bytes) (rc : Rc) (t : Txn) (off : Nat)
    (h : decodeQuery g c p (initTxn c) = .ok (rc, t, off)) (hd : c.isUdp = true ∨ c.dsoEstab = false) :
    rc = .ignore ↔ (p.length < 12 ∨ ∃ b, p[2]? = some b ∧ 128 ≤ b.toNat) := by
  have hin : (envOf g c).inDso = false := by rcases hd with h | h <;> simp [envOf, h]
  rw [C08_verdict g c p rc t off h]
  have hto : ∀ v, toRc v = .ignore ↔ v = .drop := by intro v; cases v <;> simp [toRc]
  rw [hto]
  match p with
  | x0 :: x1 :: f1 :: f2 :: q1 :: q2 :: a1 :: a2 :: n1 :: n2 :: r1 :: r2 :: body =>
    by_cases hqr : f1.toNat ≥ 128
    · constructor
      · intro _; right; exact ⟨f1, rfl, hqr⟩
      · intro _; rw [verdict, if_pos hqr]
    · constructor
      · intro hv
        exfalso
        by_cases hq : ∃ ty r, Questions (be16 q1 q2) body ty r
        · obtain ⟨ty, r, hq⟩ := hq
          rw [verdict_some _ _ _ _ _ _ _ _ _ _ _ _ _ _ hqr hq] at hv
          split at hv
          · simp at hv
          · split at hv
            · rename_i v k heq
              exact additional_no_drop hin _ heq hv
            · unfold opVerdict at hv
              repeat' split at hv
              all_goals simp at hv
        · rw [verdict_none _ _ _ _ _ _ _ _ _ _ _ _ _ _ hqr (fun ty r hc => hq ⟨ty, r, hc⟩)] at hv
          simp at hv
      · rintro (hs | ⟨b, hb, hb2⟩)
        · simp at hs; omega
        · simp at hb; subst hb; exact absurd hb2 hqr
  | [] | [_] | [_, _] | [_, _, _] | [_, _, _, _] | [_, _, _, _, _] | [_, _, _, _, _, _] | [_, _, _, _, _, _, _]
  | [_, _, _, _, _, _, _, _] | [_, _, _, _, _, _, _, _, _] | [_, _, _, _, _, _, _, _, _, _]
  | [_, _, _, _, _, _, _, _, _, _, _] =>
    rw [verdict_short _ _ (by simp)]
    simp

/-- C08. A readable request without additional records: the opcode, the number of
questions and the query type alone decide. -/
theorem C08_plain (g : Cfg) (c : Ctx) (id0 id1 f1 f2 : UInt8) (ls : List Bytes) (t1 t2 c1 c2 : UInt8)
    (hw : WF ls) (hqr : f1.toNat < 128) (rc : Rc) (t : Txn) (off : Nat)
    (h : decodeQuery g c ([id0, id1, f1, f2, 0, 1, 0, 0, 0, 0, 0, 0] ++ wireLabels ls ++ [0, t1, t2, c1, c2])
      (initTxn c) = .ok (rc, t, off)) :
    rc = if f1.toNat / 8 % 16 = 0 then
           (if 128 ≤ be16 t1 t2 ∧ be16 t1 t2 ≤ 254 then .notimp else .ok)
         else if f1.toNat / 8 % 16 = 6 ∧ g.disable_tcp_dso = false then .dso
         else .notimp := by
  rw [C08_verdict g c _ rc t off h]
  have hq : Questions (be16 0 1) (wireLabels ls ++ [0, t1, t2, c1, c2]) (be16 t1 t2) [] := by
    refine .some (n := 0) ⟨hw, t1, t2, c1, c2, rfl, rfl, rfl⟩ ?_
    exact c2.toNat * 0 |> fun _ => rfl
  have := verdict_some (envOf g c) id0 id1 f1 f2 0 1 0 0 0 0 0 0 (wireLabels ls ++ [0, t1, t2, c1, c2]) (by omega) hq
  simp only [List.cons_append, List.nil_append] at this ⊢
  rw [this]
  simp only [show be16 0 0 = 0 from rfl, show be16 0 1 = 1 from rfl, repeatN, additional, Option.bind_some]
  unfold opVerdict
  simp only [true_or, if_true, envOf, Bool.not_eq_true', toRc]
  repeat' split
  all_goals first | rfl | (exfalso; simp_all)

/-- All verdicts occur. -/
example : (decodeQuery exCfg exUdp exReq (initTxn exUdp)).map (·.1) = .ok .ok := by decide +kernel
example : (decodeQuery exCfg exUdp (exReq.take 11) (initTxn exUdp)).map (·.1) = .ok .ignore := by decide +kernel
example : (decodeQuery exCfg exUdp (exReq.set 2 0x29) (initTxn exUdp)).map (·.1) = .ok .notimp := by decide +kernel
example : (decodeQuery exCfg exUdp (exReq.set 26 7) (initTxn exUdp)).map (·.1) = .ok .badvers := by decide +kernel
example : (decodeQuery exCfg exUdp (exReq.set 37 9) (initTxn exUdp)).map (·.1) = .ok .formerr := by decide +kernel
example : (decodeQuery exCfg exTcp (exReq.set 2 0x30) (initTxn exTcp)).map (·.1) = .ok .dso := by decide +kernel

/-! ### C09: EDNS Client Subnet -/

/-- C09. With client subnet enabled, an option with any content lying in the packet is
accepted exactly when it is legal (RFC 7871); anything else is FORMERR and changes
nothing. Accepted, the reply will carry its family and source prefix. -/
theorem C09_accept_iff (g : Cfg) (c : Ctx) (e : Edns) (p : Bytes) (off n : Nat)
    (hn : off + n ≤ p.length) (h4 : e.addr4.length = 4) (h6 : e.addr6.length = 16)
    (hen : g.edns_client_subnet = true) :
    (∃ f s a e', EcsLegal ((p.drop off).take n) f s a ∧ handleOption g c e p 8 off n = .ok (.ok, e') ∧
      e'.respondClientSubnet = true ∧ e'.clientFamily = f ∧ e'.ednsClientMask = s) ∨
    ((∀ f s a, ¬ EcsLegal ((p.drop off).take n) f s a) ∧ handleOption g c e p 8 off n = .ok (.formerr, e)) := by
  have : handleOption g c e p 8 off n = handleEcs e p off n := by simp [handleOption, hen]
  rw [this]
  rcases handleEcs_eq e p off n hn h4 h6 with ⟨f, s, a, h1, h2⟩ | h
  · exact .inl ⟨f, s, a, _, h1, h2, rfl, rfl, rfl⟩
  · exact .inr h

/-- C09. The address used for the lookup is the one in the option (the first option
in a request): its bytes, zero-extended, and nothing else. -/
theorem C09_address_partial (g : Cfg) (c : Ctx) (e : Edns) (p : Bytes) (off n : Nat)
    (hn : off + n ≤ p.length) (h4 : e.addr4 = List.replicate 4 0) (h6 : e.addr6 = List.replicate 16 0)
    (hen : g.edns_client_subnet = true) (f s : Nat) (a : Bytes)
    (hl : EcsLegal ((p.drop off).take n) f s a) (hs : s ≠ 0) :
    ∃ e', handleOption g c e p 8 off n = .ok (.ok, e') ∧
      ((f = 1 ∧ e'.af = some 4 ∧ e'.addr4 = a ++ List.replicate (4 - a.length) 0) ∨
       (f = 2 ∧ e'.af = some 6 ∧ e'.addr6 = a ++ List.replicate (16 - a.length) 0)) := by
  have : handleOption g c e p 8 off n = handleEcs e p off n := by simp [handleOption, hen]
  rw [this]
  rcases handleEcs_eq e p off n hn (by simp [h4]) (by simp [h6]) with ⟨f', s', a', h1, h2⟩ | ⟨h, -⟩
  · obtain ⟨rfl, rfl, rfl⟩ := EcsLegal_functional hl h1
    refine ⟨_, h2, ?_⟩
    rcases h1.range with ⟨rfl, -⟩ | ⟨rfl, -⟩
    · left; simp [ecsApply, hs, h4, ← List.drop_replicate]
    · right; simp [ecsApply, hs, h6, ← List.drop_replicate]
  · exact absurd hl (h _ _ _)

/-- C09. A request carrying an illegal client-subnet option as its first EDNS option is
answered FORMERR. -/
theorem C09_illegal_formerr (env : Env) (seen : Bool) (l1 l2 : UInt8) (d rest : Bytes) (hen : env.ecs = true)
    (hlen : d.length = be16 l1 l2) (hbad : ∀ f s a, ¬ EcsLegal d f s a) :
    options env seen (0 :: 8 :: l1 :: l2 :: (d ++ rest)) = (some .formerr, seen) := by
  rw [options, if_neg (by simp; omega)]
  have h1 : (d ++ rest).take (be16 l1 l2) = d := by rw [← hlen]; simp
  rw [h1, show be16 0 8 = 8 from rfl, option_8 env seen d hen hbad]

/-- A legal option (10.0.0.0/8) and an illegal one (a bit set beyond the prefix). -/
example : EcsLegal [0, 1, 8, 0, 10] 1 8 [10] :=
  ⟨⟨0, 1, 8, rfl, rfl, rfl⟩, .inl ⟨rfl, by decide⟩, by decide, fun i hi => addrBit_ge (by simpa using hi)⟩
example : ∀ f s a, ¬ EcsLegal [0, 1, 4, 0, 0x18] f s a := by
  intro f s a h
  obtain ⟨f1, f2, s', e1, -, e2⟩ := h.shape
  simp at e1
  obtain ⟨-, -, rfl, rfl⟩ := e1
  have := h.zeros 4 (by rw [e2]; decide)
  revert this; decide

/-- C09 fails for repeated options: after 10.1.2.3/32 a second option 11.0.0.0/8 leaves
11.1.2.3 as the address used, which no option contained. -/
theorem C09_false_repeated :
    ∃ p, (decodeQuery exCfg exUdp p (initTxn exUdp)).map
      (fun r => (r.1, r.2.1.edns.ednsClientMask, r.2.1.edns.addr4)) = .ok (.ok, 8, [11, 1, 2, 3]) :=
  ⟨[0x12, 0x34, 1, 0, 0, 1, 0, 0, 0, 0, 0, 1] ++ [2, 65, 98, 0, 0, 1, 0, 1] ++
    [0, 0, 41, 16, 0, 0, 0, 0, 0, 0, 21, 0, 8, 0, 8, 0, 1, 32, 0, 10, 1, 2, 3, 0, 8, 0, 5, 0, 1, 8, 0, 11],
    by decide +kernel⟩

end Gdnsd.Packet
