import Verif.Packet.Process
/- Proof helpers: DNS Stateful Operations and the inversion of `process_dns_query`. -/
namespace Gdnsd.Packet
open PacketSpec DnameSpec

theorem tlvs_cons (t1 t2 l1 l2 : UInt8) (r : Bytes) :
    tlvs (t1 :: t2 :: l1 :: l2 :: r) = if r.length < be16 l1 l2 then none
      else (tlvs (r.drop (be16 l1 l2))).map ((be16 t1 t2, r.take (be16 l1 l2)) :: ·) := by
  conv => lhs; unfold tlvs

theorem tlvs_short {b : Bytes} (h : b.length < 4) (h0 : b ≠ []) : tlvs b = none := by
  match b, h, h0 with
  | [_], _, _ => unfold tlvs; rfl
  | [_, _], _, _ => unfold tlvs; rfl
  | [_, _, _], _, _ => unfold tlvs; rfl

/-- The TLV walk reaches the end exactly when the rest is a TLV sequence. -/
theorem dsoWalk_eq (p : Bytes) : ∀ fuel off, p.length ≤ off + fuel →
    ∃ fin, dsoWalk p fuel off = .ok fin ∧ (fin = p.length ↔ off ≤ p.length ∧ (tlvs (p.drop off)).isSome) := by
  intro fuel
  induction fuel with
  | zero =>
    intro off h
    refine ⟨off, rfl, ?_⟩
    constructor
    · intro h'; subst h'; simp [tlvs]
    · rintro ⟨h1, -⟩; omega
  | succ fuel ih =>
    intro off h
    unfold dsoWalk
    by_cases h4 : p.length ≥ off + 4
    · rw [if_pos h4]
      obtain ⟨t1, t2, l1, l2, r, hr⟩ : ∃ t1 t2 l1 l2 r, p.drop off = t1 :: t2 :: l1 :: l2 :: r := by
        have : (p.drop off).length ≥ 4 := by simp; omega
        match hd : p.drop off, this with
        | t1 :: t2 :: l1 :: l2 :: r, _ => exact ⟨t1, t2, l1, l2, r, rfl⟩
        | [], h => simp at h
        | [_], h => simp at h
        | [_, _], h => simp at h
        | [_, _, _], h => simp at h
      have hrd : rd16 p (off + 2) = .ok (be16 l1 l2) := by
        have : p = p.take off ++ (t1 :: t2 :: l1 :: l2 :: r) := by rw [← hr]; simp
        have hto : (p.take off).length = off := by simp; omega
        have a0 : p[off + 2]? = some l1 := by
          rw [this, List.getElem?_append_right (by omega), hto]; simp
        have a1 : p[off + 2 + 1]? = some l2 := by
          rw [this, List.getElem?_append_right (by omega), hto, show off + 2 + 1 - off = 3 by omega]; simp
        rw [List.getElem?_eq_some_iff] at a0 a1
        obtain ⟨b0, c0⟩ := a0
        obtain ⟨b1, c1⟩ := a1
        unfold rd16
        rw [rd_lt b0, rd_lt b1, c0, c1]
        rfl
      rw [hrd, Outcome.bind_ok]
      obtain ⟨fin, hf, hiff⟩ := ih (off + (4 + be16 l1 l2)) (by omega)
      refine ⟨fin, hf, ?_⟩
      rw [hiff, hr, tlvs_cons]
      have hrl : r.length + 4 = p.length - off := by
        have := congrArg List.length hr; simp at this; omega
      have hdr : p.drop (off + (4 + be16 l1 l2)) = r.drop (be16 l1 l2) := by
        rw [← List.drop_drop, hr, Nat.add_comm 4]; simp
      rw [hdr]
      constructor
      · rintro ⟨h1, h2⟩
        refine ⟨by omega, ?_⟩
        rw [if_neg (by omega)]; simpa using h2
      · rintro ⟨h1, h2⟩
        by_cases hlt : r.length < be16 l1 l2
        · rw [if_pos hlt] at h2; simp at h2
        · rw [if_neg hlt] at h2
          exact ⟨by omega, by simpa using h2⟩
    · rw [if_neg h4]
      refine ⟨off, rfl, ?_⟩
      constructor
      · intro h'; subst h'; simp [tlvs]
      · rintro ⟨h1, h2⟩
        by_cases he : p.drop off = []
        · have := congrArg List.length he; simp at this; omega
        · rw [tlvs_short (by simp; omega) he] at h2; simp at h2

theorem be16_zero (a b : UInt8) : be16 a b = 0 ↔ a = 0 ∧ b = 0 := by
  unfold be16
  constructor
  · intro h
    exact ⟨UInt8.toNat_inj.mp (by simp; omega), UInt8.toNat_inj.mp (by simp; omega)⟩
  · rintro ⟨rfl, rfl⟩; rfl

/-- The reply to a DSO request, per verdict, before padding. -/
def dsoReply (c : Ctx) (id0 id1 f1 : UInt8) : DsoVerdict → Option Bytes
  | .abort => none
  | .formerr => some ([id0, id1, (((f1 &&& 0x79) ||| 0x80) &&& 0xF8), 1] ++ List.replicate 8 0)
  | .notimpl => some ([id0, id1, (((f1 &&& 0x79) ||| 0x80) &&& 0xF8), 11] ++ List.replicate 8 0)
  | .keepalive => some ([id0, id1, (((f1 &&& 0x79) ||| 0x80) &&& 0xF8), 0] ++ List.replicate 8 0 ++
      [0, 1, 0, 8] ++ put32 0xFFFFFFFF ++ put32 c.dsoInactivity)

theorem handleDso_eq (c : Ctx) (s : DsoState) (p : Bytes) (id0 id1 f1 : UInt8) (hl : 12 ≤ p.length)
    (h0 : rd p 0 = .ok id0) (h1 : rd p 1 = .ok id1) :
    handleDso c s p id0 id1 f1 = .ok (dsoReply c id0 id1 f1 (dsoVerdict (!c.isUdp) p),
      if dsoVerdict (!c.isUdp) p = .keepalive then { estab := true, lastWasKa := true } else s) := by
  obtain ⟨x0, x1, g1, g2, q1, q2, a1, a2, n1, n2, r1, r2, body, hp⟩ :
      ∃ x0 x1 f1 f2 q1 q2 a1 a2 n1 n2 r1 r2 body,
        p = x0 :: x1 :: f1 :: f2 :: q1 :: q2 :: a1 :: a2 :: n1 :: n2 :: r1 :: r2 :: body := by
    match p, hl with
    | _ :: _ :: _ :: _ :: _ :: _ :: _ :: _ :: _ :: _ :: _ :: _ :: _, _ =>
      exact ⟨_, _, _, _, _, _, _, _, _, _, _, _, _, rfl⟩
    | [], h => simp at h
    | [_], h => simp at h
    | [_, _], h => simp at h
    | [_, _, _], h => simp at h
    | [_, _, _, _], h => simp at h
    | [_, _, _, _, _], h => simp at h
    | [_, _, _, _, _, _], h => simp at h
    | [_, _, _, _, _, _, _], h => simp at h
    | [_, _, _, _, _, _, _, _], h => simp at h
    | [_, _, _, _, _, _, _, _, _], h => simp at h
    | [_, _, _, _, _, _, _, _, _, _], h => simp at h
    | [_, _, _, _, _, _, _, _, _, _, _], h => simp at h
  have e0 : x0 = id0 := by rw [hp] at h0; simpa [rd] using h0
  have e1 : x1 = id1 := by rw [hp] at h1; simpa [rd] using h1
  subst e0 e1
  have hcnt : rdN p 4 8 = .ok [q1, q2, a1, a2, n1, n2, r1, r2] := by
    rw [rdN_ok (by omega), hp]; rfl
  unfold handleDso
  simp only [hcnt, Outcome.bind_ok]
  have hzero : (be16 q1 q2 = 0 ∧ be16 a1 a2 = 0 ∧ be16 n1 n2 = 0 ∧ be16 r1 r2 = 0) ↔
      ¬ ∃ x ∈ [q1, q2, a1, a2, n1, n2, r1, r2], x ≠ 0 := by
    simp only [be16_zero, List.mem_cons, List.not_mem_nil, or_false]
    constructor
    · rintro ⟨⟨rfl, rfl⟩, ⟨rfl, rfl⟩, ⟨rfl, rfl⟩, ⟨rfl, rfl⟩⟩ ⟨x, hx, hx0⟩
      rcases hx with h | h | h | h | h | h | h | h <;> exact hx0 h
    · intro h
      have hx : ∀ x, (x = q1 ∨ x = q2 ∨ x = a1 ∨ x = a2 ∨ x = n1 ∨ x = n2 ∨ x = r1 ∨ x = r2) → x = 0 := by
        intro x hx; exact Classical.byContradiction fun hc => h ⟨x, hx, hc⟩
      exact ⟨⟨hx _ (by simp), hx _ (by simp)⟩, ⟨hx _ (by simp), hx _ (by simp)⟩, ⟨hx _ (by simp), hx _ (by simp)⟩,
        ⟨hx _ (by simp), hx _ (by simp)⟩⟩
  by_cases hform : (!c.isUdp) = false ∨ ¬ (be16 q1 q2 = 0 ∧ be16 a1 a2 = 0 ∧ be16 n1 n2 = 0 ∧ be16 r1 r2 = 0)
  · have hv : dsoVerdict (!c.isUdp) p = .formerr := by rw [hp]; unfold dsoVerdict; exact if_pos hform
    have hc : (c.isUdp || decide (∃ x ∈ [q1, q2, a1, a2, n1, n2, r1, r2], x ≠ 0)) = true := by
      rw [Bool.or_eq_true, decide_eq_true_eq]
      rcases hform with h | h
      · left; simpa using h
      · right; rw [hzero] at h; exact Classical.not_not.mp h
    rw [if_pos hc, hv]
    rfl
  have hc8 : [q1, q2, a1, a2, n1, n2, r1, r2] = List.replicate 8 0 := by
    have h := hform
    simp only [not_or, Classical.not_not, be16_zero] at h
    obtain ⟨-, ⟨rfl, rfl⟩, ⟨rfl, rfl⟩, ⟨rfl, rfl⟩, ⟨rfl, rfl⟩⟩ := h
    rfl
  have hvdef : dsoVerdict (!c.isUdp) p = (if be16 x0 x1 = 0 then .abort else match tlvs body with
      | none => .abort
      | some [] => .abort
      | some ((ty, d) :: _) =>
        if ty = 1 then (if d.length = 8 then .keepalive else .abort)
        else if ty = 2 ∨ ty = 3 then .abort
        else .notimpl) := by rw [hp]; unfold dsoVerdict; exact if_neg hform
  have hc : ¬ (c.isUdp || decide (∃ x ∈ [q1, q2, a1, a2, n1, n2, r1, r2], x ≠ 0)) = true := by
    rw [Bool.or_eq_true, decide_eq_true_eq]
    rintro (h | h)
    · exact hform (.inl (by simpa using h))
    · exact hform (.inr fun hz => hzero.mp hz h)
  rw [if_neg hc]
  by_cases hid : (x0 = 0 ∧ x1 = 0) ∨ p.length < 12 + 4
  · rw [if_pos hid]
    have hv : dsoVerdict (!c.isUdp) p = .abort := by
      rw [hvdef]
      by_cases hz : be16 x0 x1 = 0
      · rw [if_pos hz]
      · rw [if_neg hz]
        rcases hid with h | h
        · exact absurd ((be16_zero _ _).mpr h) hz
        · by_cases hb : body = []
          · subst hb; simp [tlvs]
          · rw [tlvs_short (by rw [hp] at h; simp at h; omega) hb]
    rw [hv]; rfl
  rw [if_neg hid]
  have hz : ¬ be16 x0 x1 = 0 := fun h => hid (.inl ((be16_zero _ _).mp h))
  rw [if_neg hz] at hvdef
  obtain ⟨t1, t2, l1, l2, r, hr⟩ : ∃ t1 t2 l1 l2 r, body = t1 :: t2 :: l1 :: l2 :: r := by
    have : body.length ≥ 4 := by rw [hp] at hid; simp at hid; omega
    match body, this with
    | t1 :: t2 :: l1 :: l2 :: r, _ => exact ⟨t1, t2, l1, l2, r, rfl⟩
    | [], h => simp at h
    | [_], h => simp at h
    | [_, _], h => simp at h
    | [_, _, _], h => simp at h
  have hty : rd16 p 12 = .ok (be16 t1 t2) := by rw [hp, hr]; simp [rd16_cons_succ]
  have hdl : rd16 p 14 = .ok (be16 l1 l2) := by rw [hp, hr]; simp [rd16_cons_succ]
  rw [hty, Outcome.bind_ok, hdl]
  simp only [Outcome.bind_ok]
  obtain ⟨fin, hf, hiff⟩ := dsoWalk_eq p p.length (16 + be16 l1 l2) (by omega)
  have hpl : p.length = 16 + r.length := by rw [hp, hr]; simp; omega
  have hdrop : p.drop (16 + be16 l1 l2) = r.drop (be16 l1 l2) := by
    rw [← List.drop_drop, hp, hr]; rfl
  rw [hdrop, hpl] at hiff
  rw [hr, tlvs_cons] at hvdef
  by_cases hill : be16 t1 t2 = 2 ∨ be16 t1 t2 = 3
  · rw [if_pos hill]
    have hv : dsoVerdict (!c.isUdp) p = .abort := by
      rw [hvdef]
      split <;> rename_i heq
      · rfl
      · rfl
      · split at heq
        · simp at heq
        · simp only [Option.map_eq_some_iff] at heq
          obtain ⟨_, -, heq⟩ := heq
          simp at heq
          obtain ⟨⟨rfl, -⟩, -⟩ := heq
          rw [if_neg (by omega), if_pos hill]
    rw [hv]; rfl
  rw [if_neg hill, hf, Outcome.bind_ok]
  by_cases hfin : fin = p.length
  · rw [if_neg (by omega)]
    rw [hpl] at hfin
    obtain ⟨hle, hsome⟩ := hiff.mp hfin
    obtain ⟨tl, htl⟩ := Option.isSome_iff_exists.mp hsome
    rw [if_neg (by omega), htl] at hvdef
    simp only [Option.map_some] at hvdef
    have htake : (r.take (be16 l1 l2)).length = be16 l1 l2 := by simp; omega
    rw [htake] at hvdef
    by_cases h1 : be16 t1 t2 = 1
    · rw [if_pos h1]
      rw [if_pos h1] at hvdef
      by_cases h8 : be16 l1 l2 = 8
      · rw [if_pos h8] at hvdef
        rw [if_neg (by omega), hvdef, if_pos rfl, hc8]
        have ht : (p.drop 12).take 4 = [0, 1, 0, 8] := by
          rw [hp, hr]
          unfold be16 at h1 h8
          have := t1.toNat_lt; have := l1.toNat_lt; have := t2.toNat_lt; have := l2.toNat_lt
          have b1 : t1 = 0 := UInt8.toNat_inj.mp (by simp; omega)
          have b2 : t2 = 1 := UInt8.toNat_inj.mp (by simp; omega)
          have b3 : l1 = 0 := UInt8.toNat_inj.mp (by simp; omega)
          have b4 : l2 = 8 := UInt8.toNat_inj.mp (by simp; omega)
          subst b1 b2 b3 b4; rfl
        rw [ht]; rfl
      · rw [if_neg h8] at hvdef
        rw [if_pos h8, hvdef]; rfl
    · rw [if_neg h1] at hvdef ⊢
      rw [if_neg hill] at hvdef
      rw [hvdef, hc8]; rfl
  · rw [if_pos hfin]
    have hv : dsoVerdict (!c.isUdp) p = .abort := by
      rw [hvdef]
      by_cases hlt : r.length < be16 l1 l2
      · rw [if_pos hlt]
      · rw [if_neg hlt]
        have : tlvs (r.drop (be16 l1 l2)) = none := by
          rw [← Option.not_isSome_iff_eq_none]
          intro hs
          exact hfin (by rw [hpl]; exact hiff.mpr ⟨by omega, hs⟩)
        rw [this]; rfl
    rw [hv]; rfl

/-- The padding TLV appended to replies on padded connections. -/
def dsoPadded (c : Ctx) (out : Bytes) : Bytes :=
  if c.tcpPad then out ++ put16 3 ++ put16 (464 - out.length) ++ List.replicate (464 - out.length) 0 else out

theorem handleDsoPad_eq (c : Ctx) (s : DsoState) (p : Bytes) (id0 id1 f1 : UInt8) (hl : 12 ≤ p.length)
    (h0 : rd p 0 = .ok id0) (h1 : rd p 1 = .ok id1) (hu : c.tcpPad = true → c.isUdp = false) :
    handleDsoPad c s p id0 id1 f1 = .ok ((dsoReply c id0 id1 f1 (dsoVerdict (!c.isUdp) p)).map (dsoPadded c),
      if dsoVerdict (!c.isUdp) p = .keepalive then { estab := true, lastWasKa := true } else s) := by
  unfold handleDsoPad
  rw [handleDso_eq c s p id0 id1 f1 hl h0 h1, Outcome.bind_ok]
  have hlen : ∀ o, dsoReply c id0 id1 f1 (dsoVerdict (!c.isUdp) p) = some o → o.length ≤ 24 := by
    intro o ho
    cases hv : dsoVerdict (!c.isUdp) p <;> rw [hv] at ho <;> simp [dsoReply] at ho <;> subst ho <;> simp
  cases hr : dsoReply c id0 id1 f1 (dsoVerdict (!c.isUdp) p) with
  | none => rfl
  | some o =>
    have ho := hlen o hr
    simp only [Option.map_some]
    unfold padBlock
    rw [decide_eq_true (show o.length ≤ 468 - 4 by omega)]
    simp only [assert_true, Outcome.bind_ok]
    unfold dsoPadded
    by_cases ht : c.tcpPad = true
    · rw [if_pos ht, if_pos ht, hu ht]
      simp only [Bool.not_false, assert_true, Outcome.bind_ok]
      rw [decide_eq_true (by simp; omega)]
      simp only [assert_true, Outcome.bind_ok]
      rw [show 468 - o.length - 4 = 464 - o.length by omega]
    · rw [if_neg ht, if_neg ht]

/-! ### Inversion -/

theorem processQuery_inv {g : Cfg} {c : Ctx} {db : Txn → DbAnswer} {s s' : DsoState} {p : Bytes} {r : Option Bytes}
    (hs : Sane g c) (hdb : DbFits g db) (h : processQuery g c db s p = .ok (r, s')) :
    p.length ≤ 1024 ∧ ∃ rc t off, decodeQuery g { c with dsoEstab := s.estab } p (initTxn c) = .ok (rc, t, off) ∧
      rc = toRc (verdict (envOf g { c with dsoEstab := s.estab }) p) ∧
      Decoded g { c with dsoEstab := s.estab } p rc t off ∧
      ((rc = .ignore ∧ r = none ∧ s' = s) ∨
       (rc = .dso ∧ ∃ id0 id1 f1, rd p 0 = .ok id0 ∧ rd p 1 = .ok id1 ∧ rd p 2 = .ok f1 ∧
          r = (dsoReply c id0 id1 f1 (dsoVerdict (!c.isUdp) p)).map (dsoPadded c) ∧
          s' = if dsoVerdict (!c.isUdp) p = .keepalive then { estab := true, lastWasKa := true } else s) ∨
       (rc ≠ .ignore ∧ rc ≠ .dso ∧ s' = s ∧
          (t.edns.reqEdns = true → t.edns.outBytes = emitLen g { c with dsoEstab := s.estab } t.edns) ∧
          ∃ a opt out, r = some out ∧ Processed g c db s p rc t off a opt out)) := by
  have hp : p.length ≤ 1024 := by
    by_cases hp : p.length ≤ 1024
    · exact hp
    · unfold processQuery at h; rw [decide_eq_false hp] at h; simp [assert, Outcome.bind] at h
  obtain ⟨rc, t, off, hdec, hv, hd⟩ := decodeQuery_eq g { c with dsoEstab := s.estab } p
  refine ⟨hp, rc, t, off, hdec, hv, hd, ?_⟩
  by_cases hi : rc = .ignore
  · left
    subst hi
    unfold processQuery at h
    rw [decide_eq_true hp, show initTxn c = initTxn { c with dsoEstab := s.estab } from rfl, hdec] at h
    simp only [assert_true, Outcome.bind_ok, Outcome.ok.injEq, Prod.mk.injEq] at h
    exact ⟨rfl, h.1.symm, h.2.symm⟩
  have hl := hd.length hi
  have r0 : rd p 0 = .ok (p[0]'(by omega)) := rd_lt (by omega)
  have r1 : rd p 1 = .ok (p[1]'(by omega)) := rd_lt (by omega)
  have r2 : rd p 2 = .ok (p[2]'(by omega)) := rd_lt (by omega)
  by_cases hdso : rc = .dso
  · right; left
    subst hdso
    unfold processQuery at h
    rw [decide_eq_true hp, show initTxn c = initTxn { c with dsoEstab := s.estab } from rfl, hdec] at h
    simp only [assert_true, Outcome.bind_ok, r0, r1, r2, if_true] at h
    rw [handleDsoPad_eq c s p _ _ _ hl r0 r1 hs.pad] at h
    simp only [Outcome.ok.injEq, Prod.mk.injEq] at h
    exact ⟨rfl, _, _, _, r0, r1, r2, h.1.symm, h.2.symm⟩
  right; right
  refine ⟨hi, hdso, ?_⟩
  by_cases hx : t.edns.reqEdns = true → t.edns.outBytes = emitLen g { c with dsoEstab := s.estab } t.edns
  · obtain ⟨a, opt, out, h1, h2⟩ := processQuery_eq hp hs (fun _ _ _ => hdb t) hdec hd hi hdso hx
    rw [h] at h1
    simp only [Outcome.ok.injEq, Prod.mk.injEq] at h1
    exact ⟨h1.2, hx, a, opt, out, h1.1, h2⟩
  · exfalso
    obtain ⟨n, hn, -⟩ := rd16_ok (p := p) (i := 4) (by omega)
    obtain ⟨a, ha, -⟩ := answerPart_eq (c := c) hd (fun _ _ _ => hdb t) rfl hi hdso n hn
    have hx1 : t.edns.reqEdns = true := Classical.byContradiction fun hc => hx fun h => absurd h hc
    have hx2 : t.edns.outBytes ≠ emitLen g { c with dsoEstab := s.estab } t.edns := fun hc => hx fun _ => hc
    have hub := ednsOutput_ub (c := { c with dsoEstab := s.estab }) (ednsFacts hd).inv hs.cookie a.scope (12 + a.body.length)
      (decide (rc = .badvers)) hx2
    unfold processQuery at h
    rw [decide_eq_true hp, show initTxn c = initTxn { c with dsoEstab := s.estab } from rfl, hdec] at h
    simp only [assert_true, Outcome.bind_ok, r0, r1, r2, hn, ha, if_neg hdso, hx1, if_true, hub] at h
    cases rc with
    | ignore => exact absurd rfl hi
    | _ => simp [Outcome.bind] at h

end Gdnsd.Packet
