import Verif.Packet.Dso
/- Proof helpers: the OPT record of a response as a record and option list. -/
namespace Gdnsd.Packet
open PacketSpec DnameSpec

theorem be16_put16 {n : Nat} (h : n < 65536) : be16 (UInt8.ofNat (n / 256)) (UInt8.ofNat n) = n := by
  unfold be16
  simp only [UInt8.toNat_ofNat']
  omega

/-- One option on the wire. -/
def tlv (k : Nat) (d : Bytes) : Bytes := put16 k ++ put16 d.length ++ d

theorem optList_tlv (k : Nat) (d r : Bytes) (hk : k < 65536) (hd : d.length < 65536) :
    optList (tlv k d ++ r) = (k, d) :: optList r := by
  unfold tlv put16
  simp only [List.cons_append, List.nil_append]
  rw [optList_cons, be16_put16 hk, be16_put16 hd, if_neg (by simp)]
  simp

theorem optList_nil : optList [] = [] := by unfold optList; rfl

/-- The client-subnet payload of a response. -/
def ecsPayload (e : Edns) (scope : Nat) : Bytes :=
  put16 e.clientFamily ++ [UInt8.ofNat e.ednsClientMask, UInt8.ofNat (if e.ednsClientMask ≠ 0 then scope else 0)] ++
    (if e.clientFamily = 1 then e.addr4 else e.addr6).take (addrBytes e.ednsClientMask)

/-- The options of a response, in order. -/
def respOpts (g : Cfg) (c : Ctx) (e : Edns) (scope npad : Nat) : List (Nat × Bytes) :=
  (if e.respondClientSubnet then [(8, ecsPayload e scope)] else []) ++
  (if e.cookieRespond then [(10, e.cookieOutput)] else []) ++
  (if !c.isUdp && !c.dsoEstab then [(11, put16 c.ednsTcpKeepalive)] else []) ++
  (if e.respondNsid then [(3, g.nsid)] else []) ++
  (if c.tcpPad then [(12, List.replicate npad 0)] else [])

theorem addrBytes_pos {m : Nat} (h : m ≠ 0) : addrBytes m ≠ 0 := by unfold addrBytes; split <;> omega

theorem ecsOutput_is {g : Cfg} {c : Ctx} {e : Edns} (hi : EInv g c e) (scope : Nat) :
    ecsOutput e scope = .ok (if e.respondClientSubnet then tlv 8 (ecsPayload e scope) else []) ∧
      (e.respondClientSubnet = true → (ecsPayload e scope).length < 65536) := by
  unfold ecsOutput
  by_cases h : e.respondClientSubnet = true
  · obtain ⟨-, hm⟩ := hi.ecs h
    have h4 := hi.eok.1
    have h6 := hi.eok.2
    rw [if_pos h, if_pos h]
    have hab : addrBytes e.ednsClientMask = e.ednsClientMask / 8 + (if e.ednsClientMask % 8 ≠ 0 then 1 else 0) := rfl
    simp only
    rw [← hab]
    have hlen : ((if e.clientFamily = 1 then e.addr4 else e.addr6).take (addrBytes e.ednsClientMask)).length = addrBytes e.ednsClientMask := by
      rw [List.length_take]
      rcases hm with ⟨hf, hm⟩ | ⟨hf, hm⟩
      · rw [if_pos hf, h4]; unfold addrBytes; split <;> omega
      · rw [if_neg (by omega), h6]; unfold addrBytes; split <;> omega
    have hpl : (ecsPayload e scope).length = 4 + addrBytes e.ednsClientMask := by
      unfold ecsPayload
      simp only [List.length_append, hlen, put16_length, List.length_cons, List.length_nil]
    have hsmall : addrBytes e.ednsClientMask ≤ 16 := by unfold addrBytes; split <;> omega
    refine ⟨?_, fun _ => by omega⟩
    unfold tlv
    rw [hpl]
    by_cases h0 : e.ednsClientMask ≠ 0
    · have hn := addrBytes_pos h0
      rw [if_pos h0, decide_eq_true hn]
      simp only [assert_true, Outcome.bind_ok]
      rcases hm with ⟨hf, hm⟩ | ⟨hf, hm⟩
      · have hle : addrBytes e.ednsClientMask ≤ 4 := by unfold addrBytes; split <;> omega
        rw [if_pos hf, rdN_ok (by omega)]
        simp only [Outcome.bind_ok, ecsPayload, if_pos hf, List.drop_zero, List.append_assoc]
      · rw [if_neg (by omega), hf]
        simp only [beq_self_eq_true, assert_true, Outcome.bind_ok]
        rw [rdN_ok (by omega)]
        simp only [Outcome.bind_ok, ecsPayload, hf, List.drop_zero, List.append_assoc]
        rfl
    · have h0 : e.ednsClientMask = 0 := by omega
      rw [if_neg (by omega)]
      simp only [ecsPayload, h0, show addrBytes 0 = 0 from rfl, List.take_zero, List.append_nil, List.append_assoc]
  · rw [if_neg h, if_neg h]
    exact ⟨rfl, fun hc => absurd hc h⟩

theorem cookieOutput_is {g : Cfg} {c : Ctx} {e : Edns} (hi : EInv g c e) (hc : ∀ d, (c.cookieFn d).2.length = 16) :
    cookieOutput e = .ok (if e.cookieRespond then tlv 10 e.cookieOutput else []) ∧
      (e.cookieRespond = true → e.cookieOutput.length = 16) := by
  unfold cookieOutput
  by_cases h : e.cookieRespond = true
  · obtain ⟨hr, -, d, hd⟩ := hi.cookie h
    have hl : e.cookieOutput.length = 16 := by rw [hd, hc]
    rw [if_pos h, if_pos h, hr]
    simp only [assert_true, Outcome.bind_ok]
    rw [rdN_ok (by omega)]
    refine ⟨?_, fun _ => hl⟩
    have ht : e.cookieOutput.take 16 = e.cookieOutput := by rw [← hl, List.take_length]
    simp only [Outcome.bind_ok, List.drop_zero, ht, tlv, hl]
  · rw [if_neg h, if_neg h]
    exact ⟨rfl, fun hc => absurd hc h⟩

theorem nsidOutput_is {g : Cfg} {c : Ctx} {e : Edns} (hi : EInv g c e) :
    nsidOutput g e = .ok (if e.respondNsid then tlv 3 g.nsid else []) := by
  unfold nsidOutput
  by_cases h : e.respondNsid = true
  · have hn := hi.nsid h
    rw [if_pos h, if_pos h, decide_eq_true (by simpa using hn)]
    rfl
  · rw [if_neg h, if_neg h]

theorem padOutput_is {c : Ctx} {off : Nat} {o : Bytes} (h : padOutput c off = .ok o) :
    ∃ n, n < 468 ∧ o = if c.tcpPad then tlv 12 (List.replicate n 0) else [] := by
  unfold padOutput at h
  by_cases ht : c.tcpPad = true
  · rw [if_pos ht] at h
    have as : ∀ {b : Bool} {α} {f : Unit → Outcome α} {x : α}, (assert b).bind f = .ok x → f () = .ok x := by
      intro b α f x h
      cases b with
      | true => exact h
      | false => simp [assert, Outcome.bind] at h
    have h := as (as h)
    have h := as (as h)
    simp only [Outcome.ok.injEq] at h
    refine ⟨(off + 4 + padBlock - 1) / padBlock * padBlock - 4 - off, ?_, ?_⟩
    · unfold padBlock; omega
    · rw [if_pos ht, ← h]; unfold tlv
      rw [List.length_replicate]
  · rw [if_neg ht] at h
    simp only [Outcome.ok.injEq] at h
    exact ⟨0, by omega, by rw [if_neg ht, h]⟩

/-- The OPT record of a response. -/
theorem ednsOutput_is {g : Cfg} {c : Ctx} {e : Edns} (hi : EInv g c e) (hc : ∀ d, (c.cookieFn d).2.length = 16)
    (hn : g.nsid.length ≤ 128) {scope off : Nat} {bad : Bool} {o : Bytes} (h : ednsOutput g c e scope bad off = .ok o) :
    ∃ e1 e2 e3 e4 l1 l2 rdata npad, o = [0, 0, 41, 4, 0, e1, e2, e3, e4, l1, l2] ++ rdata ∧ rdata.length = be16 l1 l2 ∧
      e1 = (if bad then 1 else 0) ∧ e2 = 0 ∧ e3 = (if e.doBit then 128 else 0) ∧ e4 = 0 ∧
      optList rdata = respOpts g c e scope npad ∧ npad < 468 := by
  obtain ⟨q1, q1'⟩ := ecsOutput_is hi scope
  obtain ⟨q2, q2'⟩ := cookieOutput_is hi hc
  have q4 := nsidOutput_is hi
  unfold ednsOutput at h
  rw [q1, q2, q4] at h
  simp only [Outcome.bind_ok] at h
  cases hb : (e.outBytes == 11 + ((if e.respondClientSubnet then tlv 8 (ecsPayload e scope) else []) ++
      (if e.cookieRespond then tlv 10 e.cookieOutput else []) ++ keepaliveOutput c ++
      (if e.respondNsid then tlv 3 g.nsid else [])).length) with
  | false => rw [hb] at h; simp [assert, Outcome.bind] at h
  | true =>
    rw [hb] at h
    simp only [assert_true, Outcome.bind_ok] at h
    generalize hof : off + 11 + _ = z at h
    cases hp : padOutput c z with
    | ub => rw [hp] at h; simp [Outcome.bind] at h
    | ok pad =>
      rw [hp] at h
      simp only [Outcome.bind_ok, Outcome.ok.injEq] at h
      obtain ⟨npad, hnp, hpad⟩ := padOutput_is hp
      have hka : keepaliveOutput c = if !c.isUdp && !c.dsoEstab then tlv 11 (put16 c.ednsTcpKeepalive) else [] := by
        unfold keepaliveOutput; rfl
      rw [hka] at h
      have hopts : ∀ (b : Bool) (k : Nat) (d r : Bytes), k < 65536 → (b = true → d.length < 65536) →
          optList ((if b then tlv k d else []) ++ r) = (if b then [(k, d)] else []) ++ optList r := by
        intro b k d r hk hd
        cases b with
        | true => simp only [if_true]; rw [optList_tlv k d r hk (hd rfl)]; rfl
        | false => rfl
      have hlist := hopts e.respondClientSubnet 8 (ecsPayload e scope)
        ((if e.cookieRespond then tlv 10 e.cookieOutput else []) ++ ((if !c.isUdp && !c.dsoEstab then tlv 11 (put16 c.ednsTcpKeepalive) else []) ++
        ((if e.respondNsid then tlv 3 g.nsid else []) ++ (pad ++ [])))) (by omega) q1'
      rw [hopts e.cookieRespond 10 _ _ (by omega) (fun h => by rw [q2' h]; omega),
        hopts (!c.isUdp && !c.dsoEstab) 11 _ _ (by omega) (fun h => by simp),
        hopts e.respondNsid 3 _ _ (by omega) (fun h => by omega), hpad,
        hopts c.tcpPad 12 _ _ (by omega) (fun h => by simp; omega), optList_nil] at hlist
      rw [← hpad] at hlist
      generalize hrd : (if e.respondClientSubnet then tlv 8 (ecsPayload e scope) else []) ++
        (if e.cookieRespond then tlv 10 e.cookieOutput else []) ++
        (if !c.isUdp && !c.dsoEstab then tlv 11 (put16 c.ednsTcpKeepalive) else []) ++
        (if e.respondNsid then tlv 3 g.nsid else []) ++ pad = rdata at h
      have hrdl : rdata.length < 65536 := by
        rw [← hrd, hpad]
        have b : ∀ (b : Bool) (k : Nat) (d : Bytes), (b = true → d.length ≤ 1000) → (if b then tlv k d else []).length ≤ 1004 := by
          intro b k d hd
          cases b with
          | true => simp [tlv]; have := hd rfl; omega
          | false => simp
        have b1 := b e.respondClientSubnet 8 (ecsPayload e scope) (fun h => by
          obtain ⟨-, hm⟩ := hi.ecs h
          unfold ecsPayload addrBytes
          simp only [List.length_append, put16_length, List.length_cons, List.length_nil, List.length_take]
          split <;> omega)
        have b2 := b e.cookieRespond 10 e.cookieOutput (fun h => by rw [q2' h]; omega)
        have b3 := b (!c.isUdp && !c.dsoEstab) 11 (put16 c.ednsTcpKeepalive) (fun _ => by simp)
        have b4 := b e.respondNsid 3 g.nsid (fun _ => by omega)
        have b5 := b c.tcpPad 12 (List.replicate npad 0) (fun _ => by simp; omega)
        simp only [List.length_append]
        omega
      have hol : optList rdata = respOpts g c e scope npad := by
        rw [← hrd]
        simp only [List.append_assoc, List.append_nil, respOpts] at hlist ⊢
        exact hlist
      refine ⟨if bad then 1 else 0, 0, if e.doBit then 128 else 0, 0, _, _, rdata, npad, ?_,
        (be16_put16 hrdl).symm, rfl, rfl, rfl, rfl, hol, hnp⟩
      rw [← h]
      cases bad <;> cases e.doBit <;> rfl

end Gdnsd.Packet
