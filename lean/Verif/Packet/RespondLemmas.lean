import Verif.Packet.Respond
import Verif.Packet.DecodeLemmas
/- Proof helpers: response assembly. -/
namespace Gdnsd.Packet
open PacketSpec DnameSpec

/-- Address bytes of a prefix. -/
def addrBytes (m : Nat) : Nat := m / 8 + (if m % 8 ≠ 0 then 1 else 0)

/-- Bytes the OPT record will occupy, padding excluded. -/
def emitLen (g : Cfg) (c : Ctx) (e : Edns) : Nat :=
  11 + (bif e.respondClientSubnet then 8 + addrBytes e.ednsClientMask else 0) +
  (bif e.cookieRespond then 20 else 0) + (bif !c.isUdp && !c.dsoEstab then 6 else 0) +
  (bif e.respondNsid then 4 + g.nsid.length else 0)

/-- The load-time reservation for EDNS (ltree.c:987-1008). -/
def ednsMax (g : Cfg) : Nat :=
  17 + (if g.edns_client_subnet then 24 else 0) + (if g.nsid.length ≠ 0 then 4 + g.nsid.length else 0) +
  (if !g.disable_cookies then 20 else 0)

structure EInv (g : Cfg) (c : Ctx) (e : Edns) : Prop where
  eok : EOk e
  cookie : e.cookieRespond = true → e.cookieRecvd = true ∧ g.disable_cookies = false ∧ ∃ d, e.cookieOutput = (c.cookieFn d).2
  nsid : e.respondNsid = true → g.nsid ≠ []
  ecs : e.respondClientSubnet = true → g.edns_client_subnet = true ∧
    ((e.clientFamily = 1 ∧ e.ednsClientMask ≤ 32) ∨ (e.clientFamily = 2 ∧ e.ednsClientMask ≤ 128))

theorem EcsLegal_addrBytes {d : Bytes} {f s : Nat} {a : Bytes} (h : EcsLegal d f s a) : a.length = addrBytes s := by
  have := h.minimal
  unfold addrBytes
  split <;> omega

theorem OptStep_EInv {g : Cfg} {c : Ctx} {e e' : Edns} {code : Nat} {d : Bytes} {r : Rc}
    (h : OptStep g c e code d r e') (he : EInv g c e) : EInv g c e' := by
  have hk := OptStep_EOk h he.eok
  cases h with
  | reject v e' _ _ h =>
    rcases h with rfl | rfl
    · exact he
    · exact ⟨hk, fun h => ⟨rfl, (he.cookie h).2⟩, he.nsid, he.ecs⟩
  | none => exact he
  | ecs f s a _ hen h =>
    refine ⟨hk, he.cookie, he.nsid, fun _ => ⟨hen, ?_⟩⟩
    exact h.range
  | nsid _ _ hn => exact ⟨hk, he.cookie, fun _ => hn, he.ecs⟩
  | cookie _ hdis => exact ⟨hk, fun _ => ⟨rfl, hdis, _, rfl⟩, he.nsid, he.ecs⟩

theorem OptsStep_EInv {g : Cfg} {c : Ctx} {e e' : Edns} {l : List (Nat × Bytes)}
    (h : OptsStep g c e l e') (he : EInv g c e) : EInv g c e' := by
  induction h with
  | nil => exact he
  | cons h1 _ ih => exact ih (OptStep_EInv h1 he)

/-- Reserved bytes never fall below what will be emitted. -/
theorem OptStep_le {g : Cfg} {c : Ctx} {e e' : Edns} {code : Nat} {d : Bytes} {r : Rc}
    (h : OptStep g c e code d r e') (hck : e.cookieRespond = true → e.cookieRecvd = true)
    (he : emitLen g c e ≤ e.outBytes) : emitLen g c e' ≤ e'.outBytes := by
  unfold emitLen at *
  cases h with
  | reject v e' _ _ h => rcases h with rfl | rfl <;> exact he
  | none => exact he
  | ecs f s a _ hen h =>
    have := EcsLegal_addrBytes h
    simp only [ecsApply, cond_true] at *
    rw [this]
    generalize (bif e.respondClientSubnet then 8 + addrBytes e.ednsClientMask else 0) = z at he
    omega
  | nsid _ _ hn =>
    simp only [cond_true] at *
    generalize (bif e.respondNsid then 4 + g.nsid.length else 0) = z at he
    omega
  | cookie _ hdis hr =>
    have : e.cookieRespond = false := by
      cases hc : e.cookieRespond with
      | false => rfl
      | true => rw [hck hc] at hr; simp at hr
    simp only [this, cond_true, cond_false] at *
    omega

theorem OptsStep_le {g : Cfg} {c : Ctx} {e e' : Edns} {l : List (Nat × Bytes)}
    (h : OptsStep g c e l e') (hi : EInv g c e) (he : emitLen g c e ≤ e.outBytes) : emitLen g c e' ≤ e'.outBytes := by
  induction h with
  | nil => exact he
  | cons h1 _ ih => exact ih (OptStep_EInv h1 hi) (OptStep_le h1 (fun h => (hi.cookie h).1) he)

/-- Number of options with a given code. -/
def countCode (k : Nat) (l : List (Nat × Bytes)) : Nat := (l.filter (fun x => x.1 == k)).length

theorem OptsStep_exact {g : Cfg} {c : Ctx} {e e' : Edns} {l : List (Nat × Bytes)}
    (h : OptsStep g c e l e') (hi : EInv g c e) (he : e.outBytes = emitLen g c e)
    (h8 : g.edns_client_subnet = true → countCode 8 l + e.respondClientSubnet.toNat ≤ 1)
    (h3 : g.nsid ≠ [] → countCode 3 l + e.respondNsid.toNat ≤ 1) : e'.outBytes = emitLen g c e' := by
  induction h with
  | nil => exact he
  | @cons e e1 e2 code d l h1 _ ih =>
    have hi1 := OptStep_EInv h1 hi
    have c8 : countCode 8 l ≤ countCode 8 ((code, d) :: l) := by
      unfold countCode; simp only [List.filter_cons]; split <;> simp
    have c3 : countCode 3 l ≤ countCode 3 ((code, d) :: l) := by
      unfold countCode; simp only [List.filter_cons]; split <;> simp
    generalize hrc : Rc.ok = r at h1
    cases h1 with
    | reject v e' _ hv h =>
      -- the step result is `.ok`, which is not the image of a rejection
      cases v <;> simp [toRc] at hrc hv
    | none => exact ih hi1 he (fun h => by have := h8 h; omega) (fun h => by have := h3 h; omega)
    | ecs f s a hc hen h =>
      have hl := EcsLegal_addrBytes h
      have hcnt : countCode 8 ((code, d) :: l) = countCode 8 l + 1 := by
        unfold countCode; simp [hc]
      have hh := h8 hen
      rw [hcnt] at hh
      have hno : e.respondClientSubnet = false := by
        cases hc : e.respondClientSubnet with
        | false => rfl
        | true => simp [hc] at hh
      refine ih hi1 ?_ (fun _ => by simp only [ecsApply, Bool.toNat_true]; simp [hno] at hh; omega)
        (fun h => by have := h3 h; simp only [ecsApply]; omega)
      simp only [ecsApply, emitLen, cond_true, he, hno, cond_false, hl]
      omega
    | nsid hc hd hn =>
      have hcnt : countCode 3 ((code, d) :: l) = countCode 3 l + 1 := by
        unfold countCode; simp [hc]
      have hh := h3 hn
      rw [hcnt] at hh
      have hno : e.respondNsid = false := by
        cases hc : e.respondNsid with
        | false => rfl
        | true => simp [hc] at hh
      refine ih hi1 ?_ (fun h => by have := h8 h; simp only; omega)
        (fun _ => by simp only [Bool.toNat_true]; simp [hno] at hh; omega)
      simp only [emitLen, cond_true, he, hno, cond_false]
      omega
    | cookie hc hdis hr hlen =>
      have hno : e.cookieRespond = false := by
        cases hc : e.cookieRespond with
        | false => rfl
        | true => rw [(hi.cookie hc).1] at hr; simp at hr
      refine ih hi1 ?_ (fun h => by have := h8 h; simp only; omega) (fun h => by have := h3 h; simp only; omega)
      simp only [emitLen, cond_true, he, hno, cond_false]
      omega

theorem emitLen_le {g : Cfg} {c : Ctx} {e : Edns} (hi : EInv g c e) : emitLen g c e ≤ ednsMax g := by
  unfold emitLen ednsMax
  have h1 : (bif e.respondClientSubnet then 8 + addrBytes e.ednsClientMask else 0) ≤ (if g.edns_client_subnet then 24 else 0) := by
    by_cases h : e.respondClientSubnet = true
    · obtain ⟨hg, hm⟩ := hi.ecs h
      rw [h, cond_true, if_pos hg]
      unfold addrBytes; split <;> omega
    · simp [h]
  have h2 : (bif e.cookieRespond then 20 else 0) ≤ (if !g.disable_cookies then 20 else 0) := by
    by_cases h : e.cookieRespond = true
    · rw [h, cond_true, if_pos (by simp [(hi.cookie h).2.1])]; omega
    · simp [h]
  have h3 : (bif e.respondNsid then 4 + g.nsid.length else 0) ≤ (if g.nsid.length ≠ 0 then 4 + g.nsid.length else 0) := by
    by_cases h : e.respondNsid = true
    · rw [h, cond_true, if_pos (by have := hi.nsid h; simpa using this)]; omega
    · simp [h]
  have h4 : (bif !c.isUdp && !c.dsoEstab then 6 else 0) ≤ 6 := by cases !c.isUdp && !c.dsoEstab <;> simp
  omega

/-! ### Output -/

@[simp] theorem put16_length (n : Nat) : (put16 n).length = 2 := rfl
@[simp] theorem put32_length (n : Nat) : (put32 n).length = 4 := rfl

theorem ecsOutput_eq {g : Cfg} {c : Ctx} {e : Edns} (hi : EInv g c e) (scope : Nat) :
    ∃ o, ecsOutput e scope = .ok o ∧
      o.length = (bif e.respondClientSubnet then 8 + addrBytes e.ednsClientMask else 0) := by
  unfold ecsOutput
  by_cases h : e.respondClientSubnet = true
  · obtain ⟨-, hm⟩ := hi.ecs h
    have h4 := hi.eok.1
    have h6 := hi.eok.2
    rw [if_pos h, h, cond_true]
    by_cases h0 : e.ednsClientMask ≠ 0
    · have hn : e.ednsClientMask / 8 + (if e.ednsClientMask % 8 ≠ 0 then 1 else 0) ≠ 0 := by split <;> omega
      simp only
      rw [if_pos h0, if_pos h0, decide_eq_true hn]
      simp only [assert_true, Outcome.bind_ok]
      rcases hm with ⟨hf, hm⟩ | ⟨hf, hm⟩
      · have hle : e.ednsClientMask / 8 + (if e.ednsClientMask % 8 ≠ 0 then 1 else 0) ≤ 4 := by split <;> omega
        rw [if_pos hf, rdN_ok (by omega)]
        refine ⟨_, rfl, ?_⟩
        simp [addrBytes] at *; omega
      · have hle : e.ednsClientMask / 8 + (if e.ednsClientMask % 8 ≠ 0 then 1 else 0) ≤ 16 := by split <;> omega
        rw [if_neg (by omega), hf]
        simp only [beq_self_eq_true, assert_true, Outcome.bind_ok]
        rw [rdN_ok (by omega)]
        refine ⟨_, rfl, ?_⟩
        simp [addrBytes] at *; omega
    · have h0 : e.ednsClientMask = 0 := by omega
      simp only [h0]
      exact ⟨_, rfl, by simp [addrBytes]⟩
  · rw [if_neg h]
    exact ⟨_, rfl, by simp [h]⟩

theorem cookieOutput_eq {g : Cfg} {c : Ctx} {e : Edns} (hi : EInv g c e) (hc : ∀ d, (c.cookieFn d).2.length = 16) :
    ∃ o, cookieOutput e = .ok o ∧ o.length = (bif e.cookieRespond then 20 else 0) := by
  unfold cookieOutput
  by_cases h : e.cookieRespond = true
  · obtain ⟨hr, -, d, hd⟩ := hi.cookie h
    rw [if_pos h, h, cond_true, hr]
    simp only [assert_true, Outcome.bind_ok]
    rw [rdN_ok (by rw [hd, hc]; omega)]
    exact ⟨_, rfl, by simp [hd, hc]⟩
  · rw [if_neg h]
    exact ⟨_, rfl, by simp [h]⟩

theorem nsidOutput_eq {g : Cfg} {c : Ctx} {e : Edns} (hi : EInv g c e) :
    ∃ o, nsidOutput g e = .ok o ∧ o.length = (bif e.respondNsid then 4 + g.nsid.length else 0) := by
  unfold nsidOutput
  by_cases h : e.respondNsid = true
  · have hn := hi.nsid h
    rw [if_pos h, h, cond_true, decide_eq_true (by simpa using hn)]
    exact ⟨_, rfl, by simp; omega⟩
  · rw [if_neg h]
    exact ⟨_, rfl, by simp [h]⟩

theorem keepaliveOutput_length (c : Ctx) :
    (keepaliveOutput c).length = (bif !c.isUdp && !c.dsoEstab then 6 else 0) := by
  unfold keepaliveOutput; cases !c.isUdp && !c.dsoEstab <;> simp

/-- Padding, when allowed, aligns to the block. -/
theorem padOutput_eq (c : Ctx) (off : Nat) (hu : c.tcpPad = true → c.isUdp = false)
    (ho : c.tcpPad = true → off ≤ maxResponseData) :
    ∃ o, padOutput c off = .ok o ∧ (c.tcpPad = false → o = []) ∧
      (c.tcpPad = true → (off + o.length) % 468 = 0 ∧ off + o.length ≤ maxResponseBuf ∧
        4 ≤ o.length ∧ o.length < 4 + 468) := by
  unfold padOutput
  by_cases h : c.tcpPad = true
  · have h1 := hu h
    have h2 := ho h
    rw [if_pos h, h1, decide_eq_true h2]
    simp only [Bool.not_false, assert_true, Outcome.bind_ok]
    unfold maxResponseData at h2
    have h3 : off + 4 + ((off + 4 + padBlock - 1) / padBlock * padBlock - 4 - off) ≤ maxResponseBuf := by
      unfold padBlock maxResponseBuf; omega
    have h4 : (off + 4 + ((off + 4 + padBlock - 1) / padBlock * padBlock - 4 - off)) % padBlock = 0 := by
      unfold padBlock; omega
    rw [decide_eq_true h3, decide_eq_true h4]
    refine ⟨_, rfl, by simp [h], fun _ => ?_⟩
    simp only [List.length_append, put16_length, List.length_replicate]
    unfold padBlock at *
    refine ⟨by omega, by omega, by omega, by omega⟩
  · rw [if_neg h]
    exact ⟨_, rfl, fun _ => rfl, fun h' => absurd h' h⟩

/-- `do_edns_output`: with an exact reservation it succeeds and the length is the
reservation plus padding. -/
theorem ednsOutput_eq {g : Cfg} {c : Ctx} {e : Edns} (hi : EInv g c e) (hc : ∀ d, (c.cookieFn d).2.length = 16)
    (scope off : Nat) (bad : Bool) (hx : e.outBytes = emitLen g c e) (hu : c.tcpPad = true → c.isUdp = false)
    (ho : c.tcpPad = true → off + emitLen g c e ≤ maxResponseData) :
    ∃ o, ednsOutput g c e scope bad off = .ok o ∧ emitLen g c e ≤ o.length ∧
      (c.tcpPad = false → o.length = emitLen g c e) ∧
      (c.tcpPad = true → (off + o.length) % 468 = 0 ∧ off + o.length ≤ maxResponseBuf ∧
        o.length < emitLen g c e + 4 + 468) := by
  obtain ⟨o1, h1, l1⟩ := ecsOutput_eq hi scope
  obtain ⟨o2, h2, l2⟩ := cookieOutput_eq hi hc
  obtain ⟨o4, h4, l4⟩ := nsidOutput_eq hi
  have l3 := keepaliveOutput_length c
  have hlen : 11 + (o1 ++ o2 ++ keepaliveOutput c ++ o4).length = emitLen g c e := by
    simp only [List.length_append, l1, l2, l3, l4, emitLen]; omega
  unfold ednsOutput
  rw [h1, h2, h4]
  simp only [Outcome.bind_ok]
  rw [hx, hlen]
  simp only [beq_self_eq_true, assert_true, Outcome.bind_ok]
  rw [Nat.add_assoc off 11, hlen]
  obtain ⟨p, hp, hp1, hp2⟩ := padOutput_eq c (off + emitLen g c e) hu ho
  rw [hp, Outcome.bind_ok]
  refine ⟨_, rfl, ?_, ?_, ?_⟩
  · simp only [List.length_append, put16_length, put32_length, List.length_cons, List.length_nil] at hlen ⊢; omega
  · intro h
    rw [hp1 h]
    simp only [List.length_append, put16_length, put32_length, List.length_cons, List.length_nil] at hlen ⊢; omega
  · intro h
    obtain ⟨k1, k2, k3, k4⟩ := hp2 h
    simp only [List.length_append, put16_length, put32_length, List.length_cons, List.length_nil] at hlen ⊢
    refine ⟨?_, ?_, ?_⟩
    · rw [← k1]; congr 1; omega
    · omega
    · omega

theorem ednsOutput_ub {g : Cfg} {c : Ctx} {e : Edns} (hi : EInv g c e) (hc : ∀ d, (c.cookieFn d).2.length = 16)
    (scope off : Nat) (bad : Bool) (hx : e.outBytes ≠ emitLen g c e) :
    ednsOutput g c e scope bad off = .ub := by
  obtain ⟨o1, h1, l1⟩ := ecsOutput_eq hi scope
  obtain ⟨o2, h2, l2⟩ := cookieOutput_eq hi hc
  obtain ⟨o4, h4, l4⟩ := nsidOutput_eq hi
  have l3 := keepaliveOutput_length c
  have hlen : 11 + (o1 ++ o2 ++ keepaliveOutput c ++ o4).length = emitLen g c e := by
    simp only [List.length_append, l1, l2, l3, l4, emitLen]; omega
  unfold ednsOutput
  rw [h1, h2, h4]
  simp only [Outcome.bind_ok]
  rw [hlen]
  have : (e.outBytes == emitLen g c e) = false := by simpa using hx
  rw [this]; rfl

end Gdnsd.Packet
