import Verif.Packet.Count
/- Proof helpers: which options a response carries, in terms of the request's options. -/
namespace Gdnsd.Packet
open PacketSpec DnameSpec

/-- Payload of the first option with a code. -/
def firstOpt (k : Nat) (l : List (Nat × Bytes)) : Option Bytes := (l.find? (fun x => x.1 == k)).map (·.2)
/-- Payload of the last option with a code. -/
def lastOpt (k : Nat) (l : List (Nat × Bytes)) : Option Bytes := firstOpt k l.reverse

theorem firstOpt_snoc (k : Nat) (l : List (Nat × Bytes)) (x : Nat × Bytes) :
    firstOpt k (l ++ [x]) = match firstOpt k l with
      | some d => some d
      | none => if x.1 = k then some x.2 else none := by
  unfold firstOpt
  rw [List.find?_append]
  cases h : l.find? (fun x => x.1 == k) with
  | some d => simp
  | none =>
    by_cases hk : x.1 = k
    · simp [hk]
    · have : (x.1 == k) = false := by simpa using hk
      simp [hk, this]

theorem lastOpt_snoc (k : Nat) (l : List (Nat × Bytes)) (x : Nat × Bytes) :
    lastOpt k (l ++ [x]) = if x.1 = k then some x.2 else lastOpt k l := by
  unfold lastOpt firstOpt
  rw [List.reverse_append]
  by_cases hk : x.1 = k
  · simp [hk]
  · have : (x.1 == k) = false := by simpa using hk
    simp [hk, this]

/-- EDNS state after the options `done` have been accepted. -/
structure OptRel (g : Cfg) (c : Ctx) (done : List (Nat × Bytes)) (e : Edns) : Prop where
  ecsOff : g.edns_client_subnet = false → e.respondClientSubnet = false
  ecsNone : lastOpt 8 done = none → e.respondClientSubnet = false
  ecsSome : g.edns_client_subnet = true → ∀ d, lastOpt 8 done = some d → e.respondClientSubnet = true ∧
    ∃ f s a, EcsLegal d f s a ∧ e.clientFamily = f ∧ e.ednsClientMask = s ∧
      (if f = 1 then e.addr4 else e.addr6).take a.length = a
  ckOff : g.disable_cookies = true → e.cookieRespond = false ∧ e.cookieRecvd = false
  ckNone : firstOpt 10 done = none → e.cookieRespond = false ∧ e.cookieRecvd = false
  ckSome : g.disable_cookies = false → ∀ d, firstOpt 10 done = some d → e.cookieRespond = true ∧ e.cookieRecvd = true ∧
    e.cookieOutput = (c.cookieFn d).2 ∧ e.cookieValid = (c.cookieFn d).1
  nsid : e.respondNsid = (decide (g.nsid ≠ []) && done.any (fun x => x.1 == 3))

theorem OptStep_rel {g : Cfg} {c : Ctx} {done : List (Nat × Bytes)} {e e' : Edns} {code : Nat} {d : Bytes}
    (h : OptStep g c e code d .ok e') (hr : OptRel g c done e) : OptRel g c (done ++ [(code, d)]) e' := by
  generalize hrc : Rc.ok = r at h
  cases h with
  | reject v e' _ hv h => cases v <;> simp [toRc] at hrc hv
  | none hopt hck h8 h3 =>
    refine ⟨hr.ecsOff, ?_, ?_, hr.ckOff, ?_, ?_, ?_⟩
    · intro h; rw [lastOpt_snoc] at h
      split at h
      · simp at h
      · exact hr.ecsNone h
    · intro hg x hx; rw [lastOpt_snoc] at hx
      split at hx
      · rename_i hc; rw [h8 hc] at hg; simp at hg
      · exact hr.ecsSome hg x hx
    · intro h; rw [firstOpt_snoc] at h
      split at h
      · simp at h
      · rename_i hn; exact hr.ckNone hn
    · intro hg x hx; rw [firstOpt_snoc] at hx
      split at hx
      · rename_i d' hd'
        simp only [Option.some.injEq] at hx; subst hx
        exact hr.ckSome hg _ hd'
      · rename_i hn
        split at hx
        · rename_i hc
          simp only at hc
          rcases hck with hck | hck
          · simp [hg, hc] at hck
          · rw [(hr.ckNone hn).2] at hck; simp at hck
        · simp at hx
    · rw [hr.nsid]
      by_cases hc : code = 3
      · simp [h3 hc]
      · have : (code == 3) = false := by simpa using hc
        simp [this]
  | ecs f s a hc hen h =>
    subst hc
    refine ⟨?_, ?_, ?_, hr.ckOff, ?_, ?_, ?_⟩
    · intro hg; rw [hen] at hg; simp at hg
    · intro h; rw [lastOpt_snoc] at h; simp at h
    · intro hg x hx; rw [lastOpt_snoc] at hx
      simp only [if_true, Option.some.injEq] at hx; subst hx
      refine ⟨rfl, f, s, a, h, rfl, rfl, ?_⟩
      by_cases hs : s = 0
      · have : a = [] := by have := h.minimal; have : a.length = 0 := by omega
                            simpa using this
        simp [this]
      · rcases h.range with ⟨hf, -⟩ | ⟨hf, -⟩
        · subst hf; simp [ecsApply, hs]
        · subst hf; simp [ecsApply, hs]
    · intro h; rw [firstOpt_snoc] at h
      split at h
      · simp at h
      · rename_i hn; exact hr.ckNone hn
    · intro hg x hx; rw [firstOpt_snoc] at hx
      split at hx
      · rename_i d' hd'
        simp only [Option.some.injEq] at hx; subst hx
        exact hr.ckSome hg _ hd'
      · simp at hx
    · simp only [ecsApply]; rw [hr.nsid]; simp
  | nsid hc hd hn =>
    subst hc
    refine ⟨hr.ecsOff, ?_, ?_, hr.ckOff, ?_, ?_, ?_⟩
    · intro h; rw [lastOpt_snoc] at h; simp at h; exact hr.ecsNone h
    · intro hg x hx; rw [lastOpt_snoc] at hx; simp at hx; exact hr.ecsSome hg x hx
    · intro h; rw [firstOpt_snoc] at h
      split at h
      · simp at h
      · rename_i hn; exact hr.ckNone hn
    · intro hg x hx; rw [firstOpt_snoc] at hx
      split at hx
      · rename_i d' hd'
        simp only [Option.some.injEq] at hx; subst hx
        exact hr.ckSome hg _ hd'
      · simp at hx
    · simp [hn]
  | cookie hc hdis hrv hlen =>
    subst hc
    have hnone : firstOpt 10 done = none := by
      cases hf : firstOpt 10 done with
      | none => rfl
      | some x => rw [(hr.ckSome hdis x hf).2.1] at hrv; simp at hrv
    refine ⟨hr.ecsOff, ?_, ?_, ?_, ?_, ?_, ?_⟩
    · intro h; rw [lastOpt_snoc] at h; simp at h; exact hr.ecsNone h
    · intro hg x hx; rw [lastOpt_snoc] at hx; simp at hx; exact hr.ecsSome hg x hx
    · intro hg; rw [hdis] at hg; simp at hg
    · intro h; rw [firstOpt_snoc, hnone] at h; simp at h
    · intro hg x hx; rw [firstOpt_snoc, hnone] at hx
      simp only [if_true, Option.some.injEq] at hx; subst hx
      exact ⟨rfl, rfl, rfl, rfl⟩
    · simp only; rw [hr.nsid]; simp

theorem OptsStep_rel {g : Cfg} {c : Ctx} {e e' : Edns} {l : List (Nat × Bytes)} (h : OptsStep g c e l e') :
    ∀ done, OptRel g c done e → OptRel g c (done ++ l) e' := by
  induction h with
  | nil => intro done hr; simpa using hr
  | cons h1 _ ih =>
    intro done hr
    have := ih _ (OptStep_rel h1 hr)
    simpa using this

/-- For an accepted request with EDNS the option state is that of its OPT record. -/
theorem OptsStep_do {g : Cfg} {c : Ctx} {e e' : Edns} {l : List (Nat × Bytes)} (h : OptsStep g c e l e') : e'.doBit = e.doBit := by
  induction h with
  | nil => rfl
  | cons h1 _ ih =>
    rw [ih]
    generalize hrc : Rc.ok = r at h1
    cases h1 with
    | reject v e' _ hv h => cases v <;> simp [toRc] at hrc hv
    | none => rfl
    | ecs => rfl
    | nsid => rfl
    | cookie => rfl

theorem OptsStep_req {g : Cfg} {c : Ctx} {e e' : Edns} {l : List (Nat × Bytes)} (h : OptsStep g c e l e') : e'.reqEdns = e.reqEdns := by
  induction h with
  | nil => rfl
  | cons h1 _ ih =>
    rw [ih]
    generalize hrc : Rc.ok = r at h1
    cases h1 with
    | reject v e' _ hv h => cases v <;> simp [toRc] at hrc hv
    | none => rfl
    | ecs => rfl
    | nsid => rfl
    | cookie => rfl

theorem OptEffect_req {g : Cfg} {c : Ctx} {H : Bool → Nat → Bytes → Prop} {t t' : Txn} {rc : Rc} (h : OptEffect g c H t rc t') :
    t'.edns.reqEdns = true := by
  cases h with
  | badvers d => rfl
  | short d s => rfl
  | opts d size rdata l e1 e' rc h1 h2 h3 h4 =>
    have := OptsStep_req h2
    rcases h4 with ⟨-, h, -⟩ | ⟨-, h | h⟩ <;> simp only [h, this] <;> rfl

theorem decoded_rel {g : Cfg} {c : Ctx} {p : Bytes} {t : Txn} {off : Nat} (hd : Decoded g c p .ok t off)
    (hreq : t.edns.reqEdns = true) : ∃ size rdata, HasOpt p 0 t.edns.doBit size rdata ∧ OptRel g c (optList rdata) t.edns := by
  obtain ⟨t1, hq, ht⟩ := hd.steps
  have he1 : t1.edns = {} := by
    rcases hq with ⟨rfl, -⟩ | ⟨ls, ty, cl, -, -, -, -, rfl⟩ <;> rfl
  rcases ht with ⟨rfl, -⟩ | ⟨rc0, ht, hrc⟩
  · rw [he1] at hreq; simp at hreq
  have hrc0 : rc0 = .ok := by
    rcases hrc with h | ⟨h, -⟩ <;> exact h
  subst hrc0
  generalize hr : Rc.ok = r at ht
  cases ht with
  | badvers => simp at hr
  | short => simp at hr
  | opts d size rdata l e1 e' rc' hH hsteps hpre hend =>
    subst hr
    rcases hend with ⟨-, rfl, rfl⟩ | ⟨h | h, -⟩
    · have hdo : e'.doBit = d := by rw [OptsStep_do hsteps, he1]; simp [optBase]
      refine ⟨size, rdata, by simp only; rw [hdo]; exact hH, ?_⟩
      have := OptsStep_rel hsteps [] (by
        rw [he1]
        exact ⟨fun _ => rfl, fun _ => rfl, fun _ d h => by simp [lastOpt, firstOpt] at h, fun _ => ⟨rfl, rfl⟩,
          fun _ => ⟨rfl, rfl⟩, fun _ d h => by simp [firstOpt] at h, by simp [optBase]⟩)
      simpa using this
    · simp at h
    · simp at h

/-- The options of a response, from the request's options: the client subnet with the
scope filled in, the client cookie with the server cookie, the idle timeout on TCP, the
server identifier and padding. -/
def answerOpts (g : Cfg) (c : Ctx) (l : List (Nat × Bytes)) (scope npad : Nat) : List (Nat × Bytes) :=
  (match g.edns_client_subnet, lastOpt 8 l with
    | true, some d => [(8, d.take 3 ++ [if d.drop 2 |>.head? |>.any (· ≠ 0) then UInt8.ofNat scope else 0] ++ d.drop 4)]
    | _, _ => []) ++
  (match g.disable_cookies, firstOpt 10 l with
    | false, some d => [(10, (c.cookieFn d).2)]
    | _, _ => []) ++
  (if !c.isUdp && !c.dsoEstab then [(11, put16 c.ednsTcpKeepalive)] else []) ++
  (if g.nsid ≠ [] ∧ l.any (fun x => x.1 == 3) then [(3, g.nsid)] else []) ++
  (if c.tcpPad then [(12, List.replicate npad 0)] else [])

theorem put16_be16 (a b : UInt8) : put16 (be16 a b) = [a, b] := by
  unfold put16 be16
  have := a.toNat_lt; have := b.toNat_lt
  simp only [List.cons.injEq, and_true]
  exact ⟨UInt8.toNat_inj.mp (by simp; omega), UInt8.toNat_inj.mp (by simp)⟩

theorem respOpts_eq {g : Cfg} {c : Ctx} {l : List (Nat × Bytes)} {e : Edns} (h : OptRel g c l e) (scope npad : Nat) :
    respOpts g c e scope npad = answerOpts g c l scope npad := by
  unfold respOpts answerOpts
  congr 1
  congr 1
  · congr 1
    congr 1
    · cases hg : g.edns_client_subnet with
      | false => rw [h.ecsOff hg]; simp
      | true =>
        cases hl : lastOpt 8 l with
        | none => rw [h.ecsNone hl]; simp
        | some d =>
          obtain ⟨h1, f, s, a, hleg, rfl, rfl, ha⟩ := h.ecsSome hg d hl
          simp only [h1, if_true, List.cons.injEq, Prod.mk.injEq, and_true, true_and]
          obtain ⟨f1, f2, s', rfl, hf, hs⟩ := hleg.shape
          unfold ecsPayload
          have hab : a.length = addrBytes e.ednsClientMask := EcsLegal_addrBytes hleg
          rw [← hab, ha, hf, put16_be16, hs]
          simp only [List.drop, List.take, List.head?, Option.any, UInt8.ofNat_toNat]
          by_cases hz : s' = 0
          · subst hz; simp
          · have : s'.toNat ≠ 0 := fun hc => hz (UInt8.toNat_inj.mp (by simpa using hc))
            simp [hz, this]
    · cases hg : g.disable_cookies with
      | true => rw [(h.ckOff hg).1]; simp
      | false =>
        cases hl : firstOpt 10 l with
        | none => rw [(h.ckNone hl).1]; simp
        | some d =>
          obtain ⟨h1, -, h2, -⟩ := h.ckSome hg d hl
          rw [h1, h2]; simp
  · rw [h.nsid]
    by_cases hn : g.nsid = []
    · simp [hn]
    · have : decide (g.nsid ≠ []) = true := decide_eq_true hn
      simp only [this, Bool.true_and]
      cases l.any (fun x => x.1 == 3) <;> simp [hn]

end Gdnsd.Packet
