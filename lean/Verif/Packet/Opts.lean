import Verif.Packet.Lemmas
/- Proof helpers: EDNS options and the OPT record. -/
namespace Gdnsd.Packet
open PacketSpec

/-- Sizes of the fixed address fields. -/
def EOk (e : Edns) : Prop := e.addr4.length = 4 ∧ e.addr6.length = 16

def toRc : Verdict → Rc
  | .drop => .ignore
  | .formerr => .formerr
  | .badvers => .badvers
  | .notimp => .notimp
  | .answer => .ok
  | .dso => .dso

/-- The settings seen by the specification. -/
def envOf (g : Cfg) (c : Ctx) : Env :=
  { ecs := g.edns_client_subnet, cookies := !g.disable_cookies, dso := !g.disable_tcp_dso,
    inDso := !c.isUdp && c.dsoEstab }

/-- Effect of one option. -/
inductive OptStep (g : Cfg) (c : Ctx) (e : Edns) (code : Nat) (data : Bytes) : Rc → Edns → Prop
  | reject (v : Verdict) (e' : Edns) : option (envOf g c) e.cookieRecvd code data = some v → v ≠ .answer →
      (e' = e ∨ e' = { e with cookieRecvd := true }) → OptStep g c e code data (toRc v) e'
  | none : option (envOf g c) e.cookieRecvd code data = none →
      ((!g.disable_cookies && code == 10) = false ∨ e.cookieRecvd = true) →
      (code = 8 → g.edns_client_subnet = false) → (code = 3 → g.nsid = []) →
      OptStep g c e code data .ok e
  | ecs (f s a) : code = 8 → g.edns_client_subnet = true → EcsLegal data f s a →
      OptStep g c e code data .ok (ecsApply e f s a)
  | nsid : code = 3 → data = [] → g.nsid ≠ [] →
      OptStep g c e code data .ok
        { e with outBytes := e.outBytes + (4 + g.nsid.length), respondNsid := true }
  | cookie : code = 10 → g.disable_cookies = false → e.cookieRecvd = false →
      (data.length = 8 ∨ (16 ≤ data.length ∧ data.length ≤ 40)) →
      OptStep g c e code data .ok
        { e with cookieRecvd := true, cookieRespond := true, outBytes := e.outBytes + 20,
                 cookieValid := (c.cookieFn data).1, cookieOutput := (c.cookieFn data).2 }

theorem option_8 (env : Env) (k : Bool) (d : Bytes) (h : env.ecs = true)
    (hl : ∀ f s a, ¬ EcsLegal d f s a) : option env k 8 d = some .formerr := by
  unfold option
  rw [if_pos rfl, if_neg]
  rintro (h' | ⟨f, s, a, h'⟩)
  · simp [h] at h'
  · exact hl f s a h'

theorem option_3 (env : Env) (k : Bool) (d : Bytes) :
    option env k 3 d = if d = [] then none else some .formerr := by
  unfold option
  rw [if_neg (by decide), if_pos rfl]

theorem option_10 (env : Env) (k : Bool) (d : Bytes) : option env k 10 d =
    if env.cookies = false ∨ k = true ∨ d.length = 8 ∨ (16 ≤ d.length ∧ d.length ≤ 40) then none
    else some .formerr := by
  unfold option
  rw [if_neg (by decide), if_neg (by decide), if_neg (by decide), if_pos rfl]

theorem handleOption_step (g : Cfg) (c : Ctx) (e : Edns) (p : Bytes) (code off n : Nat)
    (hn : off + n ≤ p.length) (he : EOk e) :
    ∃ r e', handleOption g c e p code off n = .ok (r, e') ∧
      OptStep g c e code ((p.drop off).take n) r e' := by
  have hdl : ((p.drop off).take n).length = n := by simp; omega
  unfold handleOption
  by_cases h8 : code = 8
  · simp only [h8, if_true]
    cases hecs : g.edns_client_subnet
    · refine ⟨_, _, rfl, .none ?_ (.inl (by simp)) (fun _ => hecs) (by simp)⟩
      simp [option, envOf, hecs]
    · simp only [if_true]
      rcases handleEcs_eq e p off n hn he.1 he.2 with ⟨f, s, a, hl, h⟩ | ⟨hl, h⟩
      · exact ⟨_, _, h, .ecs f s a rfl hecs hl⟩
      · refine ⟨_, _, h, .reject .formerr e ?_ (by simp) (.inl rfl)⟩
        exact option_8 _ _ _ hecs hl
  simp only [h8, if_false]
  by_cases h3 : code = 3
  · simp only [h3, if_true]
    by_cases h0 : n = 0
    · rw [if_pos h0]
      have hd : (p.drop off).take n = [] := by rw [h0]; simp
      by_cases hl : g.nsid.length ≠ 0
      · rw [if_pos hl]
        exact ⟨_, _, rfl, .nsid rfl hd (by intro h; simp [h] at hl)⟩
      · rw [if_neg hl]
        exact ⟨_, _, rfl, .none (by simp [option, hd]) (.inl (by simp)) (by simp) (fun _ => by simpa using hl)⟩
    · rw [if_neg h0]
      refine ⟨_, _, rfl, .reject .formerr e ?_ (by simp) (.inl rfl)⟩
      rw [option_3, if_neg]
      intro h; rw [h] at hdl; simp at hdl; omega
  simp only [h3, if_false]
  by_cases h11 : code = 11
  · simp only [h11, if_true]
    cases hd : (!c.isUdp && c.dsoEstab)
    · refine ⟨_, _, rfl, .none ?_ (.inl (by simp)) (by simp) (by simp)⟩
      simp [option, envOf, hd]
    · simp only [if_true]
      refine ⟨_, _, rfl, .reject .drop e ?_ (by simp) (.inl rfl)⟩
      simp [option, envOf, hd]
  simp only [h11, if_false]
  by_cases h12 : code = 12
  · simp only [h12, if_true]
    exact ⟨_, _, rfl, .none (by simp [option]) (.inl (by simp)) (by simp) (by simp)⟩
  simp only [h12, if_false]
  by_cases h10 : code = 10
  · simp only [h10, if_true]
    by_cases hck : (!g.disable_cookies && !e.cookieRecvd) = true
    · rw [if_pos hck]
      simp at hck
      unfold handleCookie
      by_cases hbad : n ≠ 8 ∧ (n < 16 ∨ n > 40)
      · simp only
        rw [if_pos hbad]
        refine ⟨_, _, rfl, .reject .formerr _ ?_ (by simp) (.inr rfl)⟩
        rw [option_10, if_neg]
        rw [hdl]
        simp [hck, envOf]; omega
      · simp only
        rw [if_neg hbad, rdN_ok hn]
        exact ⟨_, _, rfl, .cookie rfl hck.1 hck.2 (by rw [hdl]; omega)⟩
    · rw [if_neg hck]
      refine ⟨_, _, rfl, .none ?_ ?_ (by simp) (by simp)⟩
      · rw [option_10, if_pos]
        simp at hck
        cases hdis : g.disable_cookies
        · right; left; exact hck hdis
        · left; simp [envOf, hdis]
      · simp at hck
        cases hdis : g.disable_cookies
        · right; exact hck hdis
        · left; simp
  simp only [h10, if_false]
  refine ⟨_, _, rfl, .none ?_ (.inl (by simp [h10])) (fun h => absurd h h8) (fun h => absurd h h3)⟩
  simp [option, h8, h3, h11, h10]

theorem EOk_ecsApply {e : Edns} (he : EOk e) {d : Bytes} {f s : Nat} {a : Bytes} (h : EcsLegal d f s a) :
    EOk (ecsApply e f s a) := by
  have := h.range
  have := h.minimal
  have h4 := he.1
  have h6 := he.2
  constructor
  · simp only [ecsApply]; split
    · simp; omega
    · exact h4
  · simp only [ecsApply]; split
    · simp; omega
    · exact h6

theorem OptStep_EOk {g : Cfg} {c : Ctx} {e e' : Edns} {code : Nat} {d : Bytes} {r : Rc}
    (h : OptStep g c e code d r e') (he : EOk e) : EOk e' := by
  cases h with
  | reject v e' _ _ h => rcases h with rfl | rfl <;> exact he
  | none => exact he
  | ecs f s a _ _ h => exact EOk_ecsApply he h
  | nsid => exact he
  | cookie => exact he

/-- The verdict part of a step. -/
theorem OptStep_verdict {g : Cfg} {c : Ctx} {e e' : Edns} {code : Nat} {d : Bytes} {r : Rc}
    (h : OptStep g c e code d r e') :
    (∃ v, option (envOf g c) e.cookieRecvd code d = some v ∧ r = toRc v ∧ r ≠ .ok) ∨
    (option (envOf g c) e.cookieRecvd code d = none ∧ r = .ok ∧
      e'.cookieRecvd = (e.cookieRecvd || ((envOf g c).cookies && code == 10))) := by
  cases h with
  | reject v e' h1 h2 _ =>
    left
    refine ⟨v, h1, rfl, ?_⟩
    cases v <;> simp [toRc] at h2 ⊢
  | none h1 h2 =>
    right
    refine ⟨h1, rfl, ?_⟩
    simp only [envOf]
    rcases h2 with h2 | h2 <;> simp [h2]
  | ecs f s a h1 h2 h3 =>
    right
    refine ⟨?_, rfl, by simp [ecsApply, h1]⟩
    simp only [option, h1, if_true]
    rw [if_pos (.inr ⟨f, s, a, h3⟩)]
  | nsid h1 h2 _ =>
    right
    exact ⟨by simp [option, h1, h2], rfl, by simp [h1]⟩
  | cookie h1 h2 h3 h4 =>
    right
    refine ⟨?_, rfl, by simp [h1, envOf, h2]⟩
    rw [h1, option_10, if_pos]
    rcases h4 with h4 | h4 <;> simp [h4]

/-- Reflexive-transitive effect of a sequence of options. -/
inductive OptsStep (g : Cfg) (c : Ctx) : Edns → List (Nat × Bytes) → Edns → Prop
  | nil (e) : OptsStep g c e [] e
  | cons {e e1 e2 code d l} : OptStep g c e code d .ok e1 → OptsStep g c e1 l e2 →
      OptsStep g c e ((code, d) :: l) e2

theorem optList_cons (c1 c2 l1 l2 : UInt8) (r : Bytes) : optList (c1 :: c2 :: l1 :: l2 :: r) =
    if r.length < be16 l1 l2 then []
    else (be16 c1 c2, r.take (be16 l1 l2)) :: optList (r.drop (be16 l1 l2)) := by
  conv => lhs; unfold optList

/-- `handle_edns_options` against the list specification. The `rest` of the steps: the
options accepted before the end or the first rejection. -/
theorem handleOptions_eq (g : Cfg) (c : Ctx) (p : Bytes) (e : Edns) (off n : Nat)
    (hn : off + n ≤ p.length) (h0 : 0 < n) (he : EOk e) :
    ∃ r e' l e1, handleOptions g c p e off n = .ok (r, e') ∧ EOk e' ∧ OptsStep g c e l e1 ∧
      l <+: optList ((p.drop off).take n) ∧
      ((∃ v k, options (envOf g c) e.cookieRecvd ((p.drop off).take n) = (some v, k) ∧ r = toRc v ∧ r ≠ .ok ∧
          (e' = e1 ∨ e' = { e1 with cookieRecvd := true })) ∨
       (options (envOf g c) e.cookieRecvd ((p.drop off).take n) = (none, e'.cookieRecvd) ∧ r = .ok ∧ e' = e1 ∧
          l = optList ((p.drop off).take n))) := by
  induction hk : n using Nat.strongRecOn generalizing e off n with
  | _ m ih =>
    subst hk
    have hdl : ((p.drop off).take n).length = n := by simp; omega
    rw [handleOptions]
    by_cases h4 : n < 4
    · rw [if_pos h4]
      refine ⟨_, _, [], e, rfl, he, .nil e, by simp, .inl ⟨.formerr, e.cookieRecvd, ?_, rfl, by simp, .inl rfl⟩⟩
      match hq : (p.drop off).take n, hdl with
      | [], h => simp at h; omega
      | [_], _ => simp [options]
      | [_, _], _ => simp [options]
      | [_, _, _], _ => simp [options]
      | _ :: _ :: _ :: _ :: _, h => simp at h; omega
    · rw [if_neg h4]
      obtain ⟨c1, c2, l1, l2, rest, hd⟩ : ∃ c1 c2 l1 l2 rest, (p.drop off).take n = c1 :: c2 :: l1 :: l2 :: rest := by
        match hq : (p.drop off).take n, hdl with
        | [], h => simp at h; omega
        | [_], h => simp at h; omega
        | [_, _], h => simp at h; omega
        | [_, _, _], h => simp at h; omega
        | _ :: _ :: _ :: _ :: _, h => exact ⟨_, _, _, _, _, rfl⟩
      have hrl : rest.length = n - 4 := by rw [hd] at hdl; simp at hdl; omega
      have hr16 : ∀ k, k + 1 < n → rd16 p (off + k) = rd16 (c1 :: c2 :: l1 :: l2 :: rest) k := by
        intro k hk; rw [rd16_drop, ← rd16_take hk, hd]
      have hcode : rd16 p off = .ok (be16 c1 c2) := by
        have := hr16 0 (by omega); simpa using this
      have hlen : rd16 p (off + 2) = .ok (be16 l1 l2) := by
        have := hr16 2 (by omega)
        rw [this, rd16_cons_succ, rd16_cons_succ, rd16_cons]
      have hrest : (p.drop (off + 4)).take (n - 4) = rest := by
        have h1 : ((p.drop off).take n).drop 4 = rest := by rw [hd]; rfl
        rw [← h1, List.drop_take, List.drop_drop]
      rw [hcode, hlen]
      simp only [Outcome.bind_ok]
      by_cases hlong : be16 l1 l2 > n - 4
      · rw [if_pos hlong]
        refine ⟨_, _, [], e, rfl, he, .nil e, by simp, .inl ⟨.formerr, e.cookieRecvd, ?_, rfl, by simp, .inl rfl⟩⟩
        rw [hd, options, if_pos (by omega)]
      · rw [if_neg hlong]
        obtain ⟨r, e', hr, hstep⟩ := handleOption_step g c e p (be16 c1 c2) (off + 4) (be16 l1 l2) (by omega) he
        have hdata : (p.drop (off + 4)).take (be16 l1 l2) = rest.take (be16 l1 l2) := by
          rw [← hrest, List.take_take]; congr 1; omega
        have hnext : (p.drop (off + 4 + be16 l1 l2)).take (n - 4 - be16 l1 l2) = rest.drop (be16 l1 l2) := by
          rw [← hrest, List.drop_take, List.drop_drop]
        rw [hr]
        simp only [Outcome.bind_ok]
        rw [hdata] at hstep
        have heo : options (envOf g c) e.cookieRecvd ((p.drop off).take n) =
            match option (envOf g c) e.cookieRecvd (be16 c1 c2) (rest.take (be16 l1 l2)) with
            | some v => (some v, e.cookieRecvd)
            | none => options (envOf g c) (e.cookieRecvd || ((envOf g c).cookies && be16 c1 c2 == 10)) (rest.drop (be16 l1 l2)) := by
          rw [hd]
          conv => lhs; rw [options]
          rw [if_neg (by omega)]
          cases option (envOf g c) e.cookieRecvd (be16 c1 c2) (rest.take (be16 l1 l2)) <;> rfl
        rcases OptStep_verdict hstep with ⟨v, hv, hrv, hrne⟩ | ⟨hv, hrv, hck⟩
        · rw [if_pos hrne]
          have he' : e' = e ∨ e' = { e with cookieRecvd := true } := by
            cases hstep with
            | reject _ _ _ _ h => exact h
            | none => simp at hrne
            | ecs => simp at hrne
            | nsid => simp at hrne
            | cookie => simp at hrne
          refine ⟨r, e', [], e, rfl, OptStep_EOk hstep he, .nil e, by simp, .inl ⟨v, e.cookieRecvd, ?_, hrv, hrne, he'⟩⟩
          rw [heo, hv]
        · rw [if_neg (by simp [hrv])]
          rw [heo, hv]
          simp only
          rw [← hck]
          subst hrv
          by_cases hz : n - 4 - be16 l1 l2 = 0
          · rw [if_pos hz]
            have : rest.drop (be16 l1 l2) = [] := by simp; omega
            refine ⟨_, _, [(be16 c1 c2, rest.take (be16 l1 l2))], e', rfl, OptStep_EOk hstep he,
              .cons hstep (.nil _), ?_, .inr ⟨?_, rfl, rfl, ?_⟩⟩
            · rw [hd, optList_cons, if_neg (by omega)]; simp
            · rw [this, options]
            · rw [hd, optList_cons, if_neg (by omega), this]; simp [optList]
          · rw [if_neg hz]
            obtain ⟨r2, e2, l, e1, h1, h2, h3, h5, h4⟩ := ih (n - 4 - be16 l1 l2) (by omega) e' (off + 4 + be16 l1 l2)
              (n - 4 - be16 l1 l2) (by omega) (by omega) (OptStep_EOk hstep he) rfl
            rw [hnext] at h4 h5
            have hol : optList ((p.drop off).take n) = (be16 c1 c2, rest.take (be16 l1 l2)) :: optList (rest.drop (be16 l1 l2)) := by
              rw [hd, optList_cons, if_neg (by omega)]
            refine ⟨r2, e2, _, e1, h1, h2, .cons hstep h3, ?_, ?_⟩
            · rw [hol]; exact (List.prefix_cons_inj _).2 h5
            · rcases h4 with h4 | ⟨h4, h6, h7, h8⟩
              · exact .inl h4
              · exact .inr ⟨h4, h6, h7, by rw [hol, h8]⟩

end Gdnsd.Packet
