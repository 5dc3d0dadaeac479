import Verif.Packet.Names
/- Proof helpers: the OPT record, the additional section, whole requests. -/
namespace Gdnsd.Packet
open PacketSpec DnameSpec

/-- EDNS state after the fixed part of an OPT record of version 0. -/
def optBase (c : Ctx) (e : Edns) (d : Bool) : Edns :=
  { e with reqEdns := true, outBytes := 11 + (if !c.isUdp && !c.dsoEstab then 6 else 0), doBit := e.doBit || d }

/-- UDP response limit after an OPT record advertising `size`. -/
def newMax (c : Ctx) (t : Txn) (size : Nat) : Nat :=
  if c.isUdp then min (max size 512) c.udpEdnsMax else t.thisMax

/-- Effect of an OPT record on the transaction. -/
inductive OptEffect (g : Cfg) (c : Ctx) (H : Bool → Nat → Bytes → Prop) (t : Txn) : Rc → Txn → Prop
  | badvers (d : Bool) : OptEffect g c H t .badvers
      { t with edns := { t.edns with reqEdns := true, outBytes := 11, doBit := t.edns.doBit || d } }
  | short (d : Bool) (size : Nat) : OptEffect g c H t .formerr
      { t with thisMax := newMax c t size, edns := optBase c t.edns d }
  | opts (d : Bool) (size : Nat) (rdata : Bytes) (l : List (Nat × Bytes)) (e1 e' : Edns) (rc : Rc) :
      H d size rdata → OptsStep g c (optBase c t.edns d) l e1 → l <+: optList rdata →
      ((rc = .ok ∧ e' = e1 ∧ l = optList rdata) ∨ ((rc = .formerr ∨ rc = .ignore) ∧ (e' = e1 ∨ e' = { e1 with cookieRecvd := true }))) →
      OptEffect g c H t rc { t with thisMax := newMax c t size, edns := e' }

theorem option_verdict_cases {env : Env} {k : Bool} {code : Nat} {d : Bytes} {v : Verdict}
    (h : option env k code d = some v) : v = .formerr ∨ v = .drop := by
  unfold option at h
  repeat' split at h
  all_goals simp at h
  all_goals simp [← h]

theorem options_verdict_cases {env : Env} : ∀ (n : Nat) {k : Bool} {d : Bytes} {v : Verdict} {k' : Bool},
    d.length ≤ n → options env k d = (some v, k') → v = .formerr ∨ v = .drop := by
  intro n
  induction n with
  | zero =>
    intro k d v k' hd h
    have : d = [] := List.length_eq_zero_iff.1 (by omega)
    subst this; simp [options] at h
  | succ n ih =>
    intro k d v k' hd h
    match d with
    | [] => simp [options] at h
    | [_] => simp [options] at h; left; exact h.1.symm
    | [_, _] => simp [options] at h; left; exact h.1.symm
    | [_, _, _] => simp [options] at h; left; exact h.1.symm
    | c1 :: c2 :: l1 :: l2 :: r =>
      unfold options at h
      split at h
      · simp at h; left; exact h.1.symm
      · cases ho : option env k (be16 c1 c2) (r.take (be16 l1 l2)) with
        | some w => rw [ho] at h; simp at h; rw [← h.1]; exact option_verdict_cases ho
        | none =>
          rw [ho] at h
          exact ih (by simp at hd ⊢; omega) h

/-- `parse_optrr` on an OPT record. -/
theorem parseOptRR_eq (H : Bool → Nat → Bytes → Prop) (g : Cfg) (c : Ctx) (p : Bytes) (t : Txn) (off : Nat) (he : EOk t.edns)
    (s1 s2 x ver f1 f2 h l : UInt8) (r : Bytes) (ho : off ≤ p.length)
    (hd : p.drop off = 0 :: 0 :: 41 :: s1 :: s2 :: x :: ver :: f1 :: f2 :: h :: l :: r)
    (hH : ver = 0 → be16 h l ≤ r.length → H (decide (128 ≤ f1.toNat)) (be16 s1 s2) (r.take (be16 h l))) :
    ∃ rc t' o', parseOptRR g c p t off = .ok (rc, t', o') ∧ OptEffect g c H t rc t' ∧ EOk t'.edns ∧
      ((ver ≠ 0 ∧ rc = .badvers) ∨
       (ver = 0 ∧ r.length < be16 h l ∧ rc = .formerr) ∨
       (ver = 0 ∧ be16 h l ≤ r.length ∧
        ((∃ v k, options (envOf g c) t.edns.cookieRecvd (r.take (be16 h l)) = (some v, k) ∧ rc = toRc v ∧ rc ≠ .ok) ∨
         (options (envOf g c) t.edns.cookieRecvd (r.take (be16 h l)) = (none, t'.edns.cookieRecvd) ∧ rc = .ok ∧
          o' ≤ p.length ∧ p.drop o' = r.drop (be16 h l))))) := by
  have hlen : p.length = off + 11 + r.length := by
    have := congrArg List.length hd; simp at this; omega
  have hr16 : ∀ k, rd16 p (off + k) = rd16 (0 :: 0 :: 41 :: s1 :: s2 :: x :: ver :: f1 :: f2 :: h :: l :: r) k := by
    intro k; rw [rd16_drop, hd]
  have hrdr : p.drop (off + 11) = r := by rw [← List.drop_drop, hd]; rfl
  have hb := be16
  unfold parseOptRR
  have e0 : rd p off = .ok 0 := by
    have := rd_drop p off 0; rw [Nat.add_zero] at this; rw [this, hd]; simp
  rw [decide_eq_true (by omega), e0, hr16 1, hr16 3, hr16 5, hr16 7, hr16 9]
  simp only [rd16_cons_succ, rd16_cons, Outcome.bind_ok, assert_true, beq_self_eq_true,
    show be16 0 41 = 41 from rfl]
  have hver : be16 x ver % 256 = ver.toNat := by have := ver.toNat_lt; unfold be16; omega
  rw [hver]
  by_cases hv : ver = 0
  · subst hv
    have hz : (0 : UInt8).toNat = 0 := rfl
    rw [if_pos hz]
    have hmax : (if c.isUdp = true then
          ({ t with thisMax := if (if be16 s1 s2 < 512 then 512 else be16 s1 s2) < c.udpEdnsMax then
              (if be16 s1 s2 < 512 then 512 else be16 s1 s2) else c.udpEdnsMax } : Txn)
        else t) = { t with thisMax := newMax c t (be16 s1 s2) } := by
      unfold newMax
      cases c.isUdp
      · simp
      · simp only [if_true]
        congr 1
        split <;> split <;> omega
    have hbase : (if (!c.isUdp && !c.dsoEstab) = true then
        { t.edns with reqEdns := true, outBytes := 11 + 6, doBit := t.edns.doBit || decide (be16 f1 f2 / 0x8000 % 2 = 1) }
      else { t.edns with reqEdns := true, outBytes := 11, doBit := t.edns.doBit || decide (be16 f1 f2 / 0x8000 % 2 = 1) }) =
        optBase c t.edns (decide (be16 f1 f2 / 0x8000 % 2 = 1)) := by
      unfold optBase
      split <;> rfl
    simp only [hmax, hbase]
    have heb : EOk (optBase c t.edns (decide (be16 f1 f2 / 0x8000 % 2 = 1))) := he
    have hcb : (optBase c t.edns (decide (be16 f1 f2 / 0x8000 % 2 = 1))).cookieRecvd = t.edns.cookieRecvd := rfl
    have hdd : decide (128 ≤ f1.toNat) = decide (be16 f1 f2 / 0x8000 % 2 = 1) := by
      have h1 : f1.toNat < 256 := f1.toNat_lt
      have h2 : f2.toNat < 256 := f2.toNat_lt
      rw [decide_eq_decide]; unfold be16; omega
    rw [hdd] at hH
    generalize decide (be16 f1 f2 / 0x8000 % 2 = 1) = d at *
    by_cases hrl : be16 h l ≠ 0
    · rw [if_pos hrl]
      by_cases hs : p.length < off + 11 + be16 h l
      · rw [if_pos hs]
        exact ⟨_, _, _, rfl, .short d _, heb, .inr (.inl ⟨trivial, by omega, rfl⟩)⟩
      · rw [if_neg hs]
        have hopt : H d (be16 s1 s2) (r.take (be16 h l)) := hH rfl (by omega)
        obtain ⟨rc, e', ls, e1, h1, h2, h3, h4, h5⟩ := handleOptions_eq g c p (optBase c t.edns d) (off + 11) (be16 h l)
          (by omega) (by omega) heb
        rw [hrdr] at h4 h5
        rw [h1, Outcome.bind_ok]
        rw [hcb] at h5
        refine ⟨rc, _, _, rfl, .opts d _ _ ls e1 e' rc hopt h3 h4 ?_, h2, .inr (.inr ⟨trivial, by omega, ?_⟩)⟩
        · rcases h5 with ⟨v, k, h5, h6, h7, h8⟩ | ⟨h5, h6, h7, h8⟩
          · right
            refine ⟨?_, h8⟩
            rcases options_verdict_cases _ (Nat.le_refl _) h5 with rfl | rfl <;> simp [h6, toRc]
          · left; exact ⟨h6, h7, h8⟩
        · rcases h5 with ⟨v, k, h5, h6, h7, h8⟩ | ⟨h5, h6, h7, h8⟩
          · left; exact ⟨v, k, h5, h6, h7⟩
          · right
            refine ⟨h5, h6, by omega, ?_⟩
            rw [← List.drop_drop, hrdr]
    · have hrl : be16 h l = 0 := by omega
      rw [if_neg (by omega)]
      have hopt : H d (be16 s1 s2) [] := by
        have := hH rfl (by omega)
        simpa [hrl] using this
      refine ⟨_, _, _, rfl, .opts d _ _ [] _ _ .ok hopt (.nil _) (by simp) (.inl ⟨rfl, rfl, by simp [optList]⟩), heb,
        .inr (.inr ⟨trivial, by omega, .inr ⟨?_, rfl, by omega, ?_⟩⟩)⟩
      · rw [hrl]; simp [options]; rfl
      · rw [hrl, hrdr]; simp
  · have hv' : ver.toNat ≠ 0 := by
      intro h'; apply hv; exact UInt8.toNat_inj.1 (by simpa using h')
    rw [if_neg hv']
    exact ⟨_, _, _, rfl, .badvers _, he, .inl ⟨hv, rfl⟩⟩

/-- Whether the bytes start with an OPT record header. -/
def IsOpt (b : Bytes) : Prop :=
  ∃ s1 s2 x ver f1 f2 h l r, b = 0 :: 0 :: 41 :: s1 :: s2 :: x :: ver :: f1 :: f2 :: h :: l :: r

theorem additional_opt (env : Env) (n : Nat) (seen ck : Bool) (s1 s2 x ver f1 f2 h l : UInt8) (r : Bytes) :
    additional env (n + 1) seen ck (0 :: 0 :: 41 :: s1 :: s2 :: x :: ver :: f1 :: f2 :: h :: l :: r) =
      if seen then (some .formerr, ck)
      else if ver ≠ 0 then (some .badvers, ck)
      else if r.length < be16 h l then (some .formerr, ck)
      else
        match options env ck (r.take (be16 h l)) with
        | (some v, k) => (some v, k)
        | (none, k) => additional env n true k (r.drop (be16 h l)) := by
  conv => lhs; unfold additional
  rfl

theorem additional_other (env : Env) (n : Nat) (seen ck : Bool) (b : Bytes) (hb : ¬ IsOpt b) :
    additional env (n + 1) seen ck b =
      match record b with
      | none => (some .formerr, ck)
      | some r => additional env n seen ck r := by
  conv => lhs; unfold additional
  split
  · exact absurd ⟨_, _, _, _, _, _, _, _, _, rfl⟩ hb
  · rfl

/-- The test `len >= 11 && !*buf && type == OPT` (dnspacket.c:683-686). -/
theorem isOpt_test (p : Bytes) (off : Nat) (ho : off ≤ p.length) :
    ∃ b : Bool, (if p.length ≥ off + 11 then
      (rd p off).bind fun b =>
        if b = 0 then (rd16 p (off + 1)).bind fun ty => Outcome.ok (decide (ty = 41)) else .ok false
     else .ok false) = .ok b ∧ (b = true ↔ IsOpt (p.drop off)) := by
  by_cases h11 : p.length ≥ off + 11
  · rw [if_pos h11]
    have hl : (p.drop off).length ≥ 11 := by simp; omega
    match hd : p.drop off, hl with
    | a0 :: a1 :: a2 :: a3 :: a4 :: a5 :: a6 :: a7 :: a8 :: a9 :: a10 :: r, _ =>
      have e0 : rd p off = .ok a0 := by
        have := rd_drop p off 0; rw [Nat.add_zero] at this; rw [this, hd]; simp
      have e1 : rd16 p (off + 1) = .ok (be16 a1 a2) := by
        rw [rd16_drop, hd, rd16_cons_succ, rd16_cons]
      rw [e0, e1]
      simp only [Outcome.bind_ok]
      by_cases h0 : a0 = 0
      · rw [if_pos h0]
        refine ⟨_, rfl, ?_⟩
        simp only [decide_eq_true_eq]
        constructor
        · intro h
          have h1 := a1.toNat_lt
          have h2 := a2.toNat_lt
          unfold be16 at h
          have h3 : a1 = 0 := UInt8.toNat_inj.1 (by simp; omega)
          have h4 : a2 = 41 := UInt8.toNat_inj.1 (by simp; omega)
          subst h0 h3 h4
          exact ⟨_, _, _, _, _, _, _, _, _, rfl⟩
        · rintro ⟨_, _, _, _, _, _, _, _, _, h⟩
          simp at h
          rw [h.2.1, h.2.2.1]; rfl
      · rw [if_neg h0]
        refine ⟨_, rfl, ?_⟩
        simp only [Bool.false_eq_true, false_iff]
        rintro ⟨_, _, _, _, _, _, _, _, _, h⟩
        simp at h; exact h0 h.1
  · rw [if_neg h11]
    refine ⟨_, rfl, ?_⟩
    simp only [Bool.false_eq_true, false_iff]
    rintro ⟨_, _, _, _, _, _, _, _, _, h⟩
    have := congrArg List.length h
    simp at this; omega

theorem OptEffect_mono {g : Cfg} {c : Ctx} {H H' : Bool → Nat → Bytes → Prop} {t t' : Txn} {rc : Rc}
    (hH : ∀ d s r, H d s r → H' d s r) (h : OptEffect g c H t rc t') : OptEffect g c H' t rc t' := by
  cases h with
  | badvers d => exact .badvers d
  | short d s => exact .short d s
  | opts d size rdata l e1 e' rc h1 h2 h3 h4 => exact .opts d size rdata l e1 e' rc (hH _ _ _ h1) h2 h3 h4

theorem OptIn_succ {n : Nat} {b b' : Bytes} {ver : UInt8} {dobit : Bool} {size : Nat} {rdata : Bytes} (hr : record b = some b')
    (h : OptIn n b' ver dobit size rdata) : OptIn (n + 1) b ver dobit size rdata := by
  obtain ⟨k, s1, s2, x, f1, f2, h1, l, post, hk, hrep, h2, h3⟩ := h
  exact ⟨k + 1, s1, s2, x, f1, f2, h1, l, post, by omega, by simp only [repeatN, hr, Option.bind_some]; exact hrep, h2, h3⟩

theorem parseAdditional_eq (g : Cfg) (c : Ctx) (p : Bytes) (n : Nat) (seen : Bool) (t : Txn) (off : Nat)
    (he : EOk t.edns) (ho : off ≤ p.length) :
    ∃ rc t', parseAdditional g c p n seen t off = .ok (rc, t') ∧ EOk t'.edns ∧
      ((t' = t ∧ rc ≠ .badvers ∧ (seen = false → rc = .ok → ∀ v d s r, ¬ OptIn n (p.drop off) v d s r)) ∨ (seen = false ∧ (OptEffect g c (OptIn n (p.drop off) 0) t rc t' ∨
        (rc = .formerr ∧ OptEffect g c (OptIn n (p.drop off) 0) t .ok t')))) ∧
      ((∃ v k, additional (envOf g c) n seen t.edns.cookieRecvd (p.drop off) = (some v, k) ∧ rc = toRc v ∧ rc ≠ .ok) ∨
       (additional (envOf g c) n seen t.edns.cookieRecvd (p.drop off) = (none, t'.edns.cookieRecvd) ∧ rc = .ok)) := by
  induction n generalizing seen t off with
  | zero => exact ⟨_, _, rfl, he, .inl ⟨rfl, by simp, fun _ _ v d s r h => by obtain ⟨k, _, _, _, _, _, _, _, _, hk, -⟩ := h; omega⟩, .inr ⟨rfl, rfl⟩⟩
  | succ n ih =>
    obtain ⟨b, hb1, hb2⟩ := isOpt_test p off ho
    rw [parseAdditional, hb1, Outcome.bind_ok]
    by_cases hb : b = true
    · rw [if_pos hb]
      obtain ⟨s1, s2, x, ver, f1, f2, h, l, r, hd⟩ := hb2.1 hb
      rw [hd, additional_opt]
      cases seen
      · simp only [Bool.false_eq_true, if_false]
        obtain ⟨rc, t', o', h1, h2, h3, h4⟩ := parseOptRR_eq (OptIn (n + 1) (p.drop off) 0) g c p t off
          he s1 s2 x ver f1 f2 h l r ho hd (fun hv hle => by
            refine ⟨0, s1, s2, x, f1, f2, h, l, r.drop (be16 h l), by omega, ?_, by simp; omega, rfl, rfl⟩
            rw [repeatN, hd, hv]; simp)
        rw [hd] at h2
        rw [h1, Outcome.bind_ok]
        simp only
        rcases h4 with ⟨h4, h5⟩ | ⟨h4, h5, h6⟩ | ⟨h4, h5, h6⟩
        · rw [if_pos (by simp [h5]), if_pos h4]
          exact ⟨_, _, rfl, h3, .inr ⟨trivial, .inl h2⟩, .inl ⟨_, _, rfl, by simp [h5, toRc], by simp [h5]⟩⟩
        · rw [if_pos (by simp [h6]), if_neg (by simp [h4]), if_pos h5]
          exact ⟨_, _, rfl, h3, .inr ⟨trivial, .inl h2⟩, .inl ⟨_, _, rfl, by simp [h6, toRc], by simp [h6]⟩⟩
        · rw [if_neg (show ¬ ver ≠ 0 by simp [h4]), if_neg (show ¬ r.length < be16 h l by omega)]
          rcases h6 with ⟨v, k, h6, h7, h8⟩ | ⟨h6, h7, h8, h9⟩
          · rw [if_pos (by simpa using h8), h6]
            exact ⟨_, _, rfl, h3, .inr ⟨trivial, .inl h2⟩, .inl ⟨_, _, rfl, h7, h8⟩⟩
          · rw [if_neg (by simp [h7]), h6, ← h9]
            obtain ⟨rc2, t2, k1, k2, k3, k4⟩ := ih true t' o' h3 h8
            refine ⟨rc2, t2, k1, k2, .inr ⟨trivial, ?_⟩, k4⟩
            rcases k3 with ⟨k3, k5, -⟩ | ⟨k3, -⟩
            · subst k3
              rw [h7] at h2
              rcases k4 with ⟨v, k, k4, k6, k7⟩ | ⟨k4, k6⟩
              · right
                refine ⟨?_, h2⟩
                -- after the OPT record only records remain: the only rejection is FORMERR
                rw [k6] at k5 ⊢
                have : ∀ m ck b v k, additional (envOf g c) m true ck b = (some v, k) → v = .formerr := by
                  intro m
                  induction m with
                  | zero => intro ck b v k h; simp [additional] at h
                  | succ m ihm =>
                    intro ck b v k h
                    by_cases hi : IsOpt b
                    · obtain ⟨_, _, _, _, _, _, _, _, _, rfl⟩ := hi
                      rw [additional_opt] at h
                      simp at h; exact h.1.symm
                    · rw [additional_other _ _ _ _ _ hi] at h
                      cases hr : record b with
                      | none => rw [hr] at h; simp at h; exact h.1.symm
                      | some r => rw [hr] at h; exact ihm _ _ _ _ h
                rw [this _ _ _ _ _ k4]; rfl
              · left; rw [k6]; exact h2
            · simp at k3
      · simp only [if_true]
        exact ⟨_, _, rfl, he, .inl ⟨rfl, by simp, by simp⟩, .inl ⟨_, _, rfl, rfl, by simp⟩⟩
    · rw [if_neg hb, additional_other _ _ _ _ _ (fun hc => hb (hb2.2 hc))]
      rcases parseRr_record p off ho with ⟨h1, h2⟩ | ⟨o', h1, h2, h3, h4⟩
      · rw [h1, h2, Outcome.bind_ok]
        exact ⟨_, _, rfl, he, .inl ⟨rfl, by simp, by simp⟩, .inl ⟨_, _, rfl, rfl, by simp⟩⟩
      · rw [h1, h2, Outcome.bind_ok]
        obtain ⟨rc, t', j1, j2, j3, j4⟩ := ih seen t o' he h4
        refine ⟨rc, t', j1, j2, ?_, j4⟩
        rcases j3 with j | ⟨k, j | ⟨j, j'⟩⟩
        · refine .inl ⟨j.1, j.2.1, fun hs hr v d s r hin => ?_⟩
          obtain ⟨m, s1, s2, x, f1, f2, h, l, post, hm, hrep, e1, e2⟩ := hin
          cases m with
          | zero =>
            simp only [repeatN, Option.some.injEq] at hrep
            exact hb (hb2.2 ⟨_, _, _, _, _, _, _, _, _, hrep⟩)
          | succ m =>
            simp only [repeatN, h1, Option.bind_some] at hrep
            exact j.2.2 hs hr v d s r ⟨m, s1, s2, x, f1, f2, h, l, post, by omega, hrep, e1, e2⟩
        · exact .inr ⟨k, .inl (OptEffect_mono (fun _ _ _ h => OptIn_succ h1 h) j)⟩
        · exact .inr ⟨k, .inr ⟨j, OptEffect_mono (fun _ _ _ h => OptIn_succ h1 h) j'⟩⟩


theorem Questions_unique {n : Nat} {b : Bytes} {ty ty' : Nat} {r r' : Bytes}
    (h : Questions n b ty r) (h' : Questions n b ty' r') : ty = ty' ∧ r = r' := by
  cases h with
  | none => cases h'; exact ⟨rfl, rfl⟩
  | some h1 h2 =>
    cases h' with
    | some h3 h4 =>
      obtain ⟨-, rfl, -, rfl⟩ := FirstQuestion_unique h1 h3
      rw [h2] at h4
      exact ⟨rfl, by simpa using h4⟩

/-- The transaction after the first question. -/
def QStep (c : Ctx) (p : Bytes) (t : Txn) (off : Nat) : Prop :=
  (t = initTxn c ∧ off = 12 ∧ (p.length < 12 ∨ (∃ b, rd p 2 = .ok b ∧ b.toNat ≥ 128) ∨ rd16 p 4 = .ok 0 ∨
    ∀ ls ty cl rest, ¬ FirstQuestion (p.drop 12) ls ty cl rest)) ∨
  (∃ ls ty cl, FirstQuestion (p.drop 12) ls ty cl (p.drop off) ∧ off = 12 + wireLen ls + 4 ∧ off ≤ p.length ∧ rd16 p 4 ≠ .ok 0 ∧
    t = { initTxn c with lqname := encode (ls.map (·.map lower)) true, qtype := ty, qclass := cl, qdcount := 1 })

/-- Facts about the decoder's result. -/
structure Decoded (g : Cfg) (c : Ctx) (p : Bytes) (rc : Rc) (t : Txn) (off : Nat) : Prop where
  eok : EOk t.edns
  steps : ∃ t1, QStep c p t1 off ∧
    ((t = t1 ∧ rc ≠ .badvers ∧ (rc = .ok → ∀ v d s r, ¬ HasOpt p v d s r)) ∨ ∃ rc0, OptEffect g c (HasOpt p 0) t1 rc0 t ∧ (rc0 = rc ∨ (rc0 = .ok ∧ rc ≠ .badvers)))
  answer : rc = .ok → ((rd16 p 4 = .ok 1 ∧ t.qdcount = 1) ∨
    (rd16 p 4 = .ok 0 ∧ t.qdcount = 0 ∧ t.edns.cookieRecvd = true))
  length : rc ≠ .ignore → 12 ≤ p.length

theorem OptEffect_keep {g : Cfg} {c : Ctx} {H : Bool → Nat → Bytes → Prop} {t t' : Txn} {rc : Rc} (h : OptEffect g c H t rc t') :
    t'.qtype = t.qtype ∧ t'.qclass = t.qclass ∧ t'.qdcount = t.qdcount ∧ t'.lqname = t.lqname := by
  cases h <;> simp

theorem parseQueryRrs_eq (g : Cfg) (c : Ctx) (x0 x1 f1 f2 q1 q2 a1 a2 n1 n2 r1 r2 : UInt8) (body p : Bytes)
    (hp : p = x0 :: x1 :: f1 :: f2 :: q1 :: q2 :: a1 :: a2 :: n1 :: n2 :: r1 :: r2 :: body) :
    ∃ rc t off t1, parseQueryRrs g c p (initTxn c) = .ok (rc, t, off) ∧ EOk t.edns ∧ QStep c p t1 off ∧
      ((t = t1 ∧ rc ≠ .badvers ∧ (rc = .ok → ∀ v d s r, ¬ HasOpt p v d s r)) ∨ ∃ rc0, OptEffect g c (HasOpt p 0) t1 rc0 t ∧ (rc0 = rc ∨ (rc0 = .ok ∧ rc ≠ .badvers))) ∧
      (((∀ ty r, ¬ Questions (be16 q1 q2) body ty r) ∧ rc = .formerr) ∨
       (∃ ty r, Questions (be16 q1 q2) body ty r ∧
         (((repeatN record (be16 a1 a2) r).bind (repeatN record (be16 n1 n2)) = none ∧ rc = .formerr) ∨
          (∃ rest, (repeatN record (be16 a1 a2) r).bind (repeatN record (be16 n1 n2)) = some rest ∧
            ((∃ v k, additional (envOf g c) (be16 r1 r2) false false rest = (some v, k) ∧ rc = toRc v ∧ rc ≠ .ok) ∨
             (additional (envOf g c) (be16 r1 r2) false false rest = (none, t.edns.cookieRecvd) ∧ rc = .ok ∧
               t.qtype = ty ∧ ((be16 q1 q2 = 0 ∧ t.qdcount = 0) ∨ (be16 q1 q2 ≠ 0 ∧ t.qdcount = 1)))))))) := by
  have hlen : 12 ≤ p.length := by rw [hp]; simp
  have hbody : p.drop 12 = body := by rw [hp]; rfl
  have hr16 : ∀ k, rd16 p k = rd16 (x0 :: x1 :: f1 :: f2 :: q1 :: q2 :: a1 :: a2 :: n1 :: n2 :: r1 :: r2 :: body) k := by
    intro k; rw [hp]
  have he0 : EOk (initTxn c).edns := ⟨rfl, rfl⟩
  unfold parseQueryRrs
  rw [decide_eq_true hlen, show ((initTxn c).qdcount == 0) = true from rfl, hr16 4, hr16 6, hr16 8, hr16 10]
  simp only [rd16_cons_succ, rd16_cons, Outcome.bind_ok, assert_true]
  -- common tail after the first question
  have tail : ∀ (t1 : Txn) (out : Nat), QStep c p t1 out → out ≤ p.length → EOk t1.edns → t1.edns.cookieRecvd = false →
      (∀ r, repeatN question (be16 q1 q2 - 1) (p.drop out) = some r → ∃ ty, Questions (be16 q1 q2) body ty r) →
      ∃ rc t, ((parseRrs p false (be16 q1 q2 - 1) out).bind fun r => match r with
    | none => Outcome.ok (Rc.formerr, t1, out)
    | some offset => (parseRrs p true (be16 a1 a2) offset).bind fun r => match r with
      | none => .ok (.formerr, t1, out)
      | some offset => (parseRrs p true (be16 n1 n2) offset).bind fun r => match r with
        | none => .ok (.formerr, t1, out)
        | some offset => (parseAdditional g c p (be16 r1 r2) false t1 offset).bind fun r =>
          .ok (r.1, r.2, out)) = .ok (rc, t, out) ∧ EOk t.edns ∧
        ((t = t1 ∧ rc ≠ .badvers ∧ (rc = .ok → ∀ v d s r, ¬ HasOpt p v d s r)) ∨ ∃ rc0, OptEffect g c (HasOpt p 0) t1 rc0 t ∧ (rc0 = rc ∨ (rc0 = .ok ∧ rc ≠ .badvers))) ∧
        ((repeatN question (be16 q1 q2 - 1) (p.drop out) = none ∧ rc = .formerr) ∨
         (∃ r, repeatN question (be16 q1 q2 - 1) (p.drop out) = some r ∧
         (((repeatN record (be16 a1 a2) r).bind (repeatN record (be16 n1 n2)) = none ∧ rc = .formerr) ∨
          (∃ rest, (repeatN record (be16 a1 a2) r).bind (repeatN record (be16 n1 n2)) = some rest ∧
            ((∃ v k, additional (envOf g c) (be16 r1 r2) false false rest = (some v, k) ∧ rc = toRc v ∧ rc ≠ .ok) ∨
             (additional (envOf g c) (be16 r1 r2) false false rest = (none, t.edns.cookieRecvd) ∧ rc = .ok)))))) := by
    intro t1 out hq ho he hck hQ
    rcases parseRrs_eq p false (be16 q1 q2 - 1) out ho with ⟨h1, h2⟩ | ⟨o1, h1, h2, h3, h4⟩
    · rw [h2, Outcome.bind_ok]
      exact ⟨_, _, rfl, he, .inl ⟨rfl, by simp, by simp⟩, .inl ⟨h1, rfl⟩⟩
    · rw [h2, Outcome.bind_ok]
      simp only [Bool.false_eq_true, if_false] at h1
      rcases parseRrs_eq p true (be16 a1 a2) o1 h4 with ⟨k1, k2⟩ | ⟨o2, k1, k2, k3, k4⟩
      · simp only [if_true] at k1
        simp only [k2, Outcome.bind_ok]
        exact ⟨_, _, rfl, he, .inl ⟨rfl, by simp, by simp⟩, .inr ⟨_, h1, .inl ⟨by rw [k1]; rfl, rfl⟩⟩⟩
      · simp only [if_true] at k1
        simp only [k2, Outcome.bind_ok]
        rcases parseRrs_eq p true (be16 n1 n2) o2 k4 with ⟨m1, m2⟩ | ⟨o3, m1, m2, m3, m4⟩
        · simp only [if_true] at m1
          simp only [m2, Outcome.bind_ok]
          exact ⟨_, _, rfl, he, .inl ⟨rfl, by simp, by simp⟩, .inr ⟨_, h1, .inl ⟨by rw [k1, Option.bind_some, m1], rfl⟩⟩⟩
        · simp only [if_true] at m1
          simp only [m2, Outcome.bind_ok]
          obtain ⟨rc, t, j1, j2, j3, j4⟩ := parseAdditional_eq g c p (be16 r1 r2) false t1 o3 he m4
          rw [j1, Outcome.bind_ok]
          rw [hck] at j4
          have hmono : ∀ d s r, OptIn (be16 r1 r2) (p.drop o3) 0 d s r → HasOpt p 0 d s r := by
            intro d s r h
            obtain ⟨ty, hty⟩ := hQ _ h1
            exact ⟨x0, x1, f1, f2, q1, q2, a1, a2, n1, n2, r1, r2, body, ty, _, _, hp, hty,
              by rw [k1, Option.bind_some, m1], h⟩
          refine ⟨_, _, rfl, j2, ?_, .inr ⟨_, h1, .inr ⟨_, by rw [k1, Option.bind_some, m1], j4⟩⟩⟩
          rcases j3 with h | ⟨-, h | ⟨h, h'⟩⟩
          · refine .inl ⟨h.1, h.2.1, fun hr v d s r hH => h.2.2 rfl hr v d s r ?_⟩
            obtain ⟨_, _, _, _, _, _, _, _, _, _, _, _, _, ty', b', rest', e1, e2, e3, e4⟩ := hH
            rw [hp] at e1
            simp only [List.cons.injEq] at e1
            obtain ⟨-, -, -, -, rfl, rfl, rfl, rfl, rfl, rfl, rfl, rfl, rfl⟩ := e1
            obtain ⟨ty, hty⟩ := hQ _ h1
            obtain ⟨-, rfl⟩ := Questions_unique hty e2
            rw [k1, Option.bind_some, m1] at e3
            simp only [Option.some.injEq] at e3
            subst e3
            exact e4
          · exact .inr ⟨rc, OptEffect_mono hmono h, .inl rfl⟩
          · exact .inr ⟨.ok, OptEffect_mono hmono h', .inr ⟨rfl, by simp [h]⟩⟩
  by_cases hq0 : be16 q1 q2 = 0
  · rw [if_neg (show ¬ be16 q1 q2 ≠ 0 by omega), Outcome.bind_ok]
    have hqs : QStep c p (initTxn c) 12 := .inl ⟨rfl, rfl, .inr (.inr (.inl (by rw [hp]; simp [rd16_cons_succ, hq0])))⟩
    obtain ⟨rc, t, h1, h2, h3, h4⟩ := tail (initTxn c) 12 hqs hlen he0 rfl (fun r hr => by
      rw [hq0, hbody] at hr; simp [repeatN] at hr; subst hr; rw [hq0]; exact ⟨0, .none _⟩)
    refine ⟨rc, t, 12, initTxn c, h1, h2, hqs, h3, .inr ⟨0, body, ?_, ?_⟩⟩
    · rw [hq0]; exact .none _
    · rw [hq0, hbody] at h4
      simp only [Nat.zero_sub, repeatN] at h4
      rcases h4 with ⟨h4, -⟩ | ⟨r, h4, h5⟩
      · simp at h4
      · simp at h4; subst h4
        rcases h5 with h5 | ⟨rest, h5, h6⟩
        · exact .inl h5
        · refine .inr ⟨rest, h5, ?_⟩
          rcases h6 with h6 | ⟨h6, h7⟩
          · exact .inl h6
          · have : t.qtype = 0 ∧ t.qdcount = 0 := by
              rcases h3 with ⟨rfl, -⟩ | ⟨rc0, h3, -⟩
              · exact ⟨rfl, rfl⟩
              · obtain ⟨e1, -, e2, -⟩ := OptEffect_keep h3
                exact ⟨e1, e2⟩
            exact .inr ⟨h6, h7, this.1, .inl ⟨hq0, this.2⟩⟩
  · rw [if_pos hq0]
    rcases parseFirstQuestion_eq p (initTxn c) 12 hlen with ⟨ls, ty, cl, o', h1, h2, h3, h4, h5⟩ | ⟨h1, h2⟩
    · rw [h5]
      simp only [Outcome.bind_ok]
      have hqs : QStep c p { initTxn c with lqname := encode (ls.map (·.map lower)) true, qtype := ty, qclass := cl, qdcount := 1 } o' :=
        .inr ⟨ls, ty, cl, h1, h4, h3, by rw [hp]; simp [rd16_cons_succ, hq0], rfl⟩
      obtain ⟨m, hm⟩ : ∃ m, be16 q1 q2 = m + 1 := ⟨be16 q1 q2 - 1, by omega⟩
      obtain ⟨rc, t, k1, k2, k3, k4⟩ := tail _ o' hqs h3 he0 rfl (fun r hr => by
        rw [hm, Nat.add_sub_cancel] at hr; rw [hbody] at h1; rw [hm]; exact ⟨ty, .some h1 hr⟩)
      refine ⟨rc, t, o', _, k1, k2, hqs, k3, ?_⟩
      rw [hbody] at h1
      rw [hm] at k4 ⊢
      simp only [Nat.add_sub_cancel] at k4
      rcases k4 with ⟨k4, k5⟩ | ⟨r, k4, k5⟩
      · left
        refine ⟨fun ty' r' hc => ?_, k5⟩
        cases hc with
        | some e1 e2 =>
          obtain ⟨-, -, -, rfl⟩ := FirstQuestion_unique h1 e1
          rw [k4] at e2; simp at e2
      · right
        refine ⟨ty, r, .some h1 k4, ?_⟩
        rcases k5 with k5 | ⟨rest, k5, k6⟩
        · exact .inl k5
        · refine .inr ⟨rest, k5, ?_⟩
          rcases k6 with k6 | ⟨k6, k7⟩
          · exact .inl k6
          · have : t.qtype = ty ∧ t.qdcount = 1 := by
              rcases k3 with ⟨rfl, -⟩ | ⟨rc0, k3, -⟩
              · exact ⟨rfl, rfl⟩
              · obtain ⟨e1, -, e2, -⟩ := OptEffect_keep k3
                exact ⟨e1, e2⟩
            exact .inr ⟨k6, k7, this.1, .inr ⟨by omega, this.2⟩⟩
    · rw [h2]
      simp only [Outcome.bind_ok]
      refine ⟨_, _, _, _, rfl, he0, .inl ⟨rfl, rfl, .inr (.inr (.inr h1))⟩, .inl ⟨rfl, by simp, by simp⟩, .inl ⟨fun ty r hc => ?_, rfl⟩⟩
      rw [hbody] at h1
      obtain ⟨m, hm⟩ : ∃ m, be16 q1 q2 = m + 1 := ⟨be16 q1 q2 - 1, by omega⟩
      rw [hm] at hc
      cases hc with
      | some e1 e2 => exact h1 _ _ _ _ e1

theorem verdict_short (env : Env) (p : Bytes) (h : p.length < 12) : verdict env p = .drop := by
  unfold verdict
  split
  · simp at h; omega
  · rfl

theorem verdict_none (env : Env) (x0 x1 f1 f2 q1 q2 a1 a2 n1 n2 r1 r2 : UInt8) (body : Bytes)
    (hqr : ¬ f1.toNat ≥ 128) (h : ∀ ty r, ¬ Questions (be16 q1 q2) body ty r) :
    verdict env (x0 :: x1 :: f1 :: f2 :: q1 :: q2 :: a1 :: a2 :: n1 :: n2 :: r1 :: r2 :: body) = .formerr := by
  rw [verdict, if_neg hqr, dif_neg]
  rintro ⟨x, hx⟩; exact h _ _ hx

theorem verdict_some (env : Env) (x0 x1 f1 f2 q1 q2 a1 a2 n1 n2 r1 r2 : UInt8) (body : Bytes)
    (hqr : ¬ f1.toNat ≥ 128) {ty : Nat} {r : Bytes} (h : Questions (be16 q1 q2) body ty r) :
    verdict env (x0 :: x1 :: f1 :: f2 :: q1 :: q2 :: a1 :: a2 :: n1 :: n2 :: r1 :: r2 :: body) =
      match (repeatN record (be16 a1 a2) r).bind (repeatN record (be16 n1 n2)) with
      | none => .formerr
      | some rest =>
        match additional env (be16 r1 r2) false false rest with
        | (some v, _) => v
        | (none, cookie) => opVerdict env (f1.toNat / 8 % 16) (be16 q1 q2) ty cookie := by
  have hex : ∃ x : Nat × Bytes, Questions (be16 q1 q2) body x.1 x.2 := ⟨(ty, r), h⟩
  obtain ⟨c1, c2⟩ := Questions_unique hex.choose_spec h
  rw [verdict, if_neg hqr, dif_pos hex, c1, c2]
  rfl

/-- The decoder against the specification. -/
theorem decodeQuery_eq (g : Cfg) (c : Ctx) (p : Bytes) :
    ∃ rc t off, decodeQuery g c p (initTxn c) = .ok (rc, t, off) ∧ rc = toRc (verdict (envOf g c) p) ∧
      Decoded g c p rc t off := by
  have he0 : EOk (initTxn c).edns := ⟨rfl, rfl⟩
  unfold decodeQuery
  by_cases hl : p.length < 12
  · rw [if_pos hl, verdict_short _ _ hl]
    exact ⟨_, _, _, rfl, rfl, he0, ⟨_, .inl ⟨rfl, rfl, .inl hl⟩, .inl ⟨rfl, by simp, by simp⟩⟩, by simp, by simp⟩
  rw [if_neg hl]
  obtain ⟨x0, x1, f1, f2, q1, q2, a1, a2, n1, n2, r1, r2, body, hp⟩ :
      ∃ x0 x1 f1 f2 q1 q2 a1 a2 n1 n2 r1 r2 body,
        p = x0 :: x1 :: f1 :: f2 :: q1 :: q2 :: a1 :: a2 :: n1 :: n2 :: r1 :: r2 :: body := by
    match p, hl with
    | _ :: _ :: _ :: _ :: _ :: _ :: _ :: _ :: _ :: _ :: _ :: _ :: _, _ =>
      exact ⟨_, _, _, _, _, _, _, _, _, _, _, _, _, rfl⟩
    | [], h => simp at h
    | [_], h => simp at h
    | [_, _], h => simp at h
    | [_, _, _], h => simp at h
    | [_, _, _, _], h => simp at h
    | [_, _, _, _, _], h => simp at h
    | [_, _, _, _, _, _], h => simp at h
    | [_, _, _, _, _, _, _], h => simp at h
    | [_, _, _, _, _, _, _, _], h => simp at h
    | [_, _, _, _, _, _, _, _, _], h => simp at h
    | [_, _, _, _, _, _, _, _, _, _], h => simp at h
    | [_, _, _, _, _, _, _, _, _, _, _], h => simp at h
  have hl12 : 12 ≤ p.length := by omega
  have e2 : rd p 2 = .ok f1 := by rw [hp]; rfl
  have e4 : rd16 p 4 = .ok (be16 q1 q2) := by rw [hp]; simp [rd16_cons_succ]
  rw [e2, Outcome.bind_ok]
  by_cases hqr : f1.toNat ≥ 128
  · rw [if_pos hqr]
    refine ⟨_, _, _, rfl, ?_, he0, ⟨_, .inl ⟨rfl, rfl, .inr (.inl ⟨f1, e2, hqr⟩)⟩, .inl ⟨rfl, by simp, by simp⟩⟩, by simp, by simp⟩
    rw [hp, verdict, if_pos hqr]; rfl
  rw [if_neg hqr]
  obtain ⟨rc, t, off, t1, h1, h2, h3, h4, h5⟩ := parseQueryRrs_eq g c x0 x1 f1 f2 q1 q2 a1 a2 n1 n2 r1 r2 body p hp
  rw [h1, Outcome.bind_ok]
  have stop : ∀ w, verdict (envOf g c) p = w → rc = toRc w → rc ≠ .ok →
      ∃ rc' t' off', (if (rc, t, off).1 ≠ Rc.ok then Outcome.ok (rc, t, off) else
        let opcode := f1.toNat / 8 % 16
        if opcode = 0 then
          (rd16 p 4).bind fun qd =>
          if qd > 1 ∨ (qd = 0 ∧ (rc, t, off).2.1.edns.cookieRecvd = false) then .ok (.formerr, (rc, t, off).2)
          else if (rc, t, off).2.1.qtype > 127 ∧ (rc, t, off).2.1.qtype < 255 then .ok (.notimp, (rc, t, off).2)
          else .ok (.ok, (rc, t, off).2)
        else if opcode = 6 ∧ g.disable_tcp_dso = false then .ok (.dso, (rc, t, off).2)
        else .ok (.notimp, (rc, t, off).2)) = .ok (rc', t', off') ∧ rc' = toRc (verdict (envOf g c) p) ∧
          Decoded g c p rc' t' off' := by
    intro w hw hrc hne
    rw [if_pos hne]
    exact ⟨_, _, _, rfl, by rw [hw, hrc], h2, ⟨t1, h3, h4⟩, fun h => absurd h hne, fun _ => hl12⟩
  rcases h5 with ⟨h5, h6⟩ | ⟨ty, r, h5, h6⟩
  · refine stop .formerr ?_ h6 (by simp [h6])
    rw [hp]; exact verdict_none _ _ _ _ _ _ _ _ _ _ _ _ _ _ hqr h5
  · have hver := verdict_some (envOf g c) x0 x1 f1 f2 q1 q2 a1 a2 n1 n2 r1 r2 body hqr h5
    rw [← hp] at hver
    rcases h6 with ⟨h6, h7⟩ | ⟨rest, h6, h7⟩
    · refine stop .formerr ?_ h7 (by simp [h7])
      rw [hver, h6]
    · rw [h6] at hver
      simp only at hver
      rcases h7 with ⟨v, k, h7, h8, h9⟩ | ⟨h7, h8, h9, h10⟩
      · refine stop v ?_ h8 h9
        rw [hver, h7]
      · rw [h7] at hver
        simp only at hver
        rw [hver]
        subst h8
        have hd : ∀ rc', rc' ≠ .badvers → (rc' = .ok → ((rd16 p 4 = .ok 1 ∧ t.qdcount = 1) ∨
            (rd16 p 4 = .ok 0 ∧ t.qdcount = 0 ∧ t.edns.cookieRecvd = true))) →
            Decoded g c p rc' t off := by
          intro rc' hne ha
          refine ⟨h2, ⟨t1, h3, ?_⟩, ha, fun _ => hl12⟩
          rcases h4 with ⟨h4, -, h4'⟩ | ⟨rc0, h4, h4'⟩
          · exact .inl ⟨h4, hne, fun _ => h4' rfl⟩
          · have : rc0 = .ok := by rcases h4' with h | h; exact h; exact h.1
            exact .inr ⟨.ok, this ▸ h4, .inr ⟨rfl, hne⟩⟩
        rw [if_neg (by simp)]
        simp only [e4, Outcome.bind_ok]
        unfold opVerdict
        by_cases hop : f1.toNat / 8 % 16 = 0
        · rw [if_pos hop, if_pos hop]
          by_cases hq : be16 q1 q2 > 1 ∨ (be16 q1 q2 = 0 ∧ t.edns.cookieRecvd = false)
          · rw [if_pos hq, if_neg]
            · exact ⟨_, _, _, rfl, rfl, hd _ (by simp) (by simp)⟩
            · rintro (h | ⟨h, h'⟩)
              · rcases hq with hq | ⟨hq, -⟩ <;> omega
              · rcases hq with hq | ⟨-, hq⟩
                · omega
                · simp [h'] at hq
          · have hq2 : be16 q1 q2 = 1 ∨ (be16 q1 q2 = 0 ∧ t.edns.cookieRecvd = true) := by
              by_cases h0 : be16 q1 q2 = 0
              · right; refine ⟨h0, ?_⟩
                cases hck : t.edns.cookieRecvd with
                | true => rfl
                | false => exact absurd (.inr ⟨h0, hck⟩) hq
              · left
                by_cases h1 : be16 q1 q2 > 1
                · exact absurd (.inl h1) hq
                · omega
            rw [if_neg hq, if_pos hq2, h9]
            by_cases hty : ty > 127 ∧ ty < 255
            · rw [if_pos hty, if_pos (by omega)]
              exact ⟨_, _, _, rfl, rfl, hd _ (by simp) (by simp)⟩
            · rw [if_neg hty, if_neg (by omega)]
              refine ⟨_, _, _, rfl, rfl, hd _ (by simp) (fun _ => ?_)⟩
              rcases hq2 with hq2 | ⟨hq2, hq3⟩
              · rcases h10 with h | h
                · omega
                · exact .inl ⟨by rw [e4, hq2], h.2⟩
              · rcases h10 with h | h
                · exact .inr ⟨by rw [e4, hq2], h.2, hq3⟩
                · omega
        · rw [if_neg hop, if_neg hop]
          have henv : ((envOf g c).dso = true) ↔ g.disable_tcp_dso = false := by simp [envOf]
          by_cases hdso : f1.toNat / 8 % 16 = 6 ∧ g.disable_tcp_dso = false
          · rw [if_pos hdso, if_pos ⟨hdso.1, henv.2 hdso.2⟩]
            exact ⟨_, _, _, rfl, rfl, hd _ (by simp) (by simp)⟩
          · rw [if_neg hdso, if_neg (fun h => hdso ⟨h.1, henv.1 h.2⟩)]
            exact ⟨_, _, _, rfl, rfl, hd _ (by simp) (by simp)⟩

theorem option_no_drop {env : Env} (hin : env.inDso = false) {k : Bool} {code : Nat} {d : Bytes} {v : Verdict}
    (h : option env k code d = some v) : v ≠ .drop := by
  unfold option at h
  repeat' split at h
  all_goals simp at h
  all_goals (subst h; simp_all)

theorem options_no_drop {env : Env} (hin : env.inDso = false) : ∀ (n : Nat) {k : Bool} {d : Bytes} {v : Verdict} {k' : Bool},
    d.length ≤ n → options env k d = (some v, k') → v ≠ .drop := by
  intro n
  induction n with
  | zero =>
    intro k d v k' hd h
    have : d = [] := List.length_eq_zero_iff.1 (by omega)
    subst this; simp [options] at h
  | succ n ih =>
    intro k d v k' hd h
    match d with
    | [] => simp [options] at h
    | [_] => simp [options] at h; simp [← h.1]
    | [_, _] => simp [options] at h; simp [← h.1]
    | [_, _, _] => simp [options] at h; simp [← h.1]
    | c1 :: c2 :: l1 :: l2 :: r =>
      unfold options at h
      split at h
      · simp at h; simp [← h.1]
      · cases ho : option env k (be16 c1 c2) (r.take (be16 l1 l2)) with
        | some w => rw [ho] at h; simp at h; rw [← h.1]; exact option_no_drop hin ho
        | none =>
          rw [ho] at h
          exact ih (by simp at hd ⊢; omega) h

theorem additional_no_drop {env : Env} (hin : env.inDso = false) : ∀ (n : Nat) {seen k : Bool} {b : Bytes} {v : Verdict}
    {k' : Bool}, additional env n seen k b = (some v, k') → v ≠ .drop := by
  intro n
  induction n with
  | zero => intro seen k b v k' h; simp [additional] at h
  | succ n ih =>
    intro seen k b v k' h
    by_cases hi : IsOpt b
    · obtain ⟨s1, s2, x, ver, f1, f2, hh, l, r, rfl⟩ := hi
      rw [additional_opt] at h
      split at h
      · simp at h; simp [← h.1]
      · split at h
        · simp at h; simp [← h.1]
        · split at h
          · simp at h; simp [← h.1]
          · split at h
            · rename_i w k2 heq
              simp at h
              rw [← h.1]
              exact options_no_drop hin _ (Nat.le_refl _) heq
            · exact ih h
    · rw [additional_other _ _ _ _ _ hi] at h
      cases hr : record b with
      | none => rw [hr] at h; simp at h; simp [← h.1]
      | some r => rw [hr] at h; exact ih h

end Gdnsd.Packet
