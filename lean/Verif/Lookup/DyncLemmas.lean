import Verif.Lookup.ChaseLemmas
/-
DYNC at the end of a chain.
-/
namespace Gdnsd.Lookup
open DnameSpec EncSpec Dname Enc Tree TreeSpec LookupSpec

/-- When challenges may be missing from the reply. -/
def KOk (w : World) (t k : Nat) (e : List Bytes) (v : Verdict) (mx len : Nat) : Prop :=
  match v with
  | .final _ _ rrs => t = 16 → aliasOf w (rrs.getD []) = none → k < (chalRecs w e).length → mx < len + 56
  | _ => True

/-- The sets a plugin's addresses make. -/
def synth (d : DynRes) (t : Nat) (ttl : UInt32) : List RRset :=
  if t = 1 ∧ d.v4 ≠ [] then [⟨ttl, .a d.v4⟩] else if t = 28 ∧ d.v6 ≠ [] then [⟨ttl, .aaaa d.v6⟩] else []

theorem synth_plain (resolve : Nat → DynRes) (d : DynRes) (t : Nat) (ttl : UInt32) (h4 : ∀ a ∈ d.v4, a.length = 4)
    (h6 : ∀ a ∈ d.v6, a.length = 16) : Plain resolve (synth d t ttl) := by
  unfold synth
  split
  · rename_i h
    exact ⟨by simp, by simp [RRsetOk, AddrsOk, h.2]; exact h4⟩
  · split
    · rename_i h
      exact ⟨by simp, by simp [RRsetOk, AddrsOk, h.2]; exact h6⟩
    · exact ⟨by simp, by simp⟩

theorem processDync_addr (env : Env) (st : St) (res : Nat) (ttl m : UInt32) (hv : Mon.Valid (env.resolve res).sttl)
    (hc : (env.resolve res).cname = none) :
    ∃ t, processDync env st res ttl m = .ok (synth (env.resolve res) st.qtype t,
        { st with scope := max (env.resolve res).scope st.scope }) ∧ ttlVal t = dynTtl (env.resolve res) ttl m := by
  obtain ⟨t, h1, h2⟩ := dynCallback_ok env st res ttl m hv
  refine ⟨t, ?_, h2⟩
  rw [processDync, h1, Outcome.bind_ok, hc]
  simp only [synth]
  by_cases c1 : st.qtype = 1 ∧ (env.resolve res).v4 ≠ []
  · have : (decide (st.qtype = 1) && decide ((env.resolve res).v4.length ≠ 0)) = true := by simpa using c1
    rw [this, cond_true, if_pos c1]
  · have : (decide (st.qtype = 1) && decide ((env.resolve res).v4.length ≠ 0)) = false := by
      rw [Bool.eq_false_iff]; intro h; apply c1; simpa using h
    rw [this, cond_false, if_neg c1]
    by_cases c2 : st.qtype = 28 ∧ (env.resolve res).v6 ≠ []
    · have : (decide (st.qtype = 28) && decide ((env.resolve res).v6.length ≠ 0)) = true := by simpa using c2
      rw [this, cond_true, if_pos c2]
    · have : (decide (st.qtype = 28) && decide ((env.resolve res).v6.length ≠ 0)) = false := by
        rw [Bool.eq_false_iff]; intro h; apply c2; simpa using h
      rw [this, cond_false, if_neg c2]

theorem processDync_cname (env : Env) (st : St) (res : Nat) (ttl m : UInt32) (hv : Mon.Valid (env.resolve res).sttl)
    {d : Bytes} (hc : (env.resolve res).cname = some d) (hd : NameOk d) :
    ∃ t, processDync env st res ttl m = .ok ([⟨t, .cname d⟩],
        { st with scope := max (env.resolve res).scope st.scope }) ∧ ttlVal t = dynTtl (env.resolve res) ttl m := by
  obtain ⟨t, h1, h2⟩ := dynCallback_ok env st res ttl m hv
  refine ⟨t, ?_, h2⟩
  obtain ⟨hw, he⟩ := NameOk_encode hd
  have hs := status_encode (labelsOf d) true [] hw
  rw [List.append_nil, ← he] at hs
  rw [processDync, h1, Outcome.bind_ok, hc]
  simp only [hs, Outcome.bind_ok, if_true]
  rw [decide_true, assert_true, Outcome.bind_ok]

theorem finalReply_dync {w : World} (t k : Nat) (q z : List Bytes) (soa : RRset) (ttl m tt : UInt32) (res : Nat)
    (h : (w.resolve res).cname = none) (htt : ttlVal tt = dynTtl (w.resolve res) ttl m) :
    finalReply w t k q z soa (some [⟨ttl, .dync res m⟩]) =
      coreReply w t k (plainRecs w t q (synth (w.resolve res) t tt)) (plainExtra t (synth (w.resolve res) t tt))
        (max (plainScope w t (synth (w.resolve res) t tt)) (w.resolve res).scope) q z soa true := by
  have h0 : plainScope w t (synth (w.resolve res) t tt) = 0 := by
    unfold synth
    split
    · rename_i h; simp [plainScope, RRset.type, Body.type, Enc.scopeOf, h.1]
    · split
      · rename_i h; simp [plainScope, RRset.type, Body.type, Enc.scopeOf, h.1]
      · simp [plainScope]
  have h1 : plainExtra t (synth (w.resolve res) t tt) = [] := by
    unfold synth
    split
    · rename_i h; simp [plainExtra, RRset.type, Body.type, extraRecs, h.1]
    · split
      · rename_i h; simp [plainExtra, RRset.type, Body.type, extraRecs, h.1]
      · simp [plainExtra]
  have h2 : plainRecs w t q (synth (w.resolve res) t tt) = ownRecs w t q [⟨ttl, .dync res m⟩] := by
    simp only [ownRecs, aliasOf, h, Option.map_none]
    unfold synth
    split
    · rename_i h; simp [plainRecs, RRset.type, Body.type, answerRecs, h.1, typedRecs, htt]
    · rename_i h1
      split
      · rename_i h; simp [plainRecs, RRset.type, Body.type, answerRecs, h.1, typedRecs, htt]
      · rename_i h2
        simp only [typedRecs]
        by_cases c1 : t = 1
        · have : (w.resolve res).v4 = [] := Decidable.byContradiction fun hn => h1 ⟨c1, hn⟩
          simp [plainRecs, c1, this]
        · by_cases c2 : t = 28
          · have : (w.resolve res).v6 = [] := Decidable.byContradiction fun hn => h2 ⟨c2, hn⟩
            simp [plainRecs, c2, this]
          · simp [plainRecs, c1, c2]
  have h3 : ownExtra w t [⟨ttl, .dync res m⟩] = [] := by
    simp only [ownExtra, aliasOf, h, Option.map_none]
    split
    · rfl
    · rw [List.flatMap_eq_nil_iff]
      intro x hx
      have := (List.mem_filter.mp hx).1
      simp only [List.mem_singleton] at this
      subst this; rfl
  rw [h0, h1, h2]
  simp [finalReply, coreReply, aliasOf, h, h3, ownScope, LookupSpec.scopeOf]

theorem synth_size (w : World) (t : Nat) (ttl m tt : UInt32) (res : Nat) (h : (w.resolve res).cname = none) :
    plainSize w t (synth (w.resolve res) t tt) = ownSize w t [⟨ttl, .dync res m⟩] := by
  simp only [ownSize, h]
  unfold synth plainSize
  split
  · rename_i h; simp [RRset.type, Body.type, rrSize, h.1]
  · rename_i h1
    split
    · rename_i h; simp [RRset.type, Body.type, rrSize, h.1]
    · rename_i h2
      by_cases c1 : t = 1
      · have : (w.resolve res).v4 = [] := Decidable.byContradiction fun hn => h1 ⟨c1, hn⟩
        simp [c1, this]
      · by_cases c2 : t = 28
        · have : (w.resolve res).v6 = [] := Decidable.byContradiction fun hn => h2 ⟨c2, hn⟩
          simp [c2, this]
        · simp [c1, c2]

/-- DYNC in `db_lookup`. -/
theorem dync_final {qraw ql q z : List Bytes} {env : Env} {w : World} (hw : env.resolve = w.resolve)
    (hq : WF q) (hc : ChalsOk env w.chals)
    (st : St) (hi : Inv qraw ql env st) (ttl m : UInt32) (res : Nat) (hv : Mon.Valid (w.resolve res).sttl)
    (hcn : ∀ d, (w.resolve res).cname = some d → NameOk d)
    (h4 : ∀ a ∈ (w.resolve res).v4, a.length = 4) (h6 : ∀ a ∈ (w.resolve res).v6, a.length = 16)
    (ht : st.qtype < 128 ∨ 256 ≤ st.qtype ∨ st.qtype = 255)
    (hn : NamePtr st.out st.qc q) (hz : NamePtr st.out st.ac z)
    (hmeta : st.an = 0 ∧ st.ns = 0 ∧ st.ar = 0 ∧ st.rcode = 0) (hsc : st.scope = 0)
    (auth : Node) (soa : RRset) (hsoa : getType auth.rrs 6 = some soa)
    (hsb : ∃ m n t, soa.body = .soa m n t) (hok : RRsetOk w.resolve soa)
    (hsz : st.out.length + max (ownSize w st.qtype [⟨ttl, .dync res m⟩]) (rrSize w.resolve soa) ≤ 16384) :
    ∃ st' k, ((processDync env st res ttl m).bind fun x =>
        finalAuth env { x.2 with qtype := bif headIs x.1 5 then 5 else x.2.qtype } (encode q true) true auth x.1) = .ok st' ∧
      Holds qraw ql env st.out st' (finalReply w st.qtype k q z soa (some [⟨ttl, .dync res m⟩])) ∧ st'.cn = st.cn ∧
      ((st.qtype = 16 ∧ chalRecs w q ≠ [] ∧ st'.out.length ≤ env.thisMax) ∨ st'.out.length ≤ st.out.length +
        max (ownSize w st.qtype [⟨ttl, .dync res m⟩]) (max 21 (rrSize w.resolve soa))) ∧
      KOk w st.qtype k q (.final z soa (some [⟨ttl, .dync res m⟩])) env.thisMax st'.out.length := by
  cases hcase : (w.resolve res).cname with
  | some d =>
    obtain ⟨t, h1, h2⟩ := processDync_cname env st res ttl m (by rw [hw]; exact hv) (by rw [hw]; exact hcase) (hcn d hcase)
    rw [h1, Outcome.bind_ok]
    have hos : ownSize w st.qtype [⟨ttl, .dync res m⟩] = 12 + nameLen d := by simp only [ownSize, hcase]
    rw [hos] at hsz ⊢
    rw [show headIs [⟨t, .cname d⟩] 5 = true from rfl, cond_true]
    have hi' : Inv qraw ql env { st with scope := max (env.resolve res).scope st.scope, qtype := 5 } := hi.extend [] (by simp) rfl
    obtain ⟨st', k, g1, g2, g3, g4, g5⟩ := finalAuth_cname (w := w) (z := z) hw hq hc
      { st with scope := max (env.resolve res).scope st.scope, qtype := 5 } hi' t d (hcn d hcase) (.inl rfl) hn hz hmeta true auth soa hsoa hsb hok
      (by simp only; omega)
    simp only at g2 g3 g4
    refine ⟨st', k, g1, ?_, g3, ?_, ?_⟩
    · rw [finalReply_dync_cname _ _ _ _ _ _ _ _ _ hcase, ← hw, ← h2]
      rw [hsc, Nat.max_zero] at g2
      exact g2
    · right; omega
    · intro _ h; simp [aliasOf, hcase] at h
  | none =>
    obtain ⟨t, h1, h2⟩ := processDync_addr env st res ttl m (by rw [hw]; exact hv) (by rw [hw]; exact hcase)
    rw [h1, Outcome.bind_ok]
    have hp : Plain w.resolve (synth (env.resolve res) st.qtype t) := by rw [hw]; exact synth_plain _ _ _ _ h4 h6
    simp only [plain_headIs hp, cond_false]
    have hos := synth_size w st.qtype ttl m t res hcase
    rw [← hos] at hsz ⊢
    rw [hw] at hp ⊢
    have hi' : Inv qraw ql env { st with scope := max (w.resolve res).scope st.scope } := hi.extend [] (by simp) rfl
    obtain ⟨st', k, g1, g2, g3, g4, g5, g6⟩ := finalAuth_plain (w := w) (z := z) hw hq hc
      { st with scope := max (w.resolve res).scope st.scope } hi' _ hp ht hn hz
      (by
        intro r hr hh
        exfalso
        unfold synth at hr
        split at hr
        · simp at hr; subst hr; simp [RRset.type, Body.type] at hh
        · split at hr
          · simp at hr; subst hr; simp [RRset.type, Body.type] at hh
          · simp at hr) hmeta true auth soa hsoa hsb hok hsz
    simp only at g1 g2 g3 g4 g5 g6
    refine ⟨st', k, g1, ?_, g3, g4, ?_⟩
    · rw [finalReply_dync _ _ _ _ _ _ _ _ _ hcase (by rw [← hw]; exact h2)]
      rw [hsc, Nat.max_zero] at g2
      exact g2
    · intro h16 _ hk
      rw [if_pos h16] at g6
      exact g6 hk

end Gdnsd.Lookup
