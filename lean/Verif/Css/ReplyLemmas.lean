/-
Every request that the client may make gets what the protocol says.
-/
import Verif.Css.ReqLemmas
namespace Gdnsd.Css
open CssSpec

theorem msg_plain {k} : msg k 0 0 = plain k := rfl

theorem ofNat_toNat (n : Nat) : (UInt8.ofNat n).toNat = n % 256 := by simp

theorem header_msg {k v d} : header k v d (msg k v d) := by
  refine ⟨rfl, rfl, ?_, ?_⟩
  · show 65536 * (UInt8.ofNat (v / 65536)).toNat + 256 * (UInt8.ofNat (v / 256)).toNat + (UInt8.ofNat v).toNat = _
    rw [ofNat_toNat, ofNat_toNat, ofNat_toNat]; omega
  · show (UInt8.ofNat d).toNat + 256 * (UInt8.ofNat (d / 256)).toNat + 65536 * (UInt8.ofNat (d / 65536)).toNat + 16777216 * (UInt8.ofNat (d / 16777216)).toNat = _
    rw [ofNat_toNat, ofNat_toNat, ofNat_toNat, ofNat_toNat]; omega

theorem permits_eq {p k} : allowed p k = permits p k := by
  obtain ⟨a, b⟩ := p
  simp only [allowed, permits, List.contains_iff_mem, Bool.or_eq_true, decide_eq_true_eq, List.contains_eq_mem]
  by_cases h1 : k = 73 ∨ k = 83 ∨ k = 69
  · rw [if_pos h1]
    rcases h1 with rfl | rfl | rfl <;> simp
  · rw [if_neg h1]
    by_cases h2 : k = 67 ∨ k = 99
    · rw [if_pos h2]
      rcases h2 with rfl | rfl <;> simp
    · rw [if_neg h2]
      by_cases h3 : k = 90 ∨ k = 82
      · rw [if_pos h3]
        rcases h3 with rfl | rfl <;> simp
      · rw [if_neg h3]
        simp_all

theorem block_log {s : Css} {id good r s' l} (h : blockingAck s id good = .ok (r, s', l)) (hp : s.pid = 0) :
    (l = [.resp id (msg 65 0 0) [] false, .out id (msg 65 0 0) []] ∨ l = [.resp id (msg 65 0 0) [] false, .close id]) ∧ s'.pid = 0 ∧ ∀ k, s'.ctl = some k → s.ctl = some k := by
  obtain ⟨c, hc, h⟩ := bind_ok h
  obtain ⟨_, h1, h⟩ := bind_ok h
  dsimp only at h
  cases good with
  | true =>
    simp only [if_true, Outcome.ok.injEq, Prod.mk.injEq] at h
    obtain ⟨_, rfl, rfl⟩ := h
    exact ⟨Or.inl rfl, hp, fun k hk => hk⟩
  | false =>
    simp only [Bool.false_eq_true, if_false] at h
    obtain ⟨⟨s1, l1⟩, h2, h⟩ := map_ok h
    simp only [Prod.mk.injEq] at h
    obtain ⟨_, rfl, rfl⟩ := h
    obtain ⟨_, _, _, h3, rfl⟩ := cleanup_ok h2
    refine ⟨Or.inr ?_, ?_, ?_⟩
    · rw [if_neg (fun h => h.2 hp)]; rfl
    · rw [h3]; exact hp
    · intro k hk
      rw [h3] at hk
      dsimp only at hk
      split at hk
      · cases hk
      · exact hk

theorem nofd_ctl {s s' : Css} {b : Prop} [Decidable b] {id : Nat} (h : ((if b then (s.get id).map fun c => s.put id (some { c with fd := false }) else .ok s) : Outcome Css) = .ok s') : s'.ctl = s.ctl ∧ s'.pid = s.pid := by
  split at h
  · obtain ⟨c, _, rfl⟩ := map_ok h; exact ⟨rfl, rfl⟩
  · simp only [Outcome.ok.injEq] at h; rw [h]; exact ⟨rfl, rfl⟩

theorem loading_of {cfg s l} (h : BInv cfg none s l) (ha : s.active ≠ []) : loading l s.tid := by
  obtain ⟨x, hx, hj, _⟩ := h.actT ha
  have h1 : 1 ≤ s.tid := by
    rcases Nat.eq_zero_or_pos s.tid with h0 | h0
    · obtain ⟨y, hy, hyj⟩ := h.thr0
      rw [h0, hy] at hx
      cases hx
      rw [hj] at hyj; cases hyj
    · exact h0
  have hthr := h.thr
  refine ⟨(h.load s.tid).mpr ⟨h1, by omega⟩, fun f hf => ?_⟩
  have := (h.joined s.tid x h1 hx).mpr ⟨f, hf⟩
  rw [hj] at this; cases this

theorem waiters_of {cfg s l} (h : J cfg none s l) : Waiters l (s.active ++ s.queued) := by
  refine ⟨h.b.nodup, fun i hi => ?_⟩
  obtain ⟨_, c, hc, hw, hk, _⟩ := h.b.que i hi
  exact ⟨c.rbuf, h.a.turns hc hw, hk⟩

theorem reply {cfg s l id c m env s' rest} (h : J cfg none s l) (htk : s.dmn = taker l) (h67 : msgKey m ≠ 67)
    (hr : request cfg (s.put id (some c)) id m env = .ok (s', rest)) : Reply cfg env l id m rest := by
  have hpid := h.b.pid
  have hws : Waiters l (s.active ++ s.queued) := waiters_of h
  unfold request at hr
  dsimp only at hr
  split at hr
  · next hk =>
    obtain ⟨_, _, _, _, h1⟩ := respond_ok hr
    rcases h1 with ⟨_, h1, _⟩ | ⟨_, h1, _⟩ | ⟨_, _, rfl, _⟩
    · cases h1
    · cases h1
    · exact .info hk header_msg
  next n1 =>
  split at hr
  · next hk =>
    unfold reqStop at hr
    split at hr
    · next hp =>
      obtain ⟨_, _, _, rfl, _⟩ := answer_ok hr
      refine .later (by rw [← hpid]; exact hp.1) (Or.inr (Or.inr (Or.inr (Or.inr ⟨hk, ?_⟩))))
      rw [← htk]; exact hp.2
    · next hp =>
      have hown : current l = 0 ∨ taker l = some id := by
        rw [← htk, ← hpid]
        by_cases h0 : s.pid = 0
        · exact Or.inl h0
        · exact Or.inr (Classical.byContradiction fun h1 => hp ⟨h0, h1⟩)
      obtain ⟨⟨ok, s1, e1⟩, h1, hr⟩ := bind_ok hr
      obtain ⟨s2, h2, hr⟩ := bind_ok hr
      dsimp only at hr h2
      obtain ⟨hl1, hp1, hc1⟩ := block_log h1 rfl
      obtain ⟨hc2, hp2⟩ := nofd_ctl h2
      have he1 : ∃ k1, e1 = .resp id (plain 65) [] false :: k1 ∧ ∀ e ∈ k1, (∃ i, e = .out i (plain 65) []) ∨ ∃ i, e = .close i := by
        rcases hl1 with rfl | rfl
        · exact ⟨_, rfl, fun e he => by simp only [List.mem_singleton] at he; exact Or.inl ⟨_, he⟩⟩
        · exact ⟨_, rfl, fun e he => by simp only [List.mem_singleton] at he; exact Or.inr ⟨_, he⟩⟩
      obtain ⟨k1, rfl, hk1⟩ := he1
      split at hr
      · obtain ⟨rfl, rfl⟩ := one_ok hr
        exact .stop hk hown fun e he => Or.inr (hk1 e he)
      · next k hctl =>
        obtain ⟨_, _, hr⟩ := bind_ok hr
        obtain ⟨⟨ok', s3, e3⟩, h3, hr⟩ := bind_ok hr
        obtain ⟨s4, h4, hr⟩ := map_ok hr
        simp only [Prod.mk.injEq] at hr
        obtain ⟨_, rfl⟩ := hr
        obtain ⟨hl3, _⟩ := block_log h3 (by rw [hp2]; exact hp1)
        rw [hc2] at hctl
        obtain ⟨_, _, ck, hck, hwk, hkk⟩ := h.b.ctl k (hc1 k hctl)
        have htk' : Turns k l (some ck.rbuf) := h.a.turns hck hwk
        refine .stop (k := k1 ++ e3) hk hown fun e he => ?_
        rw [List.mem_append] at he
        rcases he with he | he
        · exact Or.inr (hk1 e he)
        · rcases hl3 with rfl | rfl
          · simp only [List.mem_cons, List.not_mem_nil, or_false] at he
            rcases he with rfl | rfl
            · exact Or.inl ⟨k, _, rfl, htk', hkk⟩
            · exact Or.inr (Or.inl ⟨_, rfl⟩)
          · simp only [List.mem_cons, List.not_mem_nil, or_false] at he
            rcases he with rfl | rfl
            · exact Or.inl ⟨k, _, rfl, htk', hkk⟩
            · exact Or.inr (Or.inr ⟨_, rfl⟩)
  next n2 =>
  split at hr
  · next hk =>
    obtain ⟨_, _, _, _, h1⟩ := respond_ok hr
    rcases h1 with ⟨_, h1, _, rfl, _⟩ | ⟨h1, _⟩ | ⟨h1, _⟩
    · cases h1; exact .stats hk header_msg
    · cases h1
    · cases h1
  next n3 =>
  split at hr
  · next hk =>
    obtain ⟨_, _, _, _, h1⟩ := respond_ok hr
    rcases h1 with ⟨_, h1, _, rfl, _⟩ | ⟨h1, _⟩ | ⟨h1, _⟩
    · cases h1; exact .states hk header_msg
    · cases h1
    · cases h1
  next n4 =>
  split at hr
  · next hk =>
    unfold reqZrel at hr
    split at hr
    · next hp =>
      obtain ⟨_, _, _, rfl, _⟩ := answer_ok hr
      exact .later (by rw [← hpid]; exact hp) (Or.inl hk)
    · next hp =>
      have hp : current l = 0 := by rw [← hpid]; exact Classical.not_not.mp hp
      dsimp only at hr
      split at hr
      · obtain ⟨_, rfl⟩ := load_ok hr
        refine .reload hk hp fun hl => ?_
        have := ((h.b.load _).mp hl).2
        exact absurd this (Nat.lt_irrefl _)
      · next ha =>
        obtain ⟨_, rfl⟩ := one_ok hr
        exact .wait hk hp (loading_of h.b ha)
  next n5 =>
  split at hr
  · next hk =>
    split at hr
    · next hp =>
      obtain ⟨_, _, _, rfl, _⟩ := answer_ok hr
      exact .later (by rw [← hpid]; exact hp) (Or.inr (Or.inl hk))
    · next hp =>
      have hp : current l = 0 := by rw [← hpid]; exact Classical.not_not.mp hp
      obtain ⟨s1, l1, l2, h1, h2, rfl⟩ := andThen_ok hr
      obtain ⟨rfl, rfl⟩ := one_ok h1
      obtain ⟨_, _, _, rfl, _⟩ := answer_ok h2
      exact .flush hk hp
  next n6 =>
  split at hr
  · next hk =>
    unfold reqRepl at hr
    split at hr
    · next hp =>
      obtain ⟨_, _, _, rfl, _⟩ := answer_ok hr
      exact .later (by rw [← hpid]; exact hp) (Or.inr (Or.inr (Or.inl hk)))
    · next hp =>
      have hp : current l = 0 := by rw [← hpid]; exact Classical.not_not.mp hp
      obtain ⟨_, _, hr⟩ := bind_ok hr
      obtain ⟨_, hd, hr⟩ := bind_ok hr
      have hd : taker l = none := by
        rw [← htk]
        exact Option.isNone_iff_eq_none.mp (assert_ok hd)
      obtain ⟨s1, l1, l2, h1, h2, rfl⟩ := andThen_ok hr
      obtain ⟨rfl, rfl⟩ := one_ok h1
      split at h2
      · next hn =>
        obtain ⟨_, _, _, rfl, _⟩ := answer_ok h2
        exact .spawnFail hk hp hn
      · next hn =>
        obtain ⟨_, _, rfl, _⟩ := latrAll_ok h2
        exact .spawn hk hp hd (by omega) hws
  next n7 =>
  split at hr
  · next hk =>
    unfold reqTak1 at hr
    split at hr
    · next hp =>
      obtain ⟨_, _, _, rfl, _⟩ := answer_ok hr
      exact .later (by rw [← hpid]; exact hp.1) (Or.inr (Or.inr (Or.inr (Or.inl ⟨hk, by rw [← hpid]; exact fun h0 => hp.2 h0.symm⟩))))
    · next hp =>
      have hp : current l = 0 ∨ msgD m = current l := by
        rw [← hpid]
        by_cases h0 : s.pid = 0
        · exact Or.inl h0
        · exact Or.inr (Classical.byContradiction fun h1 => hp ⟨h0, fun h2 => h1 h2.symm⟩)
      obtain ⟨_, hd, hr⟩ := bind_ok hr
      have hd : taker l = none := by
        rw [← htk]
        exact Option.isNone_iff_eq_none.mp (assert_ok hd)
      obtain ⟨s1, l1, l2, h1, h2, rfl⟩ := andThen_ok hr
      obtain ⟨rfl, rfl⟩ := one_ok h1
      obtain ⟨s3, l3, l4, h3, h4, rfl⟩ := andThen_ok h2
      obtain ⟨_, _, rfl, _⟩ := latrAll_ok h3
      obtain ⟨_, _, _, rfl, _⟩ := answer_ok h4
      exact .takeover hk hp hd hws
  next n8 =>
  have hnot : (s.put id (some c)).pid = 0 ∨ msgD m ≠ (s.put id (some c)).pid ∨ (s.put id (some c)).dmn ≠ some id → ¬ Owns l id m := by
    intro h1 h2
    obtain ⟨h3, h4, h5⟩ := h2
    rw [← hpid] at h3 h4
    rw [← htk] at h5
    rcases h1 with h1 | h1 | h1
    · exact h3 h1
    · exact h1 h4
    · exact h1 h5
  have hown : ¬ ((s.put id (some c)).pid = 0 ∨ msgD m ≠ (s.put id (some c)).pid ∨ (s.put id (some c)).dmn ≠ some id) → Owns l id m := by
    intro h1
    refine ⟨?_, ?_, ?_⟩
    · rw [← hpid]; exact fun h0 => h1 (Or.inl h0)
    · rw [← hpid]; exact Classical.byContradiction fun h0 => h1 (Or.inr (Or.inl h0))
    · rw [← htk]; exact Classical.byContradiction fun h0 => h1 (Or.inr (Or.inr h0))
  have href : msgKey m = 50 ∨ msgKey m = 84 → ((s.put id (some c)).pid = 0 ∨ msgD m ≠ (s.put id (some c)).pid ∨ (s.put id (some c)).dmn ≠ some id) →
      (andThen (answer cfg (s.put id (some c)) id 70) fun s => cleanup s id) = .ok (s', rest) → Reply cfg env l id m rest := by
    intro hk hn hr
    obtain ⟨s1, l1, l2, h1, h2, rfl⟩ := andThen_ok hr
    obtain ⟨_, _, _, rfl, rfl⟩ := answer_ok h1
    obtain ⟨_, _, _, _, rfl⟩ := cleanup_ok h2
    rw [← List.append_assoc]
    refine .refuse hk (hnot hn) ?_
    rw [← htk, ← hpid]; rfl
  split at hr
  · next hk =>
    unfold reqTak2 at hr
    split at hr
    · next hn => exact href (Or.inl hk) hn hr
    · next hn =>
      obtain ⟨s1, l1, l2, h1, h2, rfl⟩ := andThen_ok hr
      obtain ⟨rfl, rfl⟩ := one_ok h1
      obtain ⟨_, _, _, _, h3⟩ := respond_ok h2
      rcases h3 with ⟨b, h3, _, rfl, _⟩ | ⟨_, h3, _⟩ | ⟨h3, _, rfl, _⟩
      · split at h3
        · cases h3
        · cases h3; exact .share hk (hown hn) header_msg
      · cases h3
      · split at h3
        · next he =>
          have x : Reply cfg env l id m [.share id, .resp id (msg 65 env.csets.1 env.csets.2.length) env.csets.2 false] := .share hk (hown hn) header_msg
          rw [show ([] : Bytes) = env.csets.2 from he.symm]
          exact x
        · cases h3
  next n9 =>
  split at hr
  · next hk =>
    unfold reqTake at hr
    split at hr
    · next hn => exact href (Or.inr hk) hn hr
    · next hn =>
      obtain ⟨_, _, hr⟩ := bind_ok hr
      obtain ⟨_, _, _, _, h3⟩ := respond_ok hr
      rcases h3 with ⟨b, h3, _⟩ | ⟨_, _, _, _, rfl, _⟩ | ⟨_, h3, _⟩
      · cases h3
      · exact .hand hk (hown hn) header_msg
      · cases h3
  next n10 =>
  obtain ⟨_, _, _, rfl, _⟩ := answer_ok hr
  exact .unknown (by simp [n1, n2, n3, n4, n5, n6, n7, n8, n9, n10, h67])

end Gdnsd.Css
