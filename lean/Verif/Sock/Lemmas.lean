/-
Options of sockets.
-/
import Verif.Sock.Spec
namespace Gdnsd.Sock
open SockSpec

/-! ### Seconds and tries -/

theorem next_wait (k : Nat) : (if min (2 ^ k) 120 * 2 > 120 then 120 else min (2 ^ k) 120 * 2) = min (2 ^ (k + 1)) 120 := by
  have : 2 ^ (k + 1) = 2 * 2 ^ k := by rw [Nat.pow_succ]; omega
  rw [this]
  split <;> omega

theorem period_succ (k : Nat) : period (k + 1) = period k + min (2 ^ k) 120 := rfl

theorem period_lt (k : Nat) : period k < period (k + 1) := by
  have : 0 < 2 ^ k := Nat.pow_pos (by omega)
  rw [period_succ]
  omega

theorem period_mono {a b : Nat} (h : a ≤ b) : period a ≤ period b := by
  induction b with
  | zero =>
    have : a = 0 := by omega
    rw [this]
    exact Nat.le_refl _
  | succ b ih =>
    rcases Nat.lt_or_ge a (b + 1) with h' | h'
    · exact Nat.le_of_lt (Nat.lt_of_le_of_lt (ih (by omega)) (period_lt b))
    · have : a = b + 1 := by omega
      rw [this]
      exact Nat.le_refl _

theorem loop_spec (s : Nat) : ∀ (n res : Nat), n = 255 - res → res + 1 ≤ 255 → ∃ r, retransLoop s (res + 1) (min (2 ^ res) 120) (period (res + 1)) = r ∧ res + 1 ≤ r ∧ r ≤ 255 ∧
    (∀ k, res + 1 ≤ k → k < r → period k < s) ∧ (r < 255 → s ≤ period r) := by
  intro n
  induction n with
  | zero => intro res h1 h2; omega
  | succ n ih =>
    intro res hn hr
    rw [retransLoop]
    split
    · rename_i h
      rw [next_wait, ← period_succ]
      obtain ⟨r, h1, h2, h3, h4, h5⟩ := ih (res + 1) (by omega) (by omega)
      refine ⟨r, h1, by omega, h3, ?_, h5⟩
      intro k hk1 hk2
      rcases Nat.lt_or_ge k (res + 2) with h' | h'
      · have : k = res + 1 := by omega
        rw [this]
        exact h.1
      · exact h4 k h' hk2
    · rename_i h
      exact ⟨res + 1, rfl, Nat.le_refl _, hr, fun k h1 h2 => absurd h2 (by omega), fun h' => by omega⟩

theorem tries_of {s r : Nat} (h1 : r ≤ 255) (h2 : ∀ k, k < r → period k < s) (h3 : r < 255 → s ≤ period r) : tries s = r := by
  unfold tries
  cases hf : (List.range 255).find? fun k => decide (s ≤ period k) with
  | none =>
    rw [List.find?_range_eq_none] at hf
    rcases Nat.lt_or_ge r 255 with h | h
    · have := hf r h
      simp at this
      have := h3 h
      omega
    · simp; omega
  | some i =>
    rw [List.find?_range_eq_some] at hf
    obtain ⟨a, b, c⟩ := hf
    simp at a b c
    simp
    rcases Nat.lt_trichotomy i r with h | h | h
    · have := h2 i h; omega
    · exact h
    · have := c r h
      have := h3 (by omega)
      omega

theorem toRetrans_eq (s : Nat) : toRetrans s = tries s := by
  unfold toRetrans
  split
  · rename_i hs
    obtain ⟨r, h1, h2, h3, h4, h5⟩ := loop_spec s 255 0 rfl (by omega)
    rw [show retransLoop s 1 1 1 = r from h1]
    refine (tries_of h3 ?_ h5).symm
    intro k hk
    cases k with
    | zero => exact hs
    | succ k => exact h4 (k + 1) (by omega) hk
  · rename_i hs
    have : s = 0 := by omega
    subst this
    exact (tries_of (by omega) (fun k h => absurd h (by omega)) fun _ => Nat.zero_le _).symm

theorem secsLoop_eq : ∀ (n r : Nat), secsLoop n (min (2 ^ r) 120) (period (r + 1)) = period (r + 1 + n)
  | 0, r => rfl
  | n + 1, r => by
    rw [secsLoop, next_wait, ← period_succ, secsLoop_eq n (r + 1)]
    congr 1
    omega

theorem toSecs_eq (r : Nat) : toSecs r = period r := by
  unfold toSecs
  split
  · have := secsLoop_eq (r - 1) 0
    rw [show 0 + 1 + (r - 1) = r by omega] at this
    exact this
  · have : r = 0 := by omega
    subst this
    rfl

theorem xlate_eq (s : Nat) : xlate s = period (tries s) := by
  rw [xlate, toRetrans_eq, toSecs_eq]

/-! ### Calls -/

/-- What an option is after the call for it. -/
def good (o : Opt) (w : Nat) (b : Bool) (x : Nat) : Prop := same b x (compare o w) = true

/-- The kernel tells what is expected. -/
def Fair (K : Kernel) : Step → Prop
  | .must o w b => good o w b (K.report o w)
  | .may o w => good o w false (K.report o w)
  | .either o w w' => good o w false (K.report o w) ∧ good o w' false (K.report o w')
  | .blind _ _ => True

def Step.opt : Step → Opt
  | .must o _ _ => o
  | .may o _ => o
  | .either o _ _ => o
  | .blind o _ => o

/-- What a call leaves. -/
def Done (K : Kernel) (x : Nat) : Step → Prop
  | .must o w b => good o w b x
  | .may o w => good o w false x ∨ K.getFails o = true ∨ K.setFails o w = true
  | .either o w w' => good o w false x ∨ good o w' false x
  | .blind o w => x = K.report o w

theorem idem_some {K : Kernel} {o : Opt} {w : Nat} {b : Bool} {s s' : Sock} (h : idem K o w b s = some s') (hk : good o w b (K.report o w)) :
    good o w b (s'.val o) ∧ (∀ x, x ≠ o → s'.val x = s.val x) ∧ K.getFails o = false := by
  unfold idem at h
  split at h
  · cases h
  · rename_i hg
    split at h
    · rename_i hc
      cases h
      exact ⟨hc, fun _ _ => rfl, by simpa using hg⟩
    · split at h
      · cases h
      · cases h
        exact ⟨by simpa [store] using hk, fun x hx => by simp [store, hx], by simpa using hg⟩

theorem idem_none {K : Kernel} {o : Opt} {w : Nat} {b : Bool} {s : Sock} (h : idem K o w b s = none) : K.getFails o = true ∨ K.setFails o w = true := by
  unfold idem at h
  split at h
  · exact .inl (by assumption)
  · split at h
    · cases h
    · split at h
      · exact .inr (by assumption)
      · cases h

theorem idem_again {K : Kernel} {o : Opt} {w : Nat} {b : Bool} {t : Sock} (h : good o w b (t.val o)) (hg : K.getFails o = false) : idem K o w b t = some t := by
  unfold idem
  rw [if_neg (by simp [hg])]
  exact if_pos h

theorem step_some {K : Kernel} {st : Step} {s s' : Sock} (h : st.run K s = some s') (hk : Fair K st) :
    Done K (s'.val st.opt) st ∧ ∀ x, x ≠ st.opt → s'.val x = s.val x := by
  cases st with
  | must o w b =>
    have := idem_some h hk
    exact ⟨this.1, this.2.1⟩
  | may o w =>
    simp only [Step.run] at h
    cases hi : idem K o w false s with
    | none =>
      rw [hi] at h
      cases h
      exact ⟨.inr (idem_none hi), fun _ _ => rfl⟩
    | some s1 =>
      rw [hi] at h
      cases h
      have := idem_some hi hk
      exact ⟨.inl this.1, this.2.1⟩
  | either o w w' =>
    simp only [Step.run] at h
    cases hi : idem K o w false s with
    | none =>
      rw [hi] at h
      have := idem_some h hk.2
      exact ⟨.inr this.1, this.2.1⟩
    | some s1 =>
      rw [hi] at h
      cases h
      have := idem_some hi hk.1
      exact ⟨.inl this.1, this.2.1⟩
  | blind o w =>
    simp only [Step.run] at h
    split at h
    · cases h
    · cases h
      exact ⟨by simp [Done, Step.opt, store], fun x hx => by simp only [Step.opt] at hx; simp [store, hx]⟩

theorem run_frame {K : Kernel} : ∀ {l : List Step} {s s' : Sock}, runAll K l s = some s' → (∀ st ∈ l, Fair K st) → ∀ x, x ∉ l.map Step.opt → s'.val x = s.val x
  | [], s, s', h, _, x, _ => by cases h; rfl
  | st :: l, s, s', h, hk, x, hx => by
    simp only [runAll] at h
    cases hr : st.run K s with
    | none => rw [hr] at h; cases h
    | some s1 =>
      rw [hr] at h
      simp only [List.map_cons, List.mem_cons, not_or] at hx
      rw [run_frame h (fun y hy => hk y (by simp [hy])) x hx.2]
      exact (step_some hr (hk st (by simp))).2 x hx.1

theorem run_done {K : Kernel} : ∀ {l : List Step} {s s' : Sock}, runAll K l s = some s' → (∀ st ∈ l, Fair K st) → (l.map Step.opt).Nodup → ∀ st ∈ l, Done K (s'.val st.opt) st
  | [], _, _, _, _, _, st, hst => by cases hst
  | a :: l, s, s', h, hk, hn, st, hst => by
    simp only [runAll] at h
    cases hr : a.run K s with
    | none => rw [hr] at h; cases h
    | some s1 =>
      rw [hr] at h
      rw [List.map_cons, List.nodup_cons] at hn
      rcases List.mem_cons.mp hst with rfl | hst
      · rw [run_frame h (fun y hy => hk y (by simp [hy])) _ hn.1]
        exact (step_some hr (hk st (by simp))).1
      · exact run_done h (fun y hy => hk y (by simp [hy])) hn.2 st hst

/-! ### Again -/

def Step.isBlind : Step → Bool
  | .blind _ _ => true
  | _ => false

/-- A call for what is as wanted already changes nothing. -/
theorem step_again {K : Kernel} {st : Step} {s s1 t : Sock} (h : st.run K s = some s1) (hk : Fair K st) (ht : t.val st.opt = s1.val st.opt) :
    ∃ t', st.run K t = some t' ∧ t'.val = t.val ∧ (st.isBlind = false → t' = t) ∧ (st.isBlind = true → ∃ w, t'.sets = t.sets ++ [(st.opt, w)]) := by
  cases st with
  | must o w b =>
    have := idem_some h hk
    exact ⟨t, idem_again (by rw [show t.val o = s1.val o from ht]; exact this.1) this.2.2, rfl, fun _ => rfl, fun h => (by cases h)⟩
  | may o w =>
    simp only [Step.run] at h ⊢
    cases hi : idem K o w false s with
    | some s2 =>
      rw [hi] at h
      cases h
      have := idem_some hi hk
      rw [idem_again (t := t) (by rw [show t.val o = s2.val o from ht]; exact this.1) this.2.2]
      exact ⟨t, rfl, rfl, fun _ => rfl, fun h => (by cases h)⟩
    | none =>
      cases hj : idem K o w false t with
      | none => exact ⟨t, rfl, rfl, fun _ => rfl, fun h => (by cases h)⟩
      | some t2 =>
        -- the same call was refused before
        rw [hi] at h
        cases h
        have e : t.val o = s.val o := ht
        exfalso
        unfold idem at hi hj
        rw [e] at hj
        split at hi
        · rename_i hg
          rw [if_pos hg] at hj
          cases hj
        · rename_i hg
          rw [if_neg hg] at hj
          split at hi
          · cases hi
          · rename_i hc
            rw [if_neg hc] at hj
            split at hi
            · rename_i hs
              rw [if_pos hs] at hj
              cases hj
            · cases hi
  | either o w w' =>
    simp only [Step.run] at h ⊢
    cases hi : idem K o w false s with
    | some s2 =>
      rw [hi] at h
      cases h
      have := idem_some hi hk.1
      rw [idem_again (t := t) (by rw [show t.val o = s1.val o from ht]; exact this.1) this.2.2]
      exact ⟨t, rfl, rfl, fun _ => rfl, fun h => (by cases h)⟩
    | none =>
      rw [hi] at h
      have h2 := idem_some h hk.2
      have hset : K.setFails o w = true := by
        rcases idem_none hi with h' | h'
        · rw [h2.2.2] at h'; cases h'
        · exact h'
      have hag := idem_again (K := K) (w := w') (b := false) (t := t) (by rw [show t.val o = s1.val o from ht]; exact h2.1) h2.2.2
      cases hj : idem K o w false t with
      | none => exact ⟨t, hag, rfl, fun _ => rfl, fun h => (by cases h)⟩
      | some t2 =>
        have : t2 = t := by
          unfold idem at hj
          split at hj
          · cases hj
          · split at hj
            · cases hj; rfl
            · cases hj
        subst this
        exact ⟨t2, rfl, rfl, fun _ => rfl, fun h => (by cases h)⟩
  | blind o w =>
    simp only [Step.run] at h ⊢
    split at h
    · cases h
    · cases h
      refine ⟨store K o w t, by simp [*], ?_, fun h => (by cases h), fun _ => ⟨w, rfl⟩⟩
      funext x
      simp only [store]
      split
      · rename_i hx
        subst hx
        have : t.val x = (store K x w s).val x := ht
        rw [this]
        simp [store]
      · rfl

theorem run_again {K : Kernel} : ∀ {l : List Step} {s s' : Sock}, runAll K l s = some s' → (∀ st ∈ l, Fair K st) → (l.map Step.opt).Nodup →
    ∀ t : Sock, (∀ x ∈ l.map Step.opt, t.val x = s'.val x) → ∃ t', runAll K l t = some t' ∧ t'.val = t.val ∧ ∃ ws, t'.sets = t.sets ++ ws ∧ ∀ p ∈ ws, ∃ w, Step.blind p.1 w ∈ l
  | [], s, s', h, _, _, t, ht => ⟨t, rfl, rfl, [], by simp, by simp⟩
  | a :: l, s, s', h, hk, hn, t, ht => by
    simp only [runAll] at h
    cases hr : a.run K s with
    | none => rw [hr] at h; cases h
    | some s1 =>
      rw [hr] at h
      rw [List.map_cons, List.nodup_cons] at hn
      have hf := run_frame h (fun y hy => hk y (by simp [hy])) _ hn.1
      obtain ⟨t1, h1, h2, h3, h4⟩ := step_again (t := t) hr (hk a (by simp)) (by rw [ht _ (by simp), hf])
      obtain ⟨t', h5, h6, ws, h7, h8⟩ := run_again h (fun y hy => hk y (by simp [hy])) hn.2 t1 fun x hx => by
        rw [h2]
        exact ht x (by rw [List.map_cons]; exact List.mem_cons_of_mem _ hx)
      refine ⟨t', by simp only [runAll]; rw [h1]; exact h5, by rw [h6, h2], ?_⟩
      cases hb : a.isBlind with
      | false =>
        rw [h3 hb] at h7
        exact ⟨ws, h7, fun p hp => (h8 p hp).imp fun w hw => List.mem_cons_of_mem _ hw⟩
      | true =>
        obtain ⟨w, hw⟩ := h4 hb
        refine ⟨(a.opt, w) :: ws, by rw [h7, hw]; simp, ?_⟩
        intro p hp
        rcases List.mem_cons.mp hp with rfl | hp
        · cases a with
          | blind o w' => exact ⟨w', by simp [Step.opt]⟩
          | must => cases hb
          | may => cases hb
          | either => cases hb
        · exact (h8 p hp).imp fun w hw => List.mem_cons_of_mem _ hw

end Gdnsd.Sock
