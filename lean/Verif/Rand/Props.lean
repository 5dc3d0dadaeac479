import Verif.Rand.Lemmas
/-
C15 (shuffles permute, draws are in range), C55 (draws and shuffles are unbiased, the
generator never degenerates).
-/
namespace Gdnsd.Rand
open Spec

/-- C15: a bounded draw is below its bound, for every generator, state and bound. -/
theorem C15_in_range {σ : Type} (get : σ → UInt32 × σ) (fuel : Nat) (s : σ) (bound r : UInt32) (s' : σ)
    (hb : bound ≠ 0) (h : bounded get fuel s bound = some (r, s')) : r.toNat < bound.toNat := by
  have hb' : bound.toNat ≠ 0 := fun e => hb (UInt32.toNat_inj.mp e)
  obtain ⟨k, _, _, h3, _⟩ := bounded_spec get fuel s bound r s' hb' h
  exact pick_lt _ _ _ (UInt32.toNat_lt _) h3 (Nat.pos_of_ne_zero hb')

example : bounded randGet 5 ⟨1, 2, 3, 4, 5⟩ 10 ≠ none := by decide +kernel

/-- C15: a draw with bound 0 would be 0 and performs no division. -/
theorem C15_bound_zero {σ : Type} (get : σ → UInt32 × σ) (fuel : Nat) (s : σ) :
    bounded get fuel s 0 = some (0, (get s).2) := by
  have h : mulRaw (get s).1 0 = 0 := by
    apply UInt64.toNat_inj.mp; rw [mulRaw_toNat]; rfl
  simp [bounded, h]

theorem drawSeq_legal {σ : Type} (get : σ → UInt32 × σ) (fuel : Nat) :
    ∀ (n : Nat) (s : σ) (js : Nat → UInt32) (s' : σ), n < 4294967295 →
      drawSeq get fuel n s = some (js, s') → Legal js := by
  intro n
  induction n with
  | zero =>
    intro s js s' _ h
    simp only [drawSeq, Option.some.injEq, Prod.mk.injEq] at h
    rw [← h.1]; intro i; simp
  | succ n ih =>
    intro s js s' hn h
    simp only [drawSeq] at h
    split at h
    · simp at h
    · rename_i j s1 hb
      split at h
      · simp at h
      · rename_i js0 s2 hd
        simp only [Option.some.injEq, Prod.mk.injEq] at h
        have hb2 : (UInt32.ofNat (n + 2)).toNat = n + 2 := by
          rw [UInt32.toNat_ofNat', Nat.mod_eq_of_lt (by omega)]
        have hne : UInt32.ofNat (n + 2) ≠ 0 := by
          intro e; rw [e] at hb2; have : (0 : UInt32).toNat = 0 := rfl; omega
        have hj := C15_in_range get fuel s _ j s1 hne hb
        have hl := ih s1 js0 s2 (by omega) hd
        rw [← h.1]
        intro i
        show (if i = n + 1 then j else js0 i).toNat ≤ i
        split
        · omega
        · exact hl i

/-- C15: shuffling `count` records of the lengths the encoders write (a compressed
owner name, or the one-byte root) never runs outside the record set, never trips an
assertion, leaves every byte before and after alone and keeps each record exactly once:
for every generator state and every buffer. -/
theorem C15_shuffle {σ : Type} (get : σ → UInt32 × σ) (fuel : Nat) (s s' : σ) (pre post : Bytes)
    (rrs : List Bytes) (rrLen : Nat) (root : Bool) (out : Outcome Bytes)
    (hne : rrs ≠ []) (hcnt : rrs.length ≤ 65535) (hrr : rrLen = 16 ∨ rrLen = 28)
    (hlen : ∀ r ∈ rrs, r.length = if root then rrLen - 1 else rrLen)
    (hfirst : ∀ r ∈ rrs, if root then r.head? = some 0 else ∃ b, r.head? = some b ∧ 192 ≤ b.toNat)
    (h : shuffleGen get fuel s pre.length rrs.length rrLen (pre ++ rrs.flatten ++ post) = some (out, s')) :
    ∃ rrs' : List Bytes, rrs'.Perm rrs ∧ out = .ok (pre ++ rrs'.flatten ++ post) := by
  simp only [shuffleGen] at h
  split at h
  · simp at h
  rename_i js s1 hd
  simp only [Option.some.injEq, Prod.mk.injEq] at h
  have hleg : Legal js := drawSeq_legal get fuel _ s js s1 (by omega) hd
  have hpos : 0 < rrs.length := List.length_pos_iff.mpr hne
  refine ⟨shufL js (rrs.length - 1) rrs, shufL_perm _ _ _, ?_⟩
  rw [← h.1]
  obtain ⟨r, rest, hrs⟩ := List.exists_cons_of_ne_nil hne
  have hr := hlen r (by rw [hrs]; simp)
  have hf := hfirst r (by rw [hrs]; simp)
  obtain ⟨b0, r', hb0⟩ : ∃ b r', r = b :: r' := by
    cases r with
    | nil => cases root <;> simp at hr <;> omega
    | cons b r' => exact ⟨b, r', rfl⟩
  have hrd : rd (pre ++ rrs.flatten ++ post) pre.length = .ok b0 := by
    rw [hrs, hb0]
    simp [rd]
  have a1 : (rrs.length != 0) = true := by simp [hne]
  have a2 : (rrLen == 16 || rrLen == 28) = true := by
    rcases hrr with h | h <;> simp [h]
  have hshape : (b0 &&& 0xC0 != 0 || b0 == 0) = true ∧
      (if b0 = 0 then rrLen - 1 else rrLen) = if root then rrLen - 1 else rrLen := by
    rw [hb0] at hf
    cases root with
    | true =>
      simp only [if_true, List.head?_cons, Option.some.injEq] at hf
      subst hf; simp
    | false =>
      obtain ⟨b, hb, hb2⟩ := hf
      simp only [List.head?_cons, Option.some.injEq] at hb
      subst hb
      have key : ∀ x : BitVec 8, 192 ≤ x.toNat → (x &&& 0xC0#8 ≠ 0#8) ∧ x ≠ 0#8 := by decide +kernel
      obtain ⟨k1, k2⟩ := key b0.toBitVec hb2
      have e1 : b0 &&& 0xC0 ≠ 0 := by
        intro e; exact k1 (by have := congrArg UInt8.toBitVec e; simpa using this)
      have e2 : b0 ≠ 0 := by
        intro e; exact k2 (by have := congrArg UInt8.toBitVec e; simpa using this)
      exact ⟨by simp [e1], by simp [e2]⟩
  rw [shuffle, a1, assert_true, Outcome.bind_ok, a2, assert_true, Outcome.bind_ok, hrd,
    Outcome.bind_ok, hshape.1, assert_true, Outcome.bind_ok, hshape.2]
  refine shufLoop_eq js hleg _ ?_ pre post _ rrs (by omega) hlen
  cases root <;> simp <;> omega

/-- The hypotheses of `C15_shuffle` are met: three 16-byte A records. -/
example : (match shuffleGen randGet 3 ⟨1, 2, 3, 4, 5⟩ 2 3 16
    ([9, 9] ++ ([192 :: List.replicate 15 1, 192 :: List.replicate 15 2,
      192 :: List.replicate 15 3] : List Bytes).flatten ++ [7]) with
    | some (.ok _, _) => true
    | _ => false) = true := by
  decide +kernel

/-- C55: a bounded draw is the image of the first raw value the multiply-and-reject map
accepts; raw values before it are all rejected and no raw value after it is consumed. -/
theorem C55_first_accepted {σ : Type} (get : σ → UInt32 × σ) (fuel : Nat) (s : σ) (bound r : UInt32)
    (s' : σ) (hb : bound ≠ 0) (h : bounded get fuel s bound = some (r, s')) :
    ∃ k, k ≤ fuel ∧ (∀ j, j < k → pick bound.toNat (raw get j s).toNat = none) ∧
      pick bound.toNat (raw get k s).toNat = some r.toNat ∧ s' = after get (k + 1) s :=
  bounded_spec get fuel s bound r s' (fun e => hb (UInt32.toNat_inj.mp e)) h

/-- C55: a draw returns as soon as the generator yields an acceptable raw value. -/
theorem C55_returns {σ : Type} (get : σ → UInt32 × σ) (fuel : Nat) (s : σ) (bound : UInt32)
    (hb : bound ≠ 0) (k : Nat) (hk : k ≤ fuel) (h : pick bound.toNat (raw get k s).toNat ≠ none) :
    bounded get fuel s bound ≠ none := by
  have hb' : bound.toNat ≠ 0 := fun e => hb (UInt32.toNat_inj.mp e)
  have : (bounded get fuel s bound).isSome := by
    simp only [bounded]
    split
    · apply redraw_returns get bound _ (threshold_toNat bound hb')
      cases k with
      | zero => left; exact h
      | succ k => right; exact ⟨k, by omega, h⟩
    · rfl
  intro e; rw [e] at this; simp at this

/-- C55: no bias. Among the 2^32 raw values, each of the `b` outcomes is produced by
exactly `2^32 / b` of them, for every bound. -/
theorem C55_unbiased (K b r : Nat) (hK : K = 2 ^ 32) (hr : r < b) :
    ((List.range K).filter (fun v => decide (pick b v = some r))).length = K / b :=
  pick_count b r (by omega) hr K hK

example : (3 : Nat) < 10 := by decide

/-- C55: every order of distinct records is reachable, and by exactly one sequence of
draws (one draw in `0..i` for each position `i ≥ 1`): with unbiased draws all `n!`
orders are equally likely. -/
theorem C55_shuffle_uniform {α : Type} (l l' : List α) (hnd : l.Nodup) (hn : 0 < l.length)
    (hc : l.length ≤ 65535) (hp : l'.Perm l) :
    ∃ js, Legal js ∧ shufL js (l.length - 1) l = l' ∧
      ∀ js', Legal js' → shufL js' (l.length - 1) l = l' →
        ∀ i, 1 ≤ i → i ≤ l.length - 1 → js' i = js i := by
  obtain ⟨js, h1, h2⟩ := shufL_surj (l.length - 1) (by omega) l l' (by omega) hp
  refine ⟨js, h1, h2, ?_⟩
  intro js' h1' h2'
  exact shufL_inj (l.length - 1) l (by omega) hnd js' js h1' h1 (h2'.trans h2.symm)

example : ([1, 2, 3] : List Nat).Nodup ∧ ([3, 1, 2] : List Nat).Perm [1, 2, 3] := by decide

/-- C55: the list-level shuffle above is what the byte-level code computes, for records
with compressed owner names. -/
theorem C55_shuffle_is_code (js : Nat → UInt32) (hjs : Legal js) (L : Nat) (hL : L ≤ 28)
    (pre post : Bytes) (rrs : List Bytes) (hne : rrs ≠ []) (hlen : ∀ r ∈ rrs, r.length = L) :
    shufLoop js pre.length L (rrs.length - 1) (pre ++ rrs.flatten ++ post) =
      .ok (pre ++ (shufL js (rrs.length - 1) rrs).flatten ++ post) :=
  shufLoop_eq js hjs L hL pre post _ rrs (by have := List.length_pos_iff.mpr hne; omega) hlen

/-- C55: a freshly seeded generator has a non-zero xor-shift word, whatever the entropy
source yields. -/
theorem C55_seed (src : Nat → RState) : ∀ (fuel i : Nat) (s : RState),
    randInit src fuel i = some s → s.y ≠ 0 := by
  intro fuel
  induction fuel with
  | zero => intro i s h; simp [randInit] at h
  | succ n ih =>
    intro i s h
    simp only [randInit] at h
    split at h
    · exact ih _ _ h
    · rename_i hn
      simp only [Option.some.injEq] at h
      rw [← h]; exact hn

example : randInit (fun i => ⟨7, UInt32.ofNat i, 1, 1, 1⟩) 3 0 ≠ none := by decide

theorem randGet_y (s : RState) : (randGet s).2.y = xorShift s.y := by
  simp only [randGet]

theorem after_inv {σ : Type} (get : σ → UInt32 × σ) (P : σ → Prop) (h : ∀ s, P s → P (get s).2) :
    ∀ (k : Nat) (s : σ), P s → P (after get k s) := by
  intro k
  induction k with
  | zero => intro s hs; exact hs
  | succ k ih => intro s hs; exact ih _ (h s hs)

theorem xorShift_zero : xorShift 0 = 0 := by decide +kernel

/-- C55: from a non-zero xor-shift word the generator never reaches zero, after any
number of draws (zero would be absorbing and remove that word's contribution for ever). -/
theorem C55_never_degenerate (k : Nat) (s : RState) (h : s.y ≠ 0) : (after randGet k s).y ≠ 0 :=
  after_inv randGet (fun s => s.y ≠ 0)
    (fun s hs => by rw [randGet_y]; exact xorShift_ne_zero s.y hs) k s h

/-- The reason the seed is checked: zero is absorbing. -/
theorem C55_zero_absorbs (k : Nat) (s : RState) (h : s.y = 0) : (after randGet k s).y = 0 :=
  after_inv randGet (fun s => s.y = 0)
    (fun s hs => by rw [randGet_y, hs]; exact xorShift_zero) k s h

end Gdnsd.Rand
