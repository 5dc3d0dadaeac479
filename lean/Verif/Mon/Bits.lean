import Verif.Mon.Spec
/- Bit-level facts about state values. -/
namespace Gdnsd.Mon

theorem nat_and_two_pow (x i : Nat) : x &&& 2 ^ i = (x.testBit i).toNat * 2 ^ i := by
  apply Nat.eq_of_testBit_eq
  intro j
  rw [Nat.testBit_and, Nat.testBit_two_pow]
  by_cases h : i = j
  · subst h
    cases hx : x.testBit i <;> simp
  · cases hx : x.testBit i <;> simp [h]

theorem and_or_right (a b c : UInt32) : (a ||| b) &&& c = (a &&& c) ||| (b &&& c) := by
  apply UInt32.toNat_inj.mp
  simp [Nat.and_or_distrib_right]

theorem sttl_ext {a b : UInt32} (ha : Valid a) (hb : Valid b) (h1 : isDown a = isDown b)
    (h2 : isForced a = isForced b) (h3 : ttl a = ttl b) : a = b := by
  apply UInt32.toNat_inj.mp
  apply Nat.eq_of_testBit_eq
  intro i
  by_cases h : i < 28
  · have := congrArg (Nat.testBit · i) h3
    simp only [ttl, Nat.testBit_mod_two_pow, h, decide_true, Bool.true_and] at this
    exact this
  · by_cases h32 : 32 ≤ i
    · have hp : 2 ^ 32 ≤ 2 ^ i := Nat.pow_le_pow_right (by omega) h32
      rw [Nat.testBit_lt_two_pow (Nat.lt_of_lt_of_le a.toNat_lt hp),
        Nat.testBit_lt_two_pow (Nat.lt_of_lt_of_le b.toNat_lt hp)]
    · have : i = 28 ∨ i = 29 ∨ i = 30 ∨ i = 31 := by omega
      rcases this with rfl | rfl | rfl | rfl
      · rw [ha.1, hb.1]
      · rw [ha.2, hb.2]
      · exact h2
      · exact h1

theorem ttl_eq (a : UInt32) : ttl a = (a &&& TTLMASK).toNat := by
  rw [UInt32.toNat_and]
  exact (Nat.and_two_pow_sub_one_eq_mod a.toNat 28).symm

theorem isDown_iff (a : UInt32) : isDown a = (a &&& DOWN != 0) := by
  have : (a &&& DOWN).toNat = a.toNat &&& 2 ^ 31 := by rw [UInt32.toNat_and]; rfl
  rw [nat_and_two_pow] at this
  unfold isDown
  cases h : a.toNat.testBit 31
  · have h0 : a &&& DOWN = 0 := UInt32.toNat_inj.mp (by rw [this, h]; rfl)
    simp [h0]
  · have h0 : a &&& DOWN ≠ 0 := fun hh => by rw [hh, h] at this; revert this; decide
    simp [h0]

theorem isForced_iff (a : UInt32) : isForced a = (a &&& FORCED != 0) := by
  have : (a &&& FORCED).toNat = a.toNat &&& 2 ^ 30 := by rw [UInt32.toNat_and]; rfl
  rw [nat_and_two_pow] at this
  unfold isForced
  cases h : a.toNat.testBit 30
  · have h0 : a &&& FORCED = 0 := UInt32.toNat_inj.mp (by rw [this, h]; rfl)
    simp [h0]
  · have h0 : a &&& FORCED ≠ 0 := fun hh => by rw [hh, h] at this; revert this; decide
    simp [h0]

theorem valid_iff (a : UInt32) : Valid a ↔ a &&& RESERVED = 0 := by
  have e : (a &&& RESERVED).toNat = a.toNat &&& (2 ^ 28 ||| 2 ^ 29) := by rw [UInt32.toNat_and]; rfl
  rw [Nat.and_or_distrib_left, nat_and_two_pow, nat_and_two_pow] at e
  constructor
  · intro h
    apply UInt32.toNat_inj.mp
    rw [e, h.1, h.2]; rfl
  · intro h
    rw [h] at e
    unfold Valid
    revert e
    cases a.toNat.testBit 28 <;> cases a.toNat.testBit 29 <;> simp

theorem isDown_or (a b : UInt32) : isDown (a ||| b) = (isDown a || isDown b) := by
  simp [isDown]
theorem isForced_or (a b : UInt32) : isForced (a ||| b) = (isForced a || isForced b) := by
  simp [isForced]
theorem isDown_and (a b : UInt32) : isDown (a &&& b) = (isDown a && isDown b) := by
  simp [isDown]
theorem isForced_and (a b : UInt32) : isForced (a &&& b) = (isForced a && isForced b) := by
  simp [isForced]
theorem Valid_or {a b : UInt32} (ha : Valid a) (hb : Valid b) : Valid (a ||| b) := by
  unfold Valid at *; simp [ha, hb]
theorem Valid_and {a b : UInt32} (hb : Valid b) : Valid (a &&& b) := by
  unfold Valid at *; simp [hb]
theorem ttl_or (a b : UInt32) : ttl (a ||| b) = ttl a ||| ttl b := by
  rw [ttl_eq, and_or_right, UInt32.toNat_or, ttl_eq, ttl_eq]

theorem ttl_lt (a : UInt32) : ttl a < 2 ^ 28 := Nat.mod_lt _ (by decide)

theorem ttl_masked (a : UInt32) : ttl (a &&& TTLMASK) = ttl a := by
  rw [ttl_eq, ttl_eq, UInt32.and_assoc, UInt32.and_self]

theorem ttl_flags (a : UInt32) : ttl (a &&& (DOWN ||| FORCED)) = 0 := by
  rw [ttl_eq, UInt32.and_assoc, show (DOWN ||| FORCED) &&& TTLMASK = 0 from by decide, UInt32.and_zero]; rfl

/-- A value at most `TTL_MAX` is just a TTL. -/
theorem small {v : UInt32} (h : v ≤ TTLMASK) : isDown v = false ∧ isForced v = false ∧ Valid v ∧ ttl v = v.toNat := by
  have h' : v.toNat < 2 ^ 28 := by
    have := UInt32.le_iff_toNat_le.mp h
    have e : TTLMASK.toNat = 2 ^ 28 - 1 := rfl
    omega
  have tb : ∀ i, 28 ≤ i → v.toNat.testBit i = false := fun i hi =>
    Nat.testBit_lt_two_pow (Nat.lt_of_lt_of_le h' (Nat.pow_le_pow_right (by omega) hi))
  exact ⟨tb 31 (by omega), tb 30 (by omega), ⟨tb 28 (by omega), tb 29 (by omega)⟩, Nat.mod_eq_of_lt h'⟩

theorem min2_facts (a b : UInt32) :
    isDown (min2 a b) = (isDown a || isDown b) ∧ isForced (min2 a b) = (isForced a || isForced b) ∧
    ttl (min2 a b) = min (ttl a) (ttl b) ∧ Valid (min2 a b) := by
  have hm1 : isDown TTLMASK = false := by decide
  have hm2 : isForced TTLMASK = false := by decide
  have hm3 : Valid TTLMASK := by decide
  have hs1 : isDown (DOWN ||| FORCED) = true := by decide
  have hs2 : isForced (DOWN ||| FORCED) = true := by decide
  have hs3 : Valid (DOWN ||| FORCED) := by decide
  have hlt : (a &&& TTLMASK < b &&& TTLMASK) ↔ ttl a < ttl b := by
    rw [UInt32.lt_iff_toNat_lt, ttl_eq, ttl_eq]
  unfold min2
  simp only [hlt]
  split
  · rename_i h
    refine ⟨by simp [isDown_or, isDown_and, hm1, hs1], by simp [isForced_or, isForced_and, hm2, hs2], ?_,
      Valid_or (Valid_and hs3) (Valid_and hm3)⟩
    rw [ttl_or, ttl_flags, ttl_masked, Nat.zero_or, Nat.min_eq_left (by omega)]
  · rename_i h
    refine ⟨by simp [isDown_or, isDown_and, hm1, hs1], by simp [isForced_or, isForced_and, hm2, hs2], ?_,
      Valid_or (Valid_and hs3) (Valid_and hm3)⟩
    rw [ttl_or, ttl_flags, ttl_masked, Nat.zero_or, Nat.min_eq_right (by omega)]

end Gdnsd.Mon
