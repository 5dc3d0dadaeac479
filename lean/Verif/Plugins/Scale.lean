import Verif.Plugins.Model
/-
The threshold computation `gdnsd_uscale_ceil`.
-/
namespace Gdnsd.Plug

theorem flMul_le {v m n k : Nat} (h : v * m ≤ n * 2 ^ k) (hn : n < 2 ^ 53) : flMul v m ≤ n * 2 ^ k := by
  unfold flMul
  dsimp only
  generalize v * m = p at *
  split
  · exact h
  · rename_i hp
    have hp0 : p ≠ 0 := by omega
    have hL1 : 2 ^ Nat.log2 p ≤ p := Nat.log2_self_le hp0
    have hL53 : 53 ≤ Nat.log2 p := (Nat.le_log2 hp0).2 (by omega)
    generalize hsh : Nat.log2 p - 52 = sh
    have hL : Nat.log2 p = sh + 52 := by omega
    rw [hL] at hL1
    have hdm := Nat.div_add_mod p (2 ^ sh)
    have hpos : 0 < 2 ^ sh := Nat.pow_pos (by decide)
    rw [Nat.mul_comm] at hdm
    have hlt := Nat.mod_lt p hpos
    generalize p / 2 ^ sh = q at *
    generalize p % 2 ^ sh = rem at *
    split
    · rename_i hr
      have hrem : 0 < rem := by
        have : 0 < 2 ^ (sh - 1) := Nat.pow_pos (by decide)
        omega
      have hks : sh ≤ k := by
        refine Decidable.byContradiction fun hc => ?_
        have hk : k + 1 ≤ sh := by omega
        have h1 : 2 ^ (k + 1) ≤ 2 ^ sh := Nat.pow_le_pow_right (by decide) hk
        have h2 : n * 2 ^ k < 2 ^ 53 * 2 ^ k := by
          apply Nat.mul_lt_mul_of_pos_right hn (Nat.pow_pos (by decide))
        rw [Nat.pow_add] at hL1
        rw [Nat.pow_succ] at h1
        omega
      obtain ⟨d, rfl⟩ := Nat.exists_eq_add_of_le hks
      have e : n * 2 ^ (sh + d) = (n * 2 ^ d) * 2 ^ sh := by
        rw [Nat.pow_add, Nat.mul_assoc, Nat.mul_comm (2 ^ d)]
      rw [e] at h ⊢
      have : q < n * 2 ^ d := by
        refine Decidable.byContradiction fun hc => ?_
        have := Nat.mul_le_mul_right (2 ^ sh) (by omega : n * 2 ^ d ≤ q)
        omega
      exact Nat.mul_le_mul_right _ this
    · omega

theorem flMul_ge (v m : Nat) : v * m * 2 ^ 53 ≤ flMul v m * 2 ^ 53 + v * m := by
  unfold flMul
  dsimp only
  generalize v * m = p
  split
  · exact Nat.le_add_right ..
  · rename_i hp
    have hp0 : p ≠ 0 := by omega
    have hL1 : 2 ^ Nat.log2 p ≤ p := Nat.log2_self_le hp0
    have hL53 : 53 ≤ Nat.log2 p := (Nat.le_log2 hp0).2 (by omega)
    obtain ⟨s, hL⟩ : ∃ s, Nat.log2 p = s + 53 := ⟨Nat.log2 p - 53, by omega⟩
    rw [hL, Nat.pow_add] at hL1
    rw [show Nat.log2 p - 52 = s + 1 by omega, show s + 1 - 1 = s by omega]
    have hdm := Nat.div_add_mod p (2 ^ (s + 1))
    have hlt := Nat.mod_lt p (show 0 < 2 ^ (s + 1) from Nat.pow_pos (by decide))
    rw [Nat.mul_comm] at hdm
    have hs : 2 ^ (s + 1) = 2 ^ s * 2 := Nat.pow_succ ..
    generalize p / 2 ^ (s + 1) = q at *
    generalize p % 2 ^ (s + 1) = rem at *
    generalize 2 ^ (s + 1) = H at *
    generalize 2 ^ s = h at *
    clear hp hp0 hL53 hL
    generalize 2 ^ 53 = K at *
    subst hdm
    split
    · rw [Nat.add_mul, Nat.add_mul, Nat.one_mul, Nat.add_mul]
      have := Nat.mul_le_mul_right K (show rem ≤ H by omega)
      omega
    · rename_i hr
      have := Nat.mul_le_mul_right K (show rem ≤ h by omega)
      rw [Nat.add_mul]
      omega

/-- The threshold count: it exists (the assertions hold), is between 1 and `v`, every count
that reaches the configured share `m / 2^k` passes it, and a count that passes reaches the
share up to one part in 2^53 (the rounding of the double product). -/
theorem uscale_spec {v m k : Nat} (hv : 0 < v) (hv' : v < 2 ^ 53) (hm : 0 < m) (hk : m ≤ 2 ^ k) :
    ∃ r, uscaleCeil v m k = .ok r ∧ 1 ≤ r ∧ r ≤ v ∧ (∀ n, v * m ≤ n * 2 ^ k → r ≤ n) ∧
      (∀ n, r ≤ n → v * m * 2 ^ 53 ≤ n * 2 ^ k * 2 ^ 53 + v * m) := by
  have hpos : 0 < 2 ^ k := Nat.pow_pos (by decide)
  have hc : ∀ n, (flMul v m + 2 ^ k - 1) / 2 ^ k ≤ n ↔ flMul v m ≤ n * 2 ^ k := by
    intro n
    have : (flMul v m + 2 ^ k - 1) / 2 ^ k ≤ n ↔ (flMul v m + 2 ^ k - 1) / 2 ^ k < n + 1 := by omega
    rw [this, Nat.div_lt_iff_lt_mul hpos, Nat.add_mul]; omega
  have hle : (flMul v m + 2 ^ k - 1) / 2 ^ k ≤ v := (hc v).2 (flMul_le (Nat.mul_le_mul_left v hk) hv')
  refine ⟨(flMul v m + 2 ^ k - 1) / 2 ^ k, ?_, ?_, hle, ?_, ?_⟩
  · simp only [uscaleCeil]
    rw [if_neg (by omega), if_pos hle]
  · refine Decidable.byContradiction fun h0 => ?_
    have h := (hc 0).1 (by omega)
    have hg := flMul_ge v m
    have : 0 < v * m := Nat.mul_pos hv hm
    omega
  · intro n hn
    by_cases hn53 : n < 2 ^ 53
    · exact (hc n).2 (flMul_le hn hn53)
    · omega
  · intro n hn
    have h1 := (hc n).1 hn
    have h2 := flMul_ge v m
    have h3 := Nat.mul_le_mul_right (2 ^ 53) h1
    exact Nat.le_trans h2 (Nat.add_le_add_right h3 _)

end Gdnsd.Plug
