/-
C78: values as numbers and truth values.
-/
import Verif.Vscf.ConvLemmas
namespace Gdnsd.Vscf
open VscfSpec

/-- A value is taken as an unsigned number if and only if all of it is a number with less than 65 bits; a
number with a minus sign is taken modulo 2^64. -/
theorem C78_ulong {v : Bytes} {x : Nat} :
    getUlong v = some x ↔ ∃ neg m, Signed v neg m ∧ m < 2 ^ 64 ∧ x = if neg = true then (2 ^ 64 - m) % 2 ^ 64 else m := by
  unfold getUlong
  constructor
  · intro h
    split at h
    · cases h
    next h0 =>
    have hv : v ≠ [] := fun e => h0 (by rw [e]; rfl)
    unfold strtoul at h
    obtain ⟨neg, m, n, hs⟩ : ∃ neg m n, strtox (cstr v) = (neg, m, n) := ⟨_, _, _, rfl⟩
    rw [hs] at h
    dsimp only at h
    by_cases hm : 2 ^ 64 ≤ m
    · rw [if_pos hm] at h; cases h
    · rw [if_neg hm] at h
      dsimp only at h
      split at h
      · cases h
      next hn =>
      have hn : n = v.length := Classical.byContradiction hn
      subst hn
      simp only [Option.some.injEq] at h
      exact ⟨neg, m, (whole hv).mp hs, by omega, h.symm⟩
  · rintro ⟨neg, m, h1, h2, rfl⟩
    have hv := signed_ne h1
    have h0 : v.length ≠ 0 := fun h => hv (List.eq_nil_of_length_eq_zero h)
    rw [if_neg h0]
    unfold strtoul
    rw [(whole hv).mpr h1]
    dsimp only
    rw [if_neg (by omega)]
    simp

/-- A value is taken as a signed number if and only if all of it is a number in the range. -/
theorem C78_long {v : Bytes} {x : Int} :
    getLong v = some x ↔ ∃ neg m, Signed v neg m ∧ x = (if neg = true then -(m : Int) else m) ∧ -2 ^ 63 ≤ x ∧ x < 2 ^ 63 := by
  unfold getLong
  constructor
  · intro h
    split at h
    · cases h
    next h0 =>
    have hv : v ≠ [] := fun e => h0 (by rw [e]; rfl)
    unfold strtol at h
    obtain ⟨neg, m, n, hs⟩ : ∃ neg m n, strtox (cstr v) = (neg, m, n) := ⟨_, _, _, rfl⟩
    rw [hs] at h
    dsimp only at h
    have key : ∀ y : Int, (match (some y, n) with | (none, _) => none | (some x, n) => if n ≠ v.length then none else some x) = some x → n = v.length ∧ y = x := by
      intro y hy
      dsimp only at hy
      split at hy
      · cases hy
      next hn => exact ⟨Classical.byContradiction hn, by simpa using hy⟩
    cases neg with
    | true =>
      simp only [if_true] at h
      by_cases hm : 2 ^ 63 < m
      · rw [if_pos hm] at h; cases h
      · rw [if_neg hm] at h
        obtain ⟨rfl, rfl⟩ := key _ h
        exact ⟨true, m, (whole hv).mp hs, by simp, by omega, by omega⟩
    | false =>
      simp only [Bool.false_eq_true, if_false] at h
      by_cases hm : 2 ^ 63 ≤ m
      · rw [if_pos hm] at h; cases h
      · rw [if_neg hm] at h
        obtain ⟨rfl, rfl⟩ := key _ h
        exact ⟨false, m, (whole hv).mp hs, by simp, by omega, by omega⟩
  · rintro ⟨neg, m, h1, rfl, h2, h3⟩
    have hv := signed_ne h1
    have h0 : v.length ≠ 0 := fun h => hv (List.eq_nil_of_length_eq_zero h)
    rw [if_neg h0]
    unfold strtol
    rw [(whole hv).mpr h1]
    cases neg with
    | true =>
      simp only [if_true] at h2 h3 ⊢
      rw [if_neg (by omega)]
      simp
    | false =>
      simp only [Bool.false_eq_true, if_false] at h2 h3 ⊢
      rw [if_neg (by omega)]
      simp

theorem letter_iff {l c : UInt8} (h : 97 ≤ l.toNat) : IsLetter l c ↔ c = l ∨ c = l - 32 := by
  unfold IsLetter
  have hl : (32 : UInt8) ≤ l := by rw [UInt8.le_iff_toNat_le]; show 32 ≤ l.toNat; omega
  have hs : (l - 32).toNat = l.toNat - 32 := by rw [UInt8.toNat_sub_of_le _ _ hl]; rfl
  constructor
  · rintro (h1 | h1)
    · exact Or.inl h1
    · refine Or.inr (UInt8.toNat.inj ?_)
      omega
  · rintro (h1 | h1)
    · exact Or.inl h1
    · subst h1; right; omega

/-- A value is a truth value if and only if it is `true` or `false` in any mix of cases. -/
theorem C78_bool {v : Bytes} {b : Bool} :
    getBool v = some b ↔ (b = true ∧ SameWord [116, 114, 117, 101] v) ∨ (b = false ∧ SameWord [102, 97, 108, 115, 101] v) := by
  have l : ∀ (x c : UInt8) (h : 97 ≤ x.toNat), IsLetter x c ↔ (c = x - 32 ∨ c = x) := fun x c h => by rw [letter_iff h]; exact Or.comm
  match v with
  | [] => simp [getBool, SameWord]
  | [a] => simp [getBool, SameWord]
  | [a, b'] => simp [getBool, SameWord]
  | [a, b', c] => simp [getBool, SameWord]
  | [a, b', c, d] =>
    simp only [getBool, SameWord, l 116 a (by decide), l 114 b' (by decide), l 117 c (by decide), l 101 d (by decide), and_false, or_false, and_true]
    have e1 : (116 : UInt8) - 32 = 84 := by decide
    have e2 : (114 : UInt8) - 32 = 82 := by decide
    have e3 : (117 : UInt8) - 32 = 85 := by decide
    have e4 : (101 : UInt8) - 32 = 69 := by decide
    rw [e1, e2, e3, e4]
    split
    · next h => simp [h, eq_comm]
    · next h => simp [h]
  | [a, b', c, d, e] =>
    simp only [getBool, SameWord, l 102 a (by decide), l 97 b' (by decide), l 108 c (by decide), l 115 d (by decide), l 101 e (by decide), and_false, false_or, and_true]
    have e1 : (102 : UInt8) - 32 = 70 := by decide
    have e2 : (97 : UInt8) - 32 = 65 := by decide
    have e3 : (108 : UInt8) - 32 = 76 := by decide
    have e4 : (115 : UInt8) - 32 = 83 := by decide
    have e5 : (101 : UInt8) - 32 = 69 := by decide
    rw [e1, e2, e3, e4, e5]
    split
    · next h => simp [h, eq_comm]
    · next h => simp [h]
  | a :: b' :: c :: d :: e :: f :: r => simp [getBool, SameWord]

/-- A number with a minus sign is a large unsigned number: `-1`. -/
theorem C78_negative : getUlong [45, 49] = some (2 ^ 64 - 1) := by decide +kernel

/-! ### Examples -/

/-- ` 0x1F`, `017`, `-9223372036854775808`, `18446744073709551616`, `12 `, `1` and a zero byte, `tRuE`. -/
example : getUlong [32, 48, 120, 49, 70] = some 31 ∧ getUlong [48, 49, 55] = some 15 ∧
    getLong [45, 57, 50, 50, 51, 51, 55, 50, 48, 51, 54, 56, 53, 52, 55, 55, 53, 56, 48, 56] = some (-2 ^ 63) ∧
    getUlong [49, 56, 52, 52, 54, 55, 52, 52, 48, 55, 51, 55, 48, 57, 53, 53, 49, 54, 49, 54] = none ∧ getUlong [49, 50, 32] = none ∧ getUlong [49, 0] = none ∧
    getBool [116, 82, 117, 69] = some true := by decide +kernel

example : Signed [32, 48, 120, 49, 70] false 31 :=
  .plain (b := [32]) (t := [48, 120, 49, 70]) (by simp [Blanks]) (.hex (Or.inl rfl) (by simp) (.cons (d := 1) (n := 15) ⟨by decide, Or.inl (by decide)⟩
    (.cons (d := 15) (n := 0) ⟨by decide, Or.inr (Or.inr (by decide))⟩ .nil)))

end Gdnsd.Vscf
