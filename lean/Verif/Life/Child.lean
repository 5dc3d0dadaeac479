/-
The end of child processes.
-/
import Verif.Life.Spec
namespace Gdnsd.Life
open LifeSpec

/-- There in `k` rounds from the time `t`. -/
def kept (w : World) (t k p : Nat) : Bool := (List.range k).all fun i => (w (t + 1 + i) p).isSome

theorem kept_iff {w : World} {t k p : Nat} : kept w t k p = true ↔ ∀ i < k, (w (t + 1 + i) p).isSome = true := by
  unfold kept
  rw [List.all_eq_true]
  exact ⟨fun h i hi => h i (List.mem_range.mpr hi), fun h i hi => h i (List.mem_range.mp hi)⟩

/-- A number after `k` rounds from the time `t`. -/
def still (w : World) (t k p : Nat) : Nat := if p ≠ 0 ∧ kept w t k p = true then p else 0

def upto (w : World) (t k : Nat) (cs : List Nat) : List Nat := cs.map (still w t k)

theorem upto_zero (w : World) (t : Nat) (cs : List Nat) : upto w t 0 cs = cs := by
  unfold upto
  have : still w t 0 = id := by
    funext p
    unfold still
    by_cases h : p = 0
    · simp [h]
    · simp [h, kept]
  rw [this, List.map_id]

theorem kept_succ (w : World) (t k p : Nat) : kept w t (k + 1) p = ((w (t + 1) p).isSome && kept w (t + 1) k p) := by
  rw [Bool.eq_iff_iff, Bool.and_eq_true, kept_iff, kept_iff]
  constructor
  · intro h
    refine ⟨h 0 (by omega), fun i hi => ?_⟩
    rw [show t + 1 + 1 + i = t + 1 + (i + 1) by omega]
    exact h (i + 1) (by omega)
  · rintro ⟨h1, h⟩ i hi
    cases i with
    | zero => exact h1
    | succ i => rw [show t + 1 + (i + 1) = t + 1 + 1 + i by omega]; exact h i (by omega)

theorem upto_succ (w : World) (t k : Nat) (cs : List Nat) : upto w (t + 1) k (check w (t + 1) cs) = upto w t (k + 1) cs := by
  unfold upto check
  rw [List.map_map]
  apply List.map_congr_left
  intro p _
  simp only [Function.comp]
  unfold still
  rw [kept_succ]
  by_cases h0 : p = 0
  · simp [h0]
  · by_cases h1 : (w (t + 1) p).isSome
    · simp [h0, h1]
    · simp [h0, h1]

theorem await_time (w : World) : ∀ a t rem cs, (await w a t rem cs).1 ≤ t + a
  | 0, t, _, _ => Nat.le_refl _
  | a + 1, t, rem, cs => by
    unfold await
    split
    · exact Nat.le_add_right _ _
    · have := await_time w a (t + 1) (remaining (check w (t + 1) cs)) (check w (t + 1) cs)
      omega

theorem await_spec (w : World) : ∀ a t cs, ∃ k, k ≤ a ∧ await w a t (remaining cs) cs = (t + k, upto w t k cs, remaining (upto w t k cs)) ∧
    (k = a ∨ remaining (upto w t k cs) = 0) ∧ ∀ j < k, remaining (upto w t j cs) ≠ 0
  | 0, t, cs => ⟨0, Nat.le_refl _, by simp [await, upto_zero], .inl rfl, fun _ h => absurd h (Nat.not_lt_zero _)⟩
  | a + 1, t, cs => by
    by_cases h : remaining cs = 0
    · refine ⟨0, Nat.zero_le _, ?_, .inr (by rw [upto_zero]; exact h), fun _ h => absurd h (Nat.not_lt_zero _)⟩
      unfold await
      rw [if_pos h, upto_zero, h]
      rfl
    · obtain ⟨k, h1, h2, h3, h4⟩ := await_spec w a (t + 1) (check w (t + 1) cs)
      rw [upto_succ] at h2 h3
      refine ⟨k + 1, by omega, ?_, ?_, ?_⟩
      · unfold await
        rw [if_neg h, h2]
        rw [show t + 1 + k = t + (k + 1) by omega]
      · rcases h3 with h3 | h3
        · exact .inl (by omega)
        · exact .inr h3
      · intro j hj
        cases j with
        | zero => rw [upto_zero]; exact h
        | succ j => rw [← upto_succ]; exact h4 j (by omega)

theorem stays_kept (w : World) (n p : Nat) : stays w n p = kept w 0 n p := by
  unfold stays kept
  congr 1
  funext i
  rw [show 0 + 1 + i = i + 1 by omega]

theorem stays_iff {w : World} {n p : Nat} : stays w n p = true ↔ ∀ i < n, (w (0 + 1 + i) p).isSome = true := by
  rw [stays_kept, kept_iff]

theorem upto_filter {w : World} {n : Nat} : ∀ {cs : List Nat}, 0 ∉ cs → (upto w 0 n cs).filter (· ≠ 0) = cs.filter (stays w n)
  | [], _ => rfl
  | p :: cs, h => by
    have hp : p ≠ 0 := fun h0 => h (by simp [h0])
    have ih := upto_filter (w := w) (n := n) (cs := cs) fun h0 => h (by simp [h0])
    unfold upto at ih ⊢
    rw [List.map_cons, List.filter_cons, List.filter_cons, ih]
    have hstill : still w 0 n p = if stays w n p = true then p else 0 := by
      unfold still
      rw [stays_kept]
      simp [hp]
    rw [hstill]
    by_cases hs : stays w n p = true
    · simp [hs, hp]
    · simp [hs]

theorem remaining_upto {w : World} {n : Nat} {cs : List Nat} (h : 0 ∉ cs) : remaining (upto w 0 n cs) = (cs.filter (stays w n)).length := by
  unfold remaining
  rw [upto_filter h]

theorem stays_le {w : World} {n m p : Nat} (h : n ≤ m) (hs : stays w m p = true) : stays w n p = true :=
  stays_iff.mpr fun i hi => stays_iff.mp hs i (by omega)

theorem remaining_all {cs : List Nat} (h : 0 ∉ cs) : remaining cs = cs.length := by
  unfold remaining
  rw [List.filter_eq_self.mpr]
  intro p hp
  simp only [decide_eq_true_eq]
  intro h0
  exact h (h0 ▸ hp)

end Gdnsd.Life
