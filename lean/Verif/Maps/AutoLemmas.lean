/-
The insertion sort of automatic datacenter lists.
-/
import Verif.Maps.Spec
namespace Gdnsd.Maps
open Gdnsd.Geo

theorem insBack_perm (lt : Nat → Nat → Bool) (x : Nat) : ∀ l, (insBack lt x l).Perm (x :: l) := by
  intro l
  induction l with
  | nil => exact List.Perm.refl _
  | cons y ys ih =>
    unfold insBack
    cases lt x y with
    | false => exact List.Perm.refl _
    | true => exact (ih.cons y).trans (List.Perm.swap x y ys)

theorem insSort_perm (lt : Nat → Nat → Bool) : ∀ l rev, (insSort lt rev l).Perm (rev ++ l) := by
  intro l
  induction l with
  | nil => intro rev; simp [insSort]
  | cons x xs ih =>
    intro rev
    refine (ih _).trans ?_
    refine ((insBack_perm lt x rev).append_right xs).trans ?_
    simp only [List.cons_append]
    exact List.perm_middle.symm

theorem insBack_sorted {lt : Nat → Nat → Bool} (hw : Weak lt) {pos : Nat → Nat} {x : Nat} : ∀ {l : List Nat}, (∀ y ∈ l, pos y < pos x) →
    l.Pairwise (fun b a => lt a b = true ∨ (lt b a = false ∧ pos a < pos b)) →
    (insBack lt x l).Pairwise (fun b a => lt a b = true ∨ (lt b a = false ∧ pos a < pos b)) := by
  intro l
  induction l with
  | nil => intro _ _; simp [insBack]
  | cons y ys ih =>
    intro hp hs
    rw [List.pairwise_cons] at hs
    unfold insBack
    cases hxy : lt x y with
    | true =>
      simp only [cond_true]
      rw [List.pairwise_cons]
      refine ⟨fun a ha => ?_, ih (fun z hz => hp z (List.mem_cons_of_mem _ hz)) hs.2⟩
      rcases List.mem_cons.mp ((insBack_perm lt x ys).mem_iff.mp ha) with rfl | ha
      · exact Or.inl hxy
      · exact hs.1 a ha
    | false =>
      simp only [cond_false]
      rw [List.pairwise_cons, List.pairwise_cons]
      refine ⟨fun a ha => ?_, hs⟩
      rcases List.mem_cons.mp ha with rfl | hz
      · exact Or.inr ⟨hxy, hp a ha⟩
      · refine Or.inr ⟨?_, hp a ha⟩
        refine hw.negtrans x y a hxy ?_
        rcases hs.1 a hz with h | h
        · exact hw.asymm a y h
        · exact h.1

theorem insSort_sorted {lt : Nat → Nat → Bool} (hw : Weak lt) {pos : Nat → Nat} : ∀ {l rev : List Nat}, (∀ y ∈ rev, ∀ x ∈ l, pos y < pos x) →
    l.Pairwise (fun a b => pos a < pos b) → rev.Pairwise (fun b a => lt a b = true ∨ (lt b a = false ∧ pos a < pos b)) →
    (insSort lt rev l).Pairwise (fun a b => lt a b = true ∨ (lt b a = false ∧ pos a < pos b)) := by
  intro l
  induction l with
  | nil =>
    intro rev _ _ hr
    exact List.pairwise_reverse.mpr hr
  | cons x xs ih =>
    intro rev hp hl hr
    rw [List.pairwise_cons] at hl
    refine ih ?_ hl.2 (insBack_sorted hw (fun y hy => hp y hy x List.mem_cons_self) hr)
    intro y hy z hz
    rcases List.mem_cons.mp ((insBack_perm lt x rev).mem_iff.mp hy) with rfl | hy
    · exact hl.1 z hz
    · exact hp y hy z (List.mem_cons_of_mem _ hz)

theorem idxOf_lt_pairwise {l : List Nat} (h : l.Nodup) : l.Pairwise fun a b => l.idxOf a < l.idxOf b := by
  rw [List.pairwise_iff_getElem]
  intro i j hi hj hij
  rw [List.Nodup.idxOf_getElem h i hi, List.Nodup.idxOf_getElem h j hj]
  exact hij

theorem takeWhile_set_zero {l : List Nat} (hl : ∀ x ∈ l, x ≠ 0) : ∀ {k : Nat} {r : List Nat}, k < (l ++ r).length → k ≤ l.length →
    ((l ++ r).set k 0).takeWhile (· ≠ 0) = l.take k := by
  induction l with
  | nil =>
    intro k r hk hk'
    have : k = 0 := by simpa using hk'
    subst this
    cases r with
    | nil => simp at hk
    | cons a r => simp
  | cons x xs ih =>
    intro k r hk hk'
    cases k with
    | zero => simp
    | succ k =>
      have := ih (fun y hy => hl y (List.mem_cons_of_mem _ hy)) (k := k) (r := r) (by simpa using hk) (by simpa using hk')
      simp only [List.cons_append, List.set_cons_succ, List.take_succ_cons]
      rw [List.takeWhile_cons, if_pos (by simpa using hl x List.mem_cons_self), this]

/-- What the function makes of a default list that is long enough. -/
theorem cityList_ok {n limit : Nat} {list0 : List Nat} (lt : Nat → Nat → Bool) (hn : n ≤ 254) (hlen : n ≤ list0.length) (hlim : limit ≤ n)
    (hr : ∀ k ∈ list0.take n, 1 ≤ k ∧ k ≤ n) : cityList n limit list0 lt = .ok ((insSort lt [] (list0.take n)).take limit) := by
  unfold cityList
  rw [show assert (decide (n ≤ 254)) = .ok () from by simp [assert, hn], Outcome.bind_ok, if_neg (by omega)]
  dsimp only
  rw [show assert ((list0.take n).all fun k => decide (1 ≤ k ∧ k ≤ n)) = .ok () from by
    rw [show ((list0.take n).all fun k => decide (1 ≤ k ∧ k ≤ n)) = true from by
      rw [List.all_eq_true]; intro k hk; exact decide_eq_true (hr k hk)]
    rfl, Outcome.bind_ok, if_neg (by omega)]
  have hp := insSort_perm lt (list0.take n) []
  have hl : (insSort lt [] (list0.take n)).length = n := by
    rw [hp.length_eq]; simp; omega
  rw [takeWhile_set_zero]
  · intro x hx
    have := hr x (by simpa using hp.mem_iff.mp hx)
    omega
  · simp only [List.length_append, List.length_take, List.length_drop, List.length_cons, List.length_nil, hl]
    omega
  · omega

end Gdnsd.Maps
