/-
The rate of messages: the state after any history.
-/
import Verif.Util.Spec
namespace Gdnsd.Util
open UtilSpec

/-- The level at the start of a second. -/
def level (ts : List Int) (u : Int) : Nat :=
  if 10 < ts.count (u - 1) then 2 else if 10 < ts.count (u - 2) ∧ 0 < ts.count (u - 1) then 1 else 0

theorem level_zero (ts : List Int) (u : Int) : level ts u = 0 ↔ ¬ Guarded ts u := by
  unfold level Guarded Tripped
  split
  · simp [*]
  · rename_i h
    split
    · rename_i h2
      simp [h2]
    · rename_i h2
      simp only [h, false_or, true_iff]
      exact h2

/-- The state after calls at these times, the last of them at `s.second`. -/
structure After (pre : List Int) (s : Rate) : Prop where
  le : ∀ u ∈ pre, u ≤ s.second
  mem : 0 < pre.count s.second
  count : s.count = pre.count s.second - 1
  level : s.defensive = if 10 < pre.count s.second then 2 else level pre s.second

theorem count_gt {pre : List Int} {m u : Int} (h : ∀ x ∈ pre, x ≤ m) (hu : m < u) : pre.count u = 0 :=
  List.count_eq_zero.mpr fun hm => by have := h u hm; omega

/-- What a call says, given the state before it. -/
theorem call_after {pre : List Int} {s : Rate} {now : Int} (ht : ((s.tick now).second = now)) (hl : ∀ u ∈ pre, u ≤ now) (hc : (s.tick now).count = pre.count now)
    (hd : (s.tick now).defensive = if 10 < pre.count now then 2 else level pre now) :
    After (pre ++ [now]) (s.call now).2 ∧
    ((s.call now).1.pass = true ↔ pre.count now < 10 ∧ ¬ Guarded pre now) ∧ ((s.call now).1.meta' = true ↔ pre.count now = 10) := by
  have hl' : ∀ u ∈ pre ++ [now], u ≤ now := by
    intro u hu
    rcases List.mem_append.mp hu with h | h
    · exact hl u h
    · rw [List.mem_singleton.mp h]; exact Int.le_refl _
  have hc' : (pre ++ [now]).count now = pre.count now + 1 := by rw [List.count_append]; simp
  have hlev : level (pre ++ [now]) now = level pre now := by
    unfold level
    have h1 : (pre ++ [now]).count (now - 1) = pre.count (now - 1) := by
      rw [List.count_append, List.count_singleton]
      simp only [beq_iff_eq]
      rw [if_neg (by omega)]; rfl
    have h2 : (pre ++ [now]).count (now - 2) = pre.count (now - 2) := by
      rw [List.count_append, List.count_singleton]
      simp only [beq_iff_eq]
      rw [if_neg (by omega)]; rfl
    rw [h1, h2]
  unfold Rate.call
  dsimp only
  generalize s.tick now = t at ht hc hd
  obtain ⟨ts, tc, td⟩ := t
  simp only at ht hc hd
  subst ht hc
  by_cases h : pre.count ts < 10 ∧ td = 0
  · rw [if_pos h]
    rw [if_neg (show ¬ 10 < pre.count ts by omega)] at hd
    refine ⟨⟨hl', by dsimp only; omega, by dsimp only; omega, ?_⟩, ?_, by simp; omega⟩
    · dsimp only
      rw [hc', hlev, if_neg (by omega), hd]
    · simp only [true_iff]
      exact ⟨h.1, (level_zero _ _).mp (by omega)⟩
  · rw [if_neg h]
    by_cases h10 : pre.count ts = 10
    · rw [if_pos h10]
      refine ⟨⟨hl', by dsimp only; omega, by dsimp only; omega, ?_⟩, by simp; omega, by simp [h10]⟩
      dsimp only
      rw [hc', if_pos (by omega)]
    · rw [if_neg h10]
      refine ⟨⟨hl', by dsimp only; omega, by dsimp only; omega, ?_⟩, ?_, by simp [h10]⟩
      · dsimp only
        rw [hc', hlev, hd]
        by_cases h11 : 10 < pre.count ts
        · rw [if_pos h11, if_pos (by omega)]
        · rw [if_neg h11, if_neg (by omega)]
      · simp only [Bool.false_eq_true, false_iff, not_and]
        intro hlt hg
        rw [if_neg (by omega), (level_zero _ _).mpr hg] at hd
        exact h ⟨hlt, hd⟩

theorem tick_after {pre : List Int} {s : Rate} {now : Int} (a : After pre s) (hn : s.second ≤ now) (hb : pre.count now < 2 ^ 32) :
    (s.tick now).second = now ∧ (∀ u ∈ pre, u ≤ now) ∧ (s.tick now).count = pre.count now ∧
      (s.tick now).defensive = if 10 < pre.count now then 2 else level pre now := by
  obtain ⟨a1, a2, a3, a4⟩ := a
  unfold Rate.tick
  split
  · rename_i hne
    have hlt : s.second < now := by omega
    have h0 : pre.count now = 0 := count_gt a1 hlt
    refine ⟨rfl, fun u hu => by have := a1 u hu; omega, h0.symm, ?_⟩
    dsimp only
    rw [h0, if_neg (show ¬ (10 : Nat) < 0 by omega)]
    by_cases h1 : now > s.second + 1
    · have h3 : pre.count (now - 1) = 0 := count_gt a1 (by omega)
      have : level pre now = 0 := by unfold level; rw [h3]; simp
      rw [this, if_pos h1]
      split
      · rfl
      · omega
    · have e1 : now - 1 = s.second := by omega
      have e2 : now - 2 = s.second - 1 := by omega
      rw [if_neg h1]
      have hlev : level pre now = if 10 < pre.count s.second then 2 else if 10 < pre.count (s.second - 1) then 1 else 0 := by
        unfold level
        rw [e1, e2]
        simp [a2]
      rw [hlev, a4]
      by_cases h10 : 10 < pre.count s.second
      · rw [if_pos h10, if_pos h10, if_pos (by omega), if_neg (by rw [a3]; omega)]
      · rw [if_neg h10, if_neg h10]
        have hc : s.count < 10 := by rw [a3]; omega
        rw [if_pos hc]
        unfold level
        by_cases h9 : 10 < pre.count (s.second - 1)
        · rw [if_pos h9, if_pos h9, if_pos (by omega)]
        · rw [if_neg h9, if_neg h9]
          by_cases h8 : 10 < pre.count (s.second - 2) ∧ 0 < pre.count (s.second - 1)
          · rw [if_pos h8]; rfl
          · rw [if_neg h8]; rfl
  · rename_i he
    have he : now = s.second := by omega
    subst he
    refine ⟨rfl, a1, ?_, a4⟩
    dsimp only
    rw [a3]
    have : pre.count s.second - 1 + 1 = pre.count s.second := by omega
    rw [this, Nat.mod_eq_of_lt hb]

theorem init_after {now : Int} (h : now ≠ 0) :
    (Rate.init.tick now).second = now ∧ (∀ u ∈ ([] : List Int), u ≤ now) ∧ (Rate.init.tick now).count = ([] : List Int).count now ∧
      (Rate.init.tick now).defensive = if 10 < ([] : List Int).count now then 2 else level [] now := by
  unfold Rate.tick
  rw [if_pos (by simpa [Rate.init] using h)]
  exact ⟨rfl, by simp, by simp, by simp [Rate.init, level]⟩

theorem run_after : ∀ (ts pre : List Int) (s : Rate), After pre s → Rising ts → (∀ u ∈ ts, s.second ≤ u) → (∀ u, (pre ++ ts).count u ≤ 2 ^ 32) →
    ∀ i t, ts[i]? = some t → ∃ x, (s.run ts)[i]? = some x ∧
      (x.pass = true ↔ (pre ++ ts.take i).count t < 10 ∧ ¬ Guarded (pre ++ ts.take i) t) ∧ (x.meta' = true ↔ (pre ++ ts.take i).count t = 10)
  | [], _, _, _, _, _, _, i, t, h => by cases h
  | now :: ts, pre, s, a, hr, hs, hb, i, t, h => by
    have hc : pre.count now < 2 ^ 32 := by
      have := hb now
      rw [List.count_append, List.count_cons_self] at this
      omega
    obtain ⟨t1, t2, t3, t4⟩ := tick_after a (hs now (by simp)) hc
    obtain ⟨ha, hp, hm⟩ := call_after t1 t2 t3 t4
    have hsec : (s.call now).2.second = now := by
      unfold Rate.call
      dsimp only
      split
      · exact t1
      · split <;> exact t1
    cases i with
    | zero =>
      cases h
      refine ⟨_, rfl, ?_, ?_⟩ <;> simpa using by assumption
    | succ i =>
      obtain ⟨x, h1, h2, h3⟩ := run_after ts (pre ++ [now]) _ ha hr.2 (by rw [hsec]; exact hr.1) (by simpa using hb) i t h
      refine ⟨x, h1, ?_, ?_⟩
      · simpa using h2
      · simpa using h3

theorem run_length : ∀ (ts : List Int) (s : Rate), (s.run ts).length = ts.length
  | [], _ => rfl
  | _ :: ts, s => by simp [Rate.run, run_length ts]

/-- Of the calls in one second, only the first 11 can say something. -/
theorem few_from (u : Int) : ∀ (ts : List Int) (xs : List Said) (pre : List Int),
    (∀ i t, ts[i]? = some t → ∃ x, xs[i]? = some x ∧ ((x.pass || x.meta') = true → (pre ++ ts.take i).count t ≤ 10)) →
    ((ts.zip xs).filter fun p => p.1 == u && (p.2.pass || p.2.meta')).length ≤ 11 - pre.count u
  | [], _, _, _ => by simp
  | _ :: _, [], _, _ => by simp
  | t :: ts, x :: xs, pre, h => by
    have ih := few_from u ts xs (pre ++ [t]) (by
      intro i t' hi
      obtain ⟨y, h1, h2⟩ := h (i + 1) t' (by simpa using hi)
      exact ⟨y, by simpa using h1, by simpa using h2⟩)
    obtain ⟨y, h1, h2⟩ := h 0 t rfl
    simp only [List.getElem?_cons_zero, Option.some.injEq] at h1
    subst h1
    rw [List.count_append, List.count_singleton] at ih
    rw [List.zip_cons_cons, List.filter_cons]
    by_cases ht : t = u
    · subst ht
      rw [beq_self_eq_true, if_pos rfl] at ih
      split
      · rename_i hs
        have := h2 (by simpa using hs)
        simp only [List.take_zero, List.append_nil] at this
        simp only [List.length_cons]
        omega
      · omega
    · rw [if_neg (by simpa using ht)] at ih
      rw [if_neg (by simp [ht])]
      simpa using ih

theorem few (u : Int) (ts : List Int) (xs : List Said) (h : ∀ i t, ts[i]? = some t → ∃ x, xs[i]? = some x ∧
    (x.pass = true ↔ (ts.take i).count t < 10 ∧ ¬ Guarded (ts.take i) t) ∧ (x.meta' = true ↔ (ts.take i).count t = 10)) :
    ((ts.zip xs).filter fun p => p.1 == u && (p.2.pass || p.2.meta')).length ≤ 11 := by
  have := few_from u ts xs [] (by
    intro i t hi
    obtain ⟨x, h1, h2, h3⟩ := h i t hi
    refine ⟨x, h1, ?_⟩
    intro hx
    rw [List.nil_append]
    rcases Bool.or_eq_true _ _ ▸ hx with hx | hx
    · have := (h2.mp hx).1; omega
    · have := h3.mp hx; omega)
  simpa using this

theorem call_fresh {s : Rate} {t : Int} (h : s.second ≠ t) (hd : s.defensive = 0) : s.call t = (⟨true, false⟩, ⟨t, 0, 0⟩) := by
  have : s.tick t = ⟨t, 0, 0⟩ := by
    unfold Rate.tick
    rw [if_pos (by simpa using Ne.symm h), hd]
    rfl
  unfold Rate.call
  rw [this]
  rfl

theorem jumps {t : Int} : ∀ (n : Nat) (s : Rate), s.defensive = 0 → s.second ≠ t → s.run (jumping t n) = List.replicate n ⟨true, false⟩
  | 0, _, _, _ => rfl
  | 1, s, hd, hs => by simp [jumping, Rate.run, call_fresh hs hd]
  | n + 2, s, hd, hs => by
    have h2 : (⟨t, 0, 0⟩ : Rate).second ≠ t - 1 := by show t ≠ t - 1; omega
    simp only [jumping, Rate.run, call_fresh hs hd, call_fresh h2 rfl, List.replicate_succ]
    rw [jumps n ⟨t - 1, 0, 0⟩ rfl (by show t - 1 ≠ t; omega)]

end Gdnsd.Util
