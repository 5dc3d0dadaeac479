import Verif.Mon.Bits
/- The anti-flap counters against the rule on histories. -/
namespace Gdnsd.Mon

/-- Successes at the end of `s`. -/
def trail (s : List Bool) : Nat := (s.reverse.takeWhile id).length

@[simp] theorem trail_nil : trail [] = 0 := rfl
@[simp] theorem trail_true (s : List Bool) : trail (s ++ [true]) = trail s + 1 := by
  simp [trail]
@[simp] theorem trail_false (s : List Bool) : trail (s ++ [false]) = 0 := by
  simp [trail]

theorem snoc_cases (s : List Bool) : s = [] ∨ ∃ t x, s = t ++ [x] := by
  rcases List.eq_nil_or_concat s with h | ⟨t, x, h⟩
  · exact .inl h
  · exact .inr ⟨t, x, by simpa using h⟩

theorem suffix_iff_trail (n : Nat) (s : List Bool) : List.replicate n true <:+ s ↔ n ≤ trail s := by
  induction n generalizing s with
  | zero => simp
  | succ n ih =>
    rcases snoc_cases s with rfl | ⟨t, x, rfl⟩
    · simp
    · rw [List.replicate_succ', List.suffix_concat_iff]
      cases x
      · simp
      · rw [trail_true]
        constructor
        · rintro (h | ⟨u, hu, hs⟩)
          · simp at h
          · have : u = List.replicate n true := (List.append_inj' hu rfl).1.symm
            subst this
            have := (ih t).1 hs
            omega
        · intro h
          exact .inr ⟨_, rfl, (ih t).2 (by omega)⟩

theorem hasRun_true {n : Nat} (s : List Bool) : HasRun n (s ++ [true]) ↔ HasRun n s ∨ n ≤ trail s + 1 := by
  unfold HasRun
  rw [List.infix_concat_iff, suffix_iff_trail, trail_true]
  exact or_comm

theorem hasRun_false {n : Nat} (hn : 0 < n) (s : List Bool) : HasRun n (s ++ [false]) ↔ HasRun n s := by
  unfold HasRun
  rw [List.infix_concat_iff, suffix_iff_trail, trail_false]
  constructor
  · rintro (h | h)
    · omega
    · exact h
  · exact .inr

theorem trail_cons_false (s : List Bool) : trail (false :: s) = trail s := by
  unfold trail
  rw [List.reverse_cons, List.takeWhile_append]
  split <;> simp_all

theorem trail_cons_true (s : List Bool) : trail (true :: s) = trail s ∨ trail (true :: s) = trail s + 1 ∧ ∀ x ∈ s, x = true := by
  unfold trail
  rw [List.reverse_cons, List.takeWhile_append]
  split
  · rename_i h
    right
    constructor
    · simp [h]
    · intro x hx
      have hall : (s.reverse.takeWhile id) = s.reverse :=
        List.IsPrefix.eq_of_length (List.takeWhile_prefix _) h
      have ha : (s.reverse.takeWhile id).all id := List.all_takeWhile
      rw [hall, List.all_eq_true] at ha
      exact ha x (by simpa using hx)
  · left; rfl

theorem pending_allTrue (ok : Nat) (s : List Bool) (h : ∀ x ∈ s, x = true) : pending ok s = 0 := by
  induction s with
  | nil => rfl
  | cons x s ih =>
    have hx := h x (by simp)
    subst hx
    simp [pending, ih (fun y hy => h y (by simp [hy]))]

theorem pending_false {ok : Nat} (hok : 0 < ok) (s : List Bool) :
    pending ok (s ++ [false]) = pending ok s + 1 := by
  induction s with
  | nil =>
    have h : ¬ HasRun ok ([] : List Bool) := by
      unfold HasRun
      rw [List.infix_nil]
      intro h
      have := congrArg List.length h
      simp at this
      omega
    show pending ok [] + (if false = false ∧ ¬ HasRun ok [] then 1 else 0) = _
    simp [h]
  | cons x s ih =>
    show pending ok (s ++ [false]) + (if x = false ∧ ¬ HasRun ok (s ++ [false]) then 1 else 0) = _
    rw [ih]
    simp only [hasRun_false hok, pending]
    omega

theorem pending_true (ok : Nat) (s : List Bool) :
    pending ok (s ++ [true]) = if ok ≤ trail s + 1 then 0 else pending ok s := by
  induction s with
  | nil => simp [pending]
  | cons x s ih =>
    show pending ok (s ++ [true]) + (if x = false ∧ ¬ HasRun ok (s ++ [true]) then 1 else 0) = _
    rw [ih]
    simp only [hasRun_true]
    cases x
    · rw [trail_cons_false]
      split
      · rename_i h; simp [h]
      · rename_i h; simp [h, pending]
    · simp only [Bool.true_eq_false, false_and, if_false, Nat.add_zero, pending]
      rcases trail_cons_true s with h | ⟨h, hall⟩
      · rw [h]
      · rw [pending_allTrue ok s hall]
        simp

/-- How the counters relate to the results since the last state change. -/
def Counters (t : SvcType) (nFail nSucc : Nat) (down : Bool) (s : List Bool) : Prop :=
  if down then nSucc = trail s ∧ nSucc < t.up
  else nFail = pending t.ok s ∧ nFail < t.down ∧ (nFail = 0 → nSucc = 0) ∧
    (nFail ≠ 0 → nSucc = trail s ∧ nSucc < t.ok)

/-- Thresholds are at least one (mon.c:686-688). -/
def SvcType.Pos (t : SvcType) : Prop := 0 < t.up ∧ 0 < t.ok ∧ 0 < t.down

theorem counters_start {t : SvcType} (ht : t.Pos) (d : Bool) : Counters t 0 0 d [] := by
  unfold Counters
  cases d
  · simp [pending, ht.2.2]
  · simp [ht.1]

theorem pending_le_trail {ok : Nat} {s : List Bool} (h : pending ok s ≠ 0) : trail s < ok ∨ ok = 0 := by
  rcases snoc_cases s with rfl | ⟨t, x, rfl⟩
  · simp [pending] at h
  · cases x
    · simp; omega
    · rw [pending_true] at h
      rw [trail_true]
      split at h
      · exact absurd rfl h
      · omega

/-- One result. -/
theorem count_flap {t : SvcType} (ht : t.Pos) {d0 : Bool} {h : List Bool} {d : Bool} {s : List Bool} {nF nS : Nat}
    (hf : Flap t d0 h d s) (hc : Counters t nF nS d s) (x : Bool) :
    ∃ s', Flap t d0 (h ++ [x]) (count t nF nS d x).2.2 s' ∧
      Counters t (count t nF nS d x).1 (count t nF nS d x).2.1 (count t nF nS d x).2.2 s' := by
  obtain ⟨hu, hok, hd⟩ := ht
  cases d
  · -- up
    simp only [Counters, Bool.false_eq_true, if_false] at hc
    obtain ⟨h1, h2, h3, h4⟩ := hc
    cases x
    · -- failure
      have hp : pending t.ok (s ++ [false]) = nF + 1 := by rw [pending_false hok, h1]
      by_cases hx : nF + 1 = t.down
      · have e : count t nF nS false false = (0, 0, true) := by simp [count, hx]
        rw [e]
        exact ⟨[], .goDown hf (by omega), by simp [Counters, hu]⟩
      · have e : count t nF nS false false = (nF + 1, 0, false) := by simp [count, hx]
        rw [e]
        refine ⟨s ++ [false], .stayUp hf (by omega), ?_⟩
        simp only [Counters, Bool.false_eq_true, if_false, trail_false]
        exact ⟨hp.symm, by omega, by simp, fun _ => ⟨trivial, hok⟩⟩
    · by_cases h0 : nF = 0
      · have e : count t nF nS false true = (nF, nS, false) := by simp [count, h0]
        rw [e]
        have hp : pending t.ok (s ++ [true]) = 0 := by
          rw [pending_true]; split
          · rfl
          · omega
        refine ⟨s ++ [true], .stayUp hf (by omega), ?_⟩
        simp only [Counters, Bool.false_eq_true, if_false]
        exact ⟨by omega, by omega, h3, fun hh => absurd h0 hh⟩
      · obtain ⟨h5, h6⟩ := h4 h0
        by_cases hx : nS + 1 = t.ok
        · have e : count t nF nS false true = (0, 0, false) := by simp [count, h0, hx]
          rw [e]
          have hp : pending t.ok (s ++ [true]) = 0 := by
            rw [pending_true, if_pos (by omega)]
          refine ⟨s ++ [true], .stayUp hf (by omega), ?_⟩
          simp only [Counters, Bool.false_eq_true, if_false]
          exact ⟨hp.symm, hd, fun _ => trivial, by simp⟩
        · have e : count t nF nS false true = (nF, nS + 1, false) := by simp [count, h0, hx]
          rw [e]
          have hp : pending t.ok (s ++ [true]) = nF := by
            rw [pending_true, if_neg (by omega), h1]
          refine ⟨s ++ [true], .stayUp hf (by omega), ?_⟩
          simp only [Counters, Bool.false_eq_true, if_false, trail_true]
          exact ⟨hp.symm, h2, fun hh => absurd hh h0, fun _ => ⟨by omega, by omega⟩⟩
  · simp only [Counters, if_true] at hc
    obtain ⟨h1, h2⟩ := hc
    cases x
    · have e : count t nF nS true false = (nF, 0, true) := by simp [count]
      rw [e]
      refine ⟨s ++ [false], .stayDown hf ?_, ?_⟩
      · rw [suffix_iff_trail, trail_false]; omega
      · simp [Counters, hu]
    · by_cases hx : nS + 1 = t.up
      · have e : count t nF nS true true = (0, 0, false) := by simp [count, hx]
        rw [e]
        refine ⟨[], .goUp hf ?_, ?_⟩
        · rw [suffix_iff_trail, trail_true]; omega
        · simp [Counters, pending, hd]
      · have e : count t nF nS true true = (nF, nS + 1, true) := by simp [count, hx]
        rw [e]
        refine ⟨s ++ [true], .stayDown hf ?_, ?_⟩
        · rw [suffix_iff_trail, trail_true]; omega
        · simp only [Counters, if_true, trail_true]
          omega

/-- The rule determines state and recent results. -/
theorem Flap.det {t : SvcType} {d0 : Bool} {h : List Bool} {d d' : Bool} {s s' : List Bool}
    (h1 : Flap t d0 h d s) (h2 : Flap t d0 h d' s') : d = d' ∧ s = s' := by
  induction h1 generalizing d' s' with
  | start =>
    generalize hh : ([] : List Bool) = h0 at h2
    cases h2 with
    | start => exact ⟨rfl, rfl⟩
    | _ => simp at hh
  | @goDown h s x _ hp ih =>
    generalize hh : h ++ [x] = h0 at h2
    cases h2 with
    | start => simp at hh
    | goDown hf hq => exact ⟨rfl, rfl⟩
    | stayUp hf hq =>
      obtain ⟨rfl, hx⟩ := List.append_inj' hh rfl
      obtain rfl : x = _ := by simpa using hx
      obtain ⟨_, rfl⟩ := ih hf
      omega
    | goUp hf hq =>
      obtain ⟨rfl, hx⟩ := List.append_inj' hh rfl
      have := (ih hf).1; simp at this
    | stayDown hf hq =>
      obtain ⟨rfl, hx⟩ := List.append_inj' hh rfl
      have := (ih hf).1; simp at this
  | @stayUp h s x _ hp ih =>
    generalize hh : h ++ [x] = h0 at h2
    cases h2 with
    | start => simp at hh
    | goDown hf hq =>
      obtain ⟨rfl, hx⟩ := List.append_inj' hh rfl
      obtain rfl : x = _ := by simpa using hx
      obtain ⟨_, rfl⟩ := ih hf
      omega
    | stayUp hf hq =>
      obtain ⟨rfl, hx⟩ := List.append_inj' hh rfl
      obtain rfl : x = _ := by simpa using hx
      obtain ⟨_, rfl⟩ := ih hf
      exact ⟨rfl, rfl⟩
    | goUp hf hq =>
      obtain ⟨rfl, hx⟩ := List.append_inj' hh rfl
      have := (ih hf).1; simp at this
    | stayDown hf hq =>
      obtain ⟨rfl, hx⟩ := List.append_inj' hh rfl
      have := (ih hf).1; simp at this
  | @goUp h s x _ hp ih =>
    generalize hh : h ++ [x] = h0 at h2
    cases h2 with
    | start => simp at hh
    | goUp hf hq => exact ⟨rfl, rfl⟩
    | stayDown hf hq =>
      obtain ⟨rfl, hx⟩ := List.append_inj' hh rfl
      obtain rfl : x = _ := by simpa using hx
      obtain ⟨_, rfl⟩ := ih hf
      exact absurd hp hq
    | goDown hf hq =>
      obtain ⟨rfl, hx⟩ := List.append_inj' hh rfl
      have := (ih hf).1; simp at this
    | stayUp hf hq =>
      obtain ⟨rfl, hx⟩ := List.append_inj' hh rfl
      have := (ih hf).1; simp at this
  | @stayDown h s x _ hp ih =>
    generalize hh : h ++ [x] = h0 at h2
    cases h2 with
    | start => simp at hh
    | goUp hf hq =>
      obtain ⟨rfl, hx⟩ := List.append_inj' hh rfl
      obtain rfl : x = _ := by simpa using hx
      obtain ⟨_, rfl⟩ := ih hf
      exact absurd hq hp
    | stayDown hf hq =>
      obtain ⟨rfl, hx⟩ := List.append_inj' hh rfl
      obtain rfl : x = _ := by simpa using hx
      obtain ⟨_, rfl⟩ := ih hf
      exact ⟨rfl, rfl⟩
    | goDown hf hq =>
      obtain ⟨rfl, hx⟩ := List.append_inj' hh rfl
      have := (ih hf).1; simp at this
    | stayUp hf hq =>
      obtain ⟨rfl, hx⟩ := List.append_inj' hh rfl
      have := (ih hf).1; simp at this

end Gdnsd.Mon
