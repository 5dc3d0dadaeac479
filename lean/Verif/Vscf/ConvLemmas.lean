import Verif.Vscf.Conv
import Verif.Vscf.ConvSpec
import Verif.Vscf.PathLemmas
namespace Gdnsd.Vscf
open VscfSpec

theorem digitVal_some {c : UInt8} {d base : Nat} : (digitVal c = some d ∧ d < base) ↔ IsDigit base c d := by
  have h : ∀ c : UInt8, digitVal c = if 48 ≤ c.toNat ∧ c.toNat ≤ 57 then some (c.toNat - 48) else if 97 ≤ c.toNat ∧ c.toNat ≤ 122 then some (c.toNat - 97 + 10)
      else if 65 ≤ c.toNat ∧ c.toNat ≤ 90 then some (c.toNat - 65 + 10) else none := u8_all _ (by decide +kernel)
  rw [h c]
  unfold IsDigit
  constructor
  · rintro ⟨h1, h2⟩
    refine ⟨h2, ?_⟩
    split at h1
    · simp only [Option.some.injEq] at h1; omega
    split at h1
    · simp only [Option.some.injEq] at h1; omega
    split at h1
    · simp only [Option.some.injEq] at h1; omega
    · cases h1
  · rintro ⟨h1, h2⟩
    refine ⟨?_, h1⟩
    rcases h2 with h2 | h2 | h2
    · rw [if_pos (by omega), h2.2.2]
    · rw [if_neg (by omega), if_pos (by omega), h2.2.2]
    · rw [if_neg (by omega), if_neg (by omega), if_pos (by omega), h2.2.2]

/-- Digits are taken as far as they go. -/
theorem digits_spec (base : Nat) (t : Bytes) (acc n : Nat) :
    ∃ a b x, t = a ++ b ∧ Digits base a x ∧ digits base t acc n = (acc * base ^ a.length + x, n + a.length) ∧ ∀ c d, b.head? = some c → ¬ IsDigit base c d := by
  induction t generalizing acc n with
  | nil => exact ⟨[], [], 0, rfl, .nil, by simp [digits], by simp⟩
  | cons c t ih =>
    cases hd : digitVal c with
    | none => exact ⟨[], c :: t, 0, rfl, .nil, by simp [digits, hd], fun c' d h => by
        simp only [List.head?_cons, Option.some.injEq] at h; subst h
        exact fun h => by have := (digitVal_some.mpr h).1; rw [hd] at this; cases this⟩
    | some d =>
      by_cases hb : d < base
      · obtain ⟨a, b, x, h1, h2, h3, h4⟩ := ih (acc * base + d) (n + 1)
        refine ⟨c :: a, b, _, by rw [h1]; rfl, .cons (digitVal_some.mp ⟨hd, hb⟩) h2, ?_, h4⟩
        simp only [digits, hd, hb, if_true, h3, List.length_cons, Prod.mk.injEq]
        refine ⟨?_, by omega⟩
        rw [Nat.add_mul, Nat.pow_succ, Nat.mul_assoc, Nat.mul_comm base, Nat.add_assoc]
      · refine ⟨[], c :: t, 0, rfl, .nil, by simp [digits, hd, hb], fun c' d' h => ?_⟩
        simp only [List.head?_cons, Option.some.injEq] at h; subst h
        intro h
        have := digitVal_some.mpr h
        rw [hd] at this
        simp only [Option.some.injEq] at this
        omega

theorem isDigit_inj {base base' : Nat} {c : UInt8} {d d' : Nat} (h : IsDigit base c d) (h' : IsDigit base' c d') : d = d' := by
  have h1 := (digitVal_some.mpr h).1
  rw [(digitVal_some.mpr h').1] at h1
  simpa using h1.symm

theorem digits_inj {base : Nat} {t : Bytes} {n m : Nat} (h : Digits base t n) (h' : Digits base t m) : n = m := by
  induction h generalizing m with
  | nil => cases h'; rfl
  | cons h1 _ ih =>
    cases h' with
    | cons h2 h3 => rw [isDigit_inj h1 h2, ih h3]

theorem digits_all {base : Nat} {t : Bytes} {x : Nat} (h : Digits base t x) (acc n : Nat) : digits base t acc n = (acc * base ^ t.length + x, n + t.length) := by
  induction h generalizing acc n with
  | nil => simp [digits]
  | @cons c d t x h1 h2 ih =>
    obtain ⟨h3, h4⟩ := digitVal_some.mpr h1
    simp only [digits, h3, h4, if_true, ih, List.length_cons, Prod.mk.injEq]
    refine ⟨?_, by omega⟩
    rw [Nat.add_mul, Nat.pow_succ, Nat.mul_assoc, Nat.mul_comm base, Nat.add_assoc]

/-- All of a text is a number if and only if the grammar says so. -/
theorem number_all {t : Bytes} {m : Nat} : number t = some (m, t.length) ↔ Numeral t m := by
  constructor
  · intro h
    unfold number at h
    split at h
    · next x r =>
      split at h
      · next hx =>
        simp only [Option.some.injEq, Prod.mk.injEq, List.length_cons] at h
        obtain ⟨a, b, y, h1, h2, h3, _⟩ := digits_spec 16 r 0 0
        rw [h3] at h
        simp only [Nat.zero_mul, Nat.zero_add] at h
        have hb : b = [] := by
          have := congrArg List.length h1
          rw [List.length_append] at this
          exact List.eq_nil_of_length_eq_zero (by omega)
        rw [hb, List.append_nil] at h1
        subst h1
        rw [← h.1]
        refine .hex hx.1 ?_ h2
        rintro rfl
        exact hx.2 rfl
      · simp only [Option.some.injEq] at h
        obtain ⟨a, b, y, h1, h2, h3, _⟩ := digits_spec 8 (48 :: x :: r) 0 0
        rw [h3] at h
        simp only [Nat.zero_mul, Nat.zero_add, Prod.mk.injEq] at h
        have hb : b = [] := by
          have := congrArg List.length h1
          rw [List.length_append] at this
          exact List.eq_nil_of_length_eq_zero (by omega)
        rw [hb, List.append_nil] at h1
        subst h1
        rw [← h.1]
        cases h2 with
        | cons hd h4 =>
          have : IsDigit 8 48 0 := ⟨by decide, Or.inl ⟨by decide, by decide, by decide⟩⟩
          rw [isDigit_inj hd this, Nat.zero_mul, Nat.zero_add]
          exact .oct h4
    · simp only [Option.some.injEq, Prod.mk.injEq] at h
      rw [← h.1]
      exact .oct .nil
    · next hn1 hn2 =>
      split at h
      · cases h
      · next h0 =>
        simp only [Option.some.injEq] at h
        obtain ⟨a, b, y, h1, h2, h3, _⟩ := digits_spec 10 t 0 0
        rw [h3] at h h0
        simp only [Nat.zero_mul, Nat.zero_add, Prod.mk.injEq] at h h0
        have hb : b = [] := by
          have := congrArg List.length h1
          rw [List.length_append] at this
          exact List.eq_nil_of_length_eq_zero (by omega)
        rw [hb, List.append_nil] at h1
        subst h1
        rw [← h.1]
        cases t with
        | nil => simp at h0
        | cons c t =>
          refine .dec ?_ h2
          rintro rfl
          cases t with
          | nil => exact hn2 rfl
          | cons x t => exact hn1 x t rfl
  · intro h
    cases h with
    | @hex x t n hx ht h =>
      have := digits_all h 0 0
      simp only [number, this, Nat.zero_add, Nat.zero_mul, List.length_cons]
      rw [if_pos ⟨hx, fun h0 => ht (List.eq_nil_of_length_eq_zero h0)⟩]
    | @oct t n h =>
      have h48 : IsDigit 8 48 0 := ⟨by decide, Or.inl ⟨by decide, by decide, by decide⟩⟩
      have h8 : digits 8 (48 :: t) 0 0 = (m, (48 :: t).length) := by
        have := digits_all (.cons h48 h) 0 0
        rw [this]; simp
      cases t with
      | nil => cases h; rfl
      | cons x t =>
        simp only [number]
        rw [if_neg, h8]
        rintro ⟨hx, _⟩
        cases h with
        | cons hd _ =>
          obtain ⟨hd1, hd2⟩ := hd
          rcases hx with rfl | rfl
          · have : (120 : UInt8).toNat = 120 := rfl
            omega
          · have : (88 : UInt8).toNat = 88 := rfl
            omega
    | @dec c t n hc h =>
      have := digits_all h 0 0
      unfold number
      split
      · next hx => simp only [List.cons.injEq] at hx; exact absurd hx.1 hc
      · next hx => simp only [List.cons.injEq] at hx; exact absurd hx.1 hc
      · rw [this]; simp

theorem number_le {t : Bytes} {m n : Nat} (h : number t = some (m, n)) : n ≤ t.length := by
  have hd : ∀ base t, (digits base t 0 0).2 ≤ t.length := fun base t => by
    obtain ⟨a, b, y, h1, _, h3, _⟩ := digits_spec base t 0 0
    rw [h3, h1, List.length_append]; dsimp only; omega
  unfold number at h
  split at h
  · split at h
    · simp only [Option.some.injEq, Prod.mk.injEq] at h
      rename_i r _
      have := hd 16 r
      simp only [List.length_cons]; omega
    · simp only [Option.some.injEq] at h
      rename_i x r _
      have := hd 8 (48 :: x :: r)
      rw [h] at this; exact this
  · simp only [Option.some.injEq, Prod.mk.injEq] at h
    simp only [List.length_cons, List.length_nil]; omega
  · split at h
    · cases h
    · simp only [Option.some.injEq] at h
      have := hd 10 t
      rw [h] at this; exact this

theorem isSpace_iff (c : UInt8) : isSpace c = true ↔ (c = 32 ∨ c = 9 ∨ c = 10 ∨ c = 11 ∨ c = 12 ∨ c = 13) := by
  have : ∀ c : UInt8, isSpace c = decide (c = 32 ∨ c = 9 ∨ c = 10 ∨ c = 11 ∨ c = 12 ∨ c = 13) := u8_all _ (by decide +kernel)
  rw [this c, decide_eq_true_eq]

theorem numeral_head {t : Bytes} {n : Nat} (h : Numeral t n) : ∃ c r, t = c :: r ∧ isSpace c = false ∧ c ≠ 45 ∧ c ≠ 43 := by
  cases h with
  | hex => exact ⟨_, _, rfl, by decide, by decide, by decide⟩
  | oct => exact ⟨_, _, rfl, by decide, by decide, by decide⟩
  | @dec c t n hc h =>
    refine ⟨_, _, rfl, ?_⟩
    cases h with
    | cons hd _ =>
      have : ∀ c : UInt8, (digitVal c).any (· < 10) = true → isSpace c = false ∧ c ≠ 45 ∧ c ≠ 43 := u8_all (fun c => (digitVal c).any (· < 10) = true → isSpace c = false ∧ c ≠ 45 ∧ c ≠ 43) (by decide +kernel)
      refine this c ?_
      obtain ⟨h1, h2⟩ := digitVal_some.mpr hd
      simp [h1, h2]

theorem takeWhile_blanks {b t : Bytes} (hb : Blanks b) (ht : ∃ c r, t = c :: r ∧ isSpace c = false) : (b ++ t).takeWhile isSpace = b := by
  induction b with
  | nil => obtain ⟨c, r, rfl, hc⟩ := ht; simp [hc]
  | cons a b ih =>
    have : isSpace a = true := (isSpace_iff a).mpr (hb a (by simp))
    rw [List.cons_append, List.takeWhile_cons_of_pos (by simpa using this), ih fun c hc => hb c (by simp [hc])]

theorem sign_cases (r : Bytes) : (∃ t, r = 45 :: t ∧ sign r = (true, 1)) ∨ (∃ t, r = 43 :: t ∧ sign r = (false, 1)) ∨ sign r = (false, 0) := by
  unfold sign
  split
  · exact Or.inl ⟨_, rfl, rfl⟩
  · exact Or.inr (Or.inl ⟨_, rfl, rfl⟩)
  · exact Or.inr (Or.inr rfl)

theorem dropWhile_blanks {b t : Bytes} (hb : Blanks b) (ht : ∃ c r, t = c :: r ∧ isSpace c = false) : (b ++ t).dropWhile isSpace = t := by
  have h1 := List.takeWhile_append_dropWhile (p := isSpace) (l := b ++ t)
  rw [takeWhile_blanks hb ht] at h1
  exact List.append_cancel_left h1

/-- All of a text is taken if and only if the grammar says so. -/
theorem strtox_all {t : Bytes} {neg : Bool} {m : Nat} (ht : t ≠ []) : strtox t = (neg, m, t.length) ↔ Signed t neg m := by
  constructor
  · intro h
    unfold strtox at h
    have hb : Blanks (t.takeWhile isSpace) := fun c hc => (isSpace_iff c).mp (mem_takeWhile' hc)
    have hsplit := List.takeWhile_append_dropWhile (p := isSpace) (l := t)
    generalize t.takeWhile isSpace = B at h hb hsplit
    generalize t.dropWhile isSpace = R at h hsplit
    subst hsplit
    dsimp only at h
    have key : (sign R).2 ≤ R.length → (sign R).1 = neg ∧ Numeral (R.drop (sign R).2) m := by
      intro hs
      cases hn : number (R.drop (sign R).2) with
      | none =>
        rw [hn] at h
        simp only [Prod.mk.injEq] at h
        exact absurd (List.eq_nil_of_length_eq_zero h.2.2.symm) ht
      | some p =>
        obtain ⟨m', n'⟩ := p
        rw [hn] at h
        simp only [Prod.mk.injEq, List.length_append] at h
        refine ⟨h.1, number_all.mp ?_⟩
        rw [hn, h.2.1, List.length_drop]
        simp only [Option.some.injEq, Prod.mk.injEq, true_and]
        omega
    rcases sign_cases R with ⟨r, rfl, hs⟩ | ⟨r, rfl, hs⟩ | hs
    · rw [hs] at key
      obtain ⟨rfl, h2⟩ := key (by simp)
      exact .minus hb h2
    · rw [hs] at key
      obtain ⟨rfl, h2⟩ := key (by simp)
      exact .plus hb h2
    · rw [hs] at key
      obtain ⟨rfl, h2⟩ := key (by simp)
      exact .plain hb (by simpa using h2)
  · intro h
    cases h with
    | @plain b t n hb hn =>
      obtain ⟨c, r, hc, h1, h2, h3⟩ := numeral_head hn
      have htw := takeWhile_blanks hb ⟨c, r, hc, h1⟩
      have hdw := dropWhile_blanks hb ⟨c, r, hc, h1⟩
      have hs : sign t = (false, 0) := by
        rcases sign_cases t with ⟨r', e, _⟩ | ⟨r', e, _⟩ | hs
        · rw [hc] at e; simp only [List.cons.injEq] at e; exact absurd e.1 h2
        · rw [hc] at e; simp only [List.cons.injEq] at e; exact absurd e.1 h3
        · exact hs
      unfold strtox
      simp only [htw, hdw, hs, List.drop_zero, number_all.mpr hn, List.length_append, Nat.add_zero]
    | @plus b t n hb hn =>
      have htw := takeWhile_blanks (t := 43 :: t) hb ⟨43, t, rfl, by decide⟩
      have hdw := dropWhile_blanks (t := 43 :: t) hb ⟨43, t, rfl, by decide⟩
      have hs : sign (43 :: t) = (false, 1) := rfl
      unfold strtox
      simp only [htw, hdw, hs, List.drop_succ_cons, List.drop_zero, number_all.mpr hn, List.length_append, List.length_cons, Prod.mk.injEq, true_and]
      omega
    | @minus b t n hb hn =>
      have htw := takeWhile_blanks (t := 45 :: t) hb ⟨45, t, rfl, by decide⟩
      have hdw := dropWhile_blanks (t := 45 :: t) hb ⟨45, t, rfl, by decide⟩
      have hs : sign (45 :: t) = (true, 1) := rfl
      unfold strtox
      simp only [htw, hdw, hs, List.drop_succ_cons, List.drop_zero, number_all.mpr hn, List.length_append, List.length_cons, Prod.mk.injEq, true_and]
      omega

/-- No more is taken than there is. -/
theorem strtox_le (t : Bytes) : (strtox t).2.2 ≤ t.length := by
  unfold strtox
  dsimp only
  have hB := congrArg List.length (List.takeWhile_append_dropWhile (p := isSpace) (l := t))
  rw [List.length_append] at hB
  have hs : (sign (t.dropWhile isSpace)).2 ≤ (t.dropWhile isSpace).length := by
    rcases sign_cases (t.dropWhile isSpace) with ⟨r, e, hs⟩ | ⟨r, e, hs⟩ | hs
    · rw [hs, e]; simp
    · rw [hs, e]; simp
    · rw [hs]; simp
  split
  · exact Nat.zero_le _
  · next p hn =>
    have := number_le (m := p.1) (n := p.2) hn
    simp only [List.length_drop] at this
    dsimp only
    omega

theorem signed_zero {t : Bytes} {neg : Bool} {m : Nat} (h : Signed t neg m) : 0 ∉ t := by
  have hd : ∀ {base t n}, Digits base t n → (0 : UInt8) ∉ t := by
    intro base t n h
    induction h with
    | nil => simp
    | cons h1 _ ih =>
      intro h0
      rcases List.mem_cons.mp h0 with rfl | h0
      · obtain ⟨_, h2⟩ := h1
        have : (0 : UInt8).toNat = 0 := rfl
        omega
      · exact ih h0
  have hn : ∀ {t n}, Numeral t n → (0 : UInt8) ∉ t := by
    intro t n h
    cases h with
    | hex hx _ h => rcases hx with rfl | rfl <;> simp [hd h]
    | oct h => simp [hd h]
    | dec _ h => exact hd h
  have hb : ∀ {b}, Blanks b → (0 : UInt8) ∉ b := fun {b} h h0 => by
    rcases h 0 h0 with h | h | h | h | h | h <;> cases h
  cases h with
  | plain h1 h2 => simp [hb h1, hn h2]
  | plus h1 h2 => simp [hb h1, hn h2]
  | minus h1 h2 => simp [hb h1, hn h2]

theorem signed_ne {t : Bytes} {neg : Bool} {m : Nat} (h : Signed t neg m) : t ≠ [] := by
  have hn : ∀ {t n}, Numeral t n → t ≠ [] := by
    intro t n h; cases h <;> simp
  cases h with
  | plain h1 h2 => simp [hn h2]
  | plus h1 h2 => simp
  | minus h1 h2 => simp

theorem cstr_self {t : Bytes} (h : 0 ∉ t) : cstr t = t := by
  unfold cstr
  induction t with
  | nil => rfl
  | cons c t ih =>
    simp only [List.mem_cons, not_or] at h
    rw [List.takeWhile_cons_of_pos (by simpa using fun e => h.1 e.symm), ih h.2]

theorem cstr_len {t : Bytes} : (cstr t).length ≤ t.length := by
  have := congrArg List.length (List.takeWhile_append_dropWhile (p := fun c : UInt8 => c != 0) (l := t))
  rw [List.length_append] at this
  unfold cstr
  omega

theorem cstr_full {t : Bytes} (h : (cstr t).length = t.length) : cstr t = t := by
  unfold cstr at *
  have hs := List.takeWhile_append_dropWhile (p := fun c => c != 0) (l := t)
  have : t.dropWhile (fun c => c != 0) = [] := by
    apply List.eq_nil_of_length_eq_zero
    have := congrArg List.length hs
    rw [List.length_append] at this
    omega
  rw [this, List.append_nil] at hs
  exact hs

/-- A conversion takes all of a value that is a number, and nothing else. -/
theorem whole {v : Bytes} (hv : v ≠ []) {neg : Bool} {m : Nat} : strtox (cstr v) = (neg, m, v.length) ↔ Signed v neg m := by
  constructor
  · intro h
    have h1 := strtox_le (cstr v)
    rw [h] at h1
    have h2 := cstr_full (Nat.le_antisymm cstr_len h1)
    rw [h2] at h
    exact (strtox_all hv).mp h
  · intro h
    rw [cstr_self (signed_zero h)]
    exact (strtox_all hv).mpr h

end Gdnsd.Vscf
