/-
Lemmas about the checks of an address.
-/
import Verif.Poll.Spec
namespace Gdnsd.Poll
open PollSpec

/-! ### The status line -/

theorem upTo0_cons (x : UInt8) (r : Bytes) : upTo0 (x :: r) = if x = 0 then [] else x :: upTo0 r := by
  unfold upTo0
  rw [List.takeWhile_cons]
  by_cases h : x = 0 <;> simp [h]

theorem scan_lit (sh : Bool) (c x : UInt8) (hc : c ≠ 0) (ds : List Dir) (r : Bytes) (n : Nat) (v : Bytes) :
    scan sh (.lit c :: ds) (upTo0 (x :: r)) n v = if x = c then scan sh ds (upTo0 r) n v else (n, v) := by
  rw [upTo0_cons]
  by_cases h : x = 0
  · have : x ≠ c := fun e => hc (e ▸ h)
    rw [if_pos h, if_neg this]
    rfl
  · rw [if_neg h]
    rfl

theorem scan_one (sh : Bool) (set : Bytes) (x : UInt8) (hc : set.contains (0 : UInt8) = false) (ds : List Dir) (r : Bytes) (n : Nat) (v : Bytes) :
    scan sh (.one set :: ds) (upTo0 (x :: r)) n v = if set.contains x = true then scan sh ds (upTo0 r) n v else (n, v) := by
  rw [upTo0_cons]
  by_cases h : x = 0
  · have : ¬ set.contains x = true := by rw [h, hc]; decide
    rw [if_pos h, if_neg this]
    rfl
  · rw [if_neg h]
    rfl

theorem scan_chars_end (sh : Bool) (set s : Bytes) :
    scan sh [.chars 3, .one set] s 0 [] = if s = [] then (0, []) else if 3 ≤ s.length ∨ sh = true then (1, s.take 3) else (0, []) := by
  show (if s = [] then _ else _) = _
  by_cases h : s = []
  · rw [if_pos h, if_pos h]
  · rw [if_neg h, if_neg h]
    by_cases h2 : 3 ≤ s.length ∨ sh = true
    · rw [if_pos h2, if_pos h2]
      show scan sh [.one set] (s.drop 3) 1 (s.take 3) = _
      unfold scan
      cases s.drop 3 with
      | nil => rfl
      | cons x r =>
        dsimp only
        split
        · rfl
        · rfl
    · rw [if_neg h2, if_neg h2]

theorem digitsVal_lt (ds : Bytes) : (∀ d ∈ ds, Mon.isDigit d = true) → Mon.digitsVal ds < 10 ^ ds.length := by
  suffices h : ∀ (ds : Bytes) (n k : Nat), (∀ d ∈ ds, Mon.isDigit d = true) → n < 10 ^ k →
      ds.foldl (fun n (d : UInt8) => n * 10 + (d.toNat - 48)) n < 10 ^ (k + ds.length) by
    intro hd
    have := h ds 0 0 hd (by decide)
    simpa [Mon.digitsVal] using this
  intro ds
  induction ds with
  | nil => intro n k _ h; simpa using h
  | cons d r ih =>
    intro n k hd hn
    have h1 := hd d (List.mem_cons_self ..)
    have h2 : d.toNat ≤ 57 := by
      unfold Mon.isDigit at h1
      simp only [Bool.and_eq_true, decide_eq_true_eq, UInt8.le_iff_toNat_le] at h1
      exact h1.2
    have := ih (n * 10 + (d.toNat - 48)) (k + 1) (fun x hx => hd x (List.mem_cons_of_mem _ hx)) (by
      rw [Nat.pow_succ]; omega)
    simpa [Nat.add_assoc, Nat.add_comm 1] using this

theorem takeWhile_all {p : UInt8 → Bool} (l : Bytes) : ∀ x ∈ l.takeWhile p, p x = true := by
  induction l with
  | nil => simp
  | cons a r ih =>
    rw [List.takeWhile_cons]
    split
    · intro x hx
      rcases List.mem_cons.1 hx with h | h
      · rw [h]; assumption
      · exact ih x h
    · simp

theorem takeWhile_len {p : UInt8 → Bool} (l : Bytes) : (l.takeWhile p).length ≤ l.length := by
  induction l with
  | nil => simp
  | cons a r ih =>
    rw [List.takeWhile_cons]
    split
    · simp only [List.length_cons]; omega
    · simp

theorem takeWhile_full {p : UInt8 → Bool} (l : Bytes) (h : l.length ≤ (l.takeWhile p).length) : l.takeWhile p = l ∧ ∀ x ∈ l, p x = true := by
  induction l with
  | nil => simp
  | cons a r ih =>
    rw [List.takeWhile_cons] at h ⊢
    split at h
    · next ha =>
      rw [if_pos ha]
      have := ih (by simp only [List.length_cons] at h; omega)
      exact ⟨by rw [this.1], fun x hx => by
        rcases List.mem_cons.1 hx with e | e
        · rw [e]; exact ha
        · exact this.2 x e⟩
    · simp at h

theorem dropWhile_len {p : UInt8 → Bool} (l : Bytes) : (l.dropWhile p).length ≤ l.length := by
  induction l with
  | nil => simp
  | cons a r ih =>
    rw [List.dropWhile_cons]
    split
    · simp only [List.length_cons]; omega
    · simp

theorem small_of {ds : Bytes} (hd : ∀ d ∈ ds, Mon.isDigit d = true) (hl : ds.length ≤ 2) : Mon.digitsVal ds < 100 := by
  have h1 := digitsVal_lt ds hd
  have h2 : 10 ^ ds.length ≤ 10 ^ 2 := Nat.pow_le_pow_right (by omega) hl
  omega

/-- What a text of at most three bytes has to be for a number with three digits. -/
theorem strtoul_three (t : Bytes) (ht : t.length ≤ 3) (c : Nat) (r : Bytes) (h : Mon.strtoul t = some (c, r))
    (h1 : 100 ≤ c % 2 ^ 32) (h2 : c % 2 ^ 32 ≤ 999) : t.length = 3 ∧ (∀ d ∈ t, Mon.isDigit d = true) ∧ c = Mon.digitsVal t := by
  unfold Mon.strtoul at h
  dsimp only at h
  have hs1 : (t.dropWhile Mon.isSpace).length ≤ 3 := Nat.le_trans (dropWhile_len t) ht
  generalize hs : t.dropWhile Mon.isSpace = s1 at h hs1
  have small : ∀ (s2 : Bytes) (neg : Bool), s2.length ≤ 2 →
      (if s2.takeWhile Mon.isDigit = [] then some (0, t)
       else if Mon.digitsVal (s2.takeWhile Mon.isDigit) < 2 ^ 64 then
        some (if neg = true then (2 ^ 64 - Mon.digitsVal (s2.takeWhile Mon.isDigit)) % 2 ^ 64 else Mon.digitsVal (s2.takeWhile Mon.isDigit), s2.dropWhile Mon.isDigit)
       else none) = some (c, r) → False := by
    intro s2 neg hl h
    have hv := small_of (takeWhile_all (p := Mon.isDigit) s2) (Nat.le_trans (takeWhile_len s2) hl)
    split at h
    · cases h; simp at h1
    · rw [if_pos (Nat.lt_trans hv (by decide))] at h
      generalize Mon.digitsVal (s2.takeWhile Mon.isDigit) = x at h hv
      cases neg with
      | true =>
        simp only [if_true, Option.some.injEq, Prod.mk.injEq] at h
        omega
      | false =>
        simp only [Bool.false_eq_true, if_false, Option.some.injEq, Prod.mk.injEq] at h
        omega
  split at h
  · exact (small _ _ (by simp only [List.length_cons] at hs1 ⊢; omega) h).elim
  · exact (small _ _ (by simp only [List.length_cons] at hs1 ⊢; omega) h).elim
  · next n1 n2 =>
      dsimp only at h
      by_cases h3 : s1.length ≤ 2
      · exact (small _ _ h3 h).elim
      · have hst : s1 = t := by
          cases t with
          | nil => simp at hs; rw [← hs]
          | cons a q =>
            rw [List.dropWhile_cons] at hs
            by_cases ha : Mon.isSpace a = true
            · rw [if_pos ha] at hs
              have := dropWhile_len (p := Mon.isSpace) q
              rw [hs] at this
              simp only [List.length_cons] at ht
              omega
            · rw [if_neg ha] at hs; exact hs.symm
        rw [hst] at h h3
        by_cases h4 : (t.takeWhile Mon.isDigit).length ≤ 2
        · have hv := small_of (takeWhile_all (p := Mon.isDigit) t) h4
          split at h
          · cases h; simp at h1
          · rw [if_pos (Nat.lt_trans hv (by decide))] at h
            simp only [Bool.false_eq_true, if_false, Option.some.injEq, Prod.mk.injEq] at h
            omega
        · obtain ⟨h5, h6⟩ := takeWhile_full t (by omega : t.length ≤ (t.takeWhile Mon.isDigit).length)
          rw [h5] at h
          split at h
          · next e => rw [e] at h3; simp at h3
          · split at h
            · simp only [Bool.false_eq_true, if_false, Option.some.injEq, Prod.mk.injEq] at h
              exact ⟨by omega, h6, h.1.symm⟩
            · cases h

theorem digit_iff (c : UInt8) : Mon.isDigit c = true ↔ Digit c := by
  unfold Mon.isDigit Digit
  simp

theorem strtoul_digits (a b c : UInt8) (ha : Digit a) (hb : Digit b) (hc : Digit c) :
    Mon.strtoul [a, b, c] = some (100 * (a.toNat - 48) + 10 * (b.toNat - 48) + (c.toNat - 48), []) := by
  have na : Mon.isDigit a = true := (digit_iff a).2 ha
  have nb : Mon.isDigit b = true := (digit_iff b).2 hb
  have nc : Mon.isDigit c = true := (digit_iff c).2 hc
  have sp : Mon.isSpace a = false := by
    obtain ⟨h1, h2⟩ := ha
    unfold Mon.isSpace
    rw [UInt8.le_iff_toNat_le] at h1 h2
    have e1 : (48 : UInt8).toNat = 48 := rfl
    have e2 : (57 : UInt8).toNat = 57 := rfl
    rw [e1] at h1
    rw [e2] at h2
    have : a ≠ 32 := fun e => by subst e; simp at h1
    simp only [Bool.or_eq_false_iff, beq_eq_false_iff_ne, ne_eq, this, not_false_eq_true, true_and, Bool.and_eq_false_iff, decide_eq_false_iff_not]
    right
    rw [UInt8.le_iff_toNat_le]
    have e3 : (13 : UInt8).toNat = 13 := rfl
    rw [e3]
    omega
  have n1 : a ≠ 45 := fun e => by subst e; exact absurd ha.1 (by decide)
  have n2 : a ≠ 43 := fun e => by subst e; exact absurd ha.1 (by decide)
  have l : ∀ x : UInt8, Digit x → x.toNat - 48 ≤ 9 := by
    intro x h
    have := h.2
    rw [UInt8.le_iff_toNat_le] at this
    have e2 : (57 : UInt8).toNat = 57 := rfl
    omega
  have la := l a ha
  have lb := l b hb
  have lc := l c hc
  unfold Mon.strtoul
  simp only [List.dropWhile_cons, sp, Bool.false_eq_true, if_false]
  split
  · next tl he => cases he; exact absurd rfl n1
  · next tl he => cases he; exact absurd rfl n2
  · simp only [List.takeWhile_cons, List.dropWhile_cons, na, nb, nc, if_true, List.takeWhile_nil, List.dropWhile_nil, reduceCtorEq, if_false]
    have e : Mon.digitsVal [a, b, c] = 100 * (a.toNat - 48) + 10 * (b.toNat - 48) + (c.toNat - 48) := by
      simp only [Mon.digitsVal, List.foldl_cons, List.foldl_nil]
      omega
    rw [e, if_pos (by omega)]

/-- The first bytes of a list of thirteen. -/
theorem thirteen (l : Bytes) (h : l.length = 13) : ∃ a0 a1 a2 a3 a4 a5 a6 a7 a8 a9 a10 a11 a12, l = [a0, a1, a2, a3, a4, a5, a6, a7, a8, a9, a10, a11, a12] := by
  match l, h with
  | [a0, a1, a2, a3, a4, a5, a6, a7, a8, a9, a10, a11, a12], _ => exact ⟨a0, a1, a2, a3, a4, a5, a6, a7, a8, a9, a10, a11, a12, rfl⟩

theorem scan_status (sh : Bool) (a0 a1 a2 a3 a4 a5 a6 a7 a8 : UInt8) (r : Bytes) :
    scan sh statusFmt (upTo0 ([a0, a1, a2, a3, a4, a5, a6, a7, a8] ++ r)) 0 [] =
      if a0 = 72 ∧ a1 = 84 ∧ a2 = 84 ∧ a3 = 80 ∧ a4 = 47 ∧ a5 = 49 ∧ a6 = 46 ∧ (a7 = 48 ∨ a7 = 49) ∧ a8 = 32 then
        scan sh [.chars 3, .one [32]] (upTo0 r) 0 [] else (0, []) := by
  unfold statusFmt
  simp only [List.cons_append, List.nil_append]
  rw [scan_lit sh _ _ (by decide)]
  by_cases h0 : a0 = 72
  case neg => simp [h0]
  rw [if_pos h0, scan_lit sh _ _ (by decide)]
  by_cases h1 : a1 = 84
  case neg => simp [h1]
  rw [if_pos h1, scan_lit sh _ _ (by decide)]
  by_cases h2 : a2 = 84
  case neg => simp [h2]
  rw [if_pos h2, scan_lit sh _ _ (by decide)]
  by_cases h3 : a3 = 80
  case neg => simp [h3]
  rw [if_pos h3, scan_lit sh _ _ (by decide)]
  by_cases h4 : a4 = 47
  case neg => simp [h4]
  rw [if_pos h4, scan_lit sh _ _ (by decide)]
  by_cases h5 : a5 = 49
  case neg => simp [h5]
  rw [if_pos h5, scan_lit sh _ _ (by decide)]
  by_cases h6 : a6 = 46
  case neg => simp [h6]
  rw [if_pos h6, scan_one sh _ _ (by decide)]
  by_cases h7 : a7 = 48 ∨ a7 = 49
  case neg =>
    have : ¬ ([48, 49] : Bytes).contains a7 = true := by simpa using h7
    rw [if_neg this]
    simp [h7]
  have : ([48, 49] : Bytes).contains a7 = true := by simpa using h7
  rw [if_pos this, scan_one sh _ _ (by decide)]
  by_cases h8 : a8 = 32
  case neg =>
    have : ¬ ([32] : Bytes).contains a8 = true := by simpa using h8
    rw [if_neg this]
    simp [h8]
  have : ([32] : Bytes).contains a8 = true := by simpa using h8
  rw [if_pos this, if_pos ⟨h0, h1, h2, h3, h4, h5, h6, h7, h8⟩]

/-- The code reads a status line as described. -/
theorem status_iff (sh : Bool) (ok : List Nat) (hok : ∀ c ∈ ok, 100 ≤ c ∧ c ≤ 999) (g : Bytes) (hg : g.length = 13) :
    status sh ok (g ++ [0]) = true ↔ ∃ x, Good ok g x := by
  obtain ⟨a0, a1, a2, a3, a4, a5, a6, a7, a8, a9, a10, a11, a12, rfl⟩ := thirteen g hg
  have hs := scan_status sh a0 a1 a2 a3 a4 a5 a6 a7 a8 [a9, a10, a11, a12, 0]
  simp only [List.cons_append, List.nil_append] at hs
  have ht : (txt "HTTP/1.") = [72, 84, 84, 80, 47, 49, 46] := by decide
  unfold status Good
  dsimp only
  rw [show [a0, a1, a2, a3, a4, a5, a6, a7, a8, a9, a10, a11, a12] ++ [(0 : UInt8)] = a0 :: a1 :: a2 :: a3 :: a4 :: a5 :: a6 :: a7 :: a8 :: [a9, a10, a11, a12, 0] from rfl, hs, ht]
  by_cases hc : a0 = 72 ∧ a1 = 84 ∧ a2 = 84 ∧ a3 = 80 ∧ a4 = 47 ∧ a5 = 49 ∧ a6 = 46 ∧ (a7 = 48 ∨ a7 = 49) ∧ a8 = 32
  case neg =>
    rw [if_neg hc]
    simp only [Nat.zero_ne_one, if_false, Bool.false_eq_true, false_iff]
    rintro ⟨x, v, a, b, c, he, hv, -⟩
    simp only [List.cons_append, List.nil_append, List.cons.injEq] at he
    obtain ⟨e0, e1, e2, e3, e4, e5, e6, e7, e8, -⟩ := he
    exact hc ⟨e0, e1, e2, e3, e4, e5, e6, e7 ▸ hv, e8⟩
  rw [if_pos hc, scan_chars_end]
  obtain ⟨rfl, rfl, rfl, rfl, rfl, rfl, rfl, h7, rfl⟩ := hc
  constructor
  · intro h
    generalize hu : upTo0 [a9, a10, a11, a12, 0] = u at h
    generalize hrr : (if u = [] then ((0, []) : Nat × Bytes) else if 3 ≤ u.length ∨ sh = true then (1, u.take 3) else (0, [])) = res at h
    by_cases h1 : res.1 = 1
    case neg => rw [if_neg h1] at h; cases h
    rw [if_pos h1] at h
    generalize hst : Mon.strtoul res.2 = o at h
    match o, h, hst with
    | none, h, _ => cases h
    | some (cc, rr), h, hst =>
    dsimp only at h
    unfold okCode at h
    rw [List.any_eq_true] at h
    obtain ⟨k, hk, hke⟩ := h
    have hke : k = cc % 2 ^ 32 := by simpa using hke
    have hr := hok k hk
    by_cases hu0 : u = []
    · rw [if_pos hu0] at hrr; rw [← hrr] at h1; cases h1
    · rw [if_neg hu0] at hrr
      by_cases hu1 : 3 ≤ u.length ∨ sh = true
      case neg => rw [if_neg hu1] at hrr; rw [← hrr] at h1; cases h1
      rw [if_pos hu1] at hrr
      rw [← hrr] at hst
      dsimp only at hst
      obtain ⟨l3, ld, le⟩ := strtoul_three (u.take 3) (by rw [List.length_take]; omega) cc rr hst (hke ▸ hr.1) (hke ▸ hr.2)
      have hu3 : u.take 3 = [a9, a10, a11] := by
        rw [← hu] at l3 ⊢
        rw [upTo0_cons] at l3 ⊢
        split at l3
        · simp at l3
        · next n9 =>
          rw [if_neg n9]
          rw [upTo0_cons] at l3 ⊢
          split at l3
          · simp at l3
          · next n10 =>
            rw [if_neg n10]
            rw [upTo0_cons] at l3 ⊢
            split at l3
            · simp at l3
            · next n11 =>
              rw [if_neg n11]
              simp
      rw [hu3] at ld hst
      have d9 := (digit_iff _).1 (ld a9 (by simp))
      have d10 := (digit_iff _).1 (ld a10 (by simp))
      have d11 := (digit_iff _).1 (ld a11 (by simp))
      rw [strtoul_digits a9 a10 a11 d9 d10 d11] at hst
      simp only [Option.some.injEq, Prod.mk.injEq] at hst
      refine ⟨a12, a7, a9, a10, a11, rfl, h7, d9, d10, d11, ?_⟩
      have l : ∀ x : UInt8, Digit x → x.toNat - 48 ≤ 9 := by
        intro x h
        have := h.2
        rw [UInt8.le_iff_toNat_le] at this
        have e2 : (57 : UInt8).toNat = 57 := rfl
        omega
      have l1 := l _ d9
      have l2 := l _ d10
      have l4 := l _ d11
      have : k = 100 * (a9.toNat - 48) + 10 * (a10.toNat - 48) + (a11.toNat - 48) := by omega
      rw [← this]
      exact hk
  · rintro ⟨x, v, a, b, c, he, hv, da, db, dc, hin⟩
    simp only [List.cons_append, List.nil_append, List.cons.injEq, and_true, true_and] at he
    obtain ⟨rfl, rfl, rfl, rfl, rfl⟩ := he
    have nz : ∀ y : UInt8, Digit y → y ≠ 0 := fun y h e => by subst e; exact absurd h.1 (by decide)
    have hu : upTo0 [a9, a10, a11, a12, 0] = a9 :: a10 :: a11 :: upTo0 [a12, 0] := by
      rw [upTo0_cons, if_neg (nz _ da), upTo0_cons, if_neg (nz _ db), upTo0_cons, if_neg (nz _ dc)]
    have c1 : ¬ (a9 :: a10 :: a11 :: upTo0 [a12, 0] = []) := by simp
    have c2 : 3 ≤ (a9 :: a10 :: a11 :: upTo0 [a12, 0]).length ∨ sh = true := Or.inl (by simp)
    rw [hu, if_neg c1, if_pos c2]
    dsimp only
    rw [if_pos rfl]
    rw [show List.take 3 (a9 :: a10 :: a11 :: upTo0 [a12, 0]) = [a9, a10, a11] from rfl, strtoul_digits a9 a10 a11 da db dc]
    dsimp only
    unfold okCode
    rw [List.any_eq_true]
    refine ⟨_, hin, ?_⟩
    have := hok _ hin
    have e : (100 * (a9.toNat - 48) + 10 * (a10.toNat - 48) + (a11.toNat - 48)) % 2 ^ 32 = 100 * (a9.toNat - 48) + 10 * (a10.toNat - 48) + (a11.toNat - 48) := by omega
    rw [e]
    simp

end Gdnsd.Poll
