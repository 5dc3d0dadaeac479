/-
Lemmas on tokens.
-/
import Verif.Zscan.NameLemmas
namespace Gdnsd.Zscan
open ZscanSpec DnameSpec LookupSpec EncSpec Dname Load

/-! ### Characters -/

theorem u8_all (p : UInt8 → Prop) (h : ∀ b : BitVec 8, p ⟨b⟩) (c : UInt8) : p c := h c.toBitVec

theorem isWs_iff (c : UInt8) : isWs c = true ↔ isBlank c := by simp [isWs, isBlank, or_assoc]

theorem isLit_iff (c : UInt8) : isLit c = true ↔ c ∉ special := by
  unfold isLit special
  simp only [Bool.not_eq_true', List.contains_eq_mem, decide_eq_false_iff_not]

theorem isDigit_iff (c : UInt8) : isDigit c = true ↔ digit c := by
  simp [isDigit, digit, UInt8.le_iff_toNat_le]

theorem isHex_iff (c : UInt8) : isHex c = true ↔ hexDigit c := by
  simp [isHex, hexDigit, isDigit, digit, UInt8.le_iff_toNat_le, or_assoc]

theorem isAlpha_iff (c : UInt8) : isAlpha c = true ↔ letter c := by
  simp [isAlpha, letter, UInt8.le_iff_toNat_le]

theorem low_eq (c : UInt8) : low c = lower c :=
  u8_all (fun c => low c = lower c) (by decide +kernel) c

theorem low_fun : low = lower := funext low_eq

theorem ws_not_lit {c : UInt8} (h : isWs c = true) : isLit c = false := by
  revert h; exact u8_all (fun c => isWs c = true → isLit c = false) (by decide +kernel) c

theorem ws_not_digit {c : UInt8} (h : isWs c = true) : isDigit c = false := by
  revert h; exact u8_all (fun c => isWs c = true → isDigit c = false) (by decide +kernel) c

theorem ws_not_alpha {c : UInt8} (h : isWs c = true) : isAlpha c = false := by
  revert h; exact u8_all (fun c => isWs c = true → isAlpha c = false) (by decide +kernel) c

theorem digit_not_alpha {c : UInt8} (h : isDigit c = true) : isAlpha c = false := by
  revert h; exact u8_all (fun c => isDigit c = true → isAlpha c = false) (by decide +kernel) c

theorem alpha_not_digit {c : UInt8} (h : isAlpha c = true) : isDigit c = false := by
  revert h; exact u8_all (fun c => isAlpha c = true → isDigit c = false) (by decide +kernel) c

theorem alpha_not_ws {c : UInt8} (h : isAlpha c = true) : isWs c = false := by
  revert h; exact u8_all (fun c => isAlpha c = true → isWs c = false) (by decide +kernel) c

theorem digit_not_ws {c : UInt8} (h : isDigit c = true) : isWs c = false := by
  revert h; exact u8_all (fun c => isDigit c = true → isWs c = false) (by decide +kernel) c

/-! ### Runs -/

theorem run_split (ok : UInt8 → Bool) (s : Bytes) : s = (run ok s).1 ++ (run ok s).2 := by
  induction s with
  | nil => rfl
  | cons c r ih =>
    unfold run
    cases h : ok c
    · simp
    · simp only [cond_true, List.cons_append]; rw [← ih]

theorem run_all (ok : UInt8 → Bool) (s : Bytes) : ∀ c ∈ (run ok s).1, ok c = true := by
  induction s with
  | nil => intro c hc; simp [run] at hc
  | cons a r ih =>
    unfold run
    cases h : ok a
    · simp
    · simp only [cond_true, List.mem_cons, forall_eq_or_imp]; exact ⟨h, ih⟩

theorem run_stop (ok : UInt8 → Bool) (s : Bytes) (c : UInt8) (h : (run ok s).2.head? = some c) : ok c = false := by
  induction s with
  | nil => simp [run] at h
  | cons a r ih =>
    unfold run at h
    cases ha : ok a
    · rw [ha] at h; simp at h; rw [← h]; exact ha
    · rw [ha] at h; exact ih h

theorem run_append (ok : UInt8 → Bool) (t r : Bytes) (ht : ∀ c ∈ t, ok c = true) (hr : ∀ c, r.head? = some c → ok c = false) :
    run ok (t ++ r) = (t, r) := by
  induction t with
  | nil =>
    cases r with
    | nil => rfl
    | cons a r => simp only [List.nil_append, run]; rw [hr a rfl]; rfl
  | cons a t ih =>
    simp only [List.cons_append, run]
    rw [ht a (by simp), ih (fun c hc => ht c (by simp [hc]))]
    rfl

theorem run_none (ok : UInt8 → Bool) (r : Bytes) (hr : ∀ c, r.head? = some c → ok c = false) : run ok r = ([], r) := by
  have := run_append ok [] r (by simp) hr
  simpa using this

theorem run1_sound {ok : UInt8 → Bool} {s t r : Bytes} (h : run1 ok s = some (t, r)) :
    s = t ++ r ∧ t ≠ [] ∧ (∀ c ∈ t, ok c = true) ∧ (∀ c, r.head? = some c → ok c = false) := by
  unfold run1 at h
  cases he : (run ok s).1.isEmpty with
  | true => rw [he] at h; cases h
  | false =>
    rw [he] at h
    simp only [cond_false, Option.some.injEq] at h
    have h1 : (run ok s).1 = t := congrArg Prod.fst h
    have h2 : (run ok s).2 = r := congrArg Prod.snd h
    refine ⟨?_, ?_, ?_, ?_⟩
    · rw [← h1, ← h2]; exact run_split ok s
    · intro hc; rw [h1, hc] at he; simp at he
    · rw [← h1]; exact run_all ok s
    · rw [← h2]; exact run_stop ok s

theorem run1_complete {ok : UInt8 → Bool} {t r : Bytes} (h0 : t ≠ []) (ht : ∀ c ∈ t, ok c = true) (hr : ∀ c, r.head? = some c → ok c = false) :
    run1 ok (t ++ r) = some (t, r) := by
  unfold run1
  rw [run_append ok t r ht hr]
  cases t
  · exact absurd rfl h0
  · rfl

theorem blank_iff (b : Bytes) : Blank b ↔ b ≠ [] ∧ ∀ c ∈ b, isWs c = true := by
  simp only [Blank, isWs_iff]

theorem ws_sound {s r : Bytes} (h : ws s = some r) : ∃ b, Blank b ∧ s = b ++ r ∧ ∀ c, r.head? = some c → isWs c = false := by
  unfold ws at h
  cases he : (run isWs s).1.isEmpty with
  | true => rw [he] at h; cases h
  | false =>
    rw [he] at h
    simp only [cond_false, Option.some.injEq] at h
    refine ⟨(run isWs s).1, (blank_iff _).mpr ⟨?_, run_all isWs s⟩, ?_, ?_⟩
    · intro hc; rw [hc] at he; simp at he
    · rw [← h]; exact run_split isWs s
    · rw [← h]; exact run_stop isWs s

theorem run_blank {b r : Bytes} (hb : Blank b) (hr : ∀ c, r.head? = some c → isWs c = false) : run isWs (b ++ r) = (b, r) :=
  run_append isWs b r ((blank_iff b).mp hb).2 hr

theorem ws_complete {b r : Bytes} (hb : Blank b) (hr : ∀ c, r.head? = some c → isWs c = false) : ws (b ++ r) = some r := by
  unfold ws
  rw [run_blank hb hr]
  have := hb.1
  cases b
  · exact absurd rfl this
  · rfl

theorem blank_append {b r : Bytes} (hb : Blank b) : blank (b ++ r) = true := by
  obtain ⟨h0, h1⟩ := (blank_iff b).mp hb
  cases b with
  | nil => exact absurd rfl h0
  | cons c b => exact h1 c (by simp)

theorem ends_of_blank {b r : Bytes} (hb : Blank b) : ends (b ++ r) = true := by
  obtain ⟨h0, h1⟩ := (blank_iff b).mp hb
  cases b with
  | nil => exact absurd rfl h0
  | cons c b => simp only [List.cons_append, ends, h1 c (by simp), Bool.true_or]

theorem ends_of_blank' {r : Bytes} (h : blank r = true) : ends r = true := by
  cases r with
  | nil => cases h
  | cons c r => simp only [blank] at h; simp [ends, h]

theorem blank_sound {r : Bytes} (h : blank r = true) : ∃ b, Blank b ∧ r = b ++ (run isWs r).2 ∧ ∀ c, (run isWs r).2.head? = some c → isWs c = false := by
  refine ⟨(run isWs r).1, (blank_iff _).mpr ⟨?_, run_all isWs r⟩, run_split isWs r, run_stop isWs r⟩
  cases r with
  | nil => cases h
  | cons c r => simp only [blank] at h; simp [run, h]

/-- What follows ends every token. -/
theorem ends_stop {r : Bytes} {c : UInt8} (h : ends r = true) (hc : r.head? = some c) (ok : UInt8 → Bool)
    (hok : ∀ b : BitVec 8, (isWs ⟨b⟩ || (⟨b⟩ : UInt8) == 10) = true → ok ⟨b⟩ = false) : ok c = false := by
  cases r with
  | nil => cases hc
  | cons a r =>
    simp at hc; subst hc
    exact hok a.toBitVec h

/-! ### Units -/

theorem _root_.Gdnsd.ZscanSpec.Units.mono {p q : UInt8 → Prop} (h : ∀ c, p c → q c) {t : Bytes} (hu : Units p t) : Units q t := by
  induction hu with
  | nil => exact .nil
  | chr a b _ ih => exact .chr (h _ a) b ih
  | esc a _ ih => exact .esc a ih
  | num a b c _ ih => exact .num a b c ih

theorem units_spec (ok : UInt8 → Bool) (n : Nat) (s : Bytes) (hn : s.length ≤ n) (t r : Bytes) (h : units ok s = some (t, r)) :
    s = t ++ r ∧ Units (fun c => ok c = true) t ∧ ∀ c, r.head? = some c → ok c = false ∧ c ≠ 92 := by
  induction n generalizing s t r with
  | zero =>
    cases s with
    | cons => simp at hn
    | nil => simp [units] at h; obtain ⟨rfl, rfl⟩ := h; exact ⟨rfl, .nil, by simp⟩
  | succ n ih =>
    cases s with
    | nil => simp [units] at h; obtain ⟨rfl, rfl⟩ := h; exact ⟨rfl, .nil, by simp⟩
    | cons c s =>
      simp only [List.length_cons] at hn
      unfold units at h
      by_cases hc : c = 92
      · subst hc
        simp only [beq_self_eq_true, cond_true] at h
        match s, hn, h with
        | [], _, h => cases h
        | a :: s, hn, h =>
          simp only at h
          simp only [List.length_cons] at hn
          cases ha : isDigit a with
          | true =>
            rw [ha] at h
            simp only [cond_true] at h
            match s, hn, h with
            | b :: d :: s, hn, h =>
              simp only at h
              simp only [List.length_cons] at hn
              cases hbd : (isDigit b && isDigit d) with
              | false => rw [hbd] at h; cases h
              | true =>
                rw [hbd] at h
                simp only [cond_true, Option.map_eq_some_iff, Prod.mk.injEq] at h
                obtain ⟨⟨t', r'⟩, h1, rfl, rfl⟩ := h
                obtain ⟨e1, e2, e3⟩ := ih s (by omega) t' r' h1
                simp only [Bool.and_eq_true] at hbd
                refine ⟨by simp [e1], .num ((isDigit_iff _).mp ha) ((isDigit_iff _).mp hbd.1) ((isDigit_iff _).mp hbd.2) e2, e3⟩
            | [], _, h => cases h
            | [_], _, h => cases h
          | false =>
            rw [ha] at h
            simp only [cond_false, Option.map_eq_some_iff, Prod.mk.injEq] at h
            obtain ⟨⟨t', r'⟩, h1, rfl, rfl⟩ := h
            obtain ⟨e1, e2, e3⟩ := ih s (by omega) t' r' h1
            refine ⟨by simp [e1], .esc (fun hd => ?_) e2, e3⟩
            rw [(isDigit_iff _).mpr hd] at ha; cases ha
      · simp only [beq_eq_false_iff_ne.mpr hc, cond_false] at h
        cases ho : ok c with
        | true =>
          rw [ho] at h
          simp only [cond_true, Option.map_eq_some_iff, Prod.mk.injEq] at h
          obtain ⟨⟨t', r'⟩, h1, rfl, rfl⟩ := h
          obtain ⟨e1, e2, e3⟩ := ih s (by omega) t' r' h1
          exact ⟨by simp [e1], .chr ho hc e2, e3⟩
        | false =>
          rw [ho] at h
          simp only [cond_false, Option.some.injEq, Prod.mk.injEq] at h
          obtain ⟨rfl, rfl⟩ := h
          refine ⟨rfl, .nil, ?_⟩
          intro x hx; simp at hx; subst hx; exact ⟨ho, hc⟩

theorem units_complete {ok : UInt8 → Bool} {t r : Bytes} (h : Units (fun c => ok c = true) t) (hr : ∀ c, r.head? = some c → ok c = false ∧ c ≠ 92) :
    units ok (t ++ r) = some (t, r) := by
  induction h with
  | nil =>
    cases r with
    | nil => rfl
    | cons c r =>
      obtain ⟨h1, h2⟩ := hr c rfl
      simp only [List.nil_append]
      unfold units
      simp [beq_eq_false_iff_ne.mpr h2, h1]
  | chr a b _ ih =>
    simp only [List.cons_append]
    unfold units
    simp [beq_eq_false_iff_ne.mpr b, a, ih]
  | esc a _ ih =>
    rename_i c t _
    simp only [List.cons_append]
    unfold units
    have : isDigit c = false := by
      cases h : isDigit c with
      | false => rfl
      | true => exact absurd ((isDigit_iff _).mp h) a
    simp [this, ih]
  | num a b c _ ih =>
    simp only [List.cons_append]
    unfold units
    simp [(isDigit_iff _).mpr a, (isDigit_iff _).mpr b, (isDigit_iff _).mpr c, ih]

/-! ### Words -/

theorem quoted_sound {s t r : Bytes} (h : quoted s = some (t, r)) : s = t ++ 34 :: r ∧ Units (· ≠ 34) t := by
  unfold quoted at h
  simp only [Option.bind_eq_some_iff] at h
  obtain ⟨⟨t', r'⟩, h1, h2⟩ := h
  obtain ⟨e1, e2, _⟩ := units_spec _ _ s (Nat.le_refl _) _ _ h1
  simp only at h2
  split at h2
  · simp at h2
    obtain ⟨rfl, rfl⟩ := h2
    exact ⟨e1, e2.mono (by simp)⟩
  · cases h2

theorem quoted_complete {t r : Bytes} (h : Units (· ≠ 34) t) : quoted (t ++ 34 :: r) = some (t, r) := by
  unfold quoted
  rw [units_complete (h.mono (by simp)) (by simp)]
  rfl

theorem units1_sound {ok : UInt8 → Bool} {s t r : Bytes} (h : units1 ok s = some (t, r)) :
    s = t ++ r ∧ t ≠ [] ∧ Units (fun c => ok c = true) t ∧ ∀ c, r.head? = some c → ok c = false ∧ c ≠ 92 := by
  unfold units1 at h
  simp only [Option.bind_eq_some_iff] at h
  obtain ⟨⟨t', r'⟩, h1, h2⟩ := h
  obtain ⟨e1, e2, e3⟩ := units_spec _ _ s (Nat.le_refl _) _ _ h1
  cases he : t'.isEmpty with
  | true => rw [he] at h2; cases h2
  | false =>
    rw [he] at h2
    simp at h2
    obtain ⟨rfl, rfl⟩ := h2
    exact ⟨e1, by intro hc; subst hc; simp at he, e2, e3⟩

theorem units1_complete {ok : UInt8 → Bool} {t r : Bytes} (h0 : t ≠ []) (h : Units (fun c => ok c = true) t) (hr : ∀ c, r.head? = some c → ok c = false ∧ c ≠ 92) :
    units1 ok (t ++ r) = some (t, r) := by
  unfold units1
  rw [units_complete h hr]
  cases t
  · exact absurd rfl h0
  · rfl

theorem word_sound {s t r : Bytes} (h : word s = some (t, r)) :
    ∃ w, s = w ++ r ∧ Word w t ∧ (w.head? = some 34 ∨ ∀ c, r.head? = some c → isLit c = false ∧ c ≠ 92) := by
  unfold word at h
  split at h
  · obtain ⟨e1, e2⟩ := quoted_sound h
    refine ⟨34 :: t ++ [34], by simp [e1], .quoted e2, .inl rfl⟩
  · obtain ⟨e1, e2, e3, e4⟩ := units1_sound h
    exact ⟨t, e1, .bare e2 (e3.mono fun c hc => (isLit_iff c).mp hc), .inr e4⟩

theorem word_head {w t : Bytes} (h : Word w t) : (w = 34 :: t ++ [34] ∧ Units (· ≠ 34) t) ∨ (w = t ∧ t ≠ [] ∧ Units (· ∉ special) t ∧ w.head? ≠ some 34) := by
  cases h with
  | quoted h => exact .inl ⟨rfl, h⟩
  | bare h0 h =>
    refine .inr ⟨rfl, h0, h, ?_⟩
    cases h with
    | nil => exact absurd rfl h0
    | chr a _ _ => intro hc; simp at hc; subst hc; exact a (by decide)
    | esc _ _ => simp
    | num _ _ _ _ => simp

theorem word_complete {w t r : Bytes} (h : Word w t) (hr : w.head? = some 34 ∨ ∀ c, r.head? = some c → isLit c = false ∧ c ≠ 92) :
    word (w ++ r) = some (t, r) := by
  rcases word_head h with ⟨rfl, hu⟩ | ⟨rfl, h0, hu, hh⟩
  · have : 34 :: t ++ [34] ++ r = 34 :: (t ++ 34 :: r) := by simp
    rw [this]
    unfold word
    exact quoted_complete hu
  · have hr := hr.resolve_left hh
    unfold word
    split
    · rename_i x heq
      cases w with
      | nil => exact absurd rfl h0
      | cons a w => simp at heq hh; exact absurd heq.1 hh
    · exact units1_complete h0 (hu.mono fun c hc => (isLit_iff c).mpr hc) hr

theorem word_ne {w t : Bytes} (h : Word w t) : w ≠ [] := by
  rcases word_head h with ⟨rfl, _⟩ | ⟨rfl, h0, _⟩
  · simp
  · exact h0

theorem ends_word {r : Bytes} (h : ends r = true) : ∀ c, r.head? = some c → isLit c = false ∧ c ≠ 92 := by
  intro c hc
  have h1 := ends_stop h hc isLit (by decide +kernel)
  have h2 := ends_stop h hc (fun c => c == 92) (by decide +kernel)
  exact ⟨h1, by simpa using h2⟩

theorem nameTok_sound {s t r : Bytes} (h : nameTok s = some (t, r)) : ∃ w, s = w ++ r ∧ Word w t ∧ w.head? ≠ some 36 := by
  unfold nameTok at h
  split at h
  · cases h
  · rename_i hne
    obtain ⟨w, h1, h2, _⟩ := word_sound h
    refine ⟨w, h1, h2, ?_⟩
    intro hc
    cases w with
    | nil => cases hc
    | cons a w => simp at hc; subst hc; exact hne (w ++ r) (by simpa using h1)

theorem nameTok_complete {w t r : Bytes} (h : Word w t) (h36 : w.head? ≠ some 36) (hr : ends r = true) : nameTok (w ++ r) = some (t, r) := by
  unfold nameTok
  split
  · rename_i heq
    have := word_ne h
    cases w with
    | nil => exact absurd rfl this
    | cons a w => simp at heq h36; exact absurd heq.1 h36
  · exact word_complete h (.inr (ends_word hr))

/-! ### Numbers -/

theorem digits_iff (t : Bytes) : Digits t ↔ t ≠ [] ∧ ∀ c ∈ t, isDigit c = true := by simp only [Digits, isDigit_iff]

theorem uval_iff (t : Bytes) (v : UInt32) : uval t = some v ↔ value t < 2 ^ 64 ∧ v.toNat = value t % 2 ^ 32 := by
  unfold uval decimal value
  generalize t.foldl _ 0 = n
  by_cases h : n < 18446744073709551616
  · simp only [h, decide_true, cond_true, Option.some.injEq]
    constructor
    · rintro rfl; exact ⟨trivial, by simp⟩
    · rintro ⟨_, h2⟩
      apply UInt32.toNat_inj.mp
      rw [h2]; simp
  · simp only [h, decide_false, cond_false]
    constructor
    · intro hc; cases hc
    · rintro ⟨h1, _⟩; exact absurd h1 id

theorem num_iff (t : Bytes) (v : UInt32) : Num t v ↔ (t ≠ [] ∧ ∀ c ∈ t, isDigit c = true) ∧ uval t = some v := by
  rw [uval_iff, ← digits_iff]
  exact ⟨fun ⟨a, b, c⟩ => ⟨a, b, c⟩, fun ⟨a, b, c⟩ => ⟨a, b, c⟩⟩

theorem isMult_iff (c : UInt8) : isMult c = true ↔ ∃ n, unit c = some n := by
  have : ∀ c : UInt8, isMult c = (unit c).isSome := u8_all _ (by decide +kernel)
  rw [this, Option.isSome_iff_exists]

theorem mult_unit (c : UInt8) (n : Nat) (h : unit c = some n) (v : UInt32) : mult c v = .ok (v * UInt32.ofNat n) := by
  unfold mult
  rw [low_eq]
  unfold unit at h
  split at h
  · rename_i hc; cases h
    rcases hc with rfl | rfl <;> rfl
  split at h
  · rename_i hc; cases h
    rcases hc with rfl | rfl <;> rfl
  split at h
  · rename_i hc; cases h
    rcases hc with rfl | rfl <;> rfl
  split at h
  · rename_i hc; cases h
    rcases hc with rfl | rfl <;> rfl
  · cases h

theorem mult_val (v w : UInt32) (n : Nat) (hn : n < 2 ^ 32) : v * UInt32.ofNat n = w ↔ w.toNat = v.toNat * n % 2 ^ 32 := by
  constructor
  · rintro rfl
    rw [UInt32.toNat_mul]
    simp [Nat.mod_eq_of_lt hn]
  · intro h
    apply UInt32.toNat_inj.mp
    rw [h, UInt32.toNat_mul]
    simp [Nat.mod_eq_of_lt hn]

theorem unit_lt {c : UInt8} {n : Nat} (h : unit c = some n) : n < 2 ^ 32 := by
  unfold unit at h
  split at h
  · cases h; decide
  split at h
  · cases h; decide
  split at h
  · cases h; decide
  split at h
  · cases h; decide
  · cases h

theorem mult_not_digit {c : UInt8} (h : isMult c = true) : isDigit c = false := by
  revert h; exact u8_all (fun c => isMult c = true → isDigit c = false) (by decide +kernel) c

/-- A token of digits and a unit. -/
theorem ttlTok_sound {s t r : Bytes} (h : ttlTok s = some (t, r)) (v : UInt32) (hv : ttlVal t = .ok (some v)) : s = t ++ r ∧ Ttl t v := by
  unfold ttlTok at h
  simp only [Option.map_eq_some_iff] at h
  obtain ⟨⟨d, q⟩, h1, h2⟩ := h
  obtain ⟨e1, e2, e3, e4⟩ := run1_sound h1
  have hplain : ttlVal d = .ok (uval d) := by
    unfold ttlVal
    have := run_append isDigit d [] e3 (by simp)
    rw [List.append_nil] at this
    rw [this]
    cases uval d <;> rfl
  cases q with
  | nil =>
    simp only [Prod.mk.injEq] at h2
    obtain ⟨rfl, rfl⟩ := h2
    rw [hplain] at hv
    exact ⟨e1, .plain ((num_iff _ _).mpr ⟨⟨e2, e3⟩, by simpa using hv⟩)⟩
  | cons c q =>
    simp only at h2
    cases hm : isMult c with
    | false =>
      rw [hm] at h2
      simp only [cond_false, Prod.mk.injEq] at h2
      obtain ⟨rfl, rfl⟩ := h2
      rw [hplain] at hv
      exact ⟨e1, .plain ((num_iff _ _).mpr ⟨⟨e2, e3⟩, by simpa using hv⟩)⟩
    | true =>
      rw [hm] at h2
      simp only [cond_true, Prod.mk.injEq] at h2
      obtain ⟨rfl, rfl⟩ := h2
      obtain ⟨n, hn⟩ := (isMult_iff c).mp hm
      refine ⟨by simp [e1], ?_⟩
      unfold ttlVal at hv
      rw [run_append isDigit d [c] e3 (by intro x hx; simp at hx; subst hx; exact mult_not_digit hm)] at hv
      cases hu : uval d with
      | none => rw [hu] at hv; cases hv
      | some u =>
        rw [hu] at hv
        simp only at hv
        rw [mult_unit c n hn] at hv
        simp only [Outcome.map_ok, Outcome.ok.injEq, Option.some.injEq] at hv
        exact .unit ((num_iff _ _).mpr ⟨⟨e2, e3⟩, hu⟩) hn ((mult_val u v n (unit_lt hn)).mp hv)

theorem ttl_complete {t r : Bytes} {v : UInt32} (h : Ttl t v) (hr : ∀ c, r.head? = some c → isDigit c = false ∧ isMult c = false) :
    ttlTok (t ++ r) = some (t, r) ∧ ttlVal t = .ok (some v) := by
  cases h with
  | plain h =>
    obtain ⟨⟨e1, e2⟩, e3⟩ := (num_iff _ _).mp h
    refine ⟨?_, ?_⟩
    · unfold ttlTok
      rw [run1_complete e1 e2 (fun c hc => (hr c hc).1)]
      cases r with
      | nil => rfl
      | cons c r => simp only [Option.map_some]; rw [(hr c rfl).2]; rfl
    · unfold ttlVal
      have := run_append isDigit t [] e2 (by simp)
      rw [List.append_nil] at this
      rw [this, e3]
  | unit h hn hw =>
    rename_i t u c n
    obtain ⟨⟨e1, e2⟩, e3⟩ := (num_iff _ _).mp h
    have hm := (isMult_iff c).mpr ⟨n, hn⟩
    refine ⟨?_, ?_⟩
    · unfold ttlTok
      rw [List.append_assoc, run1_complete e1 e2 (by intro x hx; simp at hx; subst hx; exact mult_not_digit hm)]
      simp [hm]
    · unfold ttlVal
      rw [run_append isDigit t [c] e2 (by intro x hx; simp at hx; subst hx; exact mult_not_digit hm), e3]
      simp only
      rw [mult_unit c n hn]
      simp only [Outcome.map_ok, Outcome.ok.injEq, Option.some.injEq]
      exact (mult_val u v n (unit_lt hn)).mpr hw

/-! ### Escapes and strings -/

theorem Unesc_nil {o : Bytes} (h : Unesc [] o) : o = [] := by cases h; rfl

theorem unesc_eq (t : Bytes) :
    (∃ o, unesc t = .ok (some o) ∧ DnameSpec.Unesc t o ∧ o.length ≤ t.length) ∨ (unesc t = .ok none ∧ ∀ o, ¬ DnameSpec.Unesc t o) := by
  unfold unesc
  cases t with
  | nil => exact .inl ⟨[], rfl, .nil, Nat.le_refl _⟩
  | cons c t =>
    simp only [List.isEmpty_cons, cond_false]
    rcases C02_unescape_exact (c :: t).length (c :: t) (c :: t).length (by simp) (Nat.le_refl _) (Nat.le_refl _) with ⟨o, h1, h2, _, h4⟩ | ⟨h1, h2⟩
    · rw [List.take_length] at h2
      refine .inl ⟨o, ?_, h2, h4⟩
      rw [h1]
      simp only [Outcome.bind_ok, assert, decide_eq_true h4, if_true, Outcome.map_ok]
    · rw [List.take_length] at h2
      exact .inr ⟨by rw [h1]; rfl, h2⟩

theorem unesc_iff' (t o : Bytes) : unesc t = .ok (some o) ↔ DnameSpec.Unesc t o := by
  rcases unesc_eq t with ⟨o', h1, h2, _⟩ | ⟨h1, h2⟩
  · rw [h1]
    simp only [Outcome.ok.injEq, Option.some.injEq]
    exact ⟨fun h => h ▸ h2, fun h => C02_grammar_functional h2 h⟩
  · rw [h1]
    simp only [Outcome.ok.injEq]
    exact ⟨fun h => (by cases h), fun h => absurd h (h2 o)⟩

theorem andThen_some {α β : Type} {x : Outcome (Option α)} {f : α → Outcome (Option β)} {b : β} :
    andThen x f = .ok (some b) ↔ ∃ a, x = .ok (some a) ∧ f a = .ok (some b) := by
  unfold andThen
  cases x with
  | ub => simp
  | ok o => cases o <;> simp

@[simp] theorem andThen_ok {α β : Type} (a : α) (f : α → Outcome (Option β)) : andThen (.ok (some a)) f = f a := rfl

theorem andThen_ub {α β : Type} {x : Outcome (Option α)} {f : α → Outcome (Option β)} :
    andThen x f = .ub ↔ x = .ub ∨ ∃ a, x = .ok (some a) ∧ f a = .ub := by
  unfold andThen
  cases x with
  | ub => simp
  | ok o => cases o <;> simp

theorem chunks_length (n : Nat) (t : Bytes) (h : 255 * n ≤ t.length) (h2 : t.length < 255 * n + 255) :
    (chunks n t).length = t.length + n + (bif t.length == 255 * n then 0 else 1) := by
  induction n generalizing t with
  | zero =>
    cases t with
    | nil => rfl
    | cons => simp [chunks]
  | succ n ih =>
    simp only [chunks, List.length_cons, List.length_append, List.length_take]
    have hd : (t.drop 255).length = t.length - 255 := List.length_drop
    generalize t.drop 255 = u at hd
    rw [ih u (by omega) (by omega), hd]
    have : (t.length - 255 == 255 * n) = (t.length == 255 * (n + 1)) := by
      apply Bool.eq_iff_iff.mpr; simp; omega
    rw [this]
    omega

theorem split_chunks (n : Nat) (t : Bytes) (h0 : t ≠ []) (h : 255 * n ≤ t.length) (h2 : t.length < 255 * n + 255) : Split t (chunks n t) := by
  induction n generalizing t with
  | zero =>
    simp only [chunks]
    cases t with
    | nil => exact absurd rfl h0
    | cons c t => exact .last h0 (by omega)
  | succ n ih =>
    simp only [chunks]
    by_cases he : t.length = 255
    · have hn : n = 0 := by omega
      subst hn
      have hd : t.drop 255 = [] := List.drop_eq_nil_of_le (by omega)
      have ht : t.take 255 = t := List.take_of_length_le (by omega)
      rw [hd, ht]
      have := Split.last h0 (by omega)
      rw [he] at this
      simpa [chunks] using this
    · have hd : (t.drop 255).length = t.length - 255 := List.length_drop
      have hd1 : 255 * n ≤ (t.drop 255).length := by rw [hd]; clear hd; omega
      have hd2 : (t.drop 255).length < 255 * n + 255 := by rw [hd]; clear hd hd1; omega
      have := Split.cons (a := t.take 255) (by simp; omega) (ih (t.drop 255) (by intro hc; rw [hc, List.length_nil] at hd; omega) hd1 hd2)
      rwa [List.take_append_drop] at this

theorem split_unique {t r r' : Bytes} (h : Split t r) (h' : Split t r') : r = r' := by
  induction h generalizing r' with
  | last h0 h1 =>
    rename_i t
    generalize ht : t = u at h'
    cases h' with
    | last => subst ht; rfl
    | cons a b =>
      exfalso
      subst ht
      have : ∀ {x y : Bytes}, Split x y → x ≠ [] := by
        intro x y h
        cases h with
        | last h _ => exact h
        | cons h _ => intro hc; have := congrArg List.length hc; rw [List.length_append, List.length_nil] at this; omega
      have := List.length_pos_iff.mpr (this b)
      simp at h1; omega
  | cons ha hs ih =>
    rename_i a t r
    generalize ht : a ++ t = u at h'
    cases h' with
    | last h0 h1 =>
      exfalso
      have : ∀ {x y : Bytes}, Split x y → x ≠ [] := by
        intro x y h
        cases h with
        | last h _ => exact h
        | cons h _ => intro hc; have := congrArg List.length hc; rw [List.length_append, List.length_nil] at this; omega
      have := List.length_pos_iff.mpr (this hs)
      have := congrArg List.length ht
      simp at this; omega
    | cons a' b' =>
      have := List.append_inj ht (by omega)
      obtain ⟨rfl, rfl⟩ := this
      rw [ih b']

theorem split_mod {t : Bytes} (h : 255 < t.length) : Split t (chunks ((t.length - t.length % 255) / 255) t) :=
  split_chunks _ t (by intro hc; subst hc; simp at h) (by omega) (by omega)

theorem addTok_some (cfg : Cfg) (big : Bool) (text t out : Bytes) :
    addTok cfg big text t = .ok (some out) ↔
      ∃ o s, DnameSpec.Unesc t o ∧ out = text ++ s ∧ out.length ≤ 16000 ∧
        ((o.length ≤ 255 ∧ s = UInt8.ofNat o.length :: o) ∨ (255 < o.length ∧ o.length ≤ 16000 ∧ big = true ∧ cfg.noSplit = false ∧ Split o s)) := by
  unfold addTok
  rw [andThen_some]
  constructor
  · rintro ⟨o, h1, h2⟩
    have hu := (unesc_iff' _ _).mp h1
    by_cases hl : 255 < o.length
    · simp only [hl, decide_true, cond_true] at h2
      cases hb : (!big || cfg.noSplit) with
      | true => rw [hb] at h2; cases h2
      | false =>
        rw [hb] at h2
        simp only [cond_false] at h2
        simp only [Bool.or_eq_false_iff, Bool.not_eq_false'] at hb
        by_cases h16 : 16000 < o.length
        · simp only [h16, decide_true, cond_true] at h2; cases h2
        · simp only [h16, decide_false, cond_false] at h2
          have hlen := chunks_length ((o.length - o.length % 255) / 255) o (by omega) (by omega)
          have hbq : (o.length == 255 * ((o.length - o.length % 255) / 255)) = (o.length % 255 == 0) := by
            apply Bool.eq_iff_iff.mpr; simp; omega
          rw [hbq] at hlen
          rw [hlen] at h2
          by_cases hsz : 16000 < o.length + (o.length - o.length % 255) / 255 + (bif o.length % 255 == 0 then 0 else 1) + text.length
          · simp only [hsz, decide_true, cond_true] at h2; cases h2
          simp only [hsz, decide_false, cond_false] at h2
          simp only [beq_self_eq_true, assert, if_true, Outcome.map_ok, Outcome.ok.injEq, Option.some.injEq] at h2
          subst h2
          refine ⟨o, _, hu, rfl, ?_, .inr ⟨hl, by omega, hb.1, hb.2, split_mod hl⟩⟩
          rw [List.length_append, hlen]
          omega
    · simp only [hl, decide_false, cond_false] at h2
      by_cases h16 : 16000 < o.length + 1 + text.length
      · simp only [h16, decide_true, cond_true] at h2; cases h2
      · simp only [h16, decide_false, cond_false, Outcome.ok.injEq, Option.some.injEq] at h2
        subst h2
        exact ⟨o, _, hu, rfl, by simp; omega, .inl ⟨by omega, rfl⟩⟩
  · rintro ⟨o, s, hu, rfl, h16, hs⟩
    refine ⟨o, (unesc_iff' _ _).mpr hu, ?_⟩
    rcases hs with ⟨hl, rfl⟩ | ⟨hl, hm, hb, hn, hsp⟩
    · have h1 : ¬ 255 < o.length := by omega
      have h2 : ¬ 16000 < o.length + 1 + text.length := by simp at h16; omega
      simp only [h1, h2, decide_false, cond_false]
    · have h2 : ¬ 16000 < o.length := by omega
      simp only [hl, h2, decide_true, cond_true, hb, hn, Bool.not_true, Bool.or_false, decide_false, cond_false]
      have hlen := chunks_length ((o.length - o.length % 255) / 255) o (by omega) (by omega)
      have hbq : (o.length == 255 * ((o.length - o.length % 255) / 255)) = (o.length % 255 == 0) := by
        apply Bool.eq_iff_iff.mpr; simp; omega
      rw [hbq] at hlen
      have hse := split_unique hsp (split_mod hl)
      subst hse
      rw [List.length_append, hlen] at h16
      have h3 : ¬ 16000 < o.length + (o.length - o.length % 255) / 255 + (bif o.length % 255 == 0 then 0 else 1) + text.length := by omega
      simp only [h3, decide_false, cond_false]
      rw [hlen]
      simp [assert]

end Gdnsd.Zscan
