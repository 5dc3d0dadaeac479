/-
Names in messages, replacing text, and reading files.
-/
import Verif.Util.Spec
namespace Gdnsd.Util
open UtilSpec

/-! ### Names -/

theorem shown_all : ∀ i : Fin 128, shown (UInt8.ofNat i.val) = visible (UInt8.ofNat i.val) := by decide +kernel

theorem shown_visible (b : UInt8) (h : b.toNat < 128) : shown b = visible b := by
  have := shown_all ⟨b.toNat, h⟩
  simpa using this

theorem shown_length (b : UInt8) : (shown b).length ≤ 4 := by
  unfold shown
  split <;> simp

theorem shown_labels (l : Bytes) (h : ∀ b ∈ l, b.toNat < 128) : l.flatMap shown = l.flatMap visible := by
  induction l with
  | nil => rfl
  | cons b l ih => rw [List.flatMap_cons, List.flatMap_cons, shown_visible b (h b (by simp)), ih fun x hx => h x (by simp [hx])]

theorem flat_length (l : Bytes) : (l.flatMap shown).length ≤ 4 * l.length := by
  induction l with
  | nil => simp
  | cons b l ih =>
    have := shown_length b
    simp only [List.flatMap_cons, List.length_append, List.length_cons]
    omega

theorem putLabels_ok (cap : Nat) : ∀ (ls : List Bytes) (out : Bytes), out.length + 4 * wire ls < cap →
    putLabels cap ls out = .ok (out ++ ls.flatMap fun l => l.flatMap shown ++ [0x2E])
  | [], out, h => by
    unfold putLabels put
    rw [if_pos (by simp [wire] at h ⊢; omega), Outcome.map_ok]
    simp
  | l :: ls, out, h => by
    have hf := flat_length l
    have hw : wire (l :: ls) = l.length + 1 + wire ls := by simp [wire]
    rw [hw] at h
    unfold putLabels put
    rw [if_pos (by simp only [List.length_append, List.length_singleton]; omega), Outcome.bind_ok,
      putLabels_ok cap ls _ (by simp only [List.length_append, List.length_singleton]; omega)]
    simp

theorem wire_reverse (ls : List Bytes) : wire ls.reverse = wire ls := by
  unfold wire
  rw [List.map_reverse]
  exact List.sum_reverse _

theorem all_length : ∀ ls : List Bytes, (ls.flatMap fun l => l.flatMap shown ++ [0x2E]).length ≤ 4 * wire ls
  | [] => by simp
  | l :: ls => by
    have := all_length ls
    have hf := flat_length l
    have hw : wire (l :: ls) = l.length + 1 + wire ls := by simp [wire]
    rw [hw, List.flatMap_cons]
    simp only [List.length_append, List.length_singleton] at *
    omega

theorem flat_text : ∀ ls : List Bytes, (∀ l ∈ ls, ∀ b ∈ l, b.toNat < 128) → (ls.flatMap fun l => l.flatMap shown ++ [0x2E]) = text ls
  | [], _ => rfl
  | l :: ls, h => by
    have := flat_text ls fun x hx => h x (by simp [hx])
    unfold text at *
    rw [List.flatMap_cons, List.flatMap_cons, this, shown_labels l (h l (by simp))]

theorem shown_high_all : ∀ i : Fin 128, shown (UInt8.ofNat (i.val + 128)) ≠ visible (UInt8.ofNat (i.val + 128)) := by decide +kernel

theorem shown_high (b : UInt8) (h : 128 ≤ b.toNat) : shown b ≠ visible b := by
  have := shown_high_all ⟨b.toNat - 128, by have := b.toNat_lt; omega⟩
  rw [show (⟨b.toNat - 128, by have := b.toNat_lt; omega⟩ : Fin 128).val + 128 = b.toNat by simp only; omega] at this
  simpa using this

theorem allocs : ∀ (l : List Nat) (used : Nat), used ≤ 4096 → match fmtAllocs used l with
    | none => 0 ∈ l ∨ 4096 < used + l.sum
    | some os => os.length = l.length ∧ Apart 4096 used (os.zip l)
  | [], used, _ => by simp [fmtAllocs, Apart]
  | s :: l, used, hu => by
    unfold fmtAllocs fmtAlloc fmtSize
    by_cases h0 : s = 0
    · rw [if_pos h0]; simp [h0]
    · rw [if_neg h0]
      by_cases hs : 4096 - used ≥ s
      · rw [if_pos hs]
        have ih := allocs l (used + s) (by omega)
        dsimp only
        cases e : fmtAllocs (used + s) l with
        | none =>
          rw [e] at ih
          simp only [Option.map_none, List.sum_cons, List.mem_cons]
          rcases ih with h | h
          · exact .inl (.inr h)
          · exact .inr (by omega)
        | some os =>
          rw [e] at ih
          simp only [Option.map_some, List.length_cons, List.zip_cons_cons]
          exact ⟨by omega, Nat.le_refl _, by omega, ih.2⟩
      · rw [if_neg hs]
        simp only [List.sum_cons]
        exact .inr (by omega)

/-! ### Finding text -/

theorem at_zero {n h : Bytes} : At n h 0 ↔ n <+: h := by
  constructor
  · rintro ⟨pre, post, rfl, hl⟩
    rw [List.eq_nil_of_length_eq_zero hl]
    simp
  · rintro ⟨t, rfl⟩
    exact ⟨[], t, rfl, rfl⟩

theorem at_succ {n h : Bytes} {c : UInt8} {i : Nat} : At n (c :: h) (i + 1) ↔ At n h i := by
  constructor
  · rintro ⟨pre, post, e, hl⟩
    cases pre with
    | nil => simp at hl
    | cons x pre =>
      simp only [List.cons_append, List.cons.injEq] at e
      exact ⟨pre, post, by rw [e.2], by simpa using hl⟩
  · rintro ⟨pre, post, rfl, hl⟩
    exact ⟨c :: pre, post, rfl, by simp [hl]⟩

theorem strstr_spec {n : Bytes} (hn : n ≠ []) : ∀ h : Bytes, match strstr n h with
    | none => ∀ i, ¬ At n h i
    | some i => At n h i ∧ ∀ j < i, ¬ At n h j
  | [] => by
    unfold strstr
    rw [if_neg (by simpa using hn)]
    rintro i ⟨pre, post, e, _⟩
    have := congrArg List.length e
    simp only [List.length_append, List.length_nil] at this
    exact hn (List.eq_nil_of_length_eq_zero (by omega))
  | c :: h => by
    have ih := strstr_spec hn h
    unfold strstr
    split
    · rename_i i hi
      split at hi
      · cases hi
      · rename_i hp
        cases hs : strstr n h with
        | some j => rw [hs] at hi; cases hi
        | none =>
          rw [hs] at ih
          intro i
          cases i with
          | zero =>
            rw [at_zero]
            intro hpre
            exact hp (List.isPrefixOf_iff_prefix.mpr hpre)
          | succ i => rw [at_succ]; exact ih i
    · rename_i i hi
      split at hi
      · rename_i hp
        cases hi
        exact ⟨at_zero.mpr (List.isPrefixOf_iff_prefix.mp hp), fun j hj => absurd hj (Nat.not_lt_zero _)⟩
      · rename_i hp
        cases hs : strstr n h with
        | none => rw [hs] at hi; cases hi
        | some j =>
          rw [hs] at hi ih
          rw [Option.map_some, Option.some.injEq] at hi
          subst hi
          refine ⟨at_succ.mpr ih.1, ?_⟩
          intro k hk
          cases k with
          | zero =>
            rw [at_zero]
            intro hpre
            exact hp (List.isPrefixOf_iff_prefix.mpr hpre)
          | succ k => rw [at_succ]; exact ih.2 k (by omega)

/-- Both loops do the same: there are `c` places, and copying gives the text with all of them replaced if it fits. -/
theorem loops {n : Bytes} (r : Bytes) (hn : n ≠ []) : ∀ (k : Nat) (h : Bytes), h.length < k → ∃ c out, needles n k h = .ok c ∧ Replaced n r h out ∧
    out.length + c * n.length = h.length + c * r.length ∧ c * n.length ≤ h.length ∧ (c = 0 → out = h) ∧
    ∀ cap pre, copy cap n r k h pre = if pre.length + out.length ≤ cap then .ok (pre ++ out) else .ub
  | 0, h, hk => absurd hk (Nat.not_lt_zero _)
  | k + 1, h, hk => by
    have hs := strstr_spec hn h
    cases e : strstr n h with
    | none =>
      rw [e] at hs
      refine ⟨0, h, by simp [needles, e], .done _ hs, by simp, by simp, fun _ => rfl, ?_⟩
      intro cap pre
      simp only [copy, e, put]
    | some i =>
      rw [e] at hs
      obtain ⟨⟨a, post, rfl, rfl⟩, hno⟩ := hs
      have hnl : 0 < n.length := by
        cases n with
        | nil => exact absurd rfl hn
        | cons => simp
      have hd : (a ++ n ++ post).drop (a.length + n.length) = post := by
        rw [← List.length_append, List.drop_left]
      have ht : (a ++ n ++ post).take a.length = a := by
        rw [List.append_assoc, List.take_left]
      have hlen : (a ++ n ++ post).length = a.length + n.length + post.length := by simp only [List.length_append]
      obtain ⟨c, out, h1, h2, h3, h4, _, h5⟩ := loops r hn k post (by omega)
      refine ⟨c + 1, a ++ r ++ out, ?_, .next a post out hno h2, ?_, ?_, by omega, ?_⟩
      · simp only [needles, e, hd, h1, Outcome.map_ok]
      · rw [hlen]
        simp only [List.length_append, Nat.add_mul, Nat.one_mul]
        omega
      · rw [hlen, Nat.add_mul, Nat.one_mul]
        omega
      · intro cap pre
        simp only [copy, e, hd, ht, put]
        by_cases hc : pre.length + (a ++ r ++ out).length ≤ cap
        · simp only [List.length_append] at hc
          rw [if_pos (by omega), Outcome.bind_ok, if_pos (by simp only [List.length_append]; omega), Outcome.bind_ok, h5, if_pos (by simp only [List.length_append]; omega),
            if_pos (by simp only [List.length_append]; omega)]
          simp
        · rw [if_neg hc]
          simp only [List.length_append] at hc
          split
          · rw [Outcome.bind_ok]
            split
            · rw [Outcome.bind_ok, h5, if_neg (by simp only [List.length_append]; omega)]
            · rfl
          · rfl

/-! ### Reading files -/

theorem slurp_done {len : Nat} {b : Bytes} : ∀ {l : List Read} {buf : Bytes}, slurp len buf l = .ok (.done b) → b.length = len ∧ ∃ k, b = buf ++ (l.take k).flatMap got
  | [], buf, h => by cases h
  | .got x :: l, buf, h => by
    unfold slurp at h
    split at h
    · cases h
    · rename_i h1
      split at h
      · obtain ⟨h2, k, h3⟩ := slurp_done h
        exact ⟨h2, k + 1, by rw [h3]; simp [got]⟩
      · rename_i h2
        cases h
        exact ⟨by simp only [List.length_append]; omega, 1, by simp [got]⟩
  | .err :: l, buf, h => by cases h
  | .intr :: l, buf, h => by
    unfold slurp at h
    obtain ⟨h2, k, h3⟩ := slurp_done h
    exact ⟨h2, k + 1, by rw [h3]; simp [got]⟩

theorem slurp_all {file : Bytes} : ∀ {l : List Read} {buf : Bytes}, buf ++ l.flatMap got = file → .err ∉ l → buf.length < file.length →
    slurp file.length buf l = .ok (.done file)
  | [], buf, h, _, hl => by
    rw [List.flatMap_nil, List.append_nil] at h
    subst h
    exact absurd hl (Nat.lt_irrefl _)
  | .got x :: l, buf, h, he, hl => by
    rw [List.flatMap_cons, ← List.append_assoc] at h
    have hlen := congrArg List.length h
    simp only [List.length_append, got] at hlen h
    unfold slurp
    rw [if_neg (by omega)]
    split
    · exact slurp_all h (fun hm => he (by simp [hm])) (by simp only [List.length_append]; assumption)
    · have : (l.flatMap got).length = 0 := by omega
      rw [List.eq_nil_of_length_eq_zero this, List.append_nil] at h
      rw [h]
  | .err :: l, buf, _, he, _ => absurd (by simp) he
  | .intr :: l, buf, h, he, hl => by
    unfold slurp
    exact slurp_all (by simpa [got] using h) (fun hm => he (by simp [hm])) hl

end Gdnsd.Util
