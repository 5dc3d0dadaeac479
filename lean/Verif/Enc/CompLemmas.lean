import Verif.Enc.Comp
import Verif.Enc.Spec
import Verif.Dname.Lemmas
/-
Helper lemmas for name compression.
-/
namespace Gdnsd.Enc
open DnameSpec EncSpec Dname

theorem getElem?_append_some {p q : Bytes} {i : Nat} {b : UInt8} (h : p[i]? = some b) :
    (p ++ q)[i]? = some b := by
  have hi := (List.getElem?_eq_some_iff.mp h).1
  rw [List.getElem?_append_left hi]; exact h

theorem prefix_drop_append {p q l : Bytes} {i : Nat} (h : l <+: p.drop i) : l <+: (p ++ q).drop i := by
  obtain ⟨t, ht⟩ := h
  by_cases hi : i ≤ p.length
  · rw [List.drop_append_of_le_length hi, ← ht, List.append_assoc]
    exact List.prefix_append _ _
  · have : p.drop i = [] := List.drop_eq_nil_of_le (by omega)
    rw [this] at ht
    have : l = [] := (List.append_eq_nil_iff.mp ht).1
    subst this; exact List.nil_prefix

/-- Reading a name does not depend on what is written later. -/
theorem NameAt_append {p : Bytes} (q : Bytes) {off : Nat} {ls : List Bytes} {e : Nat}
    (h : NameAt p off ls e) : NameAt (p ++ q) off ls e := by
  induction h with
  | root h => exact .root (getElem?_append_some h)
  | label h1 h2 h3 h4 _ ih => exact .label h1 h2 (getElem?_append_some h3) (prefix_drop_append h4) ih
  | ptr h1 h2 h3 h4 h5 h5' _ ih =>
    exact .ptr (getElem?_append_some h1) h2 (getElem?_append_some h3) h4 h5 h5' ih

theorem NameAt_end {p : Bytes} {off : Nat} {ls : List Bytes} {e : Nat} (h : NameAt p off ls e) :
    off < e ∧ e ≤ p.length := by
  induction h with
  | root h => have := (List.getElem?_eq_some_iff.mp h).1; omega
  | label h1 h2 h3 h4 _ ih => omega
  | ptr h1 h2 h3 h4 h5 h5' _ ih => have := (List.getElem?_eq_some_iff.mp h3).1; omega

/-- A message has at most one name at an offset. -/
theorem NameAt_unique {p : Bytes} {off : Nat} {ls : List Bytes} {e : Nat} (h : NameAt p off ls e) :
    ∀ {ls' e'}, NameAt p off ls' e' → ls = ls' ∧ e = e' := by
  induction h with
  | root h =>
    intro ls' e' h'
    cases h' with
    | root _ => exact ⟨rfl, rfl⟩
    | label g1 g2 g3 _ _ =>
      rw [h] at g3
      have := congrArg UInt8.toNat (Option.some.inj g3)
      rw [toNat_ofNat_lt (by omega)] at this
      have h0 : (0 : UInt8).toNat = 0 := rfl
      omega
    | ptr g1 g2 _ _ _ _ _ =>
      rw [h] at g1
      have := congrArg UInt8.toNat (Option.some.inj g1)
      have h0 : (0 : UInt8).toNat = 0 := rfl
      omega
  | label h1 h2 h3 h4 _ ih =>
    intro ls' e' h'
    cases h' with
    | root g =>
      rw [g] at h3
      have := congrArg UInt8.toNat (Option.some.inj h3)
      rw [toNat_ofNat_lt (by omega)] at this
      have h0 : (0 : UInt8).toNat = 0 := rfl
      omega
    | label g1 g2 g3 g4 g5 =>
      rename_i l _ _ _ l' _
      rw [h3] at g3
      have hl := congrArg UInt8.toNat (Option.some.inj g3)
      rw [toNat_ofNat_lt (by omega), toNat_ofNat_lt (by omega)] at hl
      have hll : l = l' := by
        rw [List.prefix_iff_eq_take] at h4 g4
        rw [h4, g4, hl]
      subst hll
      obtain ⟨e1, e2⟩ := ih g5
      exact ⟨by rw [e1], e2⟩
    | ptr g1 g2 _ _ _ _ _ =>
      rw [g1] at h3
      have := congrArg UInt8.toNat (Option.some.inj h3)
      rw [toNat_ofNat_lt (by omega)] at this
      omega
  | ptr h1 h2 h3 h4 h5 h5' _ ih =>
    intro ls' e' h'
    cases h' with
    | root g =>
      rw [g] at h1
      have := congrArg UInt8.toNat (Option.some.inj h1)
      have h0 : (0 : UInt8).toNat = 0 := rfl
      omega
    | label g1 g2 g3 _ _ =>
      rw [g3] at h1
      have := congrArg UInt8.toNat (Option.some.inj h1)
      rw [toNat_ofNat_lt (by omega)] at this
      omega
    | ptr g1 g2 g3 g4 g5 g5' g6 =>
      rw [h1] at g1; rw [h3] at g3
      have e1 := Option.some.inj g1
      have e2 := Option.some.inj g3
      subst e1; subst e2
      rw [← h4] at g4
      subst g4
      exact ⟨(ih g6).1, rfl⟩

/-- Plain labels in front of a readable name. -/
theorem NameAt_labels {a q : Bytes} : ∀ (pre : List Bytes) (off : Nat) (ls : List Bytes) (e : Nat),
    off = a.length → (∀ l ∈ pre, 1 ≤ l.length ∧ l.length ≤ 63) →
    NameAt (a ++ wireLabels pre ++ q) (a.length + (wireLabels pre).length) ls e →
    NameAt (a ++ wireLabels pre ++ q) off (pre ++ ls) e := by
  intro pre
  induction pre generalizing a with
  | nil => intro off ls e ho _ h; subst ho; simpa [wireLabels] using h
  | cons l pre ih =>
    intro off ls e ho hl h
    subst ho
    have hl1 := hl l (by simp)
    have hb : a ++ wireLabels (l :: pre) ++ q = (a ++ (UInt8.ofNat l.length :: l)) ++ wireLabels pre ++ q := by
      simp [wireLabels]
    refine .label hl1.1 hl1.2 ?_ ?_ ?_
    · simp [wireLabels]
    · rw [show a ++ wireLabels (l :: pre) ++ q = (a ++ [UInt8.ofNat l.length]) ++ (l ++ (wireLabels pre ++ q)) by
        simp [wireLabels], show a.length + 1 = (a ++ [UInt8.ofNat l.length]).length by simp, List.drop_left]
      exact List.prefix_append _ _
    · rw [hb] at h ⊢
      apply ih _ _ _ (by simp; omega) (fun l' hl' => hl l' (by simp [hl']))
      rw [show (a ++ (UInt8.ofNat l.length :: l)).length + (wireLabels pre).length =
        a.length + (wireLabels (l :: pre)).length by simp [wireLabels]; omega]
      exact h

/-- A plain, fully written name. -/
theorem NameAt_plain {a q : Bytes} (ls : List Bytes) (h : ∀ l ∈ ls, 1 ≤ l.length ∧ l.length ≤ 63) :
    NameAt (a ++ (wireLabels ls ++ [0]) ++ q) a.length ls (a.length + wireLen ls) := by
  have e : a ++ (wireLabels ls ++ [0]) ++ q = a ++ wireLabels ls ++ ([0] ++ q) := by simp
  rw [e]
  have := NameAt_labels (a := a) (q := [0] ++ q) ls a.length [] (a.length + wireLen ls) rfl h
  rw [List.append_nil] at this
  apply this
  have hw := wireLabels_length ls
  rw [show a.length + wireLen ls = (a.length + (wireLabels ls).length) + 1 by omega]
  apply NameAt.root
  simp

theorem put16_ptr (t : Nat) (h : t < 16384) : ∃ hi lo : UInt8, put16 (0xC000 ||| t) = [hi, lo] ∧
    192 ≤ hi.toNat ∧ t = (hi.toNat - 192) * 256 + lo.toNat := by
  have hor : (0xC000 ||| t) = 0xC000 + t := by
    have := Nat.two_pow_add_eq_or_of_lt (i := 14) (b := t) (by omega) 3
    simpa using this.symm
  refine ⟨_, _, rfl, ?_⟩
  rw [hor]
  have h1 : (49152 + t) / 256 % 256 = 192 + t / 256 := by omega
  have h2 : (49152 + t) % 256 = t % 256 := by omega
  rw [h1, h2, toNat_ofNat_lt (by omega), toNat_ofNat_lt (by omega)]
  omega

/-- A pointer to an earlier, readable offset reads as the name there. -/
theorem NameAt_ptr {a q : Bytes} {t : Nat} {ls : List Bytes} {e : Nat} (ht : 12 ≤ t ∧ t < 16384) (hlt : t < a.length)
    (h : NameAt (a ++ put16 (0xC000 ||| t) ++ q) t ls e) :
    NameAt (a ++ put16 (0xC000 ||| t) ++ q) a.length ls (a.length + 2) := by
  obtain ⟨hi, lo, hp, h1, h2⟩ := put16_ptr t ht.2
  rw [hp] at h ⊢
  refine .ptr (hi := hi) (lo := lo) ?_ h1 ?_ h2 hlt ht.1 h
  · simp
  · simp

end Gdnsd.Enc
