import Verif.Dname.Zone
/- Proof helpers: printing names. -/
namespace Gdnsd.Dname
open DnameSpec

theorem printLabel_eq (l pre rest : Bytes) :
    printLabel (pre ++ l ++ rest) pre.length l.length = .ok (l.flatMap printByte) := by
  induction l generalizing pre with
  | nil => simp [printLabel]
  | cons x xs ih =>
    have := ih (pre ++ [x])
    simp only [List.append_assoc, List.cons_append, List.nil_append, List.length_append, List.length_cons,
      List.length_nil, Nat.zero_add] at this
    simp only [List.length_cons, printLabel, List.append_assoc, List.cons_append]
    rw [rd_at _ _ _ _ rfl]
    simp [this]

/-- Printed form of a label list, every label followed by a dot. -/
def dotted (ls : List Bytes) : Bytes := ls.flatMap (fun l => l.flatMap printByte ++ [46])

theorem printGo_eq (ls : List Bytes) (hl : ∀ l ∈ ls, 1 ≤ l.length ∧ l.length ≤ 63)
    (pre junk : Bytes) (t : UInt8) (ht : t = 0 ∨ t = 255) (fuel : Nat) (hf : ls.length < fuel) :
    printGo (pre ++ wireLabels ls ++ t :: junk) pre.length fuel = .ok (t.toNat, dotted ls) := by
  induction ls generalizing pre fuel with
  | nil =>
    cases fuel with
    | zero => simp at hf
    | succ fuel =>
      simp only [wireLabels, List.append_nil, printGo]
      rw [rd_at _ _ _ _ rfl]
      rcases ht with rfl | rfl <;> simp [dotted]
  | cons l ls ih =>
    cases fuel with
    | zero => simp at hf
    | succ fuel =>
      have hl1 := hl l (by simp)
      have hn : (UInt8.ofNat l.length).toNat = l.length := toNat_ofNat_lt (by omega)
      have e : pre ++ wireLabels (l :: ls) ++ t :: junk
          = pre ++ UInt8.ofNat l.length :: (l ++ wireLabels ls ++ t :: junk) := by simp [wireLabels]
      simp only [printGo]
      rw [e, rd_at pre _ _ _ rfl]
      simp only [Outcome.bind_ok, hn]
      rw [if_neg (by omega)]
      have h1 := printLabel_eq l (pre ++ [UInt8.ofNat l.length]) (wireLabels ls ++ t :: junk)
      have h2 := ih (fun x hx => hl x (by simp [hx])) (pre ++ UInt8.ofNat l.length :: l) fuel (by simp at hf; omega)
      simp only [List.append_assoc, List.cons_append, List.nil_append, List.length_append, List.length_cons,
        List.length_nil, Nat.zero_add] at h1 h2 ⊢
      rw [h1]
      simp only [Outcome.bind_ok]
      rw [show pre.length + 1 + l.length = pre.length + (l.length + 1) by omega, h2]
      simp [dotted]

theorem toString_eq (ls : List Bytes) (q : Bool) (h : WF ls) :
    toString (encode ls q) = .ok (if q then dotted ls else (dotted ls).dropLast) := by
  have hle := length_le_wireLabels ls
  have hlen := encode_length ls q
  have hw := wireLabels_length ls
  unfold toString
  rw [status_encode' _ _ h]
  have := printGo_eq ls h.1 [UInt8.ofNat (wireLen ls)] [] (if q then 0 else 255) (by cases q <;> simp)
    ((encode ls q).length + 1) (by omega)
  have e : encode ls q = [UInt8.ofNat (wireLen ls)] ++ wireLabels ls ++ [if q then 0 else 255] := by
    simp [encode]
  rw [← e] at this
  simp only [List.length_singleton] at this
  cases q
  · simp only [Outcome.bind_ok]
    rw [this]
    simp [show (Status.partialName != Status.invalid) = true from rfl]
    intro h0; simp [h0]
  · simp only [Outcome.bind_ok]
    rw [this]; simp [show (Status.valid != Status.invalid) = true from rfl]

/-- Bytes that print unambiguously. -/
def PlainByte (x : UInt8) : Prop := x ≠ 46 ∧ x ≠ 92

theorem printByte_label (x : UInt8) (h : PlainByte x) {s o : Bytes} (hs : LabelText s o) :
    LabelText (printByte x ++ s) (x :: o) := by
  unfold printByte
  split
  · exact .lit h.2 h.1 hs
  · have key : ∀ n, n < 256 → digit (UInt8.ofNat (48 + n / 100)) ∧ digit (UInt8.ofNat (48 + (n / 10) % 10)) ∧
        digit (UInt8.ofNat (48 + n % 10)) ∧
        n = ((UInt8.ofNat (48 + n / 100)).toNat - 48) * 100 +
          ((UInt8.ofNat (48 + (n / 10) % 10)).toNat - 48) * 10 + ((UInt8.ofNat (48 + n % 10)).toNat - 48) := by
      unfold digit; decide +kernel
    have hx := x.toNat_lt
    obtain ⟨h1, h2, h3, h4⟩ := key x.toNat hx
    have := LabelText.num h1 h2 h3 h4 (by omega) hs
    simpa [escByte] using this

theorem label_text (l : Bytes) (h : ∀ x ∈ l, PlainByte x) : LabelText (l.flatMap printByte) l := by
  induction l with
  | nil => exact .nil
  | cons x xs ih =>
    simpa using printByte_label x (h x (by simp)) (ih (fun y hy => h y (by simp [hy])))

theorem printByte_ne (x : UInt8) : printByte x ≠ [] := by
  unfold printByte; split <;> simp [escByte]

theorem flat_ne {l : Bytes} (h : 1 ≤ l.length) : l.flatMap printByte ≠ [] := by
  cases l with
  | nil => simp at h
  | cons x xs => simp [printByte_ne]

theorem dotted_text (ls : List Bytes) (hne : ls ≠ []) (h1 : ∀ l ∈ ls, 1 ≤ l.length)
    (h : ∀ l ∈ ls, ∀ x ∈ l, PlainByte x) : NameText (dotted ls) ls true := by
  induction ls with
  | nil => simp at hne
  | cons l ls ih =>
    have ht := label_text l (h l (by simp))
    have hn := flat_ne (h1 l (by simp))
    by_cases he : ls = []
    · subst he; simpa [dotted] using NameText.lastDot hn ht
    · have := NameText.cons hn ht he (ih he (fun x hx => h1 x (by simp [hx])) (fun x hx => h x (by simp [hx])))
      simpa [dotted] using this

theorem dotted_dropLast_text (ls : List Bytes) (hne : ls ≠ []) (h1 : ∀ l ∈ ls, 1 ≤ l.length)
    (h : ∀ l ∈ ls, ∀ x ∈ l, PlainByte x) : NameText (dotted ls).dropLast ls false := by
  induction ls with
  | nil => simp at hne
  | cons l ls ih =>
    have ht := label_text l (h l (by simp))
    have hn := flat_ne (h1 l (by simp))
    by_cases he : ls = []
    · subst he; simpa [dotted, List.dropLast_append] using NameText.last hn ht
    · have := NameText.cons hn ht he (ih he (fun x hx => h1 x (by simp [hx])) (fun x hx => h x (by simp [hx])))
      have hd : dotted ls ≠ [] := by
        cases ls with
        | nil => simp at he
        | cons a b => simp [dotted]
      have e : dotted (l :: ls) = (l.flatMap printByte ++ [46]) ++ dotted ls := by simp [dotted]
      rw [e, List.dropLast_append_of_ne_nil hd]
      simpa using this

theorem printByte_len (x : UInt8) : (printByte x).length ≤ 4 := by
  unfold printByte; split <;> simp [escByte]

theorem dotted_len (ls : List Bytes) (h : WF ls) : (dotted ls).length ≤ 1004 := by
  have h1 : (dotted ls).length ≤ 4 * ((wireLabels ls).length - ls.length) + ls.length := by
    have key : ∀ l : Bytes, (l.flatMap printByte).length ≤ 4 * l.length := by
      intro l
      induction l with
      | nil => simp
      | cons x xs ih => have := printByte_len x; simp at *; omega
    clear h
    induction ls with
    | nil => simp [dotted]
    | cons l ls ih =>
      have := key l
      have := length_le_wireLabels ls
      have e : dotted (l :: ls) = (l.flatMap printByte ++ [46]) ++ dotted ls := by simp [dotted]
      rw [e]
      simp [wireLabels] at *; omega
  have h2 := labels_le_63 ls h.1
  have h3 := wireLabels_length ls
  have h4 := h.2
  have := length_le_wireLabels ls
  by_cases hk : ls.length ≤ 3 <;> omega

end Gdnsd.Dname
