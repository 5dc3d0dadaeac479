import Verif.Dname.Model
import Verif.Dname.Spec
/- Proof helpers for domain names. -/
namespace Gdnsd

theorem rd_append_right (a b : Bytes) (i : Nat) : rd (a ++ b) (a.length + i) = rd b i := by
  unfold rd; rw [List.getElem?_append_right (by omega)]; simp

theorem rd_cons_succ (x : UInt8) (b : Bytes) (i : Nat) : rd (x :: b) (i + 1) = rd b i := by
  simp [rd]

@[simp] theorem rd_cons_zero (x : UInt8) (b : Bytes) : rd (x :: b) 0 = .ok x := by simp [rd]

theorem rd_at (a : Bytes) (x : UInt8) (b : Bytes) (i : Nat) (h : i = a.length) :
    rd (a ++ x :: b) i = .ok x := by
  subst h; have := rd_append_right a (x :: b) 0; simp_all

theorem toNat_ofNat_lt {n : Nat} (h : n < 256) : (UInt8.ofNat n).toNat = n := by
  simp [UInt8.toNat_ofNat']; omega

namespace Dname
open DnameSpec

theorem wireLabels_length (ls : List Bytes) : (wireLabels ls).length + 1 = wireLen ls := by
  unfold wireLen
  induction ls with
  | nil => rfl
  | cons l ls ih => simp [wireLabels] at *; omega

theorem wireLen_pos (ls : List Bytes) : 1 ≤ wireLen ls := by unfold wireLen; omega

theorem wireLen_cons (l : Bytes) (ls : List Bytes) : wireLen (l :: ls) = l.length + 1 + wireLen ls := by
  unfold wireLen; simp; omega

theorem wireLen_append (a b : List Bytes) : wireLen (a ++ b) + 1 = wireLen a + wireLen b := by
  unfold wireLen; simp; omega

theorem wireLabels_append (a b : List Bytes) : wireLabels (a ++ b) = wireLabels a ++ wireLabels b := by
  induction a with
  | nil => rfl
  | cons x xs ih => simp [wireLabels, ih]

theorem length_le_wireLabels (ls : List Bytes) : ls.length ≤ (wireLabels ls).length := by
  induction ls with
  | nil => simp
  | cons l ls ih => simp [wireLabels]; omega

theorem encode_length (ls : List Bytes) (q : Bool) : (encode ls q).length = wireLen ls + 1 := by
  have := wireLabels_length ls
  simp [encode]; omega

theorem WF_tail {l : Bytes} {ls : List Bytes} (h : WF (l :: ls)) : WF ls := by
  refine ⟨fun x hx => h.1 x (by simp [hx]), ?_⟩
  have := h.2; rw [wireLen_cons] at this; omega

theorem WF_suffix {a b : List Bytes} (h : WF b) (s : a <:+ b) : WF a := by
  obtain ⟨p, rfl⟩ := s
  induction p with
  | nil => simpa using h
  | cons x xs ih => exact ih (WF_tail h)

theorem WF_prefix {a b : List Bytes} (h : WF (a ++ b)) : WF a := by
  refine ⟨fun x hx => h.1 x (by simp [hx]), ?_⟩
  have := h.2; have := wireLen_append a b; have := wireLen_pos b; omega

/-- The status walk over well-formed labels. -/
theorem statusWalk_wire (ls : List Bytes) (hl : ∀ l ∈ ls, 1 ≤ l.length ∧ l.length ≤ 63)
    (pre junk : Bytes) (t : UInt8) (ht : t = 0 ∨ t = 255) (oal off fuel : Nat)
    (hpre : pre.length = off + 1) (hoal : oal = off + (wireLabels ls).length + 1)
    (hf : ls.length < fuel) :
    statusWalk (pre ++ wireLabels ls ++ t :: junk) oal off fuel = .ok (some (t.toNat, oal)) := by
  induction ls generalizing pre off fuel with
  | nil =>
    cases fuel with
    | zero => simp at hf
    | succ fuel =>
      simp only [wireLabels, List.append_nil, statusWalk, List.length_nil] at *
      rw [rd_at pre t junk _ hpre.symm]
      have : t.toNat = 0 ∨ t.toNat = 255 := by rcases ht with rfl | rfl <;> simp
      simp [this]; omega
  | cons l ls ih =>
    cases fuel with
    | zero => simp at hf
    | succ fuel =>
      have hl1 := hl l (by simp)
      have hn : (UInt8.ofNat l.length).toNat = l.length := toNat_ofNat_lt (by omega)
      simp only [wireLabels, statusWalk, List.length_cons, List.length_append] at *
      have e : pre ++ (UInt8.ofNat l.length :: l ++ wireLabels ls) ++ t :: junk
          = pre ++ UInt8.ofNat l.length :: (l ++ wireLabels ls ++ t :: junk) := by simp
      rw [e, rd_at pre _ _ _ hpre.symm]
      simp only [Outcome.bind_ok, hn]
      rw [if_neg (by omega), if_neg (by omega)]
      have := ih (fun x hx => hl x (by simp [hx])) (pre ++ UInt8.ofNat l.length :: l) (off + 1 + l.length) fuel
        (by simp; omega) (by omega) (by omega)
      rw [← this]; congr 1; simp

/-- `dname_status` of a stored well-formed name, whatever follows it in memory. -/
theorem status_encode (ls : List Bytes) (q : Bool) (junk : Bytes) (h : WF ls) :
    status (encode ls q ++ junk) = .ok (if q then .valid else .partialName) := by
  have hn : (UInt8.ofNat (wireLen ls)).toNat = wireLen ls := toNat_ofNat_lt (by have := h.2; omega)
  have hpos := wireLen_pos ls
  have hlen := wireLabels_length ls
  have hle := length_le_wireLabels ls
  unfold status encode
  simp only [List.cons_append, rd_cons_zero, Outcome.bind_ok, hn, List.append_assoc]
  rw [if_neg (by omega)]
  have := statusWalk_wire ls h.1 [UInt8.ofNat (wireLen ls)] junk (if q then 0 else 255)
    (by cases q <;> simp) (wireLen ls) 0 (wireLen ls + 1) rfl (by omega) (by omega)
  simp only [List.cons_append, List.nil_append] at this ⊢
  rw [this]
  cases q <;> simp [assert]

theorem status_encode' (ls : List Bytes) (q : Bool) (h : WF ls) :
    status (encode ls q) = .ok (if q then .valid else .partialName) := by
  simpa using status_encode ls q [] h

theorem rd_encode_zero (ls : List Bytes) (q : Bool) (junk : Bytes) :
    rd (encode ls q ++ junk) 0 = .ok (UInt8.ofNat (wireLen ls)) := by simp [encode]

theorem wireLen_toNat {ls : List Bytes} (h : WF ls) :
    (UInt8.ofNat (wireLen ls)).toNat = wireLen ls := toNat_ofNat_lt (by have := h.2; omega)

/-! ### Uniqueness of the wire form -/

theorem wireLabels_inj {a b : List Bytes} {s t : UInt8} {x y : Bytes}
    (ha : ∀ l ∈ a, 1 ≤ l.length ∧ l.length ≤ 63) (hb : ∀ l ∈ b, 1 ≤ l.length ∧ l.length ≤ 63)
    (hs : s = 0 ∨ s = 255) (ht : t = 0 ∨ t = 255)
    (h : wireLabels a ++ s :: x = wireLabels b ++ t :: y) : a = b ∧ s = t ∧ x = y := by
  induction a generalizing b with
  | nil =>
    cases b with
    | nil => simpa [wireLabels] using h
    | cons l ls =>
      exfalso
      simp only [wireLabels, List.nil_append, List.cons_append, List.cons.injEq] at h
      have h1 := hb l (by simp)
      have : (UInt8.ofNat l.length).toNat = l.length := toNat_ofNat_lt (by omega)
      rcases hs with rfl | rfl
      · rw [← h.1] at this; simp at this; omega
      · rw [← h.1] at this; simp at this; omega
  | cons k ks ih =>
    cases b with
    | nil =>
      exfalso
      simp only [wireLabels, List.nil_append, List.cons_append, List.cons.injEq] at h
      have h1 := ha k (by simp)
      have : (UInt8.ofNat k.length).toNat = k.length := toNat_ofNat_lt (by omega)
      rcases ht with rfl | rfl
      · rw [h.1] at this; simp at this; omega
      · rw [h.1] at this; simp at this; omega
    | cons l ls =>
      simp only [wireLabels, List.cons_append, List.cons.injEq, List.append_assoc] at h
      have h1 := ha k (by simp)
      have h2 := hb l (by simp)
      have e1 : (UInt8.ofNat k.length).toNat = k.length := toNat_ofNat_lt (by omega)
      have e2 : (UInt8.ofNat l.length).toNat = l.length := toNat_ofNat_lt (by omega)
      have : k.length = l.length := by rw [← e1, ← e2, h.1]
      obtain ⟨hkl, hrest⟩ := List.append_inj h.2 this
      obtain ⟨i1, i2, i3⟩ := ih (fun x hx => ha x (by simp [hx])) (fun x hx => hb x (by simp [hx])) hrest
      exact ⟨by rw [hkl, i1], i2, i3⟩

theorem encode_inj {a b : List Bytes} {p q : Bool} (ha : WF a) (hb : WF b)
    (h : encode a p = encode b q) : a = b ∧ p = q := by
  simp only [encode, List.cons_append, List.cons.injEq] at h
  obtain ⟨h1, h2, -⟩ := wireLabels_inj ha.1 hb.1 (by cases p <;> simp) (by cases q <;> simp) h.2
  refine ⟨h1, ?_⟩
  cases p <;> cases q <;> simp at h2 ⊢

end Dname
end Gdnsd
