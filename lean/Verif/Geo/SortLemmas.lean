/-
Insertion sort meets the requirements on `qsort`.
-/
import Verif.Geo.NlistLemmas
namespace Gdnsd.Geo

theorem insert_perm (n : Net) (l : List Net) : (insert n l).Perm (n :: l) := by
  induction l with
  | nil => exact List.Perm.refl _
  | cons m l ih =>
    rw [insert]
    cases netLt m n
    · exact List.Perm.refl _
    · exact (List.Perm.cons m ih).trans (List.Perm.swap n m l)

theorem isort_perm (l : List Net) : (isort l).Perm l := by
  induction l with
  | nil => exact List.Perm.refl _
  | cons n l ih => exact (insert_perm n (isort l)).trans (List.Perm.cons n ih)

/-- The order is the one on (address bits, mask). -/
theorem netLt_key {a b : Net} (ha : a.ip.length = 16) (hb : b.ip.length = 16) :
    netLt a b = (lexLt (bits a.ip) (bits b.ip) || (decide (bits a.ip = bits b.ip) && decide (a.mask < b.mask))) := by
  rw [netLt, bits_lt_eq (by rw [ha, hb])]
  have : (a.ip == b.ip) = decide (bits a.ip = bits b.ip) := by
    rw [Bool.eq_iff_iff, beq_iff_eq, decide_eq_true_iff]
    exact ⟨fun h => by rw [h], fun h => bits_inj h⟩
  rw [this]

theorem netLe_trans {a b c : Net} (ha : a.ip.length = 16) (hb : b.ip.length = 16) (hc : c.ip.length = 16)
    (h1 : netLt b a = false) (h2 : netLt c b = false) : netLt c a = false := by
  rw [netLt_key hb ha] at h1
  rw [netLt_key hc hb] at h2
  rw [netLt_key hc ha]
  simp only [Bool.or_eq_false_iff, Bool.and_eq_false_iff, decide_eq_false_iff_not] at *
  obtain ⟨l1, e1⟩ := h1
  obtain ⟨l2, e2⟩ := h2
  refine ⟨lexLe_trans l1 l2, ?_⟩
  by_cases h : bits c.ip = bits a.ip
  · right
    have hab : bits a.ip = bits b.ip := lexLe_antisymm l1 (by rw [h] at l2; exact l2)
    have := e1.resolve_left (fun hn => hn hab.symm)
    have := e2.resolve_left (fun hn => hn (by rw [h, hab]))
    omega
  · exact Or.inl h

theorem netLt_asymm {a b : Net} (ha : a.ip.length = 16) (hb : b.ip.length = 16) (h : netLt a b = true) : netLt b a = false := by
  rw [netLt_key ha hb] at h
  rw [netLt_key hb ha]
  simp only [Bool.or_eq_false_iff, Bool.and_eq_false_iff, decide_eq_false_iff_not, Bool.or_eq_true, Bool.and_eq_true, decide_eq_true_iff] at *
  rcases h with h | ⟨h1, h2⟩
  · refine ⟨lexLt_asymm h, Or.inl fun he => ?_⟩
    rw [he, lexLt_irrefl] at h
    cases h
  · exact ⟨by rw [h1]; exact lexLt_irrefl _, Or.inr (by omega)⟩

theorem isort_ok : SortOk isort := by
  refine ⟨isort_perm, ?_⟩
  intro l
  induction l with
  | nil => intro _; exact List.Pairwise.nil
  | cons n l ih =>
    intro hl
    have hn := hl n List.mem_cons_self
    have hrest : ∀ m ∈ isort l, m.ip.length = 16 := fun m hm => hl m (List.mem_cons_of_mem _ ((isort_perm l).mem_iff.mp hm))
    have hs := ih fun m hm => hl m (List.mem_cons_of_mem _ hm)
    show (insert n (isort l)).Pairwise _
    generalize isort l = k at hs hrest
    induction k with
    | nil => exact List.pairwise_singleton _ _
    | cons m k ihk =>
      rw [List.pairwise_cons] at hs
      have hm := hrest m List.mem_cons_self
      rw [insert]
      cases hc : netLt m n with
      | true =>
        rw [cond_true, List.pairwise_cons]
        refine ⟨?_, ihk hs.2 fun x hx => hrest x (List.mem_cons_of_mem _ hx)⟩
        intro x hx
        rcases List.mem_cons.mp ((insert_perm n k).mem_iff.mp hx) with rfl | hx
        · exact netLt_asymm hm hn hc
        · exact hs.1 x hx
      | false =>
        rw [cond_false, List.pairwise_cons, List.pairwise_cons]
        refine ⟨?_, hs⟩
        intro x hx
        rcases List.mem_cons.mp hx with rfl | hx
        · exact hc
        · exact netLe_trans hn hm (hrest x (List.mem_cons_of_mem _ hx)) hc (hs.1 x hx)

end Gdnsd.Geo
