/-
The hash table.
-/
import Verif.Chal.ParseLemmas
namespace Gdnsd.Chal

/-- The challenge a pointer points to. -/
def deref (h : Heap) (r : Ref) : Option Chal := (h[r.1]?.join).bind fun s => s.chals[r.2]?

/-- The part of the challenges that is in a slot. -/
def inSlot (mask idx : Nat) (content : List Chal) : List Chal := content.filter fun c => c.hash &&& mask == idx

/-- A table has these challenges, and points into these sets. -/
def TblOk (h : Heap) (t : Tbl) (ids : List Nat) (content : List Chal) : Prop :=
  t.slots.length = t.mask + 1 ∧ ∀ (idx : Nat) (slot : List Ref), t.slots[idx]? = some slot →
    slot.map (deref h) = (inSlot t.mask idx content).map some ∧ ∀ r ∈ slot, r.1 ∈ ids

theorem TblOk.congr {h h' : Heap} {t ids content} (hh : ∀ id ∈ ids, h'[id]? = h[id]?) (ht : TblOk h t ids content) : TblOk h' t ids content := by
  refine ⟨ht.1, fun idx slot hs => ?_⟩
  obtain ⟨h1, h2⟩ := ht.2 idx slot hs
  refine ⟨?_, h2⟩
  rw [← h1]
  refine List.map_congr_left fun r hr => ?_
  unfold deref
  rw [hh r.1 (h2 r hr)]

theorem TblOk.empty (h : Heap) (mask : Nat) (ids : List Nat) : TblOk h ⟨mask, List.replicate (mask + 1) []⟩ ids [] := by
  refine ⟨by simp, fun idx slot hs => ?_⟩
  simp only at hs
  rw [List.getElem?_replicate] at hs
  split at hs
  · obtain rfl := Option.some.inj hs
    exact ⟨by simp [inSlot], by simp⟩
  · cases hs

theorem inSlot_append (mask idx : Nat) (a b : List Chal) : inSlot mask idx (a ++ b) = inSlot mask idx a ++ inSlot mask idx b := by
  simp [inSlot]

theorem hashOne_ok {h : Heap} {t : Tbl} {ids content} (ht : TblOk h t ids content) {c : Chal} {r : Ref} (hr : deref h r = some c) (hid : r.1 ∈ ids)
    (check : Bool) : (check = true ∧ COLLIDE_MAX < content.length ∧ hashOne t check c.hash r = .ok none) ∨
      ∃ t', hashOne t check c.hash r = .ok (some t') ∧ t'.mask = t.mask ∧ TblOk h t' ids (content ++ [c]) := by
  have hle : c.hash &&& t.mask ≤ t.mask := Nat.and_le_right
  have hlt : c.hash &&& t.mask < t.slots.length := by rw [ht.1]; omega
  unfold hashOne
  rw [List.getElem?_eq_getElem hlt]
  dsimp only
  obtain ⟨h1, h2⟩ := ht.2 _ _ (List.getElem?_eq_getElem hlt)
  have hlen : (t.slots[c.hash &&& t.mask]).length ≤ content.length := by
    have := congrArg List.length h1
    simp only [List.length_map] at this
    rw [this]
    exact List.length_filter_le _ _
  by_cases hc : check = true ∧ COLLIDE_MAX < (t.slots[c.hash &&& t.mask]).length
  · rw [if_pos hc]; exact Or.inl ⟨hc.1, by omega, rfl⟩
  · rw [if_neg hc]
    refine Or.inr ⟨_, rfl, rfl, by simpa using ht.1, ?_⟩
    intro idx slot hs
    simp only at hs ⊢
    rw [inSlot_append]
    by_cases he : c.hash &&& t.mask = idx
    · subst he
      rw [List.getElem?_set_self hlt] at hs
      obtain rfl := Option.some.inj hs
      refine ⟨by simp [h1, hr, inSlot], ?_⟩
      intro r' hr'
      rcases List.mem_append.mp hr' with hr' | hr'
      · exact h2 r' hr'
      · rw [List.mem_singleton.mp hr']; exact hid
    · rw [List.getElem?_set_ne he] at hs
      obtain ⟨h3, h4⟩ := ht.2 idx slot hs
      refine ⟨?_, h4⟩
      rw [h3]
      simp [inSlot, he]

theorem deref_eq {h : Heap} {id i : Nat} {s : Cset} (hs : h[id]? = some (some s)) : deref h (id, i) = s.chals[i]? := by
  unfold deref
  simp [hs]

theorem hashCset_ok {h : Heap} {ids : List Nat} {id : Nat} {s : Cset} (hs : h[id]? = some (some s)) (hid : id ∈ ids) (check : Bool) :
    ∀ (cs : List Chal) (i : Nat) (t : Tbl) (content : List Chal), s.chals.drop i = cs → TblOk h t ids content →
      (check = true ∧ COLLIDE_MAX + 1 < content.length + cs.length ∧ hashCset t check id i cs = .ok none) ∨
      ∃ t', hashCset t check id i cs = .ok (some t') ∧ t'.mask = t.mask ∧ TblOk h t' ids (content ++ cs) := by
  intro cs
  induction cs with
  | nil => intro i t content _ ht; exact Or.inr ⟨t, rfl, rfl, by simpa using ht⟩
  | cons c cs ih =>
    intro i t content hd ht
    have hc : s.chals[i]? = some c := by
      have : (s.chals.drop i)[0]? = some c := by rw [hd]; rfl
      simpa using this
    have hd' : s.chals.drop (i + 1) = cs := by rw [← List.drop_drop, hd]; rfl
    unfold hashCset
    rcases hashOne_ok ht (c := c) (r := (id, i)) (by rw [deref_eq hs, hc]) hid check with ⟨h1, h2, h3⟩ | ⟨t', h1, h2, h3⟩
    · rw [h3, Outcome.bind_ok]
      exact Or.inl ⟨h1, by simp; omega, rfl⟩
    · rw [h1, Outcome.bind_ok]
      rcases ih (i + 1) t' _ hd' h3 with ⟨g1, g2, g3⟩ | ⟨t'', g1, g2, g3⟩
      · exact Or.inl ⟨g1, by simp at g2 ⊢; omega, g3⟩
      · exact Or.inr ⟨t'', g1, by omega, by simpa using g3⟩

/-- The sets are there. -/
def Alive (h : Heap) (ids : List Nat) : Prop := ∀ id ∈ ids, ∃ s, h[id]? = some (some s)

theorem getSet_ok {h : Heap} {id : Nat} {s : Cset} (hs : h[id]? = some (some s)) : getSet h id = .ok s := by unfold getSet; rw [hs]

theorem allChals_cons {h : Heap} {id : Nat} {s : Cset} (hs : h[id]? = some (some s)) (l : List Nat) :
    allChals h (id :: l) = s.chals ++ allChals h l := by simp [allChals, hs]

theorem allChals_append (h : Heap) (a b : List Nat) : allChals h (a ++ b) = allChals h a ++ allChals h b := by simp [allChals]

theorem allChals_congr {h h' : Heap} {ids : List Nat} (hh : ∀ id ∈ ids, h'[id]? = h[id]?) : allChals h' ids = allChals h ids := by
  unfold allChals
  induction ids with
  | nil => rfl
  | cons id l ih =>
    simp only [List.flatMap_cons]
    rw [hh id List.mem_cons_self, ih fun x hx => hh x (List.mem_cons_of_mem _ hx)]

theorem countAll_ok {h : Heap} : ∀ {ids : List Nat}, Alive h ids → countAll h ids = .ok (allChals h ids).length := by
  intro ids
  induction ids with
  | nil => intro _; rfl
  | cons id l ih =>
    intro ha
    obtain ⟨s, hs⟩ := ha id List.mem_cons_self
    unfold countAll
    rw [getSet_ok hs, Outcome.bind_ok, ih fun x hx => ha x (List.mem_cons_of_mem _ hx), Outcome.map_ok, allChals_cons hs, List.length_append]

theorem hashAll_ok {h h' : Heap} {ids : List Nat} : ∀ {l : List Nat}, Alive h l → (∀ id ∈ l, h'[id]? = h[id]?) → (∀ id ∈ l, id ∈ ids) →
    ∀ {t content}, TblOk h' t ids content → ∃ t', hashAll h t l = .ok t' ∧ TblOk h' t' ids (content ++ allChals h l) := by
  intro l
  induction l with
  | nil => intro _ _ _ t content ht; exact ⟨t, rfl, by simpa [allChals] using ht⟩
  | cons id l ih =>
    intro ha hh hm t content ht
    obtain ⟨s, hs⟩ := ha id List.mem_cons_self
    have hs' : h'[id]? = some (some s) := by rw [hh id List.mem_cons_self]; exact hs
    unfold hashAll
    rw [getSet_ok hs, Outcome.bind_ok]
    rcases hashCset_ok hs' (hm id List.mem_cons_self) false s.chals 0 t content rfl ht with ⟨h1, _⟩ | ⟨t', h1, _, h3⟩
    · cases h1
    · rw [h1, Outcome.bind_ok]
      obtain ⟨t'', g1, g2⟩ := ih (fun x hx => ha x (List.mem_cons_of_mem _ hx)) (fun x hx => hh x (List.mem_cons_of_mem _ hx))
        (fun x hx => hm x (List.mem_cons_of_mem _ hx)) h3
      exact ⟨t'', g1, by rw [allChals_cons hs, ← List.append_assoc]; exact g2⟩

/-- So many challenges that sizes overflow. -/
def LIMIT : Nat := 1073741824

theorem or_one_lt {x k : Nat} (h : x < 2 ^ k) (hk : 0 < k) : x ||| 1 < 2 ^ k := Nat.or_lt_two_pow h (Nat.one_lt_two_pow (by omega))

theorem count2mask_lt {x : Nat} (h : x < 2147483648) : count2mask x + 1 < 4294967296 := by
  unfold count2mask
  have h1 : x ||| 1 < 2 ^ 31 := or_one_lt (by simpa using h) (by omega)
  have h2 : x ||| 1 ≠ 0 := by
    intro hc
    have : 1 ≤ x ||| 1 := Nat.right_le_or
    omega
  have h3 : Nat.log2 (x ||| 1) < 31 := (Nat.log2_lt h2).mpr h1
  have h4 : 2 ^ (Nat.log2 (x ||| 1) + 1) ≤ 2 ^ 31 := Nat.pow_le_pow_right (by omega) (by omega)
  have h5 : 0 < 2 ^ (Nat.log2 (x ||| 1) + 1) := Nat.two_pow_pos _
  simp only [show (2 : Nat) ^ 31 = 2147483648 from rfl] at h4
  omega

theorem create_none {h : Heap} {ids : List Nat} (ha : Alive h ids) (hl : (allChals h ids).length < LIMIT) :
    (allChals h ids = [] ∧ tblCreate h ids none = .ok none) ∨ ∃ t, tblCreate h ids none = .ok (some t) ∧ TblOk h t ids (allChals h ids) := by
  unfold tblCreate
  rw [countAll_ok ha, Outcome.bind_ok]
  simp only [Option.elim_none, Nat.add_zero]
  unfold LIMIT at hl
  simp only [Nat.mod_eq_of_lt (show (allChals h ids).length < 4294967296 by omega)]
  by_cases h0 : (allChals h ids).length = 0
  · rw [if_pos h0]; exact Or.inl ⟨List.eq_nil_of_length_eq_zero h0, rfl⟩
  · rw [if_neg h0, Nat.mod_eq_of_lt (show (allChals h ids).length * 2 < 4294967296 by omega), Nat.mod_eq_of_lt (count2mask_lt (by omega))]
    obtain ⟨t, h1, h2⟩ := hashAll_ok (h' := h) (ids := ids) ha (fun _ _ => rfl) (fun _ h => h) (TblOk.empty h (count2mask ((allChals h ids).length * 2)) ids)
    rw [h1, Outcome.bind_ok]
    exact Or.inr ⟨t, rfl, by simpa using h2⟩

theorem create_some {h : Heap} {ids : List Nat} {s : Cset} (ha : Alive h ids) (hne : s.chals ≠ []) (hl : (allChals h ids).length + s.chals.length < LIMIT) :
    (tblCreate h ids (some (h.length, s)) = .ok none ∧ COLLIDE_MAX + 1 < (allChals h ids).length + s.chals.length) ∨
    ∃ t, tblCreate h ids (some (h.length, s)) = .ok (some t) ∧ TblOk (h ++ [some s]) t (ids ++ [h.length]) (allChals h ids ++ s.chals) := by
  unfold tblCreate
  rw [countAll_ok ha, Outcome.bind_ok]
  simp only [Option.elim_some]
  unfold LIMIT at hl
  have : s.chals.length ≠ 0 := fun hc => hne (List.eq_nil_of_length_eq_zero hc)
  simp only [Nat.mod_eq_of_lt (show (allChals h ids).length + s.chals.length < 4294967296 by omega)]
  rw [if_neg (by omega), Nat.mod_eq_of_lt (show ((allChals h ids).length + s.chals.length) * 2 < 4294967296 by omega),
    Nat.mod_eq_of_lt (count2mask_lt (by omega))]
  have hh : ∀ id ∈ ids, (h ++ [some s])[id]? = h[id]? := by
    intro id hid
    obtain ⟨c, hc⟩ := ha id hid
    rw [hc]
    exact List.getElem?_append_left (List.getElem?_eq_some_iff.mp hc).1 ▸ hc
  obtain ⟨t, h1, h2⟩ := hashAll_ok (h' := h ++ [some s]) (ids := ids ++ [h.length]) ha hh (fun _ h => List.mem_append_left _ h)
    (TblOk.empty _ (count2mask (((allChals h ids).length + s.chals.length) * 2)) _)
  rw [h1, Outcome.bind_ok]
  rw [List.nil_append] at h2
  rcases hashCset_ok (h := h ++ [some s]) (ids := ids ++ [h.length]) (id := h.length) (s := s) (by simp) (by simp) true s.chals 0 t _ rfl h2 with
    ⟨_, g1, g2⟩ | ⟨t', g1, _, g3⟩
  · exact Or.inl ⟨g2, g1⟩
  · exact Or.inr ⟨t', g1, g3⟩

end Gdnsd.Chal
