/-
Normalization of network lists in terms of prefixes.
-/
import Verif.Geo.Pfx
namespace Gdnsd.Geo

/-- The prefix of a list entry. -/
def toP (n : Net) : Pfx := ((bits n.ip).take n.mask, n.dc)

/-- An entry as the list functions keep it: no bits beyond the mask. -/
structure NetOk (n : Net) : Prop where
  len : n.ip.length = 16
  mask : n.mask ≤ 128
  clear : bits n.ip = (toP n).1 ++ List.replicate (128 - n.mask) false

theorem toP_length {n : Net} (h : NetOk n) : (toP n).1.length = n.mask := by
  have := h.len; have := h.mask
  simp only [toP, List.length_take, bits_length]; omega

theorem NetOk.ip_eq {a b : Net} (ha : NetOk a) (hb : NetOk b) (h : (toP a).1 = (toP b).1) : a.ip = b.ip ∧ a.mask = b.mask := by
  have hm : a.mask = b.mask := by rw [← toP_length ha, ← toP_length hb, h]
  exact ⟨bits_inj (by rw [ha.clear, hb.clear, h, hm]), hm⟩

theorem NetOk.ext {a b : Net} (ha : NetOk a) (hb : NetOk b) (h : toP a = toP b) : a = b := by
  obtain ⟨h1, h2⟩ := ha.ip_eq hb (by rw [h])
  cases a; cases b
  simp only [toP, Prod.mk.injEq] at *
  simp [h1, h2, h.2]

theorem netEq_eq {a b : Net} (ha : NetOk a) (hb : NetOk b) : netEq a b = decide ((toP a).1 = (toP b).1) := by
  rw [netEq, Bool.eq_iff_iff, Bool.and_eq_true, beq_iff_eq, beq_iff_eq, decide_eq_true_iff]
  constructor
  · rintro ⟨h1, h2⟩; simp [toP, h1, h2]
  · intro h; exact (ha.ip_eq hb h).symm

theorem netLt_eq {a b : Net} (ha : NetOk a) (hb : NetOk b) : netLt a b = lexLt (toP a).1 (toP b).1 := by
  have h := pad_lt 128 (toP a).1 (toP b).1 (by rw [toP_length ha]; exact ha.mask) (by rw [toP_length hb]; exact hb.mask)
  rw [toP_length ha, toP_length hb, ← ha.clear, ← hb.clear] at h
  rw [Bool.eq_iff_iff, ← h, netLt, bits_lt_eq (by rw [ha.len, hb.len])]
  simp only [Bool.or_eq_true, Bool.and_eq_true, beq_iff_eq, decide_eq_true_iff]
  constructor
  · rintro (h | ⟨h1, h2⟩)
    · exact Or.inl h
    · exact Or.inr ⟨by rw [h1], h2⟩
  · rintro (h | ⟨h1, h2⟩)
    · exact Or.inl h
    · exact Or.inr ⟨bits_inj h1, h2⟩

theorem dropLast_take {α : Type} {l : List α} {m : Nat} (h : m ≤ l.length) : (l.take m).dropLast = l.take (m - 1) := by
  rw [List.dropLast_eq_take, List.take_take, List.length_take, Nat.min_eq_left h, Nat.min_eq_left (by omega)]

theorem prefix_take_iff {x y : List Bool} {m n : Nat} (hm : m ≤ x.length) (hmn : m ≤ n) :
    x.take m <+: y.take n ↔ x.take m = y.take m := by
  constructor
  · intro h
    have h1 := h.trans (List.take_prefix n y)
    rw [List.prefix_iff_eq_take] at h1
    rwa [List.length_take, Nat.min_eq_left hm] at h1
  · intro h
    rw [h]
    exact List.take_prefix_take_left hmn

theorem subnetOf_ok {a b : Net} (ha : NetOk a) (hb : NetOk b) :
    subnetOf a b = .ok (decide ((toP b).1 <+: (toP a).1)) := by
  rw [subnetOf_eq ha.len hb.len ha.mask hb.mask]
  congr 2
  rw [eq_iff_iff]
  constructor
  · rintro ⟨h1, h2⟩
    exact (prefix_take_iff (by rw [bits_length, hb.len]; exact hb.mask) h1).mpr h2.symm
  · intro h
    have hl := h.length_le
    rw [toP_length ha, toP_length hb] at hl
    exact ⟨hl, ((prefix_take_iff (by rw [bits_length, hb.len]; exact hb.mask) hl).mp h).symm⟩

theorem mrg_iff {a b : Net} (ha : NetOk a) (hb : NetOk b) : Mrg (toP a) (toP b) ↔
    a.dc = b.dc ∧ ((a.mask = b.mask ∧ a.mask ≠ 0 ∧ (bits a.ip).take (a.mask - 1) = (bits b.ip).take (a.mask - 1)) ∨
      (a.mask < b.mask ∧ (bits a.ip).take a.mask = (bits b.ip).take a.mask)) := by
  unfold Mrg
  rw [toP_length ha, toP_length hb]
  have hla : (bits a.ip).length = 128 := by rw [bits_length, ha.len]
  have hlb : (bits b.ip).length = 128 := by rw [bits_length, hb.len]
  have hma := ha.mask
  have hmb := hb.mask
  have h0 : (toP a).1 ≠ [] ↔ a.mask ≠ 0 := by
    rw [← toP_length ha, ne_eq, ne_eq, List.length_eq_zero_iff]
  rw [h0]
  refine and_congr Iff.rfl (or_congr ?_ ?_)
  · refine and_congr_right fun hm => and_congr_right fun _ => ?_
    show (List.take a.mask (bits a.ip)).dropLast = (List.take b.mask (bits b.ip)).dropLast ↔ _
    rw [dropLast_take (by omega), dropLast_take (by omega), ← hm]
  · refine and_congr_right fun hm => ?_
    exact prefix_take_iff (by omega) (Nat.le_of_lt hm)

instance (a b : Pfx) : Decidable (Mrg a b) := by unfold Mrg; infer_instance

theorem mergeable_eq {a b : Net} (ha : NetOk a) (hb : NetOk b) (hz : ¬ (a.mask = 0 ∧ b.mask = 0)) :
    mergeable a b = .ok (decide (Mrg (toP a) (toP b))) := by
  have hma := ha.mask
  have hmb := hb.mask
  have hm := mrg_iff ha hb
  have fin : ∀ c : Bool, (c = true ↔ Mrg (toP a) (toP b)) → (Outcome.ok c : Outcome Bool) = .ok (decide (Mrg (toP a) (toP b))) := by
    intro c hc
    congr 1
    rw [Bool.eq_iff_iff, hc, decide_eq_true_iff]
  unfold mergeable
  by_cases hd : a.dc = b.dc
  · rw [if_pos hd]
    by_cases he : a.mask = b.mask
    · have h0 : a.mask ≠ 0 := fun h => hz ⟨h, by omega⟩
      rw [if_pos he, if_neg h0, maskedEq_eq ha.len hb.len (by omega)]
      apply fin
      rw [hm]
      simp [hd, ← he, h0]
    · rw [if_neg he]
      by_cases hlt : a.mask < b.mask
      · rw [if_pos hlt, maskedEq_eq ha.len hb.len (by omega)]
        apply fin
        rw [hm]
        simp [hd, he, hlt]
      · rw [if_neg hlt]
        apply fin
        rw [hm]
        simp [he, hlt]
  · rw [if_neg hd]
    apply fin
    rw [hm]
    simp [hd]

/-- Dropping the last bit of a lower half. -/
theorem shrink {a : Net} {s : List Bool} (ha : NetOk a) (h : (toP a).1 = s ++ [false]) :
    NetOk { a with mask := a.mask - 1 } ∧ toP { a with mask := a.mask - 1 } = (s, a.dc) := by
  have hl := toP_length ha
  rw [h] at hl
  simp at hl
  have hm := ha.mask
  have hlb : (bits a.ip).length = 128 := by rw [bits_length, ha.len]
  have hp : (bits a.ip).take (a.mask - 1) = s := by
    rw [← dropLast_take (by omega)]
    show (toP a).1.dropLast = s
    rw [h]; simp
  refine ⟨⟨ha.len, by show a.mask - 1 ≤ 128; omega, ?_⟩, by simp [toP, hp]⟩
  show bits a.ip = (bits a.ip).take (a.mask - 1) ++ List.replicate (128 - (a.mask - 1)) false
  rw [hp, ha.clear, h, List.append_assoc, show 128 - (a.mask - 1) = (128 - a.mask) + 1 by omega, List.replicate_succ]
  rfl

/-- An entry marked for removal. -/
def isDel (n : Net) : Bool := n.mask == 255

theorem isDel_deleted (n : Net) : isDel (deleted n) = true := rfl

theorem NetOk.notDel {n : Net} (h : NetOk n) : isDel n = false := by
  have := h.mask
  simp [isDel]; omega

/-- Removed entries sort last. -/
theorem del_last {a d : Net} (ha : NetOk a) (hd : ∃ n, d = deleted n) : netLt a d = true := by
  obtain ⟨n, rfl⟩ := hd
  have hm := ha.mask
  have hbits : bits (List.replicate 16 255) = List.replicate 128 true := by decide
  have key : ∀ (k : Nat) (p : List Bool), p.length = k → lexLt p (List.replicate k true) = true ∨ p = List.replicate k true := by
    intro k
    induction k with
    | zero => intro p hp; right; exact List.length_eq_zero_iff.mp hp
    | succ k ih =>
      intro p hp
      cases p with
      | nil => simp at hp
      | cons b p =>
        rcases ih p (by simpa using hp) with h | h
        · left; cases b <;> simp [List.replicate_succ, lexLt_cons, h]
        · subst h
          cases b
          · left; simp [List.replicate_succ, lexLt_cons]
          · right; rfl
  unfold netLt
  show (memLt a.ip (List.replicate 16 255) || (a.ip == List.replicate 16 255 && decide (a.mask < 255))) = true
  rw [bits_lt_eq (by rw [ha.len]; rfl), hbits]
  rcases key 128 (bits a.ip) (by rw [bits_length, ha.len]) with h | h
  · rw [h]; rfl
  · have : a.ip = List.replicate 16 255 := bits_inj (by rw [h, hbits])
    rw [this]
    have : a.mask < 255 := by omega
    simp [this]

/-- The entry `na` takes in what can be merged with it. -/
theorem absorb_ok (rest : List Net) : ∀ (na : Net) (u : List Pfx), NetOk na → (∀ n ∈ rest, NetOk n) →
    Inv (u ++ toP na :: rest.map toP) → (∀ q ∈ u, lexLt q.1 (toP na).1 = true) →
    ∃ na' del r, absorb na rest = .ok (na', del, r) ∧ NetOk na' ∧ (∀ n ∈ r, NetOk n) ∧
      (∀ d ∈ del, ∃ n, d = deleted n) ∧ del.length + r.length = rest.length ∧
      Inv (u ++ toP na' :: r.map toP) ∧ Same (u ++ toP na :: rest.map toP) (u ++ toP na' :: r.map toP) ∧
      (∀ q ∈ u, lexLt q.1 (toP na').1 = true) ∧
      (∀ n t, r = n :: t → ¬ ((toP na').1 = (toP n).1 ∨ Mrg (toP na') (toP n))) ∧
      (del = [] → na' = na ∧ r = rest) := by
  induction rest with
  | nil =>
    intro na u hna _ hinv hu
    exact ⟨na, [], [], rfl, hna, by simp, by simp, rfl, hinv, Same.refl _, hu, by simp, fun _ => ⟨rfl, rfl⟩⟩
  | cons nb rest ih =>
    intro na u hna hrest hinv hu
    have hnb : NetOk nb := hrest nb List.mem_cons_self
    have hrest' : ∀ n ∈ rest, NetOk n := fun n hn => hrest n (List.mem_cons_of_mem _ hn)
    have hle : lexLe (toP na).1 (toP nb).1 := (sorted_mid hinv.sorted).2.1
    rw [absorb, netEq_eq hna hnb]
    by_cases he : (toP na).1 = (toP nb).1
    · have hd : (toP na).2 = (toP nb).2 := hinv.conf _ (by simp) _ (by simp) he
      obtain ⟨hi, hs⟩ := step_sub hinv hd (he ▸ List.prefix_refl _)
      obtain ⟨na', del, r, h1, h2, h3, h4, h5, h6, h7, h8, h9, _⟩ := ih na u hna hrest' hi hu
      refine ⟨na', deleted nb :: del, r, by simp [he, h1], h2, h3, ?_, by simp; omega, h6, hs.trans h7, h8, h9, by simp⟩
      intro d hd
      rcases List.mem_cons.mp hd with rfl | hd
      · exact ⟨_, rfl⟩
      · exact h4 d hd
    · have hz : ¬ (na.mask = 0 ∧ nb.mask = 0) := by
        rintro ⟨h1, h2⟩
        exact he (by simp [toP, h1, h2])
      rw [mergeable_eq hna hnb hz]
      by_cases hm : Mrg (toP na) (toP nb)
      · have fin : ∀ na2 : Net, na2 = { na with mask := if na.mask = nb.mask then na.mask - 1 else na.mask } → NetOk na2 →
            Inv (u ++ toP na2 :: rest.map toP) → Same (u ++ toP na :: toP nb :: rest.map toP) (u ++ toP na2 :: rest.map toP) →
            (∀ q ∈ u, lexLt q.1 (toP na2).1 = true) → ∃ na' del r,
            (if decide ((toP na).1 = (toP nb).1) = true then
                (absorb na rest).map fun r => (r.1, deleted nb :: r.2.1, r.2.2)
              else (Outcome.ok (decide (Mrg (toP na) (toP nb)))).bind fun m =>
                bif m then (absorb { na with mask := if na.mask = nb.mask then na.mask - 1 else na.mask } rest).map
                  fun r => (r.1, deleted nb :: r.2.1, r.2.2)
                else .ok (na, [], nb :: rest)) = .ok (na', del, r) ∧ NetOk na' ∧ (∀ n ∈ r, NetOk n) ∧
            (∀ d ∈ del, ∃ n, d = deleted n) ∧ del.length + r.length = (nb :: rest).length ∧
            Inv (u ++ toP na' :: r.map toP) ∧ Same (u ++ toP na :: toP nb :: rest.map toP) (u ++ toP na' :: r.map toP) ∧
            (∀ q ∈ u, lexLt q.1 (toP na').1 = true) ∧
            (∀ n t, r = n :: t → ¬ ((toP na').1 = (toP n).1 ∨ Mrg (toP na') (toP n))) ∧
            (del = [] → na' = na ∧ r = nb :: rest) := by
          intro na2 hna2 hok hi hs hlt
          obtain ⟨na', del, r, h1, h2, h3, h4, h5, h6, h7, h8, h9, _⟩ := ih na2 u hok hrest' hi hlt
          refine ⟨na', deleted nb :: del, r, ?_, h2, h3, ?_, by simp; omega, h6, hs.trans h7, h8, h9, by simp⟩
          · rw [← hna2]
            simp [he, hm, h1]
          · intro d hd
            rcases List.mem_cons.mp hd with rfl | hd
            · exact ⟨_, rfl⟩
            · exact h4 d hd
        have hmm := hm
        obtain ⟨hd, hm | hm⟩ := hmm
        · obtain ⟨hl, h0, hdl⟩ := hm
          obtain ⟨s, hsa, hsb⟩ := halves hle he hl h0 hdl
          obtain ⟨hi, hs, hlt⟩ := step_sib hinv hu hsa hsb hd
          obtain ⟨hok, htp⟩ := shrink hna hsa
          have hmask : na.mask = nb.mask := by rw [← toP_length hna, ← toP_length hnb, hl]
          have htp' : toP { na with mask := na.mask - 1 } = (s, (toP na).2) := htp
          refine fin { na with mask := na.mask - 1 } (by rw [if_pos hmask]) hok ?_ ?_ ?_
          · rw [htp']; exact hi
          · rw [htp']; exact hs
          · rw [htp']; exact hlt
        · obtain ⟨hi, hs⟩ := step_sub hinv hd hm.2
          have hmask : na.mask ≠ nb.mask := by rw [← toP_length hna, ← toP_length hnb]; exact Nat.ne_of_lt hm.1
          exact fin na (by rw [if_neg hmask]) hna hi hs hu
      · refine ⟨na, [], nb :: rest, by simp [he, hm], hna, hrest, by simp, by simp, hinv, Same.refl _, hu, ?_, fun _ => ⟨rfl, rfl⟩⟩
        intro n t hnt
        simp only [List.cons.injEq] at hnt
        obtain ⟨rfl, rfl⟩ := hnt
        simp [he, hm]

/-- One pass: the entries that remain, in order, and those removed. -/
theorem passLoop_ok (k : Nat) : ∀ (l : List Net) (u : List Pfx), l.length ≤ k → (∀ n ∈ l, NetOk n) → Inv (u ++ l.map toP) →
    (∀ q ∈ u, ∀ p ∈ l, lexLt q.1 (toP p).1 = true) →
    ∃ arr n kept, passLoop k l = .ok (arr, n) ∧ (∀ m ∈ kept, NetOk m) ∧ kept.length + n = l.length ∧
      (∃ del : List Net, arr.Perm (kept ++ del) ∧ (∀ d ∈ del, ∃ n, d = deleted n)) ∧
      Inv (u ++ kept.map toP) ∧ Same (u ++ l.map toP) (u ++ kept.map toP) ∧ (l ≠ [] → kept ≠ []) ∧
      (n = 0 → arr = l ∧ kept = l ∧ Stable (l.map toP)) := by
  induction k with
  | zero =>
    intro l u hk hok hinv _
    have : l = [] := List.length_eq_zero_iff.mp (by omega)
    subst this
    exact ⟨[], 0, [], rfl, by simp, rfl, ⟨[], List.Perm.refl _, by simp⟩, hinv, Same.refl _, by simp,
      fun _ => ⟨rfl, rfl, fun u a b v h => by simp at h⟩⟩
  | succ k ih =>
    intro l u hk hok hinv hlt
    cases l with
    | nil =>
      exact ⟨[], 0, [], rfl, by simp, rfl, ⟨[], List.Perm.refl _, by simp⟩, hinv, Same.refl _, by simp,
        fun _ => ⟨rfl, rfl, fun u a b v h => by simp at h⟩⟩
    | cons na rest =>
      have hna := hok na List.mem_cons_self
      obtain ⟨na', del, r, h1, h2, h3, h4, h5, h6, h7, h8, h9, h10⟩ := absorb_ok rest na u hna
        (fun n hn => hok n (List.mem_cons_of_mem _ hn)) hinv (fun q hq => hlt q hq na List.mem_cons_self)
      have hrk : r.length ≤ k := by simp at hk; omega
      have hlt' : ∀ q ∈ u ++ [toP na'], ∀ p ∈ r, lexLt q.1 (toP p).1 = true := by
        have hs := h6.sorted
        unfold Sorted at hs
        rw [List.pairwise_append, List.pairwise_cons] at hs
        have hna'r : ∀ p ∈ r, lexLt (toP na').1 (toP p).1 = true := by
          intro p hp
          cases hr : r with
          | nil => rw [hr] at hp; cases hp
          | cons c t =>
            have hc : lexLt (toP na').1 (toP c).1 = true := by
              rcases lexLe_cases (hs.2.1.1 (toP c) (by rw [hr]; simp)) with he | h
              · exact absurd (Or.inl he) (h9 c t hr)
              · exact h
            rw [hr] at hp
            rcases List.mem_cons.mp hp with rfl | hp
            · exact hc
            · refine lexLt_of_lt_of_le hc ?_
              have := hs.2.1.2
              rw [hr, List.map_cons, List.pairwise_cons] at this
              exact this.1 (toP p) (List.mem_map_of_mem hp)
        intro q hq p hp
        rcases List.mem_append.mp hq with hq | hq
        · exact lexLt_trans (h8 q hq) (hna'r p hp)
        · rw [List.mem_singleton.mp hq]; exact hna'r p hp
      obtain ⟨arr, n, kept, g1, g2, g3, ⟨del', g4, g5⟩, g6, g7, _, g8⟩ :=
        ih r (u ++ [toP na']) hrk h3 (by rw [List.append_assoc]; exact h6) hlt'
      rw [List.append_assoc] at g6 g7
      rw [List.append_assoc] at g7
      refine ⟨na' :: del ++ arr, del.length + n, na' :: kept, by simp [passLoop, h1, g1], ?_, ?_, ⟨del ++ del', ?_, ?_⟩, g6,
        h7.trans g7, by simp, ?_⟩
      · intro m hm
        rcases List.mem_cons.mp hm with rfl | hm
        · exact h2
        · exact g2 m hm
      · simp; omega
      · show (na' :: (del ++ arr)).Perm (na' :: (kept ++ (del ++ del')))
        refine List.Perm.cons _ ?_
        calc (del ++ arr).Perm (del ++ (kept ++ del')) := List.Perm.append_left _ g4
          _ = ((del ++ kept) ++ del') := by simp
          _ |>.Perm ((kept ++ del) ++ del') := List.Perm.append_right _ List.perm_append_comm
          _ = (kept ++ (del ++ del')) := by simp
      · intro d hd
        rcases List.mem_append.mp hd with hd | hd
        · exact h4 d hd
        · exact g5 d hd
      · intro hn
        have hdel : del = [] := List.length_eq_zero_iff.mp (by omega)
        obtain ⟨rfl, rfl⟩ := h10 hdel
        obtain ⟨rfl, hk', hst⟩ := g8 (by omega)
        subst hk'
        refine ⟨by simp [hdel], rfl, ?_⟩
        intro u' a b v heq
        cases u' with
        | nil =>
          simp only [List.map_cons, List.nil_append, List.cons.injEq] at heq
          cases hk2 : kept with
          | nil => rw [hk2] at heq; simp at heq
          | cons c t =>
            rw [hk2, List.map_cons, List.cons.injEq] at heq
            obtain ⟨rfl, rfl, _⟩ := heq
            exact h9 c t hk2
        | cons c u' =>
          simp only [List.map_cons, List.cons_append, List.cons.injEq] at heq
          exact hst u' a b v heq.2

theorem filter_split {l : List Net} (h : l.Pairwise fun a b => ¬ (isDel a = true ∧ isDel b = false)) :
    l = l.filter (fun n => !isDel n) ++ l.filter isDel := by
  induction l with
  | nil => rfl
  | cons a l ih =>
    have h2 := List.pairwise_cons.mp h
    cases hd : isDel a with
    | false =>
      rw [List.filter_cons_of_pos (by simp [hd]), List.filter_cons_of_neg (by simp [hd])]
      conv => lhs; rw [ih h2.2]
      rfl
    | true =>
      have hall : ∀ b ∈ l, isDel b = true := fun b hb => by
        cases hb' : isDel b with
        | true => rfl
        | false => exact absurd ⟨hd, hb'⟩ (h2.1 b hb)
      rw [List.filter_cons_of_neg (by simp [hd]), List.filter_cons_of_pos hd,
        List.filter_eq_nil_iff.mpr (fun b hb => by simp [hall b hb]), List.filter_eq_self.mpr hall]
      rfl

/-- Sorting and cutting off the removed entries leaves the others, sorted. -/
theorem sort_take {sort : List Net → List Net} (hs : SortOk sort) {arr kept del : List Net} (hp : arr.Perm (kept ++ del))
    (hk : ∀ n ∈ kept, NetOk n) (hd : ∀ d ∈ del, ∃ n, d = deleted n) :
    ((sort arr).take kept.length).Perm kept ∧
      ((sort arr).take kept.length).Pairwise (fun a b => netLt b a = false) := by
  have hperm : (sort arr).Perm (kept ++ del) := (hs.perm arr).trans hp
  have hpw := hs.sorted arr (by
    intro n hn
    rcases List.mem_append.mp (hp.mem_iff.mp hn) with h | h
    · exact (hk n h).len
    · obtain ⟨m, rfl⟩ := hd n h; rfl)
  have hmem : ∀ n ∈ sort arr, (NetOk n ∨ ∃ m, n = deleted m) := by
    intro n hn
    rcases List.mem_append.mp (hperm.mem_iff.mp hn) with h | h
    · exact Or.inl (hk n h)
    · exact Or.inr (hd n h)
  have hpart : (sort arr).Pairwise fun a b => ¬ (isDel a = true ∧ isDel b = false) := by
    refine List.Pairwise.imp_of_mem (fun {a b} ha hb hab => ?_) hpw
    rintro ⟨h1, h2⟩
    rcases hmem b hb with hbo | ⟨m, rfl⟩
    · rcases hmem a ha with hao | had
      · rw [hao.notDel] at h1; cases h1
      · rw [del_last hbo had] at hab; cases hab
    · rw [isDel_deleted] at h2; cases h2
  have hfk : ((sort arr).filter fun n => !isDel n).Perm kept := by
    have := hperm.filter (fun n => !isDel n)
    rw [List.filter_append, List.filter_eq_self (l := kept).mpr (fun n hn => by simp [(hk n hn).notDel]),
      List.filter_eq_nil_iff (l := del).mpr (fun d hd' => by obtain ⟨n, rfl⟩ := hd d hd'; simp [isDel_deleted]), List.append_nil] at this
    exact this
  have htake : (sort arr).take kept.length = (sort arr).filter fun n => !isDel n := by
    have h := filter_split hpart
    conv => lhs; rw [h]
    rw [← hfk.length_eq, List.take_left]
  rw [htake]
  exact ⟨hfk, hpw.sublist List.filter_sublist⟩

theorem map_sorted {l : List Net} (h : l.Pairwise fun a b => netLt b a = false) (hok : ∀ n ∈ l, NetOk n) : Sorted (l.map toP) := by
  unfold Sorted
  rw [List.pairwise_map]
  refine List.Pairwise.imp_of_mem (fun {a b} ha hb hab => ?_) h
  rw [netLt_eq (hok b hb) (hok a ha)] at hab
  exact hab

theorem pass_ok {sort : List Net → List Net} (hs : SortOk sort) {l : List Net} (hne : l ≠ []) (hok : ∀ n ∈ l, NetOk n)
    (hinv : Inv (l.map toP)) : ∃ l' rv, pass sort l = .ok (l', rv) ∧ (∀ n ∈ l', NetOk n) ∧ l' ≠ [] ∧
      Inv (l'.map toP) ∧ Same (l.map toP) (l'.map toP) ∧ (rv = true → l'.length < l.length) ∧
      (rv = false → l' = l ∧ Stable (l.map toP)) := by
  obtain ⟨arr, n, kept, h1, h2, h3, ⟨del, h4, h5⟩, h6, h7, h8, h9⟩ := passLoop_ok l.length l [] (Nat.le_refl _) hok hinv (by simp)
  simp only [List.nil_append] at h6 h7
  have hne' : l.isEmpty = false := by simpa using hne
  by_cases hn : n = 0
  · obtain ⟨ha, hk, hst⟩ := h9 hn
    subst ha
    exact ⟨arr, false, by simp [pass, hne', h1, hn], hok, hne, hinv, Same.refl _, by simp, fun _ => ⟨rfl, hst⟩⟩
  · obtain ⟨p1, p2⟩ := sort_take hs h4 h2 h5
    have hlen : l.length - n = kept.length := by omega
    have hok' : ∀ m ∈ (sort arr).take kept.length, NetOk m := fun m hm => h2 m (p1.mem_iff.mp hm)
    have heq : kept.map toP = ((sort arr).take kept.length).map toP :=
      sorted_unique h6.conf h6.sorted (map_sorted p2 hok') (p1.symm.map toP)
    refine ⟨(sort arr).take kept.length, true, by simp [pass, hne', h1, hn, hlen], hok', ?_, ?_, ?_, ?_, by simp⟩
    · intro h0
      rw [h0] at p1
      exact h8 hne p1.nil_eq.symm
    · rw [← heq]; exact h6
    · rw [← heq]; exact h7
    · intro _; rw [p1.length_eq]; omega

theorem normLoop_ok {sort : List Net → List Net} (hs : SortOk sort) (k : Nat) : ∀ l : List Net, l.length < k → l ≠ [] →
    (∀ n ∈ l, NetOk n) → Inv (l.map toP) → ∃ l', normLoop sort k l = .ok l' ∧ (∀ n ∈ l', NetOk n) ∧
      Inv (l'.map toP) ∧ Same (l.map toP) (l'.map toP) ∧ Stable (l'.map toP) ∧ l'.length ≤ l.length := by
  induction k with
  | zero => intro l hk; omega
  | succ k ih =>
    intro l hk hne hok hinv
    obtain ⟨l1, rv, h1, h2, h3, h4, h5, h6, h7⟩ := pass_ok hs hne hok hinv
    cases rv with
    | true =>
      have hlt := h6 rfl
      obtain ⟨l2, g1, g2, g3, g4, g5, g6⟩ := ih l1 (by omega) h3 h2 h4
      exact ⟨l2, by simp [normLoop, h1, g1], g2, g3, h5.trans g4, g5, by omega⟩
    | false =>
      obtain ⟨rfl, hst⟩ := h7 rfl
      exact ⟨l1, by simp [normLoop, h1], h2, h4, h5, hst, Nat.le_refl _⟩

theorem stable_nil : Stable [] := fun u a b v h => by simp at h

/-- `nlist_normalize` on a list that is already sorted (after a merge). -/
theorem normalize_post {sort : List Net → List Net} (hs : SortOk sort) {l : List Net}
    (hok : ∀ n ∈ l, NetOk n) (hinv : Inv (l.map toP)) : ∃ l', normalize sort true l = .ok l' ∧ (∀ n ∈ l', NetOk n) ∧
      Inv (l'.map toP) ∧ Same (l.map toP) (l'.map toP) ∧ Stable (l'.map toP) ∧ l'.length ≤ l.length := by
  by_cases hne : l = []
  · subst hne
    exact ⟨[], rfl, hok, hinv, Same.refl _, stable_nil, Nat.le_refl _⟩
  · obtain ⟨l', h1, h2, h3, h4, h5, h6⟩ := normLoop_ok hs (l.length + 1) l (by omega) hne hok hinv
    have hne' : l.isEmpty = false := by simpa using hne
    exact ⟨l', by simp [normalize, hne', h1], h2, h3, h4, h5, h6⟩

/-- `nlist_normalize` on an unsorted list: enough that the networks have addresses of
their own and do not contradict each other. -/
theorem normalize_ok {sort : List Net → List Net} (hs : SortOk sort) {l : List Net}
    (hok : ∀ n ∈ l, NetOk n) (hconf : Conf (l.map toP)) (hown : ∀ t ∈ l.map toP, Own (l.map toP) t.1) :
    ∃ l', normalize sort false l = .ok l' ∧ (∀ n ∈ l', NetOk n) ∧
      Inv (l'.map toP) ∧ Same (l.map toP) (l'.map toP) ∧ Stable (l'.map toP) ∧ l'.length ≤ l.length := by
  by_cases hne : l = []
  · subst hne
    refine ⟨[], rfl, hok, ⟨List.Pairwise.nil, by simp, hconf, by simp⟩, Same.refl _, stable_nil, Nat.le_refl _⟩
  · have hp := hs.perm l
    have hmem : ∀ a, a ∈ (sort l).map toP ↔ a ∈ l.map toP := fun a => (hp.map toP).mem_iff
    have hok' : ∀ n ∈ sort l, NetOk n := fun n hn => hok n (hp.mem_iff.mp hn)
    have hinv : Inv ((sort l).map toP) := by
      refine ⟨map_sorted (hs.sorted l fun n hn => (hok n hn).len) hok', ?_, ?_, ?_⟩
      · intro a ha
        obtain ⟨n, hn, rfl⟩ := List.mem_map.mp ha
        rw [toP_length (hok' n hn)]; exact (hok' n hn).mask
      · exact fun a ha b hb => hconf a ((hmem a).mp ha) b ((hmem b).mp hb)
      · intro t ht
        obtain ⟨x, hx, htx, hm⟩ := hown t ((hmem t).mp ht)
        exact Or.inl ⟨x, hx, htx, fun q hq => hm q ((hmem q).mp hq)⟩
    obtain ⟨l', h1, h2, h3, h4, h5, h6⟩ := normLoop_ok hs (l.length + 1) (sort l) (by rw [hp.length_eq]; omega)
      (fun h => hne (by rw [h] at hp; exact hp.nil_eq.symm)) hok' hinv
    have hne' : l.isEmpty = false := by simpa using hne
    refine ⟨l', by simp [normalize, hne', h1], h2, h3, ?_, h5, by rw [← hp.length_eq]; exact h6⟩
    exact (same_of_mem fun a => (hmem a).symm).trans h4

end Gdnsd.Geo
