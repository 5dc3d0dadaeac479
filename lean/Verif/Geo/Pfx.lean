/-
Longest prefix match on lists of prefixes, and the rewriting steps of normalization.
-/
import Verif.Geo.Bits
namespace Gdnsd.Geo

/-- Sorted by prefix. -/
def Sorted (l : List Pfx) : Prop := l.Pairwise fun a b => lexLe a.1 b.1

/-- Equal networks have equal lists. -/
def Conf (l : List Pfx) : Prop := ∀ a ∈ l, ∀ b ∈ l, a.1 = b.1 → a.2 = b.2

/-- Strictly more specific. -/
def Below (t p : List Bool) : Prop := t <+: p ∧ t ≠ p

/-- `mergeable_nets` on prefixes. -/
def Mrg (a b : Pfx) : Prop :=
  a.2 = b.2 ∧ ((a.1.length = b.1.length ∧ a.1 ≠ [] ∧ a.1.dropLast = b.1.dropLast) ∨
    (a.1.length < b.1.length ∧ a.1 <+: b.1))

/-- Some address has `p` as its longest match. -/
def Own (l : List Pfx) (p : List Bool) : Prop :=
  ∃ x, x.length = 128 ∧ p <+: x ∧ ∀ q ∈ l, q.1 <+: x → q.1.length ≤ p.length

/-- Nothing beneath `t` can be merged. -/
def StableUnder (l : List Pfx) (t : List Bool) : Prop :=
  ∀ u a b v, l = u ++ a :: b :: v → Below t a.1 → Below t b.1 → ¬ (a.1 = b.1 ∨ Mrg a b)

/-- Nothing can be merged. -/
def Stable (l : List Pfx) : Prop :=
  ∀ u a b v, l = u ++ a :: b :: v → ¬ (a.1 = b.1 ∨ Mrg a b)

/-- What normalization keeps. -/
structure Inv (l : List Pfx) : Prop where
  sorted : Sorted l
  len : ∀ a ∈ l, a.1.length ≤ 128
  conf : Conf l
  own : ∀ t ∈ l, Own l t.1 ∨ StableUnder l t.1

/-- Same answers. -/
def Same (l l' : List Pfx) : Prop := ∀ z x d, x.length = 128 → (Answer l z x d ↔ Answer l' z x d)

theorem Same.refl (l : List Pfx) : Same l l := fun _ _ _ _ => Iff.rfl
theorem Same.trans {a b c : List Pfx} (h1 : Same a b) (h2 : Same b c) : Same a c :=
  fun z x d hx => (h1 z x d hx).trans (h2 z x d hx)

theorem prefix_same {p q x : List Bool} (hp : p <+: x) (hq : q <+: x) (h : p.length = q.length) : p = q :=
  (List.prefix_of_prefix_length_le hp hq (Nat.le_of_eq h)).eq_of_length h

theorem longest_exists (l : List Pfx) (x : List Bool) (h : ∃ q ∈ l, q.1 <+: x) : ∃ p, Longest l x p := by
  induction l with
  | nil => obtain ⟨q, hq, _⟩ := h; cases hq
  | cons a l ih =>
    by_cases hl : ∃ q ∈ l, q.1 <+: x
    · obtain ⟨p, hp, hpx, hmax⟩ := ih hl
      by_cases ha : a.1 <+: x ∧ p.1.length < a.1.length
      · refine ⟨a, List.mem_cons_self, ha.1, fun q hq hqx => ?_⟩
        rcases List.mem_cons.mp hq with rfl | hq
        · exact Nat.le_refl _
        · have := hmax q hq hqx; omega
      · refine ⟨p, List.mem_cons_of_mem _ hp, hpx, fun q hq hqx => ?_⟩
        rcases List.mem_cons.mp hq with rfl | hq
        · exact Nat.le_of_not_lt fun hlt => ha ⟨hqx, hlt⟩
        · exact hmax q hq hqx
    · obtain ⟨q, hq, hqx⟩ := h
      have hqa : q = a := by
        rcases List.mem_cons.mp hq with h | h
        · exact h
        · exact absurd ⟨q, h, hqx⟩ hl
      subst hqa
      refine ⟨q, List.mem_cons_self, hqx, fun r hr hrx => ?_⟩
      rcases List.mem_cons.mp hr with rfl | hr
      · exact Nat.le_refl _
      · exact absurd ⟨r, hr, hrx⟩ hl

theorem answer_exists (l : List Pfx) (z : Nat) (x : List Bool) : ∃ d, Answer l z x d := by
  by_cases h : ∃ q ∈ l, q.1 <+: x
  · obtain ⟨p, hp⟩ := longest_exists l x h
    exact ⟨p.2, Or.inl ⟨p, hp, rfl⟩⟩
  · exact ⟨z, Or.inr ⟨fun q hq hqx => h ⟨q, hq, hqx⟩, rfl⟩⟩

theorem answer_unique {l : List Pfx} (hc : Conf l) {z : Nat} {x : List Bool} {d e : Nat}
    (h1 : Answer l z x d) (h2 : Answer l z x e) : d = e := by
  rcases h1 with ⟨p, ⟨hp, hpx, hpm⟩, rfl⟩ | ⟨hn, rfl⟩
  · rcases h2 with ⟨q, ⟨hq, hqx, hqm⟩, rfl⟩ | ⟨hn, rfl⟩
    · exact hc p hp q hq (prefix_same hpx hqx (Nat.le_antisymm (hqm p hp hpx) (hpm q hq hqx)))
    · exact absurd hpx (hn p hp)
  · rcases h2 with ⟨q, ⟨hq, hqx, _⟩, rfl⟩ | ⟨_, rfl⟩
    · exact absurd hqx (hn q hq)
    · rfl

theorem same_of_forward {l l' : List Pfx} (hc : Conf l')
    (h : ∀ z x d, x.length = 128 → Answer l z x d → Answer l' z x d) : Same l l' := by
  intro z x d hx
  refine ⟨h z x d hx, fun h' => ?_⟩
  obtain ⟨e, he⟩ := answer_exists l z x
  rw [answer_unique hc h' (h z x e hx he)]
  exact he

/-- Longest match depends only on which networks are there. -/
theorem same_of_mem {l l' : List Pfx} (h : ∀ a, a ∈ l ↔ a ∈ l') : Same l l' := by
  intro z x d _
  unfold Answer Longest
  simp only [h]

theorem adj_replace {α : Type} {u v u' v' : List α} {r a b : α} (h : u ++ r :: v = u' ++ a :: b :: v') :
    (∃ w, u = u' ++ a :: b :: w) ∨ (b = r ∧ u = u' ++ [a]) ∨ (a = r ∧ v = b :: v') ∨
      (∃ w, v = w ++ a :: b :: v') := by
  induction u generalizing u' with
  | nil =>
    cases u' with
    | nil =>
      simp only [List.nil_append, List.cons.injEq] at h
      exact Or.inr (Or.inr (Or.inl ⟨h.1.symm, h.2⟩))
    | cons c u' =>
      simp only [List.nil_append, List.cons_append, List.cons.injEq] at h
      exact Or.inr (Or.inr (Or.inr ⟨u', h.2⟩))
  | cons c u ih =>
    cases u' with
    | nil =>
      simp only [List.nil_append, List.cons_append, List.cons.injEq] at h
      obtain ⟨rfl, h⟩ := h
      cases u with
      | nil =>
        simp only [List.nil_append, List.cons.injEq] at h
        exact Or.inr (Or.inl ⟨h.1.symm, rfl⟩)
      | cons e u =>
        simp only [List.cons_append, List.cons.injEq] at h
        exact Or.inl ⟨u, by rw [h.1]; rfl⟩
    | cons e u' =>
      simp only [List.cons_append, List.cons.injEq] at h
      obtain ⟨rfl, h⟩ := h
      rcases ih h with ⟨w, hw⟩ | ⟨hb, hu⟩ | ⟨ha, hv⟩ | ⟨w, hw⟩
      · exact Or.inl ⟨w, by rw [hw]; rfl⟩
      · exact Or.inr (Or.inl ⟨hb, by rw [hu]; rfl⟩)
      · exact Or.inr (Or.inr (Or.inl ⟨ha, hv⟩))
      · exact Or.inr (Or.inr (Or.inr ⟨w, hw⟩))

theorem sorted_mid {u v : List Pfx} {a b : Pfx} (h : Sorted (u ++ a :: b :: v)) :
    (∀ q ∈ u, lexLe q.1 a.1) ∧ lexLe a.1 b.1 ∧ (∀ q ∈ v, lexLe b.1 q.1) := by
  unfold Sorted at h
  rw [List.pairwise_append] at h
  obtain ⟨_, h2, h3⟩ := h
  rw [List.pairwise_cons, List.pairwise_cons] at h2
  exact ⟨fun q hq => h3 q hq a List.mem_cons_self, h2.1 b List.mem_cons_self, h2.2.1⟩

theorem mem_drop_one {u v : List Pfx} {a b q : Pfx} (h : q ∈ u ++ a :: v) : q ∈ u ++ a :: b :: v := by
  simp only [List.mem_append, List.mem_cons] at *
  rcases h with h | h | h <;> simp [h]

/-- Removing a network next to a covering one with the same list. -/
theorem step_sub {u v : List Pfx} {a b : Pfx} (hi : Inv (u ++ a :: b :: v)) (hd : a.2 = b.2) (hab : a.1 <+: b.1) :
    Inv (u ++ a :: v) ∧ Same (u ++ a :: b :: v) (u ++ a :: v) := by
  obtain ⟨hu, _, hv⟩ := sorted_mid hi.sorted
  have hconf : Conf (u ++ a :: v) := fun p hp q hq => hi.conf p (mem_drop_one hp) q (mem_drop_one hq)
  have hmem : a ∈ u ++ a :: v := by simp
  have hm : a.1 = b.1 ∨ Mrg a b := by
    by_cases he : a.1 = b.1
    · exact Or.inl he
    · refine Or.inr ⟨hd, Or.inr ⟨?_, hab⟩⟩
      exact Nat.lt_of_le_of_ne hab.length_le fun hl => he (hab.eq_of_length hl)
  refine ⟨⟨?_, fun p hp => hi.len p (mem_drop_one hp), hconf, ?_⟩, same_of_forward hconf ?_⟩
  · refine List.Pairwise.sublist ?_ hi.sorted
    exact List.Sublist.append (List.Sublist.refl _) (List.Sublist.cons_cons _ (List.sublist_cons_self _ _))
  · intro t ht
    rcases hi.own t (mem_drop_one ht) with ⟨x, hx, htx, hmax⟩ | hs
    · exact Or.inl ⟨x, hx, htx, fun q hq => hmax q (mem_drop_one hq)⟩
    · right
      intro u' p q v' heq hp hq
      rcases adj_replace heq with ⟨w, hw⟩ | ⟨rfl, hw⟩ | ⟨rfl, hw⟩ | ⟨w, hw⟩
      · exact hs u' p q (w ++ a :: b :: v) (by rw [hw]; simp) hp hq
      · exact hs u' p q (b :: v) (by rw [hw]; simp) hp hq
      · exfalso
        refine hs u p b v rfl hp ⟨hp.1.trans hab, ?_⟩ hm
        intro he
        rw [← he] at hab
        exact hp.2 (List.IsPrefix.eq_of_length hp.1 (Nat.le_antisymm hp.1.length_le hab.length_le))
      · exact hs (u ++ a :: b :: w) p q v' (by rw [hw]; simp) hp hq
  · intro z x d hx h
    rcases h with ⟨p, ⟨hp, hpx, hmax⟩, rfl⟩ | ⟨hn, rfl⟩
    · left
      have hsub : ∀ q ∈ u ++ a :: v, q.1 <+: x → q.1.length ≤ p.1.length := fun q hq => hmax q (mem_drop_one hq)
      by_cases hin : p ∈ u ++ a :: v
      · exact ⟨p, ⟨hin, hpx, hsub⟩, rfl⟩
      · have hpb : p = b := by
          simp only [List.mem_append, List.mem_cons, not_or] at hp hin
          rcases hp with h | h | h | h
          · exact absurd h hin.1
          · exact absurd h hin.2.1
          · exact h
          · exact absurd h hin.2.2
        subst hpb
        by_cases hq : ∃ q ∈ u ++ a :: v, q.1 <+: x ∧ a.1.length < q.1.length
        · obtain ⟨q, hq, hqx, hlen⟩ := hq
          have hqp : q.1 <+: p.1 := List.prefix_of_prefix_length_le hqx hpx (hsub q hq hqx)
          have haq : a.1 <+: q.1 := List.prefix_of_prefix_length_le hab hqp (Nat.le_of_lt hlen)
          have hqe : q.1 = p.1 := by
            simp only [List.mem_append, List.mem_cons] at hq
            rcases hq with h | rfl | h
            · have := lexLe_antisymm (hu q h) (lexLe_prefix haq)
              rw [this] at hlen; omega
            · omega
            · exact lexLe_antisymm (lexLe_prefix hqp) (hv q h)
          refine ⟨q, ⟨hq, hqx, ?_⟩, ?_⟩
          · rw [hqe]; exact hsub
          · exact hi.conf p (by simp) q (mem_drop_one hq) hqe.symm
        · refine ⟨a, ⟨hmem, hab.trans hpx, fun q hq' hqx => ?_⟩, hd.symm⟩
          exact Nat.le_of_not_lt fun hlt => hq ⟨q, hq', hqx, hlt⟩
    · exact Or.inr ⟨fun q hq => hn q (mem_drop_one hq), rfl⟩

/-- The first bit of an address after a prefix. -/
theorem next_bit {s x : List Bool} (h : s <+: x) (hl : s.length < x.length) : ∃ c, s ++ [c] <+: x := by
  obtain ⟨r, rfl⟩ := h
  cases r with
  | nil => simp at hl
  | cons c r => exact ⟨c, ⟨r, by simp⟩⟩

/-- Below a network means: its parent is at or below. -/
theorem below_snoc {t s : List Bool} {c : Bool} (h : Below t (s ++ [c])) : t <+: s := by
  have hlen : t.length ≤ s.length := by
    have h1 := h.1.length_le
    have h2 : t.length ≠ (s ++ [c]).length := fun he => h.2 (h.1.eq_of_length he)
    simp at h1 h2; omega
  exact List.prefix_of_prefix_length_le h.1 (List.prefix_append _ _) hlen

theorem snoc_below {t s : List Bool} (c : Bool) (h : t <+: s) : Below t (s ++ [c]) := by
  refine ⟨h.trans (List.prefix_append _ _), fun he => ?_⟩
  have := h.length_le
  rw [he] at this
  simp at this
  omega

/-- Nothing is between a prefix and its lower half. -/
theorem lt_half {t s : List Bool} (h : lexLt t (s ++ [false]) = true) : lexLe t s := by
  cases h2 : lexLt s t with
  | false => exact h2
  | true =>
    exfalso
    have hp : s <+: t := prefix_between (List.prefix_append s [false]) (lexLe_of_lt h2) (lexLe_of_lt h)
    obtain ⟨r, rfl⟩ := hp
    rw [lexLt_append] at h
    cases r with
    | nil => rw [List.append_nil, lexLt_irrefl] at h2; cases h2
    | cons c r =>
      cases c
      · simp [lexLt_cons] at h; cases r <;> simp [lexLt] at h
      · simp [lexLt_cons] at h

theorem half_lt (s : List Bool) : lexLt (s ++ [false]) (s ++ [true]) = true := by
  rw [lexLt_append]; rfl

theorem sib_mrg {a b : Pfx} {s : List Bool} (ha : a.1 = s ++ [false]) (hb : b.1 = s ++ [true]) (hd : a.2 = b.2) : Mrg a b :=
  ⟨hd, Or.inl ⟨by rw [ha, hb]; simp, by rw [ha]; simp, by rw [ha, hb]; simp⟩⟩

/-- Two halves next to each other: their union is not itself in the list. -/
theorem parent_notin {u v : List Pfx} {a b : Pfx} {s : List Bool} (hi : Inv (u ++ a :: b :: v))
    (ha : a.1 = s ++ [false]) (hb : b.1 = s ++ [true]) (hd : a.2 = b.2) :
    ∀ t ∈ u ++ a :: b :: v, t.1 ≠ s := by
  intro t ht he
  rcases hi.own t ht with ⟨x, hx, htx, hmax⟩ | hs
  · have hsl : s.length < 128 := by
      have := hi.len a (by simp)
      rw [ha] at this; simp at this; omega
    obtain ⟨c, hc⟩ := next_bit (he ▸ htx) (by omega)
    cases c
    · have := hmax a (by simp) (ha ▸ hc)
      rw [ha, he] at this; simp at this
      omega
    · have := hmax b (by simp) (hb ▸ hc)
      rw [hb, he] at this; simp at this
      omega
  · exact hs u a b v rfl (by rw [ha, he]; exact snoc_below _ (List.prefix_refl _))
      (by rw [hb, he]; exact snoc_below _ (List.prefix_refl _)) (Or.inr (sib_mrg ha hb hd))

/-- Joining two halves with the same list. -/
theorem step_sib {u v : List Pfx} {a b : Pfx} {s : List Bool} (hi : Inv (u ++ a :: b :: v))
    (hlt : ∀ q ∈ u, lexLt q.1 a.1 = true)
    (ha : a.1 = s ++ [false]) (hb : b.1 = s ++ [true]) (hd : a.2 = b.2) :
    Inv (u ++ (s, a.2) :: v) ∧ Same (u ++ a :: b :: v) (u ++ (s, a.2) :: v) ∧ (∀ q ∈ u, lexLt q.1 s = true) := by
  obtain ⟨hu, _, hv⟩ := sorted_mid hi.sorted
  have hnot := parent_notin hi ha hb hd
  have hsl : s.length < 128 := by
    have := hi.len a (by simp)
    rw [ha] at this; simp at this; omega
  have hm : Mrg a b := sib_mrg ha hb hd
  have hmem : ∀ q, q ∈ u ++ (s, a.2) :: v → q = (s, a.2) ∨ q ∈ u ++ a :: b :: v := by
    intro q hq
    simp only [List.mem_append, List.mem_cons] at *
    rcases hq with h | h | h <;> simp [h]
  have husl : ∀ q ∈ u, lexLt q.1 s = true := by
    intro q hq
    rcases lexLe_cases (lt_half (ha ▸ hlt q hq)) with h | h
    · exact absurd h (hnot q (by simp [hq]))
    · exact h
  have hsv : ∀ q ∈ v, lexLt s q.1 = true := fun q hq =>
    lexLt_of_lt_of_le (lexLt_prefix (List.prefix_append s [true]) (by simp)) (hb ▸ hv q hq)
  have hconf : Conf (u ++ (s, a.2) :: v) := by
    intro p hp q hq hpq
    rcases hmem p hp with rfl | hp'
    · rcases hmem q hq with rfl | hq'
      · rfl
      · exact absurd hpq.symm (hnot q hq')
    · rcases hmem q hq with rfl | hq'
      · exact absurd hpq (hnot p hp')
      · exact hi.conf p hp' q hq' hpq
  refine ⟨⟨?_, ?_, hconf, ?_⟩, same_of_forward hconf ?_, husl⟩
  · have h := hi.sorted
    unfold Sorted at *
    rw [List.pairwise_append] at *
    obtain ⟨h1, h2, h3⟩ := h
    rw [List.pairwise_cons, List.pairwise_cons] at h2
    refine ⟨h1, List.pairwise_cons.mpr ⟨fun q hq => lexLe_of_lt (hsv q hq), h2.2.2⟩, ?_⟩
    intro p hp q hq
    rcases List.mem_cons.mp hq with rfl | hq
    · exact lexLe_of_lt (husl p hp)
    · exact h3 p hp q (by simp [hq])
  · intro q hq
    rcases hmem q hq with rfl | hq
    · show s.length ≤ 128; omega
    · exact hi.len q hq
  · intro t ht
    by_cases hts : t.1 = s
    · -- the joined network has an address of its own: nothing was beneath the lower half
      left
      refine ⟨s ++ [false] ++ List.replicate (127 - s.length) false, by simp; omega, ?_, ?_⟩
      · rw [hts]; exact ⟨[false] ++ List.replicate (127 - s.length) false, by simp⟩
      · intro q hq hqx
        rw [hts]
        apply Nat.le_of_not_lt
        intro hlen
        have hqa : s ++ [false] <+: q.1 :=
          List.prefix_of_prefix_length_le (List.prefix_append _ _) hqx (by simp; omega)
        rcases List.mem_append.mp hq with h | h
        · have := lexLt_of_lt_of_le (ha ▸ hlt q h) (lexLe_prefix hqa)
          rw [lexLt_irrefl] at this; cases this
        · rcases List.mem_cons.mp h with rfl | h
          · simp at hlen
          · have h1 : lexLe (s ++ [true]) q.1 := hb ▸ hv q h
            obtain ⟨r, hr⟩ := hqa
            rw [← hr] at h1
            unfold lexLe at h1
            rw [List.append_assoc, lexLt_append] at h1
            simp [lexLt_cons] at h1
    · have ht' : t ∈ u ++ a :: b :: v := by
        rcases hmem t ht with rfl | h
        · exact absurd rfl hts
        · exact h
      rcases hi.own t ht' with ⟨x, hx, htx, hmax⟩ | hs
      · left
        refine ⟨x, hx, htx, fun q hq hqx => ?_⟩
        rcases hmem q hq with rfl | hq'
        · obtain ⟨c, hc⟩ := next_bit hqx (by show s.length < _; omega)
          cases c
          · have := hmax a (by simp) (ha ▸ hc)
            rw [ha] at this; simp at this; show s.length ≤ _; omega
          · have := hmax b (by simp) (hb ▸ hc)
            rw [hb] at this; simp at this; show s.length ≤ _; omega
        · exact hmax q hq' hqx
      · right
        have hnb : ¬ t.1 <+: s := fun hts' =>
          hs u a b v rfl (by rw [ha]; exact snoc_below _ hts') (by rw [hb]; exact snoc_below _ hts') (Or.inr hm)
        intro u' p q v' heq hp hq
        rcases adj_replace heq with ⟨w, hw⟩ | ⟨rfl, hw⟩ | ⟨rfl, hw⟩ | ⟨w, hw⟩
        · exact hs u' p q (w ++ a :: b :: v) (by rw [hw]; simp) hp hq
        · exact absurd hq.1 hnb
        · exact absurd hp.1 hnb
        · exact hs (u ++ a :: b :: w) p q v' (by rw [hw]; simp) hp hq
  · intro z x d hx h
    rcases h with ⟨p, ⟨hp, hpx, hmax⟩, rfl⟩ | ⟨hn, rfl⟩
    · left
      by_cases hin : p ∈ u ++ v
      · refine ⟨p, ⟨?_, hpx, fun q hq hqx => ?_⟩, rfl⟩
        · simp only [List.mem_append, List.mem_cons] at *
          rcases hin with h | h <;> simp [h]
        · rcases hmem q hq with rfl | hq'
          · obtain ⟨c, hc⟩ := next_bit hqx (by show s.length < _; omega)
            cases c
            · have := hmax a (by simp) (ha ▸ hc)
              rw [ha] at this; simp at this; show s.length ≤ _; omega
            · have := hmax b (by simp) (hb ▸ hc)
              rw [hb] at this; simp at this; show s.length ≤ _; omega
          · exact hmax q hq' hqx
      · have hpab : (∃ c, p.1 = s ++ [c]) ∧ p.2 = a.2 := by
          simp only [List.mem_append, List.mem_cons, not_or] at hp hin
          rcases hp with h | rfl | rfl | h
          · exact absurd h hin.1
          · exact ⟨⟨_, ha⟩, rfl⟩
          · exact ⟨⟨_, hb⟩, hd.symm⟩
          · exact absurd h hin.2
        obtain ⟨⟨c, hpc⟩, hpd⟩ := hpab
        by_cases hq : ∃ q ∈ u ++ v, q.1 <+: x ∧ s.length < q.1.length
        · obtain ⟨q, hq, hqx, hlen⟩ := hq
          have hq1 : q ∈ u ++ a :: b :: v := by
            simp only [List.mem_append, List.mem_cons] at *
            rcases hq with h | h <;> simp [h]
          have hq2 : q ∈ u ++ (s, a.2) :: v := by
            simp only [List.mem_append, List.mem_cons] at *
            rcases hq with h | h <;> simp [h]
          have hle := hmax q hq1 hqx
          have hqe : q.1 = p.1 := prefix_same hqx hpx (by rw [hpc] at hle ⊢; simp at hle ⊢; omega)
          refine ⟨q, ⟨hq2, hqx, fun r hr hrx => ?_⟩, hi.conf p hp q hq1 hqe.symm⟩
          rcases hmem r hr with rfl | hr'
          · show s.length ≤ _; omega
          · rw [hqe]; exact hmax r hr' hrx
        · refine ⟨(s, a.2), ⟨by simp, (List.prefix_append s [c]).trans (hpc ▸ hpx), fun q hq' hqx => ?_⟩, hpd⟩
          simp only [List.mem_append, List.mem_cons] at hq'
          rcases hq' with h | rfl | h
          · exact Nat.le_of_not_lt fun hlt => hq ⟨q, by simp [h], hqx, hlt⟩
          · exact Nat.le_refl _
          · exact Nat.le_of_not_lt fun hlt => hq ⟨q, by simp [h], hqx, hlt⟩
    · refine Or.inr ⟨fun q hq hqx => ?_, rfl⟩
      rcases hmem q hq with rfl | hq'
      · obtain ⟨c, hc⟩ := next_bit hqx (by show s.length < _; omega)
        cases c
        · exact hn a (by simp) (ha ▸ hc)
        · exact hn b (by simp) (hb ▸ hc)
      · exact hn q hq' hqx

/-- Ordered, of equal length, with the same parent: the two halves of it. -/
theorem halves {a b : List Bool} (hle : lexLe a b) (hne : a ≠ b) (hl : a.length = b.length) (h0 : a ≠ [])
    (hd : a.dropLast = b.dropLast) : ∃ s, a = s ++ [false] ∧ b = s ++ [true] := by
  have hb0 : b ≠ [] := by intro h; rw [h] at hl; exact h0 (List.length_eq_zero_iff.mp hl)
  have ha := List.dropLast_concat_getLast h0
  have hb := List.dropLast_concat_getLast hb0
  rw [hd] at ha
  generalize b.dropLast = s at *
  generalize a.getLast h0 = x at *
  generalize b.getLast hb0 = y at *
  subst ha
  rw [← hb] at hle hne
  unfold lexLe at hle
  rw [lexLt_append] at hle
  refine ⟨s, ?_, ?_⟩
  · cases x <;> cases y <;> simp_all [lexLt]
  · rw [← hb]; cases x <;> cases y <;> simp_all [lexLt]

theorem sorted_unique {l l' : List Pfx} (hc : Conf l) (h1 : Sorted l) (h2 : Sorted l') (hp : l.Perm l') : l = l' := by
  induction l generalizing l' with
  | nil => exact hp.nil_eq
  | cons a l ih =>
    cases l' with
    | nil => exact absurd hp.symm.nil_eq (by simp)
    | cons b l' =>
      have hab : a = b := by
        have hb : b ∈ a :: l := hp.mem_iff.mpr List.mem_cons_self
        have ha : a ∈ b :: l' := hp.mem_iff.mp List.mem_cons_self
        unfold Sorted at h1 h2
        rw [List.pairwise_cons] at h1 h2
        have hle1 : lexLe a.1 b.1 := by
          rcases List.mem_cons.mp hb with h | h
          · rw [h]; exact lexLe_refl _
          · exact h1.1 b h
        have hle2 : lexLe b.1 a.1 := by
          rcases List.mem_cons.mp ha with h | h
          · rw [h]; exact lexLe_refl _
          · exact h2.1 a h
        have he := lexLe_antisymm hle1 hle2
        exact Prod.ext he (hc a List.mem_cons_self b hb he)
      subst hab
      congr 1
      refine ih (fun p hp' q hq => hc p (List.mem_cons_of_mem _ hp') q (List.mem_cons_of_mem _ hq)) ?_ ?_
        (List.Perm.cons_inv hp)
      · exact (List.pairwise_cons.mp h1).2
      · exact (List.pairwise_cons.mp h2).2

/-- Strictly sorted. -/
def Strict (l : List Pfx) : Prop := l.Pairwise fun a b => lexLt a.1 b.1 = true

theorem strict_of_stable {l : List Pfx} (h : Sorted l) (hs : Stable l) : Strict l := by
  induction l with
  | nil => exact List.Pairwise.nil
  | cons a l ih =>
    have h2 := List.pairwise_cons.mp h
    have hl : Strict l := ih h2.2 fun u p q v he => hs (a :: u) p q v (by rw [he]; rfl)
    refine List.pairwise_cons.mpr ⟨?_, hl⟩
    intro b hb
    cases l with
    | nil => cases hb
    | cons c l =>
      have hac : lexLt a.1 c.1 = true := by
        rcases lexLe_cases (h2.1 c List.mem_cons_self) with he | hlt
        · exact absurd (Or.inl he) (hs [] a c l rfl)
        · exact hlt
      rcases List.mem_cons.mp hb with rfl | hb
      · exact hac
      · exact lexLt_trans hac ((List.pairwise_cons.mp hl).1 b hb)

end Gdnsd.Geo
