/-
What holds of every legal configuration, also of those that normalization gets wrong.
-/
import Verif.Geo.MergeLemmas
namespace Gdnsd.Geo

/-- The networks of `l'` cover what those of `l` cover, with lists found there. -/
structure Rel (l l' : List Pfx) : Prop where
  back : ∀ n ∈ l', ∀ x : List Bool, x.length = 128 → n.1 <+: x → ∃ m ∈ l, m.1 <+: x ∧ m.2 = n.2
  cover : ∀ x : List Bool, x.length = 128 → (∃ m ∈ l, m.1 <+: x) → ∃ n ∈ l', n.1 <+: x
  areas : ∀ q ∈ areaNets, q ∈ l → q ∈ l'

theorem Rel.refl (l : List Pfx) : Rel l l :=
  ⟨fun n hn _ _ hx => ⟨n, hn, hx, rfl⟩, fun _ _ h => h, fun _ _ h => h⟩

theorem Rel.trans {a b c : List Pfx} (h : Rel a b) (h' : Rel b c) : Rel a c := by
  refine ⟨fun n hn x hx hnx => ?_, fun x hx hm => h'.cover x hx (h.cover x hx hm), fun q hq hm => h'.areas q hq (h.areas q hq hm)⟩
  obtain ⟨m, h1, h2, h3⟩ := h'.back n hn x hx hnx
  obtain ⟨k, h4, h5, h6⟩ := h.back m h1 x hx h2
  exact ⟨k, h4, h5, by rw [h6, h3]⟩

theorem Rel.of_mem {l l' : List Pfx} (h : ∀ a, a ∈ l ↔ a ∈ l') : Rel l l' :=
  ⟨fun n hn _ _ hx => ⟨n, (h n).mpr hn, hx, rfl⟩, fun _ _ ⟨m, h1, h2⟩ => ⟨m, (h m).mp h1, h2⟩, fun q _ hm => (h q).mp hm⟩

theorem Rel.append {a a' b b' : List Pfx} (h : Rel a a') (h' : Rel b b') : Rel (a ++ b) (a' ++ b') := by
  refine ⟨fun n hn x hx hnx => ?_, fun x hx ⟨m, hm, hmx⟩ => ?_, fun q hq hm => ?_⟩
  · rcases List.mem_append.mp hn with hn | hn
    · obtain ⟨m, h1, h2⟩ := h.back n hn x hx hnx; exact ⟨m, List.mem_append.mpr (Or.inl h1), h2⟩
    · obtain ⟨m, h1, h2⟩ := h'.back n hn x hx hnx; exact ⟨m, List.mem_append.mpr (Or.inr h1), h2⟩
  · rcases List.mem_append.mp hm with hm | hm
    · obtain ⟨n, h1, h2⟩ := h.cover x hx ⟨m, hm, hmx⟩; exact ⟨n, List.mem_append.mpr (Or.inl h1), h2⟩
    · obtain ⟨n, h1, h2⟩ := h'.cover x hx ⟨m, hm, hmx⟩; exact ⟨n, List.mem_append.mpr (Or.inr h1), h2⟩
  · rcases List.mem_append.mp hm with hm | hm
    · exact List.mem_append.mpr (Or.inl (h.areas q hq hm))
    · exact List.mem_append.mpr (Or.inr (h'.areas q hq hm))

/-- A masked area, or a network with a list of its own outside the areas. -/
def Kind (p : Pfx) : Prop := p ∈ areaNets ∨ (p.2 < 2147483647 ∧ ∀ a ∈ areas, ¬ a <+: p.1)

theorem kind_user {p : Pfx} (h : Kind p) (hn : p.2 ≠ UNDEF) : p.2 < 2147483647 ∧ ∀ a ∈ areas, ¬ a <+: p.1 := by
  rcases h with h | h
  · obtain ⟨a, _, rfl⟩ := List.mem_map.mp h
    exact absurd rfl hn
  · exact h

theorem kind_area {p : Pfx} (h : Kind p) (hn : p.2 = UNDEF) : p ∈ areaNets := by
  rcases h with h | h
  · exact h
  · rw [hn] at h; exact absurd h.1 (by decide)

theorem areas_no_merge : ∀ a ∈ areaNets, ∀ b ∈ areaNets, a ≠ b → ¬ a.1 <+: b.1 ∧ a.1.dropLast ≠ b.1.dropLast := by
  decide +kernel

/-- Two neighbours become one. -/
theorem rel_merge {a b c : Pfx} (hka : Kind a) (hkb : Kind b) (hne : a.1 ≠ b.1) (hm : Mrg a b) (hl : ∀ p ∈ [a, b], p.1.length ≤ 128)
    (hc : (a.1.length < b.1.length ∧ c = a) ∨ ∃ s, a.1 = s ++ [false] ∧ b.1 = s ++ [true] ∧ c = (s, a.2)) :
    Kind c ∧ Rel [a, b] [c] := by
  obtain ⟨hd, hm⟩ := hm
  have hund : a.2 ≠ UNDEF := by
    intro hu
    have ha := kind_area hka hu
    have hb := kind_area hkb (by rw [← hd]; exact hu)
    obtain ⟨n1, n2⟩ := areas_no_merge a ha b hb fun he => hne (by rw [he])
    rcases hm with ⟨_, _, h⟩ | ⟨_, h⟩
    · exact n2 h
    · exact n1 h
  have hua := kind_user hka hund
  have hub := kind_user hkb (by rw [← hd]; exact hund)
  have hnoarea : ∀ q ∈ areaNets, q ∈ [a, b] → q ∈ [c] := by
    intro q hq hm
    have hq2 : q.2 = UNDEF := by obtain ⟨_, _, rfl⟩ := List.mem_map.mp hq; rfl
    simp only [List.mem_cons, List.not_mem_nil, or_false] at hm
    rcases hm with rfl | rfl
    · exact absurd hq2 hund
    · exact absurd (hd.trans hq2) hund
  rcases hc with ⟨hlt, rfl⟩ | ⟨s, hs1, hs2, rfl⟩
  · have hp : c.1 <+: b.1 := by
      rcases hm with ⟨h, _⟩ | ⟨_, h⟩
      · omega
      · exact h
    refine ⟨hka, ⟨?_, ?_, hnoarea⟩⟩
    · intro n hn x _ hx
      rw [List.mem_singleton.mp hn] at hx ⊢
      exact ⟨c, by simp, hx, rfl⟩
    · rintro x _ ⟨m, hm, hx⟩
      refine ⟨c, by simp, ?_⟩
      simp only [List.mem_cons, List.not_mem_nil, or_false] at hm
      rcases hm with rfl | rfl
      · exact hx
      · exact hp.trans hx
  · refine ⟨Or.inr ⟨hua.1, fun y hy hp => hua.2 y hy (by rw [hs1]; exact hp.trans (List.prefix_append _ _))⟩, ⟨?_, ?_, hnoarea⟩⟩
    · intro n hn x hxl hx
      rw [List.mem_singleton.mp hn] at hx ⊢
      have hsl : s.length < x.length := by
        have := hl a (by simp)
        rw [hs1] at this
        simp at this
        omega
      obtain ⟨c, hc⟩ := next_bit hx hsl
      cases c with
      | false => exact ⟨a, by simp, by rw [hs1]; exact hc, rfl⟩
      | true => exact ⟨b, by simp, by rw [hs2]; exact hc, hd.symm⟩
    · rintro x _ ⟨m, hm, hx⟩
      refine ⟨(s, a.2), by simp, ?_⟩
      simp only [List.mem_cons, List.not_mem_nil, or_false] at hm
      rcases hm with rfl | rfl
      · rw [hs1] at hx; exact (List.prefix_append _ _).trans hx
      · rw [hs2] at hx; exact (List.prefix_append _ _).trans hx

/-- Dropping a duplicate. -/
theorem rel_dup {a b : Pfx} (hka : Kind a) (hkb : Kind b) (he : a.1 = b.1) : Rel [a, b] [a] := by
  refine ⟨?_, ?_, ?_⟩
  · intro n hn x _ hx
    rw [List.mem_singleton.mp hn] at hx ⊢
    exact ⟨a, by simp, hx, rfl⟩
  · rintro x _ ⟨m, hm, hx⟩
    refine ⟨a, by simp, ?_⟩
    simp only [List.mem_cons, List.not_mem_nil, or_false] at hm
    rcases hm with rfl | rfl
    · exact hx
    · rw [he]; exact hx
  · intro q hq hm
    simp only [List.mem_cons, List.not_mem_nil, or_false] at hm ⊢
    rcases hm with rfl | rfl
    · rfl
    · obtain ⟨y, hy, rfl⟩ := List.mem_map.mp hq
      have ha : a.2 = UNDEF := by
        rcases hka with h | h
        · obtain ⟨z, _, rfl⟩ := List.mem_map.mp h; rfl
        · exact absurd (show y <+: a.1 by rw [he]; exact List.prefix_refl _) (h.2 y hy)
      exact Prod.ext he.symm ha.symm

/-- One entry taking in those after it. -/
theorem absorb_weak (rest : List Net) : ∀ na : Net, (∀ n ∈ na :: rest, NetOk n ∧ Kind (toP n)) → Sorted ((na :: rest).map toP) →
    ∃ r taken, absorb na rest = .ok r ∧ rest = taken ++ r.2.2 ∧ r.2.1.length = taken.length ∧ (∀ d ∈ r.2.1, ∃ n, d = deleted n) ∧
      NetOk r.1 ∧ Kind (toP r.1) ∧ Rel ((na :: taken).map toP) [toP r.1] ∧
      (taken = [] → r.1 = na ∧ ∀ nb v, r.2.2 = nb :: v → ¬ ((toP na).1 = (toP nb).1 ∨ Mrg (toP na) (toP nb))) := by
  induction rest with
  | nil =>
    intro na hok _
    have := hok na List.mem_cons_self
    exact ⟨(na, [], []), [], rfl, rfl, rfl, by simp, this.1, this.2, Rel.refl _, fun _ => ⟨rfl, by simp⟩⟩
  | cons nb rest ih =>
    intro na hok hs
    have hna := hok na (by simp)
    have hnb := hok nb (by simp)
    have hs1 : lexLe (toP na).1 (toP nb).1 := (List.pairwise_cons.mp hs).1 (toP nb) (by simp)
    have hsrest : Sorted (rest.map toP) := (List.pairwise_cons.mp (List.pairwise_cons.mp hs).2).2
    -- continuing with `na'` in place of `na` and `nb`
    have go : ∀ na' : Net, NetOk na' → Kind (toP na') → lexLe (toP na').1 (toP na).1 → Rel [toP na, toP nb] [toP na'] →
        ∃ r taken, (absorb na' rest).map (fun r => (r.1, deleted nb :: r.2.1, r.2.2)) = .ok r ∧ nb :: rest = taken ++ r.2.2 ∧
          r.2.1.length = taken.length ∧ (∀ d ∈ r.2.1, ∃ n, d = deleted n) ∧ NetOk r.1 ∧ Kind (toP r.1) ∧
          Rel ((na :: taken).map toP) [toP r.1] ∧
          (taken = [] → r.1 = na ∧ ∀ nb v, r.2.2 = nb :: v → ¬ ((toP na).1 = (toP nb).1 ∨ Mrg (toP na) (toP nb))) := by
      intro na' ho hk hle hrel
      obtain ⟨r, taken, h1, h2, h3, h4, h5, h6, h7, _⟩ := ih na' (by
          intro n hn
          rcases List.mem_cons.mp hn with rfl | hn
          · exact ⟨ho, hk⟩
          · exact hok n (by simp [hn])) (by
          rw [List.map_cons]
          refine List.pairwise_cons.mpr ⟨?_, hsrest⟩
          intro q hq
          have := (List.pairwise_cons.mp hs).1 q (by rw [List.map_cons]; exact List.mem_cons_of_mem _ hq)
          exact lexLe_trans hle this)
      refine ⟨(r.1, deleted nb :: r.2.1, r.2.2), nb :: taken, by rw [h1]; rfl, by rw [h2]; rfl, by simp [h3], ?_, h5, h6, ?_, by simp⟩
      · intro d hd
        rcases List.mem_cons.mp hd with rfl | hd
        · exact ⟨nb, rfl⟩
        · exact h4 d hd
      · have : Rel ([toP na, toP nb] ++ taken.map toP) ([toP na'] ++ taken.map toP) := hrel.append (Rel.refl _)
        exact this.trans h7
    rw [absorb, netEq_eq hna.1 hnb.1]
    by_cases he : (toP na).1 = (toP nb).1
    · rw [if_pos (by simpa using he)]
      exact go na hna.1 hna.2 (lexLe_refl _) (rel_dup hna.2 hnb.2 he)
    · rw [if_neg (by simpa using he)]
      have hz : ¬ (na.mask = 0 ∧ nb.mask = 0) := by
        rintro ⟨h0, h1⟩
        apply he
        have e1 : (toP na).1 = [] := by rw [← List.length_eq_zero_iff, toP_length hna.1, h0]
        have e2 : (toP nb).1 = [] := by rw [← List.length_eq_zero_iff, toP_length hnb.1, h1]
        rw [e1, e2]
      rw [mergeable_eq hna.1 hnb.1 hz, Outcome.bind_ok]
      have hlen : ∀ p ∈ [toP na, toP nb], p.1.length ≤ 128 := by
        intro p hp
        simp only [List.mem_cons, List.not_mem_nil, or_false] at hp
        rcases hp with rfl | rfl
        · rw [toP_length hna.1]; exact hna.1.mask
        · rw [toP_length hnb.1]; exact hnb.1.mask
      by_cases hm : Mrg (toP na) (toP nb)
      · rw [decide_eq_true hm, cond_true]
        by_cases hmask : na.mask = nb.mask
        · rw [if_pos hmask]
          have hl : (toP na).1.length = (toP nb).1.length := by rw [toP_length hna.1, toP_length hnb.1, hmask]
          have hh : (toP na).1 ≠ [] ∧ (toP na).1.dropLast = (toP nb).1.dropLast := by
            rcases hm.2 with ⟨_, h1, h2⟩ | ⟨h, _⟩
            · exact ⟨h1, h2⟩
            · omega
          obtain ⟨s, e1, e2⟩ := halves hs1 he hl hh.1 hh.2
          obtain ⟨g1, g2⟩ := shrink hna.1 e1
          obtain ⟨k1, k2⟩ := rel_merge (c := (s, na.dc)) hna.2 hnb.2 he hm hlen (Or.inr ⟨s, e1, e2, rfl⟩)
          exact go _ g1 (by rw [g2]; exact k1) (by rw [g2, e1]; exact lexLe_prefix (List.prefix_append _ _)) (by rw [g2]; exact k2)
        · rw [if_neg hmask]
          have hlt : (toP na).1.length < (toP nb).1.length := by
            rcases hm.2 with ⟨h, _⟩ | ⟨h, _⟩
            · rw [toP_length hna.1, toP_length hnb.1] at h; exact absurd h hmask
            · exact h
          obtain ⟨k1, k2⟩ := rel_merge (c := toP na) hna.2 hnb.2 he hm hlen (Or.inl ⟨hlt, rfl⟩)
          exact go na hna.1 hna.2 (lexLe_refl _) k2
      · rw [decide_eq_false hm, cond_false]
        refine ⟨(na, [], nb :: rest), [], rfl, rfl, rfl, by simp, hna.1, hna.2, Rel.refl _, fun _ => ⟨rfl, ?_⟩⟩
        intro nb' v hv
        simp only [List.cons.injEq] at hv
        rw [← hv.1]
        rintro (h | h)
        · exact he h
        · exact hm h

theorem stable_cons {a : Pfx} {l : List Pfx} (h : Stable l) (hn : ∀ b v, l = b :: v → ¬ (a.1 = b.1 ∨ Mrg a b)) : Stable (a :: l) := by
  intro u x y v he
  cases u with
  | nil =>
    simp only [List.nil_append, List.cons.injEq] at he
    rw [← he.1]
    exact hn y v he.2
  | cons c u =>
    simp only [List.cons_append, List.cons.injEq] at he
    exact h u x y v he.2

theorem passLoop_weak (k : Nat) : ∀ l : List Net, l.length ≤ k → (∀ n ∈ l, NetOk n ∧ Kind (toP n)) → Sorted (l.map toP) →
    ∃ arr n kept del, passLoop k l = .ok (arr, n) ∧ (∀ n ∈ kept, NetOk n ∧ Kind (toP n)) ∧ arr.Perm (kept ++ del) ∧
      (∀ d ∈ del, ∃ m, d = deleted m) ∧ kept.length + n = l.length ∧ Rel (l.map toP) (kept.map toP) ∧ (l ≠ [] → kept ≠ []) ∧
      (n = 0 → arr = l ∧ Stable (l.map toP)) := by
  induction k with
  | zero =>
    intro l hk _ _
    obtain rfl := List.length_eq_zero_iff.mp (by omega : l.length = 0)
    exact ⟨[], 0, [], [], rfl, by simp, List.Perm.refl _, by simp, rfl, Rel.refl _, by simp, fun _ => ⟨rfl, stable_nil⟩⟩
  | succ k ih =>
    intro l hk hok hs
    cases l with
    | nil => exact ⟨[], 0, [], [], rfl, by simp, List.Perm.refl _, by simp, rfl, Rel.refl _, by simp, fun _ => ⟨rfl, stable_nil⟩⟩
    | cons na rest =>
      obtain ⟨r, taken, h1, h2, h3, h4, h5, h6, h7, h8⟩ := absorb_weak rest na hok hs
      have hsub : ∀ n ∈ r.2.2, n ∈ rest := fun n hn => by rw [h2]; exact List.mem_append.mpr (Or.inr hn)
      have hsr : Sorted (r.2.2.map toP) := by
        have := (List.pairwise_cons.mp hs).2
        rw [h2, List.map_append] at this
        exact (List.pairwise_append.mp this).2.1
      have hlr : r.2.2.length + taken.length = rest.length := by rw [h2]; simp; omega
      obtain ⟨arr, n, kept, del, g1, g2, g3, g4, g5, g6, _, g8⟩ := ih r.2.2 (by simp at hk; omega)
        (fun n hn => hok n (List.mem_cons_of_mem _ (hsub n hn))) hsr
      refine ⟨r.1 :: r.2.1 ++ arr, r.2.1.length + n, r.1 :: kept, r.2.1 ++ del, by rw [passLoop, h1, Outcome.bind_ok, g1]; rfl, ?_, ?_, ?_,
        ?_, ?_, by simp, ?_⟩
      · intro m hm
        rcases List.mem_cons.mp hm with rfl | hm
        · exact ⟨h5, h6⟩
        · exact g2 m hm
      · rw [List.cons_append, List.cons_append]
        refine List.Perm.cons _ ?_
        refine (List.Perm.append_left _ g3).trans ?_
        rw [← List.append_assoc, ← List.append_assoc]
        exact List.Perm.append_right _ List.perm_append_comm
      · intro d hd
        rcases List.mem_append.mp hd with hd | hd
        · exact h4 d hd
        · exact g4 d hd
      · simp only [List.length_cons]; omega
      · have e : (na :: rest).map toP = (na :: taken).map toP ++ r.2.2.map toP := by rw [h2]; simp
        rw [e, List.map_cons (l := kept)]
        exact h7.append g6
      · intro h0
        have ht : taken = [] := List.length_eq_zero_iff.mp (by omega)
        obtain ⟨e1, e2⟩ := h8 ht
        obtain ⟨e3, e4⟩ := g8 (by omega)
        have hr2 : r.2.2 = rest := by rw [h2, ht]; rfl
        have hr1 : r.2.1 = [] := List.length_eq_zero_iff.mp (by omega)
        refine ⟨by rw [e1, hr1, e3, hr2]; rfl, ?_⟩
        rw [List.map_cons, ← hr2]
        refine stable_cons e4 ?_
        intro b v hv
        cases hc : r.2.2 with
        | nil => rw [hc] at hv; cases hv
        | cons nb w =>
          rw [hc, List.map_cons] at hv
          simp only [List.cons.injEq] at hv
          rw [← hv.1]
          exact e2 nb w hc

theorem normLoop_weak {sort : List Net → List Net} (hs : SortOk sort) (k : Nat) : ∀ l : List Net, l.length < k → l ≠ [] →
    (∀ n ∈ l, NetOk n ∧ Kind (toP n)) → Sorted (l.map toP) →
    ∃ l', normLoop sort k l = .ok l' ∧ (∀ n ∈ l', NetOk n ∧ Kind (toP n)) ∧ Sorted (l'.map toP) ∧ Stable (l'.map toP) ∧
      Rel (l.map toP) (l'.map toP) ∧ l'.length ≤ l.length := by
  induction k with
  | zero => intro l h; omega
  | succ k ih =>
    intro l hk hne hok hsl
    obtain ⟨arr, n, kept, del, h1, h2, h3, h4, h5, h6, h7, h8⟩ := passLoop_weak l.length l (Nat.le_refl _) hok hsl
    have hne' : l.isEmpty = false := by simpa using hne
    by_cases hn : n = 0
    · obtain ⟨e1, e2⟩ := h8 hn
      refine ⟨l, ?_, hok, hsl, e2, Rel.refl _, Nat.le_refl _⟩
      simp [normLoop, pass, hne', h1, hn, e1]
    · obtain ⟨p1, p2⟩ := sort_take hs h3 (fun n hn => (h2 n hn).1) h4
      have hlen : l.length - n = kept.length := by omega
      have hok' : ∀ m ∈ (sort arr).take kept.length, NetOk m ∧ Kind (toP m) := fun m hm => h2 m (p1.mem_iff.mp hm)
      have hnk : (sort arr).take kept.length ≠ [] := by
        intro h0
        rw [h0] at p1
        exact h7 hne p1.nil_eq.symm
      obtain ⟨l', g1, g2, g3, g4, g5, g6⟩ := ih ((sort arr).take kept.length) (by rw [p1.length_eq]; omega) hnk hok'
        (map_sorted p2 fun m hm => (hok' m hm).1)
      refine ⟨l', ?_, g2, g3, g4, ?_, by rw [p1.length_eq] at g6; omega⟩
      · simp [normLoop, pass, hne', h1, hn, hlen, g1]
      · exact (h6.trans (Rel.of_mem fun a => (p1.map toP).mem_iff.symm)).trans g5

/-- The list made of any legal networks. -/
theorem netsMakeList_weak {sort : List Net → List Net} (hs : SortOk sort) {es : List Entry} (hwf : ∀ e ∈ es, e.Wf)
    (hleg : ∀ e ∈ es, e.Legal) : ∃ l, netsMakeList sort es = .ok (some l) ∧ ListOk l ∧ (∀ n ∈ l, Kind (toP n)) ∧
      Rel (es.map Entry.pfx ++ areaNets) (l.map toP) ∧ l.length ≤ es.length + 5 := by
  obtain ⟨l1, h1, h2, h3⟩ := (netsParse_ok es [] hwf (by simp)).1 hleg
  obtain ⟨l2, g1, g2, g3⟩ := appendAll_ok undefNets l1 undefNets_ok h2
  rw [h3, undefNets_toP, List.map_nil, List.nil_append] at g3
  have hlen2 : l2.length = es.length + 5 := by
    have := congrArg List.length g3
    simpa [areaNets, areas] using this
  have hne : l2 ≠ [] := by intro h; rw [h] at hlen2; simp at hlen2
  have hkind : ∀ n ∈ l2, Kind (toP n) := by
    intro n hn
    have : toP n ∈ l2.map toP := List.mem_map_of_mem hn
    rw [g3] at this
    rcases List.mem_append.mp this with h | h
    · obtain ⟨e, he, hem⟩ := List.mem_map.mp h
      right
      rw [← hem]
      refine ⟨?_, legal_area (hleg e he)⟩
      have := hwf e he
      cases e with
      | v6 ip m d => exact this.2
      | v4 ip m d => exact this.2
    · exact Or.inl h
  have hp := hs.perm l2
  have hok' : ∀ n ∈ sort l2, NetOk n ∧ Kind (toP n) := fun n hn => ⟨g2 n (hp.mem_iff.mp hn), hkind n (hp.mem_iff.mp hn)⟩
  obtain ⟨l, k1, k2, k3, k4, k5, k6⟩ := normLoop_weak hs (l2.length + 1) (sort l2) (by rw [hp.length_eq]; omega)
    (fun h => hne (by rw [h] at hp; exact hp.nil_eq.symm)) hok'
    (map_sorted (hs.sorted l2 fun n hn => (g2 n hn).len) fun n hn => (hok' n hn).1)
  have hne' : l2.isEmpty = false := by simpa using hne
  have hstrict := strict_of_stable k3 k4
  refine ⟨l, ?_, ⟨fun n hn => ⟨(k2 n hn).1, ?_⟩, ⟨k3, netOk_len fun n hn => (k2 n hn).1, strict_conf hstrict, ?_⟩, k4⟩,
    fun n hn => (k2 n hn).2, ?_, by rw [hp.length_eq] at k6; omega⟩
  · simp [netsMakeList, h1, g1, finish, normalize, hne, k1]
  · rcases (k2 n hn).2 with h | h
    · obtain ⟨a, _, ha⟩ := List.mem_map.mp h
      exact Or.inr (congrArg Prod.snd ha).symm
    · exact Or.inl h.1
  · exact fun t _ => Or.inr fun u a b v he _ _ => k4 u a b v he
  · rw [← g3]
    exact (Rel.of_mem fun a => (hp.map toP).mem_iff.symm).trans k5

/-- In such a list the areas are masked and everything else is not. -/
theorem kind_answers {l : List Pfx} (hk : ∀ p ∈ l, Kind p) (ha : ∀ q ∈ areaNets, q ∈ l) {x : List Bool} :
    (∀ a ∈ areas, a <+: x → Answer l 0 x UNDEF) ∧ ((∀ a ∈ areas, ¬ a <+: x) → ∀ d, Answer l 0 x d → d < 2147483647) := by
  constructor
  · intro a ham hax
    refine Or.inl ⟨(a, UNDEF), ⟨ha _ (List.mem_map.mpr ⟨a, ham, rfl⟩), hax, ?_⟩, rfl⟩
    intro q hq hqx
    refine Nat.le_of_not_lt fun hlt => ?_
    have hlt : a.length < q.1.length := hlt
    have haq : a <+: q.1 := List.prefix_of_prefix_length_le hax hqx (by omega)
    rcases hk q hq with h | h
    · obtain ⟨b, hb, rfl⟩ := List.mem_map.mp h
      have : a = b := area_comparable a ham b hb (Or.inl haq)
      subst this
      exact Nat.lt_irrefl _ hlt
    · exact h.2 a ham haq
  · rintro hno d (⟨p, hp, rfl⟩ | ⟨_, rfl⟩)
    · rcases hk p hp.1 with h | h
      · obtain ⟨b, hb, rfl⟩ := List.mem_map.mp h
        exact absurd hp.2.1 (hno b hb)
      · exact h.1
    · omega

theorem rel_candidate {es : List Entry} {l : List Pfx} (hrel : Rel (es.map Entry.pfx ++ areaNets) l) {x : List Bool}
    (hx : x.length = 128) (hno : ∀ a ∈ areas, ¬ a <+: x) {d : Nat} (hd : Answer l 0 x d) : Candidate es x d := by
  rcases hd with ⟨p, hp, rfl⟩ | ⟨hn, rfl⟩
  · obtain ⟨m, h1, h2, h3⟩ := hrel.back p hp.1 x hx hp.2.1
    rcases List.mem_append.mp h1 with h | h
    · obtain ⟨e, he, rfl⟩ := List.mem_map.mp h
      exact Or.inl ⟨e, he, h2, h3.symm⟩
    · obtain ⟨a, ha, rfl⟩ := List.mem_map.mp h
      exact absurd h2 (hno a ha)
  · refine Or.inr ⟨fun e he hex => ?_, rfl⟩
    obtain ⟨n, h1, h2⟩ := hrel.cover x hx ⟨e.pfx, List.mem_append.mpr (Or.inl (List.mem_map_of_mem he)), hex⟩
    exact hn n h1 h2

/-- The tree of any legal networks. -/
theorem nets_tree_weak {sort : List Net → List Net} (hs : SortOk sort) {es : List Entry} (hwf : ∀ e ∈ es, e.Wf)
    (hleg : ∀ e ∈ es, e.Legal) : ∃ l, netsMakeList sort es = .ok (some l) ∧ ListOk l ∧
      (∀ x : List Bool, x.length = 128 → (∀ a ∈ areas, ¬ a <+: x) → ((∃ q ∈ l.map toP, q.1 <+: x) ↔ ∃ e ∈ es, e.pfx.1 <+: x)) ∧
      Res (xlate l) (fun t => ∃ T, TreeFor t T ∧ Complete T ∧
        ∀ a : Addr, a.Wf → ∃ d j, look T (target a) = some (d, j) ∧ Candidate es (target a) d ∧ Answer (l.map toP) 0 (target a) d)
      (16777216 < 1 + 127 * (es.length + 5)) := by
  obtain ⟨l, h1, h2, h3, h4, h5⟩ := netsMakeList_weak hs hwf hleg
  have hk : ∀ p ∈ l.map toP, Kind p := by
    intro p hp
    obtain ⟨n, hn, rfl⟩ := List.mem_map.mp hp
    exact h3 n hn
  have har : ∀ q ∈ areaNets, q ∈ l.map toP := fun q hq => h4.areas q hq (List.mem_append.mpr (Or.inr hq))
  refine ⟨l, h1, h2, ?_, ?_⟩
  · intro x hx hno
    constructor
    · rintro ⟨q, hq, hqx⟩
      obtain ⟨m, g1, g2, _⟩ := h4.back q hq x hx hqx
      rcases List.mem_append.mp g1 with h | h
      · obtain ⟨e, he, rfl⟩ := List.mem_map.mp h
        exact ⟨e, he, g2⟩
      · obtain ⟨a, ha, rfl⟩ := List.mem_map.mp h
        exact absurd g2 (hno a ha)
    · rintro ⟨e, he, hex⟩
      exact h4.cover x hx ⟨e.pfx, List.mem_append.mpr (Or.inl (List.mem_map_of_mem he)), hex⟩
  have hx := xlate_ok h2.rest
  cases hr : xlate l with
  | ub =>
    rw [hr] at hx
    have hx : 16777216 < 1 + 127 * l.length := hx
    show 16777216 < _
    omega
  | ok t =>
    rw [hr] at hx
    obtain ⟨T, hT, hA⟩ := hx
    refine ⟨T, hT, complete_of hA h2.inv.conf ?_ ?_, ?_⟩
    · exact fun x _ a ha hax => (kind_answers hk har).1 a ha hax
    · exact fun x _ hno d hd => (kind_answers hk har).2 hno d hd
    · intro a ha
      obtain ⟨d, j, g1, g2⟩ := hA (target a) (target_length ha)
      exact ⟨d, j, g1, rel_candidate h4 (target_length ha) (target_not_area ha) g2, g2⟩

/-- The tree of a database with any legal explicit networks. -/
theorem merged_tree_weak {sort : List Net → List Net} (hs : SortOk sort) {db : Mmdb} (hdb : ∀ off, db.dcOf off < 2147483647) {isV4 : Bool}
    {es : List Entry} (hwf : ∀ e ∈ es, e.Wf) (hleg : ∀ e ∈ es, e.Legal) {a b : List Net}
    (ha : geoList sort db isV4 = .ok (some a)) (hb : netsMakeList sort es = .ok (some b)) :
    Res (merge2tree sort a b) (fun t => ∃ T, TreeFor t T ∧ Complete T ∧ ∀ c : Addr, c.Wf → ∃ d j, look T (target c) = some (d, j) ∧
        ((∃ e ∈ es, e.pfx.1 <+: target c) → Answer (b.map toP) 0 (target c) d) ∧
        ((∀ e ∈ es, ¬ e.pfx.1 <+: target c) → GeoAnswer db isV4 (target c) d))
      (16777216 < 1 + 127 * (a.length + b.length)) := by
  obtain ⟨b', h1, h2, h3, h4, _⟩ := netsMakeList_weak hs hwf hleg
  rw [hb] at h1
  obtain rfl := Option.some.inj (Outcome.ok.inj h1)
  obtain ⟨b', w1, _, w2, _⟩ := nets_tree_weak hs hwf hleg
  rw [hb] at w1
  obtain rfl := Option.some.inj (Outcome.ok.inj w1)
  have hk : ∀ p ∈ b.map toP, Kind p := by
    intro p hp
    obtain ⟨n, hn, rfl⟩ := List.mem_map.mp hp
    exact h3 n hn
  have har : ∀ q ∈ areaNets, q ∈ b.map toP := fun q hq => h4.areas q hq (List.mem_append.mpr (Or.inr hq))
  rcases geoList_ok hs hdb isV4 with ⟨g0, _⟩ | ⟨a', g1, g2, g3, g4⟩
  · rw [ha] at g0; cases g0
  rw [ha] at g1
  obtain rfl := Option.some.inj (Outcome.ok.inj g1)
  obtain ⟨l, k1, k2, k3, k4⟩ := merge_ok hs g2 h2
  have hsma : ∀ q ∈ a.map toP, q.2 < 2147483647 := by
    intro q hq
    obtain ⟨n, hn, rfl⟩ := List.mem_map.mp hq
    exact (g2.ok n hn).2
  have hout : ∀ x : List Bool, x.length = 128 → (∀ a ∈ areas, ¬ a <+: x) → ∀ d, Answer (l.map toP) 0 x d →
      ((∃ e ∈ es, e.pfx.1 <+: x) → Answer (b.map toP) 0 x d) ∧
      ((∀ e ∈ es, ¬ e.pfx.1 <+: x) → Answer (a.map toP) 0 x d) := by
    intro x hx hno d hd
    refine ⟨fun he => ((k4 x hx 0 d).1 ((w2 x hx hno).mpr he)).mp hd, fun hne => ((k4 x hx 0 d).2 ?_).mp hd⟩
    intro q hq hqx
    obtain ⟨e, he, hex⟩ := (w2 x hx hno).mp ⟨q, hq, hqx⟩
    exact hne e he hex
  rw [merge2tree, k1, Outcome.bind_ok]
  have hx := xlate_ok k2.rest
  cases hr : xlate l with
  | ub =>
    rw [hr] at hx
    have hx : 16777216 < 1 + 127 * l.length := hx
    show 16777216 < _
    omega
  | ok t =>
    rw [hr] at hx
    obtain ⟨T, hT, hA⟩ := hx
    refine ⟨T, hT, complete_of hA k2.inv.conf ?_ ?_, ?_⟩
    · intro x hx y hy hyx
      refine ((k4 x hx 0 UNDEF).1 ⟨(y, UNDEF), har _ (List.mem_map.mpr ⟨y, hy, rfl⟩), hyx⟩).mpr ?_
      exact (kind_answers hk har).1 y hy hyx
    · intro x hx hno d hd
      by_cases he : ∃ e ∈ es, e.pfx.1 <+: x
      · exact (kind_answers hk har).2 hno d ((hout x hx hno d hd).1 he)
      · exact answer_small hsma ((hout x hx hno d hd).2 fun e h1 h2 => he ⟨e, h1, h2⟩)
    · intro c hcw
      obtain ⟨d, j, q1, q2⟩ := hA (target c) (target_length hcw)
      rw [List.nil_append] at q2
      obtain ⟨r1, r2⟩ := hout _ (target_length hcw) (target_not_area hcw) d q2
      refine ⟨d, j, q1, r1, fun hne => ?_⟩
      have hda := r2 hne
      have hca := strict_conf (anti_strict g2.anti)
      unfold GeoAnswer
      by_cases hroot : root isV4 <+: target c
      · rw [if_pos hroot]
        obtain ⟨e, e1, e2⟩ := g4 _ (target_length hcw) hroot (target_not_area hcw)
        rw [answer_unique hca hda e2]; exact e1
      · rw [if_neg hroot]
        exact answer_unique hca hda (g3 _ (target_length hcw) hroot)

end Gdnsd.Geo
