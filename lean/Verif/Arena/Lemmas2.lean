/-
Every call keeps the invariant of arenas.
-/
import Verif.Arena.Lemmas
namespace Gdnsd.Arena

theorem arena_eq {s : Sys} {i : Nat} {a : Lta} (h : s.arenas[i]? = some (some a)) : s.arena i = .ok a := by
  unfold Sys.arena; rw [h]

theorem owns_set {s : Sys} {hp : Heap} {i : Nat} {x : Option Lta} (hi : i < s.arenas.length) (j k p : Nat) :
    Owns ⟨hp, s.arenas.set i x⟩ j k p ↔ if j = i then (∃ a, x = some a ∧ k ≤ a.pool ∧ a.pools[k]? = some (some p)) else Owns s j k p := by
  unfold Owns
  dsimp only
  by_cases hj : j = i
  · subst hj
    rw [if_pos rfl, List.getElem?_set_self hi]
    constructor
    · rintro ⟨a, h1, h2⟩; exact ⟨a, Option.some.inj h1, h2⟩
    · rintro ⟨a, h1, h2⟩; exact ⟨a, by rw [h1], h2⟩
  · rw [if_neg hj, List.getElem?_set_ne (by omega)]

theorem kinds_lt {s : Sys} {g : Ghost} (I : Inv s g) {i : Nat} {k : Kind} (h : g.kinds[i]? = some k) : i < s.arenas.length := by
  rw [← I.len]; exact (List.getElem?_eq_some_iff.mp h).1

theorem get_of {α : Type} {l : List α} {i : Nat} {x y : α} (h : (l.set i x)[i]? = some y) : y = x := by
  have hl := (List.getElem?_eq_some_iff.mp h).1
  rw [List.length_set] at hl
  rw [List.getElem?_set_self hl] at h
  exact (Option.some.inj h).symm

theorem step_new {s : Sys} {g : Ghost} (I : Inv s g) : ∃ s' r, s.step .new = .ok (s', r) ∧ Inv s' (g.step r .new) := by
  unfold Sys.step ltaNew
  dsimp only
  rw [put_eq (show 0 < (List.replicate initPools none).length by decide)]
  simp only [Outcome.map_ok]
  refine ⟨_, _, rfl, ?_⟩
  unfold Ghost.step
  have hno : ∀ i k, ¬ Owns s i k s.heap.next := fun i k h => by
    have := I.bound _ ((I.live _).mpr ⟨i, k, h⟩); omega
  have ho : ∀ (a : Lta) (h : Heap) j k p, a.pool = 0 → (a.pools[0]? = some (some s.heap.next)) →
      (Owns ⟨h, s.arenas ++ [some a]⟩ j k p ↔ Owns s j k p ∨ (j = s.arenas.length ∧ k = 0 ∧ p = s.heap.next)) := by
    intro a h j k p h0 h1
    unfold Owns
    dsimp only
    by_cases hj : j < s.arenas.length
    · rw [List.getElem?_append_left hj]
      constructor
      · exact fun h => .inl h
      · rintro (h | ⟨h, _⟩)
        · exact h
        · omega
    · by_cases hj' : j = s.arenas.length
      · subst hj'
        rw [List.getElem?_append_right (Nat.le_refl _)]
        simp only [Nat.sub_self, List.getElem?_cons_zero]
        constructor
        · rintro ⟨b, h2, h3, h4⟩
          cases h2
          have : k = 0 := by omega
          subst this
          rw [h1] at h4
          cases h4
          exact .inr ⟨by trivial, rfl, rfl⟩
        · rintro (⟨b, h2, _⟩ | ⟨_, rfl, rfl⟩)
          · rw [List.getElem?_eq_none (Nat.le_refl _)] at h2; cases h2
          · exact ⟨a, rfl, by omega, h1⟩
      · constructor
        · rintro ⟨b, h2, _⟩
          rw [List.getElem?_eq_none (by simp; omega)] at h2; cases h2
        · rintro (⟨b, h2, _⟩ | ⟨h, _⟩)
          · rw [List.getElem?_eq_none (by omega)] at h2; cases h2
          · omega
  refine ⟨?_, ?_, ?_, ?_, ?_, ?_, ?_, I.apart⟩
  · simp [I.len]
  · intro i h
    dsimp only at h ⊢
    by_cases hi : i < g.kinds.length
    · rw [List.getElem?_append_left hi] at h
      rw [List.getElem?_append_left (by rw [← I.len]; exact hi)]
      exact I.gone i h
    · rw [List.getElem?_append_right (by omega)] at h
      have : i - g.kinds.length = 0 := by
        have := (List.getElem?_eq_some_iff.mp h).1
        simp at this; omega
      rw [this] at h; cases h
  · intro i k h hk
    dsimp only at h ⊢
    by_cases hi : i < g.kinds.length
    · rw [List.getElem?_append_left hi] at h
      rw [List.getElem?_append_left (by rw [← I.len]; exact hi)]
      exact I.there i k h hk
    · have hi' : i = s.arenas.length := by
        have := (List.getElem?_eq_some_iff.mp h).1
        simp at this
        have := I.len
        omega
      subst hi'
      rw [List.getElem?_append_right (Nat.le_refl _)]
      simp only [Nat.sub_self, List.getElem?_cons_zero]
      refine ⟨_, rfl, ?_, fun _ => rfl⟩
      intro j hj
      have : j = 0 := Nat.le_zero.mp hj
      subst this
      exact ⟨_, rfl⟩
  · intro i k i' k' p h1 h2
    rw [ho _ _ _ _ _ rfl rfl] at h1 h2
    rcases h1 with h1 | ⟨h1, h1', h1''⟩ <;> rcases h2 with h2 | ⟨h2, h2', h2''⟩
    · exact I.uniq _ _ _ _ _ h1 h2
    · subst h2''; exact absurd h1 (hno _ _)
    · subst h1''; exact absurd h2 (hno _ _)
    · omega
  · intro p
    constructor
    · intro h
      rcases List.mem_cons.mp h with h | h
      · exact ⟨s.arenas.length, 0, (ho _ _ _ _ _ rfl rfl).mpr (.inr ⟨rfl, rfl, h⟩)⟩
      · obtain ⟨i, k, h⟩ := (I.live p).mp h
        exact ⟨i, k, (ho _ _ _ _ _ rfl rfl).mpr (.inl h)⟩
    · rintro ⟨i, k, h⟩
      rw [ho _ _ _ _ _ rfl rfl] at h
      rcases h with h | ⟨_, _, h⟩
      · exact List.mem_cons_of_mem _ ((I.live p).mpr ⟨i, k, h⟩)
      · rw [h]; exact List.mem_cons_self
  · intro p h
    show p < s.heap.next + 1
    rcases List.mem_cons.mp h with h | h
    · omega
    · have := I.bound p h; omega
  · intro x hx
    obtain ⟨a, k, h1, h2, h3, h4, h5, h6⟩ := I.objs x hx
    refine ⟨a, k, ?_, h2, h3, h4, h5, ?_⟩
    · dsimp only
      rw [List.getElem?_append_left (List.getElem?_eq_some_iff.mp h1).1]; exact h1
    · intro j hj
      rw [← h6 j hj]
      have : x.pool ≠ s.heap.next := fun hc => hno x.arena k (by rw [← hc]; exact ⟨a, h1, h2, h3⟩)
      exact if_neg this

theorem label_cons {l : Bytes} (h : HasLabel l) : ∃ n t, l = n :: t ∧ n.toNat ≤ t.length ∧ label l = l.take (n.toNat + 1) ∧ (label l).length = n.toNat + 1 := by
  obtain ⟨n, t, rfl, hl⟩ := h
  refine ⟨n, t, rfl, hl, rfl, ?_⟩
  show ((n :: t).take (n.toNat + 1)).length = _
  rw [List.length_take, List.length_cons]
  omega

/-- What the objects of other steps look like. -/
theorem step_dup {s : Sys} {g : Ghost} (I : Inv s g) {a : Nat} {l : Bytes} (hk : g.kinds[a]? = some .opened) (hl : HasLabel l) :
    ∃ s' r, s.step (.dup a l) = .ok (s', r) ∧ Inv s' (g.step r (.dup a l)) := by
  obtain ⟨x, hx, hxo, hxp⟩ := I.there a _ hk (by decide)
  obtain ⟨n, t, hlt, hn, hlab, hlen⟩ := label_cons hl
  have halt := kinds_lt I hk
  unfold Sys.step
  dsimp only
  rw [arena_eq hx]
  simp only [Outcome.bind_ok]
  unfold labelDup
  rw [show rd l 0 = .ok n by rw [hlt]; rfl]
  simp only [Outcome.bind_ok]
  have hn256 : n.toNat < 256 := n.toNat_lt
  obtain ⟨p, o, x', h', e, e1, e2, e3, e4, e5, e6⟩ := malloc_ok hxo (hxp rfl) (n.toNat + 1) (by omega) (by omega) s.heap
  rw [e]
  simp only [Outcome.bind_ok]
  rw [if_pos (show n.toNat + 1 ≤ l.length by rw [hlt, List.length_cons]; omega), ← hlab]
  have hfresh : ∀ i k, ¬ Owns s i k s.heap.next := fun i k h => by
    have := I.bound _ ((I.live _).mpr ⟨i, k, h⟩); omega
  have hlive' : p ∈ h'.live := by
    rcases e6 with ⟨q1, q2, q3, q4⟩ | ⟨q1, q2, q3, q4⟩
    · rw [q1, I.live]
      rw [q2, q3] at e5
      exact ⟨a, x.pool, x, hx, Nat.le_refl _, e5⟩
    · rw [q1, q2]; exact List.mem_cons_self
  unfold Heap.write
  rw [if_pos ⟨hlive', by rw [hlen]; exact e3⟩]
  simp only [Outcome.map_ok]
  refine ⟨_, _, rfl, ?_⟩
  unfold Ghost.step
  dsimp only
  have ho : ∀ (hp : Heap) j k q, Owns ⟨hp, s.arenas.set a (some x')⟩ j k q ↔ Owns s j k q ∨ (j = a ∧ k = x.pool + 1 ∧ x'.pool = x.pool + 1 ∧ q = s.heap.next ∧ p = s.heap.next) := by
    intro hp j k q
    rw [owns_set halt]
    by_cases hj : j = a
    · subst hj
      rw [if_pos rfl]
      rcases e6 with ⟨q1, q2, q3, q4⟩ | ⟨q1, q2, q3, q4⟩
      · constructor
        · rintro ⟨y, hy, hy1, hy2⟩; cases hy; exact .inl ⟨x, hx, by omega, by rw [← q3]; exact hy2⟩
        · rintro (⟨y, hy, hy1, hy2⟩ | ⟨_, _, h, _⟩)
          · rw [hx] at hy; cases hy; exact ⟨x', rfl, by omega, by rw [q3]; exact hy2⟩
          · omega
      · constructor
        · rintro ⟨y, hy, hy1, hy2⟩
          cases hy
          by_cases hkx : k ≤ x.pool
          · rw [q4 k hkx] at hy2; exact .inl ⟨x, hx, hkx, hy2⟩
          · have : k = x'.pool := by omega
            subst this
            rw [e5] at hy2; cases hy2
            exact .inr ⟨rfl, q3, q3, q1, q1⟩
        · rintro (⟨y, hy, hy1, hy2⟩ | ⟨_, h1, h2, h3, h4⟩)
          · rw [hx] at hy; cases hy; exact ⟨x', rfl, by omega, by rw [q4 k hy1]; exact hy2⟩
          · exact ⟨x', rfl, by omega, by rw [h1, ← h2, e5, h3, h4]⟩
    · rw [if_neg hj]
      constructor
      · exact .inl
      · rintro (h | ⟨h, _⟩)
        · exact h
        · exact absurd h hj
  have hmem : ∀ q c, q ≠ s.heap.next → h'.mem q c = s.heap.mem q c := by
    intro q c hq
    rcases e6 with ⟨q1, _⟩ | ⟨_, q2, _⟩
    · rw [q1]
    · rw [q2]; exact if_neg hq
  -- the new object is apart from the others
  have hap : ∀ y ∈ g.objs, Obj.Apart ⟨a, p, o, label l⟩ y := by
    intro y hy
    obtain ⟨b, k, h1, h2, h3, h4, h5, h6⟩ := I.objs y hy
    by_cases hp : p = y.pool
    · right; right
      rcases e6 with ⟨q1, q2, q3, q4⟩ | ⟨q1, _⟩
      · rw [q2, q3] at e5
        obtain ⟨u1, u2⟩ := I.uniq y.arena k a x.pool p ⟨b, h1, h2, by rw [h3, hp]⟩ ⟨x, hx, Nat.le_refl _, e5⟩
        rw [u1, hx] at h1
        cases h1
        show y.off + y.data.length ≤ o
        rw [q4]; exact h5 u2
      · exact absurd ⟨b, h1, h2, by rw [h3, ← hp, q1]⟩ (hfresh y.arena k)
    · exact .inl hp
  refine ⟨?_, ?_, ?_, ?_, ?_, ?_, ?_, ?_⟩
  · dsimp only; rw [List.length_set]; exact I.len
  · intro i h
    dsimp only
    have : i ≠ a := by rintro rfl; rw [hk] at h; cases h
    rw [List.getElem?_set_ne (by omega)]; exact I.gone i h
  · intro i k h hkk
    dsimp only
    by_cases hi : i = a
    · subst hi
      rw [List.getElem?_set_self halt]
      exact ⟨x', rfl, e1, fun _ => e2⟩
    · rw [List.getElem?_set_ne (by omega)]; exact I.there i k h hkk
  · intro i k i' k' q h1 h2
    rw [ho] at h1 h2
    rcases h1 with h1 | h1 <;> rcases h2 with h2 | h2
    · exact I.uniq _ _ _ _ _ h1 h2
    · rw [h2.2.2.2.1] at h1; exact absurd h1 (hfresh _ _)
    · rw [h1.2.2.2.1] at h2; exact absurd h2 (hfresh _ _)
    · exact ⟨by rw [h1.1, h2.1], by rw [h1.2.1, h2.2.1]⟩
  · intro q
    have : q ∈ h'.live ↔ q ∈ s.heap.live ∨ (x'.pool = x.pool + 1 ∧ q = s.heap.next ∧ p = s.heap.next) := by
      rcases e6 with ⟨q1, q2, q3, q4⟩ | ⟨q1, q2, q3, q4⟩
      · rw [q1]
        constructor
        · exact .inl
        · rintro (h | ⟨h, _⟩)
          · exact h
          · omega
      · rw [q2]
        constructor
        · intro h
          rcases List.mem_cons.mp h with h | h
          · exact .inr ⟨q3, h, q1⟩
          · exact .inl h
        · rintro (h | ⟨_, h, _⟩)
          · exact List.mem_cons_of_mem _ h
          · rw [h]; exact List.mem_cons_self
    show q ∈ h'.live ↔ _
    rw [this, I.live]
    constructor
    · rintro (⟨i, k, h⟩ | ⟨h1, h2, h3⟩)
      · exact ⟨i, k, (ho _ _ _ _).mpr (.inl h)⟩
      · exact ⟨a, x.pool + 1, (ho _ _ _ _).mpr (.inr ⟨rfl, rfl, h1, h2, h3⟩)⟩
    · rintro ⟨i, k, h⟩
      rw [ho] at h
      rcases h with h | ⟨_, _, h1, h2, h3⟩
      · exact .inl ⟨i, k, h⟩
      · exact .inr ⟨h1, h2, h3⟩
  · intro q hq
    have hq : q ∈ h'.live := hq
    show q < h'.next
    rcases e6 with ⟨q1, _⟩ | ⟨_, q2, _⟩
    · rw [q1] at hq ⊢; exact I.bound q hq
    · rw [q2] at hq ⊢
      show q < s.heap.next + 1
      rcases List.mem_cons.mp hq with h | h
      · omega
      · have := I.bound q h; omega
  · intro y hy
    dsimp only at hy ⊢
    rcases List.mem_cons.mp hy with rfl | hy'
    · dsimp only
      refine ⟨x', x'.pool, ?_, Nat.le_refl _, e5, by rw [hlen]; exact e3, fun _ => by rw [hlen, e4]; exact Nat.le_refl _, ?_⟩
      · rw [List.getElem?_set_self halt]
      · intro j hj
        rw [if_pos ⟨rfl, by omega, by omega⟩, show o + j - o = j by omega]
    · obtain ⟨b, k, h1, h2, h3, h4, h5, h6⟩ := I.objs y hy'
      have hmem' : ∀ j, j < y.data.length → (if y.pool = p ∧ o ≤ y.off + j ∧ y.off + j < o + (label l).length then (label l).getD (y.off + j - o) 0 else h'.mem y.pool (y.off + j)) = y.data.getD j 0 := by
        intro j hj
        rw [if_neg (show ¬ (y.pool = p ∧ o ≤ y.off + j ∧ y.off + j < o + (label l).length) by
          rintro ⟨c1, c2, c3⟩
          rcases hap y hy' with hc | hc | hc
          · exact hc c1.symm
          · dsimp only at hc; omega
          · dsimp only at hc; omega), hmem _ _ (fun hc => hfresh y.arena k ⟨b, h1, h2, by rw [h3, hc]⟩)]
        exact h6 j hj
      by_cases hya : y.arena = a
      · rw [hya, hx] at h1
        cases h1
        rw [hya, List.getElem?_set_self halt]
        rcases e6 with ⟨q1, q2, q3, q4⟩ | ⟨q1, q2, q3, q4⟩
        · exact ⟨x', k, rfl, by omega, by rw [q3]; exact h3, h4, fun hc => by have := h5 (by omega); omega, hmem'⟩
        · exact ⟨x', k, rfl, by omega, by rw [q4 k h2]; exact h3, h4, fun hc => by omega, hmem'⟩
      · rw [List.getElem?_set_ne (by omega)]
        exact ⟨b, k, h1, h2, h3, h4, h5, hmem'⟩
  · exact List.pairwise_cons.mpr ⟨hap, I.apart⟩

theorem step_close {s : Sys} {g : Ghost} (I : Inv s g) {a : Nat} {kd : Kind} (hk : g.kinds[a]? = some kd) (hg : kd ≠ .gone) :
    ∃ s' r, s.step (.close a) = .ok (s', r) ∧ Inv s' (g.step r (.close a)) := by
  obtain ⟨x, hx, hxo, hxp⟩ := I.there a _ hk hg
  have halt := kinds_lt I hk
  have hgl : a < g.kinds.length := by rw [I.len]; exact halt
  unfold Sys.step
  dsimp only
  rw [arena_eq hx]
  refine ⟨_, _, rfl, ?_⟩
  unfold Ghost.step
  have hpool : ∀ k, k ≤ x.pool → (ltaClose x).pools[k]? = x.pools[k]? := by
    intro k h
    obtain ⟨p, hp⟩ := hxo k h
    exact realloc_get (by omega) (List.getElem?_eq_some_iff.mp hp).1
  have ho : ∀ j k q, Owns ⟨s.heap, s.arenas.set a (some (ltaClose x))⟩ j k q ↔ Owns s j k q := by
    intro j k q
    rw [owns_set halt]
    by_cases hj : j = a
    · subst hj
      rw [if_pos rfl]
      constructor
      · rintro ⟨y, hy, hy1, hy2⟩
        cases hy
        exact ⟨x, hx, hy1, by rw [← hpool k hy1]; exact hy2⟩
      · rintro ⟨y, hy, hy1, hy2⟩
        rw [hx] at hy; cases hy
        exact ⟨ltaClose x, rfl, hy1, by rw [hpool k hy1]; exact hy2⟩
    · rw [if_neg hj]
  refine ⟨?_, ?_, ?_, ?_, ?_, I.bound, ?_, I.apart⟩
  · dsimp only; rw [List.length_set, List.length_set]; exact I.len
  · intro i h
    dsimp only at h ⊢
    by_cases hi : i = a
    · subst hi; rw [List.getElem?_set_self hgl] at h; cases h
    · rw [List.getElem?_set_ne (by omega)] at h ⊢; exact I.gone i h
  · intro i k h hkk
    dsimp only at h ⊢
    by_cases hi : i = a
    · subst hi
      rw [List.getElem?_set_self hgl] at h
      rw [List.getElem?_set_self halt]
      cases h
      refine ⟨_, rfl, ?_, (fun hc => by cases hc)⟩
      intro j hj
      rw [hpool j hj]; exact hxo j hj
    · rw [List.getElem?_set_ne (by omega)] at h ⊢; exact I.there i k h hkk
  · intro i k i' k' q h1 h2
    rw [ho] at h1 h2
    exact I.uniq _ _ _ _ _ h1 h2
  · intro q
    show q ∈ s.heap.live ↔ _
    rw [I.live]
    simp only [ho]
  · intro y hy
    obtain ⟨b, k, h1, h2, h3, h4, h5, h6⟩ := I.objs y hy
    dsimp only
    by_cases hya : y.arena = a
    · rw [hya, hx] at h1
      cases h1
      rw [hya, List.getElem?_set_self halt]
      exact ⟨_, k, rfl, h2, by rw [hpool k h2]; exact h3, h4, h5, h6⟩
    · rw [List.getElem?_set_ne (by omega)]
      exact ⟨b, k, h1, h2, h3, h4, h5, h6⟩

theorem step_destroy {s : Sys} {g : Ghost} (I : Inv s g) {a : Nat} {kd : Kind} (hk : g.kinds[a]? = some kd) (hg : kd ≠ .gone) :
    ∃ s' r, s.step (.destroy a) = .ok (s', r) ∧ Inv s' (g.step r (.destroy a)) := by
  obtain ⟨x, hx, hxo, hxp⟩ := I.there a _ hk hg
  have halt := kinds_lt I hk
  have hgl : a < g.kinds.length := by rw [I.len]; exact halt
  unfold Sys.step
  dsimp only
  rw [arena_eq hx]
  simp only [Outcome.bind_ok]
  obtain ⟨lv, e1, e2⟩ := free_ok (a := x) (x.pool + 1) s.heap (fun k h => hxo k (by omega))
    (fun k k' p h1 h2 h3 h4 => (I.uniq a k a k' p ⟨x, hx, by omega, h3⟩ ⟨x, hx, by omega, h4⟩).2)
    (fun k p h1 h2 => (I.live p).mpr ⟨a, k, x, hx, by omega, h2⟩)
  unfold ltaDestroy
  rw [e1]
  refine ⟨_, _, rfl, ?_⟩
  unfold Ghost.step
  dsimp only
  have ho : ∀ (hp : Heap) j k q, Owns ⟨hp, s.arenas.set a none⟩ j k q ↔ Owns s j k q ∧ j ≠ a := by
    intro hp j k q
    rw [owns_set halt]
    by_cases hj : j = a
    · subst hj
      rw [if_pos rfl]
      constructor
      · rintro ⟨y, hy, _⟩; cases hy
      · rintro ⟨_, h⟩; exact absurd rfl h
    · rw [if_neg hj]
      exact ⟨fun h => ⟨h, hj⟩, fun h => h.1⟩
  have hlive : ∀ q, q ∈ lv ↔ ∃ i k, Owns s i k q ∧ i ≠ a := by
    intro q
    rw [e2 q, I.live]
    constructor
    · rintro ⟨⟨i, k, h⟩, h'⟩
      refine ⟨i, k, h, ?_⟩
      rintro rfl
      obtain ⟨y, hy, hy1, hy2⟩ := h
      rw [hx] at hy; cases hy
      exact h' k (by omega) hy2
    · rintro ⟨i, k, h, hne⟩
      refine ⟨⟨i, k, h⟩, ?_⟩
      intro k' hk' hc
      exact hne (I.uniq i k a k' q h ⟨x, hx, by omega, hc⟩).1
  refine ⟨?_, ?_, ?_, ?_, ?_, ?_, ?_, I.apart.filter _⟩
  · dsimp only; rw [List.length_set, List.length_set]; exact I.len
  · intro i h
    dsimp only at h ⊢
    by_cases hi : i = a
    · subst hi; rw [List.getElem?_set_self halt]
    · rw [List.getElem?_set_ne (by omega)] at h ⊢; exact I.gone i h
  · intro i k h hkk
    dsimp only at h ⊢
    by_cases hi : i = a
    · subst hi
      rw [List.getElem?_set_self hgl] at h
      cases h; exact absurd rfl hkk
    · rw [List.getElem?_set_ne (by omega)] at h ⊢; exact I.there i k h hkk
  · intro i k i' k' q h1 h2
    rw [ho] at h1 h2
    exact I.uniq _ _ _ _ _ h1.1 h2.1
  · intro q
    show q ∈ lv ↔ _
    rw [hlive]
    simp only [ho]
  · intro q hq
    have hq : q ∈ lv := hq
    exact I.bound q ((e2 q).mp hq).1
  · intro y hy
    dsimp only at hy ⊢
    rw [List.mem_filter] at hy
    have hne : y.arena ≠ a := by simpa using hy.2
    obtain ⟨b, k, h1, h2, h3, h4, h5, h6⟩ := I.objs y hy.1
    rw [List.getElem?_set_ne (by omega)]
    exact ⟨b, k, h1, h2, h3, h4, h5, h6⟩

theorem step_merge {s : Sys} {g : Ghost} (I : Inv s g) {t o : Nat} {kd : Kind} (hkt : g.kinds[t]? = some .opened) (hk : g.kinds[o]? = some kd) (hg : kd ≠ .gone) (hne : t ≠ o) :
    ∃ s' r, s.step (.merge t o) = .ok (s', r) ∧ Inv s' (g.step r (.merge t o)) := by
  obtain ⟨x, hx, hxo, hxp⟩ := I.there t _ hkt (by decide)
  obtain ⟨y, hy, hyo, _⟩ := I.there o _ hk hg
  have htl := kinds_lt I hkt
  have hol := kinds_lt I hk
  have hgl : o < g.kinds.length := by rw [I.len]; exact hol
  unfold Sys.step
  dsimp only
  rw [arena_eq hx]
  simp only [Outcome.bind_ok]
  rw [arena_eq hy]
  simp only [Outcome.bind_ok]
  obtain ⟨z, e, z1, z2, z3, z4, z5, z6, z7⟩ := merge_ok hxo (hxp rfl) hyo
  rw [e]
  refine ⟨_, _, rfl, ?_⟩
  unfold Ghost.step
  dsimp only
  -- where a pool of the two arenas is afterwards
  have hto : ∀ k q, k ≤ z.pool → (z.pools[k]? = some (some q) ↔ (k < x.pool ∧ x.pools[k]? = some (some q)) ∨ (k = z.pool ∧ x.pools[x.pool]? = some (some q)) ∨ (x.pool ≤ k ∧ k < z.pool ∧ y.pools[k - x.pool]? = some (some q))) := by
    intro k q hkz
    by_cases c1 : k < x.pool
    · rw [z5 k c1]
      constructor
      · exact fun h => .inl ⟨c1, h⟩
      · rintro (h | ⟨h, _⟩ | ⟨h, _⟩)
        · exact h.2
        · omega
        · omega
    · by_cases c2 : k = z.pool
      · subst c2
        rw [z7]
        constructor
        · exact fun h => .inr (.inl ⟨rfl, h⟩)
        · rintro (⟨h, _⟩ | ⟨_, h⟩ | ⟨_, h, _⟩)
          · omega
          · exact h
          · omega
      · have := z6 (k - x.pool) (by omega)
        rw [show x.pool + (k - x.pool) = k by omega] at this
        rw [this]
        constructor
        · exact fun h => .inr (.inr ⟨by omega, by omega, h⟩)
        · rintro (⟨h, _⟩ | ⟨h, _⟩ | ⟨_, _, h⟩)
          · omega
          · omega
          · exact h
  have get_t : ((s.arenas.set t (some z)).set o none)[t]? = some (some z) := by
    rw [List.getElem?_set_ne (by omega), List.getElem?_set_self htl]
  have get_o : ((s.arenas.set t (some z)).set o none)[o]? = some none := by
    rw [List.getElem?_set_self (by rw [List.length_set]; exact hol)]
  have get_n : ∀ i, i ≠ t → i ≠ o → ((s.arenas.set t (some z)).set o none)[i]? = s.arenas[i]? := by
    intro i h1 h2
    rw [List.getElem?_set_ne (by omega), List.getElem?_set_ne (by omega)]
  -- where a pool was before
  have back : ∀ i k q, Owns ⟨s.heap, (s.arenas.set t (some z)).set o none⟩ i k q →
      (i ≠ t ∧ i ≠ o ∧ Owns s i k q) ∨ (i = t ∧ k < x.pool ∧ Owns s t k q) ∨ (i = t ∧ k = z.pool ∧ Owns s t x.pool q) ∨ (i = t ∧ x.pool ≤ k ∧ k < z.pool ∧ Owns s o (k - x.pool) q) := by
    rintro i k q ⟨b, h1, h2, h3⟩
    dsimp only at h1
    by_cases hit : i = t
    · subst hit
      rw [get_t] at h1
      cases h1
      rcases (hto k q h2).mp h3 with ⟨c, h⟩ | ⟨c, h⟩ | ⟨c1, c2, h⟩
      · exact .inr (.inl ⟨rfl, c, x, hx, by omega, h⟩)
      · exact .inr (.inr (.inl ⟨rfl, c, x, hx, Nat.le_refl _, h⟩))
      · exact .inr (.inr (.inr ⟨rfl, c1, c2, y, hy, by omega, h⟩))
    · by_cases hio : i = o
      · subst hio; rw [get_o] at h1; cases h1
      · rw [get_n i hit hio] at h1
        exact .inl ⟨hit, hio, b, h1, h2, h3⟩
  have fwd : ∀ i k q, Owns s i k q → ∃ i' k', Owns ⟨s.heap, (s.arenas.set t (some z)).set o none⟩ i' k' q := by
    rintro i k q ⟨b, h1, h2, h3⟩
    by_cases hit : i = t
    · subst hit
      rw [hx] at h1; cases h1
      by_cases c : k = x.pool
      · exact ⟨i, z.pool, z, get_t, Nat.le_refl _, by rw [z7, ← c]; exact h3⟩
      · exact ⟨i, k, z, get_t, by omega, by rw [z5 k (by omega)]; exact h3⟩
    · by_cases hio : i = o
      · subst hio
        rw [hy] at h1; cases h1
        exact ⟨t, x.pool + k, z, get_t, by omega, by rw [z6 k h2]; exact h3⟩
      · exact ⟨i, k, b, by dsimp only; rw [get_n i hit hio]; exact h1, h2, h3⟩
  refine ⟨?_, ?_, ?_, ?_, ?_, I.bound, ?_, ?_⟩
  · dsimp only; rw [List.length_set, List.length_set, List.length_set]; exact I.len
  · intro i h
    dsimp only at h ⊢
    by_cases hio : i = o
    · subst hio; exact get_o
    · rw [List.getElem?_set_ne (by omega)] at h
      have hit : i ≠ t := by rintro rfl; rw [hkt] at h; cases h
      rw [get_n i hit hio]; exact I.gone i h
  · intro i k h hkk
    dsimp only at h ⊢
    by_cases hio : i = o
    · subst hio
      rw [List.getElem?_set_self hgl] at h
      cases h; exact absurd rfl hkk
    · rw [List.getElem?_set_ne (by omega)] at h
      by_cases hit : i = t
      · subst hit
        exact ⟨z, get_t, z1, fun _ => z2⟩
      · rw [get_n i hit hio]; exact I.there i k h hkk
  · intro i k i' k' q h1 h2
    rcases back _ _ _ h1 with ⟨a1, a2, a3⟩ | ⟨a1, a2, a3⟩ | ⟨a1, a2, a3⟩ | ⟨a1, a2, a2', a3⟩ <;>
      rcases back _ _ _ h2 with ⟨b1, b2, b3⟩ | ⟨b1, b2, b3⟩ | ⟨b1, b2, b3⟩ | ⟨b1, b2, b2', b3⟩ <;>
      obtain ⟨u, v⟩ := I.uniq _ _ _ _ _ a3 b3 <;>
      first
        | exact ⟨by omega, by omega⟩
        | (exfalso; omega)
  · intro q
    show q ∈ s.heap.live ↔ _
    rw [I.live]
    constructor
    · rintro ⟨i, k, h⟩
      exact fwd i k q h
    · rintro ⟨i, k, h⟩
      rcases back _ _ _ h with ⟨_, _, h⟩ | ⟨_, _, h⟩ | ⟨_, _, h⟩ | ⟨_, _, _, h⟩
      · exact ⟨_, _, h⟩
      · exact ⟨_, _, h⟩
      · exact ⟨_, _, h⟩
      · exact ⟨_, _, h⟩
  · intro w hw
    dsimp only at hw ⊢
    obtain ⟨v, hv, rfl⟩ := List.mem_map.mp hw
    obtain ⟨b, k, h1, h2, h3, h4, h5, h6⟩ := I.objs v hv
    by_cases hvo : v.arena = o
    · rw [if_pos hvo]
      rw [hvo, hy] at h1
      cases h1
      exact ⟨z, x.pool + k, get_t, by omega, by rw [z6 k h2]; exact h3, h4, fun hc => by omega, h6⟩
    · rw [if_neg hvo]
      by_cases hvt : v.arena = t
      · rw [hvt, hx] at h1
        cases h1
        rw [hvt]
        by_cases c : k = x.pool
        · exact ⟨z, z.pool, get_t, Nat.le_refl _, by rw [z7, ← c]; exact h3, h4, fun _ => by rw [z3]; exact h5 c, h6⟩
        · exact ⟨z, k, get_t, by omega, by rw [z5 k (by omega)]; exact h3, h4, fun hc => by omega, h6⟩
      · exact ⟨b, k, by rw [get_n _ hvt hvo]; exact h1, h2, h3, h4, h5, h6⟩
  · dsimp only
    rw [List.pairwise_map]
    refine I.apart.imp ?_
    intro u v h
    have e : ∀ w : Obj, (if w.arena = o then { w with arena := t } else w).pool = w.pool ∧ (if w.arena = o then { w with arena := t } else w).off = w.off ∧ (if w.arena = o then { w with arena := t } else w).data = w.data := by
      intro w; split <;> exact ⟨rfl, rfl, rfl⟩
    unfold Obj.Apart
    rw [(e u).1, (e u).2.1, (e u).2.2, (e v).1, (e v).2.1, (e v).2.2]
    exact h

theorem step_ok {s : Sys} {g : Ghost} (I : Inv s g) (op : Op) (hc : op.Can g) : ∃ s' r, s.step op = .ok (s', r) ∧ Inv s' (g.step r op) := by
  cases op with
  | new => exact step_new I
  | dup a l => exact step_dup I hc.1 hc.2
  | close a =>
    rcases hc with h | h
    · exact step_close I h (by decide)
    · exact step_close I h (by decide)
  | merge t s =>
    obtain ⟨h1, h2, h3⟩ := hc
    rcases h2 with h | h
    · exact step_merge I h1 h (by decide) h3
    · exact step_merge I h1 h (by decide) h3
  | destroy a =>
    rcases hc with h | h
    · exact step_destroy I h (by decide)
    · exact step_destroy I h (by decide)

theorem run_inv {s : Sys} {g : Ghost} (r : Run s g) : Inv s g := by
  induction r with
  | init => exact inv_init
  | step s g op s' r _ hc hs ih =>
    obtain ⟨s2, r2, e, h⟩ := step_ok ih op hc
    rw [e] at hs
    cases hs
    exact h

end Gdnsd.Arena
