/-
The invariant of arenas.
-/
import Verif.Arena.Spec
namespace Gdnsd.Arena

def LOk (a : Lta) : Prop := ∀ k, k ≤ a.pool → ∃ p, a.pools[k]? = some (some p)

theorem get_eq {a : Lta} {i p : Nat} (h : a.pools[i]? = some (some p)) : a.get i = .ok p := by
  unfold Lta.get; rw [h]

theorem put_eq {a : Lta} {i p : Nat} (h : i < a.pools.length) : a.put i p = .ok { a with pools := a.pools.set i (some p) } := if_pos h

theorem realloc_get {a : Lta} {n k : Nat} (hk : k < n) (hl : k < a.pools.length) : (a.realloc n).pools[k]? = a.pools[k]? := by
  unfold Lta.realloc
  dsimp only
  rw [List.getElem?_append_left (by rw [List.length_take]; omega), List.getElem?_take_of_lt hk]

theorem realloc_len {a : Lta} {n : Nat} : (a.realloc n).pools.length = n := by
  unfold Lta.realloc
  dsimp only
  rw [List.length_append, List.length_take, List.length_replicate]
  omega

/-- A new object is at the end of the last pool or at the start of a new one. -/
theorem malloc_ok {a : Lta} (ha : LOk a) (ho : a.palloc = a.pools.length) (size : Nat) (h0 : 0 < size) (h1 : size ≤ 256) (h : Heap) :
    ∃ p o a' h', ltaMalloc a size h = .ok (p, o, a', h') ∧ LOk a' ∧ a'.palloc = a'.pools.length ∧ o + size ≤ 1024 ∧ a'.poffs = o + size ∧ a'.pools[a'.pool]? = some (some p) ∧
      ((h' = h ∧ a'.pool = a.pool ∧ a'.pools = a.pools ∧ o = a.poffs) ∨
       (p = h.next ∧ h' = h.calloc.2 ∧ a'.pool = a.pool + 1 ∧ ∀ k, k ≤ a.pool → a'.pools[k]? = a.pools[k]?)) := by
  unfold ltaMalloc
  rw [show (decide (size ≠ 0)) = true from decide_eq_true (by omega), show (decide (size ≤ maxObj)) = true from decide_eq_true h1]
  simp only [assert_true, Outcome.bind_ok]
  have hp : a.pool < a.pools.length := by
    obtain ⟨p, e⟩ := ha a.pool (Nat.le_refl _)
    exact (List.getElem?_eq_some_iff.mp e).1
  by_cases hf : a.poffs + size > poolSize
  · rw [if_pos hf]
    obtain ⟨b, hb, hbl, hbp, hbg⟩ : ∃ b : Lta, (if a.pool + 1 = a.palloc then ({ a with pool := a.pool + 1, palloc := a.palloc * 2 } : Lta).realloc (a.palloc * 2) else { a with pool := a.pool + 1 }) = b ∧
        b.pools.length = b.palloc ∧ b.pool = a.pool + 1 ∧ a.pool + 1 < b.pools.length ∧ ∀ k, k ≤ a.pool → b.pools[k]? = a.pools[k]? := by
      by_cases hg : a.pool + 1 = a.palloc
      · refine ⟨_, if_pos hg, ?_⟩
        refine ⟨realloc_len, rfl, ?_, ?_⟩
        · rw [realloc_len]; omega
        · intro k hk
          exact realloc_get (by omega) (show k < a.pools.length by omega)
      · exact ⟨_, if_neg hg, ho.symm, rfl, (show a.pool + 1 < a.pools.length by omega), fun _ _ => rfl⟩
    rw [hb]
    rw [put_eq (show b.pool < b.pools.length by omega)]
    simp only [Outcome.map_ok, Outcome.bind_ok]
    rw [get_eq (p := h.next) (by
      dsimp only
      rw [List.getElem?_set_self (by omega)]
      rfl)]
    refine ⟨_, _, _, _, rfl, ?_, ?_, ?_, ?_, ?_, .inr ⟨rfl, rfl, ?_, ?_⟩⟩
    · intro k hk
      dsimp only at hk ⊢
      rw [hbp] at hk ⊢
      by_cases hk' : k = a.pool + 1
      · subst hk'
        exact ⟨h.next, by rw [List.getElem?_set_self (by omega)]; rfl⟩
      · rw [List.getElem?_set_ne (by omega), hbg.2 k (by omega)]
        exact ha k (by omega)
    · dsimp only
      rw [List.length_set]; omega
    · unfold poolSize at hf; omega
    · rfl
    · dsimp only
      rw [List.getElem?_set_self (by omega)]
      rfl
    · exact hbp
    · intro k hk
      dsimp only
      rw [hbp, List.getElem?_set_ne (by omega), hbg.2 k hk]
  · rw [if_neg hf]
    simp only [Outcome.bind_ok]
    obtain ⟨p, e⟩ := ha a.pool (Nat.le_refl _)
    rw [get_eq e]
    have : a.poffs + size ≤ 1024 := by unfold poolSize at hf; omega
    exact ⟨p, a.poffs, { a with poffs := a.poffs + size }, h, rfl, ha, ho, this, rfl, e, .inl ⟨rfl, rfl, rfl, rfl⟩⟩

theorem double_ok (fuel : Nat) : ∀ palloc need, 0 < palloc → need + 2 ≤ palloc + fuel → 0 < fuel → ∃ p, double fuel palloc need = some p ∧ need < p ∧ palloc ≤ p := by
  induction fuel with
  | zero => intro _ _ _ _ h; omega
  | succ f ih =>
    intro palloc need hp hn _
    unfold double
    by_cases hc : need ≥ palloc
    · rw [if_pos hc]
      obtain ⟨p, e, h1, h2⟩ := ih (palloc * 2) need (by omega) (by omega) (by omega)
      exact ⟨p, e, h1, by omega⟩
    · rw [if_neg hc]
      exact ⟨palloc, rfl, by omega, Nat.le_refl _⟩

theorem copy_ok (s : Lta) (n : Nat) : ∀ (i : Nat) (t : Lta) (j : Nat), i + n ≤ s.pools.length → j + n ≤ t.pools.length →
    ∃ ps, copyPools s n i t j = .ok { t with pools := ps } ∧ ps.length = t.pools.length ∧ (∀ k, k < n → ps[j + k]? = s.pools[i + k]?) ∧ (∀ k, k < j → ps[k]? = t.pools[k]?) := by
  induction n with
  | zero => intro i t j _ _; exact ⟨t.pools, rfl, rfl, fun k h => absurd h (by omega), fun _ _ => rfl⟩
  | succ n ih =>
    intro i t j hi hj
    unfold copyPools
    rw [List.getElem?_eq_getElem (show i < s.pools.length by omega)]
    dsimp only
    rw [if_pos (show j < t.pools.length by omega)]
    obtain ⟨ps, e, e1, e2, e3⟩ := ih (i + 1) { t with pools := t.pools.set j s.pools[i] } (j + 1) (by omega) (by dsimp only; rw [List.length_set]; omega)
    refine ⟨ps, e, by rw [e1]; exact List.length_set, ?_, ?_⟩
    · intro k hk
      cases k with
      | zero =>
        rw [Nat.add_zero, e3 j (by omega)]
        dsimp only
        rw [List.getElem?_set_self (by omega), Nat.add_zero, List.getElem?_eq_getElem]
      | succ k =>
        have := e2 k (by omega)
        rw [show j + (k + 1) = j + 1 + k by omega, this, show i + 1 + k = i + (k + 1) by omega]
    · intro k hk
      rw [e3 k (by omega)]
      dsimp only
      rw [List.getElem?_set_ne (by omega)]

/-- After a merge the target has its own pools and those of the source, and allocates from the same pool. -/
theorem merge_ok {t s : Lta} (ht : LOk t) (ho : t.palloc = t.pools.length) (hs : LOk s) :
    ∃ t', ltaMerge t s = .ok t' ∧ LOk t' ∧ t'.palloc = t'.pools.length ∧ t'.poffs = t.poffs ∧ t'.pool = t.pool + s.pool + 1 ∧
      (∀ k, k < t.pool → t'.pools[k]? = t.pools[k]?) ∧ (∀ k, k ≤ s.pool → t'.pools[t.pool + k]? = s.pools[k]?) ∧ t'.pools[t'.pool]? = t.pools[t.pool]? := by
  have hp : t.pool < t.pools.length := by
    obtain ⟨p, e⟩ := ht t.pool (Nat.le_refl _)
    exact (List.getElem?_eq_some_iff.mp e).1
  have hsp : s.pool < s.pools.length := by
    obtain ⟨p, e⟩ := hs s.pool (Nat.le_refl _)
    exact (List.getElem?_eq_some_iff.mp e).1
  obtain ⟨last, hlast⟩ := ht t.pool (Nat.le_refl _)
  unfold ltaMerge
  rw [get_eq hlast]
  simp only [Outcome.bind_ok]
  obtain ⟨u, hu, hul, hup, huo, hun, hug⟩ : ∃ u : Lta, t.growTo (s.pool + 1 + t.pool + 1) = .ok u ∧ u.palloc = u.pools.length ∧ u.pool = t.pool ∧ u.poffs = t.poffs ∧ s.pool + 1 + t.pool + 1 < u.pools.length ∧ ∀ k, k ≤ t.pool → u.pools[k]? = t.pools[k]? := by
    unfold Lta.growTo
    by_cases hg : s.pool + 1 + t.pool + 1 ≥ t.palloc
    · rw [if_pos hg]
      obtain ⟨p, e, e1, e2⟩ := double_ok (s.pool + 1 + t.pool + 1 + 1) t.palloc (s.pool + 1 + t.pool + 1) (by omega) (by omega) (by omega)
      rw [e]
      refine ⟨_, rfl, realloc_len.symm, rfl, rfl, by rw [realloc_len]; exact e1, ?_⟩
      intro k hk
      exact realloc_get (by omega) (show k < t.pools.length by omega)
    · rw [if_neg hg]
      exact ⟨t, rfl, ho, rfl, rfl, by omega, fun _ _ => rfl⟩
  rw [hu]
  simp only [Outcome.bind_ok]
  obtain ⟨ps, e, e1, e2, e3⟩ := copy_ok s (s.pool + 1) 0 u u.pool (by omega) (by omega)
  rw [e]
  simp only [Outcome.bind_ok]
  rw [put_eq (show u.pool + s.pool + 1 < ps.length by omega)]
  have g1 : ∀ k, k < t.pool → (ps.set (u.pool + s.pool + 1) (some last))[k]? = t.pools[k]? := by
    intro k hk
    rw [List.getElem?_set_ne (by omega), e3 k (by omega), hug k (by omega)]
  have g2 : ∀ k, k ≤ s.pool → (ps.set (u.pool + s.pool + 1) (some last))[t.pool + k]? = s.pools[k]? := by
    intro k hk
    rw [List.getElem?_set_ne (by omega), ← hup, e2 k (by omega), Nat.zero_add]
  have g3 : (ps.set (u.pool + s.pool + 1) (some last))[u.pool + s.pool + 1]? = t.pools[t.pool]? := by
    rw [List.getElem?_set_self (by omega), hlast]
  refine ⟨_, rfl, ?_, ?_, huo, by dsimp only; rw [hup], g1, g2, g3⟩
  · intro k hk
    dsimp only at hk ⊢
    by_cases k1 : k < t.pool
    · rw [g1 k k1]; exact ht k (by omega)
    · by_cases k2 : k ≤ t.pool + s.pool
      · have := g2 (k - t.pool) (by omega)
        rw [show t.pool + (k - t.pool) = k by omega] at this
        rw [this]; exact hs _ (by omega)
      · rw [show k = u.pool + s.pool + 1 by omega, g3]
        exact ht _ (Nat.le_refl _)
  · dsimp only
    rw [List.length_set, e1]; exact hul

/-- Freeing all pools of an arena. -/
theorem free_ok {a : Lta} (w : Nat) : ∀ h : Heap, (∀ k, k < w → ∃ p, a.pools[k]? = some (some p)) →
    (∀ k k' p, k < w → k' < w → a.pools[k]? = some (some p) → a.pools[k']? = some (some p) → k = k') →
    (∀ k p, k < w → a.pools[k]? = some (some p) → p ∈ h.live) →
    ∃ l, freePools a w h = .ok { h with live := l } ∧ ∀ q, q ∈ l ↔ q ∈ h.live ∧ ∀ k, k < w → a.pools[k]? ≠ some (some q) := by
  induction w with
  | zero => intro h _ _ _; exact ⟨h.live, rfl, fun q => ⟨fun hq => ⟨hq, fun k hk => absurd hk (by omega)⟩, fun hq => hq.1⟩⟩
  | succ w ih =>
    intro h h1 h2 h3
    unfold freePools
    obtain ⟨p, e⟩ := h1 w (by omega)
    rw [get_eq e]
    simp only [Outcome.bind_ok]
    unfold Heap.free
    rw [if_pos (h3 w p (by omega) e)]
    simp only [Outcome.bind_ok]
    obtain ⟨l, e1, e2⟩ := ih { h with live := h.live.filter (· != p) } (fun k hk => h1 k (by omega)) (fun k k' q a b c d => h2 k k' q (by omega) (by omega) c d) (by
      intro k q hk hq
      dsimp only
      rw [List.mem_filter]
      refine ⟨h3 k q (by omega) hq, ?_⟩
      have : q ≠ p := by
        rintro rfl
        have := h2 k w q (by omega) (by omega) hq e
        omega
      simpa using this)
    refine ⟨l, e1, fun q => ?_⟩
    rw [e2 q]
    dsimp only
    rw [List.mem_filter]
    constructor
    · rintro ⟨⟨a1, a2⟩, a3⟩
      refine ⟨a1, fun k hk hc => ?_⟩
      by_cases hkw : k = w
      · subst hkw; rw [e] at hc; cases hc; simp at a2
      · exact a3 k (by omega) hc
    · rintro ⟨a1, a2⟩
      refine ⟨⟨a1, ?_⟩, fun k hk => a2 k (by omega)⟩
      have : q ≠ p := by rintro rfl; exact a2 w (by omega) e
      simpa using this

/-! ### The invariant -/

/-- Pool `p` is the `k`-th of arena `i`. -/
def Owns (s : Sys) (i k p : Nat) : Prop := ∃ a, s.arenas[i]? = some (some a) ∧ k ≤ a.pool ∧ a.pools[k]? = some (some p)

structure Inv (s : Sys) (g : Ghost) : Prop where
  len : g.kinds.length = s.arenas.length
  gone : ∀ i : Nat, g.kinds[i]? = some Kind.gone → s.arenas[i]? = some none
  there : ∀ (i : Nat) k, g.kinds[i]? = some k → k ≠ Kind.gone → ∃ a, s.arenas[i]? = some (some a) ∧ LOk a ∧ (k = Kind.opened → a.palloc = a.pools.length)
  uniq : ∀ i k i' k' p, Owns s i k p → Owns s i' k' p → i = i' ∧ k = k'
  live : ∀ p, p ∈ s.heap.live ↔ ∃ i k, Owns s i k p
  bound : ∀ p, p ∈ s.heap.live → p < s.heap.next
  objs : ∀ x ∈ g.objs, ∃ a k, s.arenas[x.arena]? = some (some a) ∧ k ≤ a.pool ∧ a.pools[k]? = some (some x.pool) ∧ x.off + x.data.length ≤ 1024 ∧ (k = a.pool → x.off + x.data.length ≤ a.poffs) ∧
    ∀ j, j < x.data.length → s.heap.mem x.pool (x.off + j) = x.data.getD j 0
  apart : g.objs.Pairwise Obj.Apart

theorem inv_init : Inv Sys.init Ghost.init := by
  refine ⟨rfl, ?_, ?_, ?_, ?_, ?_, ?_, .nil⟩
  · intro i h; simp [Ghost.init] at h
  · intro i k h; simp [Ghost.init] at h
  · rintro i k i' k' p ⟨a, h, _⟩; simp [Sys.init] at h
  · intro p; constructor
    · intro h; simp [Sys.init] at h
    · rintro ⟨i, k, a, h, _⟩; simp [Sys.init] at h
  · intro p h; simp [Sys.init] at h
  · intro x h; simp [Ghost.init] at h

end Gdnsd.Arena
