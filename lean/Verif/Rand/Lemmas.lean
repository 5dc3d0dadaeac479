import Verif.Rand.Model
import Verif.Rand.Spec
/-
Helper lemmas for the random generator and the shuffle.
-/
namespace Gdnsd.Rand
open Spec

/-! ### bounded draws -/

theorem mulRaw_toNat (v b : UInt32) : (mulRaw v b).toNat = v.toNat * b.toNat := by
  have hv := v.toNat_lt
  have hb := b.toNat_lt
  have : v.toNat * b.toNat < 2 ^ 64 := by
    calc v.toNat * b.toNat < 2 ^ 32 * 2 ^ 32 := Nat.mul_lt_mul'' hv hb
      _ = 2 ^ 64 := by decide
  simp [mulRaw, UInt64.toNat_mul, Nat.mod_eq_of_lt this]

theorem hi_toNat (m : UInt64) : ((m >>> 32).toUInt32).toNat = m.toNat / 4294967296 := by
  have h := m.toNat_lt
  have : (m >>> 32).toNat = m.toNat / 4294967296 := by
    simp [UInt64.toNat_shiftRight, Nat.shiftRight_eq_div_pow]
  simp only [UInt64.toNat_toUInt32, this]
  omega

theorem threshold_toNat (b : UInt32) (h : b.toNat ≠ 0) :
    ((0 - b) % b).toNat = 4294967296 % b.toNat := by
  have hb := b.toNat_lt
  have : (0 - b).toNat = 4294967296 - b.toNat := by
    have hs : UInt32.size = 4294967296 := rfl
    simp
    omega
  rw [UInt32.toNat_mod, this]
  conv => rhs; rw [show 4294967296 = (4294967296 - b.toNat) + b.toNat by omega, Nat.add_mod_right]

theorem low_lt (m : UInt64) (t : UInt32) : (m.toUInt32 < t) ↔ m.toNat % 4294967296 < t.toNat := by
  rw [UInt32.lt_iff_toNat_lt, UInt64.toNat_toUInt32]

/-- The redraw loop returns the first raw value that `pick` accepts. -/
theorem redraw_spec {σ : Type} (get : σ → UInt32 × σ) (b t : UInt32) 
    (ht : t.toNat = 4294967296 % b.toNat) :
    ∀ (fuel : Nat) (v : UInt32) (s : σ) (r : UInt32) (s' : σ),
      redraw get b t fuel (mulRaw v b) s = some (r, s') →
      (pick b.toNat v.toNat = some r.toNat ∧ s' = s) ∨
      (pick b.toNat v.toNat = none ∧ ∃ k, k < fuel ∧ (∀ j, j < k → pick b.toNat (raw get j s).toNat = none) ∧
        pick b.toNat (raw get k s).toNat = some r.toNat ∧ s' = after get (k + 1) s) := by
  intro fuel
  induction fuel with
  | zero =>
    intro v s r s' h
    simp only [redraw, low_lt, mulRaw_toNat, ht] at h
    split at h
    · simp at h
    · rename_i hn
      simp only [Option.some.injEq, Prod.mk.injEq] at h
      left
      refine ⟨?_, h.2.symm⟩
      rw [pick, if_neg hn, ← h.1, hi_toNat, mulRaw_toNat]
  | succ n ih =>
    intro v s r s' h
    simp only [redraw, low_lt, mulRaw_toNat, ht] at h
    split at h
    · rename_i hn
      right
      refine ⟨by rw [pick, if_pos hn], ?_⟩
      rcases ih _ _ _ _ h with ⟨h1, h2⟩ | ⟨h1, k, hk, h2, h3, h4⟩
      · refine ⟨0, by omega, by intro j hj; omega, h1, h2⟩
      · refine ⟨k + 1, by omega, ?_, h3, h4⟩
        intro j hj
        cases j with
        | zero => exact h1
        | succ j => exact h2 j (by omega)
    · rename_i hn
      simp only [Option.some.injEq, Prod.mk.injEq] at h
      left
      refine ⟨?_, h.2.symm⟩
      rw [pick, if_neg hn, ← h.1, hi_toNat, mulRaw_toNat]

theorem bounded_spec {σ : Type} (get : σ → UInt32 × σ) (fuel : Nat) (s : σ) (b r : UInt32) (s' : σ)
    (hb : b.toNat ≠ 0) (h : bounded get fuel s b = some (r, s')) :
    ∃ k, k ≤ fuel ∧ (∀ j, j < k → pick b.toNat (raw get j s).toNat = none) ∧
      pick b.toNat (raw get k s).toNat = some r.toNat ∧ s' = after get (k + 1) s := by
  simp only [bounded] at h
  split at h
  · rcases redraw_spec get b _ (threshold_toNat b hb) _ _ _ _ _ h with ⟨h1, h2⟩ | ⟨h1, k, hk, h2, h3, h4⟩
    · exact ⟨0, by omega, by intro j hj; omega, h1, h2⟩
    · refine ⟨k + 1, by omega, ?_, h3, h4⟩
      intro j hj
      cases j with
      | zero => exact h1
      | succ j => exact h2 j (by omega)
  · rename_i hn
    rw [low_lt, mulRaw_toNat] at hn
    simp only [Option.some.injEq, Prod.mk.injEq] at h
    refine ⟨0, by omega, by intro j hj; omega, ?_, h.2.symm⟩
    have hm := Nat.mod_lt 4294967296 (Nat.pos_of_ne_zero hb)
    rw [pick, raw, after, if_neg (by omega), ← h.1, hi_toNat, mulRaw_toNat]

/-- Enough fuel for an accepted raw value means the draw returns. -/
theorem redraw_returns {σ : Type} (get : σ → UInt32 × σ) (b t : UInt32)
    (ht : t.toNat = 4294967296 % b.toNat) :
    ∀ (fuel : Nat) (v : UInt32) (s : σ),
      (pick b.toNat v.toNat ≠ none ∨ ∃ k, k < fuel ∧ pick b.toNat (raw get k s).toNat ≠ none) →
      (redraw get b t fuel (mulRaw v b) s).isSome := by
  intro fuel
  induction fuel with
  | zero =>
    intro v s h
    rcases h with h | ⟨k, hk, _⟩
    · simp only [redraw, low_lt, mulRaw_toNat, ht]
      split
      · rename_i hn; simp [pick, hn] at h
      · rfl
    · omega
  | succ n ih =>
    intro v s h
    simp only [redraw, low_lt, mulRaw_toNat, ht]
    split
    · rename_i hn
      apply ih
      rcases h with h | ⟨k, hk, h⟩
      · simp [pick, hn] at h
      · cases k with
        | zero => left; exact h
        | succ k => right; exact ⟨k, by omega, h⟩
    · rfl

/-! ### counting -/

theorem pick_some_iff (b v r : Nat) (K : Nat) (hK : K = 4294967296) :
    pick b v = some r ↔ r * K + K % b ≤ v * b ∧ v * b < r * K + K % b + K / b * b := by
  subst hK
  have h1 := Nat.div_add_mod 4294967296 b
  have h2 := Nat.div_add_mod (v * b) 4294967296
  have h3 := Nat.mod_lt (v * b) (by decide : 0 < 4294967296)
  have h4 : 4294967296 / b * b = b * (4294967296 / b) := Nat.mul_comm _ _
  unfold pick
  generalize 4294967296 / b * b = Q at *
  generalize b * (4294967296 / b) = Q' at *
  generalize 4294967296 % b = t at *
  generalize v * b = x at *
  split
  · constructor
    · intro h; simp at h
    · intro h; exfalso; omega
  · simp only [Option.some.injEq]
    omega

theorem ceil_le (x b v : Nat) (hb : 0 < b) : (x + b - 1) / b ≤ v ↔ x ≤ v * b := by
  rw [← Nat.lt_succ_iff, Nat.div_lt_iff_lt_mul hb, Nat.succ_mul]
  omega

theorem filter_interval_length (lo q n : Nat) (h : lo + q ≤ n) :
    ((List.range n).filter (fun v => decide (lo ≤ v ∧ v < lo + q))).length = q := by
  obtain ⟨d, rfl⟩ : ∃ d, n = lo + q + d := ⟨n - (lo + q), by omega⟩
  rw [List.range_add, List.range_add, List.filter_append, List.filter_append]
  have e1 : (List.range lo).filter (fun v => decide (lo ≤ v ∧ v < lo + q)) = [] := by
    rw [List.filter_eq_nil_iff]
    intro a ha; simp at ha ⊢; omega
  have e2 : ((List.range q).map (lo + ·)).filter (fun v => decide (lo ≤ v ∧ v < lo + q)) =
      (List.range q).map (lo + ·) := by
    rw [List.filter_eq_self]
    intro a ha; simp at ha ⊢; omega
  have e3 : ((List.range d).map (lo + q + ·)).filter (fun v => decide (lo ≤ v ∧ v < lo + q)) = [] := by
    rw [List.filter_eq_nil_iff]
    intro a ha; simp at ha ⊢; omega
  rw [e1, e2, e3]; simp

theorem pick_count (b r : Nat) (hb : 0 < b) (hr : r < b) (K : Nat) (hK : K = 4294967296) :
    ((List.range K).filter (fun v => decide (pick b v = some r))).length = K / b := by
  have key : ∀ v, (pick b v = some r) ↔
      ((r * K + K % b + b - 1) / b ≤ v ∧ v < (r * K + K % b + b - 1) / b + K / b) := by
    intro v
    rw [pick_some_iff b v r K hK]
    have c1 := ceil_le (r * K + K % b) b v hb
    have c2 := ceil_le (r * K + K % b + K / b * b) b v hb
    have e : (r * K + K % b + K / b * b + b - 1) / b = (r * K + K % b + b - 1) / b + K / b := by
      rw [show r * K + K % b + K / b * b + b - 1 = (r * K + K % b + b - 1) + K / b * b by omega,
        Nat.add_mul_div_right _ _ hb]
    rw [e] at c2
    omega
  have : (fun v => decide (pick b v = some r)) = (fun v => decide
      ((r * K + K % b + b - 1) / b ≤ v ∧ v < (r * K + K % b + b - 1) / b + K / b)) := by
    funext v; exact decide_eq_decide.mpr (key v)
  rw [this]
  apply filter_interval_length
  rw [← Nat.add_mul_div_right _ _ hb]
  apply Nat.le_of_lt_succ
  rw [Nat.div_lt_iff_lt_mul hb]
  have h1 := Nat.div_add_mod K b
  have h2 : K / b * b = b * (K / b) := Nat.mul_comm _ _
  have h3 : (r + 1) * K ≤ b * K := Nat.mul_le_mul_right _ hr
  rw [Nat.succ_mul] at *
  rw [Nat.mul_comm K b]
  omega

theorem pick_lt (b v r : Nat) (hv : v < 4294967296) (h : pick b v = some r) (hb : 0 < b) : r < b := by
  unfold pick at h
  split at h
  · simp at h
  · simp only [Option.some.injEq] at h
    rw [← h, Nat.div_lt_iff_lt_mul (by decide), Nat.mul_comm b]
    exact Nat.mul_lt_mul_of_pos_right hv hb

/-! ### the xor-shift never reaches zero -/

theorem shl_eq_self (x : UInt32) (k m : Nat) (hk : k < 32) (hm : m = 2 ^ k)
    (hmm : ∀ a q : Nat, a < 4294967296 → a * m = q * 4294967296 + a → a = 0)
    (h : x ^^^ (x <<< UInt32.ofNat k) = 0) : x = 0 := by
  have e : x = x <<< UInt32.ofNat k := UInt32.xor_eq_zero_iff.mp h
  have hx := x.toNat_lt
  have e2 : x.toNat = x.toNat * m % 4294967296 := by
    have hk' : k % 4294967296 % 32 = k := by omega
    have := congrArg UInt32.toNat e
    rw [UInt32.toNat_shiftLeft, UInt32.toNat_ofNat', hk', Nat.shiftLeft_eq, ← hm] at this
    exact this
  apply UInt32.toNat_inj.mp
  have := Nat.div_add_mod (x.toNat * m) 4294967296
  exact hmm _ (x.toNat * m / 4294967296) hx (by omega)

theorem shr_eq_self (x : UInt32) (h : x ^^^ (x >>> 7) = 0) : x = 0 := by
  have e : x = x >>> 7 := UInt32.xor_eq_zero_iff.mp h
  have := congrArg UInt32.toNat e
  rw [UInt32.toNat_shiftRight] at this
  apply UInt32.toNat_inj.mp
  simp [Nat.shiftRight_eq_div_pow] at this ⊢
  omega

theorem xorShift_ne_zero (y : UInt32) (h : y ≠ 0) : xorShift y ≠ 0 := by
  intro h0
  apply h
  have h1 := shl_eq_self (k := 22) (m := 4194304) (x := _) (by decide) (by decide)
    (by intro a q h1 h2; omega) h0
  have h2 := shr_eq_self _ h1
  exact shl_eq_self (k := 5) (m := 32) (x := _) (by decide) (by decide)
    (by intro a q h1 h2; omega) h2

/-! ### the shuffle on lists of records -/

/-- Swap two elements (out of range leaves the list alone). -/
def swapL {α : Type} (l : List α) (i j : Nat) : List α :=
  match l[i]?, l[j]? with
  | some a, some b => (l.set i b).set j a
  | _, _ => l

/-- The shuffle on a list of records. -/
def shufL {α : Type} (js : Nat → UInt32) : Nat → List α → List α
  | 0, l => l
  | i + 1, l => shufL js i (swapL l (i + 1) (js (i + 1)).toNat)

theorem swapL_length {α : Type} (l : List α) (i j : Nat) : (swapL l i j).length = l.length := by
  unfold swapL; split <;> simp

theorem swapL_eq {α : Type} (l : List α) (i j : Nat) (hi : i < l.length) (hj : j < l.length) :
    swapL l i j = (l.set i l[j]).set j l[i] := by
  simp [swapL, hi, hj]

theorem swapL_perm {α : Type} (l : List α) (i j : Nat) : (swapL l i j).Perm l := by
  by_cases hi : i < l.length
  · by_cases hj : j < l.length
    · rw [swapL_eq l i j hi hj]; exact List.set_set_perm hi hj
    · simp [swapL, List.getElem?_eq_none (Nat.le_of_not_lt hj)]
  · simp [swapL, List.getElem?_eq_none (Nat.le_of_not_lt hi)]

theorem shufL_perm {α : Type} (js : Nat → UInt32) : ∀ (n : Nat) (l : List α), (shufL js n l).Perm l := by
  intro n
  induction n with
  | zero => intro l; exact List.Perm.refl _
  | succ n ih => intro l; exact (ih _).trans (swapL_perm _ _ _)

theorem shufL_length {α : Type} (js : Nat → UInt32) (n : Nat) (l : List α) :
    (shufL js n l).length = l.length := (shufL_perm js n l).length_eq

/-! ### records inside a buffer -/

theorem flatten_length_uniform (cs : List Bytes) (L : Nat) (h : ∀ c ∈ cs, c.length = L) :
    cs.flatten.length = cs.length * L := by
  induction cs with
  | nil => simp
  | cons c cs ih =>
    have h1 := h c (by simp)
    have h2 := ih (fun c hc => h c (by simp [hc]))
    simp [h1, h2, Nat.succ_mul, Nat.add_comm]

theorem drop_take_uniform (cs : List Bytes) (L : Nat) (h : ∀ c ∈ cs, c.length = L) (i : Nat)
    (hi : i < cs.length) (pre post : Bytes) :
    ((pre ++ cs.flatten ++ post).drop (pre.length + i * L)).take L = cs[i] := by
  have hs : cs = cs.take i ++ cs[i] :: cs.drop (i + 1) := by simp
  have hl : (cs.take i).flatten.length = i * L := by
    rw [flatten_length_uniform _ L (fun c hc => h c (List.mem_of_mem_take hc))]
    rw [List.length_take, Nat.min_eq_left (by omega)]
  have hc : cs[i].length = L := h _ (List.getElem_mem _)
  have e : pre ++ cs.flatten ++ post =
      (pre ++ (cs.take i).flatten) ++ (cs[i] ++ ((cs.drop (i + 1)).flatten ++ post)) := by
    have hf := congrArg List.flatten hs
    rw [List.flatten_append, List.flatten_cons] at hf
    rw [hf]; simp only [List.append_assoc]
  rw [e, show pre.length + i * L = (pre ++ (cs.take i).flatten).length by simp [hl], List.drop_left,
    ← hc, List.take_left]

theorem write_uniform (cs : List Bytes) (L : Nat) (h : ∀ c ∈ cs, c.length = L) (i : Nat)
    (hi : i < cs.length) (pre post x : Bytes) (hx : x.length = L) :
    wrN (pre ++ cs.flatten ++ post) (pre.length + i * L) x =
      .ok (pre ++ (cs.set i x).flatten ++ post) := by
  have hs : cs = cs.take i ++ cs[i] :: cs.drop (i + 1) := by simp
  have hset : cs.set i x = cs.take i ++ x :: cs.drop (i + 1) := by
    rw [List.set_eq_take_append_cons_drop, if_pos hi]
  have hl : (cs.take i).flatten.length = i * L := by
    rw [flatten_length_uniform _ L (fun c hc => h c (List.mem_of_mem_take hc))]
    rw [List.length_take, Nat.min_eq_left (by omega)]
  have hc : cs[i].length = L := h _ (List.getElem_mem _)
  have e : pre ++ cs.flatten ++ post =
      (pre ++ (cs.take i).flatten) ++ (cs[i] ++ ((cs.drop (i + 1)).flatten ++ post)) := by
    have hf := congrArg List.flatten hs
    rw [List.flatten_append, List.flatten_cons] at hf
    rw [hf]; simp only [List.append_assoc]
  have e' : pre ++ (cs.set i x).flatten ++ post =
      (pre ++ (cs.take i).flatten) ++ (x ++ ((cs.drop (i + 1)).flatten ++ post)) := by
    rw [hset]; simp [List.flatten_append]
  rw [e', e]
  have hp : pre.length + i * L = (pre ++ (cs.take i).flatten).length := by simp [hl]
  rw [hp]
  generalize pre ++ (cs.take i).flatten = P
  generalize (cs.drop (i + 1)).flatten ++ post = Q
  rw [wrN, if_pos (by simp [hc, hx])]
  congr 1
  rw [List.take_left, hx, ← hc, ← List.length_append, ← List.append_assoc P cs[i] Q,
    List.drop_left, List.append_assoc]

theorem read_uniform (cs : List Bytes) (L : Nat) (h : ∀ c ∈ cs, c.length = L) (i : Nat)
    (hi : i < cs.length) (pre post : Bytes) :
    rdN (pre ++ cs.flatten ++ post) (pre.length + i * L) L = .ok cs[i] := by
  rw [rdN, if_pos, drop_take_uniform cs L h i hi]
  rw [List.length_append, List.length_append, flatten_length_uniform cs L h]
  have : (i + 1) * L ≤ cs.length * L := Nat.mul_le_mul_right _ hi
  rw [Nat.succ_mul] at this
  omega

theorem swapAt_eq (cs : List Bytes) (L : Nat) (hL : L ≤ 28) (h : ∀ c ∈ cs, c.length = L) (i j : Nat)
    (hi : i < cs.length) (hj : j < cs.length) (pre post : Bytes) :
    swapAt pre.length L (pre ++ cs.flatten ++ post) i j =
      .ok (pre ++ (swapL cs i j).flatten ++ post) := by
  rw [swapL_eq cs i j hi hj]
  unfold swapAt
  split
  · rename_i hne
    have hset : ∀ c ∈ cs.set i cs[j], c.length = L := by
      intro c hc
      rcases List.mem_or_eq_of_mem_set hc with hc | hc
      · exact h c hc
      · subst hc; exact h _ (List.getElem_mem _)
    simp only [hL, decide_true, assert_true, Outcome.bind_ok, read_uniform cs L h i hi,
      read_uniform cs L h j hj, write_uniform cs L h i hi pre post cs[j] (h _ (List.getElem_mem _))]
    rw [write_uniform _ L hset j (by simpa using hj) pre post cs[i] (h _ (List.getElem_mem _))]
  · rename_i hne
    have : j = i := Decidable.not_not.mp hne
    subst this
    simp

theorem swapL_uniform (cs : List Bytes) (L : Nat) (h : ∀ c ∈ cs, c.length = L) (i j : Nat) :
    ∀ c ∈ swapL cs i j, c.length = L :=
  fun c hc => h c ((swapL_perm cs i j).mem_iff.mp hc)

theorem shufLoop_eq (js : Nat → UInt32) (hjs : Legal js) (L : Nat) (hL : L ≤ 28) (pre post : Bytes) :
    ∀ (n : Nat) (cs : List Bytes), n < cs.length → (∀ c ∈ cs, c.length = L) →
      shufLoop js pre.length L n (pre ++ cs.flatten ++ post) =
        .ok (pre ++ (shufL js n cs).flatten ++ post) := by
  intro n
  induction n with
  | zero => intro cs _ _; rfl
  | succ n ih =>
    intro cs hn h
    have hj := hjs (n + 1)
    rw [shufLoop, swapAt_eq cs L hL h (n + 1) _ hn (by omega) pre post, Outcome.bind_ok,
      ih _ (by rw [swapL_length]; omega) (swapL_uniform cs L h _ _), shufL]

/-! ### every order comes from exactly one draw sequence -/

theorem swapL_append {α : Type} (l t : List α) (i j : Nat) (hi : i < l.length) (hj : j < l.length) :
    swapL (l ++ t) i j = swapL l i j ++ t := by
  rw [swapL_eq _ _ _ (by simp; omega) (by simp; omega), swapL_eq l i j hi hj,
    List.set_append_left _ _ hi, List.set_append_left _ _ (by simpa using hj),
    List.getElem_append_left hi, List.getElem_append_left hj]

theorem shufL_append {α : Type} (js : Nat → UInt32) (hjs : Legal js) (t : List α) :
    ∀ (n : Nat) (l : List α), n < l.length → shufL js n (l ++ t) = shufL js n l ++ t := by
  intro n
  induction n with
  | zero => intro l _; rfl
  | succ n ih =>
    intro l hn
    have := hjs (n + 1)
    rw [shufL, shufL, swapL_append l t _ _ hn (by omega), ih _ (by rw [swapL_length]; omega)]

theorem swapL_getElem_last {α : Type} (l : List α) (i j : Nat) (hi : i < l.length) (hj : j < l.length) :
    (swapL l i j)[i]'(by rw [swapL_length]; exact hi) = l[j] := by
  simp only [swapL_eq l i j hi hj, List.getElem_set]
  split
  · rename_i h; subst h; rfl
  · simp

theorem take_snoc {α : Type} (l : List α) (n : Nat) (h : l.length = n + 1) :
    l = l.take n ++ [l[n]] := by
  rw [List.take_append_getElem, List.take_of_length_le (by omega)]

/-- Split of the shuffle: the last position is settled by the first draw. -/
theorem shufL_succ_split {α : Type} (js : Nat → UInt32) (hjs : Legal js) (n : Nat) (l : List α)
    (hl : l.length = n + 2) :
    shufL js (n + 1) l = shufL js n ((swapL l (n + 1) (js (n + 1)).toNat).take (n + 1)) ++
      [l[(js (n + 1)).toNat]'(by have := hjs (n + 1); omega)] := by
  have hj := hjs (n + 1)
  have hlen : (swapL l (n + 1) (js (n + 1)).toNat).length = n + 2 := by rw [swapL_length, hl]
  have e : swapL l (n + 1) (js (n + 1)).toNat = (swapL l (n + 1) (js (n + 1)).toNat).take (n + 1) ++
      [l[(js (n + 1)).toNat]'(by omega)] := by
    rw [← swapL_getElem_last l (n + 1) _ (by omega) (by omega)]
    exact take_snoc _ _ hlen
  rw [shufL]
  conv => lhs; rw [e]
  exact shufL_append js hjs _ n _ (by simp; omega)

theorem shufL_congr {α : Type} (js js' : Nat → UInt32) :
    ∀ (n : Nat) (l : List α), (∀ i, 1 ≤ i → i ≤ n → js i = js' i) → shufL js n l = shufL js' n l := by
  intro n
  induction n with
  | zero => intro l _; rfl
  | succ n ih =>
    intro l h
    rw [shufL, shufL, h (n + 1) (by omega) (by omega), ih _ (fun i h1 h2 => h i h1 (by omega))]

theorem shufL_surj {α : Type} :
    ∀ (n : Nat), n < 4294967295 → ∀ (l l' : List α), l.length = n + 1 → l'.Perm l →
      ∃ js, Legal js ∧ shufL js n l = l' := by
  intro n
  induction n with
  | zero =>
    intro _ l l' hl hp
    refine ⟨fun _ => 0, fun i => by simp, ?_⟩
    match l, hl with
    | [a], _ => exact (List.perm_singleton.mp hp).symm
  | succ n ih =>
    intro hn l l' hl hp
    have hl' : l'.length = n + 2 := by rw [hp.length_eq, hl]
    have e' : l' = l'.take (n + 1) ++ [l'[n + 1]] := by
      exact take_snoc _ _ hl'
    have hmem : l'[n + 1] ∈ l := hp.mem_iff.mp (List.getElem_mem _)
    obtain ⟨j, hj, hje⟩ := List.getElem_of_mem hmem
    have hjo : (UInt32.ofNat j).toNat = j := by
      rw [UInt32.toNat_ofNat', Nat.mod_eq_of_lt (by omega)]
    have hlen : (swapL l (n + 1) j).length = n + 2 := by rw [swapL_length, hl]
    have hsplit : swapL l (n + 1) j = (swapL l (n + 1) j).take (n + 1) ++ [l[j]] := by
      rw [← swapL_getElem_last l (n + 1) j (by omega) hj]
      exact take_snoc _ _ hlen
    have hperm : (l'.take (n + 1)).Perm ((swapL l (n + 1) j).take (n + 1)) := by
      have h1 : (l'.take (n + 1) ++ [l'[n + 1]]).Perm ((swapL l (n + 1) j).take (n + 1) ++ [l[j]]) := by
        rw [← e', ← hsplit]
        exact hp.trans (swapL_perm _ _ _).symm
      rw [hje] at h1
      exact (List.perm_append_right_iff _).mp h1
    obtain ⟨js0, hleg0, he0⟩ := ih (by omega) _ _ (by simp; omega) hperm
    let js : Nat → UInt32 := fun i => if i = n + 1 then UInt32.ofNat j else js0 i
    have hleg : Legal js := by
      intro i
      show (if i = n + 1 then UInt32.ofNat j else js0 i).toNat ≤ i
      split
      · rw [hjo]; omega
      · exact hleg0 i
    refine ⟨js, hleg, ?_⟩
    have hjn : (js (n + 1)).toNat = j := by simp [js, hjo]
    rw [shufL_succ_split js hleg n l hl]
    simp only [hjn]
    rw [shufL_congr js js0 n _ (by intro i h1 h2; simp only [js]; rw [if_neg (by omega)]), he0, hje]
    exact e'.symm

theorem nodup_getElem_inj {α : Type} (l : List α) (h : l.Nodup) (i j : Nat) (hi : i < l.length)
    (hj : j < l.length) (e : l[i] = l[j]) : i = j := by
  have hp := List.pairwise_iff_getElem.mp h
  rcases Nat.lt_trichotomy i j with h1 | h1 | h1
  · exact absurd e (hp i j hi hj h1)
  · exact h1
  · exact absurd e.symm (hp j i hj hi h1)

theorem shufL_inj {α : Type} :
    ∀ (n : Nat) (l : List α), l.length = n + 1 → l.Nodup → ∀ js js', Legal js → Legal js' →
      shufL js n l = shufL js' n l → ∀ i, 1 ≤ i → i ≤ n → js i = js' i := by
  intro n
  induction n with
  | zero => intro l _ _ js js' _ _ _ i h1 h2; omega
  | succ n ih =>
    intro l hl hnd js js' hjs hjs' he
    have b1 := hjs (n + 1)
    have b2 := hjs' (n + 1)
    rw [shufL_succ_split js hjs n l hl, shufL_succ_split js' hjs' n l hl] at he
    obtain ⟨he1, he2⟩ := List.append_inj' he rfl
    have hjj : (js (n + 1)).toNat = (js' (n + 1)).toNat := by
      have := (List.cons.inj he2).1
      exact nodup_getElem_inj l hnd _ _ _ _ this
    have hjeq : js (n + 1) = js' (n + 1) := UInt32.toNat_inj.mp hjj
    intro i h1 h2
    by_cases hi : i = n + 1
    · subst hi; exact hjeq
    · rw [← hjj] at he1
      have hnd' : ((swapL l (n + 1) (js (n + 1)).toNat).take (n + 1)).Nodup :=
        (((swapL_perm l _ _).nodup_iff).mpr hnd).sublist (List.take_sublist _ _)
      exact ih _ (by simp [swapL_length]; omega) hnd' js js' hjs hjs' he1 i h1 (by omega)

end Gdnsd.Rand
