import Verif.Tree.Table
namespace Gdnsd.Table

/-- Distance of slot `s` from the home of hash value `h` in a table of `N` slots. -/
def D (N s h : Nat) : Nat := (s + (N - h % N)) % N

theorem D_lt {N s h : Nat} (hN : 0 < N) : D N s h < N := Nat.mod_lt _ hN

theorem D_add {N h p : Nat} (hN : 0 < N) (hp : p < N) : D N ((h + p) % N) h = p := by
  unfold D
  have h1 := Nat.mod_lt h hN
  rw [Nat.add_mod h p, Nat.mod_eq_of_lt hp]
  generalize h % N = a at *
  by_cases hc : a + p < N
  · rw [Nat.mod_eq_of_lt hc]
    have : a + p + (N - a) = p + N := by omega
    rw [this, Nat.add_mod_right, Nat.mod_eq_of_lt hp]
  · have h2 : (a + p) % N = a + p - N := by
      rw [Nat.mod_eq_sub_mod (by omega), Nat.mod_eq_of_lt (by omega)]
    rw [h2]
    have : a + p - N + (N - a) = p := by omega
    rw [this, Nat.mod_eq_of_lt hp]

theorem add_D {N h s : Nat} (hN : 0 < N) (hs : s < N) : (h + D N s h) % N = s := by
  unfold D
  have h1 := Nat.mod_lt h hN
  rw [Nat.add_mod, Nat.mod_mod]
  generalize h % N = a at *
  by_cases hc : s + (N - a) < N
  · rw [Nat.mod_eq_of_lt hc]
    have : a + (s + (N - a)) = s + N := by omega
    rw [this, Nat.add_mod_right, Nat.mod_eq_of_lt hs]
  · have h2 : (s + (N - a)) % N = s - a := by
      rw [Nat.mod_eq_sub_mod (by omega)]
      by_cases ha : a = 0
      · subst ha; rw [show s + (N - 0) - N = s by omega, Nat.mod_eq_of_lt hs]; omega
      · rw [Nat.mod_eq_of_lt (by omega)]; omega
    rw [h2]
    by_cases ha : a ≤ s
    · rw [show a + (s - a) = s by omega, Nat.mod_eq_of_lt hs]
    · omega

theorem mask_toNat {m : Nat} (hm : m ≤ 63) : (UInt64.ofNat (2 ^ m % 2 ^ 64) - 1).toNat = 2 ^ m - 1 := by
  have h1 : 2 ^ m ≤ 2 ^ 63 := Nat.pow_le_pow_right (by decide) hm
  have h2 : 0 < 2 ^ m := Nat.pow_pos (by decide)
  have h3 : (2:Nat) ^ 63 < 2 ^ 64 := by decide
  rw [UInt64.toNat_sub, UInt64.toNat_ofNat', Nat.mod_mod, Nat.mod_eq_of_lt (show 2 ^ m < 2 ^ 64 by omega)]
  have : (1 : UInt64).toNat = 1 := rfl
  rw [this]
  have : 2 ^ 64 - 1 + 2 ^ m = 2 ^ 64 + (2 ^ m - 1) := by omega
  rw [this, Nat.add_mod_left, Nat.mod_eq_of_lt (by omega)]

theorem and_mask {m : Nat} {mask : UInt64} (hk : mask.toNat = 2 ^ m - 1) (x : UInt64) :
    (x &&& mask).toNat = x.toNat % 2 ^ m := by
  rw [UInt64.toNat_and, hk, Nat.and_two_pow_sub_one_eq_mod]

theorem slotOf_eq {m : Nat} {mask : UInt64} (hm : m ≤ 63) (hk : mask.toNat = 2 ^ m - 1) (h : UInt64) (p : Nat) :
    slotOf h p mask = (h.toNat + p) % 2 ^ m := by
  unfold slotOf
  rw [and_mask hk, UInt64.toNat_add, UInt64.toNat_ofNat']
  have hd : 2 ^ m ∣ 2 ^ 64 := Nat.pow_dvd_pow 2 (by omega)
  rw [Nat.mod_mod_of_dvd _ hd, Nat.add_mod, Nat.mod_mod_of_dvd _ hd, ← Nat.add_mod]

theorem pdist_eq {m : Nat} {mask : UInt64} (hm : m ≤ 63) (hk : mask.toNat = 2 ^ m - 1) (s : Nat) (h : UInt64) :
    pdist s h mask = D (2 ^ m) s h.toNat := by
  unfold pdist D
  rw [and_mask hk, UInt64.toNat_sub, UInt64.toNat_ofNat']
  have hd : 2 ^ m ∣ 2 ^ 64 := Nat.pow_dvd_pow 2 (by omega)
  rw [Nat.mod_mod_of_dvd _ hd, Nat.add_comm, Nat.add_mod, Nat.mod_mod_of_dvd _ hd, ← Nat.add_mod]
  have hl := h.toNat_lt
  obtain ⟨c, hc⟩ := hd
  have hN : 0 < 2 ^ m := Nat.pow_pos (by decide)
  have h1 := Nat.mod_lt h.toNat hN
  have h2 := Nat.div_add_mod h.toNat (2 ^ m)
  have hq : h.toNat / 2 ^ m < c := by
    rw [Nat.div_lt_iff_lt_mul hN, Nat.mul_comm, ← hc]; exact hl
  have : 2 ^ 64 - h.toNat = 2 ^ m * (c - h.toNat / 2 ^ m - 1) + (2 ^ m - h.toNat % 2 ^ m) := by
    rw [Nat.mul_sub, Nat.mul_sub, ← hc]
    have : 2 ^ m * (h.toNat / 2 ^ m + 1) ≤ 2 ^ m * c := Nat.mul_le_mul_left _ hq
    rw [Nat.mul_add, ← hc] at this
    omega
  rw [this, Nat.add_comm s, Nat.add_assoc, Nat.mul_add_mod, Nat.add_comm]

section
variable {α : Type}

/-- Slot `i` holds `x`. -/
def Occ (t : List (Slot α)) (i : Nat) (x : UInt64 × Bytes × α) : Prop := t[i]? = some (some x)

/-- The robin-hood invariant: whatever is displaced by `d > 0` is preceded by something
displaced by at least `d - 1`. -/
def Inv (N : Nat) (t : List (Slot α)) : Prop :=
  ∀ i x, i < N → Occ t ((i + 1) % N) x → 0 < D N ((i + 1) % N) x.1.toNat →
    ∃ y, Occ t i y ∧ D N ((i + 1) % N) x.1.toNat ≤ D N i y.1.toNat + 1

/-- What the table holds. -/
def entries (t : List (Slot α)) : List (UInt64 × Bytes × α) := t.filterMap id

theorem Occ.lt {t : List (Slot α)} {i : Nat} {x : UInt64 × Bytes × α} (h : Occ t i x) : i < t.length := by
  unfold Occ at h
  exact Decidable.byContradiction fun hn => by rw [List.getElem?_eq_none (by omega)] at h; cases h

theorem Occ.inj {t : List (Slot α)} {i : Nat} {x y : UInt64 × Bytes × α} (h : Occ t i x) (h' : Occ t i y) :
    x = y := by
  unfold Occ at h h'; rw [h] at h'; cases h'; rfl

theorem Occ.mem {t : List (Slot α)} {i : Nat} {x : UInt64 × Bytes × α} (h : Occ t i x) : x ∈ entries t := by
  unfold entries; rw [List.mem_filterMap]
  exact ⟨some x, List.mem_of_getElem? h, rfl⟩

theorem mem_entries {t : List (Slot α)} {x : UInt64 × Bytes × α} (h : x ∈ entries t) : ∃ i, Occ t i x := by
  unfold entries at h; rw [List.mem_filterMap] at h
  obtain ⟨a, ha, hx⟩ := h
  simp only [id_eq] at hx; subst hx
  exact List.mem_iff_getElem?.mp ha

/-- Everything between an element's home and its slot is displaced at least as far. -/
theorem chain {N : Nat} {t : List (Slot α)} (hN : 0 < N) (hi : Inv N t) {x : UInt64 × Bytes × α} {d : Nat}
    (hd : d < N) (ho : ∃ y, Occ t ((x.1.toNat + d) % N) y ∧ d ≤ D N ((x.1.toNat + d) % N) y.1.toNat) (e : Nat)
    (he : e ≤ d) : ∃ y, Occ t ((x.1.toNat + e) % N) y ∧ e ≤ D N ((x.1.toNat + e) % N) y.1.toNat := by
  obtain ⟨k, rfl⟩ : ∃ k, d = e + k := ⟨d - e, by omega⟩
  induction k with
  | zero => exact ho
  | succ k ih =>
    refine ih (by omega) ?_ (by omega)
    obtain ⟨y, hy, hdy⟩ := ho
    have hs : (x.1.toNat + (e + (k + 1))) % N = ((x.1.toNat + (e + k)) % N + 1) % N := by
      rw [Nat.mod_add_mod]; rfl
    rw [hs] at hy hdy
    obtain ⟨z, hz, hdz⟩ := hi _ y (Nat.mod_lt _ hN) hy (by omega)
    exact ⟨z, hz, by omega⟩

/-- With an empty slot nothing is displaced all the way round. -/
theorem dist_lt {N : Nat} {t : List (Slot α)} (hN : 0 < N) (hi : Inv N t) {i0 : Nat} (h0 : i0 < N)
    (he : t[i0]? = some none) {j : Nat} (hj : j < N) {y : UInt64 × Bytes × α} (hy : Occ t j y) :
    D N j y.1.toNat + 1 < N := by
  have hlt := D_lt (s := j) (h := y.1.toNat) hN
  apply Decidable.byContradiction
  intro hn
  have hj' := add_D (h := y.1.toNat) hN hj
  obtain ⟨z, hz, -⟩ := chain hN hi (x := y) hlt ⟨y, by rw [hj']; exact hy, by rw [hj']; omega⟩
    (D N i0 y.1.toNat) (by have := D_lt (s := i0) (h := y.1.toNat) hN; omega)
  rw [add_D hN h0] at hz
  unfold Occ at hz; rw [he] at hz; cases hz

/-- Condition for putting `c` at distance `p`. -/
def Pre (N : Nat) (t : List (Slot α)) (h : UInt64) (p : Nat) : Prop :=
  p = 0 ∨ ∃ y, Occ t ((h.toNat + (p - 1)) % N) y ∧ p ≤ D N ((h.toNat + (p - 1)) % N) y.1.toNat + 1

theorem Pre.lt {N : Nat} {t : List (Slot α)} {h : UInt64} {p : Nat} (hp : Pre N t h p) (hN : 0 < N) (hi : Inv N t)
    {i0 : Nat} (h0 : i0 < N) (he : t[i0]? = some none) : p < N := by
  rcases hp with hp | ⟨y, hy, hd⟩
  · omega
  · have := dist_lt hN hi h0 he (Nat.mod_lt _ hN) hy; omega

theorem getElem?_set' {t : List (Slot α)} {i j : Nat} {v : Slot α} (h : i < t.length) :
    (t.set i v)[j]? = if i = j then some v else t[j]? := by
  rw [List.getElem?_set]
  by_cases hij : i = j
  · simp [hij]; omega
  · simp [hij]

/-- Putting `c` at distance `p`, on an empty slot or on something displaced less. -/
theorem inv_set {N : Nat} {t : List (Slot α)} (hN : 1 < N) (hl : t.length = N) (hi : Inv N t)
    (c : UInt64 × Bytes × α) (p : Nat) (hp : p < N) (hpre : Pre N t c.1 p)
    (hold : ∀ y, Occ t ((c.1.toNat + p) % N) y → D N ((c.1.toNat + p) % N) y.1.toNat ≤ p) :
    Inv N (t.set ((c.1.toNat + p) % N) (some c)) := by
  have hN0 : 0 < N := by omega
  have hs : (c.1.toNat + p) % N < t.length := by rw [hl]; exact Nat.mod_lt _ hN0
  intro i x hiN hx hd
  unfold Occ at hx
  rw [getElem?_set' hs] at hx
  by_cases h1 : (c.1.toNat + p) % N = (i + 1) % N
  · rw [if_pos h1] at hx
    cases hx
    rw [← h1, D_add hN0 hp] at hd ⊢
    rcases hpre with h | ⟨y, hy, hdy⟩
    · omega
    · have hii : i = (c.1.toNat + (p - 1)) % N := by
        have : c.1.toNat + p = c.1.toNat + (p - 1) + 1 := by omega
        rw [this] at h1
        have hA := Nat.mod_lt (c.1.toNat + (p - 1)) hN0
        rw [← Nat.mod_add_mod] at h1
        generalize (c.1.toNat + (p - 1)) % N = a at *
        by_cases h2 : a + 1 < N <;> by_cases h3 : i + 1 < N
        · rw [Nat.mod_eq_of_lt h2, Nat.mod_eq_of_lt h3] at h1; omega
        · rw [Nat.mod_eq_of_lt h2, show i + 1 = N by omega, Nat.mod_self] at h1; omega
        · rw [Nat.mod_eq_of_lt h3, show a + 1 = N by omega, Nat.mod_self] at h1; omega
        · omega
      refine ⟨y, ?_, by rw [hii]; exact hdy⟩
      unfold Occ
      rw [getElem?_set' hs, if_neg, hii]
      · exact hy
      · rw [h1]
        intro h
        by_cases h3 : i + 1 < N
        · rw [Nat.mod_eq_of_lt h3] at h; omega
        · rw [show i + 1 = N by omega, Nat.mod_self] at h; omega
  · rw [if_neg h1] at hx
    obtain ⟨y, hy, hdy⟩ := hi i x hiN hx hd
    by_cases h2 : (c.1.toNat + p) % N = i
    · refine ⟨c, ?_, ?_⟩
      · unfold Occ; rw [getElem?_set' hs, if_pos h2]
      · have := hold y (by rw [h2]; exact hy)
        rw [← h2, D_add hN0 hp, h2]
        rw [h2] at this
        omega
    · exact ⟨y, by unfold Occ; rw [getElem?_set' hs, if_neg h2]; exact hy, hdy⟩

theorem entries_set_none {t : List (Slot α)} {i : Nat} {c : UInt64 × Bytes × α} (h : t[i]? = some none) :
    (entries (t.set i (some c))).Perm (c :: entries t) := by
  have hlt : i < t.length := by
    exact Decidable.byContradiction fun hn => by rw [List.getElem?_eq_none (by omega)] at h; cases h
  have hg : t[i] = none := by
    rw [List.getElem?_eq_getElem hlt] at h; exact Option.some.inj h
  have ht : t = t.take i ++ none :: t.drop (i + 1) := by
    rw [← hg, ← List.drop_eq_getElem_cons hlt, List.take_append_drop]
  have hs : t.set i (some c) = t.take i ++ some c :: t.drop (i + 1) := by
    rw [List.set_eq_take_append_cons_drop, if_pos hlt]
  rw [hs]
  have he : entries t = entries (t.take i) ++ entries (t.drop (i + 1)) := by
    conv => lhs; rw [ht]
    simp [entries, List.filterMap_append]
  rw [he]
  simp only [entries, List.filterMap_append, List.filterMap_cons, id_eq]
  exact List.perm_middle

theorem entries_set_some {t : List (Slot α)} {i : Nat} {c x : UInt64 × Bytes × α} (h : Occ t i x) :
    (x :: entries (t.set i (some c))).Perm (c :: entries t) := by
  have hlt := h.lt
  have hg : t[i] = some x := by
    unfold Occ at h; rw [List.getElem?_eq_getElem hlt] at h; exact Option.some.inj h
  have ht : t = t.take i ++ some x :: t.drop (i + 1) := by
    rw [← hg, ← List.drop_eq_getElem_cons hlt, List.take_append_drop]
  have hs : t.set i (some c) = t.take i ++ some c :: t.drop (i + 1) := by
    rw [List.set_eq_take_append_cons_drop, if_pos hlt]
  rw [hs]
  have he : entries t = entries (t.take i) ++ x :: entries (t.drop (i + 1)) := by
    conv => lhs; rw [ht]
    simp [entries, List.filterMap_append]
  rw [he]
  simp only [entries, List.filterMap_append, List.filterMap_cons, id_eq]
  exact ((List.perm_middle (a := c)).cons x).trans
    ((List.Perm.swap c x _).trans ((List.perm_middle (a := x)).symm.cons c))

theorem slotAt_ok {t : List (Slot α)} {i : Nat} {s : Slot α} (h : t[i]? = some s) : slotAt t i = .ok s := by
  unfold slotAt; rw [h]

theorem insert_spec {m : Nat} {mask : UInt64} (hm1 : 1 ≤ m) (hm : m ≤ 63) (hk : mask.toNat = 2 ^ m - 1)
    (i0 : Nat) (h0 : i0 < 2 ^ m) (fuel : Nat) :
    ∀ (t : List (Slot α)) (c : UInt64 × Bytes × α) (p g : Nat), t.length = 2 ^ m → Inv (2 ^ m) t →
      t[i0]? = some none → Pre (2 ^ m) t c.1 p → (c.1.toNat + p + g) % 2 ^ m = i0 → g < fuel →
      ∃ t', insert mask fuel t c p = .ok t' ∧ t'.length = 2 ^ m ∧ Inv (2 ^ m) t' ∧
        (entries t').Perm (c :: entries t) := by
  have hN : 1 < 2 ^ m := Nat.one_lt_two_pow (by omega)
  have hN0 : 0 < 2 ^ m := by omega
  induction fuel with
  | zero => intro t c p g _ _ _ _ _ hg; omega
  | succ fuel ih =>
    intro t c p g hl hi he hpre hg0 hg
    have hp := hpre.lt hN0 hi h0 he
    have hs : (c.1.toNat + p) % 2 ^ m < t.length := by rw [hl]; exact Nat.mod_lt _ hN0
    simp only [insert, slotOf_eq hm hk, pdist_eq hm hk]
    cases hx : t[(c.1.toNat + p) % 2 ^ m]? with
    | none => rw [List.getElem?_eq_getElem hs] at hx; cases hx
    | some s =>
      rw [slotAt_ok hx, Outcome.bind_ok]
      cases s with
      | none =>
        refine ⟨_, rfl, by simp [hl], ?_, entries_set_none hx⟩
        refine inv_set hN hl hi c p hp hpre ?_
        intro y hy; unfold Occ at hy; rw [hx] at hy; cases hy
      | some x =>
        have hne : (c.1.toNat + p) % 2 ^ m ≠ i0 := by
          intro h; rw [h, he] at hx; cases hx
        obtain ⟨g', rfl⟩ : ∃ g', g = g' + 1 := by
          cases g with
          | zero => exact absurd hg0 hne
          | succ g' => exact ⟨g', rfl⟩
        dsimp only
        by_cases hlt : D (2 ^ m) ((c.1.toNat + p) % 2 ^ m) x.1.toNat < p
        · rw [if_pos hlt]
          have hback := add_D (h := x.1.toNat) hN0 (show (c.1.toNat + p) % 2 ^ m < 2 ^ m from Nat.mod_lt _ hN0)
          obtain ⟨t', h1, h2, h3, h4⟩ := ih (t.set ((c.1.toNat + p) % 2 ^ m) (some c)) x
            (D (2 ^ m) ((c.1.toNat + p) % 2 ^ m) x.1.toNat + 1) g' (by simp [hl])
            (inv_set hN hl hi c p hp hpre
              (by intro y hy; rw [Occ.inj hy hx]; omega))
            (by rw [getElem?_set' hs, if_neg hne]; exact he)
            (by
              refine .inr ⟨c, ?_, ?_⟩
              · rw [Nat.add_sub_cancel, hback]; unfold Occ; rw [getElem?_set' hs, if_pos rfl]
              · rw [Nat.add_sub_cancel, hback, D_add hN0 hp]; omega)
            (by
              rw [← hg0]
              have e1 : x.1.toNat + (D (2 ^ m) ((c.1.toNat + p) % 2 ^ m) x.1.toNat + 1) + g' =
                (x.1.toNat + D (2 ^ m) ((c.1.toNat + p) % 2 ^ m) x.1.toNat) + (g' + 1) := by omega
              rw [e1, ← Nat.mod_add_mod, hback, Nat.mod_add_mod])
            (by omega)
          exact ⟨t', h1, h2, h3, h4.trans (entries_set_some hx)⟩
        · rw [if_neg hlt]
          exact ih t c (p + 1) g' hl hi he
            (.inr ⟨x, by rw [Nat.add_sub_cancel]; exact hx, by rw [Nat.add_sub_cancel]; omega⟩)
            (by rw [← hg0]; congr 1; omega) (by omega)

/-- The probe loop: finds the entry with the key, or stops where it may be inserted. -/
theorem probe_spec {m : Nat} {mask : UInt64} (hm1 : 1 ≤ m) (hm : m ≤ 63) (hk : mask.toNat = 2 ^ m - 1)
    (i0 : Nat) (h0 : i0 < 2 ^ m) (t : List (Slot α)) (hl : t.length = 2 ^ m) (hi : Inv (2 ^ m) t)
    (he : t[i0]? = some none) (kh : UInt64) (label : Bytes) (fuel : Nat) :
    ∀ (p g : Nat), Pre (2 ^ m) t kh p →
      (∀ v j, Occ t j (kh, label, v) → p ≤ D (2 ^ m) j kh.toNat) →
      (kh.toNat + p + g) % 2 ^ m = i0 → g < fuel →
      (∃ v p', probe t mask kh label fuel p = .ok (some v, p') ∧ (kh, label, v) ∈ entries t) ∨
      (∃ p', probe t mask kh label fuel p = .ok (none, p') ∧ Pre (2 ^ m) t kh p' ∧
        ∀ v, (kh, label, v) ∉ entries t) := by
  have hN0 : 0 < 2 ^ m := Nat.pow_pos (by decide)
  induction fuel with
  | zero => intro p g _ _ _ hg; omega
  | succ fuel ih =>
    intro p g hpre hmin hg0 hg
    have hp := hpre.lt hN0 hi h0 he
    have hs : (kh.toNat + p) % 2 ^ m < t.length := by rw [hl]; exact Nat.mod_lt _ hN0
    have habs : (∀ y, Occ t ((kh.toNat + p) % 2 ^ m) y → D (2 ^ m) ((kh.toNat + p) % 2 ^ m) y.1.toNat < p) →
        ∀ v, (kh, label, v) ∉ entries t := by
      intro hy v hv
      obtain ⟨j, hj⟩ := mem_entries hv
      have hjN : j < 2 ^ m := hl ▸ hj.lt
      have hj' := add_D (h := kh.toNat) hN0 hjN
      obtain ⟨z, hz, hdz⟩ := chain hN0 hi (x := (kh, label, v)) (D_lt (s := j) (h := kh.toNat) hN0)
        ⟨(kh, label, v), by rw [hj']; exact hj, by rw [hj']; exact Nat.le_refl _⟩ p (hmin v j hj)
      exact absurd (hy z hz) (Nat.not_lt_of_le hdz)
    simp only [probe, slotOf_eq hm hk, pdist_eq hm hk]
    cases hx : t[(kh.toNat + p) % 2 ^ m]? with
    | none => rw [List.getElem?_eq_getElem hs] at hx; cases hx
    | some s =>
      rw [slotAt_ok hx, Outcome.bind_ok]
      cases s with
      | none =>
        refine .inr ⟨p, rfl, hpre, habs ?_⟩
        intro y hy; unfold Occ at hy; rw [hx] at hy; cases hy
      | some x =>
        obtain ⟨h, l, v⟩ := x
        have hne : (kh.toNat + p) % 2 ^ m ≠ i0 := by
          intro hh; rw [hh, he] at hx; cases hx
        obtain ⟨g', rfl⟩ : ∃ g', g = g' + 1 := by
          cases g with
          | zero => exact absurd hg0 hne
          | succ g' => exact ⟨g', rfl⟩
        simp only []
        by_cases hlt : D (2 ^ m) ((kh.toNat + p) % 2 ^ m) h.toNat < p
        · rw [if_pos hlt]
          refine .inr ⟨p, rfl, hpre, habs ?_⟩
          intro y hy; rw [Occ.inj hy hx]; exact hlt
        · rw [if_neg hlt]
          by_cases heq : h = kh ∧ l = label
          · rw [if_pos heq]
            obtain ⟨rfl, rfl⟩ := heq
            exact .inl ⟨v, p, rfl, Occ.mem hx⟩
          · rw [if_neg heq]
            refine ih (p + 1) g' ?_ ?_ (by rw [← hg0]; congr 1; omega) (by omega)
            · exact .inr ⟨_, by rw [Nat.add_sub_cancel]; exact hx, by rw [Nat.add_sub_cancel]; simp only; omega⟩
            · intro w j hj
              have h1 := hmin w j hj
              rcases Nat.lt_or_eq_of_le h1 with h2 | h2
              · exact h2
              · exfalso
                have hj' := add_D (h := kh.toNat) hN0 (show j < 2 ^ m from hl ▸ hj.lt)
                rw [← h2] at hj'
                rw [← hj'] at hj
                have := Occ.inj hj hx
                simp only [Prod.mk.injEq] at this
                exact heq ⟨this.1.symm, this.2.1.symm⟩

theorem entries_length_le (t : List (Slot α)) : (entries t).length ≤ t.length := by
  unfold entries; exact List.length_filterMap_le _ _

theorem exists_empty {t : List (Slot α)} (h : (entries t).length < t.length) : ∃ i, i < t.length ∧ t[i]? = some none := by
  induction t with
  | nil => simp at h
  | cons s t ih =>
    cases s with
    | none => exact ⟨0, by simp, rfl⟩
    | some x =>
      have : (entries t).length < t.length := by
        simp [entries] at h ⊢; exact h
      obtain ⟨i, h1, h2⟩ := ih this
      exact ⟨i + 1, by simp; omega, by simpa using h2⟩

/-- Inserting into a table with room. -/
theorem insert_room {m : Nat} {mask : UInt64} (hm1 : 1 ≤ m) (hm : m ≤ 63) (hk : mask.toNat = 2 ^ m - 1)
    (t : List (Slot α)) (c : UInt64 × Bytes × α) (p fuel : Nat) (hl : t.length = 2 ^ m) (hi : Inv (2 ^ m) t)
    (hroom : (entries t).length < 2 ^ m) (hpre : Pre (2 ^ m) t c.1 p) (hf : 2 ^ m ≤ fuel) :
    ∃ t', insert mask fuel t c p = .ok t' ∧ t'.length = 2 ^ m ∧ Inv (2 ^ m) t' ∧
      (entries t').Perm (c :: entries t) := by
  have hN0 : 0 < 2 ^ m := Nat.pow_pos (by decide)
  obtain ⟨i0, h0, he⟩ := exists_empty (t := t) (by omega)
  have hlt := D_lt (s := i0) (h := c.1.toNat + p) hN0
  exact insert_spec hm1 hm hk i0 (by omega) fuel t c p _ hl hi he hpre (add_D hN0 (by omega)) (by omega)

theorem Inv_replicate (N : Nat) : Inv N (List.replicate N (none : Slot α)) := by
  intro i x _ hx
  unfold Occ at hx
  rw [List.getElem?_replicate] at hx
  split at hx <;> cases hx

theorem entries_replicate (N : Nat) : entries (List.replicate N (none : Slot α)) = [] := by
  unfold entries; rw [List.filterMap_replicate]; simp

theorem reinsert_spec {m : Nat} {mask : UInt64} (hm1 : 1 ≤ m) (hm : m ≤ 63) (hk : mask.toNat = 2 ^ m - 1)
    (fuel : Nat) (hf : 2 ^ m ≤ fuel) (old : List (Slot α)) :
    ∀ (t : List (Slot α)), t.length = 2 ^ m → Inv (2 ^ m) t → (entries old).length + (entries t).length ≤ 2 ^ m →
      ∃ t', reinsert mask fuel old t = .ok t' ∧ t'.length = 2 ^ m ∧ Inv (2 ^ m) t' ∧
        (entries t').Perm (entries old ++ entries t) := by
  induction old with
  | nil => intro t hl hi _; exact ⟨t, rfl, hl, hi, by simp [entries]⟩
  | cons s old ih =>
    intro t hl hi hc
    cases s with
    | none =>
      have : entries (none :: old) = entries old := by simp [entries]
      rw [this] at hc ⊢
      exact ih t hl hi hc
    | some x =>
      have : entries (some x :: old) = x :: entries old := by simp [entries]
      rw [this] at hc ⊢
      simp only [List.length_cons] at hc
      obtain ⟨t1, h1, h2, h3, h4⟩ := insert_room hm1 hm hk t x 0 fuel hl hi (by omega) (.inl rfl) hf
      have hlen := h4.length_eq
      simp only [List.length_cons] at hlen
      obtain ⟨t2, g1, g2, g3, g4⟩ := ih t1 h2 h3 (by omega)
      refine ⟨t2, by simp only [reinsert, h1, Outcome.bind_ok]; exact g1, g2, g3, ?_⟩
      exact g4.trans ((List.Perm.append_left _ h4).trans List.perm_middle)

/-- The state of a node's table between operations. -/
def Valid (hash : Bytes → UInt64) (n : Tbl α) : Prop :=
  (n.ccount = 0 ∧ n.tab = []) ∨
  ∃ m, 1 ≤ m ∧ m ≤ 63 ∧ n.tab.length = 2 ^ m ∧ Inv (2 ^ m) n.tab ∧ (entries n.tab).length = n.ccount ∧
    2 ^ (m - 1) ≤ n.ccount ∧ n.ccount < 2 ^ m ∧ (∀ x ∈ entries n.tab, x.1 = hash x.2.1) ∧
    ((entries n.tab).map fun x => x.2.1).Nodup

theorem count2mask_eq {c m : Nat} (hm1 : 1 ≤ m) (hm : m ≤ 63) (h1 : 2 ^ (m - 1) ≤ c) (h2 : c < 2 ^ m) :
    ∃ mask, count2mask c = .ok mask ∧ mask.toNat = 2 ^ m - 1 := by
  have h0 : 0 < 2 ^ (m - 1) := Nat.pow_pos (by decide)
  have hc : c ≠ 0 := by omega
  have hlog : Nat.log2 c = m - 1 := by
    apply Nat.le_antisymm
    · have : Nat.log2 c < m := (Nat.log2_lt hc).mpr h2
      omega
    · exact (Nat.le_log2 hc).mpr h1
  refine ⟨_, by unfold count2mask; rw [decide_eq_true hc, assert_true, Outcome.bind_ok, hlog, Nat.sub_add_cancel hm1], mask_toNat hm⟩

theorem or_one_bounds {c m : Nat} (hm1 : 1 ≤ m) (h1 : 2 ^ (m - 1) ≤ c) (h2 : c < 2 ^ m) :
    2 ^ (m - 1) ≤ c ||| 1 ∧ c ||| 1 < 2 ^ m :=
  ⟨Nat.le_trans h1 Nat.left_le_or, Nat.or_lt_two_pow h2 (Nat.one_lt_two_pow (by omega))⟩

theorem shl_mask {m : Nat} {mask : UInt64} (hm : m + 1 ≤ 63) (hk : mask.toNat = 2 ^ m - 1) :
    ((mask <<< 1) + 1).toNat = 2 ^ (m + 1) - 1 := by
  have h1 : 2 ^ (m + 1) ≤ 2 ^ 63 := Nat.pow_le_pow_right (by decide) hm
  have h2 : 0 < 2 ^ m := Nat.pow_pos (by decide)
  have h3 : 2 ^ (m + 1) = 2 * 2 ^ m := by rw [Nat.pow_succ]; omega
  rw [UInt64.toNat_add, UInt64.toNat_shiftLeft, hk]
  have e1 : (1 : UInt64).toNat = 1 := rfl
  have e2 : (1 : UInt64).toNat % 64 = 1 := rfl
  rw [e1, show 1 % 64 = 1 from rfl, Nat.shiftLeft_eq]
  rw [Nat.mod_eq_of_lt (a := (2 ^ m - 1) * 2 ^ 1) (by omega), Nat.mod_eq_of_lt (by omega)]
  omega

theorem mask_succ {m : Nat} {mask : UInt64} (hm : m ≤ 63) (hk : mask.toNat = 2 ^ m - 1) :
    (mask + 1).toNat = 2 ^ m := by
  have h1 : 2 ^ m ≤ 2 ^ 63 := Nat.pow_le_pow_right (by decide) hm
  have h2 : 0 < 2 ^ m := Nat.pow_pos (by decide)
  rw [UInt64.toNat_add, hk, show (1 : UInt64).toNat = 1 from rfl, Nat.mod_eq_of_lt (by omega)]
  omega

theorem key_unique {t : List (Slot α)} (hn : ((entries t).map fun x => x.2.1).Nodup) {x y : UInt64 × Bytes × α}
    (hx : x ∈ entries t) (hy : y ∈ entries t) (h : x.2.1 = y.2.1) : x = y := by
  revert hn hx hy
  generalize entries t = l
  intro hn hx hy
  induction l with
  | nil => cases hx
  | cons a l ih =>
    rw [List.map_cons, List.nodup_cons] at hn
    rcases List.mem_cons.mp hx with h1 | h1 <;> rcases List.mem_cons.mp hy with h2 | h2
    · rw [h1, h2]
    · subst h1; exact absurd (List.mem_map.mpr ⟨y, h2, h.symm⟩) hn.1
    · subst h2; exact absurd (List.mem_map.mpr ⟨x, h1, h⟩) hn.1
    · exact ih hn.2 h1 h2

/-- `probe` from the start on a valid table. -/
theorem probe_valid {hash : Bytes → UInt64} {n : Tbl α} {m : Nat} {mask : UInt64} (hm1 : 1 ≤ m) (hm : m ≤ 63)
    (hk : mask.toNat = 2 ^ m - 1) (hl : n.tab.length = 2 ^ m) (hi : Inv (2 ^ m) n.tab)
    (hroom : (entries n.tab).length < 2 ^ m) (kh : UInt64) (label : Bytes) :
    (∃ v p', probe n.tab mask kh label (n.tab.length + 1) 0 = .ok (some v, p') ∧ (kh, label, v) ∈ entries n.tab) ∨
    (∃ p', probe n.tab mask kh label (n.tab.length + 1) 0 = .ok (none, p') ∧ Pre (2 ^ m) n.tab kh p' ∧
        ∀ v, (kh, label, v) ∉ entries n.tab) := by
  have hN0 : 0 < 2 ^ m := Nat.pow_pos (by decide)
  obtain ⟨i0, h0, he⟩ := exists_empty (t := n.tab) (by omega)
  have hlt := D_lt (s := i0) (h := kh.toNat + 0) hN0
  exact probe_spec hm1 hm hk i0 (by omega) n.tab hl hi he kh label _ 0 _ (.inl rfl) (fun _ _ _ => Nat.zero_le _)
    (add_D hN0 (by omega)) (by omega)

/-- Lookup finds exactly the entries. -/
theorem find_spec {hash : Bytes → UInt64} {n : Tbl α} (hv : Valid hash n) (k : Bytes) :
    ∃ r, find hash n k = .ok r ∧ ∀ v, r = some v ↔ (hash k, k, v) ∈ entries n.tab := by
  rcases hv with ⟨h1, h2⟩ | ⟨m, hm1, hm, hl, hi, hc, hc1, hc2, hh, hn⟩
  · refine ⟨none, by unfold find; rw [if_pos h2], ?_⟩
    intro v; rw [h2]; simp [entries]
  · have h0 : 0 < 2 ^ (m - 1) := Nat.pow_pos (by decide)
    obtain ⟨mask, hmask, hk⟩ := count2mask_eq hm1 hm hc1 hc2
    have hne : n.tab ≠ [] := by intro h; rw [h] at hl; have : 0 < 2 ^ m := Nat.pow_pos (by decide); simp at hl; omega
    have hcn : n.ccount ≠ 0 := by omega
    unfold find
    rw [if_neg hne, decide_eq_true hcn, assert_true, Outcome.bind_ok, hmask, Outcome.bind_ok]
    rcases probe_valid (hash := hash) hm1 hm hk hl hi (by omega) (hash k) k with ⟨v, p', he, hmem⟩ | ⟨p', he, -, hno⟩
    · rw [he, Outcome.bind_ok]
      refine ⟨some v, rfl, ?_⟩
      intro w
      constructor
      · intro h; cases h; exact hmem
      · intro h
        have := key_unique hn hmem h rfl
        simp only [Prod.mk.injEq, true_and] at this
        rw [this]
    · rw [he, Outcome.bind_ok]
      refine ⟨none, rfl, ?_⟩
      intro w
      constructor
      · intro h; cases h
      · intro h; exact absurd h (hno w)

/-- The growth step keeps the entries and leaves room. -/
theorem grow_spec {hash : Bytes → UInt64} {n : Tbl α} (hv : Valid hash n) (hsz : n.ccount < 2 ^ 62) (kh : UInt64)
    {mask : UInt64} {p : Nat}
    (hmask : ∀ m, 1 ≤ m → 2 ^ (m - 1) ≤ n.ccount → n.ccount < 2 ^ m → mask.toNat = 2 ^ m - 1 ∧ Pre (2 ^ m) n.tab kh p) :
    ∃ m mask' t p', grow n mask p = .ok (mask', t, p') ∧ 1 ≤ m ∧ m ≤ 63 ∧ mask'.toNat = 2 ^ m - 1 ∧
      t.length = 2 ^ m ∧ Inv (2 ^ m) t ∧ (entries t).Perm (entries n.tab) ∧ Pre (2 ^ m) t kh p' ∧
      2 ^ (m - 1) ≤ n.ccount + 1 ∧ n.ccount + 1 < 2 ^ m := by
  rcases hv with ⟨h1, h2⟩ | ⟨m, hm1, hm, hl, hi, hc, hc1, hc2, hh, hn⟩
  · unfold grow
    rw [if_pos (.inl h1), if_pos h1, h2]
    have e1 : (((0 : UInt64) <<< 1) + 1).toNat = 2 ^ 1 - 1 := by decide
    have e2 := mask_succ (m := 1) (by omega) e1
    refine ⟨1, _, List.replicate 2 none, 0, ?_, by omega, by omega, e1, by simp, Inv_replicate _, ?_, .inl rfl,
      by simp, by rw [h1]; decide⟩
    · dsimp only; rw [e2]; rfl
    · simp [entries]
  · have h0 : 0 < 2 ^ (m - 1) := Nat.pow_pos (by decide)
    have hcn : n.ccount ≠ 0 := by omega
    obtain ⟨hk, hpre⟩ := hmask m hm1 hc1 hc2
    have hm62 : m ≤ 62 := by
      apply Decidable.byContradiction; intro hgt
      have : 2 ^ 62 ≤ 2 ^ (m - 1) := Nat.pow_le_pow_right (by decide) (by omega)
      omega
    have hpow : 2 ^ m ≤ 2 ^ 62 := Nat.pow_le_pow_right (by decide) hm62
    have heq : UInt64.ofNat n.ccount = mask ↔ n.ccount = 2 ^ m - 1 := by
      constructor
      · intro h
        have := congrArg UInt64.toNat h
        rw [UInt64.toNat_ofNat', Nat.mod_eq_of_lt (by omega), hk] at this
        exact this
      · intro h
        apply UInt64.toNat_inj.mp
        rw [UInt64.toNat_ofNat', Nat.mod_eq_of_lt (by omega), hk, h]
    have hp2 : 2 ^ (m + 1) = 2 * 2 ^ m := by rw [Nat.pow_succ]; omega
    unfold grow
    by_cases hg : n.ccount = 2 ^ m - 1
    · rw [if_pos (.inr (heq.mpr hg)), if_neg hcn]
      have e1 := shl_mask (by omega : m + 1 ≤ 63) hk
      have e2 := mask_succ (by omega : m + 1 ≤ 63) e1
      dsimp only
      rw [e2]
      obtain ⟨t, r1, r2, r3, r4⟩ := reinsert_spec (m := m + 1) (by omega) (by omega) e1 (2 ^ (m + 1) + 1) (by omega) n.tab
        (List.replicate (2 ^ (m + 1)) none) (by simp) (Inv_replicate _) (by rw [entries_replicate]; simp; omega)
      refine ⟨m + 1, _, t, 0, by rw [r1, Outcome.bind_ok], by omega, by omega, e1, r2, r3, ?_, .inl rfl, ?_, by omega⟩
      · simpa [entries_replicate] using r4
      · rw [Nat.add_sub_cancel]; omega
    · rw [if_neg (by rw [heq]; omega)]
      exact ⟨m, mask, n.tab, p, rfl, hm1, hm, hk, hl, hi, List.Perm.refl _, hpre, by omega, by omega⟩

theorem findOrAdd_spec {hash : Bytes → UInt64} {n : Tbl α} (hv : Valid hash n) (hsz : n.ccount < 2 ^ 62) (k : Bytes) (v : α) :
    (∃ w, findOrAdd hash n k v = .ok (w, n) ∧ (hash k, k, w) ∈ entries n.tab) ∨
    (∃ n', findOrAdd hash n k v = .ok (v, n') ∧ (∀ w, (hash k, k, w) ∉ entries n.tab) ∧ Valid hash n' ∧
      n'.ccount = n.ccount + 1 ∧ (entries n'.tab).Perm ((hash k, k, v) :: entries n.tab)) := by
  -- the common tail: nothing found
  have tail : ∀ mask p, (∀ m, 1 ≤ m → 2 ^ (m - 1) ≤ n.ccount → n.ccount < 2 ^ m →
        mask.toNat = 2 ^ m - 1 ∧ Pre (2 ^ m) n.tab (hash k) p) → (∀ w, (hash k, k, w) ∉ entries n.tab) →
      ∃ n', ((grow n mask p).bind fun g =>
        (insert g.1 (g.2.1.length + 1) g.2.1 (hash k, k, v) g.2.2).bind fun t =>
        Outcome.ok (v, (⟨n.ccount + 1, t⟩ : Tbl α))) = .ok (v, n') ∧ Valid hash n' ∧
        n'.ccount = n.ccount + 1 ∧ (entries n'.tab).Perm ((hash k, k, v) :: entries n.tab) := by
    intro mask p hmask hno
    obtain ⟨m, mask', t, p', g1, g2, g3, g4, g5, g6, g7, g8, g9, g10⟩ := grow_spec hv hsz (hash k) hmask
    have hcount : (entries n.tab).length = n.ccount := by
      rcases hv with ⟨h1, h2⟩ | ⟨_, _, _, _, _, hc, _⟩
      · rw [h1, h2]; rfl
      · exact hc
    have hh : ∀ x ∈ entries n.tab, x.1 = hash x.2.1 := by
      rcases hv with ⟨h1, h2⟩ | ⟨_, _, _, _, _, _, _, _, hh, _⟩
      · rw [h2]; intro x hx; cases hx
      · exact hh
    have hnd : ((entries n.tab).map fun x => x.2.1).Nodup := by
      rcases hv with ⟨h1, h2⟩ | ⟨_, _, _, _, _, _, _, _, _, hn⟩
      · rw [h2]; exact List.nodup_nil
      · exact hn
    obtain ⟨t', i1, i2, i3, i4⟩ := insert_room g2 g3 g4 t (hash k, k, v) p' (t.length + 1) g5 g6
      (by rw [g7.length_eq, hcount]; omega) g8 (by omega)
    have hperm := i4.trans (g7.cons _)
    refine ⟨⟨n.ccount + 1, t'⟩, by rw [g1, Outcome.bind_ok]; dsimp only; rw [i1, Outcome.bind_ok], ?_, rfl, hperm⟩
    refine .inr ⟨m, g2, g3, i2, i3, ?_, g9, g10, ?_, ?_⟩
    · rw [hperm.length_eq, List.length_cons, hcount]
    · intro x hx
      rcases List.mem_cons.mp (hperm.mem_iff.mp hx) with h | h
      · rw [h]
      · exact hh x h
    · refine ((hperm.map fun x => x.2.1).nodup_iff).mpr ?_
      rw [List.map_cons, List.nodup_cons]
      refine ⟨?_, hnd⟩
      intro hmem
      obtain ⟨x, hx, hxk⟩ := List.mem_map.mp hmem
      have hx1 := hh x hx
      obtain ⟨xh, xl, xv⟩ := x
      dsimp only at hx1 hxk
      subst hxk hx1
      exact hno xv hx
  rcases hv with ⟨h1, h2⟩ | ⟨m, hm1, hm, hl, hi, hc, hc1, hc2, hh, hn⟩
  · have hmask : ∃ mask, count2mask (n.ccount ||| 1) = .ok mask := by
      rw [h1]; exact ⟨_, rfl⟩
    obtain ⟨mask, hmask⟩ := hmask
    have hno : ∀ w, (hash k, k, w) ∉ entries n.tab := by rw [h2]; intro w hw; cases hw
    obtain ⟨n', a, b, c, d⟩ := tail mask 0 (by
      intro m _ hx _; rw [h1] at hx; have : 0 < 2 ^ (m - 1) := Nat.pow_pos (by decide); omega) hno
    refine .inr ⟨n', ?_, hno, b, c, d⟩
    unfold findOrAdd
    rw [hmask, Outcome.bind_ok, if_pos h1, Outcome.bind_ok]
    exact a
  · have h0 : 0 < 2 ^ (m - 1) := Nat.pow_pos (by decide)
    have hcn : n.ccount ≠ 0 := by omega
    obtain ⟨b1, b2⟩ := or_one_bounds hm1 hc1 hc2
    obtain ⟨mask, hmask, hk⟩ := count2mask_eq hm1 hm b1 b2
    rcases probe_valid (hash := hash) hm1 hm hk hl hi (by omega) (hash k) k with ⟨w, p', he, hmem⟩ | ⟨p', he, hpre, hno⟩
    · refine .inl ⟨w, ?_, hmem⟩
      unfold findOrAdd
      rw [hmask, Outcome.bind_ok, if_neg hcn, he, Outcome.bind_ok]
    · obtain ⟨n', a, b, c, d⟩ := tail mask p' (by
        intro m' hm' hx hy
        have : m' = m := by
          apply Nat.le_antisymm
          · apply Decidable.byContradiction; intro hgt
            have : 2 ^ m ≤ 2 ^ (m' - 1) := Nat.pow_le_pow_right (by decide) (by omega)
            omega
          · apply Decidable.byContradiction; intro hgt
            have : 2 ^ m' ≤ 2 ^ (m - 1) := Nat.pow_le_pow_right (by decide) (by omega)
            omega
        subst this
        exact ⟨hk, hpre⟩) hno
      refine .inr ⟨n', ?_, hno, b, c, d⟩
      unfold findOrAdd
      rw [hmask, Outcome.bind_ok, if_neg hcn, he, Outcome.bind_ok]
      exact a

end
end Gdnsd.Table
