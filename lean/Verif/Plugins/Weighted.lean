import Verif.Plugins.Props
/-
Lemmas for plugin_weighted.
-/
namespace Gdnsd.Plug
open Mon

theorem natSum_cons (a : UInt32) (l : List UInt32) : natSum (a :: l) = a.toNat + natSum l := rfl
theorem natSum_append (a b : List UInt32) : natSum (a ++ b) = natSum a + natSum b := by
  simp [natSum]

theorem foldl_add_toNat (l : List UInt32) (a : UInt32) (h : a.toNat + natSum l < 2 ^ 32) :
    (l.foldl (· + ·) a).toNat = a.toNat + natSum l := by
  induction l generalizing a with
  | nil => simp [natSum]
  | cons x xs ih =>
    rw [natSum_cons] at h
    have hax : (a + x).toNat = a.toNat + x.toNat := by
      rw [UInt32.toNat_add, Nat.mod_eq_of_lt (by omega)]
    rw [List.foldl_cons, ih (a + x) (by omega), hax, natSum_cons]; omega

theorem sumU_toNat {l : List UInt32} (h : natSum l < 2 ^ 32) : (sumU l).toNat = natSum l := by
  unfold sumU
  rw [foldl_add_toNat l 0 (by simpa using h)]; simp

theorem maxU_spec (l : List UInt32) : (∀ x ∈ l, x ≤ maxU l) ∧ (maxU l ∈ l ∨ maxU l = 0) := by
  have key : ∀ (l : List UInt32) (a : UInt32),
      let m := l.foldl (fun m x => if m < x then x else m) a
      a ≤ m ∧ (∀ x ∈ l, x ≤ m) ∧ (m ∈ l ∨ m = a) := by
    intro l
    induction l with
    | nil => intro a; simp
    | cons y ys ih =>
      intro a
      dsimp only [List.foldl_cons]
      obtain ⟨h1, h2, h3⟩ := ih (if a < y then y else a)
      have hy : y ≤ if a < y then y else a := by split <;> simp_all
      have ha : a ≤ if a < y then y else a := by
        split
        · rename_i h; exact UInt32.le_of_lt h
        · simp
      refine ⟨UInt32.le_trans ha h1, ?_, ?_⟩
      · intro x hx
        rcases List.mem_cons.1 hx with rfl | hx
        · exact UInt32.le_trans hy h1
        · exact h2 x hx
      · rcases h3 with h3 | h3
        · exact Or.inl (List.mem_cons_of_mem _ h3)
        · rw [h3]; split
          · exact Or.inl (by simp)
          · exact Or.inr rfl
  obtain ⟨-, h2, h3⟩ := key l 0
  exact ⟨h2, h3⟩

theorem choose_spec {α : Type} (x : UInt32) (l : List (α × UInt32)) (tot : UInt32)
    (hx : tot ≤ x) (hb : tot.toNat + natSum (l.map (·.2)) < 2 ^ 32)
    (hlt : x.toNat < tot.toNat + natSum (l.map (·.2))) :
    ∃ a w, choose x tot l = some a ∧ (a, w) ∈ l ∧ w ≠ 0 := by
  induction l generalizing tot with
  | nil => simp [natSum] at hlt; have := UInt32.le_iff_toNat_le.1 hx; omega
  | cons p l ih =>
    obtain ⟨a, w⟩ := p
    rw [List.map_cons, natSum_cons] at hb hlt
    dsimp only at hb hlt
    have ht : (tot + w).toNat = tot.toNat + w.toNat := by
      rw [UInt32.toNat_add, Nat.mod_eq_of_lt (by omega)]
    simp only [choose]
    split
    · rename_i h
      refine ⟨a, w, rfl, by simp, ?_⟩
      rintro rfl
      have h1 := UInt32.lt_iff_toNat_lt.1 h
      have h2 := UInt32.le_iff_toNat_le.1 hx
      rw [ht] at h1
      simp at h1; omega
    · rename_i h
      have h1 : tot + w ≤ x := by simpa using h
      obtain ⟨b, v, e1, e2, e3⟩ := ih (tot + w) h1 (by rw [ht]; omega) (by rw [ht]; omega)
      exact ⟨b, v, e1, by simp [e2], e3⟩

theorem choose_zero {α : Type} {x : UInt32} {l : List (α × UInt32)} {s : UInt32}
    (hb : natSum (l.map (·.2)) < 2 ^ 32) (hs : s.toNat = natSum (l.map (·.2))) (hx : x < s) :
    ∃ a w, choose x 0 l = some a ∧ (a, w) ∈ l ∧ w ≠ 0 :=
  choose_spec x l 0 (by simp) (by simpa using hb) (by
    have := UInt32.lt_iff_toNat_lt.1 hx
    simp; omega)

/-- The invariant tying the cached sum and maximum of an item to its weights. -/
structure DynOk (i : DynItem) : Prop where
  small : natSum (i.as.map (·.2)) < 2 ^ 32
  sum : i.sum.toNat = natSum (i.as.map (·.2))
  max : i.max = maxU (i.as.map (·.2))

/-- Addresses with a non-zero dynamic weight. -/
def live (i : DynItem) : List Addr := (i.as.filter fun p => p.2 != 0).map (·.1)

theorem mem_live {i : DynItem} {a : Addr} {w : UInt32} (h : (a, w) ∈ i.as) (hw : w ≠ 0) : a ∈ live i := by
  simp only [live, List.mem_map, List.mem_filter]
  exact ⟨(a, w), ⟨h, by simpa using hw⟩, rfl⟩

theorem getRand_ok {rnd : Rnd} {b : UInt32} {r : Result} (hb : b ≠ 0) :
    getRand rnd b r = .ok (rnd r.draws b, { r with draws := r.draws + 1 }) := by simp [getRand, hb]

theorem pickMulti_spec {rnd : Rnd} (hrnd : rnd.Legal) {lim : Limits} {mx : UInt32} (hmx : mx ≠ 0)
    (is : List DynItem) (r : Result) (hok : ∀ i ∈ is, DynOk i)
    (hroom : ∀ as, OnePer (is.map live) as → Room lim r as) :
    ∃ as d, pickMulti rnd lim mx is r = .ok { r.push as with draws := d } ∧ OnePer (is.map live) as ∧
      ((∃ i ∈ is, i.sum = mx) → as ≠ []) := by
  induction is generalizing r with
  | nil => exact ⟨[], r.draws, by simp [pickMulti], .nil, by simp⟩
  | cons i is ih =>
    rw [List.map_cons] at hroom
    have hi := hok i (by simp)
    have hok' : ∀ j ∈ is, DynOk j := fun j hj => hok j (by simp [hj])
    simp only [pickMulti, getRand_ok hmx, Outcome.bind_ok]
    by_cases hx : rnd r.draws mx < i.sum
    · have hs0 : i.sum ≠ 0 := by
        rintro h0; rw [h0] at hx; simp at hx
      rw [if_pos hx, getRand_ok hs0]
      simp only [Outcome.bind_ok]
      obtain ⟨a, w, hc, hm, hw⟩ := choose_zero (x := rnd (r.draws + 1) i.sum) hi.small hi.sum (hrnd _ _ hs0)
      rw [hc]
      dsimp only
      have ha := mem_live hm hw
      have hra : Room lim { r with draws := r.draws + 1 + 1 } [a] :=
        (hroom [a] (.take ha (by
          clear ih hroom hok hok'
          induction is with
          | nil => exact .nil
          | cons j js ihj => exact .skip ihj))).cons.1
      rw [addAnysin_ok hra]
      simp only [Outcome.bind_ok]
      obtain ⟨as, d, e1, e2, e3⟩ := ih ({ r with draws := r.draws + 1 + 1 }.push [a]) hok' (by
        intro as has
        exact (hroom (a :: as) (.take ha has)).cons.2)
      refine ⟨a :: as, d, ?_, .take ha e2, by simp⟩
      rw [e1, push_push]; rfl
    · rw [if_neg hx]
      obtain ⟨as, d, e1, e2, e3⟩ := ih { r with draws := r.draws + 1 } hok' (fun as has => hroom as (.skip has))
      refine ⟨as, d, e1, .skip e2, ?_⟩
      rintro ⟨j, hj, hjs⟩
      rcases List.mem_cons.1 hj with rfl | hj
      · rw [hjs] at hx; exact absurd (hrnd _ _ hmx) hx
      · exact e3 ⟨j, hj, hjs⟩

theorem pickAddrs_spec {rnd : Rnd} (hrnd : rnd.Legal) {lim : Limits} {mx : UInt32} (hmx : mx ≠ 0)
    (l : List (Addr × UInt32)) (r : Result) (hroom : Room lim r (l.map (·.1))) :
    ∃ as d, pickAddrs rnd lim mx l r = .ok { r.push as with draws := d } ∧
      as.Sublist ((l.filter fun p => p.2 != 0).map (·.1)) ∧ ((∃ p ∈ l, p.2 = mx) → as ≠ []) := by
  induction l generalizing r with
  | nil => exact ⟨[], r.draws, by simp [pickAddrs], by simp, by simp⟩
  | cons p l ih =>
    obtain ⟨a, w⟩ := p
    rw [List.map_cons] at hroom
    simp only [pickAddrs, getRand_ok hmx, Outcome.bind_ok]
    by_cases hx : rnd r.draws mx < w
    · have hw : w ≠ 0 := by
        rintro h0; rw [h0] at hx; simp at hx
      have hra : Room lim { r with draws := r.draws + 1 } [a] := hroom.cons.1
      rw [if_pos hx, addAnysin_ok hra]
      simp only [Outcome.bind_ok]
      obtain ⟨as, d, e1, e2, e3⟩ := ih ({ r with draws := r.draws + 1 }.push [a]) hroom.cons.2
      refine ⟨a :: as, d, by rw [e1, push_push]; rfl, ?_, by simp⟩
      rw [List.filter_cons, if_pos (by simpa using hw), List.map_cons]
      exact e2.cons_cons a
    · rw [if_neg hx]
      obtain ⟨as, d, e1, e2, e3⟩ := ih { r with draws := r.draws + 1 } (hroom.sub (List.sublist_cons_self ..))
      refine ⟨as, d, e1, e2.trans ?_, ?_⟩
      · exact ((List.sublist_cons_self (a, w) l).filter _).map _
      · rintro ⟨q, hq, hqs⟩
        rcases List.mem_cons.1 hq with rfl | hq
        · simp only at hqs; rw [hqs] at hx; exact absurd (hrnd _ _ hmx) hx
        · exact e3 ⟨q, hq, hqs⟩

theorem pickOne_spec {rnd : Rnd} (hrnd : rnd.Legal) {lim : Limits} {sm : UInt32} (hsm : sm ≠ 0)
    (is : List DynItem) (r : Result) (hok : ∀ i ∈ is, DynOk i)
    (hb : natSum (is.map (·.sum)) < 2 ^ 32) (hs : sm.toNat = natSum (is.map (·.sum)))
    (hroom : ∀ i ∈ is, Room lim r (i.as.map (·.1))) :
    ∃ as d, pickOne rnd lim sm is r = .ok { r.push as with draws := d } ∧ as ≠ [] ∧
      ∃ i ∈ is, as.Sublist (live i) := by
  simp only [pickOne, getRand_ok hsm, Outcome.bind_ok]
  have hmap : (is.map fun i => (i, i.sum)).map (·.2) = is.map (·.sum) := by simp
  obtain ⟨i, w, hc, hm, hw⟩ := choose_zero (x := rnd r.draws sm) (l := is.map fun i => (i, i.sum))
    (by rw [hmap]; exact hb) (by rw [hmap]; exact hs) (hrnd _ _ hsm)
  rw [hc]
  dsimp only
  simp only [List.mem_map, Prod.mk.injEq] at hm
  obtain ⟨j, hj, rfl, rfl⟩ := hm
  have hd := hok j hj
  obtain ⟨m1, m2⟩ := maxU_spec (j.as.map (·.2))
  have hmx : j.max ≠ 0 := by
    intro h0
    apply hw
    rw [hd.max] at h0
    apply UInt32.toNat_inj.1
    rw [hd.sum]
    have : ∀ x ∈ j.as.map (·.2), x.toNat = 0 := by
      intro x hx
      have := m1 x hx
      rw [h0] at this
      have := UInt32.le_iff_toNat_le.1 this
      simpa using this
    have key : ∀ l : List UInt32, (∀ x ∈ l, x.toNat = 0) → natSum l = 0 := by
      intro l
      induction l with
      | nil => intro _; rfl
      | cons y ys ih => intro h; rw [natSum_cons, h y (by simp), ih (fun x hx => h x (by simp [hx]))]
    rw [key _ this]; rfl
  have hmem : ∃ p ∈ j.as, p.2 = j.max := by
    rcases m2 with m2 | m2
    · rw [← hd.max] at m2
      simpa using m2
    · rw [← hd.max] at m2; exact absurd m2 hmx
  rw [show (decide (j.max ≠ 0)) = true by simpa using hmx]
  simp only [assert_true, Outcome.bind_ok]
  obtain ⟨as, d, e1, e2, e3⟩ := pickAddrs_spec hrnd hmx j.as { r with draws := r.draws + 1 } (hroom j hj)
  exact ⟨as, d, e1, e3 hmem, j, hj, e2⟩

/-- An item with per-address weights given by `w`. -/
def dynOf (w : WAddr → UInt32) (g : List WAddr) : DynItem :=
  { as := g.map fun a => (a.addr, w a), sum := sumU (g.map w), max := maxU (g.map w) }

/-- Dynamic weight: the configured one if up, else 0. -/
def dynw (tbl : List UInt32) (a : WAddr) : UInt32 := if up tbl a.idx then a.weight else 0

theorem natSum_le {l : List UInt32} {c n : Nat} (h : ∀ x ∈ l, x.toNat ≤ c) (hl : l.length ≤ n) : natSum l ≤ n * c := by
  induction l generalizing n with
  | nil => simp [natSum]
  | cons x xs ih =>
    rw [natSum_cons]
    have h1 := h x (by simp)
    cases n with
    | zero => simp at hl
    | succ n =>
      have := ih (n := n) (fun y hy => h y (by simp [hy])) (by simpa using hl)
      rw [Nat.succ_mul]; omega

theorem dynOf_ok {w : WAddr → UInt32} {g : List WAddr} (h : ∀ a ∈ g, (w a).toNat ≤ 1048575) (hl : g.length ≤ 64) :
    DynOk (dynOf w g) ∧ natSum (g.map w) ≤ 64 * 1048575 ∧ (dynOf w g).sum.toNat = natSum (g.map w) := by
  have hb : natSum (g.map w) ≤ 64 * 1048575 := natSum_le (by simpa using h) (by simpa using hl)
  have e : (dynOf w g).as.map (·.2) = g.map w := by simp [dynOf]
  have hs : (dynOf w g).sum.toNat = natSum (g.map w) := sumU_toNat (by omega)
  exact ⟨⟨by rw [e]; omega, by rw [e]; exact hs, by rw [e]; rfl⟩, hb, hs⟩

theorem natSum_flatten (gs : List (List WAddr)) (w : WAddr → UInt32)
    (h : ∀ g ∈ gs, (dynOf w g).sum.toNat = natSum (g.map w)) :
    natSum ((gs.map (dynOf w)).map (·.sum)) = natSum (gs.flatten.map w) := by
  induction gs with
  | nil => rfl
  | cons g gs ih =>
    rw [List.map_cons, List.map_cons, natSum_cons, h g (by simp), ih (fun x hx => h x (by simp [hx])),
      List.flatten_cons, List.map_append, natSum_append]

theorem natSum_dynw (tbl : List UInt32) (l : List WAddr) :
    natSum (l.map (dynw tbl)) = natSum ((l.filter fun a => up tbl a.idx).map (·.weight)) := by
  induction l with
  | nil => rfl
  | cons a l ih =>
    rw [List.map_cons, natSum_cons, ih, List.filter_cons]
    cases h : up tbl a.idx
    · simp [dynw, h]
    · simp [dynw, h, natSum_cons]

theorem live_dynw {tbl : List UInt32} {g : List WAddr} (h : ∀ a ∈ g, 1 ≤ a.weight.toNat) :
    live (dynOf (dynw tbl) g) = eligible tbl true g := by
  induction g with
  | nil => rfl
  | cons a g ih =>
    have ih := ih (fun x hx => h x (by simp [hx]))
    have hw : a.weight ≠ 0 := by
      have := h a (by simp)
      intro h0; rw [h0] at this; simp at this
    simp only [live, dynOf, eligible, List.map_cons, List.filter_cons, Bool.not_true, Bool.false_or] at ih ⊢
    cases hu : up tbl a.idx
    · have e : dynw tbl a = 0 := by simp [dynw, hu]
      simpa [e] using ih
    · have e : dynw tbl a = a.weight := by simp [dynw, hu]
      simpa [e, hw] using ih

theorem live_weight {tbl : List UInt32} {g : List WAddr} (h : ∀ a ∈ g, 1 ≤ a.weight.toNat) :
    live (dynOf (·.weight) g) = eligible tbl false g := by
  induction g with
  | nil => rfl
  | cons a g ih =>
    have ih := ih (fun x hx => h x (by simp [hx]))
    have hw : a.weight ≠ 0 := by
      have := h a (by simp)
      intro h0; rw [h0] at this; simp at this
    simp only [live, dynOf, eligible, List.map_cons, List.filter_cons, Bool.not_false, Bool.true_or] at ih ⊢
    simpa [hw] using ih

theorem dynAddrs_spec {tbl : List UInt32} (as : List WAddr) (rv : UInt32) (hI : ∀ a ∈ as, InTbl tbl a.idx) (hv : Valid rv) :
    ∃ rv', dynAddrs tbl as rv = .ok (rv', as.map (dynw tbl)) ∧
      ttl rv' = min (ttl rv) (minTtl tbl (as.flatMap (·.idx))) ∧ Valid rv' := by
  induction as generalizing rv with
  | nil =>
    refine ⟨rv, rfl, ?_, hv⟩
    have := ttl_lt rv
    simp only [List.flatMap_nil, minTtl, List.filterMap_nil, List.foldl_nil]; omega
  | cons a as ih =>
    obtain ⟨s, hs1, hs2, hs3, hs4⟩ := sttlMin_ok (hI a (by simp))
    obtain ⟨k1, k2, k3, k4⟩ := min2_facts rv s
    obtain ⟨rv', h1, h2, h3⟩ := ih (min2 rv s) (fun b hb => hI b (by simp [hb])) k4
    refine ⟨rv', ?_, ?_, h3⟩
    · have hd : (s &&& DOWN = 0) ↔ up tbl a.idx = true := by rw [and_down, hs2]; simp
      simp only [dynAddrs, hs1, Outcome.bind_ok, h1, List.map_cons, dynw, hd]
    · rw [List.flatMap_cons, minTtl_append, ← hs3, h2, k3]; omega

theorem dynItems_spec {tbl : List UInt32} (gs : List (List WAddr)) (rv : UInt32)
    (hI : ∀ g ∈ gs, ∀ a ∈ g, InTbl tbl a.idx) (hv : Valid rv) :
    ∃ rv', dynItems tbl (gs.map mkItem) rv = .ok (rv', gs.map (fun g => g.map (dynw tbl))) ∧
      ttl rv' = min (ttl rv) (minTtl tbl (wSlots gs)) ∧ Valid rv' := by
  induction gs generalizing rv with
  | nil =>
    refine ⟨rv, rfl, ?_, hv⟩
    have := ttl_lt rv
    simp only [wSlots, List.flatten_nil, List.flatMap_nil, minTtl, List.filterMap_nil, List.foldl_nil]; omega
  | cons g gs ih =>
    obtain ⟨s, hs1, hs2, hs3⟩ := dynAddrs_spec g rv (hI g (by simp)) hv
    obtain ⟨rv', h1, h2, h3⟩ := ih s (fun b hb => hI b (by simp [hb])) hs3
    refine ⟨rv', ?_, ?_, h3⟩
    · simp only [dynItems, List.map_cons, mkItem, hs1, Outcome.bind_ok]
      rw [show gs.map (fun as : List WAddr => mkItem as) = gs.map mkItem from rfl] at *
      simp [h1]
    · unfold wSlots at h2 ⊢
      rw [List.flatten_cons, List.flatMap_append, minTtl_append, h2, hs2]; omega

theorem dynUp_eq (tbl : List UInt32) (gs : List (List WAddr)) :
    dynUp (gs.map mkItem) (gs.map (fun g => g.map (dynw tbl))) = gs.map (dynOf (dynw tbl)) := by
  unfold dynUp
  induction gs with
  | nil => rfl
  | cons g gs ih =>
    simp only [List.map_cons, List.zipWith_cons_cons, ih]
    congr 1
    simp only [mkItem, dynOf, List.zip_map']

theorem dynAll_eq (gs : List (List WAddr)) : dynAll (gs.map mkItem) = gs.map (dynOf (·.weight)) := by
  unfold dynAll
  rw [List.map_map]
  rfl

theorem maxU_pos {l : List UInt32} (h : 0 < natSum l) : maxU l ≠ 0 := by
  intro h0
  have m1 := (maxU_spec l).1
  rw [h0] at m1
  have key : ∀ l : List UInt32, (∀ x ∈ l, x ≤ 0) → natSum l = 0 := by
    intro l
    induction l with
    | nil => intro _; rfl
    | cons y ys ih =>
      intro h
      have := UInt32.le_iff_toNat_le.1 (h y (by simp))
      rw [natSum_cons, ih (fun x hx => h x (by simp [hx]))]; simpa using this
  have := key l m1
  omega

theorem OnePer.length {α : Type} {ls : List (List α)} {as : List α} (h : OnePer ls as) : as.length ≤ ls.length := by
  induction h with
  | nil => simp
  | skip _ ih => simp; omega
  | take _ _ ih => simpa using ih

theorem OnePer.mem {α : Type} {ls : List (List α)} {as : List α} (h : OnePer ls as) : ∀ a ∈ as, ∃ l ∈ ls, a ∈ l := by
  induction h with
  | nil => simp
  | skip _ ih => intro a ha; obtain ⟨l, hl, hal⟩ := ih a ha; exact ⟨l, by simp [hl], hal⟩
  | take hm _ ih =>
    intro a ha
    rcases List.mem_cons.1 ha with rfl | ha
    · exact ⟨_, by simp, hm⟩
    · obtain ⟨l, hl, hal⟩ := ih a ha; exact ⟨l, by simp [hl], hal⟩

theorem mem_eligible {tbl : List UInt32} {h : Bool} {g : List WAddr} {a : Addr} (ha : a ∈ eligible tbl h g) :
    ∃ w ∈ g, w.addr = a ∧ (h = true → up tbl w.idx = true) := by
  simp only [eligible, List.mem_map, List.mem_filter] at ha
  obtain ⟨w, ⟨hw, hu⟩, rfl⟩ := ha
  refine ⟨w, hw, rfl, ?_⟩
  rintro rfl
  simpa using hu

theorem group_le (gs : List (List WAddr)) : ∀ g ∈ gs, g.length ≤ (gs.map List.length).foldl max 0 := by
  have key : ∀ (l : List Nat) (a : Nat), a ≤ l.foldl max a ∧ ∀ x ∈ l, x ≤ l.foldl max a := by
    intro l
    induction l with
    | nil => intro a; simp
    | cons y ys ih =>
      intro a
      obtain ⟨h1, h2⟩ := ih (max a y)
      refine ⟨by rw [List.foldl_cons]; omega, ?_⟩
      intro x hx
      rw [List.foldl_cons]
      rcases List.mem_cons.1 hx with rfl | hx
      · omega
      · exact h2 x hx
  intro g hg
  exact (key _ 0).2 _ (List.mem_map_of_mem hg)

theorem mkSet_spec {tbl : List UInt32} {isv6 : Bool} {gs : List (List WAddr)} (hok : GroupsOk tbl isv6 gs) (multi : Bool)
    {m k : Nat} (hm : 0 < m) (hk : m ≤ 2 ^ k) :
    ∃ s n, mkSet gs multi m k = .ok s ∧ s.items = gs.map mkItem ∧ s.weight.toNat = weightOf gs ∧
      s.maxWeight = maxU ((gs.map mkItem).map (·.weight)) ∧ s.multi = multi ∧ uscaleCeil (weightOf gs) m k = .ok n ∧
      s.upWeight.toNat = n ∧ 1 ≤ n ∧ n ≤ weightOf gs ∧ weightOf gs < 2 ^ 32 := by
  obtain ⟨hne, hlen, hg⟩ := hok
  have hd : ∀ g ∈ gs, DynOk (dynOf (·.weight) g) ∧ natSum (g.map (·.weight)) ≤ 64 * 1048575 ∧
      (dynOf (·.weight) g).sum.toNat = natSum (g.map (·.weight)) := fun g h =>
    dynOf_ok (fun a ha => ((hg g h).2.2 a ha).2.2.2) (hg g h).2.1
  have hpos : ∀ g ∈ gs, 0 < natSum (g.map (·.weight)) := by
    intro g h
    obtain ⟨h1, -, h3⟩ := hg g h
    cases g with
    | nil => exact absurd rfl h1
    | cons a g => rw [List.map_cons, natSum_cons]; have := (h3 a (by simp)).2.2.1; omega
  have hw : (gs.map mkItem).map (·.weight) = (gs.map (dynOf (·.weight))).map (·.sum) := by
    simp only [List.map_map]; rfl
  have hsum : natSum ((gs.map mkItem).map (·.weight)) = weightOf gs := by
    rw [hw]; exact natSum_flatten gs _ (fun g h => (hd g h).2.2)
  have hbound : weightOf gs ≤ 64 * (64 * 1048575) := by
    rw [← hsum]
    refine natSum_le ?_ (by simpa using hlen)
    intro x hx
    rw [hw] at hx
    simp only [List.map_map, List.mem_map] at hx
    obtain ⟨g, h, rfl⟩ := hx
    have := hd g h
    simp only [Function.comp]; omega
  have hlt : weightOf gs < 2 ^ 32 := by omega
  have hsU : (sumU ((gs.map mkItem).map (·.weight))).toNat = weightOf gs := by
    rw [sumU_toNat (by rw [hsum]; exact hlt), hsum]
  have hwpos : 0 < weightOf gs := by
    rw [← hsum]
    cases gs with
    | nil => exact absurd rfl hne
    | cons g gs =>
      rw [List.map_cons, List.map_cons, natSum_cons]
      have h1 := hpos g (by simp)
      have h2 := (hd g (by simp)).2.2
      have h3 : (mkItem g).weight = (dynOf (·.weight) g).sum := rfl
      rw [h3]; omega
  obtain ⟨n, u1, u2, u3, -, -⟩ := uscale_spec (v := weightOf gs) hwpos (by omega) hm hk
  have ha1 : (gs.map mkItem).all (fun i => decide (i.weight ≠ 0) && decide (i.maxWeight ≠ 0)) = true := by
    rw [List.all_eq_true]
    intro i hi
    simp only [List.mem_map] at hi
    obtain ⟨g, h, rfl⟩ := hi
    have h1 : (mkItem g).weight ≠ 0 := by
      have h2 := (hd g h).2.2
      have h3 : (mkItem g).weight = (dynOf (·.weight) g).sum := rfl
      intro h0; rw [h3] at h0; rw [h0] at h2
      have := hpos g h
      simp at h2; omega
    have h2 : (mkItem g).maxWeight ≠ 0 := maxU_pos (hpos g h)
    simp [h1, h2]
  have ha2 : sumU ((gs.map mkItem).map (·.weight)) ≠ 0 := by
    intro h0; rw [h0] at hsU; simp at hsU; omega
  have ha3 : maxU ((gs.map mkItem).map (·.weight)) ≠ 0 := maxU_pos (by rw [hsum]; exact hwpos)
  have hn0 : n ≠ 0 := by omega
  refine ⟨WSet.mk (gs.map mkItem) (sumU ((gs.map mkItem).map (·.weight))) (UInt32.ofNat n)
    (maxU ((gs.map mkItem).map (·.weight))) multi, n, ?_, rfl, hsU, rfl, rfl, u1, ?_, u2, u3, hlt⟩
  · simp only [mkSet]
    rw [ha1]
    simp only [assert_true, Outcome.bind_ok, hsU, u1]
    simp only [ne_eq, ha2, ha3, hn0, not_false_eq_true, decide_true, Bool.and_true, assert_true, Outcome.bind_ok]
  · simp only [UInt32.toNat_ofNat']
    exact Nat.mod_eq_of_lt (by omega)

theorem wSet_spec {rnd : Rnd} (hrnd : rnd.Legal) {lim : Limits} {tbl : List UInt32} {isv6 : Bool}
    {gs : List (List WAddr)} (hok : GroupsOk tbl isv6 gs) {multi : Bool} {m k : Nat} (hm : 0 < m) (hk : m ≤ 2 ^ k)
    {s : WSet} (hs : mkSet gs multi m k = .ok s) {r : Result} (hr : Ready lim isv6 r)
    (hlim : maxAnswer gs multi ≤ lim.fam isv6) :
    ∃ rv as d, wResolveSet rnd lim tbl s r = .ok (rv, { r.push as with draws := d }) ∧ WeightedAnswer tbl gs s as ∧
      isDown rv = !s.enough tbl gs ∧ ttl rv = minTtl tbl (wSlots gs) ∧ Valid rv := by
  obtain ⟨s', n, e1, e2, e3, e4, e5, e6, e7, e8, e9, e10⟩ := mkSet_spec hok multi hm hk
  obtain rfl : s = s' := by rw [hs] at e1; exact Outcome.ok.inj e1
  obtain ⟨hne, hlen, hg⟩ := hok
  obtain ⟨rv, r1, r2, r3⟩ := dynItems_spec gs TTLMASK (fun g h a ha => ((hg g h).2.2 a ha).2.1) (by decide)
  have httl : ttl rv = minTtl tbl (wSlots gs) := by
    rw [r2, show ttl TTLMASK = 2 ^ 28 - 1 by decide]
    have := minTtl_le tbl (wSlots gs); omega
  have hbad : ¬(s.items.length > 64 ∨ (s.items.any fun i => decide (i.as.length > 64)) = true) := by
    rw [e2]
    rintro (h | h)
    · simp at h; omega
    · simp only [List.any_eq_true, List.mem_map, decide_eq_true_eq] at h
      obtain ⟨i, ⟨g, hgm, rfl⟩, h⟩ := h
      have := (hg g hgm).2.1
      simp [mkItem] at h; omega
  have hdw : ∀ a, (dynw tbl a).toNat ≤ a.weight.toNat := by
    intro a; unfold dynw; split <;> simp
  have hdu : ∀ g ∈ gs, DynOk (dynOf (dynw tbl) g) ∧ natSum (g.map (dynw tbl)) ≤ 64 * 1048575 ∧
      (dynOf (dynw tbl) g).sum.toNat = natSum (g.map (dynw tbl)) := fun g h =>
    dynOf_ok (fun a ha => Nat.le_trans (hdw a) ((hg g h).2.2 a ha).2.2.2) (hg g h).2.1
  have hda : ∀ g ∈ gs, DynOk (dynOf (·.weight) g) ∧ natSum (g.map (·.weight)) ≤ 64 * 1048575 ∧
      (dynOf (·.weight) g).sum.toNat = natSum (g.map (·.weight)) := fun g h =>
    dynOf_ok (fun a ha => ((hg g h).2.2 a ha).2.2.2) (hg g h).2.1
  have hsums : (gs.map (fun g => g.map (dynw tbl))).map sumU = (gs.map (dynOf (dynw tbl))).map (·.sum) := by
    simp only [List.map_map]; rfl
  have hus : natSum ((gs.map (dynOf (dynw tbl))).map (·.sum)) = upWeightOf tbl gs := by
    rw [natSum_flatten gs _ (fun g h => (hdu g h).2.2), natSum_dynw]; rfl
  have hule : upWeightOf tbl gs < 2 ^ 32 := by
    have : upWeightOf tbl gs ≤ 64 * (64 * 1048575) := by
      rw [← hus]
      refine natSum_le ?_ (by simpa using hlen)
      intro x hx
      simp only [List.map_map, List.mem_map] at hx
      obtain ⟨g, h, rfl⟩ := hx
      have := hdu g h
      simp only [Function.comp]; omega
    omega
  have hsU : (sumU ((gs.map (dynOf (dynw tbl))).map (·.sum))).toNat = upWeightOf tbl gs := by
    rw [sumU_toNat (by rw [hus]; exact hule), hus]
  have hcond : (sumU ((gs.map (dynOf (dynw tbl))).map (·.sum)) < s.upWeight) ↔ s.enough tbl gs = false := by
    rw [UInt32.lt_iff_toNat_lt, hsU, WSet.enough, decide_eq_false_iff_not]; omega
  -- the part after the threshold, for either choice of weights
  have finish : ∀ (w : WAddr → UInt32) (h : Bool) (st : UInt32) (sm mx : UInt32), h = s.enough tbl gs →
      (∀ g ∈ gs, DynOk (dynOf w g)) → (∀ g ∈ gs, live (dynOf w g) = eligible tbl h g) → Valid st →
      sm.toNat = natSum ((gs.map (dynOf w)).map (·.sum)) → natSum ((gs.map (dynOf w)).map (·.sum)) < 2 ^ 32 →
      0 < natSum ((gs.map (dynOf w)).map (·.sum)) → mx = maxU ((gs.map (dynOf w)).map (·.sum)) →
      ∃ as d, ((assert (decide (sm ≠ 0) && decide (mx ≠ 0))).bind fun _ =>
        (if s.multi then pickMulti rnd lim mx (gs.map (dynOf w)) r
          else pickOne rnd lim sm (gs.map (dynOf w)) r).bind fun r =>
        (assertValid st).bind fun _ => .ok (st, r)) = .ok (st, { r.push as with draws := d }) ∧
        WeightedAnswer tbl gs s as := by
    intro w h st sm mx hh hdk hlive hst hsm hb hp hmx
    have hsm0 : sm ≠ 0 := by intro h0; rw [h0] at hsm; have h00 : (0 : UInt32).toNat = 0 := rfl; omega
    have hmx0 : mx ≠ 0 := by rw [hmx]; exact maxU_pos hp
    rw [show (decide (sm ≠ 0) && decide (mx ≠ 0)) = true by simp [hsm0, hmx0]]
    simp only [assert_true, Outcome.bind_ok]
    have hfam : ∀ g ∈ gs, ∀ a ∈ live (dynOf w g), a.isFam isv6 = true := by
      intro g hgm a ha
      rw [hlive g hgm] at ha
      obtain ⟨v, hv, rfl, -⟩ := mem_eligible ha
      exact ((hg g hgm).2.2 v hv).1
    have hdk' : ∀ i ∈ gs.map (dynOf w), DynOk i := by
      intro i hi
      obtain ⟨g, hgm, rfl⟩ := List.mem_map.1 hi
      exact hdk g hgm
    have hlm : (gs.map (dynOf w)).map live = gs.map (eligible tbl (s.enough tbl gs)) := by
      rw [List.map_map]
      apply List.map_congr_left
      intro g hgm
      simp only [Function.comp, hlive g hgm, hh]
    cases hmu : s.multi with
    | true =>
      have hmulti : multi = true := by rw [← e5, hmu]
      obtain ⟨as, d, p1, p2, p3⟩ := pickMulti_spec hrnd hmx0 (gs.map (dynOf w)) r hdk' (by
        intro as has
        refine hr.room ?_ ?_
        · intro a ha
          obtain ⟨l, hl, hal⟩ := has.mem a ha
          rw [List.map_map] at hl
          obtain ⟨g, hgm, rfl⟩ := List.mem_map.1 hl
          exact hfam g hgm a hal
        · have := has.length
          simp [hmulti, maxAnswer] at this hlim; omega)
      refine ⟨as, d, by simp [p1, assertValid_ok hst], ?_, ?_⟩
      · apply p3
        rcases (maxU_spec ((gs.map (dynOf w)).map (·.sum))).2 with hmm | hmm
        · rw [← hmx] at hmm
          obtain ⟨i, hi, he⟩ := List.mem_map.1 hmm
          exact ⟨i, hi, he⟩
        · rw [← hmx] at hmm; exact absurd hmm hmx0
      · rw [hmu, if_pos rfl]
        rw [hlm] at p2; exact p2
    | false =>
      have hmulti : multi = false := by rw [← e5, hmu]
      obtain ⟨as, d, p1, p2, i, hi, p3⟩ := pickOne_spec hrnd hsm0 (gs.map (dynOf w)) r hdk' hb hsm (by
        intro i hi
        obtain ⟨g, hgm, rfl⟩ := List.mem_map.1 hi
        have hmap : (dynOf w g).as.map (·.1) = g.map (·.addr) := by simp [dynOf]
        rw [hmap]
        refine hr.room ?_ ?_
        · intro a ha
          obtain ⟨v, hv, rfl⟩ := List.mem_map.1 ha
          exact ((hg g hgm).2.2 v hv).1
        · have := group_le gs g hgm
          simp [hmulti, maxAnswer] at hlim
          simp only [List.length_map]; omega)
      obtain ⟨g, hgm, rfl⟩ := List.mem_map.1 hi
      refine ⟨as, d, by simp [p1, assertValid_ok hst], p2, ?_⟩
      rw [hmu]
      exact ⟨g, hgm, by rw [← hh, ← hlive g hgm]; exact p3⟩
  unfold wResolveSet
  rw [if_neg hbad, e2, r1]
  simp only [Outcome.bind_ok, hsums, dynUp_eq, dynAll_eq, hcond]
  cases hen : s.enough tbl gs with
  | false =>
    obtain ⟨d1, d2, d3, d4⟩ := set_down rv
    obtain ⟨as, d, f1, f2⟩ := finish (·.weight) false (rv ||| DOWN) s.weight s.maxWeight hen.symm
      (fun g h => (hda g h).1) (fun g h => live_weight (fun a ha => ((hg g h).2.2 a ha).2.2.1)) (d4 r3)
      (by rw [e3, natSum_flatten gs _ (fun g h => (hda g h).2.2)]; rfl)
      (by rw [natSum_flatten gs _ (fun g h => (hda g h).2.2)]; exact e10)
      (by rw [natSum_flatten gs _ (fun g h => (hda g h).2.2)]; have : weightOf gs = natSum (gs.flatten.map (·.weight)) := rfl; omega)
      (by rw [e4]; simp only [List.map_map]; rfl)
    exact ⟨rv ||| DOWN, as, d, by simpa using f1, f2, by rw [d1]; rfl, by rw [d2, httl], d4 r3⟩
  | true =>
    obtain ⟨d1, d2, d3, d4⟩ := clear_down rv
    have hge : s.upWeight.toNat ≤ upWeightOf tbl gs := by simpa [WSet.enough] using hen
    obtain ⟨as, d, f1, f2⟩ := finish (dynw tbl) true (rv &&& ~~~DOWN) _ _ hen.symm
      (fun g h => (hdu g h).1) (fun g h => live_dynw (fun a ha => ((hg g h).2.2 a ha).2.2.1)) (d4 r3)
      (by rw [hsU, hus]) (by rw [hus]; exact hule) (by rw [hus]; omega) rfl
    exact ⟨rv &&& ~~~DOWN, as, d, by simpa using f1, f2, by rw [d1]; rfl, by rw [d2, httl], d4 r3⟩

end Gdnsd.Plug
