/-
Lookups in a tree built from a normalized list.
-/
import Verif.Geo.TreeLemmas
namespace Gdnsd.Geo

theorem look_share {T : Trie} : ∀ {x y : List Bool} {d j : Nat}, look T x = some (d, j) → y.take j = x.take j → x.length = y.length →
    look T y = some (d, j) := by
  induction T with
  | leaf e => intro x y d j h _ _; rw [look_leaf] at *; exact h
  | node z o ihz iho =>
    intro x y d j h hxy hl
    cases x with
    | nil => simp [look] at h
    | cons b x =>
      cases y with
      | nil => simp at hl
      | cons c y =>
        rw [look] at h
        obtain ⟨⟨d', j'⟩, h1, h2⟩ := Option.map_eq_some_iff.mp h
        simp only [Prod.mk.injEq] at h2
        obtain ⟨rfl, rfl⟩ := h2
        rw [List.take_succ_cons, List.take_succ_cons, List.cons.injEq] at hxy
        obtain ⟨rfl, hxy⟩ := hxy
        rw [look]
        have : look (bif c then o else z) y = some (d', j') := by
          cases c
          · exact ihz h1 hxy (by simpa using hl)
          · exact iho h1 hxy (by simpa using hl)
        rw [this]; rfl

/-- What the tree returns for a value found in it. -/
theorem lookup6_ok {t : Tree} {ip : Bytes} (hip : ip.length = 16) : ∀ (k chk off : Nat) (z o : Trie) (d j : Nat),
    Rep t.store off (.node z o) → chk + k = 128 → look (.node z o) ((bits ip).drop chk) = some (d, j) → d < 2147483647 →
    lookup6 t ip k chk off = .ok (d, chk + j) := by
  intro k
  induction k with
  | zero =>
    intro chk off z o d j _ hk hlook _
    rw [List.drop_of_length_le (by rw [bits_length]; omega)] at hlook
    simp [look] at hlook
  | succ k ih =>
    intro chk off z o d j hrep hk hlook hd
    obtain ⟨hv, n, hn, h1, h2, hz, ho⟩ := hrep
    have hlt : chk < (bits ip).length := by rw [bits_length]; omega
    obtain ⟨b, hb1, hb2⟩ := chkBit6_eq hip (show chk < 128 by omega)
    have hbit : (bits ip).drop chk = b :: (bits ip).drop (chk + 1) := by
      rw [List.drop_eq_getElem_cons hlt]
      rw [List.getElem?_eq_getElem hlt] at hb2
      rw [Option.some.inj hb2]
    rw [hbit, look] at hlook
    obtain ⟨⟨d', j'⟩, g1, g2⟩ := Option.map_eq_some_iff.mp hlook
    simp only [Prod.mk.injEq] at g2
    obtain ⟨rfl, rfl⟩ := g2
    have hass : decide (n.one ≠ 0 ∧ n.zero ≠ 0) = true := by simp; omega
    have hass2 : decide (chk + 1 < 129) = true := by simp; omega
    have hstep : lookup6 t ip (k + 1) chk off = (bif isDc (bif b then n.one else n.zero) then
        (assert (decide ((bif b then n.one else n.zero) ≠ UNDEF))).bind fun _ => .ok (getDc (bif b then n.one else n.zero), chk + 1)
      else lookup6 t ip k (chk + 1) (bif b then n.one else n.zero)) := by
      rw [lookup6, hn]
      simp only [hass, assert_true, Outcome.bind_ok, hb1, hass2]
    rw [hstep]
    have hsub : Rep t.store (bif b then n.one else n.zero) (bif b then o else z) := by cases b <;> assumption
    generalize (bif b then n.one else n.zero) = off' at *
    generalize (bif b then o else z) = T at *
    cases T with
    | leaf e =>
      obtain ⟨rfl, he⟩ := hsub
      rw [look_leaf] at g1
      simp only [Option.some.injEq, Prod.mk.injEq] at g1
      obtain ⟨rfl, rfl⟩ := g1
      rw [isDc_setDc he, cond_true, decide_eq_true (setDc_ne_undef hd), assert_true, Outcome.bind_ok, getDc_setDc hd]
    | node z' o' =>
      rw [isDc_small hsub.1, cond_false, ih (chk + 1) off' z' o' d' j' hsub (by omega) g1 hd]
      congr 2
      omega

theorem chkBit4_eq {n i : Nat} (hi : i < 32) : chkBit4 n i = .ok (n.testBit (31 - i)) := by
  simp only [chkBit4, hi, decide_true, assert_true, Outcome.bind_ok]
  congr 1
  cases hb : n.testBit (31 - i)
  · have : n &&& 2 ^ (31 - i) = 0 := by
      apply Nat.eq_of_testBit_eq
      intro j
      rw [Nat.testBit_and, Nat.testBit_two_pow, Nat.zero_testBit]
      by_cases hj : 31 - i = j
      · rw [← hj, hb]; rfl
      · simp [hj]
    rw [this]; rfl
  · apply bne_iff_ne.mpr
    intro h0
    have h1 : (n &&& 2 ^ (31 - i)).testBit (31 - i) = true := by
      rw [Nat.testBit_and, hb, Nat.testBit_two_pow_self]; rfl
    rw [h0, Nat.zero_testBit] at h1
    cases h1

theorem bits32_length (n : Nat) : (bits32 n).length = 32 := by simp [bits32]

theorem bits32_drop {n i : Nat} (hi : i < 32) : (bits32 n).drop i = n.testBit (31 - i) :: (bits32 n).drop (i + 1) := by
  rw [List.drop_eq_getElem_cons (by rw [bits32_length]; exact hi)]
  simp [bits32]

theorem lookup4_ok {t : Tree} {ip : Nat} (T : Trie) : ∀ (k chk off : Nat) (d j : Nat),
    Rep t.store off T → chk + k = 32 → look T ((bits32 ip).drop chk) = some (d, j) → d < 2147483647 →
    lookup4 t ip k chk off = .ok (d, chk + j) := by
  induction T with
  | leaf e =>
    intro k chk off d j hrep hk hlook hd
    obtain ⟨rfl, he⟩ := hrep
    rw [look_leaf] at hlook
    simp only [Option.some.injEq, Prod.mk.injEq] at hlook
    obtain ⟨rfl, rfl⟩ := hlook
    unfold lookup4
    rw [isDc_setDc he, cond_true, decide_eq_true (setDc_ne_undef hd), assert_true, Outcome.bind_ok, getDc_setDc hd]
    rfl
  | node z o ihz iho =>
    intro k chk off d j hrep hk hlook hd
    obtain ⟨hv, n, hn, h1, h2, hz, ho⟩ := hrep
    cases k with
    | zero =>
      rw [List.drop_of_length_le (by rw [bits32_length]; omega)] at hlook
      simp [look] at hlook
    | succ k =>
      rw [bits32_drop (by omega), look] at hlook
      obtain ⟨⟨d', j'⟩, g1, g2⟩ := Option.map_eq_some_iff.mp hlook
      simp only [Prod.mk.injEq] at g2
      obtain ⟨rfl, rfl⟩ := g2
      have hass : decide (n.one ≠ 0 ∧ n.zero ≠ 0) = true := by simp; omega
      have hass2 : decide (chk + 1 < 33) = true := by simp; omega
      unfold lookup4
      rw [isDc_small hv, cond_false, hn]
      simp only [hass, assert_true, Outcome.bind_ok, chkBit4_eq (show chk < 32 by omega), hass2]
      cases hb : ip.testBit (31 - chk) with
      | false =>
        rw [hb] at g1
        rw [cond_false, ihz k (chk + 1) n.zero d' j' hz (by omega) g1 hd]
        congr 2; omega
      | true =>
        rw [hb] at g1
        rw [cond_true, iho k (chk + 1) n.one d' j' ho (by omega) g1 hd]
        congr 2; omega

/-- Where the IPv4 lookups start. -/
theorem findV4_ok {s : List Node} : ∀ (k v : Nat) (z o : Trie), Rep s v (.node z o) → 0 < k →
    ∃ v' T' i, findV4 s k v = .ok v' ∧ Rep s v' T' ∧ v < v' ∧
      (∀ y, look (.node z o) (List.replicate i false ++ y) = (look T' y).map fun r => (r.1, r.2 + i)) ∧
      (i = k ∨ (i < k ∧ ∃ d, T' = .leaf d)) := by
  intro k
  induction k with
  | zero => intro v z o _ h; omega
  | succ k ih =>
    intro v z o hrep _
    obtain ⟨hv, n, hn, h1, h2, hz, ho⟩ := hrep
    by_cases hk : k = 0
    · subst hk
      refine ⟨n.zero, z, 1, by simp [findV4, hn], hz, h1, ?_, Or.inl rfl⟩
      intro y
      simp [look]
    · cases z with
      | leaf d =>
        have hdc : isDc n.zero = true := by rw [hz.1]; exact isDc_setDc hz.2
        refine ⟨n.zero, .leaf d, 1, by simp [findV4, hn, hdc], hz, h1, ?_, Or.inr ⟨by omega, d, rfl⟩⟩
        intro y
        simp [look]
      | node z' o' =>
        have hdc : isDc n.zero = false := isDc_small hz.1
        obtain ⟨v', T', i, g1, g2, g3, g4, g5⟩ := ih n.zero z' o' hz (by omega)
        refine ⟨v', T', i + 1, by simp [findV4, hn, hdc, hk, g1], g2, by omega, ?_, ?_⟩
        · intro y
          rw [List.replicate_succ, List.cons_append, look, cond_false, g4 y, Option.map_map]
          rfl
        · rcases g5 with h | ⟨h, hl⟩
          · left; omega
          · right; exact ⟨by omega, hl⟩

/-- A finished tree stands for a trie. -/
structure TreeFor (t : Tree) (T : Trie) : Prop where
  root : ∃ z o, T = .node z o ∧ Rep t.store 0 T
  v4 : ∃ T' i, Rep t.store t.ipv4 T' ∧ t.ipv4 ≠ 0 ∧
    (∀ y, look T (List.replicate i false ++ y) = (look T' y).map fun r => (r.1, r.2 + i)) ∧
    (i = 96 ∨ (i < 96 ∧ ∃ d, T' = .leaf d))

/-- The tree of a normalized list. -/
theorem xlate_ok {l : List Net} (h : RestOk l) :
    Res (xlate l) (fun t => ∃ T, TreeFor t T ∧ Answers [] 0 l T 128) (16777216 < 1 + 127 * l.length) := by
  -- the entry ::/0, if any, is the default
  have start : ∃ d0 r, xlate l = ((rec 127 ⟨r, []⟩ ⟨List.replicate 16 0, 0, d0⟩).bind fun x =>
      (assert x.1.rest.isEmpty).bind fun _ => (findV4 x.1.store 96 0).bind fun v4 =>
        (assertOptimal x.1.store).bind fun _ => .ok ⟨x.1.store, v4⟩) ∧ RestOk r ∧ r.length ≤ l.length ∧
      (∀ n ∈ r, lexLt [] (toP n).1 = true) ∧ DcOk d0 ∧ ∀ T, Answers [] d0 r T 128 → Answers [] 0 l T 128 := by
    have hz : DcOk 0 := Or.inl (by omega)
    cases l with
    | nil => exact ⟨0, [], rfl, h, Nat.le_refl _, by simp, hz, fun _ hT => hT⟩
    | cons n r =>
      have hn := h.ok n List.mem_cons_self
      have hnil : ∀ p : List Bool, p ≠ [] → lexLt [] p = true := fun p hp => lexLt_prefix List.nil_prefix (Ne.symm hp)
      by_cases hm : n.mask = 0
      · have hp0 : (toP n).1 = [] := by rw [← List.length_eq_zero_iff, toP_length hn.1, hm]
        refine ⟨n.dc, r, by simp [xlate, hm], h.tail, by simp, ?_, hn.2, ?_⟩
        · intro m hmem; have := h.lt hmem; rwa [hp0] at this
        · intro T hT y hy
          obtain ⟨d', j, g1, g2⟩ := hT y hy
          refine ⟨d', j, g1, answer_cons (a := toP n) (by rw [hp0]; exact List.nil_prefix) ?_ g2⟩
          intro q _ _; rw [hp0]; simp
      · have h0 : lexLt [] (toP n).1 = true := hnil _ fun he => hm (by rw [← toP_length hn.1, he]; rfl)
        refine ⟨0, n :: r, by simp [xlate, hm], h, Nat.le_refl _, ?_, hz, fun _ hT => hT⟩
        intro m hmem
        rcases List.mem_cons.mp hmem with rfl | hmem
        · exact h0
        · exact lexLt_trans h0 (h.lt hmem)
  obtain ⟨d0, r, hx, hr, hrl, hlt, hd0, hans⟩ := start
  rw [hx]
  have ht : NetOk ⟨List.replicate 16 0, 0, d0⟩ := ⟨rfl, Nat.zero_le _, by
    show bits (List.replicate 16 0) = _
    rw [bits_zeros]; rfl⟩
  have hc : cnt [] r ≤ r.length := List.countP_le_length
  refine ((build_ok 127).2 [] r ⟨List.replicate 16 0, 0, d0⟩ [] d0 ht rfl rfl hr hlt hd0).bind ?_ ?_
  · rintro ⟨b, v⟩ _ ⟨h1, ⟨w, hw1, hw2, hw3⟩, T, hch, hA, hnode⟩
    obtain ⟨z, o, rfl⟩ := hnode rfl
    have hrest : b.rest = [] := by
      cases hb : b.rest with
      | nil => rfl
      | cons n r' => exact absurd List.nil_prefix (hw3 n (by rw [hb]; exact List.mem_cons_self))
    show Res ((assert b.rest.isEmpty).bind _) _ _
    rw [hrest]
    simp only [List.isEmpty_nil, assert_true, Outcome.bind_ok]
    rcases hch with ⟨_, e, he, _⟩ | ⟨new, z', o', hnew, hs, hv, hT, hrep, hopt⟩
    · cases he
    · simp only [List.length_nil] at hv
      subst hv
      obtain ⟨v4, T', i, g1, g2, g3, g4, g5⟩ := findV4_ok 96 0 z o hrep (by omega)
      rw [g1, Outcome.bind_ok]
      have hopt' : assertOptimal b.store = .ok () := by
        unfold assertOptimal
        by_cases hl : 1 < b.store.length
        · rw [if_pos hl]
          have : b.store.all (fun n => n.zero != n.one) = true := by
            rw [List.all_eq_true]
            intro n hn
            obtain ⟨i, hi, rfl⟩ := List.mem_iff_getElem.mp hn
            rcases hopt i b.store[i] (by simp) (List.getElem?_eq_getElem hi) with h | h
            · simpa using h
            · have : b.store.length = 1 := h
              omega
          rw [this]; rfl
        · rw [if_neg hl]
      rw [hopt', Outcome.bind_ok]
      exact ⟨.node z o, ⟨⟨z, o, rfl, hrep⟩, ⟨T', i, g2, by show v4 ≠ 0; omega, g4, g5⟩⟩, hans _ hA⟩
  · intro h
    simp only [List.length_nil] at h
    have : 127 * cnt [] r ≤ 127 * l.length := Nat.mul_le_mul_left _ (Nat.le_trans hc hrl)
    omega

/-- An IPv4 lookup. -/
theorem lookup4_for {t : Tree} {T : Trie} (h : TreeFor t T) {ip d j : Nat}
    (hl : look T (List.replicate 96 false ++ bits32 ip) = some (d, j)) (hd : d < 2147483647) :
    t.ipv4 ≠ 0 ∧ lookup4 t ip 32 0 t.ipv4 = .ok (d, j - 96) := by
  obtain ⟨T', i, h1, h2, h3, h4⟩ := h.v4
  refine ⟨h2, ?_⟩
  rcases h4 with rfl | ⟨hi, e, rfl⟩
  · rw [h3] at hl
    obtain ⟨⟨d', j'⟩, g1, g2⟩ := Option.map_eq_some_iff.mp hl
    simp only [Prod.mk.injEq] at g2
    obtain ⟨rfl, rfl⟩ := g2
    rw [lookup4_ok T' 32 0 t.ipv4 d' j' h1 rfl (by simpa using g1) hd]
    congr 2; omega
  · have hsplit : List.replicate 96 false ++ bits32 ip = List.replicate i false ++ (List.replicate (96 - i) false ++ bits32 ip) := by
      rw [← List.append_assoc, List.replicate_append_replicate]
      congr 2; omega
    rw [hsplit, h3, look_leaf] at hl
    simp only [Option.map_some, Option.some.injEq, Prod.mk.injEq] at hl
    obtain ⟨rfl, rfl⟩ := hl
    rw [lookup4_ok (.leaf e) 32 0 t.ipv4 e 0 h1 rfl (look_leaf _ _) hd]
    congr 2; omega

/-! ### IPv4-like addresses -/

theorem bits32_be32 (a b c d : UInt8) : bits32 (be32 [a, b, c, d]) = bits [a, b, c, d] := by
  have ha := a.toNat_lt; have hb := b.toNat_lt; have hc := c.toNat_lt; have hd := d.toNat_lt
  have h : ∀ j, (be32 [a, b, c, d]).testBit j = if j < 8 then d.toNat.testBit j else if j < 16 then c.toNat.testBit (j - 8)
      else if j < 24 then b.toNat.testBit (j - 16) else a.toNat.testBit (j - 24) := by
    intro j
    have e : be32 [a, b, c, d] = 2 ^ 8 * (2 ^ 8 * (2 ^ 8 * a.toNat + b.toNat) + c.toNat) + d.toNat := by
      simp only [be32]; omega
    rw [e, Nat.testBit_two_pow_mul_add _ (by omega)]
    by_cases h1 : j < 8
    · simp [h1]
    · rw [if_neg h1, if_neg h1, Nat.testBit_two_pow_mul_add _ (by omega)]
      by_cases h2 : j < 16
      · rw [if_pos (by omega), if_pos h2]
      · rw [if_neg (by omega), if_neg h2, Nat.testBit_two_pow_mul_add _ (by omega)]
        by_cases h3 : j < 24
        · rw [if_pos (by omega), if_pos h3]; congr 1
        · rw [if_neg (by omega), if_neg h3]; congr 1
  simp only [bits32, bits, byteBits, List.flatMap_cons, List.flatMap_nil, List.append_nil, List.cons_append, List.nil_append]
  have hr : List.range 32 = [0,1,2,3,4,5,6,7,8,9,10,11,12,13,14,15,16,17,18,19,20,21,22,23,24,25,26,27,28,29,30,31] := by decide
  rw [hr]
  simp [h]

theorem bits32_be32_of {l : Bytes} (h : l.length = 4) : bits32 (be32 l) = bits l := by
  match l, h with
  | [a, b, c, d], _ => exact bits32_be32 a b c d

theorem bits_xor (l : Bytes) : bits (l.map (· ^^^ 255)) = (bits l).map (!·) := by
  have key : ∀ b : UInt8, byteBits (b ^^^ 255) = (byteBits b).map (!·) := byte_forall (by decide +kernel)
  induction l with
  | nil => rfl
  | cons b l ih => rw [List.map_cons, bits_cons, bits_cons, List.map_append, ih, key]

theorem take_beq_bits {a b : Bytes} {n : Nat} (hb : n ≤ b.length) (_ha : n ≤ a.length) :
    (a.take n == b.take n) = decide (bits (b.take n) <+: bits a) := by
  rw [Bool.eq_iff_iff, beq_iff_eq, decide_eq_true_iff]
  constructor
  · intro h
    rw [← h, bits_take]; exact List.take_prefix _ _
  · intro h
    rw [List.prefix_iff_eq_take, bits_length, List.length_take, Nat.min_eq_left hb, ← bits_take] at h
    exact (bits_inj h).symm

/-- The address looked up, and how its scope is counted. -/
theorem v4fixup_ok {ip : Bytes} (h : ip.length = 16) :
    (v4fixup ip = (0, 0) ∧ target (.v6 ip) = bits ip ∧ ∀ a ∈ areas, ¬ a <+: bits ip) ∨
    (∃ n, v4fixup ip = (n, 96) ∧ target (.v6 ip) = List.replicate 96 false ++ bits32 n ∧
      ((∃ a ∈ areas.take 3, a <+: bits ip ∧ bits32 n = (bits ip).drop 96) ∨
        bits [0x20,0x01,0,0] <+: bits ip ∧ (∀ a ∈ areas.take 3, ¬ a <+: bits ip) ∧ bits32 n = ((bits ip).drop 96).map (!·))) ∨
    (∃ n, v4fixup ip = (n, 16) ∧ target (.v6 ip) = List.replicate 96 false ++ bits32 n ∧
      bits [0x20,0x02] <+: bits ip ∧ bits32 n = ((bits ip).drop 16).take 32) := by
  have e1 : v4mapped.take 12 = [0,0,0,0,0,0,0,0,0,0,0xFF,0xFF] := rfl
  have e2 : siit.take 12 = [0,0,0,0,0,0,0,0,0xFF,0xFF,0,0] := rfl
  have e3 : wkp.take 12 = [0,0x64,0xFF,0x9B,0,0,0,0,0,0,0,0] := rfl
  have e4 : teredo.take 4 = [0x20,0x01,0,0] := rfl
  have e5 : sixto4.take 2 = [0x20,0x02] := rfl
  have c1 : (ip.take 12 == v4mapped.take 12 || ip.take 12 == siit.take 12 || ip.take 12 == wkp.take 12) =
      (areas.take 3).any (fun x => decide (x <+: bits ip)) := by
    rw [take_beq_bits (by decide) (by omega), take_beq_bits (by decide) (by omega), take_beq_bits (by decide) (by omega), e1, e2, e3]
    simp only [areas, List.take_succ_cons, List.take_zero, List.any_cons, List.any_nil, Bool.or_false, Bool.or_assoc]
  have c2 : (ip.take 4 == teredo.take 4) = decide (bits [0x20,0x01,0,0] <+: bits ip) := by
    rw [take_beq_bits (by decide) (by omega), e4]
  have c3 : (ip.take 2 == sixto4.take 2) = decide (bits [0x20,0x02] <+: bits ip) := by
    rw [take_beq_bits (by decide) (by omega), e5]
  have hd12 : bits ((ip.drop 12).take 4) = (bits ip).drop 96 := by
    rw [List.take_of_length_le (by simp; omega), bits_drop]
  have hd2 : bits ((ip.drop 2).take 4) = ((bits ip).drop 16).take 32 := by
    rw [bits_take, bits_drop]
  unfold v4fixup target
  dsimp only
  rw [c1, c2, c3]
  by_cases h1 : (areas.take 3).any (fun x => decide (x <+: bits ip)) = true
  · right; left
    rw [if_pos h1, if_pos h1]
    have hb : bits32 (be32 ((ip.drop 12).take 4)) = (bits ip).drop 96 := by
      rw [bits32_be32_of (by simp; omega), hd12]
    refine ⟨_, rfl, by rw [hb], Or.inl ?_⟩
    obtain ⟨a, ha, hap⟩ := List.any_eq_true.mp h1
    exact ⟨a, ha, by simpa using hap, hb⟩
  · rw [if_neg h1, if_neg h1]
    have h1' : ∀ a ∈ areas.take 3, ¬ a <+: bits ip := fun a ha hap => h1 (List.any_eq_true.mpr ⟨a, ha, by simpa using hap⟩)
    by_cases h2 : bits [0x20,0x01,0,0] <+: bits ip
    · right; left
      rw [if_pos (by simpa using h2), if_pos h2]
      have hb : bits32 (be32 (((ip.drop 12).take 4).map (· ^^^ 255))) = ((bits ip).drop 96).map (!·) := by
        rw [bits32_be32_of (by simp; omega), bits_xor, hd12]
      exact ⟨_, rfl, by rw [hb], Or.inr ⟨h2, h1', hb⟩⟩
    · rw [if_neg (by simpa using h2), if_neg h2]
      by_cases h3 : bits [0x20,0x02] <+: bits ip
      · right; right
        rw [if_pos (by simpa using h3), if_pos h3]
        have hb : bits32 (be32 ((ip.drop 2).take 4)) = ((bits ip).drop 16).take 32 := by
          rw [bits32_be32_of (by simp; omega), hd2]
        exact ⟨_, rfl, by rw [hb], h3, hb⟩
      · left
        rw [if_neg (by simpa using h3), if_neg h3]
        refine ⟨rfl, rfl, ?_⟩
        intro a ha
        have hsplit : a ∈ areas.take 3 ∨ a = bits [0x20,0x02] ∨ a = bits [0x20,0x01,0,0] := by
          simp only [areas, List.take_succ_cons, List.take_zero, List.mem_cons, List.not_mem_nil, or_false] at ha ⊢
          rcases ha with h | h | h | h | h <;> simp [h]
        rcases hsplit with h | rfl | rfl
        · exact h1' a h
        · exact h3
        · exact h2

theorem target_length {a : Addr} (h : a.Wf) : (target a).length = 128 := by
  cases a with
  | v4 n => simp [target, bits32_length]
  | v6 ip =>
    rcases v4fixup_ok h with ⟨_, e, _⟩ | ⟨n, _, e, _⟩ | ⟨n, _, e, _⟩
    · rw [e, bits_length, show ip.length = 16 from h]
    · rw [e]; simp [bits32_length]
    · rw [e]; simp [bits32_length]

/-- The address looked up is never in one of the five areas. -/
theorem target_not_area {a : Addr} (h : a.Wf) : ∀ p ∈ areas, ¬ p <+: target a := by
  have hz : ∀ y, ∀ p ∈ areas, ¬ p <+: List.replicate 96 false ++ y := by
    intro y p hp hpx
    have hlen : p.length ≤ 96 := (by decide : ∀ p ∈ areas, p.length ≤ 96) p hp
    have h1 : p <+: List.replicate 96 false :=
      List.prefix_of_prefix_length_le hpx (List.prefix_append _ _) (by simpa using hlen)
    exact (by decide +kernel : ∀ p ∈ areas, ¬ p <+: List.replicate 96 false) p hp h1
  cases a with
  | v4 n => exact hz _
  | v6 ip =>
    rcases v4fixup_ok h with ⟨_, e, hn⟩ | ⟨n, _, e, _⟩ | ⟨n, _, e, _⟩
    · rw [e]; exact hn
    · rw [e]; exact hz _
    · rw [e]; exact hz _

/-- A lookup returns what the trie says about the target address. -/
theorem lookupInner_ok {t : Tree} {T : Trie} (h : TreeFor t T) {a : Addr} (ha : a.Wf) {d j : Nat}
    (hl : look T (target a) = some (d, j)) (hd : d < 2147483647) : ∃ m, lookupInner t a = .ok (d, m) ∧
      (match a with
        | .v4 _ => m = j - 96
        | .v6 ip => m = if (v4fixup ip).2 = 0 then j else j - 96 + (v4fixup ip).2) := by
  cases a with
  | v4 n =>
    obtain ⟨h1, h2⟩ := lookup4_for h hl hd
    exact ⟨j - 96, by simp [lookupInner, h1, h2], rfl⟩
  | v6 ip =>
    rcases v4fixup_ok ha with ⟨hf, e, _⟩ | ⟨n, hf, e, _⟩ | ⟨n, hf, e, _⟩
    · rw [e] at hl
      obtain ⟨z, o, rfl, hr⟩ := h.root
      refine ⟨j, ?_, by simp [hf]⟩
      simp only [lookupInner, hf]
      rw [if_neg (by simp), lookup6_ok ha 128 0 0 z o d j hr rfl (by simpa using hl) hd]
      congr 2; omega
    · rw [e] at hl
      obtain ⟨h1, h2⟩ := lookup4_for h hl hd
      exact ⟨j - 96 + 96, by simp [lookupInner, hf, h1, h2], by simp [hf]⟩
    · rw [e] at hl
      obtain ⟨h1, h2⟩ := lookup4_for h hl hd
      exact ⟨j - 96 + 16, by simp [lookupInner, hf, h1, h2], by simp [hf]⟩

end Gdnsd.Geo
