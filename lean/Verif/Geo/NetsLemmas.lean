/-
From configured networks to a normalized list.
-/
import Verif.Geo.TreeLookup
namespace Gdnsd.Geo

theorem bindOk {α β : Type} {x : Outcome α} {f : α → Outcome β} {b : β} (h : x.bind f = .ok b) : ∃ a, x = .ok a ∧ f a = .ok b := by
  cases x with
  | ok a => exact ⟨a, rfl, h⟩
  | ub => cases h

theorem mapOk {α β : Type} {x : Outcome α} {f : α → β} {b : β} (h : x.map f = .ok b) : ∃ a, x = .ok a ∧ f a = b := by
  cases x with
  | ok a => exact ⟨a, rfl, Outcome.ok.inj h⟩
  | ub => cases h

/-! ### Normalization makes no new list numbers -/

theorem absorb_dc (P : Nat → Prop) : ∀ (rest : List Net) (na : Net) (r : Net × List Net × List Net), absorb na rest = .ok r →
    P na.dc → (∀ n ∈ rest, P n.dc) → P r.1.dc ∧ (∀ n ∈ r.2.1, P n.dc) ∧ ∀ n ∈ r.2.2, P n.dc := by
  intro rest
  induction rest with
  | nil => intro na r h hna _; simp only [absorb, Outcome.ok.injEq] at h; subst h; exact ⟨hna, by simp, by simp⟩
  | cons nb rest ih =>
    intro na r h hna hrest
    have hnb := hrest nb List.mem_cons_self
    have hr' : ∀ n ∈ rest, P n.dc := fun n hn => hrest n (List.mem_cons_of_mem _ hn)
    have hcons : ∀ l : List Net, (∀ n ∈ l, P n.dc) → ∀ n ∈ deleted nb :: l, P n.dc := by
      intro l hl n hn
      rcases List.mem_cons.mp hn with rfl | hn
      · exact hnb
      · exact hl n hn
    rw [absorb] at h
    split at h
    · obtain ⟨r', h1, h2⟩ := mapOk h
      subst h2
      obtain ⟨g1, g2, g3⟩ := ih na r' h1 hna hr'
      exact ⟨g1, hcons _ g2, g3⟩
    · obtain ⟨m, _, h⟩ := bindOk h
      cases m with
      | false => simp only [cond_false, Outcome.ok.injEq] at h; subst h; exact ⟨hna, by simp, hrest⟩
      | true =>
        rw [cond_true] at h
        obtain ⟨r', h1, h2⟩ := mapOk h
        subst h2
        obtain ⟨g1, g2, g3⟩ := ih _ r' h1 (by exact hna) hr'
        exact ⟨g1, hcons _ g2, g3⟩

theorem passLoop_dc (P : Nat → Prop) : ∀ (k : Nat) (l : List Net) (r : List Net × Nat), passLoop k l = .ok r →
    (∀ n ∈ l, P n.dc) → ∀ n ∈ r.1, P n.dc := by
  intro k
  induction k with
  | zero =>
    intro l r h _
    rw [passLoop] at h
    split at h
    · cases h; simp
    · cases h
  | succ k ih =>
    intro l r h hl
    cases l with
    | nil => simp only [passLoop, Outcome.ok.injEq] at h; subst h; simp
    | cons na rest =>
      rw [passLoop] at h
      obtain ⟨a, h1, h⟩ := bindOk h
      obtain ⟨t, h2, rfl⟩ := mapOk h
      obtain ⟨g1, g2, g3⟩ := absorb_dc P rest na a h1 (hl na List.mem_cons_self) fun n hn => hl n (List.mem_cons_of_mem _ hn)
      intro n hn
      simp only [List.cons_append, List.mem_cons, List.mem_append] at hn
      rcases hn with rfl | hn | hn
      · exact g1
      · exact g2 n hn
      · exact ih _ t h2 g3 n hn

theorem normLoop_dc {sort : List Net → List Net} (hs : SortOk sort) (P : Nat → Prop) : ∀ (k : Nat) (l l' : List Net),
    normLoop sort k l = .ok l' → (∀ n ∈ l, P n.dc) → ∀ n ∈ l', P n.dc := by
  intro k
  induction k with
  | zero => intro l l' h _; cases h
  | succ k ih =>
    intro l l' h hl
    rw [normLoop] at h
    obtain ⟨r, h1, h⟩ := bindOk h
    have hr : ∀ n ∈ r.1, P n.dc := by
      rw [pass] at h1
      obtain ⟨_, _, h1⟩ := bindOk h1
      obtain ⟨q, h2, h1⟩ := bindOk h1
      have hq := passLoop_dc P _ _ _ h2 hl
      split at h1
      · cases h1
        intro n hn
        exact hq n ((hs.perm _).mem_iff.mp (List.mem_of_mem_take hn))
      · cases h1; exact hq
    cases hb : r.2 with
    | false => rw [hb] at h; simp only [cond_false, Outcome.ok.injEq] at h; subst h; exact hr
    | true => rw [hb] at h; exact ih _ _ h hr

theorem normalize_dc {sort : List Net → List Net} (hs : SortOk sort) (P : Nat → Prop) {b : Bool} {l l' : List Net}
    (h : normalize sort b l = .ok l') (hl : ∀ n ∈ l, P n.dc) : ∀ n ∈ l', P n.dc := by
  rw [normalize] at h
  split at h
  · cases h; exact hl
  · refine normLoop_dc hs P _ _ _ h ?_
    cases b
    · exact fun n hn => hl n ((hs.perm l).mem_iff.mp hn)
    · exact hl

/-! ### Appending -/

theorem append_ok {l : List Net} {ip : Bytes} {mask dc : Nat} (hip : ip.length = 16) (hm : mask ≤ 128) :
    ∃ n, append false l ip mask dc = .ok (l ++ [n]) ∧ NetOk n ∧ toP n = ((bits ip).take mask, dc) := by
  obtain ⟨c, h1, h2, h3⟩ := clearMaskBits_eq hip hm
  have hlen : ((bits ip).take mask).length = mask := by rw [List.length_take, bits_length]; omega
  have ht : (bits c).take mask = (bits ip).take mask := by rw [h3, List.take_left' hlen]
  refine ⟨⟨c, mask, dc⟩, by simp [append, h1], ⟨h2, hm, ?_⟩, ?_⟩
  · show bits c = (bits c).take mask ++ _
    rw [ht]; exact h3
  · show ((bits c).take mask, dc) = _
    rw [ht]

theorem v6SubnetOf_eq {ip v4 : Bytes} {mask k : Nat} (hip : ip.length = 16) (hv : k ≤ v4.length) (hk : k ≤ 16) :
    v6SubnetOf ip mask v4 (8 * k) = decide (bits (v4.take k) <+: (bits ip).take mask) := by
  rw [v6SubnetOf, Nat.mul_div_cancel_left _ (by omega : 0 < 8), take_beq_bits hv (by omega)]
  rw [Bool.eq_iff_iff, Bool.and_eq_true, decide_eq_true_iff, decide_eq_true_iff, decide_eq_true_iff]
  have hlen : (bits (v4.take k)).length = 8 * k := by rw [bits_length, List.length_take, Nat.min_eq_left hv]
  constructor
  · rintro ⟨h1, h2⟩
    exact List.prefix_take_iff.mpr ⟨h2, by omega⟩
  · intro h
    have := List.prefix_take_iff.mp h
    exact ⟨by omega, this.1⟩

theorem v4Issues_eq {ip : Bytes} {mask : Nat} (hip : ip.length = 16) :
    v4Issues ip mask = true ↔ ∃ a ∈ areas, a <+: (bits ip).take mask := by
  have h1 := v6SubnetOf_eq (v4 := v4mapped) (mask := mask) (k := 12) hip (by decide) (by decide)
  have h2 := v6SubnetOf_eq (v4 := siit) (mask := mask) (k := 12) hip (by decide) (by decide)
  have h3 := v6SubnetOf_eq (v4 := wkp) (mask := mask) (k := 12) hip (by decide) (by decide)
  have h4 := v6SubnetOf_eq (v4 := teredo) (mask := mask) (k := 4) hip (by decide) (by decide)
  have h5 := v6SubnetOf_eq (v4 := sixto4) (mask := mask) (k := 2) hip (by decide) (by decide)
  rw [v4Issues, h1, h2, h3, h4, h5]
  have e1 : v4mapped.take 12 = [0,0,0,0,0,0,0,0,0,0,0xFF,0xFF] := rfl
  have e2 : siit.take 12 = [0,0,0,0,0,0,0,0,0xFF,0xFF,0,0] := rfl
  have e3 : wkp.take 12 = [0,0x64,0xFF,0x9B,0,0,0,0,0,0,0,0] := rfl
  have e4 : teredo.take 4 = [0x20,0x01,0,0] := rfl
  have e5 : sixto4.take 2 = [0x20,0x02] := rfl
  rw [e1, e2, e3, e4, e5]
  generalize (bits ip).take mask = y
  simp only [Bool.or_eq_true, decide_eq_true_iff, areas, List.mem_cons, List.not_mem_nil, or_false, exists_eq_or_imp,
    exists_eq_left, or_assoc]
  constructor
  · rintro (h | h | h | h | h) <;> simp [h]
  · rintro (h | h | h | h | h) <;> simp [h]

/-- The loop over the configured networks. -/
theorem netsParse_ok : ∀ (es : List Entry) (l : List Net), (∀ e ∈ es, e.Wf) → (∀ n ∈ l, NetOk n) →
    ((∀ e ∈ es, e.Legal) → ∃ l', netsParse l es = .ok (some l') ∧ (∀ n ∈ l', NetOk n) ∧ l'.map toP = l.map toP ++ es.map Entry.pfx) ∧
    ((∃ e ∈ es, ¬ e.Legal) → netsParse l es = .ok none) := by
  intro es
  induction es with
  | nil => intro l _ hl; exact ⟨fun _ => ⟨l, rfl, hl, by simp⟩, by simp⟩
  | cons e es ih =>
    intro l hwf hl
    have hwf' : ∀ e ∈ es, e.Wf := fun f hf => hwf f (List.mem_cons_of_mem _ hf)
    -- one step
    have step : (¬ e.Legal → netsParse l (e :: es) = .ok none) ∧
        (e.Legal → ∃ n, NetOk n ∧ toP n = e.pfx ∧ netsParse l (e :: es) = netsParse (l ++ [n]) es) := by
      have he := hwf e List.mem_cons_self
      cases e with
      | v6 ip m d =>
        constructor
        · intro hleg
          rw [netsParse]
          by_cases hm : 128 < m
          · rw [if_pos hm]
          · rw [if_neg hm, if_pos]
            rw [v4Issues_eq he.1]
            refine Classical.byContradiction fun hc => hleg ⟨by omega, fun a ha hp => hc ⟨a, ha, hp⟩⟩
        · rintro ⟨hm, ha⟩
          obtain ⟨n, h1, h2, h3⟩ := append_ok (l := l) (dc := d) he.1 hm
          refine ⟨n, h2, h3, ?_⟩
          rw [netsParse, if_neg (by omega), if_neg, h1, Outcome.bind_ok]
          rw [v4Issues_eq he.1]
          rintro ⟨a, h, hp⟩
          exact ha a h hp
      | v4 ip m d =>
        constructor
        · intro hleg
          have : ¬ m ≤ 32 := hleg
          rw [netsParse, if_pos (by omega)]
        · intro hm
          have hm : m ≤ 32 := hm
          have hl16 : (List.replicate 12 (0 : UInt8) ++ ip).length = 16 := by simp [he.1]
          obtain ⟨n, h1, h2, h3⟩ := append_ok (l := l) (dc := d) (mask := m + 96) hl16 (by omega)
          refine ⟨n, h2, ?_, by rw [netsParse, if_neg (by omega), h1, Outcome.bind_ok]⟩
          rw [h3, bits_append, bits_zeros, Entry.pfx]
          congr 1
    constructor
    · intro hleg
      obtain ⟨n, h1, h2, h3⟩ := step.2 (hleg e List.mem_cons_self)
      have hok : ∀ m ∈ l ++ [n], NetOk m := by
        intro m hm
        rcases List.mem_append.mp hm with hm | hm
        · exact hl m hm
        · rw [List.mem_singleton.mp hm]; exact h1
      obtain ⟨l', g1, g2, g3⟩ := (ih (l ++ [n]) hwf' hok).1 fun f hf => hleg f (List.mem_cons_of_mem _ hf)
      refine ⟨l', by rw [h3, g1], g2, ?_⟩
      rw [g3]; simp [h2]
    · rintro ⟨f, hf, hnl⟩
      by_cases he : e.Legal
      · obtain ⟨n, h1, h2, h3⟩ := step.2 he
        have hok : ∀ m ∈ l ++ [n], NetOk m := by
          intro m hm
          rcases List.mem_append.mp hm with hm | hm
          · exact hl m hm
          · rw [List.mem_singleton.mp hm]; exact h1
        rw [h3]
        refine (ih (l ++ [n]) hwf' hok).2 ⟨f, ?_, hnl⟩
        rcases List.mem_cons.mp hf with rfl | hf
        · exact absurd he hnl
        · exact hf
      · exact step.1 he

/-- The five areas as networks. -/
def areaNets : List Pfx := areas.map fun a => (a, UNDEF)

theorem appendAll_ok : ∀ (ns l : List Net), (∀ n ∈ ns, n.ip.length = 16 ∧ n.mask ≤ 128) → (∀ n ∈ l, NetOk n) →
    ∃ l', appendAll l ns = .ok l' ∧ (∀ n ∈ l', NetOk n) ∧ l'.map toP = l.map toP ++ ns.map toP := by
  intro ns
  induction ns with
  | nil => intro l _ hl; exact ⟨l, rfl, hl, by simp⟩
  | cons n ns ih =>
    intro l hns hl
    obtain ⟨h1, h2⟩ := hns n List.mem_cons_self
    obtain ⟨m, g1, g2, g3⟩ := append_ok (l := l) (dc := n.dc) h1 h2
    have hok : ∀ k ∈ l ++ [m], NetOk k := by
      intro k hk
      rcases List.mem_append.mp hk with hk | hk
      · exact hl k hk
      · rw [List.mem_singleton.mp hk]; exact g2
    obtain ⟨l', k1, k2, k3⟩ := ih (l ++ [m]) (fun k hk => hns k (List.mem_cons_of_mem _ hk)) hok
    refine ⟨l', by rw [appendAll, g1, Outcome.bind_ok, k1], k2, ?_⟩
    rw [k3, List.map_append, List.map_cons, List.map_nil, List.map_cons, g3, List.append_assoc]; rfl

theorem undefNets_toP : undefNets.map toP = areaNets := by decide +kernel

theorem undefNets_ok : ∀ n ∈ undefNets, n.ip.length = 16 ∧ n.mask ≤ 128 := by decide +kernel

theorem area_zeros : ∀ a ∈ areas, ¬ a <+: List.replicate 96 false := by decide +kernel
theorem area_len : ∀ a ∈ areas, a.length ≤ 96 := by decide +kernel

/-- A legal entry is in no area. -/
theorem legal_area {e : Entry} (hl : e.Legal) : ∀ a ∈ areas, ¬ a <+: e.pfx.1 := by
  intro a ha hp
  cases e with
  | v6 ip m d => exact hl.2 a ha hp
  | v4 ip m d =>
    refine area_zeros a ha (List.prefix_of_prefix_length_le hp (List.prefix_append _ _) ?_)
    simpa using area_len a ha

theorem pfx_len {e : Entry} (hw : e.Wf) (hl : e.Legal) : e.pfx.1.length ≤ 128 := by
  cases e with
  | v6 ip m d => simp only [Entry.pfx, List.length_take]; have : m ≤ 128 := hl.1; omega
  | v4 ip m d => simp only [Entry.pfx, List.length_append, List.length_replicate, List.length_take]; have : m ≤ 32 := hl; omega

/-- What is known of a list that trees are made from. -/
structure ListOk (l : List Net) : Prop where
  ok : ∀ n ∈ l, NetOk n ∧ DcOk n.dc
  inv : Inv (l.map toP)
  stable : Stable (l.map toP)

theorem ListOk.rest {l : List Net} (h : ListOk l) : RestOk l :=
  ⟨h.ok, strict_of_stable h.inv.sorted h.stable⟩

theorem areaNets_same {a b : Pfx} (ha : a ∈ areaNets) (hb : b ∈ areaNets) : a.1 = b.1 → a.2 = b.2 := by
  obtain ⟨_, _, rfl⟩ := List.mem_map.mp ha
  obtain ⟨_, _, rfl⟩ := List.mem_map.mp hb
  exact fun _ => rfl

/-- The list made of the configured networks. -/
theorem netsMakeList_ok {sort : List Net → List Net} (hs : SortOk sort) {es : List Entry} (hwf : ∀ e ∈ es, e.Wf)
    (hleg : ∀ e ∈ es, e.Legal) (hc : Consistent es) (hh : NoneHidden es) :
    ∃ l, netsMakeList sort es = .ok (some l) ∧ ListOk l ∧ Same (es.map Entry.pfx ++ areaNets) (l.map toP) ∧
      l.length ≤ es.length + 5 := by
  obtain ⟨l1, h1, h2, h3⟩ := (netsParse_ok es [] hwf (by simp)).1 hleg
  obtain ⟨l2, g1, g2, g3⟩ := appendAll_ok undefNets l1 undefNets_ok h2
  rw [h3, undefNets_toP, List.map_nil, List.nil_append] at g3
  have hconf : Conf (l2.map toP) := by
    rw [g3]
    intro a ha b hb hab
    rcases List.mem_append.mp ha with ha | ha <;> rcases List.mem_append.mp hb with hb | hb
    · obtain ⟨e, he, rfl⟩ := List.mem_map.mp ha
      obtain ⟨f, hf, rfl⟩ := List.mem_map.mp hb
      exact hc e he f hf hab
    · obtain ⟨e, he, rfl⟩ := List.mem_map.mp ha
      obtain ⟨f, hf, rfl⟩ := List.mem_map.mp hb
      exact absurd (show f <+: e.pfx.1 by rw [hab]; exact List.prefix_refl _) (legal_area (hleg e he) f hf)
    · obtain ⟨e, he, rfl⟩ := List.mem_map.mp hb
      obtain ⟨f, hf, rfl⟩ := List.mem_map.mp ha
      exact absurd (show f <+: e.pfx.1 by rw [← hab]; exact List.prefix_refl _) (legal_area (hleg e he) f hf)
    · exact areaNets_same ha hb hab
  have hown : ∀ t ∈ l2.map toP, Own (l2.map toP) t.1 := by
    rw [g3]
    intro t ht
    rcases List.mem_append.mp ht with ht | ht
    · obtain ⟨e, he, rfl⟩ := List.mem_map.mp ht
      obtain ⟨x, hx1, hx2, hx3, hx4⟩ := hh e he
      refine ⟨x, hx1, hx2, ?_⟩
      intro q hq hqx
      rcases List.mem_append.mp hq with hq | hq
      · obtain ⟨f, hf, rfl⟩ := List.mem_map.mp hq
        exact hx4 f hf hqx
      · obtain ⟨f, hf, rfl⟩ := List.mem_map.mp hq
        exact absurd hqx (hx3 f hf)
    · obtain ⟨a, ha, rfl⟩ := List.mem_map.mp ht
      have hal := area_len a ha
      refine ⟨a ++ List.replicate (128 - a.length) false, by simp; omega, List.prefix_append _ _, ?_⟩
      intro q hq hqx
      refine Nat.le_of_not_lt fun hlt => ?_
      have hlt : a.length < q.1.length := hlt
      have haq : a <+: q.1 := List.prefix_of_prefix_length_le (List.prefix_append _ _) hqx (by omega)
      rcases List.mem_append.mp hq with hq | hq
      · obtain ⟨f, hf, rfl⟩ := List.mem_map.mp hq
        exact legal_area (hleg f hf) a ha haq
      · obtain ⟨b, hb, rfl⟩ := List.mem_map.mp hq
        have : a = b := (by decide +kernel : ∀ a ∈ areas, ∀ b ∈ areas, a <+: b → a = b) a ha b hb haq
        subst this
        exact Nat.lt_irrefl _ hlt
  obtain ⟨l, k1, k2, k3, k4, k5, k6⟩ := normalize_ok hs g2 hconf hown
  refine ⟨l, ?_, ⟨?_, k3, k5⟩, by rw [← g3]; exact k4, ?_⟩
  · simp [netsMakeList, h1, g1, finish, k1]
  · intro n hn
    refine ⟨k2 n hn, normalize_dc hs DcOk k1 ?_ n hn⟩
    intro m hm
    have : toP m ∈ l2.map toP := List.mem_map_of_mem hm
    rw [g3] at this
    rcases List.mem_append.mp this with h | h
    · obtain ⟨e, he, hem⟩ := List.mem_map.mp h
      have hd : e.pfx.2 = m.dc := congrArg Prod.snd hem
      rw [← hd]
      left
      have := hwf e he
      cases e with
      | v6 ip m d => exact this.2
      | v4 ip m d => exact this.2
    · obtain ⟨a, _, ham⟩ := List.mem_map.mp h
      exact Or.inr (congrArg Prod.snd ham).symm
  · have : l2.length = es.length + 5 := by
      have := congrArg List.length g3
      simpa [areaNets, areas] using this
    omega

end Gdnsd.Geo
