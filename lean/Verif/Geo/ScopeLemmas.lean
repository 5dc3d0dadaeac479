/-
The scope of a lookup.
-/
import Verif.Geo.NetsLemmas
namespace Gdnsd.Geo

/-- A tree that answers for every client, with the five areas masked out. -/
structure Complete (T : Trie) : Prop where
  target : ∀ a : Addr, a.Wf → ∃ d j, look T (target a) = some (d, j) ∧ d < 2147483647
  areas : ∀ x : List Bool, x.length = 128 → ∀ a ∈ areas, a <+: x → ∃ j, look T x = some (UNDEF, j)

theorem look_len {T : Trie} : ∀ {x : List Bool} {d j : Nat}, look T x = some (d, j) → j ≤ x.length := by
  induction T with
  | leaf e => intro x d j h; rw [look_leaf] at h; cases h; omega
  | node z o ihz iho =>
    intro x d j h
    cases x with
    | nil => simp [look] at h
    | cons b x =>
      rw [look] at h
      obtain ⟨⟨d', j'⟩, g1, g2⟩ := Option.map_eq_some_iff.mp h
      simp only [Prod.mk.injEq] at g2
      obtain ⟨rfl, rfl⟩ := g2
      have : j' ≤ x.length := by
        cases b
        · exact ihz g1
        · exact iho g1
      simpa using this

theorem share_zeros {y y' : List Bool} {j : Nat} (h : y'.take (j - 96) = y.take (j - 96)) :
    (List.replicate 96 false ++ y').take j = (List.replicate 96 false ++ y).take j := by
  rw [List.take_append, List.take_append, List.length_replicate, h]

theorem share_drop {x y : List Bool} {m k i : Nat} (h : y.take m = x.take m) (hk : k + i ≤ m) :
    (y.drop k).take i = (x.drop k).take i := by
  have h1 : y.take (k + i) = x.take (k + i) := by
    have := congrArg (List.take (k + i)) h
    rwa [List.take_take, List.take_take, Nat.min_eq_left hk] at this
  rw [List.take_drop, List.take_drop, h1]

theorem share_prefix {x y a : List Bool} {m : Nat} (h : y.take m = x.take m) (hm : a.length ≤ m) : a <+: x → a <+: y := by
  intro hp
  have h1 : a <+: x.take m := List.prefix_take_iff.mpr ⟨hp, hm⟩
  rw [← h] at h1
  exact (List.prefix_take_iff.mp h1).1

theorem area_comparable : ∀ a ∈ areas, ∀ b ∈ areas, (a <+: b ∨ b <+: a) → a = b := by decide +kernel

theorem area_one {a b x : List Bool} (ha : a ∈ areas) (hb : b ∈ areas) (hax : a <+: x) (hbx : b <+: x) : a = b := by
  refine area_comparable a ha b hb ?_
  by_cases h : a.length ≤ b.length
  · exact Or.inl (List.prefix_of_prefix_length_le hax hbx h)
  · exact Or.inr (List.prefix_of_prefix_length_le hbx hax (by omega))

theorem take3_areas {a : List Bool} (h : a ∈ areas.take 3) : a ∈ areas := List.mem_of_mem_take h

theorem teredo_mem : bits [0x20,0x01,0,0] ∈ areas := by decide +kernel
theorem sixto4_mem : bits [0x20,0x02] ∈ areas := by decide +kernel
theorem teredo_notin : bits [0x20,0x01,0,0] ∉ areas.take 3 := by decide +kernel
theorem sixto4_notin : bits [0x20,0x02] ∉ areas.take 3 := by decide +kernel
theorem teredo_ne : bits [0x20,0x01,0,0] ≠ bits [0x20,0x02] := by decide +kernel

/-- Addresses that share the scope get the same list and the same scope. -/
theorem scope_ok {t : Tree} {T : Trie} (h : TreeFor t T) (hc : Complete T) {a : Addr} (ha : a.Wf) {d m : Nat}
    (hl : lookupInner t a = .ok (d, m)) : m ≤ a.raw.length ∧ ∀ b : Addr, b.Wf → a.sameFamily b → b.raw.take m = a.raw.take m →
      lookupInner t b = .ok (d, m) := by
  obtain ⟨d', j, hlook, hd⟩ := hc.target a ha
  obtain ⟨m', hm1, hm2⟩ := lookupInner_ok h ha hlook hd
  rw [hl] at hm1
  simp only [Outcome.ok.injEq, Prod.mk.injEq] at hm1
  obtain ⟨rfl, rfl⟩ := hm1
  have hj : j ≤ 128 := by have := look_len hlook; rwa [target_length ha] at this
  cases a with
  | v4 n =>
    simp only at hm2
    refine ⟨by show m ≤ (bits32 n).length; rw [bits32_length]; omega, ?_⟩
    intro b hb hf hs
    cases b with
    | v6 ip => exact hf.elim
    | v4 n' =>
      have hs : (bits32 n').take m = (bits32 n).take m := hs
      subst hm2
      have hlook' : look T (target (.v4 n')) = some (d, j) :=
        look_share hlook (share_zeros hs) (by rw [target_length ha, target_length hb])
      obtain ⟨m', g1, g2⟩ := lookupInner_ok h hb hlook' hd
      simp only at g2
      rw [g1, g2]
  | v6 ip =>
    simp only at hm2
    have hlen : (bits ip).length = 128 := by rw [bits_length, show ip.length = 16 from ha]
    rcases v4fixup_ok ha with ⟨hf, e, hn⟩ | ⟨n, hf, e, hk⟩ | ⟨n, hf, e, hk, hb32⟩
    · -- an address of its own
      rw [hf, if_pos rfl] at hm2
      subst hm2
      refine ⟨by show m ≤ (bits ip).length; rw [hlen]; exact hj, ?_⟩
      intro b hb hfam hs
      cases b with
      | v4 n => exact hfam.elim
      | v6 ip' =>
        have hs : (bits ip').take m = (bits ip).take m := hs
        have hlen' : (bits ip').length = 128 := by rw [bits_length, show ip'.length = 16 from hb]
        rw [e] at hlook
        have hlook' : look T (bits ip') = some (d, m) := look_share hlook hs (by rw [hlen, hlen'])
        have harea : ∀ a ∈ areas, ¬ a <+: bits ip' := by
          intro a ham hap
          obtain ⟨j', hj'⟩ := hc.areas (bits ip') hlen' a ham hap
          rw [hlook'] at hj'
          simp only [Option.some.injEq, Prod.mk.injEq] at hj'
          rw [hj'.1] at hd
          exact absurd hd (by decide)
        rcases v4fixup_ok hb with ⟨hf', e', _⟩ | ⟨n', _, _, hk'⟩ | ⟨n', _, _, hk', _⟩
        · obtain ⟨m', g1, g2⟩ := lookupInner_ok h hb (e' ▸ hlook') hd
          simp only [hf', if_pos] at g2
          rw [g1, g2]
        · rcases hk' with ⟨a, ham, hap, _⟩ | ⟨hap, _⟩
          · exact absurd hap (harea a (take3_areas ham))
          · exact absurd hap (harea _ teredo_mem)
        · exact absurd hk' (harea _ sixto4_mem)
    · -- an IPv4 address in the last four bytes
      rw [hf, if_neg (by simp)] at hm2
      have hm96 : 96 ≤ m := by omega
      refine ⟨by show m ≤ (bits ip).length; omega, ?_⟩
      intro b hb hfam hs
      cases b with
      | v4 n => exact hfam.elim
      | v6 ip' =>
        have hs : (bits ip').take m = (bits ip).take m := hs
        have hsame : ∀ a ∈ areas, a <+: bits ip ↔ a <+: bits ip' := fun a ham =>
          ⟨share_prefix hs (by have := area_len a ham; omega), share_prefix hs.symm (by have := area_len a ham; omega)⟩
        have hdrop : ((bits ip').drop 96).take (j - 96) = ((bits ip).drop 96).take (j - 96) := share_drop hs (by omega)
        have fin : ∀ n', v4fixup ip' = (n', 96) → target (.v6 ip') = List.replicate 96 false ++ bits32 n' →
            (bits32 n').take (j - 96) = (bits32 n).take (j - 96) → lookupInner t (.v6 ip') = .ok (d, m) := by
          intro n' hf' e' hb32
          have hlook' : look T (target (.v6 ip')) = some (d, j) := by
            refine look_share hlook ?_ (by rw [target_length ha, target_length hb])
            rw [e', e]; exact share_zeros hb32
          obtain ⟨m', g1, g2⟩ := lookupInner_ok h hb hlook' hd
          simp only [hf'] at g2
          rw [if_neg (by simp)] at g2
          rw [g1, g2, hm2]
        rcases hk with ⟨a, ham, hap, hb32⟩ | ⟨hap, hnot, hb32⟩
        · have hap' := (hsame a (take3_areas ham)).mp hap
          rcases v4fixup_ok hb with ⟨_, _, hn⟩ | ⟨n', hf', e', hk'⟩ | ⟨n', _, _, hk', _⟩
          · exact absurd hap' (hn a (take3_areas ham))
          · rcases hk' with ⟨_, _, _, hb32'⟩ | ⟨_, hno, _⟩
            · exact fin n' hf' e' (by rw [hb32', hb32]; exact hdrop)
            · exact absurd hap' (hno a ham)
          · have := area_one sixto4_mem (take3_areas ham) hk' hap'
            exact absurd (this ▸ ham) sixto4_notin
        · have hap' := (hsame _ teredo_mem).mp hap
          rcases v4fixup_ok hb with ⟨_, _, hn⟩ | ⟨n', hf', e', hk'⟩ | ⟨n', _, _, hk', _⟩
          · exact absurd hap' (hn _ teredo_mem)
          · rcases hk' with ⟨a, ham, hap2, _⟩ | ⟨_, _, hb32'⟩
            · have := area_one teredo_mem (take3_areas ham) hap' hap2
              exact absurd (this ▸ ham) teredo_notin
            · refine fin n' hf' e' ?_
              rw [hb32', hb32, ← List.map_take, ← List.map_take, hdrop]
          · exact absurd (area_one teredo_mem sixto4_mem hap' hk') teredo_ne
    · -- 6to4
      rw [hf, if_neg (by simp)] at hm2
      have hm16 : 16 ≤ m := by omega
      refine ⟨by show m ≤ (bits ip).length; omega, ?_⟩
      intro b hb hfam hs
      cases b with
      | v4 n => exact hfam.elim
      | v6 ip' =>
        have hs : (bits ip').take m = (bits ip).take m := hs
        have hap' : bits [0x20,0x02] <+: bits ip' := share_prefix hs (by rw [bits_length]; exact hm16) hk
        have hdrop : (((bits ip').drop 16).take 32).take (j - 96) = (((bits ip).drop 16).take 32).take (j - 96) := by
          rw [List.take_take, List.take_take]
          exact share_drop hs (by omega)
        rcases v4fixup_ok hb with ⟨_, _, hn⟩ | ⟨n', hf', e', hk'⟩ | ⟨n', hf', e', _, hb32'⟩
        · exact absurd hap' (hn _ sixto4_mem)
        · rcases hk' with ⟨a, ham, hap2, _⟩ | ⟨hap2, _⟩
          · have := area_one sixto4_mem (take3_areas ham) hap' hap2
            exact absurd (this ▸ ham) sixto4_notin
          · exact absurd (area_one teredo_mem sixto4_mem hap2 hap') teredo_ne
        · have hlook' : look T (target (.v6 ip')) = some (d, j) := by
            refine look_share hlook ?_ (by rw [target_length ha, target_length hb])
            rw [e', e]; exact share_zeros (by rw [hb32', hb32]; exact hdrop)
          obtain ⟨m', g1, g2⟩ := lookupInner_ok h hb hlook' hd
          simp only [hf'] at g2
          rw [if_neg (by simp)] at g2
          rw [g1, g2, hm2]

/-- Trees of lists in which the five areas are masked out. -/
theorem complete_of {T : Trie} {l : List Net} (hA : Answers [] 0 l T 128) (hc : Conf (l.map toP))
    (h1 : ∀ x : List Bool, x.length = 128 → ∀ a ∈ areas, a <+: x → Answer (l.map toP) 0 x UNDEF)
    (h2 : ∀ x : List Bool, x.length = 128 → (∀ a ∈ areas, ¬ a <+: x) → ∀ d, Answer (l.map toP) 0 x d → d < 2147483647) :
    Complete T := by
  constructor
  · intro a ha
    obtain ⟨d, j, g1, g2⟩ := hA (target a) (target_length ha)
    exact ⟨d, j, g1, h2 _ (target_length ha) (target_not_area ha) d g2⟩
  · intro x hx a ham hax
    obtain ⟨d, j, g1, g2⟩ := hA x hx
    rw [List.nil_append] at g2
    rw [answer_unique hc g2 (h1 x hx a ham hax)] at g1
    exact ⟨j, g1⟩

/-- Configured networks and the masked areas. -/
theorem areas_answer {P : List Pfx} (hP : ∀ q ∈ P, ∀ a ∈ areas, ¬ a <+: q.1) {x : List Bool} :
    (∀ a ∈ areas, a <+: x → Answer (P ++ areaNets) 0 x UNDEF) ∧
    ((∀ a ∈ areas, ¬ a <+: x) → ∀ z d, Answer (P ++ areaNets) z x d ↔ Answer P z x d) := by
  constructor
  · intro a ham hax
    refine Or.inl ⟨(a, UNDEF), ⟨List.mem_append.mpr (Or.inr (List.mem_map.mpr ⟨a, ham, rfl⟩)), hax, ?_⟩, rfl⟩
    intro q hq hqx
    refine Nat.le_of_not_lt fun hlt => ?_
    have hlt : a.length < q.1.length := hlt
    have haq : a <+: q.1 := List.prefix_of_prefix_length_le hax hqx (by omega)
    rcases List.mem_append.mp hq with hq | hq
    · exact hP q hq a ham haq
    · obtain ⟨b, hb, rfl⟩ := List.mem_map.mp hq
      have : a = b := area_comparable a ham b hb (Or.inl haq)
      subst this
      exact Nat.lt_irrefl _ hlt
  · intro hno z d
    refine answer_congr fun q hqx => ⟨fun hq => ?_, fun hq => List.mem_append.mpr (Or.inl hq)⟩
    rcases List.mem_append.mp hq with hq | hq
    · exact hq
    · obtain ⟨b, hb, rfl⟩ := List.mem_map.mp hq
      exact absurd hqx (hno b hb)

theorem answer_small {P : List Pfx} (hP : ∀ q ∈ P, q.2 < 2147483647) {x : List Bool} {d : Nat} (h : Answer P 0 x d) :
    d < 2147483647 := by
  rcases h with ⟨p, hp, rfl⟩ | ⟨_, rfl⟩
  · exact hP p hp.1
  · omega

/-- The tree of the configured networks alone. -/
theorem nets_tree {sort : List Net → List Net} (hs : SortOk sort) {es : List Entry} (hwf : ∀ e ∈ es, e.Wf)
    (hleg : ∀ e ∈ es, e.Legal) (hc : Consistent es) (hh : NoneHidden es) :
    ∃ l, netsMakeList sort es = .ok (some l) ∧ Res (xlate l) (fun t => ∃ T, TreeFor t T ∧ Complete T ∧
        ∀ a : Addr, a.Wf → ∃ d j, look T (target a) = some (d, j) ∧ Answer (es.map Entry.pfx) 0 (target a) d)
      (16777216 < 1 + 127 * (es.length + 5)) := by
  obtain ⟨l, h1, h2, h3, h4⟩ := netsMakeList_ok hs hwf hleg hc hh
  have hP : ∀ q ∈ es.map Entry.pfx, ∀ a ∈ areas, ¬ a <+: q.1 := by
    intro q hq a ha
    obtain ⟨e, he, rfl⟩ := List.mem_map.mp hq
    exact legal_area (hleg e he) a ha
  have hsm : ∀ q ∈ es.map Entry.pfx, q.2 < 2147483647 := by
    intro q hq
    obtain ⟨e, he, rfl⟩ := List.mem_map.mp hq
    have := hwf e he
    cases e with
    | v6 ip m d => exact this.2
    | v4 ip m d => exact this.2
  refine ⟨l, h1, ?_⟩
  have hx := xlate_ok h2.rest
  cases hr : xlate l with
  | ub =>
    rw [hr] at hx
    have hx : 16777216 < 1 + 127 * l.length := hx
    show 16777216 < _
    omega
  | ok t =>
    rw [hr] at hx
    obtain ⟨T, hT, hA⟩ := hx
    have hout : ∀ x : List Bool, x.length = 128 → (∀ a ∈ areas, ¬ a <+: x) → ∀ d, Answer (l.map toP) 0 x d →
        Answer (es.map Entry.pfx) 0 x d := fun x hx hno d hd => ((areas_answer hP).2 hno 0 d).mp ((h3 0 x d hx).mpr hd)
    refine ⟨T, hT, complete_of hA h2.inv.conf ?_ ?_, ?_⟩
    · exact fun x hx a ha hax => (h3 0 x UNDEF hx).mp ((areas_answer hP).1 a ha hax)
    · exact fun x hx hno d hd => answer_small hsm (hout x hx hno d hd)
    · intro a ha
      obtain ⟨d, j, g1, g2⟩ := hA (target a) (target_length ha)
      exact ⟨d, j, g1, hout _ (target_length ha) (target_not_area ha) d g2⟩

end Gdnsd.Geo
