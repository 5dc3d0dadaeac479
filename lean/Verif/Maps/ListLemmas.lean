/-
Storing lists: indices stay valid and strings stay in place.
-/
import Verif.Maps.Spec
import Verif.Geo.WeakLemmas
import Verif.Geo.Props
namespace Gdnsd.Maps
open Gdnsd.Geo

/-- All strings of a list are there. -/
def Alive (strs : Strs) (list : List Nat) : Prop := ∀ i ∈ list, ∃ b, strs[i]? = some (some b)

/-- `strs'` and `list'` are what `strs` and `list` became by adding the lists `add`. -/
structure Ext (strs : Strs) (list : List Nat) (add : List Bytes) (strs' : Strs) (list' : List Nat) : Prop where
  eqs : strs' = strs ++ add.map some
  eql : list' = list ++ List.range' strs.length add.length
  len : list'.length ≤ LIST_MAX + 1

theorem getElem?_prefix {α : Type} {l l' : List α} (h : l <+: l') {i : Nat} {a : α} (hi : l[i]? = some a) : l'[i]? = some a := by
  obtain ⟨t, rfl⟩ := h
  obtain ⟨hl, _⟩ := List.getElem?_eq_some_iff.mp hi
  rw [List.getElem?_append_left hl]; exact hi

theorem alive_mono {strs strs' : Strs} {list : List Nat} (h : strs <+: strs') (ha : Alive strs list) : Alive strs' list := by
  intro i hi
  obtain ⟨b, hb⟩ := ha i hi
  exact ⟨b, getElem?_prefix h hb⟩

theorem conts_mono {strs strs' : Strs} {list : List Nat} (h : strs <+: strs') (ha : Alive strs list) : conts strs' list = conts strs list := by
  unfold conts
  apply List.map_congr_left
  intro i hi
  obtain ⟨b, hb⟩ := ha i hi
  rw [hb, getElem?_prefix h hb]

theorem conts_get {strs : Strs} {list : List Nat} (ha : Alive strs list) {d : Nat} {e : Bytes} (h : (conts strs list)[d]? = some e) :
    ∃ i, list[d]? = some i ∧ strs[i]? = some (some e) := by
  unfold conts at h
  rw [List.getElem?_map] at h
  cases hd : list[d]? with
  | none => rw [hd] at h; cases h
  | some i =>
    rw [hd] at h
    obtain ⟨b, hb⟩ := ha i (List.mem_of_getElem? hd)
    simp only [Option.map_some, hb, Option.join_some, Option.getD_some, Option.some.injEq] at h
    exact ⟨i, rfl, by rw [hb, h]⟩

theorem conts_append (strs : Strs) (a b : List Nat) : conts strs (a ++ b) = conts strs a ++ conts strs b := by
  simp [conts]

theorem conts_length (strs : Strs) (a : List Nat) : (conts strs a).length = a.length := by simp [conts]

theorem conts_new (add : List Bytes) : ∀ strs : Strs, conts (strs ++ add.map some) (List.range' strs.length add.length) = add ∧
    Alive (strs ++ add.map some) (List.range' strs.length add.length) := by
  induction add with
  | nil => intro strs; exact ⟨rfl, by intro i hi; cases hi⟩
  | cons c add ih =>
    intro strs
    obtain ⟨h1, h2⟩ := ih (strs ++ [some c])
    have e : strs ++ (c :: add).map some = strs ++ [some c] ++ add.map some := by simp
    have e2 : List.range' strs.length (c :: add).length = strs.length :: List.range' (strs ++ [some c]).length add.length := by
      simp [List.range'_succ]
    have hc : (strs ++ [some c] ++ add.map some)[strs.length]? = some (some c) := by simp
    rw [e, e2]
    constructor
    · show ((strs ++ [some c] ++ add.map some)[strs.length]?.join).getD [] :: conts _ _ = _
      rw [h1, hc]; rfl
    · intro i hi
      rcases List.mem_cons.mp hi with rfl | hi
      · exact ⟨c, hc⟩
      · exact h2 i hi

theorem Ext.alive {strs list add strs' list'} (h : Ext strs list add strs' list') (ha : Alive strs list) : Alive strs' list' := by
  rw [h.eqs, h.eql]
  intro i hi
  rcases List.mem_append.mp hi with hi | hi
  · exact alive_mono (List.prefix_append _ _) ha i hi
  · exact (conts_new add strs).2 i hi

theorem Ext.conts {strs list add strs' list'} (h : Ext strs list add strs' list') (ha : Alive strs list) :
    conts strs' list' = Maps.conts strs list ++ add := by
  rw [h.eqs, h.eql, conts_append, (conts_new add strs).1, conts_mono (List.prefix_append _ _) ha]

theorem Ext.pre {strs list add strs' list'} (h : Ext strs list add strs' list') : strs <+: strs' := by
  rw [h.eqs]; exact List.prefix_append _ _

theorem Ext.lpre {strs list add strs' list'} (h : Ext strs list add strs' list') : list <+: list' := by
  rw [h.eql]; exact List.prefix_append _ _

theorem Ext.refl {strs : Strs} {list : List Nat} (h : list.length ≤ LIST_MAX + 1) : Ext strs list [] strs list :=
  ⟨by simp, by simp, h⟩

theorem Ext.trans {strs list a strs' list' b strs'' list''} (h : Ext strs list a strs' list') (h' : Ext strs' list' b strs'' list'') :
    Ext strs list (a ++ b) strs'' list'' := by
  refine ⟨by rw [h'.eqs, h.eqs]; simp, ?_, h'.len⟩
  rw [h'.eql, h.eql, List.append_assoc, h.eqs]
  congr 1
  simp only [List.length_append, List.length_map]
  exact List.range'_append_1

theorem find_ok {strs : Strs} {c : Bytes} : ∀ (list : List Nat) (k : Nat), Alive strs list →
    ∃ o, find strs c list k = .ok o ∧ ∀ i, o = some i → k ≤ i ∧ (conts strs list)[i - k]? = some c := by
  intro list
  induction list with
  | nil => intro k _; exact ⟨none, rfl, by simp⟩
  | cons s list ih =>
    intro k ha
    obtain ⟨b, hb⟩ := ha s (by simp)
    have hs : str strs s = .ok b := by unfold str; rw [hb]
    rw [find, hs, Outcome.bind_ok]
    by_cases h : b = c
    · rw [if_pos h]
      refine ⟨_, rfl, ?_⟩
      intro i hi
      obtain rfl := Option.some.inj hi
      refine ⟨Nat.le_refl _, ?_⟩
      rw [Nat.sub_self]
      show some ((strs[s]?.join).getD []) = _
      rw [hb, ← h]; rfl
    · rw [if_neg h]
      obtain ⟨o, h1, h2⟩ := ih (k + 1) fun i hi => ha i (by simp [hi])
      refine ⟨o, h1, ?_⟩
      intro i hi
      obtain ⟨h3, h4⟩ := h2 i hi
      refine ⟨by omega, ?_⟩
      have : i - k = (i - (k + 1)) + 1 := by omega
      rw [this]
      exact h4

theorem findOrAdd_ok {strs : Strs} {list : List Nat} (ha : Alive strs list) (hl : list.length ≤ LIST_MAX + 1) (c : Bytes) :
    findOrAdd strs list c = .ok none ∨ ∃ strs' list' add i, findOrAdd strs list c = .ok (some (strs', list', i)) ∧
      Ext strs list add strs' list' ∧ (conts strs' list')[i]? = some c := by
  obtain ⟨o, h1, h2⟩ := find_ok (c := c) list 0 ha
  unfold findOrAdd
  rw [h1, Outcome.bind_ok]
  cases o with
  | some i => exact Or.inr ⟨strs, list, [], i, rfl, Ext.refl hl, (h2 i rfl).2⟩
  | none =>
    dsimp only
    by_cases h : list.length > LIST_MAX
    · rw [if_pos h]; exact Or.inl rfl
    · rw [if_neg h]
      have he : Ext strs list [c] (strs ++ [some c]) (list ++ [strs.length]) := ⟨rfl, rfl, by simp; omega⟩
      refine Or.inr ⟨_, _, [c], _, rfl, he, ?_⟩
      rw [he.conts ha, List.getElem?_append_right (by rw [conts_length]; exact Nat.le_refl _), conts_length, Nat.sub_self]
      rfl

theorem addAll_ok (cs : List Bytes) : ∀ {strs : Strs} {list : List Nat}, Alive strs list → list.length ≤ LIST_MAX + 1 →
    addAll strs list cs = .ok none ∨ ∃ strs' list' add idx, addAll strs list cs = .ok (some (strs', list', idx)) ∧
      Ext strs list add strs' list' ∧ idx.length = cs.length ∧
      ∀ (k : Nat) (c : Bytes), cs[k]? = some c → ∃ i : Nat, idx[k]? = some i ∧ (conts strs' list')[i]? = some c := by
  induction cs with
  | nil => intro strs list ha hl; exact Or.inr ⟨strs, list, [], [], rfl, Ext.refl hl, rfl, by simp⟩
  | cons c cs ih =>
    intro strs list ha hl
    rcases findOrAdd_ok ha hl c with h | ⟨s1, l1, a1, i1, h1, h2, h3⟩
    · left; rw [addAll, h]; rfl
    · rw [addAll, h1, Outcome.bind_ok]
      dsimp only
      have ha1 := h2.alive ha
      rcases ih ha1 h2.len with h | ⟨s2, l2, a2, idx, g1, g2, g3, g4⟩
      · left; rw [h]; rfl
      · right
        refine ⟨s2, l2, a1 ++ a2, i1 :: idx, by rw [g1]; rfl, h2.trans g2, by simp [g3], ?_⟩
        intro k c' hk
        cases k with
        | zero =>
          simp only [List.getElem?_cons_zero, Option.some.injEq] at hk
          subst hk
          exact ⟨i1, rfl, by rw [g2.conts ha1]; exact getElem?_prefix (List.prefix_append _ _) h3⟩
        | succ k => exact g4 k c' hk

theorem killNew_ok (add : List Bytes) : ∀ strs : Strs,
    killNew (strs ++ add.map some) (List.range' strs.length add.length) = .ok (strs ++ List.replicate add.length none) := by
  induction add with
  | nil => intro strs; simp [killNew]
  | cons c add ih =>
    intro strs
    rw [List.length_cons, List.range'_succ, killNew]
    have hs : str (strs ++ (c :: add).map some) strs.length = .ok c := by simp [str]
    rw [hs, Outcome.bind_ok]
    have e : (strs ++ (c :: add).map some).set strs.length none = (strs ++ [none]) ++ add.map some := by
      rw [List.set_append_right _ _ (Nat.le_refl _)]
      simp
    have := ih (strs ++ [none])
    rw [e]
    simp only [List.length_append, List.length_singleton] at this
    rw [this]
    simp [List.replicate_succ]

/-! ### What is loaded -/

/-- The index of a list cannot be mistaken for anything else. -/
theorem idx_small {LC : List Bytes} (h : LC.length ≤ LIST_MAX + 1) {i : Nat} {e : Bytes} (hi : LC[i]? = some e) : i < 2147483647 := by
  have := (List.getElem?_eq_some_iff.mp hi).1
  unfold LIST_MAX at h
  omega

/-- Networks as loaded, with the lists `LC`. -/
def NetsOk (sort : List Net → List Net) (LC : List Bytes) (cfg : List NetCfg) (l : List Net) : Prop :=
  (∀ n ∈ cfg, n.Wf ∧ (n.entry 0).Legal) ∧ ∃ idx : List Nat, idx.length = cfg.length ∧
    (∀ (k : Nat) (n : NetCfg), cfg[k]? = some n → ∃ i : Nat, idx[k]? = some i ∧ LC[i]? = some n.dcs) ∧
    netsMakeList sort (List.zipWith NetCfg.entry idx cfg) = .ok (some l)

/-- A database as loaded, with the lists `LC`. -/
def GeoOk (sort : List Net → List Net) (LC : List Bytes) (dflt : Bytes) (maps : List Bytes) (g : GeoCfg) (l : List Net) : Prop :=
  ∃ f : Nat → Nat, (∀ off, LC[f off]? = some (contOf dflt maps (g.src.lookup off))) ∧ geoList sort ⟨g.read, f⟩ g.isV4 = .ok (some l)

theorem NetsOk.mono {sort LC LC' cfg l} (h : NetsOk sort LC cfg l) (hp : LC <+: LC') : NetsOk sort LC' cfg l := by
  obtain ⟨h1, idx, h2, h3, h4⟩ := h
  refine ⟨h1, idx, h2, fun k n hk => ?_, h4⟩
  obtain ⟨i, hi, hL⟩ := h3 k n hk
  exact ⟨i, hi, getElem?_prefix hp hL⟩

theorem GeoOk.mono {sort LC LC' dflt maps g l} (h : GeoOk sort LC dflt maps g l) (hp : LC <+: LC') : GeoOk sort LC' dflt maps g l := by
  obtain ⟨f, h1, h2⟩ := h
  exact ⟨f, fun off => getElem?_prefix hp (h1 off), h2⟩

theorem entry_wf {n : NetCfg} {i : Nat} (h : n.Wf) (hi : i < 2147483647) : (n.entry i).Wf := by
  cases n with
  | v4 ip m d => exact ⟨h.1, hi⟩
  | v6 ip m d => exact ⟨h.1, hi⟩

theorem entry_legal {n : NetCfg} {i : Nat} : (n.entry i).Legal ↔ (n.entry 0).Legal := by
  cases n <;> exact Iff.rfl

theorem entry_bits {n : NetCfg} {i : Nat} : (n.entry i).pfx = (n.bits, i) := by
  cases n <;> rfl

/-- The entries with their indices. -/
theorem zip_mem {idx : List Nat} : ∀ {cfg : List NetCfg}, idx.length = cfg.length → ∀ e,
    (e ∈ List.zipWith NetCfg.entry idx cfg ↔ ∃ (k i : Nat) (n : NetCfg), idx[k]? = some i ∧ cfg[k]? = some n ∧ e = n.entry i) := by
  induction idx with
  | nil =>
    intro cfg h e
    simp
  | cons i idx ih =>
    intro cfg h e
    cases cfg with
    | nil => simp at h
    | cons n cfg =>
      rw [List.zipWith_cons_cons, List.mem_cons, ih (by simpa using h)]
      constructor
      · rintro (rfl | ⟨k, j, m, h1, h2, h3⟩)
        · exact ⟨0, i, n, rfl, rfl, rfl⟩
        · exact ⟨k + 1, j, m, h1, h2, h3⟩
      · rintro ⟨k, j, m, h1, h2, h3⟩
        cases k with
        | zero =>
          simp only [List.getElem?_cons_zero, Option.some.injEq] at h1 h2
          left; rw [h3, h1, h2]
        | succ k => exact Or.inr ⟨k, j, m, h1, h2, h3⟩

theorem passes_legal {n : NetCfg} (h : n.Wf) : n.passes = true ↔ (n.entry 0).Legal := by
  cases n with
  | v4 ip m d =>
    show (!decide (128 < m + 96)) = true ↔ m ≤ 32
    rw [Bool.not_eq_true', decide_eq_false_iff_not]
    omega
  | v6 ip m d =>
    show (!decide (128 < m) && !v4Issues ip m) = true ↔ m ≤ 128 ∧ ∀ a ∈ areas, ¬ a <+: (bits ip).take m
    rw [Bool.and_eq_true, Bool.not_eq_true', Bool.not_eq_true', decide_eq_false_iff_not, ← Bool.not_eq_true, v4Issues_eq h.1]
    constructor
    · rintro ⟨h1, h2⟩
      exact ⟨by omega, fun a ha hp => h2 ⟨a, ha, hp⟩⟩
    · rintro ⟨h1, h2⟩
      exact ⟨by omega, fun ⟨a, ha, hp⟩ => h2 a ha hp⟩

theorem takeWhile_all {α : Type} {p : α → Bool} : ∀ {l : List α}, (∀ a ∈ l, p a = true) → l.takeWhile p = l := by
  intro l
  induction l with
  | nil => intro _; rfl
  | cons a l ih =>
    intro h
    rw [List.takeWhile_cons, h a (by simp), if_pos rfl, ih fun b hb => h b (by simp [hb])]

/-- `loadNets` never fails badly, and what it loads means what was configured. -/
theorem loadNets_ok {sort : List Net → List Net} (hs : SortOk sort) {cfg : List NetCfg} (hw : ∀ n ∈ cfg, n.Wf) {strs : Strs} {list : List Nat}
    (ha : Alive strs list) (hl : list.length ≤ LIST_MAX + 1) :
    loadNets sort cfg strs list = .ok none ∨ ∃ strs' list' add o, loadNets sort cfg strs list = .ok (some (strs', list', o)) ∧
      Ext strs list add strs' list' ∧ ∀ l, o = some l → NetsOk sort (conts strs' list') cfg l := by
  unfold loadNets
  rcases addAll_ok ((cfg.takeWhile NetCfg.passes).map NetCfg.dcs) ha hl with h | ⟨s1, l1, add, idx, h1, h2, h3, h4⟩
  · left; rw [h]; rfl
  right
  rw [h1, Outcome.bind_ok]
  dsimp only
  rw [List.length_map] at h3
  have htl : (cfg.takeWhile NetCfg.passes).length ≤ cfg.length := (List.takeWhile_prefix _).length_le
  have hpad : (idx ++ List.replicate (cfg.length - idx.length) 0).length = cfg.length := by simp; omega
  have hclen : (conts s1 l1).length ≤ LIST_MAX + 1 := by rw [conts_length]; exact h2.len
  have hsmall : ∀ (k i : Nat), (idx ++ List.replicate (cfg.length - idx.length) 0)[k]? = some i → i < 2147483647 := by
    intro k i hk
    rcases List.mem_append.mp (List.mem_of_getElem? hk) with hm | hm
    · obtain ⟨j, hj⟩ := List.getElem?_of_mem hm
      have hjl : j < idx.length := (List.getElem?_eq_some_iff.mp hj).1
      have hjc : j < ((cfg.takeWhile NetCfg.passes).map NetCfg.dcs).length := by rw [List.length_map]; omega
      obtain ⟨i', e1, e2⟩ := h4 j _ (List.getElem?_eq_getElem hjc)
      rw [hj] at e1
      obtain rfl := Option.some.inj e1
      exact idx_small hclen e2
    · rw [(List.mem_replicate.mp hm).2]; omega
  have hwf : ∀ e ∈ List.zipWith NetCfg.entry (idx ++ List.replicate (cfg.length - idx.length) 0) cfg, e.Wf := by
    intro e he
    obtain ⟨k, i, n, e1, e2, rfl⟩ := (zip_mem hpad e).mp he
    exact entry_wf (hw n (List.mem_of_getElem? e2)) (hsmall k i e1)
  by_cases hleg : ∀ n ∈ cfg, (n.entry 0).Legal
  · have htw : cfg.takeWhile NetCfg.passes = cfg := by
      exact takeWhile_all fun n hn => (passes_legal (hw n hn)).mpr (hleg n hn)
    rw [htw] at h3 h4
    have hlen : cfg.length - idx.length = 0 := by omega
    rw [hlen, List.replicate_zero, List.append_nil] at hwf ⊢
    obtain ⟨l, g1, _⟩ := netsMakeList_weak hs hwf (by
      intro e he
      obtain ⟨k, i, n, e1, e2, rfl⟩ := (zip_mem h3 e).mp he
      exact entry_legal.mpr (hleg n (List.mem_of_getElem? e2)))
    refine ⟨s1, l1, add, some l, by rw [g1]; rfl, h2, ?_⟩
    intro l' hl'
    obtain rfl := Option.some.inj hl'
    refine ⟨fun n hn => ⟨hw n hn, hleg n hn⟩, idx, h3, ?_, g1⟩
    intro k n hk
    exact h4 k n.dcs (by rw [List.getElem?_map, hk]; rfl)
  · have hbad : ∃ e ∈ List.zipWith NetCfg.entry (idx ++ List.replicate (cfg.length - idx.length) 0) cfg, ¬ e.Legal := by
      apply Classical.byContradiction
      intro hno
      apply hleg
      intro n hn
      apply Classical.byContradiction
      intro hnl
      obtain ⟨k, hk⟩ := List.getElem?_of_mem hn
      have hkl : k < cfg.length := (List.getElem?_eq_some_iff.mp hk).1
      have hki := List.getElem?_eq_getElem (l := idx ++ List.replicate (cfg.length - idx.length) 0) (i := k) (by omega)
      exact hno ⟨_, (zip_mem hpad _).mpr ⟨k, _, n, hki, hk, rfl⟩, fun h => hnl (entry_legal.mp h)⟩
    exact ⟨s1, l1, add, none, by rw [C32_refused hwf hbad]; rfl, h2, by simp⟩

/-- The lists of the configuration are where the map expects them. -/
def MapsOk (LC : List Bytes) (dflt : Bytes) (maps : List Bytes) (dcmap : List Nat) : Prop :=
  LC[0]? = some dflt ∧ dcmap.length = maps.length ∧ ∀ (k : Nat) (c : Bytes), maps[k]? = some c → ∃ i : Nat, dcmap[k]? = some i ∧ LC[i]? = some c

theorem MapsOk.mono {LC LC' dflt maps dcmap} (h : MapsOk LC dflt maps dcmap) (hp : LC <+: LC') : MapsOk LC' dflt maps dcmap := by
  obtain ⟨h1, h2, h3⟩ := h
  refine ⟨getElem?_prefix hp h1, h2, fun k c hk => ?_⟩
  obtain ⟨i, hi, hL⟩ := h3 k c hk
  exact ⟨i, hi, getElem?_prefix hp hL⟩

theorem findIdx_get {LC : List Bytes} {l : Bytes} (h : l ∈ LC) : ∃ i, LC.findIdx? (· == l) = some i ∧ LC[i]? = some l := by
  cases hf : LC.findIdx? (· == l) with
  | none =>
    rw [List.findIdx?_eq_none_iff] at hf
    have := hf l h
    simp at this
  | some i =>
    rw [List.findIdx?_eq_some_iff_getElem] at hf
    obtain ⟨hi, he, _⟩ := hf
    exact ⟨i, rfl, by rw [List.getElem?_eq_getElem hi]; simpa using he⟩

theorem lookup_mem {l : List (Nat × Src)} {off : Nat} {s : Src} (h : l.lookup off = some s) : ∃ o, (o, s) ∈ l := by
  induction l with
  | nil => cases h
  | cons p l ih =>
    obtain ⟨o, s'⟩ := p
    rw [List.lookup_cons] at h
    by_cases hb : (off == o) = true
    · rw [hb] at h
      have h : some s' = some s := h
      rw [Option.some.inj h]
      exact ⟨o, List.mem_cons_self⟩
    · rw [Bool.not_eq_true] at hb
      rw [hb] at h
      obtain ⟨o', ho⟩ := ih h
      exact ⟨o', List.mem_cons_of_mem _ ho⟩

theorem recIdx_ok {LC dflt maps dcmap} (h : MapsOk LC dflt maps dcmap) {g : GeoCfg} (hg : ∀ l ∈ g.src.filterMap autoOf, l ∈ LC) (off : Nat) :
    LC[recIdx dcmap LC (g.src.lookup off)]? = some (contOf dflt maps (g.src.lookup off)) := by
  obtain ⟨h1, h2, h3⟩ := h
  cases hl : g.src.lookup off with
  | none => exact h1
  | some s =>
    cases s with
    | fixed k =>
      show LC[dcmap[k]?.getD 0]? = some (maps[k]?.getD dflt)
      cases hk : maps[k]? with
      | none =>
        have : dcmap[k]? = none := by
          rw [List.getElem?_eq_none_iff] at hk ⊢
          omega
        rw [this]; exact h1
      | some c =>
        obtain ⟨i, e1, e2⟩ := h3 k c hk
        rw [e1]; exact e2
    | near l =>
      obtain ⟨o, ho⟩ := lookup_mem hl
      obtain ⟨i, e1, e2⟩ := findIdx_get (hg l (List.mem_filterMap.mpr ⟨_, ho, rfl⟩))
      show LC[(LC.findIdx? (· == l)).getD 0]? = some l
      rw [e1]; exact e2

theorem loadGeo_ok {sort : List Net → List Net} (hs : SortOk sort) {dflt maps dcmap} (g : GeoCfg) {strs : Strs} {list : List Nat}
    (ha : Alive strs list) (hl : list.length ≤ LIST_MAX + 1) (hm : MapsOk (conts strs list) dflt maps dcmap) :
    loadGeo sort dcmap g strs list = .ok none ∨ ∃ strs' list' add o, loadGeo sort dcmap g strs list = .ok (some (strs', list', o)) ∧
      Ext strs list add strs' list' ∧ ∀ l, o = some l → GeoOk sort (conts strs' list') dflt maps g l := by
  unfold loadGeo
  rcases addAll_ok (g.src.filterMap autoOf) ha hl with h | ⟨s1, l1, add, idx, h1, h2, h3, h4⟩
  · left; rw [h]; rfl
  right
  rw [h1, Outcome.bind_ok]
  dsimp only
  have hm' : MapsOk (conts s1 l1) dflt maps dcmap := hm.mono (by rw [h2.conts ha]; exact List.prefix_append _ _)
  have hclen : (conts s1 l1).length ≤ LIST_MAX + 1 := by rw [conts_length]; exact h2.len
  have hrec := recIdx_ok hm' (g := g) (by
    intro l hl
    obtain ⟨k, hk⟩ := List.getElem?_of_mem hl
    obtain ⟨i, _, e2⟩ := h4 k l hk
    exact List.mem_of_getElem? e2)
  obtain ⟨o, ho⟩ := (C34_database_loads hs (db := ⟨g.read, fun off => recIdx dcmap (conts s1 l1) (g.src.lookup off)⟩)
    (fun off => idx_small hclen (hrec off)) g.isV4).1
  refine ⟨s1, l1, add, o, by rw [ho]; rfl, h2, ?_⟩
  rintro l rfl
  exact ⟨_, hrec, ho⟩

/-- Records renumbered. -/
theorem dbFollow_map (read : Nat → Option (Rec × Rec)) (f : Nat → Nat) : ∀ (x : List Bool) (rc : Rec),
    dbFollow ⟨read, f⟩ rc x = (dbFollow ⟨read, (· + 1)⟩ rc x).map fun r => match r with | 0 => 0 | off + 1 => f off := by
  intro x
  induction x with
  | nil =>
    intro rc
    cases rc <;> simp [dbFollow]
  | cons b x ih =>
    intro rc
    cases rc with
    | node n =>
      simp only [dbFollow]
      cases read n with
      | none => rfl
      | some r => exact ih _
    | empty => simp [dbFollow]
    | data off => simp [dbFollow]
    | bad => simp [dbFollow]

/-- A tree made of what was loaded answers as configured. -/
theorem made_ok {sort : List Net → List Net} (hs : SortOk sort) {LC dflt maps cfg nets} (hlen : LC.length ≤ LIST_MAX + 1) (h0 : LC[0]? = some dflt)
    (hn : NetsOk sort LC cfg nets) {geo : Option (List Net)} {geoCfg : Option GeoCfg}
    (hg : match geo, geoCfg with | none, none => True | some a, some g => GeoOk sort LC dflt maps g a | _, _ => False) (ign : Bool) :
    match mkTree sort geo nets with
    | .ub => 132000 < nets.length + (geo.elim 0 List.length)
    | .ok T => ∀ c : Client, (c.addr ign).Wf → ∃ d m e, lookup T c ign = .ok (d, m) ∧ LC[d]? = some e ∧ d ≤ LIST_MAX ∧
        (Made.Answer ⟨LC, cfg, geoCfg⟩ dflt maps (target (c.addr ign)) e) := by
  obtain ⟨h1, idx, h2, h3, h4⟩ := hn
  have hget : ∀ (k i : Nat) (n : NetCfg), idx[k]? = some i → cfg[k]? = some n → LC[i]? = some n.dcs := by
    intro k i n e1 e2
    obtain ⟨i', e3, e4⟩ := h3 k n e2
    rw [e1] at e3
    rw [Option.some.inj e3]; exact e4
  have hwf : ∀ e ∈ List.zipWith NetCfg.entry idx cfg, e.Wf := by
    intro e he
    obtain ⟨k, i, n, e1, e2, rfl⟩ := (zip_mem h2 e).mp he
    exact entry_wf (h1 n (List.mem_of_getElem? e2)).1 (idx_small hlen (hget k i n e1 e2))
  have hleg : ∀ e ∈ List.zipWith NetCfg.entry idx cfg, e.Legal := by
    intro e he
    obtain ⟨k, i, n, e1, e2, rfl⟩ := (zip_mem h2 e).mp he
    exact entry_legal.mpr (h1 n (List.mem_of_getElem? e2)).2
  have hcov : ∀ x : List Bool, (∃ e ∈ List.zipWith NetCfg.entry idx cfg, e.pfx.1 <+: x) ↔ ∃ n ∈ cfg, n.bits <+: x := by
    intro x
    constructor
    · rintro ⟨e, he, hx⟩
      obtain ⟨k, i, n, e1, e2, rfl⟩ := (zip_mem h2 e).mp he
      rw [entry_bits] at hx
      exact ⟨n, List.mem_of_getElem? e2, hx⟩
    · rintro ⟨n, hn, hx⟩
      obtain ⟨k, hk⟩ := List.getElem?_of_mem hn
      obtain ⟨i, e1, _⟩ := h3 k n hk
      exact ⟨n.entry i, (zip_mem h2 _).mpr ⟨k, i, n, e1, hk, rfl⟩, by rw [entry_bits]; exact hx⟩
  have hcand : ∀ x d, Candidate (List.zipWith NetCfg.entry idx cfg) x d → ∃ e, LC[d]? = some e ∧
      ((∃ n ∈ cfg, n.bits <+: x) → ∃ n ∈ cfg, n.bits <+: x ∧ e = n.dcs) ∧ ((∀ n ∈ cfg, ¬ n.bits <+: x) → e = dflt ∧ d = 0) := by
    rintro x d (⟨e, he, hx, rfl⟩ | ⟨hno, rfl⟩)
    · obtain ⟨k, i, n, e1, e2, rfl⟩ := (zip_mem h2 e).mp he
      rw [entry_bits] at hx ⊢
      exact ⟨n.dcs, hget k i n e1 e2, fun _ => ⟨n, List.mem_of_getElem? e2, hx, rfl⟩, fun h => absurd hx (h n (List.mem_of_getElem? e2))⟩
    · refine ⟨dflt, h0, fun h => ?_, fun _ => ⟨rfl, rfl⟩⟩
      obtain ⟨e, he, hx⟩ := (hcov x).mpr h
      exact absurd hx (hno e he)
  have hmax : ∀ d e, LC[d]? = some e → d ≤ LIST_MAX := by
    intro d e hd
    have := idx_small hlen hd
    unfold LIST_MAX; omega
  obtain ⟨l, k1, k2, k3⟩ := C32_contains hs hwf hleg
  rw [h4] at k1
  obtain rfl := Option.some.inj (Outcome.ok.inj k1)
  obtain ⟨nets', w1, w2, w3, w4, w5⟩ := netsMakeList_weak hs hwf hleg
  rw [h4] at w1
  obtain rfl := Option.some.inj (Outcome.ok.inj w1)
  cases geo with
  | none =>
    cases geoCfg with
    | some g => exact hg.elim
    | none =>
      unfold mkTree; dsimp only
      cases hx : xlate nets with
      | ub =>
        dsimp only
        refine Nat.lt_of_not_le fun hle => ?_
        have := xlate_ok w2.rest
        rw [hx] at this
        have this : 16777216 < 1 + 127 * nets.length := this
        simp only [Option.elim_none] at hle
        omega
      | ok T =>
        dsimp only
        intro c hw
        obtain ⟨d, m, g1, g2⟩ := k3 T hx c ign hw
        obtain ⟨e, g3, g4, g5⟩ := hcand _ _ g2
        exact ⟨d, m, e, g1, g3, hmax d e g3, g4, fun h => (g5 h).1⟩
  | some a =>
    cases geoCfg with
    | none => exact hg.elim
    | some g =>
      obtain ⟨f, f1, f2⟩ := hg
      obtain ⟨q1, q2⟩ := C34_override hs (fun off => idx_small hlen (f1 off)) hwf hleg f2 h4
      unfold mkTree; dsimp only
      cases hx : merge2tree sort a nets with
      | ub =>
        dsimp only
        refine Nat.lt_of_not_le fun hle => ?_
        obtain ⟨t, ht⟩ := q1 (by simp only [Option.elim_some] at hle; omega)
        rw [hx] at ht; cases ht
      | ok T =>
        dsimp only
        intro c hw
        obtain ⟨d, m, g1, g2, g3⟩ := q2 T hx c ign hw
        by_cases hc : ∃ n ∈ cfg, n.bits <+: target (c.addr ign)
        · obtain ⟨e, g4, g5, _⟩ := hcand _ _ (g2 ((hcov _).mpr hc)).1
          exact ⟨d, m, e, g1, g4, hmax d e g4, g5, fun h => absurd hc fun ⟨n, hn, hx⟩ => h n hn hx⟩
        · have hno : ∀ n ∈ cfg, ¬ n.bits <+: target (c.addr ign) := fun n hn h => hc ⟨n, hn, h⟩
          have hga := g3 fun e he hx => hc ((hcov _).mp ⟨e, he, hx⟩)
          unfold GeoAnswer at hga
          by_cases hr : root g.isV4 <+: target (c.addr ign)
          · rw [if_pos hr, dbFollow_map] at hga
            cases hf : dbFollow ⟨g.read, (· + 1)⟩ (.node 0) ((target (c.addr ign)).drop (root g.isV4).length) with
            | none => rw [hf] at hga; cases hga
            | some r =>
              rw [hf] at hga
              have hga := Option.some.inj hga
              have hsays : ∀ e, e = g.lists dflt maps r →
                  g.Says dflt maps (target (c.addr ign)) e := by
                intro e he
                unfold GeoCfg.Says
                rw [if_pos hr]
                exact ⟨r, hf, he⟩
              cases r with
              | zero => subst hga; exact ⟨0, m, dflt, g1, h0, hmax _ _ h0, fun h => absurd h hc, fun _ => hsays _ rfl⟩
              | succ off => subst hga; exact ⟨f off, m, _, g1, f1 off, hmax _ _ (f1 off), fun h => absurd h hc, fun _ => hsays _ rfl⟩
          · rw [if_neg hr] at hga
            subst hga
            refine ⟨0, m, dflt, g1, h0, hmax _ _ h0, fun h => absurd h hc, fun _ => ?_⟩
            show GeoCfg.Says _ _ _ _ _
            unfold GeoCfg.Says
            rw [if_neg hr]

end Gdnsd.Maps
