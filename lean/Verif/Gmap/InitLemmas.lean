/-
The options of a map.
-/
import Verif.Gmap.Lookup
import Verif.Geo.NetsLemmas
namespace Gdnsd.Gmap
open Vscf VscfSpec Conf ConfSpec SvcSpec GmapSpec
open Res (Dbl)
open Maps (LIST_MAX NetCfg autoLimit)

/-! ### Datacenters -/

theorem dcNames_iff {vs : List Val} {ns : List Bytes} : dcNames vs = some ns ↔ Texts vs ns ∧ nm "auto" ∉ ns := by
  constructor
  · intro h
    induction vs generalizing ns with
    | nil => cases h; exact ⟨.nil, by simp⟩
    | cons v vs ih =>
      match v, h with
      | .hash _, h => cases h
      | .array _, h => cases h
      | .simple r t, h =>
        unfold dcNames at h
        split at h
        · cases h
        · rename_i hne
          obtain ⟨us, h1, rfl⟩ := Option.map_eq_some_iff.mp h
          obtain ⟨h2, h3⟩ := ih h1
          refine ⟨.cons (upToZero_iff.mpr rfl) h2, fun h => ?_⟩
          rcases List.mem_cons.mp h with h | h
          · exact hne h.symm
          · exact h3 h
  · rintro ⟨h, ha⟩
    induction h with
    | nil => rfl
    | @cons r t u vs us hu _ ih =>
      obtain rfl := upToZero_iff.mp hu
      unfold dcNames
      rw [if_neg (fun h => ha (by rw [h]; exact List.mem_cons_self ..)), ih fun h => ha (List.mem_cons_of_mem _ h)]
      rfl

theorem beyond_iff {n : Nat} {d : Dbl} : beyond n d = false ↔ GmapSpec.Within n d := by
  cases d <;> simp [beyond, GmapSpec.Within]

theorem at_iff {lib : Lib} {v : Val} {c : Option (Dbl × Dbl)} : coordsOf lib v = some c ↔ At lib v c := by
  constructor
  · intro h
    unfold coordsOf at h
    split at h
    · rename_i r a s b
      split at h
      · rename_i lat lon h1 h2
        split at h
        · cases h
        · rename_i hb
          rw [Bool.not_eq_true, Bool.or_eq_false_iff, beyond_iff, beyond_iff] at hb
          obtain rfl := Option.some.inj h
          split
          · rename_i hn
            subst hn
            exact .nan rfl h1 h2 hb.2
          · rename_i hn
            exact .here rfl h1 h2 hn hb.1 hb.2
      · cases h
    · cases h
  · intro h
    cases h with
    | here h1 h2 h3 h4 h5 h6 =>
      subst h1
      unfold coordsOf
      simp only [h2, h3, beyond_iff.mpr h5, beyond_iff.mpr h6, Bool.or_false, Bool.false_eq_true, if_false, if_neg h4]
    | nan h1 h2 h3 h4 =>
      subst h1
      unfold coordsOf
      have : beyond 90 .nan = false := rfl
      simp only [h2, h3, this, beyond_iff.mpr h4, Bool.or_false, Bool.false_eq_true, if_false, if_true]

/-- The place of a name. -/
def idx (names : List Bytes) (k : Bytes) : Option Nat := names.findIdx? (· == k)

theorem idx_number {names : List Bytes} {k : Bytes} {i : Nat} : idx names k = some i ↔ NumberOf names k (i + 1) := by
  rw [name2num_iff]
  unfold name2num idx
  cases names.findIdx? (· == k) <;> simp

theorem idx_get {names : List Bytes} {k : Bytes} {i : Nat} (h : idx names k = some i) : names[i]? = some k := by
  obtain ⟨j, h1, h2, _⟩ := idx_number.mp h
  obtain rfl : i = j := by omega
  exact h2

theorem find_dc {dcs : List Dc} {k : Bytes} : (dcs.findIdx? fun d => d.name == k) = idx (dcs.map Dc.name) k := by
  unfold idx
  rw [List.findIdx?_map]
  rfl

theorem modify_names {dcs : List Dc} {i : Nat} {c : Option (Dbl × Dbl)} : (dcs.modify i fun d => { d with coords := c }).map Dc.name = dcs.map Dc.name := by
  induction dcs generalizing i with
  | nil => simp
  | cons d dcs ih =>
    cases i with
    | zero => simp
    | succ i => simp [ih]

theorem initAuto_some {lib : Lib} : ∀ {es : List (Entry Val)} {ds ds' : List Dc}, (es.map (·.key)).Nodup → (∀ e ∈ es, (0 : UInt8) ∉ e.key) → initAuto lib es ds = some ds' →
    ds'.map Dc.name = ds.map Dc.name ∧ (∀ e ∈ es, ∃ i, idx (ds.map Dc.name) e.key = some i) ∧
    ∀ (i : Nat) d d', ds[i]? = some d → ds'[i]? = some d' → (∃ e ∈ es, idx (ds.map Dc.name) e.key = some i ∧ coordsOf lib e.val = some d'.coords) ∨
      ((∀ e ∈ es, idx (ds.map Dc.name) e.key ≠ some i) ∧ d'.coords = d.coords)
  | [], ds, ds', _, _, h => by
    obtain rfl := Option.some.inj h
    refine ⟨rfl, by simp, fun i d d' h1 h2 => Or.inr ⟨by simp, ?_⟩⟩
    rw [h1] at h2
    rw [Option.some.inj h2]
  | e :: es, ds, ds', hn, hz, h => by
    rw [List.map_cons, List.nodup_cons] at hn
    unfold initAuto at h
    rw [find_dc, cstr_self (hz e (by simp))] at h
    cases hi : idx (ds.map Dc.name) e.key with
    | none => rw [hi] at h; cases h
    | some i =>
      rw [hi] at h
      dsimp only at h
      split at h
      · cases h
      · cases hc : coordsOf lib e.val with
        | none => rw [hc] at h; cases h
        | some c =>
          rw [hc] at h
          dsimp only at h
          obtain ⟨h1, h2, h3⟩ := initAuto_some hn.2 (fun f hf => hz f (by simp [hf])) h
          rw [modify_names] at h1 h2 h3
          refine ⟨h1, fun f hf => ?_, fun j d d' hd hd' => ?_⟩
          · rcases List.mem_cons.mp hf with rfl | hf
            · exact ⟨i, hi⟩
            · exact h2 f hf
          · have hg := List.getElem?_modify (fun d : Dc => { d with coords := c }) i ds j
            rw [hd] at hg
            change _ = some (if i = j then Dc.mk d.name c else d) at hg
            rcases h3 j _ d' hg hd' with ⟨f, hf, h4, h5⟩ | ⟨h4, h5⟩
            · exact Or.inl ⟨f, by simp [hf], h4, h5⟩
            · by_cases hij : i = j
              · subst hij
                rw [if_pos rfl] at h5
                exact Or.inl ⟨e, by simp, hi, by rw [hc, h5]⟩
              · rw [if_neg hij] at h5
                refine Or.inr ⟨fun f hf => ?_, h5⟩
                rcases List.mem_cons.mp hf with rfl | hf
                · rw [hi]; exact fun h => hij (Option.some.inj h)
                · exact h4 f hf

theorem initAuto_of {lib : Lib} : ∀ {es : List (Entry Val)} {ds : List Dc}, (es.map (·.key)).Nodup → (∀ e ∈ es, (0 : UInt8) ∉ e.key) →
    (∀ e ∈ es, ∃ i d c, idx (ds.map Dc.name) e.key = some i ∧ ds[i]? = some d ∧ d.coords = none ∧ coordsOf lib e.val = some c) → ∃ ds', initAuto lib es ds = some ds'
  | [], ds, _, _, _ => ⟨ds, rfl⟩
  | e :: es, ds, hn, hz, h => by
    rw [List.map_cons, List.nodup_cons] at hn
    obtain ⟨i, d, c, h1, h2, h3, h4⟩ := h e (by simp)
    unfold initAuto
    rw [find_dc, cstr_self (hz e (by simp)), h1]
    dsimp only
    rw [h2, Option.bind_some, h3, h4]
    refine initAuto_of hn.2 (fun f hf => hz f (by simp [hf])) fun f hf => ?_
    obtain ⟨j, d', c', h5, h6, h7, h8⟩ := h f (by simp [hf])
    refine ⟨j, d', c', by rw [modify_names]; exact h5, ?_, h7, h8⟩
    rw [List.getElem?_modify, h6]
    change some (if i = j then Dc.mk d'.name c else d') = some d'
    rw [if_neg]
    · rintro rfl
      have := (idx_get h1).symm.trans (idx_get h5)
      exact hn.1 (List.mem_map.mpr ⟨f, hf, (Option.some.inj this).symm⟩)

theorem located_iff {lib : Lib} {es : List (Entry Val)} {names : List Bytes} {ds : List Dc} (hn : (es.map (·.key)).Nodup) (hz : ∀ e ∈ es, (0 : UInt8) ∉ e.key) :
    initAuto lib es (names.map fun n => Dc.mk n none) = some ds ↔ Located lib names es ds := by
  have hns : (names.map fun n => Dc.mk n none).map Dc.name = names := by
    rw [List.map_map]
    exact List.map_id names
  have hget : ∀ (i : Nat) (n : Bytes), names[i]? = some n → (names.map fun n => Dc.mk n none)[i]? = some ⟨n, none⟩ := by
    intro i n h
    rw [List.getElem?_map, h]
    rfl
  have sound : ∀ {ds}, initAuto lib es (names.map fun n => Dc.mk n none) = some ds → Located lib names es ds := by
    intro ds h
    obtain ⟨h1, h2, h3⟩ := initAuto_some hn hz h
    rw [hns] at h1 h2 h3
    refine ⟨h1, fun e he => ?_, fun i d hd => ?_⟩
    · obtain ⟨i, hi⟩ := h2 e he
      exact ⟨i + 1, e.key, upToZero_iff.mpr (cstr_self (hz e he)).symm, idx_number.mp hi⟩
    · have hdn : names[i]? = some d.name := by rw [← h1, List.getElem?_map, hd]; rfl
      rcases h3 i _ d (hget i d.name hdn) hd with ⟨e, he, h4, h5⟩ | ⟨h4, h5⟩
      · have hk := (idx_get h4).symm.trans hdn
        have hk := Option.some.inj hk
        exact Or.inl ⟨e, he, upToZero_iff.mpr (by rw [cstr_self (hz e he), hk]), hk ▸ idx_number.mp h4, at_iff.mp h5⟩
      · refine Or.inr ⟨fun e he k hk hno => ?_, h5⟩
        obtain rfl := upToZero_iff.mp hk
        rw [cstr_self (hz e he)] at hno
        exact h4 e he (idx_number.mpr hno)
  constructor
  · exact sound
  · intro h
    have hin : ∀ e ∈ es, ∃ (i : Nat) (d : Dc), idx names e.key = some i ∧ ds[i]? = some d ∧ d.name = e.key ∧ coordsOf lib e.val = some d.coords := by
      intro e he
      obtain ⟨n, k, h1, h2⟩ := h.keys e he
      obtain rfl := upToZero_iff.mp h1
      rw [cstr_self (hz e he)] at h2
      obtain ⟨i, rfl, h3, h4⟩ := h2
      have hi : idx names e.key = some i := idx_number.mpr ⟨i, rfl, h3, h4⟩
      have hd : ∃ d, ds[i]? = some d ∧ d.name = e.key := by
        rw [← h.all, List.getElem?_map] at h3
        exact Option.map_eq_some_iff.mp h3
      obtain ⟨d, hd, hdn⟩ := hd
      refine ⟨i, d, hi, hd, hdn, ?_⟩
      rcases h.coords i d hd with ⟨f, hf, h5, h6, h7⟩ | ⟨h5, _⟩
      · have h5 := upToZero_iff.mp h5
        rw [cstr_self (hz f hf), hdn] at h5
        have hff := find_mem hn hf
        have hfe := find_mem hn he
        rw [← h5, hfe] at hff
        rw [Option.some.inj hff]
        exact at_iff.mpr h7
      · exact absurd ⟨i, rfl, h3, h4⟩ (h5 e he e.key (upToZero_iff.mpr (cstr_self (hz e he)).symm))
    obtain ⟨ds', hds⟩ := initAuto_of (lib := lib) (ds := names.map fun n => Dc.mk n none) hn hz (fun e he => by
      obtain ⟨i, d, h1, _, _, h4⟩ := hin e he
      exact ⟨i, ⟨e.key, none⟩, d.coords, by rw [hns]; exact h1, hget i _ (idx_get h1), rfl, h4⟩)
    rw [hds]
    have h' := sound hds
    congr 1
    have hlen : ds'.length = ds.length := by
      have := congrArg List.length (h'.all.trans h.all.symm)
      simpa using this
    refine List.ext_getElem? fun i => ?_
    by_cases hi : i < ds.length
    · obtain ⟨d, hd⟩ : ∃ d, ds[i]? = some d := ⟨ds[i], List.getElem?_eq_getElem hi⟩
      obtain ⟨d', hd'⟩ : ∃ d, ds'[i]? = some d := ⟨ds'[i]'(by omega), List.getElem?_eq_getElem (by omega)⟩
      have hname : d'.name = d.name := by
        have := congrArg (fun l : List Bytes => l[i]?) (h'.all.trans h.all.symm)
        simp only [List.getElem?_map, hd, hd', Option.map_some, Option.some.injEq] at this
        exact this
      rw [hd, hd']
      congr 1
      have hco : d'.coords = d.coords := by
        rcases h.coords i d hd with ⟨e, he, h1, h2, h3⟩ | ⟨h1, h2⟩
        · rcases h'.coords i d' hd' with ⟨f, hf, h4, h5, h6⟩ | ⟨h4, h5⟩
          · have h1 := upToZero_iff.mp h1
            have h4 := upToZero_iff.mp h4
            rw [cstr_self (hz e he)] at h1
            rw [cstr_self (hz f hf), hname, h1] at h4
            have hfe := find_mem hn he
            have hff := find_mem hn hf
            rw [← h4, hfe] at hff
            rw [← at_iff] at h3 h6
            rw [← Option.some.inj hff, h3] at h6
            exact (Option.some.inj h6).symm
          · exact absurd h2 (h4 e he _ h1)
        · rcases h'.coords i d' hd' with ⟨f, hf, h4, h5, h6⟩ | ⟨h4, h5⟩
          · exact absurd h5 (h1 f hf _ h4)
          · rw [h2, h5]
      cases d
      cases d'
      simp_all
    · rw [List.getElem?_eq_none (by omega), List.getElem?_eq_none (by omega)]

/-! ### Other options -/

theorem limit_iff {es : List (Entry Val)} (hn : (es.map (·.key)).Nodup) {n k : Nat} :
    (∃ l, limitOf (find es (str "auto_dc_limit")) = some l ∧ autoLimit n l = k) ↔ LimitOf es n k := by
  constructor
  · rintro ⟨l, h1, h2⟩
    cases hf : find es (str "auto_dc_limit") with
    | none =>
      rw [hf] at h1
      obtain rfl := Option.some.inj h1
      have : k = min 3 n := by rw [← h2]; unfold autoLimit; dsimp only; split <;> omega
      subst this
      exact .unset (absent_iff.mpr hf)
    | some v =>
      rw [hf] at h1
      match v, hf, h1 with
      | .hash _, _, h1 => cases h1
      | .array _, _, h1 => cases h1
      | .simple r t, hf, h1 =>
        obtain ⟨x, h3, rfl⟩ := Option.map_eq_some_iff.mp h1
        unfold autoLimit at h2
        dsimp only at h2
        by_cases hx : x = 0
        · subst hx
          rw [if_pos (Or.inr rfl)] at h2
          subst h2
          exact .all ((is_iff hn).mpr hf) (count_iff.mpr h3)
        · have : k = min x n := by rw [← h2]; split <;> omega
          subst this
          exact .set ((is_iff hn).mpr hf) (count_iff.mpr h3) hx
  · intro h
    cases h with
    | unset h =>
      rw [absent_iff.mp h]
      exact ⟨none, rfl, by unfold autoLimit; dsimp only; split <;> omega⟩
    | all h1 h2 =>
      rw [(is_iff hn).mp h1]
      exact ⟨some 0, by unfold limitOf; dsimp only; rw [count_iff.mp h2]; rfl, by unfold autoLimit; dsimp only; rw [if_pos (Or.inr rfl)]⟩
    | set h1 h2 h3 =>
      rw [(is_iff hn).mp h1]
      exact ⟨some _, by unfold limitOf; dsimp only; rw [count_iff.mp h2]; rfl, by unfold autoLimit; dsimp only; split <;> omega⟩

theorem ecs_iff {es : List (Entry Val)} (hn : (es.map (·.key)).Nodup) {b : Bool} : ecsOf (find es (str "ignore_ecs")) = .ok (some b) ↔ BoolOf es "ignore_ecs" false b := by
  unfold BoolOf
  constructor
  · intro h
    cases hf : find es (str "ignore_ecs") with
    | none =>
      rw [hf] at h
      exact Or.inl ⟨absent_iff.mpr hf, (Option.some.inj (Outcome.ok.inj h)).symm⟩
    | some v =>
      rw [hf] at h
      match v, hf, h with
      | .hash _, _, h => cases h
      | .array _, _, h => cases h
      | .simple r t, hf, h => exact Or.inr ⟨r, t, (is_iff hn).mpr hf, truth_iff.mpr (Outcome.ok.inj h)⟩
  · rintro (⟨h, rfl⟩ | ⟨r, t, h1, h2⟩)
    · rw [absent_iff.mp h]; rfl
    · rw [(is_iff hn).mp h1]; unfold ecsOf; dsimp only; rw [truth_iff.mp h2]

theorem path_iff {v : Val} {p : Bytes} : PathOf v p ↔ ∃ r t, v = .simple r t ∧ t.length ≠ 0 ∧ cstr t = p := by
  unfold PathOf
  constructor
  · rintro ⟨r, t, h1, h2, h3⟩
    exact ⟨r, t, h1, fun h => h2 (List.length_eq_zero_iff.mp h), (upToZero_iff.mp h3).symm⟩
  · rintro ⟨r, t, h1, h2, rfl⟩
    exact ⟨r, t, h1, fun h => h2 (by rw [h]; rfl), upToZero_iff.mpr rfl⟩

theorem db_iff {es : List (Entry Val)} (hn : (es.map (·.key)).Nodup) {o : Option Bytes} :
    dbOf (find es (str "geoip2_db")) = some o ↔ (Absent es "geoip2_db" ∧ o = none) ∨ ∃ v p, Is es "geoip2_db" v ∧ PathOf v p ∧ o = some p := by
  constructor
  · intro h
    cases hf : find es (str "geoip2_db") with
    | none =>
      rw [hf] at h
      exact Or.inl ⟨absent_iff.mpr hf, (Option.some.inj h).symm⟩
    | some v =>
      rw [hf] at h
      match v, hf, h with
      | .hash _, _, h => cases h
      | .array _, _, h => cases h
      | .simple r t, hf, h =>
        unfold dbOf at h
        dsimp only at h
        split at h
        · cases h
        · rename_i hl
          exact Or.inr ⟨_, _, (is_iff hn).mpr hf, path_iff.mpr ⟨r, t, rfl, hl, rfl⟩, (Option.some.inj h).symm⟩
  · rintro (⟨h, rfl⟩ | ⟨v, p, h1, h2, rfl⟩)
    · rw [absent_iff.mp h]; rfl
    · rw [(is_iff hn).mp h1]
      obtain ⟨r, t, rfl, h3, rfl⟩ := path_iff.mp h2
      unfold dbOf
      dsimp only
      rw [if_neg h3]

/-! ### Networks -/

theorem splitSlash_iff {s a m : Bytes} : splitSlash s = some (a, m) ↔ s = a ++ 47 :: m ∧ 47 ∉ a := by
  constructor
  · intro h
    induction s generalizing a with
    | nil => cases h
    | cons c cs ih =>
      unfold splitSlash at h
      split at h
      · rename_i hc
        simp only [Option.some.injEq, Prod.mk.injEq] at h
        obtain ⟨rfl, rfl⟩ := h
        exact ⟨by rw [hc]; rfl, by simp⟩
      · rename_i hc
        obtain ⟨⟨b, m'⟩, h1, h2⟩ := Option.map_eq_some_iff.mp h
        simp only [Prod.mk.injEq] at h2
        obtain ⟨rfl, rfl⟩ := h2
        obtain ⟨h3, h4⟩ := ih h1
        refine ⟨by rw [h3]; rfl, fun h => ?_⟩
        rcases List.mem_cons.mp h with h | h
        · exact hc h.symm
        · exact h4 h
  · rintro ⟨rfl, h⟩
    induction a with
    | nil => simp [splitSlash]
    | cons c a ih =>
      rw [List.cons_append, splitSlash, if_neg (fun hc => h (by simp [hc])), ih fun h' => h (by simp [h'])]
      rfl

theorem passes_v4 {ip : Bytes} {p : Nat} {l : Bytes} : (NetCfg.v4 ip p l).passes = true ↔ p ≤ 32 := by
  show (!decide (128 < p + 96)) = true ↔ p ≤ 32
  rw [Bool.not_eq_true', decide_eq_false_iff_not]
  omega

theorem passes_v6 {ip : Bytes} {p : Nat} {l : Bytes} (h : ip.length = 16) : (NetCfg.v6 ip p l).passes = true ↔ p ≤ 128 ∧ ∀ x ∈ Geo.areas, ¬ x <+: (Geo.bits ip).take p := by
  show (!decide (128 < p) && !Geo.v4Issues ip p) = true ↔ _
  rw [Bool.and_eq_true, Bool.not_eq_true', Bool.not_eq_true', decide_eq_false_iff_not, ← Bool.not_eq_true, Geo.v4Issues_eq h]
  constructor
  · rintro ⟨h1, h2⟩
    exact ⟨by omega, fun a ha hp => h2 ⟨a, ha, hp⟩⟩
  · rintro ⟨h1, h2⟩
    exact ⟨by omega, fun ⟨a, ha, hp⟩ => h2 a ha hp⟩

theorem listOf_false {names : List Bytes} {v : Val} (h : ListOf names false v none) : False := by
  cases h with
  | auto h _ _ => cases h

theorem netOf_some {lib : Lib} {key : Bytes} {f : Bytes → NetCfg} (h : netOf lib key = some f) : key.length < 86 ∧ ∃ a m, UpToZero key (a ++ 47 :: m) ∧ 47 ∉ a ∧
    ((∃ ip p, lib.sock a m = some (.v4 ip p) ∧ f = NetCfg.v4 ip p) ∨ ∃ ip p, lib.sock a m = some (.v6 ip p) ∧ f = NetCfg.v6 ip p) := by
  unfold netOf at h
  split at h
  · cases h
  · rename_i hl
    split at h
    · cases h
    · rename_i a m hs
      obtain ⟨h1, h2⟩ := splitSlash_iff.mp hs
      refine ⟨by omega, a, m, upToZero_iff.mpr h1.symm, h2, ?_⟩
      split at h
      · cases h
      · rename_i ip p hk; exact Or.inl ⟨ip, p, hk, (Option.some.inj h).symm⟩
      · rename_i ip p hk; exact Or.inr ⟨ip, p, hk, (Option.some.inj h).symm⟩

/-- The entry of an address and a mask. -/
def cfgOf : Sock → Bytes → NetCfg
  | .v4 ip p => NetCfg.v4 ip p
  | .v6 ip p => NetCfg.v6 ip p

theorem netOf_of {lib : Lib} {key a m : Bytes} {s : Sock} (h1 : key.length < 86) (h2 : UpToZero key (a ++ 47 :: m)) (h3 : 47 ∉ a) (h4 : lib.sock a m = some s) :
    netOf lib key = some (cfgOf s) := by
  unfold netOf
  rw [if_neg (by omega), splitSlash_iff.mpr ⟨(upToZero_iff.mp h2).symm, h3⟩]
  dsimp only
  rw [h4]
  cases s <;> rfl

theorem nets_some {lib : Lib} (hz : Sized lib) {names : List Bytes} : ∀ {es : List (Entry Val)} {ns : List NetCfg}, netsParse lib names es = .ok (some (some ns)) → NetsIn lib names es ns
  | [], ns, h => by
    simp only [netsParse, Outcome.ok.injEq, Option.some.injEq] at h
    subst h
    exact .nil
  | e :: es, ns, h => by
    unfold netsParse at h
    cases hf : netOf lib e.key with
    | none => rw [hf] at h; simp at h
    | some f =>
      rw [hf] at h
      dsimp only at h
      split at h
      · rename_i hp
        cases hx : xlate names false e.val with
        | ub => rw [hx] at h; cases h
        | ok o =>
          rw [hx, Outcome.bind_ok] at h
          match o, hx, h with
          | none, _, h => cases h
          | some none, _, h => cases h
          | some (some l), hx, h =>
            dsimp only at h
            cases hr : netsParse lib names es with
            | ub => rw [hr] at h; cases h
            | ok o =>
              rw [hr, Outcome.map_ok] at h
              match o, hr, h with
              | none, _, h => simp at h
              | some none, _, h => simp at h
              | some (some ns'), hr, h =>
                simp only [Option.map_some, Outcome.ok.injEq, Option.some.injEq] at h
                subst h
                refine .cons ?_ (nets_some hz hr)
                have hl := xlate_some hx
                obtain ⟨h1, a, m, h2, h3, ⟨ip, p, h4, rfl⟩ | ⟨ip, p, h4, rfl⟩⟩ := netOf_some hf
                · exact .v4 h1 h2 h3 h4 (passes_v4.mp hp) hl
                · obtain ⟨h5, h6⟩ := (passes_v6 ((hz a m).2 ip p h4)).mp hp
                  exact .v6 h1 h2 h3 h4 h5 h6 hl
      · simp at h

theorem nets_of {lib : Lib} (hz : Sized lib) {names : List Bytes} (hau : nm "auto" ∉ names) {es : List (Entry Val)} {ns : List NetCfg} (h : NetsIn lib names es ns) (hb : ∀ e ∈ es, Brief e.val) :
    netsParse lib names es = .ok (some (some ns)) := by
  induction h with
  | nil => rfl
  | @cons e es n ns h1 _ ih =>
    have ih := ih fun f hf => hb f (by simp [hf])
    unfold netsParse
    cases h1 with
    | v4 h2 h3 h4 h5 h6 h7 =>
      rw [netOf_of h2 h3 h4 h5]
      dsimp only [cfgOf]
      rw [if_pos (passes_v4.mpr h6), xlate_of h7 hau (hb e (by simp)), Outcome.bind_ok]
      dsimp only
      rw [ih]
      rfl
    | v6 h2 h3 h4 h5 h6 h6' h7 =>
      rw [netOf_of h2 h3 h4 h5]
      dsimp only [cfgOf]
      rw [if_pos ((passes_v6 ((hz _ _).2 _ _ h5)).mpr ⟨h6, h6'⟩), xlate_of h7 hau (hb e (by simp)), Outcome.bind_ok]
      dsimp only
      rw [ih]
      rfl

theorem nets_safe {lib : Lib} {names : List Bytes} : ∀ {es : List (Entry Val)}, (∀ e ∈ es, Brief e.val) → netsParse lib names es ≠ .ub
  | [], _ => by simp [netsParse]
  | e :: es, hb => by
    have ih := nets_safe (lib := lib) (names := names) (es := es) fun f hf => hb f (by simp [hf])
    unfold netsParse
    cases hf : netOf lib e.key with
    | none => simp
    | some f =>
      dsimp only
      split
      · cases hx : xlate names false e.val with
        | ub => exact absurd hx (xlate_safe (hb e (by simp)))
        | ok o =>
          rw [Outcome.bind_ok]
          match o, hx with
          | none, _ => simp
          | some none, hx => exact (listOf_false (xlate_some hx)).elim
          | some (some l), _ =>
            dsimp only
            cases hr : netsParse lib names es with
            | ub => exact absurd hr ih
            | ok _ => simp [Outcome.map_ok]
      · simp

/-! ### All options -/

theorem texts_length {vs : List Val} {us : List Bytes} (h : Texts vs us) : us.length = vs.length := by
  induction h with
  | nil => rfl
  | cons _ _ ih => simp [ih]

theorem map_eta {ds : List Dc} (h : ∀ d ∈ ds, d.coords = none) : (ds.map Dc.name).map (fun n => Dc.mk n none) = ds := by
  rw [List.map_map]
  conv => rhs; rw [← List.map_id ds]
  refine List.map_congr_left fun d hd => ?_
  have := h d hd
  cases d
  simp_all

theorem plain_names {ns : List Bytes} : (ns.map fun n => Dc.mk n none).map Dc.name = ns := by
  rw [List.map_map]
  exact List.map_id ns

theorem dcInfo_iff {lib : Lib} {es : List (Entry Val)} (hn : (es.map (·.key)).Nodup) {v : Val} {ds : List Dc} {k : Nat}
    (hc : ∀ cs, Is es "auto_dc_coords" (.hash cs) → (cs.map (·.key)).Nodup ∧ ∀ e ∈ cs, (0 : UInt8) ∉ e.key) :
    dcInfo lib v (find es (str "auto_dc_coords")) (find es (str "auto_dc_limit")) = some (ds, k) ↔
      (∃ vs, Several v vs ∧ Texts vs (ds.map Dc.name) ∧ 1 ≤ ds.length ∧ ds.length ≤ 254 ∧ nm "auto" ∉ ds.map Dc.name) ∧
      ((Absent es "auto_dc_coords" ∧ (∀ d ∈ ds, d.coords = none) ∧ LimitOf es ds.length k) ∨
        ∃ cs, Is es "auto_dc_coords" (.hash cs) ∧ Located lib (ds.map Dc.name) cs ds ∧ LimitOf es cs.length k) := by
  constructor
  · intro h
    unfold dcInfo at h
    dsimp only at h
    split at h
    · cases h
    · rename_i hlen
      split at h
      · cases h
      · rename_i ns hns
        obtain ⟨h1, h2⟩ := dcNames_iff.mp hns
        have hl := texts_length h1
        split at h
        · rename_i ds' n l hloc hlim
          simp only [Option.some.injEq, Prod.mk.injEq] at h
          obtain ⟨rfl, rfl⟩ := h
          cases hf : find es (str "auto_dc_coords") with
          | none =>
            rw [hf] at hloc
            simp only [Option.some.injEq, Prod.mk.injEq] at hloc
            obtain ⟨rfl, rfl⟩ := hloc
            rw [plain_names]
            refine ⟨⟨_, Meta.several_iff.mpr rfl, h1, by rw [List.length_map]; omega, by rw [List.length_map]; omega, h2⟩, Or.inl ⟨absent_iff.mpr hf, ?_, (limit_iff hn).mp ⟨l, hlim, ?_⟩⟩⟩
            · intro d hd
              obtain ⟨n, _, rfl⟩ := List.mem_map.mp hd
              rfl
            · rw [List.length_map]
          | some w =>
            rw [hf] at hloc
            match w, hf, hloc with
            | .simple _ _, _, hloc => cases hloc
            | .array _, _, hloc => cases hloc
            | .hash cs, hf, hloc =>
              obtain ⟨ds2, h3, h4⟩ := Option.map_eq_some_iff.mp hloc
              simp only [Prod.mk.injEq] at h4
              obtain ⟨rfl, rfl⟩ := h4
              have his := (is_iff hn).mpr hf
              have hlo := (located_iff (hc cs his).1 (hc cs his).2).mp h3
              have hdl : ds2.length = ns.length := by rw [← hlo.all, List.length_map]
              rw [hlo.all]
              exact ⟨⟨_, Meta.several_iff.mpr rfl, h1, by omega, by omega, h2⟩, Or.inr ⟨cs, his, hlo, (limit_iff hn).mp ⟨l, hlim, rfl⟩⟩⟩
        · cases h
  · rintro ⟨⟨vs, h1, h2, h3, h4, h5⟩, h6⟩
    obtain rfl := Meta.several_iff.mp h1
    have hl := texts_length h2
    rw [List.length_map] at hl
    unfold dcInfo
    dsimp only
    rw [if_neg (by omega), dcNames_iff.mpr ⟨h2, h5⟩]
    dsimp only
    rcases h6 with ⟨h6, h7, h8⟩ | ⟨cs, h6, h7, h8⟩
    · obtain ⟨l, h9, h10⟩ := (limit_iff hn).mpr h8
      rw [absent_iff.mp h6, h9]
      dsimp only
      rw [map_eta h7, List.length_map, h10]
    · obtain ⟨l, h9, h10⟩ := (limit_iff hn).mpr h8
      rw [(is_iff hn).mp h6, h9]
      dsimp only
      rw [(located_iff (hc cs h6).1 (hc cs h6).2).mpr h7]
      dsimp only [Option.map_some]
      rw [h10]

theorem every_all {ds : List Dc} : allDcs ds.length = everyDc (ds.map Dc.name) := by
  unfold allDcs everyDc
  rw [List.length_map]

theorem netsOf_some {lib : Lib} (hz : Sized lib) {es : List (Entry Val)} (hn : (es.map (·.key)).Nodup) {names : List Bytes} {x : Nets}
    (h : netsOf lib names (find es (str "nets")) = .ok (some x)) : NetsOf lib names es x := by
  cases hf : find es (str "nets") with
  | none =>
    rw [hf] at h
    simp only [netsOf, Outcome.ok.injEq, Option.some.injEq] at h
    subst h
    exact .unset (absent_iff.mpr hf)
  | some v =>
    rw [hf] at h
    match v, hf, h with
    | .array _, _, h => cases h
    | .simple r t, hf, h =>
      simp only [netsOf, Outcome.ok.injEq] at h
      split at h
      · cases h
      · rename_i hl
        obtain rfl := Option.some.inj h
        exact .file ((is_iff hn).mpr hf) (path_iff.mpr ⟨r, t, rfl, hl, rfl⟩)
    | .hash fs, hf, h =>
      unfold netsOf at h
      dsimp only at h
      cases hp : netsParse lib names fs with
      | ub => rw [hp] at h; cases h
      | ok o =>
        rw [hp, Outcome.map_ok] at h
        match o, hp, h with
        | none, _, h => simp at h
        | some none, _, h => simp at h
        | some (some ns), hp, h =>
          simp only [Option.bind_some, Option.map_some, Outcome.ok.injEq, Option.some.injEq] at h
          subst h
          exact .inline ((is_iff hn).mpr hf) (nets_some hz hp)

theorem netsOf_of {lib : Lib} (hz : Sized lib) {es : List (Entry Val)} (hn : (es.map (·.key)).Nodup) {names : List Bytes} (hau : nm "auto" ∉ names) {x : Nets}
    (h : NetsOf lib names es x) (hb : ∀ ns, Is es "nets" (.hash ns) → ∀ e ∈ ns, Brief e.val) : netsOf lib names (find es (str "nets")) = .ok (some x) := by
  cases h with
  | unset h => rw [absent_iff.mp h]; rfl
  | inline h1 h2 =>
    have hb := hb _ h1
    rw [(is_iff hn).mp h1]
    unfold netsOf
    dsimp only
    rw [nets_of hz hau h2 hb]
    rfl
  | file h1 h2 =>
    rw [(is_iff hn).mp h1]
    obtain ⟨r, t, rfl, h3, rfl⟩ := path_iff.mp h2
    unfold netsOf
    dsimp only
    rw [if_neg h3]

theorem netsOf_safe {lib : Lib} {es : List (Entry Val)} (hn : (es.map (·.key)).Nodup) {names : List Bytes} (hb : ∀ ns, Is es "nets" (.hash ns) → ∀ e ∈ ns, Brief e.val) :
    netsOf lib names (find es (str "nets")) ≠ .ub := by
  cases hf : find es (str "nets") with
  | none => simp [netsOf]
  | some v =>
    match v, hf with
    | .array _, _ => simp [netsOf]
    | .simple r t, _ => simp [netsOf]
    | .hash fs, hf =>
      have := nets_safe (lib := lib) (names := names) (hb fs ((is_iff hn).mpr hf))
      unfold netsOf
      dsimp only
      cases hp : netsParse lib names fs with
      | ub => exact absurd hp this
      | ok _ => simp [Outcome.map_ok]

theorem keys_iff {es : List (Entry Val)} : es.all (fun e => mapKeys.contains e.key) = true ↔
    ∀ e ∈ es, e.key ∈ ["datacenters", "auto_dc_coords", "auto_dc_limit", "ignore_ecs", "geoip2_db", "map", "nets"].map nm := by
  rw [List.all_eq_true]
  constructor
  · intro h e he
    exact List.contains_iff_mem.mp (h e he)
  · intro h e he
    exact List.contains_iff_mem.mpr (h e he)

/-- The options of a map without its `map` stanza. -/
def Gdmap.settings (m : Gdmap) : GmapSpec.Settings := ⟨m.name, m.dcs, m.limit, m.auto, m.ignoreEcs, m.db, m.nets⟩

/-- What the tree and the lists are. -/
def Gdmap.Holds (m : Gdmap) (es : List (Entry Val)) : Prop :=
  m.lists.length ≤ LIST_MAX + 1 ∧
  ((Absent es "map" ∧ m.tree = none ∧ m.lists = [everyDc (m.dcs.map Dc.name)]) ∨
    ∃ ms t l, Is es "map" (.hash ms) ∧ m.tree = some t ∧ m.lists[0]? = some l ∧ Fallback (m.dcs.map Dc.name) m.auto ms l ∧
      Built (m.dcs.map Dc.name) m.auto m.lists (if m.auto = true then none else some (everyDc (m.dcs.map Dc.name))) (.hash ms) t)

theorem coordsAuto {es : List (Entry Val)} (hn : (es.map (·.key)).Nodup) {lib : Lib} {ds : List Dc} {k : Nat}
    (h : (Absent es "auto_dc_coords" ∧ (∀ d ∈ ds, d.coords = none) ∧ LimitOf es ds.length k) ∨
        ∃ cs, Is es "auto_dc_coords" (.hash cs) ∧ Located lib (ds.map Dc.name) cs ds ∧ LimitOf es cs.length k) :
    (Absent es "auto_dc_coords" ∧ (find es (str "auto_dc_coords")).isSome = false ∧ (∀ d ∈ ds, d.coords = none) ∧ LimitOf es ds.length k) ∨
        ∃ cs, Is es "auto_dc_coords" (.hash cs) ∧ (find es (str "auto_dc_coords")).isSome = true ∧ Located lib (ds.map Dc.name) cs ds ∧ LimitOf es cs.length k := by
  rcases h with ⟨h1, h2, h3⟩ | ⟨cs, h1, h2, h3⟩
  · exact Or.inl ⟨h1, by rw [absent_iff.mp h1]; rfl, h2, h3⟩
  · exact Or.inr ⟨cs, h1, by rw [(is_iff hn).mp h1]; rfl, h2, h3⟩

theorem treeOf_some {es : List (Entry Val)} (hc : Clean (.hash es)) {names : List Bytes} {auto : Bool} {db : Option Bytes} {L : List Bytes} {o : Option Dcmap}
    (h : treeOf names auto db [everyDc names] (find es (str "map")) = .ok (some (L, o))) :
    (Absent es "map" ∨ ∃ ms, Is es "map" (.hash ms) ∧ db ≠ none ∧ Lawful names auto ms) ∧ L.length ≤ LIST_MAX + 1 ∧
    ((Absent es "map" ∧ o = none ∧ L = [everyDc names]) ∨
    ∃ ms t l, Is es "map" (.hash ms) ∧ o = some t ∧ L[0]? = some l ∧ Fallback names auto ms l ∧
      Built names auto L (if auto = true then none else some (everyDc names)) (.hash ms) t) := by
  have hn := (clean_hash hc).1
  cases hf : find es (str "map") with
  | none =>
    rw [hf] at h
    simp only [treeOf, Outcome.ok.injEq, Option.some.injEq, Prod.mk.injEq] at h
    obtain ⟨rfl, rfl⟩ := h
    have := absent_iff.mpr hf
    exact ⟨Or.inl this, by simp [LIST_MAX], Or.inl ⟨this, rfl, rfl⟩⟩
  | some v =>
    rw [hf] at h
    match v, hf, h with
    | .array _, _, h => cases h
    | .simple _ _, _, h => cases h
    | .hash ms, hf, h =>
      have his := (is_iff hn).mpr hf
      have hcm : Clean (.hash ms) := by
        obtain ⟨e, he, _, hv⟩ := his
        have := (cleanOf_mem (clean_hash hc).2.2 he).1
        rw [hv] at this
        exact this
      unfold treeOf at h
      dsimp only at h
      split at h
      · cases h
      · rename_i hdb
        cases hd : dcmapNew names auto [everyDc names] ms with
        | ub => rw [hd] at h; cases h
        | ok x =>
          rw [hd, Outcome.map_ok] at h
          match x, hd, h with
          | none, _, h => simp at h
          | some (L', t), hd, h =>
            simp only [Option.map_some, Outcome.ok.injEq, Option.some.injEq, Prod.mk.injEq] at h
            obtain ⟨rfl, rfl⟩ := h
            obtain ⟨h1, ⟨l, h2, h3⟩, h4⟩ := dcmapNew_some hcm hd
            refine ⟨Or.inr ⟨ms, his, hdb, ?_⟩, h1, Or.inr ⟨ms, t, l, his, rfl, h2, h3, h4⟩⟩
            rcases built_lawful hcm h4 with ⟨_, h5⟩ | ⟨fs, h5, h6⟩
            · exact (listOf_hash h5).elim
            · cases h5; exact h6

theorem init_some {lib : Lib} (hz : Sized lib) {key : Bytes} {es : List (Entry Val)} (hc : Clean (.hash es)) (hk : ∀ cs, Is es "auto_dc_coords" (.hash cs) → ∀ e ∈ cs, (0 : UInt8) ∉ e.key) {m : Gdmap}
    (h : gdmapInit lib key (.hash es) = .ok (some m)) : GmapSpec.Says lib key es m.settings ∧ m.Holds es := by
  have hn := (clean_hash hc).1
  have hcs : ∀ cs, Is es "auto_dc_coords" (.hash cs) → (cs.map (·.key)).Nodup ∧ ∀ e ∈ cs, (0 : UInt8) ∉ e.key := by
    intro cs his
    refine ⟨?_, hk cs his⟩
    obtain ⟨e, he, _, hv⟩ := his
    have := (cleanOf_mem (clean_hash hc).2.2 he).1
    rw [hv] at this
    exact (clean_hash this).1
  unfold gdmapInit at h
  dsimp only at h
  cases hd : find es (str "datacenters") with
  | none => rw [hd] at h; cases h
  | some v =>
    rw [hd] at h
    dsimp only at h
    split at h
    · cases h
    · rename_i ds k hdc
      obtain ⟨⟨vs, h1, h2, h3, h4, h5⟩, h6⟩ := (dcInfo_iff hn hcs).mp hdc
      cases he : ecsOf (find es (str "ignore_ecs")) with
      | ub => rw [he] at h; cases h
      | ok o =>
        rw [he, Outcome.bind_ok] at h
        cases o with
        | none => cases h
        | some b =>
          dsimp only at h
          split at h
          · cases h
          · rename_i db hdb
            rw [every_all] at h
            cases ht : treeOf (ds.map Dc.name) (find es (str "auto_dc_coords")).isSome db [everyDc (ds.map Dc.name)] (find es (str "map")) with
            | ub => rw [ht] at h; cases h
            | ok x =>
              rw [ht, Outcome.bind_ok] at h
              match x, ht, h with
              | none, _, h => cases h
              | some (L, tr), ht, h =>
                dsimp only at h
                cases hnn : netsOf lib (ds.map Dc.name) (find es (str "nets")) with
                | ub => rw [hnn] at h; cases h
                | ok y =>
                  rw [hnn, Outcome.bind_ok] at h
                  cases y with
                  | none => cases h
                  | some nets =>
                    simp only [Outcome.ok.injEq] at h
                    split at h
                    · rename_i hkeys
                      obtain rfl := Option.some.inj h
                      obtain ⟨h7, h8, h9⟩ := treeOf_some hc ht
                      exact ⟨⟨upToZero_iff.mpr rfl, ⟨v, vs, (is_iff hn).mpr hd, h1, h2, h3, h4, h5⟩, coordsAuto hn h6, (ecs_iff hn).mp he, (db_iff hn).mp hdb, h7,
                        netsOf_some hz hn hnn, keys_iff.mp hkeys⟩, h8, h9⟩
                    · cases h

theorem initAuto_length {lib : Lib} : ∀ {es : List (Entry Val)} {ds ds' : List Dc}, initAuto lib es ds = some ds' → ds'.length = ds.length
  | [], ds, ds', h => by obtain rfl := Option.some.inj h; rfl
  | e :: es, ds, ds', h => by
    unfold initAuto at h
    split at h
    · cases h
    · split at h
      · cases h
      · split at h
        · cases h
        · rw [initAuto_length h, List.length_modify]

theorem dcNames_length : ∀ {vs : List Val} {ns : List Bytes}, dcNames vs = some ns → ns.length = vs.length
  | vs, ns, h => texts_length (dcNames_iff.mp h).1

theorem dcInfo_count {lib : Lib} {v : Val} {a l : Option Val} {ds : List Dc} {k : Nat} (h : dcInfo lib v a l = some (ds, k)) : 1 ≤ ds.length ∧ ds.length ≤ 254 := by
  unfold dcInfo at h
  dsimp only at h
  split at h
  · cases h
  · rename_i hlen
    split at h
    · cases h
    · rename_i ns hns
      have hl := dcNames_length hns
      split at h
      · rename_i ds' n l' hloc hlim
        simp only [Option.some.injEq, Prod.mk.injEq] at h
        obtain ⟨rfl, _⟩ := h
        have : ds'.length = ns.length := by
          match a, hloc with
          | none, hloc =>
            simp only [Option.some.injEq, Prod.mk.injEq] at hloc
            rw [← hloc.1, List.length_map]
          | some (.hash cs), hloc =>
            obtain ⟨x, h3, h4⟩ := Option.map_eq_some_iff.mp hloc
            simp only [Prod.mk.injEq] at h4
            rw [← h4.1, initAuto_length h3, List.length_map]
          | some (.simple _ _), hloc => cases hloc
          | some (.array _), hloc => cases hloc
        omega
      · cases h

theorem init_count {lib : Lib} {key : Bytes} {v : Val} {m : Gdmap} (h : gdmapInit lib key v = .ok (some m)) : 1 ≤ m.dcs.length ∧ m.dcs.length ≤ 254 := by
  cases v with
  | simple _ _ => cases h
  | array _ => cases h
  | hash es =>
    unfold gdmapInit at h
    dsimp only at h
    split at h
    · cases h
    · split at h
      · cases h
      · rename_i ds k hdc
        have hc := dcInfo_count hdc
        cases he : ecsOf (find es (str "ignore_ecs")) with
        | ub => rw [he] at h; cases h
        | ok o =>
          rw [he, Outcome.bind_ok] at h
          cases o with
          | none => cases h
          | some b =>
            dsimp only at h
            split at h
            · cases h
            · rename_i db hdb
              cases ht : treeOf (ds.map Dc.name) (find es (str "auto_dc_coords")).isSome db [allDcs ds.length] (find es (str "map")) with
              | ub => rw [ht] at h; cases h
              | ok x =>
                rw [ht, Outcome.bind_ok] at h
                match x, ht, h with
                | none, _, h => cases h
                | some (L, tr), ht, h =>
                  dsimp only at h
                  cases hnn : netsOf lib (ds.map Dc.name) (find es (str "nets")) with
                  | ub => rw [hnn] at h; cases h
                  | ok y =>
                    rw [hnn, Outcome.bind_ok] at h
                    cases y with
                    | none => cases h
                    | some nets =>
                      simp only [Outcome.ok.injEq] at h
                      split at h
                      · obtain rfl := Option.some.inj h
                        exact hc
                      · cases h

theorem treeOf_of {es : List (Entry Val)} (hn : (es.map (·.key)).Nodup) {names : List Bytes} (hau : nm "auto" ∉ names) {auto : Bool} {db : Option Bytes} (l : Bytes)
    (hb : ∀ ms, Is es "map" (.hash ms) → Briefs ms ∧ weights ms < 2147483646)
    (h : Absent es "map" ∨ ∃ ms, Is es "map" (.hash ms) ∧ db ≠ none ∧ Lawful names auto ms) : ∃ L o, treeOf names auto db [l] (find es (str "map")) = .ok (some (L, o)) := by
  rcases h with h | ⟨ms, h1, h2, h3⟩
  · rw [absent_iff.mp h]; exact ⟨_, _, rfl⟩
  · obtain ⟨hb1, hb2⟩ := hb ms h1
    obtain ⟨L, t, h4⟩ := dcmapNew_of hau h3 hb1 hb2 l
    rw [(is_iff hn).mp h1]
    refine ⟨L, some t, ?_⟩
    unfold treeOf
    dsimp only
    rw [if_neg h2, h4]
    rfl

theorem init_of {lib : Lib} (hz : Sized lib) {key : Bytes} {es : List (Entry Val)} (hc : Clean (.hash es)) (ht : Tame es) {s : GmapSpec.Settings} (h : GmapSpec.Says lib key es s) :
    ∃ m, gdmapInit lib key (.hash es) = .ok (some m) ∧ m.settings = s := by
  have hn := (clean_hash hc).1
  have hcs : ∀ cs, Is es "auto_dc_coords" (.hash cs) → (cs.map (·.key)).Nodup ∧ ∀ e ∈ cs, (0 : UInt8) ∉ e.key := by
    intro cs his
    refine ⟨?_, ht.coords cs his⟩
    obtain ⟨e, he, _, hv⟩ := his
    have := (cleanOf_mem (clean_hash hc).2.2 he).1
    rw [hv] at this
    exact (clean_hash this).1
  obtain ⟨name, dcs, limit, auto, ecs, db, nets⟩ := s
  obtain ⟨h1, ⟨v, vs, h2, h3, h4, h5, h6, h7⟩, h8, h9, h10, h11, h12, h13⟩ := h
  dsimp only at *
  have hauto : (find es (str "auto_dc_coords")).isSome = auto := by
    rcases h8 with ⟨h8, rfl, _⟩ | ⟨cs, h8, rfl, _⟩
    · rw [absent_iff.mp h8]; rfl
    · rw [(is_iff hn).mp h8]; rfl
  have hdc : dcInfo lib v (find es (str "auto_dc_coords")) (find es (str "auto_dc_limit")) = some (dcs, limit) := by
    refine (dcInfo_iff hn hcs).mpr ⟨⟨vs, h3, h4, h5, h6, h7⟩, ?_⟩
    rcases h8 with ⟨h8, _, h8', h8''⟩ | ⟨cs, h8, _, h8', h8''⟩
    · exact Or.inl ⟨h8, h8', h8''⟩
    · exact Or.inr ⟨cs, h8, h8', h8''⟩
  obtain ⟨L, o, htr⟩ := treeOf_of hn h7 (allDcs dcs.length) ht.map h11
  have hnn := netsOf_of hz hn h7 h12 ht.nets
  refine ⟨⟨cstr key, dcs, limit, auto, ecs, db, o, L, nets⟩, ?_, ?_⟩
  · unfold gdmapInit
    dsimp only
    rw [(is_iff hn).mp h2]
    dsimp only
    rw [hdc]
    dsimp only
    rw [(ecs_iff hn).mpr h9, Outcome.bind_ok]
    dsimp only
    rw [(db_iff hn).mpr h10]
    dsimp only
    rw [hauto, htr, Outcome.bind_ok]
    dsimp only
    rw [hnn, Outcome.bind_ok]
    dsimp only
    rw [if_pos (keys_iff.mpr h13)]
  · rw [upToZero_iff.mp h1]
    rfl

theorem init_safe {lib : Lib} {key : Bytes} {es : List (Entry Val)} (hn : (es.map (·.key)).Nodup) (ht : Tame es) : gdmapInit lib key (.hash es) ≠ .ub := by
  intro h
  unfold gdmapInit at h
  dsimp only at h
  cases hd : find es (str "datacenters") with
  | none => rw [hd] at h; cases h
  | some v =>
    rw [hd] at h
    dsimp only at h
    split at h
    · cases h
    · rename_i ds k hdc
      cases he : ecsOf (find es (str "ignore_ecs")) with
      | ub =>
        cases hf : find es (str "ignore_ecs") with
        | none => rw [hf] at he; cases he
        | some w =>
          obtain ⟨r, t, rfl⟩ := ht.ecs w ((is_iff hn).mpr hf)
          rw [hf] at he
          cases he
      | ok o =>
        rw [he, Outcome.bind_ok] at h
        cases o with
        | none => cases h
        | some b =>
          dsimp only at h
          split at h
          · cases h
          · rename_i db hdb
            cases htr : treeOf (ds.map Dc.name) (find es (str "auto_dc_coords")).isSome db [allDcs ds.length] (find es (str "map")) with
            | ub =>
              cases hf : find es (str "map") with
              | none => rw [hf] at htr; cases htr
              | some w =>
                rw [hf] at htr
                match w, hf, htr with
                | .simple _ _, _, htr => cases htr
                | .array _, _, htr => cases htr
                | .hash ms, hf, htr =>
                  unfold treeOf at htr
                  dsimp only at htr
                  split at htr
                  · cases htr
                  · have := dcmapNew_safe (names := ds.map Dc.name) (auto := (find es (str "auto_dc_coords")).isSome) (ht.map ms ((is_iff hn).mpr hf)).1 [allDcs ds.length]
                    cases hx : dcmapNew (ds.map Dc.name) (find es (str "auto_dc_coords")).isSome [allDcs ds.length] ms with
                    | ub => exact this hx
                    | ok _ => rw [hx] at htr; cases htr
            | ok x =>
              rw [htr, Outcome.bind_ok] at h
              match x, htr, h with
              | none, _, h => cases h
              | some (L, tr), _, h =>
                dsimp only at h
                cases hnn : netsOf lib (ds.map Dc.name) (find es (str "nets")) with
                | ub => exact netsOf_safe hn ht.nets hnn
                | ok y =>
                  rw [hnn, Outcome.bind_ok] at h
                  cases y <;> cases h

end Gdnsd.Gmap
