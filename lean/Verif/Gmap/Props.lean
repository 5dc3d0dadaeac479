/-
Properties of the configuration of maps (C99) and of how records of a database are mapped (C100).
-/
import Verif.Gmap.RecLemmas
import Verif.Meta.AnswerProps
namespace Gdnsd.Gmap
open Vscf VscfSpec Conf ConfSpec SvcSpec GmapSpec
open Res (Dbl)
open Maps (LIST_MAX)

/-! ## C99: the configuration of a map -/

/-- C99: a map is accepted just when its options are as the manual says, and then it has the settings that they say. -/
theorem C99_map_partial {lib : Lib} (hz : Sized lib) {key : Bytes} {es : List (Entry Val)} (hc : Clean (.hash es)) (ht : Tame es) (s : GmapSpec.Settings) :
    (∃ m, gdmapInit lib key (.hash es) = .ok (some m) ∧ m.settings = s) ↔ GmapSpec.Says lib key es s := by
  constructor
  · rintro ⟨m, h, rfl⟩
    exact (init_some hz hc ht.coords h).1
  · exact init_of hz hc ht

/-- C99: no assertion fails and nothing is written outside of an array, when lists have at most 255 elements and `ignore_ecs` is a
text. -/
theorem C99_total_partial (lib : Lib) (key : Bytes) {es : List (Entry Val)} (hc : Clean (.hash es)) (ht : Tame es) : gdmapInit lib key (.hash es) ≠ .ub :=
  init_safe (clean_hash hc).1 ht

/-- C99: what is not a hash is no map. -/
theorem C99_hash (lib : Lib) (key : Bytes) (v : Val) (h : ∀ es, v ≠ .hash es) : gdmapInit lib key v = .ok none := by
  cases v with
  | hash es => exact absurd rfl (h es)
  | simple _ _ => rfl
  | array _ => rfl

/-- C99: a stanza with maps is accepted just when all of them are; they keep their order. -/
theorem C99_maps_partial {lib : Lib} (hz : Sized lib) : ∀ {es : List (Entry Val)}, (∀ e ∈ es, ∀ fs, e.val = .hash fs → Clean (.hash fs) ∧ Tame fs) → ∀ {ss : List GmapSpec.Settings},
    (∃ ms, gdmapsNew lib es = .ok (some ms) ∧ ms.map Gdmap.settings = ss) ↔ AllSay lib es ss
  | [], _, ss => by
    constructor
    · rintro ⟨ms, h, rfl⟩
      simp only [gdmapsNew, Outcome.ok.injEq, Option.some.injEq] at h
      subst h
      exact .nil
    · intro h
      cases h
      exact ⟨[], rfl, rfl⟩
  | ⟨k, mk, v⟩ :: es, hall, ss => by
    have hrest := fun ss => C99_maps_partial hz (es := es) (fun e he => hall e (by simp [he])) (ss := ss)
    constructor
    · rintro ⟨ms, h, rfl⟩
      unfold gdmapsNew at h
      dsimp only at h
      cases hi : gdmapInit lib k v with
      | ub => rw [hi] at h; cases h
      | ok o =>
        rw [hi, Outcome.bind_ok] at h
        cases o with
        | none => cases h
        | some m =>
          dsimp only at h
          cases hg : gdmapsNew lib es with
          | ub => rw [hg] at h; cases h
          | ok o =>
            rw [hg, Outcome.map_ok] at h
            cases o with
            | none => simp at h
            | some ms' =>
              simp only [Option.map_some, Outcome.ok.injEq, Option.some.injEq] at h
              subst h
              cases v with
              | simple _ _ => cases hi
              | array _ => cases hi
              | hash fs =>
                obtain ⟨hc, ht⟩ := hall _ (List.mem_cons_self ..) fs rfl
                exact .cons ((C99_map_partial hz hc ht _).mp ⟨m, hi, rfl⟩) ((hrest _).mp ⟨ms', hg, rfl⟩)
    · intro h
      cases h with
      | cons h1 h2 =>
        obtain ⟨hc, ht⟩ := hall _ (List.mem_cons_self ..) _ rfl
        obtain ⟨m, h3, rfl⟩ := (C99_map_partial hz hc ht _).mpr h1
        obtain ⟨ms, h4, rfl⟩ := (hrest _).mpr h2
        refine ⟨m :: ms, ?_, rfl⟩
        unfold gdmapsNew
        dsimp only
        rw [h3, Outcome.bind_ok]
        dsimp only
        rw [h4]
        rfl

/-- C99: every map that is accepted has between 1 and 254 datacenters, whatever else is in the configuration. -/
theorem C99_count (lib : Lib) {es : List (Entry Val)} {ms : List Gdmap} (h : gdmapsNew lib es = .ok (some ms)) : ∀ m ∈ ms, 1 ≤ m.dcs.length ∧ m.dcs.length ≤ 254 := by
  induction es generalizing ms with
  | nil =>
    simp only [gdmapsNew, Outcome.ok.injEq, Option.some.injEq] at h
    subst h
    simp
  | cons e es ih =>
    unfold gdmapsNew at h
    cases hi : gdmapInit lib e.key e.val with
    | ub => rw [hi] at h; cases h
    | ok o =>
      rw [hi, Outcome.bind_ok] at h
      cases o with
      | none => cases h
      | some m =>
        dsimp only at h
        cases hg : gdmapsNew lib es with
        | ub => rw [hg] at h; cases h
        | ok o =>
          rw [hg, Outcome.map_ok] at h
          cases o with
          | none => simp at h
          | some ms' =>
            simp only [Option.map_some, Outcome.ok.injEq, Option.some.injEq] at h
            subst h
            intro x hx
            rcases List.mem_cons.mp hx with rfl | hx
            · exact init_count hi
            · exact ih hg x hx

/-- C99: the whole stanza is safe when each map is. -/
theorem C99_maps_total_partial (lib : Lib) : ∀ {es : List (Entry Val)}, (∀ e ∈ es, ∀ fs, e.val = .hash fs → Clean (.hash fs) ∧ Tame fs) → gdmapsNew lib es ≠ .ub
  | [], _ => nofun
  | e :: es, h => by
    have h1 : gdmapInit lib e.key e.val ≠ .ub := by
      cases hv : e.val with
      | hash fs =>
        obtain ⟨hc, ht⟩ := h e (List.mem_cons_self ..) fs hv
        exact C99_total_partial lib e.key hc ht
      | simple _ _ => nofun
      | array _ => nofun
    unfold gdmapsNew
    cases hi : gdmapInit lib e.key e.val with
    | ub => exact absurd hi h1
    | ok o =>
      rw [Outcome.bind_ok]
      cases o with
      | none => nofun
      | some m => exact map_safe (C99_maps_total_partial lib fun f hf => h f (by simp [hf]))

/-- C99 and C97: with the maps that the configuration has, loading the resources of geoip is safe. -/
theorem C99_geoip_total_partial (rlib : Res.Lib) (lib : Lib) (config tops : List (Entry Val)) (hc : Clean (.hash config)) (hz : MetaSpec.WholeKeys (.hash config))
    (htm : MetaSpec.Tame (nm "geoip") config) (ht : MetaSpec.Stanzas tops) : Meta.load rlib (Meta.geoip (table lib)) config tops ≠ .ub := by
  refine Meta.C97_geoip_total_partial rlib (table lib) ?_ config tops hc hz htm ht
  intro ms tab h m hm hne
  unfold table at h
  split at h
  · rename_i gs hg
    obtain rfl := Option.some.inj h
    obtain ⟨g, hg1, rfl⟩ := List.mem_map.mp hm
    have := (C99_count lib hg g hg1).1
    have h0 : g.dcs = [] := List.map_eq_nil_iff.mp hne
    rw [h0] at this
    simp at this
  · cases h

/-- C99: the state of every datacenter of a map can be set under its own name: that of the map and that of the datacenter. -/
theorem C99_admin (map : Bytes) (dcs : List Dc) (i : Nat) (d : Dc) (h : dcs[i]? = some d) : (admin map dcs)[i]? = some (nm "geoip/" ++ map ++ nm "/" ++ d.name) := by
  unfold admin
  rw [List.getElem?_map, h]
  rfl

/-- C99: a database is not used without coordinates or a `map` stanza: the program ends. The manual says that the default is
used. -/
theorem C99_false_no_map (m : Gdmap) (h1 : m.auto = false) (h2 : m.tree = none) (d : DbInfo) : usable m d = false := by
  unfold usable
  rw [h1, h2]
  simp

/-! ## C100: from records to datacenters -/

/-- C100: a record has at most one place. -/
theorem C100_place_unique {city : Bool} {r : Record} {l l' : List Bytes} (h : Place city r l) (h' : Place city r l') : l = l' := place_fun h h'

/-- C100: there is one list for each place: that of the innermost scope that mentions it, where names below the country that are
not mentioned are passed over. -/
theorem C100_maps_unique {names : List Bytes} {auto : Bool} (hau : nm "auto" ∉ names) {ms : List (Entry Val)} (hc : Clean (.hash ms)) {place : List Bytes} {o o' : Option Bytes}
    (h : GmapSpec.Maps names auto ms place o) (h' : GmapSpec.Maps names auto ms place o') : o = o' := leads_fun hau hc h h'

/-- What is found for a place, and the default. -/
theorem found {lib : Lib} (hz : Sized lib) {key : Bytes} {es ms : List (Entry Val)} (hc : Clean (.hash es)) (ht : Tame es) {m : Gdmap} (h : gdmapInit lib key (.hash es) = .ok (some m))
    (hst : Stanza es ms) {city : Bool} (hau : (m.auto || m.tree.isSome) = true) {r : Record} {place : List Bytes} (hp : Place city r place) :
    ∃ ref x l0, refOf m city r = .ok (some ref) ∧ Stands m.lists ref x ∧
      GmapSpec.Maps (m.dcs.map Dc.name) m.auto ms place x ∧ m.lists[0]? = some l0 ∧ Fallback (m.dcs.map Dc.name) m.auto ms l0 := by
  obtain ⟨_, _, hh⟩ := init_some hz hc ht.coords h
  have hn := (clean_hash hc).1
  rcases hh with ⟨h1, h2, h3⟩ | ⟨ms', t, l, h1, h2, h3, h4, h5⟩
  · have hms : ms = [] := by
      rcases hst with h' | ⟨_, h'⟩
      · rw [is_iff hn, absent_iff.mp h1] at h'; cases h'
      · exact h'
    subst hms
    rw [h2] at hau
    have hau : m.auto = true := by simpa using hau
    refine ⟨.auto, none, _, by unfold refOf; rw [h2], trivial, ?_, by rw [h3]; rfl, Or.inr ⟨fun v hv => ?_, rfl⟩⟩
    · unfold GmapSpec.Maps
      rw [if_pos hau]
      exact leads_none (by simp) (.outer (absent_iff.mpr rfl)) place 0
    · obtain ⟨e, he, _⟩ := hv
      cases he
  · have hms : ms = ms' := by
      rcases hst with h' | ⟨h', _⟩
      · rw [is_iff hn] at h' h1
        rw [h1] at h'
        cases h'
        rfl
      · rw [is_iff hn, absent_iff.mp h'] at h1; cases h1
    subst hms
    obtain ⟨ref, x, h6, h7, h8⟩ := lookup_built h5 hp
    exact ⟨ref, x, l, by unfold refOf; rw [h2]; exact h6, h7, h8, h3, h4⟩

theorem assert_ok {b : Bool} (h : b = true) : assert b = .ok () := by rw [h]; rfl

/-- C100: for every map that is accepted, every database that is used and every record in it, the list that is found is the one that
the `map` stanza says; for `auto`, that of the datacenters which are closest, or the default when the location is not known. -/
theorem C100_list_partial {lib : Lib} (hz : Sized lib) {key : Bytes} {es ms : List (Entry Val)} (hc : Clean (.hash es)) (ht : Tame es) {m : Gdmap} (h : gdmapInit lib key (.hash es) = .ok (some m))
    (hst : Stanza es ms) (hcov : Covers m.settings ms) {d : DbInfo} (hu : usable m d = true) {r : Record} {place : List Bytes} (hp : Place d.city r place)
    (hlat : r.lat ≠ .error) (hlon : r.lon ≠ .error) (hw : ∀ lat lon, Maps.Weak (Closer lib m.dcs lat lon)) {L : List Bytes} (hL : m.lists <+: L) (hlen : L.length ≤ LIST_MAX) :
    ∃ L' i l, getDclist lib m d.city L r = .ok (some (L', i)) ∧ L <+: L' ∧ L'[i]? = some l ∧ Gives lib m.settings ms place r l := by
  unfold usable at hu
  simp only [Bool.and_eq_true] at hu
  obtain ⟨⟨_, hcity⟩, hau⟩ := hu
  obtain ⟨ref, x, l0, h1, h2, h3, h4, h5⟩ := found hz hc ht h hst hau hp
  obtain ⟨hs, _, _⟩ := init_some hz hc ht.coords h
  obtain ⟨v, vs, hd1, hd2, hd3, hd4, hd5, hd6⟩ := hs.dcs
  have hL0 : L[0]? = some l0 := by
    have h6 := stands_mono hL (show Stands m.lists (.idx 0) (some l0) from h4)
    exact h6
  unfold getDclist
  rw [assert_ok (by rw [Bool.or_comm]; exact hau), Outcome.bind_ok, h1, Outcome.bind_ok]
  cases x with
  | some l =>
    cases ref with
    | auto => cases h2
    | idx i =>
      have h6 : L[i]? = some l := stands_mono hL h2
      have hi := (List.getElem?_eq_some_iff.mp h6).1
      dsimp only
      rw [assert_ok (by rw [decide_eq_true_eq]; omega)]
      exact ⟨L, i, l, rfl, List.prefix_refl _, h6, .listed h3⟩
  | none =>
    cases ref with
    | idx i => cases h2
    | auto =>
      have hma : m.auto = true := by
        cases hma : m.auto with
        | true => rfl
        | false =>
          unfold GmapSpec.Maps at h3
          rw [hma, if_neg (by simp)] at h3
          exact absurd rfl (leads_auto h3 (by simp))
      have hci : d.city = true := by rw [hma] at hcity; simpa using hcity
      dsimp only
      rw [assert_ok (by rw [hma, hci]; rfl), Outcome.bind_ok]
      cases ha : r.lat with
      | error => exact absurd ha hlat
      | absent => exact ⟨L, 0, l0, rfl, List.prefix_refl _, hL0, .unplaced h3 (Or.inl ha) h5⟩
      | num lat =>
        cases ho : r.lon with
        | error => exact absurd ho hlon
        | absent => exact ⟨L, 0, l0, rfl, List.prefix_refl _, hL0, .unplaced h3 (Or.inr ho) h5⟩
        | num lon =>
          dsimp only
          unfold autoMap
          dsimp only
          have hlim : m.limit ≤ m.dcs.length := by
            rcases hs.coords with ⟨_, hc2, _⟩ | ⟨cs, hc1, _, hc3, hc4⟩
            · exact absurd (hc2.symm.trans hma) (by simp)
            · refine Nat.le_trans (limit_le hc4) (located_count ?_ (ht.coords cs hc1) hc3)
              obtain ⟨e, he, _, hv⟩ := hc1
              have := (cleanOf_mem (clean_hash hc).2.2 he).1
              rw [hv] at this
              exact (clean_hash this).1
          obtain ⟨l, g1, g2⟩ := nearest_of (n := m.dcs.length) (limit := m.limit) hd5 (hcov hma l0 h5) hlim (hw lat lon)
          rw [hL0, Option.getD_some]
          change ∃ L' i l, (Maps.cityList m.dcs.length m.limit (l0.map UInt8.toNat) (Closer lib m.dcs lat lon)).map _ = _ ∧ _
          rw [g1, Outcome.map_ok]
          obtain ⟨L', i, g3, _⟩ := findOrAdd_ok (l.map Nat.toUInt8) hlen
          obtain ⟨g4, g5, _⟩ := findOrAdd_some g3
          exact ⟨L', i, _, by rw [g3], g4, g5, .near h3 ha ho h5 g2⟩

/-- C100: the datacenters that a record gets do not depend on the lists that were added before. -/
theorem C100_stable {lib : Lib} (hz : Sized lib) {key : Bytes} {es ms : List (Entry Val)} (hc : Clean (.hash es)) (ht : Tame es) {m : Gdmap} (h : gdmapInit lib key (.hash es) = .ok (some m))
    (hst : Stanza es ms) {d : DbInfo} (hu : usable m d = true) {r : Record} {place : List Bytes} (hp : Place d.city r place)
    {L L' A B : List Bytes} {i j : Nat} (hL : m.lists <+: L) (hL' : m.lists <+: L')
    (hA : getDclist lib m d.city L r = .ok (some (A, i))) (hB : getDclist lib m d.city L' r = .ok (some (B, j))) : A[i]? = B[j]? := by
  unfold usable at hu
  simp only [Bool.and_eq_true] at hu
  obtain ⟨⟨_, hcity⟩, hau⟩ := hu
  obtain ⟨ref, x, l0, h1, h2, h3, h4, h5⟩ := found hz hc ht h hst hau hp
  have hL0 : L[0]? = some l0 := stands_mono hL (show Stands m.lists (.idx 0) (some l0) from h4)
  have hL0' : L'[0]? = some l0 := stands_mono hL' (show Stands m.lists (.idx 0) (some l0) from h4)
  unfold getDclist at hA hB
  rw [assert_ok (by rw [Bool.or_comm]; exact hau), Outcome.bind_ok, h1, Outcome.bind_ok] at hA hB
  cases x with
  | some l =>
    cases ref with
    | auto => cases h2
    | idx k =>
      have h6 : L[k]? = some l := stands_mono hL h2
      have h7 : L'[k]? = some l := stands_mono hL' h2
      dsimp only at hA hB
      cases ha : assert (decide (k ≤ LIST_MAX)) with
      | ub => rw [ha] at hA; cases hA
      | ok _ =>
        rw [ha, Outcome.map_ok] at hA hB
        simp only [Outcome.ok.injEq, Option.some.injEq, Prod.mk.injEq] at hA hB
        obtain ⟨rfl, rfl⟩ := hA
        obtain ⟨rfl, rfl⟩ := hB
        rw [h6, h7]
  | none =>
    cases ref with
    | idx i => cases h2
    | auto =>
      dsimp only at hA hB
      cases ha : assert (m.auto && d.city) with
      | ub => rw [ha] at hA; cases hA
      | ok _ =>
        rw [ha, Outcome.bind_ok] at hA hB
        cases hla : r.lat with
        | error => rw [hla] at hA; cases hA
        | absent =>
          rw [hla] at hA hB
          simp only [Outcome.ok.injEq, Option.some.injEq, Prod.mk.injEq] at hA hB
          obtain ⟨rfl, rfl⟩ := hA
          obtain ⟨rfl, rfl⟩ := hB
          rw [hL0, hL0']
        | num lat =>
          rw [hla] at hA hB
          dsimp only at hA hB
          cases hlo : r.lon with
          | error => rw [hlo] at hA; cases hA
          | absent =>
            rw [hlo] at hA hB
            simp only [Outcome.ok.injEq, Option.some.injEq, Prod.mk.injEq] at hA hB
            obtain ⟨rfl, rfl⟩ := hA
            obtain ⟨rfl, rfl⟩ := hB
            rw [hL0, hL0']
          | num lon =>
            rw [hlo] at hA hB
            dsimp only at hA hB
            unfold autoMap at hA hB
            dsimp only at hA hB
            rw [hL0] at hA
            rw [hL0'] at hB
            generalize Maps.cityList _ _ _ _ = o at hA hB
            cases o with
            | ub => cases hA
            | ok l =>
              rw [Outcome.map_ok] at hA hB
              rw [(findOrAdd_some (Outcome.ok.inj hA)).2.1, (findOrAdd_some (Outcome.ok.inj hB)).2.1]

/-- C100: without a `default` in the stanza, or with `auto` there, the default list has every datacenter. -/
theorem C100_covers {lib : Lib} {key : Bytes} {es ms : List (Entry Val)} {s : GmapSpec.Settings} (hs : GmapSpec.Says lib key es s) (hms : ∀ v, Is ms "default" v → ListOf (s.dcs.map Dc.name) s.auto v none) :
    Covers s ms := by
  intro _ l hl
  obtain ⟨v, vs, _, _, _, _, hd5, hd6⟩ := hs.dcs
  rcases hl with ⟨v, h1, h2⟩ | ⟨_, rfl⟩
  · cases listOf_fun hd6 (hms v h1) h2
  · rw [every_toNat (by rw [List.length_map]; omega), List.length_map]

/-- C100: when the C library finds that every datacenter with coordinates is closer than one without, the list of the closest has
only those with coordinates, if all coordinates are numbers. -/
theorem C100_located {lib : Lib} {key : Bytes} {es cs : List (Entry Val)} (hc : Clean (.hash es)) (ht : Tame es) {s : GmapSpec.Settings} (hs : GmapSpec.Says lib key es s) (hcs : Is es "auto_dc_coords" (.hash cs))
    (hnum : ∀ e ∈ cs, ∀ c, At lib e.val c → c ≠ none) {lat lon : Dbl} (hfar : ∀ c, lib.closer (lat, lon) (some c) none = true) (hnear : ∀ c, lib.closer (lat, lon) none c = false) {l0 l : Bytes}
    (hl : Nearest (Closer lib s.dcs lat lon) s.limit s.dcs.length l0 l) : ∀ a ∈ l, ∃ d c, s.dcs[a.toNat - 1]? = some d ∧ d.coords = some c := by
  have hn := (clean_hash hc).1
  have hkn : (cs.map (·.key)).Nodup := by
    obtain ⟨e, he, _, hv⟩ := hcs
    have := (cleanOf_mem (clean_hash hc).2.2 he).1
    rw [hv] at this
    exact (clean_hash this).1
  obtain ⟨v, vs, _, _, _, _, hd5, hd6⟩ := hs.dcs
  rcases hs.coords with ⟨h1, _⟩ | ⟨cs', h1, _, hlo, hlim⟩
  · rw [is_iff hn, absent_iff.mp h1] at hcs; cases hcs
  obtain rfl : cs = cs' := by
    rw [is_iff hn] at hcs h1
    rw [h1] at hcs
    cases hcs
    rfl
  have hz := ht.coords cs hcs
  have hin : ∀ e ∈ cs, ∃ (i : Nat) (d : Dc) (c : Dbl × Dbl), idx (s.dcs.map Dc.name) e.key = some i ∧ s.dcs[i]? = some d ∧ d.coords = some c := by
    intro e he
    obtain ⟨n, k, g1, g2⟩ := hlo.keys e he
    obtain rfl := upToZero_iff.mp g1
    rw [cstr_self (hz e he)] at g2
    obtain ⟨i, rfl, g3, g4⟩ := g2
    have hi : idx (s.dcs.map Dc.name) e.key = some i := idx_number.mpr ⟨i, rfl, g3, g4⟩
    have hd : ∃ d, s.dcs[i]? = some d ∧ d.name = e.key := by
      rw [List.getElem?_map] at g3
      exact Option.map_eq_some_iff.mp g3
    obtain ⟨d, hd, hdn⟩ := hd
    rcases hlo.coords i d hd with ⟨f, hf, _, _, g7⟩ | ⟨g5, _⟩
    · obtain ⟨c, hc'⟩ := Option.ne_none_iff_exists'.mp (hnum f hf _ g7)
      exact ⟨i, d, c, hi, hd, hc'⟩
    · exact absurd ⟨i, rfl, g3, g4⟩ (g5 e he e.key (upToZero_iff.mpr (cstr_self (hz e he)).symm))
  let loc : List UInt8 := cs.map fun e => (name2num (s.dcs.map Dc.name) e.key).toUInt8
  have hnum' : ∀ e ∈ cs, ∃ (i : Nat) (d : Dc) (c : Dbl × Dbl), (name2num (s.dcs.map Dc.name) e.key).toUInt8.toNat = i + 1 ∧ idx (s.dcs.map Dc.name) e.key = some i ∧ s.dcs[i]? = some d ∧ d.coords = some c := by
    intro e he
    obtain ⟨i, d, c, g1, g2, g3⟩ := hin e he
    have hlt := (List.getElem?_eq_some_iff.mp g2).1
    refine ⟨i, d, c, ?_, g1, g2, g3⟩
    rw [(name2num_iff.mp (idx_number.mp g1)).1]
    show (UInt8.ofNat (i + 1)).toNat = i + 1
    rw [UInt8.toNat_ofNat']
    omega
  have hnd : loc.Nodup := by
    refine List.pairwise_map.mpr ((List.pairwise_map.mp hkn).imp_of_mem fun {a b} ha hb hne heq => hne ?_)
    obtain ⟨i, _, _, g1, g2, _⟩ := hnum' a ha
    obtain ⟨j, _, _, g3, g4, _⟩ := hnum' b hb
    rw [heq, g3] at g1
    obtain rfl : i = j := by omega
    exact Option.some.inj ((idx_get g2).symm.trans (idx_get g4))
  intro a ha
  obtain ⟨k1, k2⟩ := hl.known a ha
  obtain ⟨d, hd⟩ : ∃ d, s.dcs[a.toNat - 1]? = some d := ⟨s.dcs[a.toNat - 1]'(by omega), List.getElem?_eq_getElem (by omega)⟩
  cases hco : d.coords with
  | some c => exact ⟨d, c, hd, hco⟩
  | none =>
    exfalso
    have hal : a ∉ loc := by
      intro h
      obtain ⟨e, he, rfl⟩ := List.mem_map.mp h
      obtain ⟨i, d', c, g1, _, g2, g3⟩ := hnum' e he
      rw [g1, Nat.add_sub_cancel, g2] at hd
      obtain rfl := Option.some.inj hd
      rw [g3] at hco
      cases hco
    have hsub : a :: loc ⊆ l := by
      intro b hb
      rcases List.mem_cons.mp hb with rfl | hb
      · exact ha
      · refine Decidable.byContradiction fun hbl => ?_
        obtain ⟨e, he, rfl⟩ := List.mem_map.mp hb
        obtain ⟨i, d', c, g1, _, g2, g3⟩ := hnum' e he
        have hlt := (List.getElem?_eq_some_iff.mp g2).1
        have hbe := hl.best a ha _ (by omega) (by omega) hbl
        unfold Maps.Before Closer at hbe
        rw [hd, g1, Nat.add_sub_cancel, g2, Option.bind_some, Option.bind_some, hco, g3] at hbe
        rcases hbe with hbe | ⟨hbe, _⟩
        · rw [hnear] at hbe; cases hbe
        · rw [hfar] at hbe; cases hbe
    have := (List.nodup_cons.mpr ⟨hal, hnd⟩).length_le_of_subset hsub
    rw [List.length_cons, hl.length, List.length_map] at this
    have := limit_le hlim
    omega

/-- C100: with texts of at most 127 bytes, nothing is written outside of an array while a place is looked up, and the lookup ends. -/
theorem C100_total_partial (city : Bool) (r : Record) (t : Dcmap) (h : Short r) : lookupLoc city r t ≠ .ub := llc_safe h 13 (by omega) (by omega)

theorem lookup_map {α β : Type} (f : α → β) (k : Nat) : ∀ l : List (Nat × α), (l.map fun p => (p.1, f p.2)).lookup k = (l.lookup k).map f
  | [] => rfl
  | (a, b) :: l => by
    rw [List.map_cons, List.lookup_cons, List.lookup_cons, lookup_map f k l]
    cases (k == a) <;> rfl

theorem lookup_mem {α : Type} {k : Nat} {b : α} : ∀ {l : List (Nat × α)}, l.lookup k = some b → (k, b) ∈ l
  | (a, c) :: l, h => by
    rw [List.lookup_cons] at h
    split at h
    · rename_i he
      obtain rfl := Option.some.inj h
      rw [beq_iff_eq.mp he]
      exact List.mem_cons_self ..
    · exact List.mem_cons_of_mem _ (lookup_mem h)

/-- C100 and C35: whatever the interleaving of reloads and lookups of a map, the datacenters that a client gets which is in none of
the `nets` are those that the configuration says for the record which the database has for the address. -/
theorem C100_client_partial {lib : Lib} (hz : Sized lib) {key : Bytes} {es ms : List (Entry Val)} (hc : Clean (.hash es)) (ht : Tame es) {m : Gdmap} (h : gdmapInit lib key (.hash es) = .ok (some m))
    (hst : Stanza es ms) (hcov : Covers m.settings ms) {d : DbInfo} (hu : usable m d = true) {recs : List (Nat × Record)}
    (hrec : ∀ p ∈ recs, (∃ place, Place d.city p.2 place) ∧ p.2.lat ≠ .error ∧ p.2.lon ≠ .error) (hw : ∀ lat lon, Maps.Weak (Closer lib m.dcs lat lon)) (hlen : m.lists.length ≤ LIST_MAX)
    {g : Maps.GeoCfg} (hg : g.src = recs.map fun p => (p.1, Maps.Src.near (content lib m d.city m.lists p.2)))
    {sort : List Geo.Net → List Geo.Net} (hs : Geo.SortOk sort) {n : Nat} {s0 s : Maps.State} (h0 : Maps.init (m.lists[0]?.getD []) m.lists.tail n m.ignoreEcs = .ok (some s0)) (hr : Maps.Reach sort s0 s)
    {k : Nat} {c : Geo.Client} {t i : Nat} {b : Bytes} (hgot : s.readers[k]? = some (.got c t i b)) :
    ∃ made, s.made[t]? = some made ∧ (made.geo = some g → (∀ x ∈ made.nets, ¬ x.bits <+: Geo.target (c.addr m.ignoreEcs)) →
      DbGives lib m.settings ms d.city recs g (Geo.target (c.addr m.ignoreEcs)) b) := by
  obtain ⟨made, h1, _, h3⟩ := Maps.C35_meaning hs h0 hr hgot
  refine ⟨made, h1, fun hge hno => ?_⟩
  have hsay := h3.2 hno
  rw [hge] at hsay
  have hdef : Fallback (m.dcs.map Dc.name) m.auto ms (m.lists[0]?.getD []) := by
    have hau : (m.auto || m.tree.isSome) = true := by
      unfold usable at hu
      simp only [Bool.and_eq_true] at hu
      exact hu.2
    have hpl : Place false ⟨.absent, .absent, fun _ => .absent, .absent, .absent, .absent⟩ [] := .nowhere (Or.inr ⟨rfl, rfl⟩)
    obtain ⟨_, _, l0, _, _, _, h4, h5⟩ := found hz hc ht h hst hau hpl
    rw [h4]
    exact h5
  have hsay : Maps.GeoCfg.Says g (m.lists[0]?.getD []) m.lists.tail (Geo.target (c.addr m.ignoreEcs)) b := hsay
  unfold Maps.GeoCfg.Says at hsay
  unfold DbGives
  split at hsay
  · rename_i hroot
    rw [if_pos hroot]
    obtain ⟨r, h4, rfl⟩ := hsay
    refine ⟨r, h4, ?_⟩
    cases r with
    | zero => exact hdef
    | succ off =>
      dsimp only [Maps.GeoCfg.lists]
      rw [hg, lookup_map (fun r => Maps.Src.near (content lib m d.city m.lists r))]
      cases hlk : recs.lookup off with
      | none => exact hdef
      | some rec =>
        obtain ⟨⟨place, hp⟩, hlat, hlon⟩ := hrec _ (lookup_mem hlk)
        obtain ⟨L', j, l, h5, _, h7, h8⟩ := C100_list_partial hz hc ht h hst hcov hu hp hlat hlon hw (List.prefix_refl _) hlen
        refine ⟨place, hp, ?_⟩
        have : Maps.contOf (m.lists[0]?.getD []) m.lists.tail ((some rec).map fun r => Maps.Src.near (content lib m d.city m.lists r)) = l := by
          show content lib m d.city m.lists rec = l
          unfold content
          rw [h5]
          dsimp only
          rw [h7]
          rfl
        rw [this]
        exact h8
  · rename_i hroot
    rw [if_neg hroot, hsay]
    exact hdef

/-! ## Examples -/

/-- A text. -/
private abbrev tx (s : String) : Val := .simple (str s) (str s)

/-- An option. -/
private abbrev en (k : String) (v : Val) : Entry Val := ⟨str k, false, v⟩

/-- A C library that knows a few texts: equally far are all datacenters with coordinates. -/
def exLib : Lib where
  dbl t := if t = str "nan" then some .nan else if t = str "100" then some (.num false 100 0) else if t = str "-20.5" then some (.num true 41 1) else none
  sock a m := if a = str "10.0.0.0" ∧ m = str "8" then some (.v4 [10, 0, 0, 0] 8) else if a = str "fd00::" ∧ m = str "8" then some (.v6 (0xFD :: List.replicate 15 0) 8) else none
  closer _ a b := a.isSome && b.isNone

theorem exSized : Sized exLib := by
  intro a m
  constructor
  · intro ip p h
    simp only [exLib] at h
    split at h
    · cases h; rfl
    · split at h <;> cases h
  · intro ip p h
    simp only [exLib] at h
    split at h
    · cases h
    · split at h
      · cases h; rfl
      · cases h

/-- The `map` stanza of the example. -/
def exStanza : List (Entry Val) :=
  [en "EU" (.hash [en "default" (tx "eu"), en "FR" (.array [tx "eu", tx "us"])]), en "NA" (.hash [en "US" (.hash [en "TX" (tx "us"), en "Juneau" (.array [tx "as", tx "us"])])])]

/-- A map with everything. -/
def exMap : List (Entry Val) :=
  [en "datacenters" (.array [tx "us", tx "eu", tx "as"]), en "auto_dc_coords" (.hash [en "us" (.array [tx "-20.5", tx "100"]), en "as" (.array [tx "-20.5", tx "-20.5"])]),
    en "auto_dc_limit" (tx "2"), en "ignore_ecs" (tx "true"), en "geoip2_db" (tx "c.mmdb"), en "map" (.hash exStanza),
    en "nets" (.hash [en "10.0.0.0/8" (tx "as"), en "fd00::/8" (.array [tx "eu", tx "as"])])]

/-- What becomes of it, without the tree. -/
def exSettings : GmapSpec.Settings :=
  ⟨str "m", [⟨str "us", some (.num true 41 1, .num false 100 0)⟩, ⟨str "eu", none⟩, ⟨str "as", some (.num true 41 1, .num true 41 1)⟩], 2, true, true, some (str "c.mmdb"),
    .inline [.v4 [10, 0, 0, 0] 8 [3], .v6 (0xFD :: List.replicate 15 0) 8 [2, 3]]⟩

/-- The tree. -/
def exTree : Dcmap :=
  .node .auto (.cons (str "EU") (.node (.idx 1) (.cons (str "FR") (.list (.idx 2)) .nil))
    (.cons (str "NA") (.node .auto (.cons (str "US") (.node .auto (.cons (str "TX") (.list (.idx 3)) (.cons (str "Juneau") (.list (.idx 4)) .nil))) .nil)) .nil))

/-- The map. -/
def exGdmap : Gdmap :=
  ⟨exSettings.name, exSettings.dcs, exSettings.limit, exSettings.auto, exSettings.ignoreEcs, exSettings.db, some exTree, [[1, 2, 3], [2], [2, 1], [1], [3, 1]], exSettings.nets⟩

theorem exInit : gdmapInit exLib (str "m") (.hash exMap) = .ok (some exGdmap) := by with_unfolding_all rfl

theorem exClean : Clean (.hash exMap) := by
  have two : ∀ a b, Clean (.array [tx a, tx b]) := fun _ _ => .array (.cons .simple (.cons .simple .nil))
  refine .hash (by decide +kernel) (.cons (.array (.cons .simple (.cons .simple (.cons .simple .nil)))) (.cons ?_ (.cons .simple (.cons .simple (.cons .simple (.cons ?_ (.cons ?_ .nil)))))))
  · exact .hash (by decide +kernel) (.cons (two _ _) (.cons (two _ _) .nil))
  · refine .hash (by decide +kernel) (.cons (.hash (by decide +kernel) (.cons .simple (.cons (two _ _) .nil))) (.cons (.hash (by decide +kernel) (.cons ?_ .nil)) .nil))
    exact .hash (by decide +kernel) (.cons .simple (.cons (two _ _) .nil))
  · exact .hash (by decide +kernel) (.cons .simple (.cons (two _ _) .nil))

theorem exTame : Tame exMap := by
  have hn := (clean_hash exClean).1
  have brief : ∀ s, Brief (tx s) := fun _ _ h => by cases h
  have brief2 : ∀ a b, Brief (.array [tx a, tx b]) := fun a b vs h => by cases h; simp
  refine ⟨fun v h => ?_, fun ms h => ?_, fun ns h => ?_, fun cs h => ?_⟩
  · rw [is_iff hn] at h
    have : find exMap (str "ignore_ecs") = some (tx "true") := by with_unfolding_all rfl
    rw [this] at h
    exact ⟨_, _, (Option.some.inj h).symm⟩
  · rw [is_iff hn] at h
    have : find exMap (str "map") = some (.hash exStanza) := by with_unfolding_all rfl
    rw [this] at h
    cases h
    refine ⟨.sub (.list nofun (brief _) (.list nofun (brief2 _ _) .nil)) (.sub (.sub (.list nofun (brief _) (.list nofun (brief2 _ _) .nil)) .nil) .nil), ?_⟩
    decide +kernel
  · rw [is_iff hn] at h
    have : find exMap (str "nets") = some (.hash [en "10.0.0.0/8" (tx "as"), en "fd00::/8" (.array [tx "eu", tx "as"])]) := by with_unfolding_all rfl
    rw [this] at h
    cases h
    intro e he
    simp only [List.mem_cons, List.not_mem_nil, or_false] at he
    rcases he with rfl | rfl
    · exact brief _
    · exact brief2 _ _
  · rw [is_iff hn] at h
    have : find exMap (str "auto_dc_coords") = some (.hash [en "us" (.array [tx "-20.5", tx "100"]), en "as" (.array [tx "-20.5", tx "-20.5"])]) := by with_unfolding_all rfl
    rw [this] at h
    cases h
    intro e he
    simp only [List.mem_cons, List.not_mem_nil, or_false] at he
    rcases he with rfl | rfl <;> (change (0 : UInt8) ∉ str _; decide +kernel)

/-- The example is a map with just these settings. -/
example : GmapSpec.Says exLib (str "m") exMap exSettings := (C99_map_partial exSized exClean exTame exSettings).mp ⟨exGdmap, exInit, rfl⟩

example : AllSay exLib [en "m" (.hash exMap)] [exSettings] := (C99_maps_partial exSized (fun e he fs hv => by
  simp only [List.mem_cons, List.not_mem_nil, or_false] at he
  subst he
  cases hv
  exact ⟨exClean, exTame⟩)).mp ⟨[exGdmap], by unfold gdmapsNew; dsimp only; rw [exInit]; rfl, rfl⟩

/-- Some of what is refused: a datacenter `auto`, an unknown one, a location that does not exist, a list in `default`'s place that is a
hash, a network that stands for IPv4, a mask that is too long, an unknown key, and a stanza without a database. -/
example : (gdmapInit exLib (str "m") (.hash [en "datacenters" (.array [tx "us", tx "auto"])])).map Option.isSome = .ok false ∧
    (gdmapInit exLib (str "m") (.hash [en "datacenters" (tx "us"), en "geoip2_db" (tx "c"), en "map" (.hash [en "EU" (tx "eu")])])).map Option.isSome = .ok false ∧
    (gdmapInit exLib (str "m") (.hash [en "datacenters" (tx "us"), en "auto_dc_coords" (.hash [en "us" (.array [tx "100", tx "100"])])])).map Option.isSome = .ok false ∧
    (gdmapInit exLib (str "m") (.hash [en "datacenters" (tx "us"), en "geoip2_db" (tx "c"), en "map" (.hash [en "default" (.hash [])])])).map Option.isSome = .ok false ∧
    (gdmapInit exLib (str "m") (.hash [en "datacenters" (tx "us"), en "nets" (.hash [en "10.0.0.0" (tx "us")])])).map Option.isSome = .ok false ∧
    (gdmapInit exLib (str "m") (.hash [en "datacenters" (tx "us"), en "geoip2_dbs" (tx "c")])).map Option.isSome = .ok false ∧
    (gdmapInit exLib (str "m") (.hash [en "datacenters" (tx "us"), en "map" (.hash [])])).map Option.isSome = .ok false := by decide +kernel

/-- C99 needs lists of at most 255 elements: one of 256 is written past the end of the array. -/
theorem C99_false_overflow : (gdmapInit exLib (str "m") (.hash [en "datacenters" (tx "us"), en "nets" (.hash [en "10.0.0.0/8" (.array (List.replicate 256 (tx "us")))])])).map Option.isSome = .ub := by
  decide +kernel

/-- C99 needs `ignore_ecs` to be a text: an array fails an assertion. -/
theorem C99_false_ecs : gdmapInit exLib (str "m") (.hash [en "datacenters" (tx "us"), en "ignore_ecs" (.array [tx "true", tx "false"])]) = .ub := by
  with_unfolding_all rfl

/-- C99: a latitude that is not a number is accepted; the datacenter is then one without coordinates, which still counts for the
limit. -/
theorem C99_false_nan : (gdmapInit exLib (str "m") (.hash [en "datacenters" (tx "us"), en "auto_dc_coords" (.hash [en "us" (.array [tx "nan", tx "100"])])])).map
    (fun o => o.map fun m => (m.dcs, m.limit)) = .ok (some ([⟨str "us", none⟩], 1)) := by
  with_unfolding_all rfl

/-- A record for Juneau, in a subdivision that the stanza does not mention. -/
def exRecord : Record := ⟨.text (str "NA"), .text (str "US"), fun i => if i = 0 then .text (str "AK") else .absent, .text (str "Juneau"), .num (.num false 58 0), .num (.num true 134 0)⟩

theorem exPlace : Place true exRecord [str "NA", str "US", str "AK", str "Juneau"] := by
  have name : ∀ s : String, (str s).length < 128 → (0 : UInt8) ∉ str s → NameIn (.text (str s)) (str s) := fun s h1 h2 => Or.inl ⟨_, rfl, h1, upToZero_iff.mpr (cstr_self h2).symm⟩
  refine .below (name "NA" (by decide +kernel) (by decide +kernel)) (by decide +kernel) (name "US" (by decide +kernel) (by decide +kernel)) (by decide +kernel) rfl ?_
  refine .sub (b := str "AK") (by omega) rfl (by decide +kernel) (upToZero_iff.mpr (by decide +kernel)) (by decide +kernel) ?_
  exact .city (by omega) rfl (name "Juneau" (by decide +kernel) (by decide +kernel)) (by decide +kernel)

/-- A database of cities. -/
def exDb : DbInfo := ⟨2, 28, 6, str "GeoIP2-City"⟩

theorem exUsable : usable exGdmap exDb = true := by decide +kernel

theorem exStanzaOf : Stanza exMap exStanza := Or.inl ((is_iff (clean_hash exClean).1).mpr (by with_unfolding_all rfl))

theorem exCovers : Covers exGdmap.settings exStanza := by
  refine C100_covers ((C99_map_partial exSized exClean exTame exSettings).mp ⟨exGdmap, exInit, rfl⟩) fun v hv => ?_
  obtain ⟨e, he, hk, _⟩ := hv
  simp only [exStanza, List.mem_cons, List.not_mem_nil, or_false] at he
  rcases he with rfl | rfl
  · exact absurd hk (by change str "EU" ≠ str "default"; decide +kernel)
  · exact absurd hk (by change str "NA" ≠ str "default"; decide +kernel)

theorem exWeak (dcs : List Dc) (lat lon : Dbl) : Maps.Weak (Closer exLib dcs lat lon) := by
  refine ⟨fun a => ?_, fun a b => ?_, fun a b c => ?_⟩
  all_goals
    simp only [Closer, exLib]
    generalize dcs[a - 1]?.bind Dc.coords = x
  · cases x <;> rfl
  · generalize dcs[b - 1]?.bind Dc.coords = y
    cases x <;> cases y <;> simp
  · generalize dcs[b - 1]?.bind Dc.coords = y
    generalize dcs[c - 1]?.bind Dc.coords = z
    cases x <;> cases y <;> cases z <;> simp

/-- For the record there is a list, and it is what the stanza says for Juneau. -/
example : ∃ L' i l, getDclist exLib exGdmap true exGdmap.lists exRecord = .ok (some (L', i)) ∧ L'[i]? = some l ∧ Gives exLib exSettings exStanza [str "NA", str "US", str "AK", str "Juneau"] exRecord l := by
  obtain ⟨L', i, l, h1, _, h3, h4⟩ := C100_list_partial exSized exClean exTame exInit exStanzaOf exCovers exUsable exPlace nofun nofun (exWeak _) (List.prefix_refl _) (by decide +kernel)
  exact ⟨L', i, l, h1, h3, h4⟩

example : content exLib exGdmap true exGdmap.lists exRecord = [3, 1] := by decide +kernel

/-- A place that is not mentioned, with and without its location. -/
example : content exLib exGdmap true exGdmap.lists ⟨.text (str "AS"), .text (str "JP"), fun _ => .absent, .absent, .num (.num false 35 0), .num (.num false 139 0)⟩ = [1, 3] ∧
    content exLib exGdmap true exGdmap.lists ⟨.text (str "AS"), .text (str "JP"), fun _ => .absent, .absent, .absent, .absent⟩ = [1, 2, 3] ∧
    content exLib exGdmap true exGdmap.lists ⟨.text (str "eu"), .text (str "DE"), fun _ => .absent, .absent, .absent, .absent⟩ = [2] := by decide +kernel

example : ∀ t : Dcmap, lookupLoc true exRecord t ≠ .ub := fun t => C100_total_partial true exRecord t
  ⟨fun t h => by cases h; decide +kernel, fun t h => by cases h; decide +kernel, fun i t h => (by
    simp only [exRecord] at h
    split at h
    · cases h; decide +kernel
    · cases h), fun t h => by cases h; decide +kernel⟩

/-- A database for IPv4 where the upper half of the addresses has the record. -/
def exGeo : Maps.GeoCfg := ⟨fun n => if n = 0 then some (.empty, .data 7) else none, [(7, .near (content exLib exGdmap true exGdmap.lists exRecord))], true⟩

/-- A load of it and two lookups, of 192.0.2.1 and 10.1.2.3. -/
def exRun : List Maps.Action :=
  [.nets (some []), .geo exGeo, .begin, .assignTree, .sync, .finish, .start, .enter 0 ⟨.v4 0xC0000201, .v4 0, 0⟩, .loadTree 0, .look 0, .loadLists 0, .getList 0, .use 0,
   .enter 1 ⟨.v4 0x0A010203, .v4 0, 0⟩, .loadTree 1, .look 1, .loadLists 1, .getList 1, .use 1]

/-- The first gets the list for Juneau, the second the default. -/
example : exGeo.src = [(7, exRecord)].map (fun p => (p.1, Maps.Src.near (content exLib exGdmap exDb.city exGdmap.lists p.2))) ∧
    (Maps.init (exGdmap.lists[0]?.getD []) exGdmap.lists.tail 2 exGdmap.ignoreEcs).bind (fun o => match o with
      | none => .ok none
      | some s => (Maps.run Geo.isort s exRun).map fun o => o.map fun s => (s.readers.map Maps.Phase.result, s.made.map fun m => m.geo.isSome)) =
    .ok (some ([some [3, 1], some [1, 2, 3]], [true])) := by
  have hcity : exDb.city = true := by decide +kernel
  exact ⟨by rw [hcity]; rfl, by decide +kernel⟩

/-- Datacenters without coordinates are not among the closest. -/
example {lat lon : Dbl} {l0 l : Bytes} (hl : Nearest (Closer exLib exSettings.dcs lat lon) exSettings.limit exSettings.dcs.length l0 l) :
    ∀ a ∈ l, ∃ d c, exSettings.dcs[a.toNat - 1]? = some d ∧ d.coords = some c := by
  refine C100_located (cs := [en "us" (.array [tx "-20.5", tx "100"]), en "as" (.array [tx "-20.5", tx "-20.5"])]) exClean exTame
    ((C99_map_partial exSized exClean exTame exSettings).mp ⟨exGdmap, exInit, rfl⟩) ((is_iff (clean_hash exClean).1).mpr (by with_unfolding_all rfl)) (fun e he c hc => ?_) (fun c => rfl) (fun c => rfl) hl
  rw [← at_iff] at hc
  simp only [List.mem_cons, List.not_mem_nil, or_false] at he
  rintro rfl
  rcases he with rfl | rfl
  · revert hc
    change coordsOf exLib (.array [tx "-20.5", tx "100"]) = some none → False
    decide +kernel
  · revert hc
    change coordsOf exLib (.array [tx "-20.5", tx "-20.5"]) = some none → False
    decide +kernel

/-- C100 needs texts of at most 127 bytes: a longer one is written past the end of the buffer. -/
theorem C100_false_long : lookupLoc true ⟨.text (List.replicate 128 65), .absent, fun _ => .absent, .absent, .absent, .absent⟩ exTree = .ub := by decide +kernel

end Gdnsd.Gmap
