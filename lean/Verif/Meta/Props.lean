/-
C97: the resources of `metafo` and `geoip`.
-/
import Verif.Meta.Load
import Verif.Wt.Props
namespace Gdnsd.Meta
open Vscf VscfSpec Conf ConfSpec SvcSpec MetaSpec
open ResSpec (Others SvcsOf FlagOf)
open Res (Lib texts svcNames label marks marks_eq others others_iff clean_sound cleanOf_sound find_setMark find_append ent txt exLib)

/-! ### What is accepted -/

/-- metafo: for every configuration, what is accepted is what the manual says, with the resources and their datacenters in
their order, and the stanzas of the plugins get the resources that are written in place. -/
theorem C97_metafo (lib : Lib) (config tops : List (Entry Val)) (hc : Clean (.hash config)) (hz : WholeKeys (.hash config)) (rs : List Resource) (tops' : List (Entry Val)) :
    load lib metafo config tops = .ok (some (rs, tops')) ↔ Loads lib MetaSpec.metafo config tops rs tops' := load_iff agree_metafo hc hz

/-- geoip: the same with maps. -/
theorem C97_geoip (lib : Lib) (gdmaps : List (Entry Val) → Option (List (Bytes × List Bytes))) (config tops : List (Entry Val)) (hc : Clean (.hash config)) (hz : WholeKeys (.hash config))
    (rs : List Resource) (tops' : List (Entry Val)) :
    load lib (geoip gdmaps) config tops = .ok (some (rs, tops')) ↔ Loads lib (MetaSpec.geoip gdmaps) config tops rs tops' := load_iff (agree_geoip gdmaps) hc hz

/-! ### No assertion fails -/

theorem within_ok {k : Bytes} {f : List (Entry Val) → Outcome (Option (List (Entry Val)))} {es : List (Entry Val)} (hh : ∀ v, find es k = some v → ∃ fs, v = .hash fs ∧ f fs ≠ .ub)
    (h0 : f [] ≠ .ub) : within k f es ≠ .ub := by
  unfold within
  cases hf : find es k with
  | none =>
    dsimp only
    cases h : f [] with
    | ub => exact absurd h h0
    | ok o => nofun
  | some v =>
    obtain ⟨fs, rfl, h1⟩ := hh v hf
    dsimp only
    cases h : f fs with
    | ub => exact absurd h h1
    | ok o => nofun

theorem addTo_ok {p child : Bytes} {v : Val} {tops : List (Entry Val)} (h : Stanzas tops) : addTo p child v tops ≠ .ub := by
  unfold addTo
  refine within_ok ?_ ?_
  · intro w hw
    obtain ⟨e, h1, h2, rfl⟩ := find_some hw
    obtain ⟨fs, h3, h4⟩ := h e h1
    refine ⟨fs, h3, ?_⟩
    by_cases hp : p = str "metafo"
    · rw [if_pos hp]
      refine within_ok ?_ nofun
      intro w hw
      obtain ⟨f, g1, g2, rfl⟩ := find_some hw
      obtain ⟨rs, g3⟩ := h4 (h2.trans hp) f g1 g2
      exact ⟨rs, g3, nofun⟩
    · rw [if_neg hp]
      nofun
  · by_cases hp : p = str "metafo"
    · rw [if_pos hp]
      exact within_ok nofun nofun
    · rw [if_neg hp]
      nofun

theorem stanzas_synth {p name : Bytes} {opts tops tops' : List (Entry Val)} (h : Synthesized p name opts tops tops') (ht : Stanzas tops) : Stanzas tops' := by
  rcases h with ⟨hp, h⟩ | ⟨rfl, h⟩
  · cases h with
    | new _ h2 =>
      intro e he
      rcases List.mem_append.mp he with he | he
      · exact ht e he
      · cases List.mem_singleton.mp he
        exact ⟨_, rfl, fun h => absurd h hp⟩
    | @old es m fs fs' es' _ h2 =>
      intro e he
      rcases List.mem_append.mp he with he | he
      · exact ht e (by simp [he])
      · rcases List.mem_cons.mp he with rfl | he
        · exact ⟨_, rfl, fun h => absurd h hp⟩
        · exact ht e (by simp [he])
  · have hin : ∀ {fs fs' : List (Entry Val)}, Within (nm "resources") (NewResource name opts) fs fs' → (∀ f ∈ fs, f.key = nm "resources" → ∃ rs, f.val = .hash rs) →
        ∀ f ∈ fs', f.key = nm "resources" → ∃ rs, f.val = .hash rs := by
      intro fs fs' h hf
      cases h with
      | new _ _ =>
        intro f hm
        rcases List.mem_append.mp hm with hm | hm
        · exact hf f hm
        · cases List.mem_singleton.mp hm
          exact fun _ => ⟨_, rfl⟩
      | old _ _ =>
        intro f hm
        rcases List.mem_append.mp hm with hm | hm
        · exact hf f (by simp [hm])
        · rcases List.mem_cons.mp hm with rfl | hm
          · exact fun _ => ⟨_, rfl⟩
          · exact hf f (by simp [hm])
    cases h with
    | new _ h2 =>
      intro e he
      rcases List.mem_append.mp he with he | he
      · exact ht e he
      · cases List.mem_singleton.mp he
        exact ⟨_, rfl, fun _ => hin h2 nofun⟩
    | @old es m fs fs' es' _ h2 =>
      intro e he
      rcases List.mem_append.mp he with he | he
      · exact ht e (by simp [he])
      · rcases List.mem_cons.mp he with rfl | he
        · obtain ⟨fs1, g1, g2⟩ := ht ⟨nm "metafo", m, .hash fs⟩ (by simp)
          cases g1
          exact ⟨_, rfl, fun h => hin h2 (g2 h)⟩
        · exact ht e (by simp [he])

theorem stanzas_means {lib : Lib} {pn rn dn : Bytes} {keys : List Bytes} {res tops tops' : List (Entry Val)} {v : Val} {t : Target} (h : Means lib pn rn dn keys res v tops t tops')
    (ht : Stanzas tops) : Stanzas tops' := by
  cases h with
  | reference => exact ht
  | plugin => exact ht
  | short => exact ht
  | name => exact ht
  | options _ _ _ _ _ _ h => exact stanzas_synth h ht

theorem stanzas_dcs {lib : Lib} {pn rn : Bytes} {names keys : List Bytes} {res : List (Entry Val)} {short : Bool} {es tops tops' : List (Entry Val)} {ds : List Dc}
    (h : Datacenters lib pn rn names keys res short es tops ds tops') : Stanzas tops → Stanzas tops' := by
  induction h with
  | nil => exact id
  | cons _ _ h _ _ ih => exact fun ht => ih (stanzas_means h ht)

section
variable {lib : Lib} {pn rn dn : Bytes} {keys : List Bytes} {full tops : List (Entry Val)} {v : Val}

theorem inject_ok (hc : Clean v) (hz : WholeKeys v) (hcf : Clean (.hash full)) (hzf : ∀ e ∈ full, (0 : UInt8) ∉ e.key) (ht : Stanzas tops) : inject pn rn dn (marks full keys) tops v ≠ .ub := by
  unfold inject
  cases ha : asHash v with
  | none => nofun
  | some own =>
    obtain ⟨hco, hzo⟩ := asHash_clean ha hc hz
    dsimp only
    rw [inheritAll_eq hcf hzf, Outcome.bind_ok]
    have hcl : Clean (.hash (own ++ miss keys own full)) := clean_append hco hcf rfl
    cases hp : plugName (own ++ miss keys own full) with
    | none => nofun
    | some q =>
      obtain ⟨p', es'⟩ := q
      have := plugName_some hp
      subst this
      dsimp only
      by_cases he : p' = pn
      · rw [if_pos he]; nofun
      · rw [if_neg he, clone_stanza hcl, Outcome.bind_ok]
        cases h : addTo p' (childName pn rn dn) (.hash (others [str "plugin"] (own ++ miss keys own full))) tops with
        | ub => exact absurd h (addTo_ok ht)
        | ok _ => nofun

theorem perdc_ok (hc : Clean v) (hz : WholeKeys v) (hcf : Clean (.hash full)) (hzf : ∀ e ∈ full, (0 : UInt8) ∉ e.key) (ht : Stanzas tops)
    (hv : ∀ r t, v = .simple r t → ¬ UpToZero t (37 :: pn)) (hpn : (33 : UInt8) ∉ pn) : perdc lib pn rn dn (marks full keys) tops v ≠ .ub := by
  have hi : ((inject pn rn dn (marks full keys) tops v).map fun o => o.map fun p => (Target.res p.1 (some (childName pn rn dn)), marks full keys, p.2)) ≠ .ub := by
    cases h : inject pn rn dn (marks full keys) tops v with
    | ub => exact absurd h (inject_ok hc hz hcf hzf ht)
    | ok _ => nofun
  cases v with
  | array vs => exact hi
  | hash es => exact hi
  | simple r tx =>
    unfold perdc
    dsimp only
    have hu : ¬ (37 :: pn) = cstr tx := fun h => hv r tx rfl (upToZero_iff.mpr h)
    generalize cstr tx = u at hu
    split
    · rename_i t'
      rcases splitBang_eq t' with ⟨h1, h2⟩ | ⟨p, n, rfl, h1, h2⟩
      · rw [h2]
        dsimp only
        rw [if_neg (fun h => hu (by rw [h]))]
        nofun
      · rw [h2]
        dsimp only
        split <;> nofun
    · split
      · nofun
      · split <;> nofun
    · split
      · exact hi
      · obtain ⟨d, hd, _⟩ := name_iff (r := r)
        rw [hd]
        nofun

theorem dcmap_ok {names : List Bytes} (hcf : Clean (.hash full)) (hzf : ∀ e ∈ full, (0 : UInt8) ∉ e.key) (hpn : (33 : UInt8) ∉ pn) : ∀ {es : List (Entry Val)} {keys : List Bytes} {tops : List (Entry Val)},
    CleanOf es → (∀ e ∈ es, WholeKeys e.val) → (∀ e ∈ es, ∀ r t, e.val = .simple r t → ¬ UpToZero t (37 :: pn)) → Stanzas tops →
    dcmap lib pn rn names es (marks full keys) tops ≠ .ub
  | [], _, _, _, _, _, _ => nofun
  | e :: es, keys, tops, hc, hz, hv, ht => by
    have hce := (cleanOf_mem hc List.mem_cons_self).1
    have hcs : CleanOf es := by cases hc; assumption
    rw [dcmap]
    by_cases h0 : dcIdx names (cstr e.key) = 0
    · rw [if_pos h0]; nofun
    · rw [if_neg h0]
      cases hp : perdc lib pn rn (cstr e.key) (marks full keys) tops e.val with
      | ub => exact absurd hp (perdc_ok hce (hz e List.mem_cons_self) hcf hzf ht (hv e List.mem_cons_self) hpn)
      | ok o =>
        rw [Outcome.bind_ok]
        cases o with
        | none => nofun
        | some q =>
          obtain ⟨t, res', tops'⟩ := q
          obtain ⟨h1, h2, h3⟩ := (perdc_iff hce (hz e List.mem_cons_self) hcf hzf).mp hp
          have hres : ∃ keys', res' = marks full keys' := by
            by_cases hs : Short e.val
            · exact ⟨_, h2 hs⟩
            · exact ⟨_, h3 hs⟩
          obtain ⟨keys', rfl⟩ := hres
          dsimp only
          have ih := dcmap_ok (names := names) hcf hzf hpn (keys := keys') hcs (fun e he => hz e (by simp [he])) (fun e he => hv e (by simp [he])) (stanzas_means h1 ht)
          cases hd : dcmap lib pn rn names es (marks full keys') tops' with
          | ub => exact absurd hd ih
          | ok _ => nofun

end

theorem tame_full {pn : Bytes} {own l es : List (Entry Val)} {ks : List Bytes} (ho : Tame pn own) (he : Tame pn es) (h : l = miss ks own es) : Tame pn (own ++ l) := by
  intro fs hw
  cases hw with
  | refl =>
    intro e hm
    rcases List.mem_append.mp hm with hm | hm
    · exact ho _ .refl e hm
    · subst h
      exact he _ .refl e (List.mem_filter.mp hm).1
  | child h1 h2 =>
    rcases List.mem_append.mp h1 with h1 | h1
    · exact ho _ (.child h1 h2)
    · subst h
      exact he _ (.child (List.mem_filter.mp h1).1 h2)

section
variable {lib : Lib} {k : Kind} {p : Plugin} {config tops : List (Entry Val)}

theorem makeResource_ok {f : Val → Option (List Bytes)} (hne : ∀ v, f v ≠ some []) (hkn : (33 : UInt8) ∉ k.name) {undef : Bool} {rn : Bytes} {full : List (Entry Val)} (hcf : Clean (.hash full))
    (hzf : WholeKeys (.hash full)) (htm : Tame k.name full) (ht : Stanzas tops) : makeResource lib k undef f rn full tops ≠ .ub := by
  obtain ⟨hn, _, hco⟩ := clean_hash hcf
  unfold makeResource
  cases hf : (find full k.key).bind f with
  | none => nofun
  | some ns =>
    dsimp only
    have : assert (!ns.isEmpty) = .ok () := by
      cases ns with
      | nil =>
        obtain ⟨v, _, h⟩ := Option.bind_eq_some_iff.mp hf
        exact absurd h (hne v)
      | cons _ _ => rfl
    rw [this, Outcome.bind_ok]
    cases hs : skipOf (find full (str "skip_first")) with
    | ub =>
      cases hf : find full (str "skip_first") with
      | none => rw [hf] at hs; cases hs
      | some v =>
        obtain ⟨e, h1, h2, h3⟩ := find_some hf
        obtain ⟨r, t, h4⟩ := (htm _ .refl e h1).1 h2
        rw [hf, ← h3, h4] at hs
        cases hs
    | ok o =>
      rw [Outcome.bind_ok]
      cases o with
      | none => nofun
      | some skip =>
        dsimp only
        cases hd : find full (str "dcmap") with
        | none => nofun
        | some w =>
          cases w with
          | simple _ _ => nofun
          | array _ => nofun
          | hash dcs =>
            obtain ⟨e, he1, he2, he3⟩ := find_some hd
            have hcd := (clean_hash (he3 ▸ (cleanOf_mem hco he1).1)).2.2
            have hzd : ∀ e ∈ dcs, WholeKeys e.val := by
              intro e' he' es' hes'
              exact hzf es' (.child he1 (he3 ▸ .child he' hes'))
            have := dcmap_ok (lib := lib) (rn := rn) (names := ns) (keys := [k.key, str "skip_first", str "dcmap"]) hcf (hzf _ .refl) hkn hcd hzd
              (fun e' he' => (htm dcs (.child he1 (he3 ▸ .refl)) e' he').2) ht
            dsimp only
            by_cases hl : (if undef = true then dcs.length = 0 else dcs.length ≠ ns.length)
            · rw [if_pos hl]; nofun
            · rw [if_neg hl]
              cases hm : dcmap lib k.name rn ns dcs (marks full [k.key, str "skip_first", str "dcmap"]) tops with
              | ub => exact absurd hm this
              | ok _ => nofun

theorem resources_ok (hk : Agree k p) (hkn : (33 : UInt8) ∉ k.name) {undef : Bool} {f : Val → Option (List Bytes)} (hh : k.hook config = some (undef, f)) (hne : ∀ v, f v ≠ some [])
    (hc : Clean (.hash config)) (hz : WholeKeys (.hash config)) (htc : Tame k.name config) : ∀ {es tops : List (Entry Val)}, CleanOf es → (∀ e ∈ es, WholeKeys e.val) →
    (∀ e ∈ es, ∀ own, e.val = .hash own → Tame k.name own) → Stanzas tops → resources lib k undef f (marks config (k.used ++ [str "resources"])) es tops ≠ .ub
  | [], _, _, _, _, _ => nofun
  | e :: es, tops, hce, hze, hte, ht => by
    have hc1 := (cleanOf_mem hce List.mem_cons_self).1
    have hcs : CleanOf es := by cases hce; assumption
    have hz1 := hze e List.mem_cons_self
    have hzs : ∀ e ∈ es, WholeKeys e.val := fun e he => hze e (by simp [he])
    have ht1 := hte e List.mem_cons_self
    have hts : ∀ e ∈ es, ∀ own, e.val = .hash own → Tame k.name own := fun e he => hte e (by simp [he])
    rw [resources]
    cases hv : e.val with
    | simple _ _ => nofun
    | array _ => nofun
    | hash own =>
      rw [hv] at hc1 hz1
      dsimp only
      rw [inheritAll_eq hc (hz _ .refl), Outcome.bind_ok]
      generalize hl : miss (k.used ++ [str "resources"]) own config = l
      have hcf := clean_append hc1 hc hl.symm
      have hzf := whole_full hz1 hz hl.symm
      cases hm : makeResource lib k undef f (cstr e.key) (own ++ l) tops with
      | ub => exact absurd hm (makeResource_ok hne hkn hcf hzf (tame_full (ht1 own hv) htc hl.symm) ht)
      | ok o =>
        rw [Outcome.bind_ok]
        cases o with
        | none => nofun
        | some q =>
          obtain ⟨r, tops1⟩ := q
          dsimp only
          obtain ⟨_, _, _, _, _, _, _, _, _, h⟩ := (makeResource_iff hk hh (clean_hash hc).1 hcf hzf).mp hm
          have ih := resources_ok hk hkn hh hne hc hz htc hcs hzs hts (stanzas_dcs h ht)
          cases hr : resources lib k undef f (marks config (k.used ++ [str "resources"])) es tops1 with
          | ub => exact absurd hr ih
          | ok _ => nofun

theorem load_ok (hk : Agree k p) (hkn : (33 : UInt8) ∉ k.name) (hne : ∀ undef f, k.hook config = some (undef, f) → ∀ v, f v ≠ some []) (hc : Clean (.hash config)) (hz : WholeKeys (.hash config))
    (htc : Tame k.name config) (ht : Stanzas tops) : load lib k config tops ≠ .ub := by
  obtain ⟨hn, _, hco⟩ := clean_hash hc
  unfold load
  cases hh : k.hook config with
  | none => nofun
  | some q =>
    obtain ⟨undef, f⟩ := q
    dsimp only
    cases hf : find config (str "resources") with
    | none => nofun
    | some w =>
      cases w with
      | simple _ _ => nofun
      | array _ => nofun
      | hash es =>
        obtain ⟨e, he1, he2, he3⟩ := find_some hf
        dsimp only
        split
        · nofun
        · split
          · nofun
          · refine resources_ok hk hkn hh (hne undef f hh) hc hz htc (clean_hash (he3 ▸ (cleanOf_mem hco he1).1)).2.2 ?_ ?_ ht
            · intro e' he' es' hes'
              exact hz es' (.child he1 (he3 ▸ .child he' hes'))
            · intro e' he' own hown es' hes'
              exact htc es' (.child he1 (he3 ▸ .child he' (hown ▸ hes')))

end

/-- metafo: no assertion fails and no null pointer is used, if `skip_first` is a text where it is there, no datacenter is the
plugin itself without a resource, and the stanzas are hashes. Otherwise see `C97_self`, `C97_skip_first` and `C97_stanza`. -/
theorem C97_metafo_total_partial (lib : Lib) (config tops : List (Entry Val)) (hc : Clean (.hash config)) (hz : WholeKeys (.hash config)) (htm : Tame (nm "metafo") config) (ht : Stanzas tops) :
    load lib metafo config tops ≠ .ub := by
  refine load_ok agree_metafo (by decide) ?_ hc hz htm ht
  intro undef f h v
  cases h
  unfold listNames
  split
  · nofun
  · split
    · rename_i h; intro hc; cases hc
    · nofun

/-- geoip: the same, if every map has a datacenter. -/
theorem C97_geoip_total_partial (lib : Lib) (gdmaps : List (Entry Val) → Option (List (Bytes × List Bytes))) (hg : ∀ ms tab, gdmaps ms = some tab → ∀ m ∈ tab, m.2 ≠ []) (config tops : List (Entry Val))
    (hc : Clean (.hash config)) (hz : WholeKeys (.hash config)) (htm : Tame (nm "geoip") config) (ht : Stanzas tops) : load lib (geoip gdmaps) config tops ≠ .ub := by
  refine load_ok (agree_geoip gdmaps) (by change (33 : UInt8) ∉ str "geoip"; decide) ?_ hc hz htm ht
  intro undef f h v
  have h1 := ((agree_geoip gdmaps).names (undef := undef) (v := v) (ns := []) (clean_hash hc).1)
  intro hv
  simp only [geoip] at h
  split at h
  · rename_i m ms _
    cases hgm : gdmaps (m :: ms) with
    | none => rw [hgm] at h; cases h
    | some tab =>
      cases hb : flagOf (find config (str "undefined_datacenters_ok")) with
      | none => rw [hgm, hb] at h; cases h
      | some b =>
        rw [hgm, hb] at h
        cases h
        cases v with
        | array _ => cases hv
        | hash _ => cases hv
        | simple r t =>
          obtain ⟨x, h2, h3⟩ := Option.map_eq_some_iff.mp hv
          exact hg _ _ hgm x (List.mem_of_find?_eq_some h2) h3
  · cases h

/-! ### Nothing is lost, and what is synthesized is there -/

theorem at_synth {p name q n : Bytes} {opts tops tops' : List (Entry Val)} {v : Val} (h : Synthesized p name opts tops tops') (ha : At tops q n v) : At tops' q n v := by
  obtain ⟨m, fs, h1, h2⟩ := ha
  rcases h with ⟨hp, h⟩ | ⟨rfl, h⟩
  · cases h with
    | new _ _ => exact ⟨m, fs, by simp [h1], h2⟩
    | @old es m1 fs1 fs1' es' _ h3 =>
      rcases List.mem_append.mp h1 with h1 | h1
      · exact ⟨m, fs, by simp [h1], h2⟩
      · rcases List.mem_cons.mp h1 with h1 | h1
        · cases h1
          refine ⟨m, fs1', by simp, ?_⟩
          rw [if_neg hp] at h2 ⊢
          obtain ⟨m', h2⟩ := h2
          rw [h3.2]
          exact ⟨m', by simp [h2]⟩
        · exact ⟨m, fs, by simp [h1], h2⟩
  · cases h with
    | new _ _ => exact ⟨m, fs, by simp [h1], h2⟩
    | @old es m1 fs1 fs1' es' _ h3 =>
      rcases List.mem_append.mp h1 with h1 | h1
      · exact ⟨m, fs, by simp [h1], h2⟩
      · rcases List.mem_cons.mp h1 with h1 | h1
        · cases h1
          refine ⟨m, fs1', by simp, ?_⟩
          rw [if_pos rfl] at h2 ⊢
          obtain ⟨m', rs, m'', h4, h5⟩ := h2
          cases h3 with
          | new _ _ => exact ⟨m', rs, m'', by simp [h4], h5⟩
          | @old es2 m2 rs1 rs1' es2' _ h6 =>
            rcases List.mem_append.mp h4 with h4 | h4
            · exact ⟨m', rs, m'', by simp [h4], h5⟩
            · rcases List.mem_cons.mp h4 with h4 | h4
              · cases h4
                exact ⟨m', rs1', m'', by simp, by rw [h6.2]; simp [h5]⟩
              · exact ⟨m', rs, m'', by simp [h4], h5⟩
        · exact ⟨m, fs, by simp [h1], h2⟩

theorem synth_at {p name : Bytes} {opts tops tops' : List (Entry Val)} (h : Synthesized p name opts tops tops') : At tops' p name (.hash opts) := by
  rcases h with ⟨hp, h⟩ | ⟨rfl, h⟩
  · cases h with
    | new _ h3 =>
      refine ⟨false, _, List.mem_append_right _ List.mem_cons_self, ?_⟩
      rw [if_neg hp, h3.2]
      exact ⟨false, by simp⟩
    | @old es m fs fs' es' _ h3 =>
      refine ⟨m, _, List.mem_append_right _ List.mem_cons_self, ?_⟩
      rw [if_neg hp, h3.2]
      exact ⟨false, by simp⟩
  · have hin : ∀ {fs fs' : List (Entry Val)}, Within (nm "resources") (NewResource name opts) fs fs' →
        ∃ m' rs m'', ⟨nm "resources", m', .hash rs⟩ ∈ fs' ∧ ⟨name, m'', .hash opts⟩ ∈ rs := by
      intro fs fs' h
      cases h with
      | new _ h3 => exact ⟨false, _, false, List.mem_append_right _ List.mem_cons_self, by rw [h3.2]; simp⟩
      | @old es m fs fs' es' _ h3 => exact ⟨m, _, false, List.mem_append_right _ List.mem_cons_self, by rw [h3.2]; simp⟩
    cases h with
    | new _ h3 =>
      refine ⟨false, _, List.mem_append_right _ List.mem_cons_self, ?_⟩
      rw [if_pos rfl]
      exact hin h3
    | @old es m fs fs' es' _ h3 =>
      refine ⟨m, _, List.mem_append_right _ List.mem_cons_self, ?_⟩
      rw [if_pos rfl]
      exact hin h3

section
variable {lib : Lib} {pn rn : Bytes} {names keys : List Bytes} {res : List (Entry Val)}

theorem at_means {dn : Bytes} {tops tops' : List (Entry Val)} {v : Val} {t : Target} (h : Means lib pn rn dn keys res v tops t tops') {q n : Bytes} {w : Val} (ha : At tops q n w) :
    At tops' q n w := by
  cases h with
  | reference => exact ha
  | plugin => exact ha
  | short => exact ha
  | name => exact ha
  | options _ _ _ _ _ _ h => exact at_synth h ha

theorem at_dcs {short : Bool} {es tops tops' : List (Entry Val)} {ds : List Dc} (h : Datacenters lib pn rn names keys res short es tops ds tops') {q n : Bytes} {w : Val} :
    At tops q n w → At tops' q n w := by
  induction h with
  | nil => exact id
  | cons _ _ h _ _ ih => exact fun ha => ih (at_means h ha)

theorem made_dcs {short : Bool} {es tops tops' : List (Entry Val)} {ds : List Dc} (h : Datacenters lib pn rn names keys res short es tops ds tops') :
    ∀ (i : Nat) e d, es[i]? = some e → ds[i]? = some d → UpToZero e.key d.name ∧ NumberOf names d.name d.idx ∧ ((∀ r t, e.val ≠ .simple r t) → ∃ p opts,
      d.target = .res p (some (pn ++ nm "_" ++ rn ++ nm "_" ++ d.name)) ∧ At tops' p (pn ++ nm "_" ++ rn ++ nm "_" ++ d.name) (.hash opts)) := by
  induction h with
  | nil => intro i e d h; simp at h
  | cons h1 h2 h3 _ h5 ih =>
    intro i e d he hd
    cases i with
    | zero =>
      simp only [List.getElem?_cons_zero, Option.some.injEq] at he hd
      subst he hd
      refine ⟨h1, h2, ?_⟩
      intro hv
      generalize Entry.val _ = v at h3 hv
      cases h3 with
      | reference => exact absurd rfl (hv _ _)
      | plugin => exact absurd rfl (hv _ _)
      | short => exact absurd rfl (hv _ _)
      | name => exact absurd rfl (hv _ _)
      | options _ _ _ _ _ _ h => exact ⟨_, _, rfl, at_dcs h5 (synth_at h)⟩
    | succ i =>
      simp only [List.getElem?_cons_succ] at he hd
      exact ih i e d he hd

theorem length_dcs {short : Bool} {es tops tops' : List (Entry Val)} {ds : List Dc} (h : Datacenters lib pn rn names keys res short es tops ds tops') : ds.length = es.length := by
  induction h with
  | nil => rfl
  | cons _ _ _ _ _ ih => simp [ih]

end

theorem at_resources {lib : Lib} {p : Plugin} {config es tops tops' : List (Entry Val)} {rs : List Resource} (h : ResourcesOf lib p config es tops rs tops') {q n : Bytes} {w : Val} :
    At tops q n w → At tops' q n w := by
  induction h with
  | nil => exact id
  | cons h _ ih =>
    obtain ⟨_, _, _, _, _, _, _, _, _, _, _, _, _, _, _, h⟩ := h
    exact fun ha => ih (at_dcs h ha)

/-- Resources that other plugins have stay there as they were. -/
theorem C97_kept (lib : Lib) (p : Plugin) (config tops : List (Entry Val)) (rs : List Resource) (tops' : List (Entry Val)) (h : Loads lib p config tops rs tops') (q n : Bytes) (w : Val)
    (ha : At tops q n w) : At tops' q n w := by
  obtain ⟨_, _, _, _, h⟩ := h
  exact at_resources h ha

/-- Every resource has datacenters for its keys, in their order and with the numbers of their names; and where a datacenter is
written as a hash or as a list, the resource that it refers to is in the stanza of its plugin in the end. -/
theorem C97_made (lib : Lib) (p : Plugin) (config tops : List (Entry Val)) (rs : List Resource) (tops' : List (Entry Val)) (h : Loads lib p config tops rs tops') :
    ∀ r ∈ rs, ∃ (es : List (Entry Val)) (e : Entry Val) (own l dcs : List (Entry Val)), Is config "resources" (.hash es) ∧ e ∈ es ∧ UpToZero e.key r.name ∧ e.val = .hash own ∧
      Inherits (nm "resources" :: p.used) own config l ∧ Is (own ++ l) "dcmap" (.hash dcs) ∧ r.dcs.length = dcs.length ∧ ∀ (i : Nat) e d, dcs[i]? = some e → r.dcs[i]? = some d → UpToZero e.key d.name ∧ NumberOf r.names d.name d.idx ∧
      ((∀ r t, e.val ≠ .simple r t) → ∃ q opts, d.target = .res q (some (p.name ++ nm "_" ++ r.name ++ nm "_" ++ d.name)) ∧
        At tops' q (p.name ++ nm "_" ++ r.name ++ nm "_" ++ d.name) (.hash opts)) := by
  obtain ⟨es, hes, _, _, h⟩ := h
  have key : ∀ {es0 tops rs tops'}, ResourcesOf lib p config es0 tops rs tops' → (∀ e ∈ es0, e ∈ es) → ∀ r ∈ rs, ∃ (es : List (Entry Val)) (e : Entry Val) (own l dcs : List (Entry Val)),
      Is config "resources" (.hash es) ∧ e ∈ es ∧ UpToZero e.key r.name ∧ e.val = .hash own ∧
      Inherits (nm "resources" :: p.used) own config l ∧ Is (own ++ l) "dcmap" (.hash dcs) ∧ r.dcs.length = dcs.length ∧ ∀ (i : Nat) e d, dcs[i]? = some e → r.dcs[i]? = some d →
      UpToZero e.key d.name ∧ NumberOf r.names d.name d.idx ∧
      ((∀ r t, e.val ≠ .simple r t) → ∃ q opts, d.target = .res q (some (p.name ++ nm "_" ++ r.name ++ nm "_" ++ d.name)) ∧
        At tops' q (p.name ++ nm "_" ++ r.name ++ nm "_" ++ d.name) (.hash opts)) := by
    intro es0 tops rs tops' h
    induction h with
    | nil => intro _ r hr; simp at hr
    | cons h h' ih =>
      intro hsub r hr
      rcases List.mem_cons.mp hr with rfl | hr
      · obtain ⟨hname, own, l, full, _, _, dcs, h1, h2, h3, _, _, _, h4, _, h⟩ := h
        subst h3
        refine ⟨es, _, own, l, dcs, hes, hsub _ List.mem_cons_self, hname, h1, h2, h4, length_dcs h, ?_⟩
        intro i e d he hd
        obtain ⟨h1, h2, h3⟩ := made_dcs h i e d he hd
        refine ⟨h1, h2, fun hv => ?_⟩
        obtain ⟨q, opts, h4, h5⟩ := h3 hv
        exact ⟨q, opts, h4, at_resources h' h5⟩
      · exact ih (fun e he => hsub e (by simp [he])) r hr
  exact key h fun _ h => h

/-! ### Concrete cases -/

theorem whole_flat {v : Val} (h : ∀ es, v ≠ .hash es) : WholeKeys v := by
  intro fs hw
  cases hw with
  | refl => exact absurd rfl (h fs)
  | child => exact absurd rfl (h _)

theorem whole_hash {es : List (Entry Val)} (h : ∀ e ∈ es, (0 : UInt8) ∉ e.key) (hs : ∀ e ∈ es, WholeKeys e.val) : WholeKeys (.hash es) := by
  intro fs hw
  cases hw with
  | refl => exact h
  | child he hw => exact hs _ he _ hw

/-- `resources => { www => { datacenters => [ us, eu, as ], service_types => web, dcmap => { us => 192.0.2.1, eu => { plugin =>
weighted, a => [ 192.0.2.2, 5 ] }, as => www.example. } }, alt => { datacenters => [ a, b ], plugin => weighted, dcmap => { a =>
!far, b => "%metafo!www" } } }`. -/
def exMeta : List (Entry Val) :=
  [ent "resources" (.hash [
    ent "www" (.hash [ent "datacenters" (.array [txt "us", txt "eu", txt "as"]), ent "service_types" (txt "web"),
      ent "dcmap" (.hash [ent "us" (txt "192.0.2.1"), ent "eu" (.hash [ent "plugin" (txt "weighted"), ent "a" (.array [txt "192.0.2.2", txt "5"])]), ent "as" (txt "www.example.")])]),
    ent "alt" (.hash [ent "datacenters" (.array [txt "a", txt "b"]), ent "plugin" (txt "weighted"), ent "skip_first" (txt "true"),
      ent "dcmap" (.hash [ent "b" (txt "!far"), ent "a" (txt "%metafo!www")])])])]

/-- What it says. -/
def exResources : List Resource :=
  [⟨str "www", [str "us", str "eu", str "as"], [⟨1, str "us", .res (str "multifo") (some (str "metafo_www_us"))⟩, ⟨2, str "eu", .res (str "weighted") (some (str "metafo_www_eu"))⟩,
     ⟨3, str "as", .cname (str "www.example.") [13, 3, 119, 119, 119, 7, 101, 120, 97, 109, 112, 108, 101, 0] [str "web"]⟩], false⟩,
   ⟨str "alt", [str "a", str "b"], [⟨2, str "b", .res (str "weighted") (some (str "far"))⟩, ⟨1, str "a", .res (str "metafo") (some (str "www"))⟩], true⟩]

/-- The other plugins, before. -/
def exTops : List (Entry Val) := [ent "weighted" (.hash [ent "far" (.hash [ent "a" (.array [txt "192.0.2.9", txt "1"])])]), ent "metafo" (.hash exMeta)]

/-- After. -/
def exTops' : List (Entry Val) :=
  [ent "weighted" (.hash [ent "far" (.hash [ent "a" (.array [txt "192.0.2.9", txt "1"])]), ent "metafo_www_eu" (.hash [ent "a" (.array [txt "192.0.2.2", txt "5"]), ent "service_types" (txt "web")])]),
   ent "metafo" (.hash exMeta), ent "multifo" (.hash [ent "metafo_www_us" (.hash [ent "1" (txt "192.0.2.1"), ent "service_types" (txt "web")])])]

theorem exMeta_clean : Clean (.hash exMeta) := by
  have two : ∀ a b, Clean (.array [txt a, txt b]) := fun _ _ => .array (.cons .simple (.cons .simple .nil))
  refine .hash (by decide) (.cons (.hash (by decide) (.cons (.hash (by decide) (.cons (.array (.cons .simple (.cons .simple (.cons .simple .nil)))) (.cons .simple (.cons
    (.hash (by decide) (.cons .simple (.cons (.hash (by decide) (.cons .simple (.cons (two _ _) .nil))) (.cons .simple .nil)))) .nil)))) (.cons (.hash (by decide)
    (.cons (two _ _) (.cons .simple (.cons .simple (.cons (.hash (by decide) (.cons .simple (.cons .simple .nil))) .nil))))) .nil))) .nil)

theorem exMeta_whole : WholeKeys (.hash exMeta) := by
  have hf : ∀ s : String, WholeKeys (txt s) := fun s => whole_flat fun es h => by cases h
  have ha : ∀ l, WholeKeys (.array l) := fun s => whole_flat fun es h => by cases h
  refine whole_hash (by decide) ?_
  simp only [exMeta, ent, List.forall_mem_cons, List.not_mem_nil, false_implies, implies_true, and_true]
  refine whole_hash (by decide) ?_
  simp only [List.forall_mem_cons, List.not_mem_nil, false_implies, implies_true, and_true]
  refine ⟨whole_hash (by decide) ?_, whole_hash (by decide) ?_⟩ <;> simp only [List.forall_mem_cons, List.not_mem_nil, false_implies, implies_true, and_true]
  · refine ⟨ha _, hf _, whole_hash (by decide) ?_⟩
    simp only [List.forall_mem_cons, List.not_mem_nil, false_implies, implies_true, and_true]
    refine ⟨hf _, whole_hash (by decide) ?_, hf _⟩
    simp only [List.forall_mem_cons, List.not_mem_nil, false_implies, implies_true, and_true]
    exact ⟨hf _, ha _⟩
  · refine ⟨ha _, hf _, hf _, whole_hash (by decide) ?_⟩
    simp only [List.forall_mem_cons, List.not_mem_nil, false_implies, implies_true, and_true]
    exact ⟨hf _, hf _⟩

theorem exMeta_load : load exLib metafo exMeta exTops = .ok (some (exResources, exTops')) := by with_unfolding_all rfl

example : Loads exLib MetaSpec.metafo exMeta exTops exResources exTops' := (C97_metafo exLib exMeta exTops exMeta_clean exMeta_whole exResources exTops').mp exMeta_load

theorem tame_flat {n : Bytes} {es : List (Entry Val)} (h : ∀ e ∈ es, (e.key = nm "skip_first" → ∃ r t, e.val = .simple r t) ∧ ∀ r t, e.val = .simple r t → ¬ UpToZero t (37 :: n))
    (hs : ∀ e ∈ es, ∀ fs, e.val = .hash fs → Tame n fs) : Tame n es := by
  intro fs hw
  cases hw with
  | refl => exact h
  | child he hw =>
    intro e' he'
    generalize hv : Entry.val _ = v at hw
    cases v with
    | hash gs => exact hs _ he gs hv fs hw e' he'
    | simple _ _ => cases hw
    | array _ => cases hw

/-- The configuration above has none of the things that fail assertions. -/
theorem exMeta_tame : Tame (nm "metafo") exMeta := by
  have ht : ∀ k s : String, str s ≠ 37 :: nm "metafo" ∧ (0 : UInt8) ∉ str s →
      (str k = nm "skip_first" → ∃ r t, txt s = .simple r t) ∧ ∀ r t, txt s = .simple r t → ¬ UpToZero t (37 :: nm "metafo") := by
    intro k s hs
    refine ⟨fun _ => ⟨_, _, rfl⟩, ?_⟩
    intro r t h hu
    cases h
    have := upToZero_iff.mp hu
    rw [Vscf.cstr_self hs.2] at this
    exact hs.1 this.symm
  have ho : ∀ (k : String) (v : Val), str k ≠ nm "skip_first" → (∀ r t, v ≠ .simple r t) →
      (str k = nm "skip_first" → ∃ r t, v = .simple r t) ∧ ∀ r t, v = .simple r t → ¬ UpToZero t (37 :: nm "metafo") :=
    fun k v h hv => ⟨fun hk => absurd hk h, fun r t h => absurd h (hv r t)⟩
  refine tame_flat ?_ ?_ <;> simp only [exMeta, ent, List.forall_mem_cons, List.not_mem_nil, false_implies, implies_true, and_true]
  · exact ho _ _ (by decide) nofun
  · intro fs h
    cases h
    refine tame_flat ?_ ?_ <;> simp only [List.forall_mem_cons, List.not_mem_nil, false_implies, implies_true, and_true]
    · exact ⟨ho _ _ (by decide) nofun, ho _ _ (by decide) nofun⟩
    · constructor
      · intro fs h
        cases h
        refine tame_flat ?_ ?_ <;> simp only [List.forall_mem_cons, List.not_mem_nil, false_implies, implies_true, and_true]
        · exact ⟨ho _ _ (by decide) nofun, ht _ _ (by decide), ho _ _ (by decide) nofun⟩
        · refine ⟨nofun, fun fs h => (by cases h), ?_⟩
          intro fs h
          cases h
          refine tame_flat ?_ ?_ <;> simp only [List.forall_mem_cons, List.not_mem_nil, false_implies, implies_true, and_true]
          · exact ⟨ht _ _ (by decide), ho _ _ (by decide) nofun, ht _ _ (by decide)⟩
          · refine ⟨fun fs h => (by cases h), ?_, fun fs h => (by cases h)⟩
            intro fs h
            cases h
            refine tame_flat ?_ ?_ <;> simp only [List.forall_mem_cons, List.not_mem_nil, false_implies, implies_true, and_true]
            · exact ⟨ht _ _ (by decide), ho _ _ (by decide) nofun⟩
            · exact ⟨fun fs h => (by cases h), nofun⟩
      · intro fs h
        cases h
        refine tame_flat ?_ ?_ <;> simp only [List.forall_mem_cons, List.not_mem_nil, false_implies, implies_true, and_true]
        · exact ⟨ho _ _ (by decide) nofun, ht _ _ (by decide), ht _ _ (by decide), ho _ _ (by decide) nofun⟩
        · refine ⟨nofun, fun fs h => (by cases h), fun fs h => (by cases h), ?_⟩
          intro fs h
          cases h
          refine tame_flat ?_ ?_ <;> simp only [List.forall_mem_cons, List.not_mem_nil, false_implies, implies_true, and_true]
          · exact ⟨ht _ _ (by decide), ht _ _ (by decide)⟩
          · exact ⟨fun fs h => (by cases h), fun fs h => (by cases h)⟩

example (lib : Lib) : load lib metafo exMeta [] ≠ .ub := C97_metafo_total_partial lib exMeta [] exMeta_clean exMeta_whole exMeta_tame nofun

example : At exTops' (nm "multifo") (nm "metafo_www_us") (.hash [ent "1" (txt "192.0.2.1"), ent "service_types" (txt "web")]) :=
  ⟨false, [ent "metafo_www_us" (.hash [ent "1" (txt "192.0.2.1"), ent "service_types" (txt "web")])], by simp only [exTops', ent, List.mem_cons]; exact .inr (.inr (.inl rfl)),
    ⟨false, List.mem_cons_self⟩⟩

/-- geoip with a map of two datacenters, of which one may be left out. -/
example : load exLib (geoip fun _ => some [(str "m", [str "us", str "eu"])])
      [ent "maps" (.hash [ent "m" (.hash [])]), ent "undefined_datacenters_ok" (txt "true"),
       ent "resources" (.hash [ent "www" (.hash [ent "map" (txt "m"), ent "dcmap" (.hash [ent "eu" (txt "192.0.2.1")])])])] [] =
    .ok (some ([⟨str "www", [str "us", str "eu"], [⟨2, str "eu", .res (str "multifo") (some (str "geoip_www_eu"))⟩], false⟩],
      [ent "multifo" (.hash [ent "geoip_www_eu" (.hash [ent "1" (txt "192.0.2.1")])])])) := by with_unfolding_all rfl

/-! ### Where the code does something else -/

/-- One resource of metafo with one datacenter `a`. -/
def one (v : Val) (more : List (Entry Val)) : List (Entry Val) :=
  [ent "resources" (.hash [ent "r" (.hash ([ent "datacenters" (txt "a"), ent "dcmap" (.hash [ent "a" v])] ++ more))])]

/-- A datacenter that is the plugin itself without a resource: a null pointer is used. -/
theorem C97_self (lib : Lib) (tops : List (Entry Val)) : load lib metafo (one (txt "%metafo") []) tops = .ub := by with_unfolding_all rfl

/-- A `skip_first` that is not a text fails an assertion. -/
theorem C97_skip_first (lib : Lib) (tops : List (Entry Val)) (v : Val) : load lib metafo (one v [ent "skip_first" (.array [])]) tops = .ub := by with_unfolding_all rfl

/-- A stanza of the plugin of a datacenter that is not a hash fails an assertion. -/
theorem C97_stanza (lib : Lib) : load lib metafo (one (.hash [ent "1" (txt "192.0.2.1")]) []) [ent "multifo" (txt "1")] = .ub := by with_unfolding_all rfl

/-- A resource with the plugin `weighted` for its datacenters, in one order or in the other. -/
def lost (b : Bool) : List (Entry Val) :=
  let x := ent "x" (txt "!far")
  let y := ent "y" (.hash [ent "a" (.array [txt "192.0.2.1", txt "5"])])
  [ent "resources" (.hash [ent "r" (.hash [ent "datacenters" (.array [txt "x", txt "y"]), ent "plugin" (txt "weighted"), ent "dcmap" (.hash (if b = true then [x, y] else [y, x]))])])]

/-- The plugin that a resource has for all its datacenters is forgotten for those that come after one that is written as
`!resource`: they get `multifo`, without a message. The manual says that the key sets "the default for all dcmap entries in one
resource". -/
theorem C97_plugin_lost (lib : Lib) :
    (∃ tops, load lib metafo (lost false) [] = .ok (some ([⟨str "r", [str "x", str "y"], [⟨2, str "y", .res (str "weighted") (some (str "metafo_r_y"))⟩,
      ⟨1, str "x", .res (str "weighted") (some (str "far"))⟩], false⟩], tops))) ∧
    (∃ tops, load lib metafo (lost true) [] = .ok (some ([⟨str "r", [str "x", str "y"], [⟨1, str "x", .res (str "weighted") (some (str "far"))⟩,
      ⟨2, str "y", .res (str "multifo") (some (str "metafo_r_y"))⟩], false⟩], tops))) :=
  ⟨⟨[ent "weighted" (.hash [ent "metafo_r_y" (.hash [ent "a" (.array [txt "192.0.2.1", txt "5"])])])], by with_unfolding_all rfl⟩,
    ⟨[ent "multifo" (.hash [ent "metafo_r_y" (.hash [ent "a" (.array [txt "192.0.2.1", txt "5"])])])], by with_unfolding_all rfl⟩⟩

end Gdnsd.Meta
