/-
Lemmas: datacenters, resources, and the whole stanza.
-/
import Verif.Meta.Lemmas
namespace Gdnsd.Meta
open Vscf VscfSpec Conf ConfSpec SvcSpec MetaSpec
open ResSpec (Others SvcsOf FlagOf)
open Res (Lib texts svcNames label marks marks_eq others others_iff clean_sound cleanOf_sound find_setMark find_append)

theorem plugName_some {es es' : List (Entry Val)} {p : Bytes} (h : plugName es = some (p, es')) : es' = setMark es (str "plugin") := by
  unfold plugName at h
  cases hf : find es (str "plugin") with
  | none =>
    rw [hf] at h
    cases h
    exact (setMark_absent hf).symm
  | some v =>
    rw [hf] at h
    cases v with
    | simple r t => cases h; rfl
    | array _ => cases h
    | hash _ => cases h

theorem childName_eq (pn rn dn : Bytes) : childName pn rn dn = pn ++ nm "_" ++ rn ++ nm "_" ++ dn := rfl

theorem inject_iff {pn rn dn : Bytes} {keys : List Bytes} {full tops : List (Entry Val)} {v : Val} (hc : Clean v) (hz : WholeKeys v) (hcf : Clean (.hash full))
    (hzf : ∀ e ∈ full, (0 : UInt8) ∉ e.key) {p : Bytes} {tops' : List (Entry Val)} : inject pn rn dn (marks full keys) tops v = .ok (some (p, tops')) ↔
      ∃ own l opts, Options v own ∧ Inherits keys own full l ∧ PlugOf (own ++ l) p ∧ p ≠ pn ∧ Others ["plugin"] (own ++ l) opts ∧ Synthesized p (childName pn rn dn) opts tops tops' := by
  unfold inject
  cases ha : asHash v with
  | none =>
    refine ⟨nofun, ?_⟩
    rintro ⟨own, l, opts, h, _⟩
    rw [asHash_iff.mp h] at ha
    cases ha
  | some own =>
    obtain ⟨hco, hzo⟩ := asHash_clean ha hc hz
    dsimp only
    rw [inheritAll_eq hcf hzf, Outcome.bind_ok]
    have hcl : Clean (.hash (own ++ miss keys own full)) := clean_append hco hcf rfl
    have hn := (clean_hash hcl).1
    generalize hl : miss keys own full = l at hcl hn
    have key : (∃ own l opts, Options v own ∧ Inherits keys own full l ∧ PlugOf (own ++ l) p ∧ p ≠ pn ∧ Others ["plugin"] (own ++ l) opts ∧ Synthesized p (childName pn rn dn) opts tops tops') ↔
        PlugOf (own ++ l) p ∧ p ≠ pn ∧ Synthesized p (childName pn rn dn) (others [str "plugin"] (own ++ l)) tops tops' := by
      constructor
      · rintro ⟨own', l', opts, h1, h2, h3, h4, h5, h6⟩
        rw [asHash_iff.mp h1] at ha
        cases ha
        rw [inherits_iff.mp h2, hl] at h3 h5
        rw [others_iff.mp h5] at h6
        exact ⟨h3, h4, h6⟩
      · rintro ⟨h1, h2, h3⟩
        exact ⟨own, l, _, asHash_iff.mpr ha, inherits_iff.mpr hl.symm, h1, h2, others_iff.mpr rfl, h3⟩
    rw [key]
    cases hp : plugName (own ++ l) with
    | none =>
      refine ⟨nofun, ?_⟩
      rintro ⟨h, _⟩
      rw [(plugOf_iff hn).mp h] at hp
      cases hp
    | some q =>
      obtain ⟨p', es'⟩ := q
      have := plugName_some hp
      subst this
      dsimp only
      by_cases he : p' = pn
      · rw [if_pos he]
        refine ⟨nofun, ?_⟩
        rintro ⟨h, h2, _⟩
        rw [(plugOf_iff hn).mp h] at hp
        cases hp
        exact absurd he h2
      · rw [if_neg he, clone_stanza hcl, Outcome.bind_ok]
        constructor
        · intro h
          cases ho : addTo p' (childName pn rn dn) (.hash (others [str "plugin"] (own ++ l))) tops with
          | ub => rw [ho] at h; cases h
          | ok o =>
            rw [ho] at h
            cases o with
            | none => cases h
            | some x =>
              cases h
              exact ⟨(plugOf_iff hn).mpr hp, he, addTo_iff.mp ho⟩
        · rintro ⟨h1, h2, h3⟩
          rw [(plugOf_iff hn).mp h1] at hp
          cases hp
          rw [addTo_iff.mpr h3]
          rfl

theorem splitBang_eq : ∀ (u : Bytes), (33 ∉ u ∧ splitBang u = (u, none)) ∨ ∃ p n, u = p ++ 33 :: n ∧ 33 ∉ p ∧ splitBang u = (p, some n)
  | [] => .inl ⟨by simp, rfl⟩
  | c :: cs => by
    unfold splitBang
    by_cases hc : c = 33
    · rw [if_pos hc]
      subst hc
      exact .inr ⟨[], cs, rfl, by simp, rfl⟩
    · rw [if_neg hc]
      rcases splitBang_eq cs with ⟨h1, h2⟩ | ⟨p, n, rfl, h2, h3⟩
      · rw [h2]
        exact .inl ⟨by simp [h1, Ne.symm hc], rfl⟩
      · rw [h3]
        exact .inr ⟨c :: p, n, rfl, by simp [h2, Ne.symm hc], rfl⟩

theorem bang_unique : ∀ {p n p' n' : Bytes}, p ++ (33 : UInt8) :: n = p' ++ 33 :: n' → 33 ∉ p → 33 ∉ p' → p = p' ∧ n = n'
  | [], n, [], n', h, _, _ => by cases h; exact ⟨rfl, rfl⟩
  | [], n, c :: p', n', h, _, h2 => by
    simp only [List.nil_append, List.cons_append, List.cons.injEq] at h
    exact absurd (by rw [h.1]; simp) h2
  | c :: p, n, [], n', h, h1, _ => by
    simp only [List.nil_append, List.cons_append, List.cons.injEq] at h
    exact absurd (by rw [h.1]; simp) h1
  | c :: p, n, c' :: p', n', h, h1, h2 => by
    simp only [List.cons_append, List.cons.injEq] at h
    obtain ⟨rfl, h⟩ := h
    obtain ⟨rfl, rfl⟩ := bang_unique h (fun h => h1 (by simp [h])) fun h => h2 (by simp [h])
    exact ⟨rfl, rfl⟩

theorem texts_iff : ∀ {vs : List Val} {us : List Bytes}, Texts vs us ↔ texts vs = some us
  | [], us => by
    constructor
    · intro h; cases h; rfl
    · intro h; cases h; exact .nil
  | .simple r t :: vs, us => by
    simp only [texts, Option.map_eq_some_iff]
    constructor
    · intro h
      cases h with
      | cons h1 h2 => exact ⟨_, texts_iff.mp h2, by rw [upToZero_iff.mp h1]⟩
    · rintro ⟨us', h1, rfl⟩
      exact .cons (upToZero_iff.mpr rfl) (texts_iff.mpr h1)
  | .array _ :: vs, us => ⟨nofun, nofun⟩
  | .hash _ :: vs, us => ⟨nofun, nofun⟩

theorem svcTypes_iff {es : List (Entry Val)} (hn : (es.map (·.key)).Nodup) {l : List Bytes} : SvcTypes es l ↔ svcNames (find es (str "service_types")) = some l := by
  unfold SvcTypes
  cases hf : find es (str "service_types") with
  | none =>
    simp only [svcNames, SvcsOf]
    constructor
    · rintro (⟨_, rfl⟩ | ⟨v, h, _⟩)
      · rfl
      · rw [(is_iff hn).mp h] at hf
        cases hf
    · intro h
      cases h
      exact .inl ⟨absent_iff.mpr hf, rfl⟩
  | some v =>
    simp only [svcNames]
    constructor
    · rintro (⟨h, _⟩ | ⟨v', h, vs, h1, h2⟩)
      · rw [absent_iff.mp h] at hf
        cases hf
      · rw [(is_iff hn).mp h] at hf
        cases hf
        rw [several_iff.mp h1] at h2
        exact texts_iff.mp h2
    · intro h
      exact .inr ⟨v, (is_iff hn).mpr hf, _, several_iff.mpr rfl, texts_iff.mpr h⟩

theorem name_iff {r : Bytes} : ∃ d, Dname.fromString r r.length = .ok d ∧
    ∀ x, (d.1 = .valid ∧ d.2 = x) ↔ ∃ ls, DnameSpec.NameText r ls true ∧ DnameSpec.WF ls ∧ x = DnameSpec.encode (ls.map (·.map DnameSpec.lower)) true := by
  rcases Dname.C01_parse_exact r r.length (Nat.le_refl _) with ⟨ls, q, h1, h2, h3⟩ | ⟨h1, h2⟩
  · rw [List.take_length] at h1
    refine ⟨_, h3, ?_⟩
    intro x
    constructor
    · rintro ⟨h, rfl⟩
      cases q with
      | true => exact ⟨ls, h1, h2, rfl⟩
      | false => cases h
    · rintro ⟨ls', h4, h5, rfl⟩
      have := Dname.C01_parse_complete r r.length (Nat.le_refl _) ls' true (by rw [List.take_length]; exact h4) h5
      rw [h3] at this
      simp only [Outcome.ok.injEq] at this
      rw [this]
      exact ⟨rfl, rfl⟩
  · refine ⟨_, h2, ?_⟩
    intro x
    constructor
    · rintro ⟨h, _⟩; cases h
    · rintro ⟨ls', h4, h5, rfl⟩
      have := Dname.C01_parse_complete r r.length (Nat.le_refl _) ls' true (by rw [List.take_length]; exact h4) h5
      rw [h2] at this
      simp only [Outcome.ok.injEq] at this
      rw [this]
      exact ⟨rfl, rfl⟩

theorem upTo_unique {t u u' : Bytes} (h : UpToZero t u) (h' : UpToZero t u') : u = u' := by
  rw [upToZero_iff.mp h, upToZero_iff.mp h']

section
variable {lib : Lib} {pn rn dn : Bytes} {keys : List Bytes} {full tops tops' res' : List (Entry Val)} {v : Val} {t : Target}

/-- What is made of options. -/
theorem options_iff (hc : Clean v) (hz : WholeKeys v) (hcf : Clean (.hash full)) (hzf : ∀ e ∈ full, (0 : UInt8) ∉ e.key)
    (hv : ∀ r t, v = .simple r t → ∃ u a, UpToZero t u ∧ ¬ Reference u ∧ lib.addr u = some a) :
    ((inject pn rn dn (marks full keys) tops v).map fun o => o.map fun p => (Target.res p.1 (some (childName pn rn dn)), marks full keys, p.2)) = .ok (some (t, res', tops')) ↔
      Means lib pn rn dn keys full v tops t tops' ∧ res' = marks full keys := by
  constructor
  · intro h
    cases hi : inject pn rn dn (marks full keys) tops v with
    | ub => rw [hi] at h; cases h
    | ok o =>
      rw [hi] at h
      cases o with
      | none => cases h
      | some q =>
        obtain ⟨p, x⟩ := q
        cases h
        obtain ⟨own, l, opts, h1, h2, h3, h4, h5, h6⟩ := (inject_iff hc hz hcf hzf).mp hi
        exact ⟨.options hv h1 h2 h3 h4 h5 h6, rfl⟩
  · rintro ⟨h, rfl⟩
    cases h with
    | reference h1 _ _ =>
      obtain ⟨u, a, h2, h3, _⟩ := hv _ _ rfl
      rw [upTo_unique h2 h1] at h3
      exact absurd ⟨_, .inl rfl⟩ h3
    | plugin h1 _ _ =>
      obtain ⟨u, a, h2, h3, _⟩ := hv _ _ rfl
      rw [upTo_unique h2 h1] at h3
      exact absurd ⟨_, .inl rfl⟩ h3
    | short h1 _ _ =>
      obtain ⟨u, a, h2, h3, _⟩ := hv _ _ rfl
      rw [upTo_unique h2 h1] at h3
      exact absurd ⟨_, .inr rfl⟩ h3
    | name h1 _ h2 _ _ _ =>
      obtain ⟨u, a, h3, _, h4⟩ := hv _ _ rfl
      rw [upTo_unique h3 h1, h2] at h4
      cases h4
    | options _ h1 h2 h3 h4 h5 h6 =>
      rw [(inject_iff hc hz hcf hzf).mpr ⟨_, _, _, h1, h2, h3, h4, h5, h6⟩]
      rfl

theorem not_short_hash {v : Val} (h : ∀ r t, v ≠ .simple r t) : ¬ Short v := by
  rintro ⟨r, t, n, rfl, _⟩
  exact h r t rfl

theorem perdc_iff (hc : Clean v) (hz : WholeKeys v) (hcf : Clean (.hash full)) (hzf : ∀ e ∈ full, (0 : UInt8) ∉ e.key) :
    perdc lib pn rn dn (marks full keys) tops v = .ok (some (t, res', tops')) ↔
      Means lib pn rn dn keys full v tops t tops' ∧ (Short v → res' = marks full (str "plugin" :: keys)) ∧ (¬ Short v → res' = marks full keys) := by
  have hother : (∀ r t, v ≠ .simple r t) → (((inject pn rn dn (marks full keys) tops v).map fun o => o.map fun p => (Target.res p.1 (some (childName pn rn dn)), marks full keys, p.2)) = .ok (some (t, res', tops')) ↔
      Means lib pn rn dn keys full v tops t tops' ∧ (Short v → res' = marks full (str "plugin" :: keys)) ∧ (¬ Short v → res' = marks full keys)) := by
    intro h
    rw [options_iff (lib := lib) hc hz hcf hzf fun r t e => absurd e (h r t)]
    have := not_short_hash h
    simp [this]
  have hn := (clean_hash hcf).1
  cases v with
  | array vs => exact hother nofun
  | hash es => exact hother nofun
  | simple r tx =>
    unfold perdc
    dsimp only
    have hu : ∀ {u}, UpToZero tx u ↔ u = cstr tx := upToZero_iff
    generalize cstr tx = u at hu
    split
    · rename_i t'
      have hns : ¬ Short (.simple r tx) := by
        rintro ⟨_, _, n, h, h1⟩
        cases h
        cases hu.mp h1
      rcases splitBang_eq t' with ⟨h1, h2⟩ | ⟨p, n, rfl, h1, h2⟩
      · rw [h2]
        dsimp only
        constructor
        · intro h
          by_cases hp : t' = pn
          · rw [if_pos hp] at h; cases h
          · rw [if_neg hp] at h
            cases h
            exact ⟨.plugin (hu.mpr rfl) h1 hp, fun h => absurd h hns, fun _ => rfl⟩
        · rintro ⟨h, _, h3⟩
          cases h with
          | reference h4 _ _ =>
            have := hu.mp h4
            simp only [List.cons.injEq, true_and] at this
            rw [← this] at h1
            exact absurd (by simp) h1
          | plugin h4 _ h5 =>
            have := hu.mp h4
            simp only [List.cons.injEq, true_and] at this
            subst this
            rw [if_neg h5, h3 hns]
          | short h4 _ _ => cases hu.mp h4
          | name h4 h5 _ _ _ _ =>
            rw [hu.mp h4] at h5
            exact absurd ⟨_, .inl rfl⟩ h5
          | options h4 _ _ _ _ _ _ =>
            obtain ⟨u, a, h5, h6, _⟩ := h4 _ _ rfl
            rw [hu.mp h5] at h6
            exact absurd ⟨_, .inl rfl⟩ h6
      · rw [h2]
        dsimp only
        constructor
        · intro h
          by_cases hp : p = pn ∧ n = rn
          · rw [if_pos hp] at h; cases h
          · rw [if_neg hp] at h
            cases h
            exact ⟨.reference (hu.mpr rfl) h1 hp, fun h => absurd h hns, fun _ => rfl⟩
        · rintro ⟨h, _, h3⟩
          cases h with
          | reference h4 h5 h6 =>
            have := hu.mp h4
            simp only [List.cons.injEq, true_and] at this
            obtain ⟨rfl, rfl⟩ := bang_unique this h5 h1
            rw [if_neg h6, h3 hns]
          | plugin h4 h5 _ =>
            have := hu.mp h4
            simp only [List.cons.injEq, true_and] at this
            rw [this] at h5
            exact absurd (by simp) h5
          | short h4 _ _ => cases hu.mp h4
          | name h4 h5 _ _ _ _ =>
            rw [hu.mp h4] at h5
            exact absurd ⟨_, .inl rfl⟩ h5
          | options h4 _ _ _ _ _ _ =>
            obtain ⟨u, a, h5, h6, _⟩ := h4 _ _ rfl
            rw [hu.mp h5] at h6
            exact absurd ⟨_, .inl rfl⟩ h6
    · rename_i n
      have hs : Short (.simple r tx) := ⟨_, _, n, rfl, hu.mpr rfl⟩
      have hpn : plugName (marks full keys) = (plugName full).map fun q => (q.1, marks full (str "plugin" :: keys)) := by
        rw [← setMark_marks]
        unfold plugName
        rw [find_marks]
        cases hf : find full (str "plugin") with
        | none =>
          dsimp only
          rw [setMark_absent (by rw [find_marks]; exact hf)]
          rfl
        | some v => cases v <;> rfl
      rw [hpn]
      constructor
      · intro h
        cases hq : plugName full with
        | none => rw [hq] at h; cases h
        | some q =>
          obtain ⟨p, es'⟩ := q
          rw [hq] at h
          dsimp only [Option.map] at h
          by_cases hp : p = pn ∧ n = rn
          · rw [if_pos hp] at h; cases h
          · rw [if_neg hp] at h
            cases h
            have := plugName_some hq
            subst this
            exact ⟨.short (hu.mpr rfl) ((plugOf_iff hn).mpr hq) hp, fun _ => rfl, fun h => absurd hs h⟩
      · rintro ⟨h, h3, _⟩
        cases h with
        | reference h4 _ _ => cases hu.mp h4
        | plugin h4 _ _ => cases hu.mp h4
        | short h4 h5 h6 =>
          cases hu.mp h4
          rw [(plugOf_iff hn).mp h5]
          dsimp only [Option.map]
          rw [if_neg h6, h3 hs]
        | name h4 h5 _ _ _ _ =>
          rw [hu.mp h4] at h5
          exact absurd ⟨_, .inr rfl⟩ h5
        | options h4 _ _ _ _ _ _ =>
          obtain ⟨u, a, h5, h6, _⟩ := h4 _ _ rfl
          rw [hu.mp h5] at h6
          exact absurd ⟨_, .inr rfl⟩ h6
    · rename_i h37 h33
      have hnr : ¬ Reference u := by
        rintro ⟨x, h | h⟩
        · exact h37 x h
        · exact h33 x h
      have hns : ¬ Short (.simple r tx) := by
        rintro ⟨_, _, n, h, h1⟩
        cases h
        exact h33 n (hu.mp h1).symm
      cases ha : lib.addr u with
      | some a =>
        dsimp only
        rw [options_iff hc hz hcf hzf fun r' t' e => ⟨u, a, (by cases e; exact hu.mpr rfl), hnr, ha⟩]
        simp [hns]
      | none =>
        dsimp only
        obtain ⟨d, hd, hdi⟩ := name_iff (r := r)
        rw [hd, find_marks]
        constructor
        · intro h
          simp only [Outcome.map_ok, Outcome.ok.injEq] at h
          by_cases hv : d.1 = .valid
          · rw [if_pos hv, Option.map_eq_some_iff] at h
            obtain ⟨svcs, h1, h2⟩ := h
            cases h2
            obtain ⟨ls, h3, h4, h5⟩ := (hdi d.2).mp ⟨hv, rfl⟩
            refine ⟨?_, fun h => absurd h hns, fun _ => rfl⟩
            rw [h5]
            exact .name (hu.mpr rfl) hnr ha h3 h4 ((svcTypes_iff hn).mpr h1)
          · rw [if_neg hv] at h; cases h
        · rintro ⟨h, _, h3⟩
          cases h with
          | reference h4 _ _ => exact absurd ⟨_, .inl (hu.mp h4).symm⟩ hnr
          | plugin h4 _ _ => exact absurd ⟨_, .inl (hu.mp h4).symm⟩ hnr
          | short h4 _ _ => exact absurd ⟨_, .inr (hu.mp h4).symm⟩ hnr
          | name h4 h5 h6 h7 h8 h9 =>
            cases hu.mp h4
            obtain ⟨g1, g2⟩ := (hdi _).mpr ⟨_, h7, h8, rfl⟩
            simp only [Outcome.map_ok, Outcome.ok.injEq]
            rw [if_pos g1, (svcTypes_iff hn).mp h9, g2, h3 hns]
            rfl
          | options h4 _ _ _ _ _ _ =>
            obtain ⟨u', a, h5, _, h6⟩ := h4 _ _ rfl
            rw [hu.mp h5, ha] at h6
            cases h6

end

theorem number_iff {names : List Bytes} {dn : Bytes} {n : Nat} : NumberOf names dn n ↔ n ≠ 0 ∧ dcIdx names dn = n := by
  unfold NumberOf dcIdx
  cases hf : names.findIdx? (· == dn) with
  | none =>
    constructor
    · rintro ⟨i, _, h1, _⟩
      rw [List.findIdx?_eq_none_iff] at hf
      have := hf _ (List.mem_of_getElem? h1)
      simp at this
    · rintro ⟨h, h'⟩
      exact absurd h'.symm h
  | some i =>
    rw [List.findIdx?_eq_some_iff_getElem] at hf
    obtain ⟨hi, h1, h2⟩ := hf
    have h1 : names[i] = dn := by simpa using h1
    have h2 : ∀ j (hj : j < i), names[j]? ≠ some dn := by
      intro j hj hc
      have := h2 j hj
      rw [List.getElem?_eq_getElem (by omega)] at hc
      simp only [Option.some.injEq] at hc
      simp [hc] at this
    constructor
    · rintro ⟨j, rfl, h3, h4⟩
      refine ⟨by omega, ?_⟩
      rcases Nat.lt_trichotomy i j with h | h | h
      · exact absurd (by rw [List.getElem?_eq_getElem hi, h1]) (h4 i h)
      · rw [h]
      · exact absurd h3 (h2 j h)
    · rintro ⟨_, h⟩
      exact ⟨i, h.symm, by rw [List.getElem?_eq_getElem hi, h1], h2⟩

theorem marks_congr {es : List (Entry Val)} {ks ks' : List Bytes} (h : ∀ k, k ∈ ks ↔ k ∈ ks') : marks es ks = marks es ks' := by
  rw [marks_eq, marks_eq]
  apply List.map_congr_left
  intro e _
  have : ks.contains e.key = ks'.contains e.key := by
    rw [Bool.eq_iff_iff]
    simp [h]
  rw [this]

theorem marks_twice (es : List (Entry Val)) (k : Bytes) (ks : List Bytes) : marks es (k :: k :: ks) = marks es (k :: ks) :=
  marks_congr (by simp)

theorem dcmap_iff {lib : Lib} {pn rn : Bytes} {names : List Bytes} {keys : List Bytes} {full : List (Entry Val)} (hcf : Clean (.hash full))
    (hzf : ∀ e ∈ full, (0 : UInt8) ∉ e.key) : ∀ {es : List (Entry Val)} {short : Bool} {tops tops' : List (Entry Val)} {ds : List Dc}, CleanOf es → (∀ e ∈ es, WholeKeys e.val) →
    (dcmap lib pn rn names es (marks full (if short = true then str "plugin" :: keys else keys)) tops = .ok (some (ds, tops')) ↔
      Datacenters lib pn rn names keys full short es tops ds tops')
  | [], short, tops, tops', ds, _, _ => by
    constructor
    · intro h; cases h; exact .nil
    · intro h; cases h; rfl
  | e :: es, short, tops, tops', ds, hc, hz => by
    have hce := (cleanOf_mem hc List.mem_cons_self).1
    have hcs : CleanOf es := by cases hc; assumption
    have hze := hz e List.mem_cons_self
    have hzs : ∀ e ∈ es, WholeKeys e.val := fun e he => hz e (by simp [he])
    rw [dcmap]
    constructor
    · intro h
      by_cases h0 : dcIdx names (cstr e.key) = 0
      · rw [if_pos h0] at h; cases h
      · rw [if_neg h0] at h
        cases hp : perdc lib pn rn (cstr e.key) (marks full (if short = true then str "plugin" :: keys else keys)) tops e.val with
        | ub => rw [hp] at h; cases h
        | ok o =>
          rw [hp, Outcome.bind_ok] at h
          cases o with
          | none => cases h
          | some q =>
            obtain ⟨t, res', tops1⟩ := q
            dsimp only at h
            obtain ⟨h1, h2, h3⟩ := (perdc_iff hce hze hcf hzf).mp hp
            have hres : ∃ short', (short' = true ↔ short = true ∨ Short e.val) ∧ res' = marks full (if short' = true then str "plugin" :: keys else keys) := by
              by_cases hs : Short e.val
              · refine ⟨true, by simp [hs], ?_⟩
                rw [h2 hs, if_pos rfl]
                cases short with
                | false => rfl
                | true =>
                  exact marks_twice _ _ _
              · exact ⟨short, by simp [hs], h3 hs⟩
            obtain ⟨short', hs1, rfl⟩ := hres
            cases hd : dcmap lib pn rn names es (marks full (if short' = true then str "plugin" :: keys else keys)) tops1 with
            | ub => rw [hd] at h; cases h
            | ok o =>
              rw [hd] at h
              cases o with
              | none => cases h
              | some q =>
                obtain ⟨ds', tops2⟩ := q
                cases h
                exact .cons (upToZero_iff.mpr rfl) (number_iff.mpr ⟨h0, rfl⟩) h1 hs1 ((dcmap_iff hcf hzf hcs hzs).mp hd)
    · intro h
      cases h with
      | @cons short short' _ _ _ n dn t tops1 ds' _ h1 h2 h3 h4 h5 =>
        have := upToZero_iff.mp h1
        subst this
        obtain ⟨h6, rfl⟩ := number_iff.mp h2
        rw [if_neg h6]
        have hres : ∃ res', (Short e.val → res' = marks full (str "plugin" :: (if short = true then str "plugin" :: keys else keys))) ∧
            (¬ Short e.val → res' = marks full (if short = true then str "plugin" :: keys else keys)) ∧
            res' = marks full (if short' = true then str "plugin" :: keys else keys) := by
          refine ⟨_, ?_, ?_, rfl⟩
          · intro hs
            have : short' = true := h4.mpr (.inr hs)
            rw [this, if_pos rfl]
            cases short with
            | false => rfl
            | true =>
              exact (marks_twice _ _ _).symm
          · intro hs
            have : short' = short := by
              cases short with
              | true => exact h4.mpr (.inl rfl)
              | false =>
                cases short' with
                | false => rfl
                | true =>
                  rcases h4.mp rfl with h | h
                  · cases h
                  · exact absurd h hs
            rw [this]
        obtain ⟨res', g1, g2, g3⟩ := hres
        have hp := (perdc_iff (res' := res') hce hze hcf hzf).mpr ⟨h3, g1, g2⟩
        change perdc lib pn rn (cstr e.key) (marks full (if short = true then str "plugin" :: keys else keys)) tops e.val = _ at hp
        rw [hp, Outcome.bind_ok]
        dsimp only
        rw [g3, (dcmap_iff hcf hzf hcs hzs).mpr h5]
        rfl

/-- The two descriptions of a plugin agree. -/
structure Agree (k : Kind) (p : Plugin) : Prop where
  name : k.name = p.name
  key : k.key = p.key
  used : k.used = p.used
  names : ∀ {es : List (Entry Val)} {undef v ns}, (es.map (·.key)).Nodup → (p.Names es undef v ns ↔ ns ≠ [] ∧ ∃ f, k.hook es = some (undef, f) ∧ f v = some ns)

theorem skip_iff {es : List (Entry Val)} (hn : (es.map (·.key)).Nodup) {b : Bool} : BoolOf es "skip_first" false b ↔ skipOf (find es (str "skip_first")) = .ok (some b) := by
  unfold BoolOf
  cases hf : find es (str "skip_first") with
  | none =>
    constructor
    · rintro (⟨_, rfl⟩ | ⟨r, t, h, _⟩)
      · rfl
      · rw [(is_iff hn).mp h] at hf; cases hf
    · intro h; cases h; exact .inl ⟨absent_iff.mpr hf, rfl⟩
  | some v =>
    constructor
    · rintro (⟨h, _⟩ | ⟨r, t, h, h1⟩)
      · rw [absent_iff.mp h] at hf; cases hf
      · rw [(is_iff hn).mp h] at hf
        cases hf
        simp only [skipOf]
        rw [truth_iff.mp h1]
    · intro h
      cases v with
      | simple r t => exact .inr ⟨r, t, (is_iff hn).mpr hf, truth_iff.mpr (Outcome.ok.inj h)⟩
      | array _ => cases h
      | hash _ => cases h

theorem flag_iff {es : List (Entry Val)} (hn : (es.map (·.key)).Nodup) {b : Bool} : BoolOf es "undefined_datacenters_ok" false b ↔ flagOf (find es (str "undefined_datacenters_ok")) = some b := by
  unfold BoolOf
  cases hf : find es (str "undefined_datacenters_ok") with
  | none =>
    constructor
    · rintro (⟨_, rfl⟩ | ⟨r, t, h, _⟩)
      · rfl
      · rw [(is_iff hn).mp h] at hf; cases hf
    · intro h; cases h; exact .inl ⟨absent_iff.mpr hf, rfl⟩
  | some v =>
    constructor
    · rintro (⟨h, _⟩ | ⟨r, t, h, h1⟩)
      · rw [absent_iff.mp h] at hf; cases hf
      · rw [(is_iff hn).mp h] at hf
        cases hf
        exact truth_iff.mp h1
    · intro h
      cases v with
      | simple r t => exact .inr ⟨r, t, (is_iff hn).mpr hf, truth_iff.mpr h⟩
      | array _ => cases h
      | hash _ => cases h

theorem find_iff {es : List (Entry Val)} (hn : (es.map (·.key)).Nodup) {k : Bytes} {v : Val} : (∃ e ∈ es, e.key = k ∧ e.val = v) ↔ find es k = some v := by
  constructor
  · rintro ⟨e, h1, rfl, rfl⟩
    exact find_mem hn h1
  · intro h
    obtain ⟨e, h1, h2, h3⟩ := find_some h
    exact ⟨e, h1, h2, h3⟩

section
variable {lib : Lib} {k : Kind} {p : Plugin} {config tops tops' : List (Entry Val)}

theorem makeResource_iff (hk : Agree k p) {rn : Bytes} {undef : Bool} {f : Val → Option (List Bytes)} (hh : k.hook config = some (undef, f)) (hcn : (config.map (·.key)).Nodup)
    {full : List (Entry Val)} (hcf : Clean (.hash full)) (hzf : WholeKeys (.hash full)) {r : Resource} : makeResource lib k undef f rn full tops = .ok (some (r, tops')) ↔
      r.name = rn ∧ ∃ undef v dcs, (∃ e ∈ full, e.key = p.key ∧ e.val = v) ∧ p.Names config undef v r.names ∧ BoolOf full "skip_first" false r.skip ∧
        Is full "dcmap" (.hash dcs) ∧ (if undef = true then dcs ≠ [] else dcs.length = r.names.length) ∧
        Datacenters lib p.name r.name r.names [p.key, nm "skip_first", nm "dcmap"] full false dcs tops r.dcs tops' := by
  obtain ⟨hn, _, hco⟩ := clean_hash hcf
  rw [← hk.name, ← hk.key]
  unfold makeResource
  constructor
  · intro h
    cases hf : find full k.key with
    | none => rw [hf] at h; cases h
    | some v =>
      rw [hf] at h
      dsimp only [Option.bind] at h
      cases hv : f v with
      | none => rw [hv] at h; cases h
      | some ns =>
        rw [hv] at h
        dsimp only at h
        cases ns with
        | nil => cases h
        | cons n ns =>
          have : assert (!(n :: ns).isEmpty) = .ok () := rfl
          rw [this, Outcome.bind_ok] at h
          cases hs : skipOf (find full (str "skip_first")) with
          | ub => rw [hs] at h; cases h
          | ok o =>
            rw [hs, Outcome.bind_ok] at h
            cases o with
            | none => cases h
            | some skip =>
              dsimp only at h
              cases hd : find full (str "dcmap") with
              | none => rw [hd] at h; cases h
              | some w =>
                rw [hd] at h
                cases w with
                | simple _ _ => cases h
                | array _ => cases h
                | hash dcs =>
                  dsimp only at h
                  by_cases hl : (if undef = true then dcs.length = 0 else dcs.length ≠ (n :: ns).length)
                  · rw [if_pos hl] at h; cases h
                  · rw [if_neg hl] at h
                    have hmem := find_some hd
                    obtain ⟨e, he1, he2, he3⟩ := hmem
                    have hcd := (clean_hash (he3 ▸ (cleanOf_mem hco he1).1)).2.2
                    have hzd : ∀ e ∈ dcs, WholeKeys e.val := by
                      intro e' he' es' hes'
                      exact hzf es' (.child he1 (he3 ▸ .child he' hes'))
                    cases hm : dcmap lib k.name rn (n :: ns) dcs (marks full [k.key, str "skip_first", str "dcmap"]) tops with
                    | ub => rw [hm] at h; cases h
                    | ok o =>
                      rw [hm] at h
                      cases o with
                      | none => cases h
                      | some q =>
                        obtain ⟨ds, tops1⟩ := q
                        cases h
                        refine ⟨rfl, undef, v, dcs, (find_iff hn).mpr hf, (hk.names hcn).mpr ⟨nofun, f, hh, hv⟩, (skip_iff hn).mpr hs, (is_iff hn).mpr hd, ?_,
                          (dcmap_iff (short := false) hcf (hzf _ .refl) hcd hzd).mp hm⟩
                        split
                        · rename_i hu
                          rw [if_pos hu] at hl
                          intro hc
                          exact hl (by rw [hc]; rfl)
                        · rename_i hu
                          rw [if_neg hu] at hl
                          exact Decidable.not_not.mp hl
  · rintro ⟨rfl, undef', v, dcs, h1, h2, h3, h4, h5, h6⟩
    obtain ⟨h7, f', h8, h9⟩ := (hk.names hcn).mp h2
    rw [hh] at h8
    cases h8
    have hd := (is_iff hn).mp h4
    rw [(find_iff hn).mp h1]
    dsimp only [Option.bind]
    rw [h9]
    dsimp only
    have : assert (!r.names.isEmpty) = .ok () := by
      cases hr : r.names with
      | nil => exact absurd hr h7
      | cons _ _ => rfl
    rw [this, Outcome.bind_ok, (skip_iff hn).mp h3, Outcome.bind_ok]
    dsimp only
    rw [hd]
    dsimp only
    have hl : ¬ (if undef = true then dcs.length = 0 else dcs.length ≠ r.names.length) := by
      split
      · rename_i hu
        rw [if_pos hu] at h5
        intro hc
        exact h5 (List.eq_nil_of_length_eq_zero hc)
      · rename_i hu
        rw [if_neg hu] at h5
        exact fun h => h h5
    rw [if_neg hl]
    obtain ⟨e, he1, he2, he3⟩ := find_some hd
    have hcd := (clean_hash (he3 ▸ (cleanOf_mem hco he1).1)).2.2
    have hzd : ∀ e ∈ dcs, WholeKeys e.val := by
      intro e' he' es' hes'
      exact hzf es' (.child he1 (he3 ▸ .child he' hes'))
    have hm := (dcmap_iff (short := false) hcf (hzf _ .refl) hcd hzd).mpr h6
    change dcmap lib k.name r.name r.names dcs (marks full [k.key, str "skip_first", str "dcmap"]) tops = _ at hm
    rw [hm]
    rfl

theorem whole_full {own l es : List (Entry Val)} {ks : List Bytes} (ho : WholeKeys (.hash own)) (he : WholeKeys (.hash es)) (h : l = miss ks own es) : WholeKeys (.hash (own ++ l)) := by
  intro fs hw
  cases hw with
  | refl => exact whole_append (ho _ .refl) (he _ .refl) h
  | child h1 h2 =>
    rcases List.mem_append.mp h1 with h1 | h1
    · exact ho _ (.child h1 h2)
    · subst h
      exact he _ (.child (List.mem_filter.mp h1).1 h2)

theorem resources_iff (hk : Agree k p) {undef : Bool} {f : Val → Option (List Bytes)} (hh : k.hook config = some (undef, f)) (hc : Clean (.hash config)) (hz : WholeKeys (.hash config)) :
    ∀ {es tops tops' : List (Entry Val)} {rs : List Resource}, CleanOf es → (∀ e ∈ es, WholeKeys e.val) →
    (resources lib k undef f (marks config (k.used ++ [str "resources"])) es tops = .ok (some (rs, tops')) ↔ ResourcesOf lib p config es tops rs tops')
  | [], tops, tops', rs, _, _ => by
    constructor
    · intro h; cases h; exact .nil
    · intro h; cases h; rfl
  | e :: es, tops, tops', rs, hce, hze => by
    have hc1 := (cleanOf_mem hce List.mem_cons_self).1
    have hcs : CleanOf es := by cases hce; assumption
    have hz1 := hze e List.mem_cons_self
    have hzs : ∀ e ∈ es, WholeKeys e.val := fun e he => hze e (by simp [he])
    have hcn := (clean_hash hc).1
    have hmk : marks config (k.used ++ [str "resources"]) = marks config (nm "resources" :: p.used) := by
      rw [hk.used]
      apply marks_congr
      intro x
      simp only [List.mem_append, List.mem_cons, List.not_mem_nil, or_false]
      exact Or.comm
    rw [resources]
    have ih := fun tops' tops'' rs => resources_iff hk hh hc hz (es := es) (tops := tops') (tops' := tops'') (rs := rs) hcs hzs
    rw [hmk] at ih ⊢
    constructor
    · intro h
      cases hv : e.val with
      | simple _ _ => rw [hv] at h; cases h
      | array _ => rw [hv] at h; cases h
      | hash own =>
        rw [hv] at h hc1 hz1
        dsimp only at h
        rw [inheritAll_eq hc (hz _ .refl), Outcome.bind_ok] at h
        generalize hl : miss (nm "resources" :: p.used) own config = l at h
        have hcf := clean_append hc1 hc hl.symm
        have hzf := whole_full hz1 hz hl.symm
        cases hm : makeResource lib k undef f (cstr e.key) (own ++ l) tops with
        | ub => rw [hm] at h; cases h
        | ok o =>
          rw [hm, Outcome.bind_ok] at h
          cases o with
          | none => cases h
          | some q =>
            obtain ⟨r, tops1⟩ := q
            dsimp only at h
            cases hr : resources lib k undef f (marks config (nm "resources" :: p.used)) es tops1 with
            | ub => rw [hr] at h; cases h
            | ok o =>
              rw [hr] at h
              cases o with
              | none => cases h
              | some q =>
                obtain ⟨rs', tops2⟩ := q
                cases h
                obtain ⟨h1, u, v, dcs, h2⟩ := (makeResource_iff hk hh hcn hcf hzf).mp hm
                exact .cons ⟨upToZero_iff.mpr h1, own, l, _, u, v, dcs, hv, inherits_iff.mpr hl.symm, rfl, h2⟩ ((ih _ _ _).mp hr)
    · intro h
      cases h with
      | cons h1 h2 =>
        obtain ⟨hname, own, l, full, u, v, dcs, hv, hi, rfl, hrest⟩ := h1
        rw [hv] at hc1 hz1 ⊢
        dsimp only
        have hl := (inherits_iff.mp hi).symm
        rw [inheritAll_eq hc (hz _ .refl), Outcome.bind_ok, hl]
        have hcf := clean_append hc1 hc hl.symm
        have hzf := whole_full hz1 hz hl.symm
        rw [(makeResource_iff hk hh hcn hcf hzf).mpr ⟨upToZero_iff.mp hname, u, v, dcs, hrest⟩, Outcome.bind_ok]
        dsimp only
        rw [(ih _ _ _).mpr h2]
        rfl

theorem load_iff (hk : Agree k p) (hc : Clean (.hash config)) (hz : WholeKeys (.hash config)) {rs : List Resource} :
    load lib k config tops = .ok (some (rs, tops')) ↔ Loads lib p config tops rs tops' := by
  obtain ⟨hn, _, hco⟩ := clean_hash hc
  have hsub : ∀ {es}, find config (str "resources") = some (.hash es) → CleanOf es ∧ ∀ e ∈ es, WholeKeys e.val := by
    intro es hf
    obtain ⟨e, he1, he2, he3⟩ := find_some hf
    refine ⟨(clean_hash (he3 ▸ (cleanOf_mem hco he1).1)).2.2, ?_⟩
    intro e' he' es' hes'
    exact hz es' (.child he1 (he3 ▸ .child he' hes'))
  unfold load
  constructor
  · intro h
    cases hh : k.hook config with
    | none => rw [hh] at h; cases h
    | some q =>
      obtain ⟨undef, f⟩ := q
      rw [hh] at h
      dsimp only at h
      cases hf : find config (str "resources") with
      | none => rw [hf] at h; cases h
      | some w =>
        rw [hf] at h
        cases w with
        | simple _ _ => cases h
        | array _ => cases h
        | hash es =>
          dsimp only at h
          by_cases h1 : es.length > 2 ^ 24
          · rw [if_pos h1] at h; cases h
          · rw [if_neg h1] at h
            by_cases h2 : es.length = 0
            · rw [if_pos h2] at h; cases h
            · rw [if_neg h2] at h
              exact ⟨es, (is_iff hn).mpr hf, fun hc => h2 (by rw [hc]; rfl), by omega, (resources_iff hk hh hc hz (hsub hf).1 (hsub hf).2).mp h⟩
  · rintro ⟨es, h1, h2, h3, h4⟩
    have hf := (is_iff hn).mp h1
    have hh : ∃ undef f, k.hook config = some (undef, f) := by
      cases h4 with
      | nil => exact absurd rfl h2
      | cons h5 _ =>
        obtain ⟨_, _, _, _, u, v, _, _, _, _, _, h6, _⟩ := h5
        obtain ⟨_, f, h7, _⟩ := (hk.names hn).mp h6
        exact ⟨u, f, h7⟩
    obtain ⟨undef, f, hh⟩ := hh
    rw [hh]
    dsimp only
    rw [hf]
    dsimp only
    rw [if_neg (by omega), if_neg (fun h => h2 (List.eq_nil_of_length_eq_zero h))]
    exact (resources_iff hk hh hc hz (hsub hf).1 (hsub hf).2).mpr h4

end

theorem agree_metafo : Agree metafo MetaSpec.metafo where
  name := rfl
  key := rfl
  used := rfl
  names := by
    intro es undef v ns _
    have hlist : (∃ vs, (∀ es, v ≠ .hash es) ∧ Several v vs ∧ Texts vs ns) ∧ ns ≠ [] ↔ listNames v = some ns ∧ ns ≠ [] := by
      have hsimple : (∀ es, v ≠ .hash es) → ((∃ vs, (∀ es, v ≠ .hash es) ∧ Several v vs ∧ Texts vs ns) ↔ texts (Svc.items v) = some ns) := by
        intro hv
        constructor
        · rintro ⟨vs, _, h1, h2⟩
          rw [several_iff.mp h1] at h2
          exact texts_iff.mp h2
        · intro h
          exact ⟨_, hv, several_iff.mpr rfl, texts_iff.mpr h⟩
      cases v with
      | hash es' =>
        constructor
        · rintro ⟨⟨_, h, _⟩, _⟩; exact absurd rfl (h es')
        · rintro ⟨h, _⟩; cases h
      | simple r t =>
        rw [hsimple nofun]
        unfold listNames
        simp only
        generalize texts (Svc.items _) = o
        cases o with
        | none => simp
        | some x =>
          cases x with
          | nil =>
            constructor
            · rintro ⟨h, h1⟩
              exact absurd (Option.some.inj h).symm h1
            · rintro ⟨h, _⟩; cases h
          | cons _ _ => simp
      | array vs =>
        rw [hsimple nofun]
        unfold listNames
        simp only
        generalize texts (Svc.items _) = o
        cases o with
        | none => simp
        | some x =>
          cases x with
          | nil =>
            constructor
            · rintro ⟨h, h1⟩
              exact absurd (Option.some.inj h).symm h1
            · rintro ⟨h, _⟩; cases h
          | cons _ _ => simp
    constructor
    · rintro ⟨rfl, h1, h2⟩
      exact ⟨h1, _, rfl, (hlist.mp ⟨h2, h1⟩).1⟩
    · rintro ⟨h1, f, h2, h3⟩
      cases h2
      exact ⟨rfl, h1, (hlist.mpr ⟨h3, h1⟩).1⟩

theorem mapNames_iff {tab : List (Bytes × List Bytes)} {u : Bytes} {ns : List Bytes} : (tab.find? fun m => m.1 == u).map (·.2) = some ns ↔
    ∃ i : Nat, tab[i]? = some (u, ns) ∧ ∀ j < i, ∀ m : Bytes × List Bytes, tab[j]? = some m → m.1 ≠ u := by
  rw [Option.map_eq_some_iff]
  constructor
  · rintro ⟨m, h, rfl⟩
    rw [List.find?_eq_some_iff_getElem] at h
    obtain ⟨h1, i, hi, h2, h3⟩ := h
    have h1 : m.1 = u := by simpa using h1
    refine ⟨i, by rw [List.getElem?_eq_getElem hi, h2, ← h1], ?_⟩
    intro j hj m' hm' hc
    have := h3 j hj
    rw [List.getElem?_eq_getElem (by omega)] at hm'
    simp only [Option.some.injEq] at hm'
    simp [hm', hc] at this
  · rintro ⟨i, h1, h2⟩
    refine ⟨(u, ns), ?_, rfl⟩
    rw [List.find?_eq_some_iff_getElem]
    obtain ⟨hi, h3⟩ := List.getElem?_eq_some_iff.mp h1
    refine ⟨by simp, i, hi, h3, ?_⟩
    intro j hj
    have := h2 j hj tab[j] (List.getElem?_eq_getElem (by omega))
    simpa using this

theorem agree_geoip (gdmaps : List (Entry Val) → Option (List (Bytes × List Bytes))) : Agree (geoip gdmaps) (MetaSpec.geoip gdmaps) where
  name := rfl
  key := rfl
  used := rfl
  names := by
    intro es undef v ns hn
    constructor
    · rintro ⟨h1, h2, ms, tab, r, t, u, i, h3, h4, h5, rfl, h6, h7⟩
      refine ⟨h1, mapNames tab, ?_, ?_⟩
      · simp only [geoip]
        rw [(is_iff hn).mp h3]
        cases ms with
        | nil => exact absurd rfl h4
        | cons m ms =>
          dsimp only
          rw [h5, (flag_iff hn).mp h2]
      · simp only [mapNames]
        rw [← upToZero_iff.mp h6]
        exact mapNames_iff.mpr ⟨i, h7⟩
    · rintro ⟨h1, f, h2, h3⟩
      simp only [geoip] at h2
      cases hf : find es (str "maps") with
      | none => rw [hf] at h2; cases h2
      | some w =>
        rw [hf] at h2
        cases w with
        | simple _ _ => cases h2
        | array _ => cases h2
        | hash ms =>
          cases ms with
          | nil => cases h2
          | cons m ms =>
            dsimp only at h2
            cases hg : gdmaps (m :: ms) with
            | none => rw [hg] at h2; cases h2
            | some tab =>
              cases hb : flagOf (find es (str "undefined_datacenters_ok")) with
              | none => rw [hg, hb] at h2; cases h2
              | some b =>
                rw [hg, hb] at h2
                cases h2
                cases v with
                | array _ => cases h3
                | hash _ => cases h3
                | simple r t =>
                  obtain ⟨i, h7⟩ := mapNames_iff.mp h3
                  exact ⟨h1, (flag_iff hn).mpr hb, _, tab, r, t, _, i, (is_iff hn).mpr hf, nofun, hg, rfl, upToZero_iff.mpr rfl, h7⟩

end Gdnsd.Meta
