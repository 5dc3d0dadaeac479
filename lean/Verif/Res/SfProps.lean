/-
C93: the resources of `simplefo`.
-/
import Verif.Res.MfProps
namespace Gdnsd.Res
open Vscf VscfSpec Conf ConfSpec SvcSpec ResSpec
open Svc (Addr)

/-- The parameter that is handed down. -/
def svcKey : List Bytes := [str "service_types"]

theorem svcKey_zero : ∀ k ∈ svcKey, (0 : UInt8) ∉ k := by decide

theorem which_shape {lib : Lib} {fam : Option Bool} {o p : Option Val} (h : o.map shape = p.map shape) : whichAddr lib fam o = whichAddr lib fam p := by
  cases o with
  | none => cases p with
    | none => rfl
    | some w => cases h
  | some v => cases p with
    | none => cases h
    | some w => cases v <;> cases w <;> simp_all [shape, whichAddr]

/-- Of a family that is given. -/
theorem which_fam {lib : Lib} {v6 : Bool} {o : Option Val} {a : Addr} : whichAddr lib (some v6) o = some a ↔ ∃ v, o = some v ∧ IsAddr lib v6 v a := by
  constructor
  · intro h
    unfold whichAddr at h
    split at h
    · rename_i r t
      split at h
      · cases h
      · rename_i b hb
        split at h
        · cases h
        · rename_i hv
          cases h
          exact ⟨_, rfl, r, t, cstr t, rfl, upToZero_iff.mpr rfl, hb, by
            revert hv; cases a.v6 <;> cases v6 <;> simp⟩
    · cases h
  · rintro ⟨_, rfl, r, t, u, rfl, h1, h2, rfl⟩
    rw [upToZero_iff.mp h1] at h2
    unfold whichAddr
    simp only [h2]
    rw [if_neg (by cases a.v6 <;> simp)]

/-- Of any family. -/
theorem which_any {lib : Lib} {o : Option Val} {a : Addr} : whichAddr lib none o = some a ↔ ∃ v, o = some v ∧ IsAddr lib a.v6 v a := by
  rw [← which_fam]
  unfold whichAddr
  split
  · split
    · simp
    · rename_i b hb
      constructor
      · intro h
        simp only [reduceCtorEq, if_false, Option.some.injEq] at h
        subst h
        rw [if_neg (by cases b.v6 <;> simp)]
      · intro h
        split at h
        · cases h
        · simp only [reduceCtorEq, if_false]
          exact h
  · simp

/-- What is looked at of a pair. -/
structure PView (levels : List (List (Entry Val))) (es fs : List (Entry Val)) : Prop where
  svcs : (find fs (str "service_types")).map shape = (firstOf levels (str "service_types")).map shape
  pri : (find fs (str "primary")).map shape = (find es (str "primary")).map shape
  sec : (find fs (str "secondary")).map shape = (find es (str "secondary")).map shape

theorem pair_iff {lib : Lib} {v6 : Bool} {levels : List (List (Entry Val))} {es fs : List (Entry Val)} (hv : PView levels es fs) (hn : (es.map (·.key)).Nodup)
    (hl : ∀ x ∈ levels, (x.map (·.key)).Nodup) (honly : Only es ["service_types", "primary", "secondary"]) {s : PSet} :
    pairOf lib (some v6) fs = some s ↔ PairOf lib v6 levels es s := by
  unfold pairOf
  rw [svcNames_shape hv.svcs, which_shape hv.pri, which_shape hv.sec]
  have hsv : ∀ l, (∃ o, First levels "service_types" o ∧ SvcsOf o l) ↔ svcNames (firstOf levels (str "service_types")) = some l := by
    intro l
    constructor
    · rintro ⟨o, h1, h2⟩
      rw [(first_iff hl).mp h1] at h2
      exact svcs_iff.mp h2
    · intro h
      exact ⟨_, (first_iff hl).mpr rfl, svcs_iff.mpr h⟩
  have hw : ∀ k a, (∃ v, Is es k v ∧ IsAddr lib v6 v a) ↔ whichAddr lib (some v6) (find es (str k)) = some a := by
    intro k a
    rw [which_fam]
    constructor
    · rintro ⟨v, h1, h2⟩
      exact ⟨v, (is_iff hn).mp h1, h2⟩
    · rintro ⟨v, h1, h2⟩
      exact ⟨v, (is_iff hn).mpr h1, h2⟩
  constructor
  · intro h
    split at h
    · rename_i l a b h1 h2 h3
      cases h
      exact ⟨(hw _ _).mpr h2, (hw _ _).mpr h3, (hsv _).mpr h1, honly⟩
    · cases h
  · intro h
    rw [(hw _ _).mp h.primary, (hw _ _).mp h.secondary, (hsv _).mp h.svcs]

theorem pair_any {lib : Lib} {levels : List (List (Entry Val))} {es fs : List (Entry Val)} (hv : PView levels es fs) (hn : (es.map (·.key)).Nodup)
    (hl : ∀ x ∈ levels, (x.map (·.key)).Nodup) (honly : Only es ["service_types", "primary", "secondary"]) {s : PSet} {v6 : Bool} :
    (pairOf lib none fs = some s ∧ s.pri.v6 = v6 ∧ s.sec.v6 = v6) ↔ PairOf lib v6 levels es s := by
  rw [← pair_iff hv hn hl honly]
  unfold pairOf
  constructor
  · rintro ⟨h, h1, h2⟩
    split at h
    · rename_i l a b g1 g2 g3
      cases h
      subst h1
      change b.v6 = a.v6 at h2
      rw [which_any, ← which_fam] at g2 g3
      rw [h2] at g3
      rw [g1, g2, g3]
    · cases h
  · intro h
    split at h
    · rename_i l a b g1 g2 g3
      cases h
      rw [which_fam] at g2 g3
      have ha : a.v6 = v6 := by
        obtain ⟨_, _, _, _, _, _, _, _, h⟩ := g2
        exact h
      have hb : b.v6 = v6 := by
        obtain ⟨_, _, _, _, _, _, _, _, h⟩ := g3
        exact h
      have g2' : whichAddr lib none (find fs (str "primary")) = some a := which_any.mpr (by rw [ha]; exact g2)
      have g3' : whichAddr lib none (find fs (str "secondary")) = some b := which_any.mpr (by rw [hb]; exact g3)
      rw [g1, g2', g3']
      exact ⟨rfl, ha, hb⟩
    · cases h

theorem pair_keys : str "primary" ∉ svcKey ∧ str "secondary" ∉ svcKey ∧ str "addrs_v4" ∉ svcKey ∧ str "addrs_v6" ∉ svcKey := by decide

theorem L2.find_out {ks : List Bytes} {es opts o1 o2 : List (Entry Val)} (h : L2 ks es opts o1 o2) {k : Bytes} (hk : k ∉ ks) : (find o2 k).map shape = (find opts k).map shape := by
  cases hf : find opts k with
  | none => rw [h.absent k hk hf]
  | some v =>
    obtain ⟨a, b, h1, h2, h3⟩ := h.value k hk v hf
    rw [h2, ← h1]
    simp [h3.shape]

theorem L2.pview {es opts o1 o2 : List (Entry Val)} (h : L2 svcKey es opts o1 o2) : PView [opts, es] opts o2 where
  svcs := h.param _ (by decide)
  pri := h.find_out pair_keys.1
  sec := h.find_out pair_keys.2.1

/-- A stanza within a resource. -/
theorem optPair_iff {lib : Lib} {v6 : Bool} {es opts o1 o2 : List (Entry Val)} (h : L2 svcKey es opts o1 o2) (hc : Clean (.hash opts)) (hn : (es.map (·.key)).Nodup)
    {k : String} (hk : str k ∉ svcKey) {s : Option PSet} : optPair lib v6 (find o2 (str k)) = some s ↔ MaybePair lib v6 [opts, es] opts k s := by
  obtain ⟨hno, _, hco⟩ := clean_hash hc
  cases hf : find opts (str k) with
  | none =>
    rw [h.absent _ hk hf]
    cases s with
    | none => simp only [optPair, MaybePair]; exact ⟨fun _ => absent_iff.mpr hf, fun _ => trivial⟩
    | some s =>
      simp only [optPair, MaybePair]
      constructor
      · intro h; simp at h
      · rintro ⟨v, h1, _⟩
        rw [(is_iff hno).mp h1] at hf
        cases hf
  | some v =>
    obtain ⟨a, b, h1, h2, h3⟩ := h.value _ hk v hf
    have hca : Clean v := by
      obtain ⟨e, he, _, hev⟩ := find_some hf
      rw [← hev]
      exact (cleanOf_mem hco he).1
    have hab : ¬ Absent opts k := fun ha => by
      rw [absent_iff.mp ha] at hf
      cases hf
    have hsome : ∀ s, MaybePair lib v6 [opts, es] opts k (some s) ↔ ∃ fs, v = .hash fs ∧ PairOf lib v6 [fs, opts, es] fs s := by
      intro s
      simp only [MaybePair]
      constructor
      · rintro ⟨fs, g1, g2⟩
        rw [(is_iff hno).mp g1] at hf
        cases hf
        exact ⟨fs, rfl, g2⟩
      · rintro ⟨fs, rfl, g2⟩
        exact ⟨fs, (is_iff hno).mpr hf, g2⟩
    rw [h2]
    have flat : (∀ fs, v ≠ .hash fs) → b.val = v → (optPair lib v6 (some b.val) = some s ↔ MaybePair lib v6 [opts, es] opts k s) := by
      intro hno' hb
      have : optPair lib v6 (some b.val) = none := by
        rw [hb]
        cases v with
        | hash fs => exact absurd rfl (hno' fs)
        | simple => rfl
        | array => rfl
      rw [this]
      cases s with
      | none => exact ⟨fun h => (by cases h), fun h => absurd h hab⟩
      | some s =>
        rw [hsome]
        exact ⟨fun h => (by cases h), fun ⟨fs, h, _⟩ => absurd h (hno' fs)⟩
    cases v with
    | simple r t => exact flat (by simp) (by rw [h3.other (by simp [h1]), h1])
    | array vs => exact flat (by simp) (by rw [h3.other (by simp [h1]), h1])
    | hash fs =>
      obtain ⟨hnf, hff, _⟩ := clean_hash hca
      obtain ⟨xs, g1, g2, g3⟩ := h3.hash fs h1
      rw [g1]
      have hmk : ∀ e ∈ fs ++ xs, e.marked = ([] : List Bytes).contains e.key := by
        intro e he
        rcases List.mem_append.mp he with he | he
        · rw [hff e he]; rfl
        · rw [(g2 e he).2.2]; rfl
      have honly : (unmarked (marks (fs ++ xs) [str "service_types", str "primary", str "secondary"])).isEmpty = true ↔ Only fs ["service_types", "primary", "secondary"] := by
        rw [marks_empty hmk]
        constructor
        · intro hall e he
          have := hall e (by simp [he])
          simp only [List.mem_cons, List.not_mem_nil, or_false] at this
          rcases this with h | h | h
          · exact ⟨_, by simp, h⟩
          · exact ⟨"primary", by simp, h⟩
          · exact ⟨"secondary", by simp, h⟩
        · intro hall e he
          left
          rcases List.mem_append.mp he with he | he
          · obtain ⟨k, g4, g5⟩ := hall e he
            simp only [List.mem_cons, List.not_mem_nil, or_false] at g4
            rw [g5]
            rcases g4 with rfl | rfl | rfl <;> simp [nm_str]
          · have := (g2 e he).1
            simp only [svcKey, List.mem_singleton] at this
            simp [this]
      have hout : ∀ k, k ∉ svcKey → find (fs ++ xs) k = find fs k := by
        intro k hk
        have : find xs k = none := by
          rw [find_none]
          rintro ⟨x, hx, rfl⟩
          exact hk (g2 x hx).1
        rw [find_append, this, Option.or_none]
      have hv : PView [fs, opts, es] fs (fs ++ xs) := by
        refine ⟨?_, by rw [hout _ pair_keys.1], by rw [hout _ pair_keys.2.1]⟩
        rw [g3 _ (by decide), firstOf_cons]
        exact shape_or rfl (h.param1 _ (by decide))
      have hl : ∀ x ∈ [fs, opts, es], (x.map (·.key)).Nodup := by
        intro x hx
        simp only [List.mem_cons, List.not_mem_nil, or_false] at hx
        rcases hx with rfl | rfl | rfl
        · exact hnf
        · exact hno
        · exact hn
      by_cases ho : (unmarked (marks (fs ++ xs) [str "service_types", str "primary", str "secondary"])).isEmpty = true
      · have ho' := honly.mp ho
        simp only [optPair]
        cases s with
        | none =>
          refine ⟨fun h => ?_, fun h => absurd h hab⟩
          split at h
          · cases h
          · rw [if_pos ho] at h; cases h
        | some s =>
          rw [hsome]
          constructor
          · intro h
            split at h
            · cases h
            · rename_i s' hs'
              rw [if_pos ho] at h
              cases h
              exact ⟨fs, rfl, (pair_iff hv hnf hl ho').mp hs'⟩
          · rintro ⟨_, heq, h⟩
            cases heq
            rw [(pair_iff hv hnf hl ho').mpr h]
            simp only [ho, if_true]
      · have hbad : optPair lib v6 (some (.hash (fs ++ xs))) = none := by
          simp only [optPair]
          split
          · rfl
          · rw [if_neg ho]
        rw [hbad]
        cases s with
        | none => exact ⟨fun h => (by cases h), fun h => absurd h hab⟩
        | some s =>
          rw [hsome]
          refine ⟨fun h => (by cases h), ?_⟩
          rintro ⟨_, heq, h⟩
          cases heq
          exact absurd (honly.mpr h.only) ho

theorem simplefoRes_good {lib : Lib} {es : List (Entry Val)} (hc : Clean (.hash es)) {a b : Entry Val}
    (ha : a ∈ es) (h : Handed svcKey svcKey es a b) : simplefoRes lib b ≠ .ub ∧ ∀ r, simplefoRes lib b = .ok (some r) ↔ SimpleOf lib es a r := by
  obtain ⟨hn, _, hco⟩ := clean_hash hc
  have hca := (cleanOf_mem hco ha).1
  have hkey : cstr b.key = cstr a.key := by rw [h.key]
  have flat : (∀ opts, a.val ≠ .hash opts) → simplefoRes lib b = .ok none → simplefoRes lib b ≠ .ub ∧ ∀ r, simplefoRes lib b = .ok (some r) ↔ SimpleOf lib es a r := by
    intro hno heq
    rw [heq]
    refine ⟨nofun, fun r => ⟨fun h => (by cases h), fun h => ?_⟩⟩
    cases h with
    | split h => exact absurd h (hno _)
    | direct4 h => exact absurd h (hno _)
    | direct6 h => exact absurd h (hno _)
  cases hav : a.val with
  | simple r t => exact flat (by simp [hav]) (by unfold simplefoRes; rw [h.other (by simp [hav]), hav])
  | array vs => exact flat (by simp [hav]) (by unfold simplefoRes; rw [h.other (by simp [hav]), hav])
  | hash opts =>
    rw [hav] at hca
    obtain ⟨hno, hfo, _⟩ := clean_hash hca
    obtain ⟨o1, o2, n, h1, h2, h3⟩ := levels2 svcKey_zero h hav hfo
    have hl : ∀ x ∈ [opts, es], (x.map (·.key)).Nodup := by
      intro x hx
      simp only [List.mem_cons, List.not_mem_nil, or_false] at hx
      rcases hx with rfl | rfl
      · exact hno
      · exact hn
    have habs : ∀ k, str k ∉ svcKey → (find o2 (str k) = none ↔ Absent opts k) := by
      intro k hk
      constructor
      · intro hf
        cases hf' : find opts (str k) with
        | none => exact absent_iff.mpr hf'
        | some v =>
          obtain ⟨_, _, _, g, _⟩ := h3.value _ hk v hf'
          rw [hf] at g
          cases g
      · intro hab
        exact h3.absent _ hk (absent_iff.mp hab)
    have h2' : handDown [str "service_types"] o1 = .ok (o2, n) := h2
    unfold simplefoRes
    simp only [h1, h2', Outcome.map]
    refine ⟨nofun, fun r => ?_⟩
    rw [Outcome.ok.injEq]
    split
    · rename_i hnn
      rw [habs _ pair_keys.2.2.1, habs _ pair_keys.2.2.2] at hnn
      have honly := h3.only (l := ["primary", "secondary"]) (ms := ["service_types"]) rfl
      have hperm : Only opts (["primary", "secondary"] ++ ["service_types"]) ↔ Only opts ["service_types", "primary", "secondary"] := by
        have hm : ∀ k, k ∈ ["primary", "secondary"] ++ ["service_types"] ↔ k ∈ ["service_types", "primary", "secondary"] := by
          intro k
          simp only [List.cons_append, List.nil_append, List.mem_cons, List.not_mem_nil, or_false]
          constructor
          · rintro (h | h | h) <;> simp [h]
          · rintro (h | h | h) <;> simp [h]
        simp only [Only, hm]
      rw [hperm] at honly
      have hdir : SimpleOf lib es a r ↔ ∃ s, (PairOf lib false [opts, es] opts s ∧ r = ⟨cstr b.key, some s, none⟩) ∨
          (PairOf lib true [opts, es] opts s ∧ r = ⟨cstr b.key, none, some s⟩) := by
        constructor
        · intro h'
          cases h' with
          | split g1 g2 =>
            rw [hav] at g1
            cases g1
            exact absurd hnn g2
          | direct4 g1 g2 g3 =>
            rw [hav] at g1
            cases g1
            exact ⟨_, Or.inl ⟨g3, by rw [hkey, upToZero_iff.mp g2]⟩⟩
          | direct6 g1 g2 g3 =>
            rw [hav] at g1
            cases g1
            exact ⟨_, Or.inr ⟨g3, by rw [hkey, upToZero_iff.mp g2]⟩⟩
        · rintro ⟨s, ⟨g1, rfl⟩ | ⟨g1, rfl⟩⟩
          · exact .direct4 hav (upToZero_iff.mpr hkey) g1
          · exact .direct6 hav (upToZero_iff.mpr hkey) g1
      rw [hdir]
      by_cases ho : (unmarked (marks o2 [str "primary", str "secondary"])).isEmpty = true
      · have hp := fun s v6 => pair_any (lib := lib) h3.pview hno hl (honly.mp ho) (s := s) (v6 := v6)
        constructor
        · intro h'
          split at h'
          · cases h'
          · rename_i s hs
            split at h'
            · cases h'
            · rename_i heq
              have heq : s.pri.v6 = s.sec.v6 := Classical.byContradiction heq
              simp only [Option.some.injEq] at h'
              subst h'
              refine ⟨s, ?_⟩
              cases hv : s.pri.v6 with
              | true => exact Or.inr ⟨(hp s true).mp ⟨hs, hv, by rw [← heq]; exact hv⟩, by simp⟩
              | false => exact Or.inl ⟨(hp s false).mp ⟨hs, hv, by rw [← heq]; exact hv⟩, by simp⟩
        · rintro ⟨s, ⟨g1, rfl⟩ | ⟨g1, rfl⟩⟩
          · obtain ⟨e1, e2, e3⟩ := (hp s false).mpr g1
            rw [e1]
            simp only [e2, e3, ne_eq, not_true, if_false, ho, if_true, Bool.false_eq_true]
          · obtain ⟨e1, e2, e3⟩ := (hp s true).mpr g1
            rw [e1]
            simp only [e2, e3, ne_eq, not_true, if_false, ho, if_true]
      · have hno2 : ∀ v6 s, ¬ PairOf lib v6 [opts, es] opts s := fun v6 s hp => ho (honly.mpr hp.only)
        constructor
        · intro h'
          split at h'
          · cases h'
          · split at h'
            · cases h'
            · cases h'
        · rintro ⟨s, ⟨g1, _⟩ | ⟨g1, _⟩⟩ <;> exact absurd g1 (hno2 _ _)
    · rename_i hnn
      rw [habs _ pair_keys.2.2.1, habs _ pair_keys.2.2.2] at hnn
      have honly := h3.only (l := ["addrs_v4", "addrs_v6"]) (ms := ["service_types"]) rfl
      have hp := fun s => optPair_iff (lib := lib) (v6 := false) h3 hca hn pair_keys.2.2.1 (s := s)
      have hq := fun s => optPair_iff (lib := lib) (v6 := true) h3 hca hn pair_keys.2.2.2 (s := s)
      have hsplit : SimpleOf lib es a r ↔ ∃ s4 s6, r = ⟨cstr b.key, s4, s6⟩ ∧ Only opts ["addrs_v4", "addrs_v6", "service_types"] ∧
          MaybePair lib false [opts, es] opts "addrs_v4" s4 ∧ MaybePair lib true [opts, es] opts "addrs_v6" s6 := by
        constructor
        · intro h'
          cases h' with
          | split g1 _ g3 g4 g5 g6 =>
            rw [hav] at g1
            cases g1
            exact ⟨_, _, by rw [hkey, upToZero_iff.mp g4], g3, g5, g6⟩
          | direct4 g1 g2 g3 =>
            rw [hav] at g1
            cases g1
            exact absurd (absent_only g3.only) hnn
          | direct6 g1 g2 g3 =>
            rw [hav] at g1
            cases g1
            exact absurd (absent_only g3.only) hnn
        · rintro ⟨s4, s6, rfl, g1, g2, g3⟩
          exact .split hav hnn g1 (upToZero_iff.mpr hkey) g2 g3
      rw [hsplit]
      constructor
      · intro h'
        split at h'
        · rename_i s4 s6 e4 e6
          split at h'
          · rename_i ho
            cases h'
            exact ⟨s4, s6, rfl, honly.mp ho, (hp s4).mp e4, (hq s6).mp e6⟩
          · cases h'
        · cases h'
      · rintro ⟨s4, s6, rfl, g1, g2, g3⟩
        rw [(hp s4).mpr g2, (hq s6).mpr g3]
        have := honly.mpr g1
        simp only [List.map_cons, List.map_nil] at this
        simp only [this, if_true]
where
  absent_only {opts : List (Entry Val)} (h : Only opts ["service_types", "primary", "secondary"]) : Absent opts "addrs_v4" ∧ Absent opts "addrs_v6" := by
    constructor
    · intro e he hk
      obtain ⟨k, h1, h2⟩ := h e he
      rw [hk] at h2
      simp only [List.mem_cons, List.not_mem_nil, or_false] at h1
      rcases h1 with rfl | rfl | rfl <;> exact absurd h2 (by decide)
    · intro e he hk
      obtain ⟨k, h1, h2⟩ := h e he
      rw [hk] at h2
      simp only [List.mem_cons, List.not_mem_nil, or_false] at h1
      rcases h1 with rfl | rfl | rfl <;> exact absurd h2 (by decide)

/-- What `simplefo` makes of its configuration: the resources are what the manual says, with the `service_types` of the innermost
hash that has them, in their order; there is an error exactly if some resource says nothing; and the limits are at least 1 if
there are resources. -/
theorem C93_simplefo (lib : Lib) (lim : Plug.Limits) (es : List (Entry Val)) (hc : Clean (.hash es)) :
    simplefoLoad lib lim (some (.hash es)) ≠ .ub ∧
    ∀ rs lim', simplefoLoad lib lim (some (.hash es)) = .ok (some (rs, lim')) ↔
      ∃ rest, Others ["service_types"] es rest ∧ All (SimpleOf lib es) rest rs ∧
        IsMax (lim.v4 :: rs.map fun _ => 1) lim'.v4 ∧ IsMax (lim.v6 :: rs.map fun _ => 1) lim'.v6 := by
  obtain ⟨hn, hf, hco⟩ := clean_hash hc
  obtain ⟨es1, h1, h2⟩ := handDown_ok svcKey [] es svcKey_zero (handed_start (cleanOf_sound hco))
  simp only [List.nil_append] at h2
  have hlen : es.length - present es svcKey = (others svcKey es).length := by
    have := present_length hn (ks := svcKey) (by decide)
    omega
  have h3 := handed_others h2
  have hun := handed_unmarked hf h2
  have hone : ∀ a b, a ∈ others svcKey es → b ∈ others svcKey es1 → Handed svcKey svcKey es a b →
      simplefoRes lib b ≠ .ub ∧ ∀ r, simplefoRes lib b = .ok (some r) ↔ SimpleOf lib es a r :=
    fun a b ha _ h => simplefoRes_good hc (List.mem_filter.mp ha).1 h
  obtain ⟨o, g1, g2⟩ := resLoop_ok (one := simplefoRes lib) (others svcKey es1) (others svcKey es).length (by rw [all_length h3]; exact Nat.le_refl _)
    (fun b hb => by
      obtain ⟨a, ha, h⟩ := all_left h3 hb
      exact (hone a b ha hb h).1)
  have hrs : ∀ rs, o = some rs ↔ ∃ rest, Others ["service_types"] es rest ∧ All (SimpleOf lib es) rest rs := by
    intro rs
    rw [g2 rs, all_through h3 (P := SimpleOf lib es) fun a b ha hb h => (hone a b ha hb h).2]
    constructor
    · intro h; exact ⟨_, others_iff.mpr rfl, h⟩
    · rintro ⟨rest, k1, k2⟩
      rw [others_iff.mp k1] at k2
      exact k2
  have hload : simplefoLoad lib lim (some (.hash es)) = .ok (o.bind fun rs => if rs = [] then some (rs, lim) else (Plug.addrMax lim 1 1).map fun lim' => (rs, lim')) := by
    have h1' : handDown [str "service_types"] es = .ok (es1, present es svcKey) := h1
    unfold simplefoLoad
    simp only [h1', Outcome.bind_ok, hlen]
    split
    · rename_i h0
      have hnil : others svcKey es1 = [] := List.length_eq_zero_iff.mp (by rw [all_length h3]; exact h0)
      rw [hnil] at g1
      have : o = some [] := by
        cases hh : (others svcKey es).length <;> rw [hh] at g1 <;> simp only [resLoop, Outcome.ok.injEq] at g1 <;> exact g1.symm
      subst this
      simp
    · rename_i h0
      rw [hun, g1]
      cases o with
      | none => rfl
      | some rs =>
        have hne : rs ≠ [] := by
          rintro rfl
          have := all_length ((g2 []).mp rfl)
          rw [all_length h3] at this
          exact h0 this.symm
        simp only [Outcome.map, Option.bind_some, if_neg hne]
  rw [hload]
  refine ⟨nofun, fun rs lim' => ?_⟩
  have hmax : ∀ n m : Nat, ∀ rs : List SRes, rs ≠ [] → ((m = if 1 > n then 1 else n) ↔ IsMax (n :: rs.map fun _ => 1) m) := by
    intro n m rs hne
    have hm : ∀ x, x ∈ n :: (rs.map fun _ => 1) ↔ x = n ∨ x = 1 := by
      intro x
      cases rs with
      | nil => exact absurd rfl hne
      | cons r rs =>
        simp only [List.map_cons, List.mem_cons, List.mem_map]
        constructor
        · rintro (h | h | ⟨_, _, h⟩)
          · exact Or.inl h
          · exact Or.inr h
          · exact Or.inr h.symm
        · rintro (h | h)
          · exact Or.inl h
          · exact Or.inr (Or.inl h)
    simp only [IsMax, hm]
    constructor
    · rintro rfl
      split
      · exact ⟨Or.inr rfl, fun x hx => by rcases hx with rfl | rfl <;> omega⟩
      · exact ⟨Or.inl rfl, fun x hx => by rcases hx with rfl | rfl <;> omega⟩
    · rintro ⟨k1, k2⟩
      have e1 := k2 n (Or.inl rfl)
      have e2 := k2 1 (Or.inr rfl)
      split <;> omega
  have hlim : ∀ rs : List SRes, (if rs = [] then some (rs, lim) else (Plug.addrMax lim 1 1).map fun lim' => (rs, lim')) = some (rs, lim') ↔
      IsMax (lim.v4 :: rs.map fun _ => 1) lim'.v4 ∧ IsMax (lim.v6 :: rs.map fun _ => 1) lim'.v6 := by
    intro rs
    by_cases hne : rs = []
    · subst hne
      simp only [if_true, Option.some.injEq, Prod.mk.injEq, true_and, List.map_nil, IsMax, List.mem_singleton]
      constructor
      · rintro rfl
        exact ⟨⟨rfl, fun _ h => by omega⟩, ⟨rfl, fun _ h => by omega⟩⟩
      · rintro ⟨⟨k1, _⟩, ⟨k2, _⟩⟩
        cases lim; cases lim'; simp_all
    · rw [if_neg hne, ← hmax _ _ _ hne, ← hmax _ _ _ hne]
      have := addrMax_iff (lim := lim) (lim' := lim') (a := 1) (b := 1)
      constructor
      · intro h
        simp only [Option.map_eq_some_iff, Prod.mk.injEq, true_and] at h
        obtain ⟨l, k1, rfl⟩ := h
        exact (this.mp k1).2.2
      · intro h
        rw [this.mpr ⟨by decide, by decide, h⟩]
        rfl
  constructor
  · intro h
    cases o with
    | none => cases h
    | some rs' =>
      simp only [Option.bind_some, Outcome.ok.injEq] at h
      have : rs' = rs := by
        split at h
        · cases h; rfl
        · simp only [Option.map_eq_some_iff, Prod.mk.injEq] at h
          obtain ⟨_, _, k, _⟩ := h
          exact k
      subst this
      obtain ⟨rest, k2, k3⟩ := (hrs rs').mp rfl
      exact ⟨rest, k2, k3, (hlim rs').mp h⟩
  · rintro ⟨rest, k1, k2, k3⟩
    rw [(hrs rs).mpr ⟨rest, k1, k2⟩, Option.bind_some, (hlim rs).mpr k3]

/-- No configuration at all is an error. -/
theorem C93_none (lib : Lib) (lim : Plug.Limits) : simplefoLoad lib lim none = .ok none := rfl

/-! ### Concrete cases -/

/-- `service_types => web, www => { addrs_v4 => { primary => 192.0.2.1, secondary => 192.0.2.2 } }, old => { service_types => up,
primary => ::1, secondary => ::1 }`. -/
def exSimple : List (Entry Val) :=
  [ent "service_types" (txt "web"), ent "www" (.hash [ent "addrs_v4" (.hash [ent "primary" (txt "192.0.2.1"), ent "secondary" (txt "192.0.2.2")])]),
   ent "old" (.hash [ent "service_types" (txt "up"), ent "primary" (txt "::1"), ent "secondary" (txt "::1")])]

/-- What it says. -/
def exPairs : List SRes :=
  [⟨str "www", some ⟨⟨false, [192, 0, 2, 1], []⟩, ⟨false, [192, 0, 2, 2], []⟩, [str "web"]⟩, none⟩,
   ⟨str "old", none, some ⟨⟨true, [0, 0, 0, 0, 0, 0, 0, 0, 0, 0, 0, 0, 0, 0, 0, 1], []⟩, ⟨true, [0, 0, 0, 0, 0, 0, 0, 0, 0, 0, 0, 0, 0, 0, 0, 1], []⟩, [str "up"]⟩⟩]

theorem exSimple_clean : Clean (.hash exSimple) :=
  .hash (by decide) (.cons .simple (.cons (.hash (by decide) (.cons (.hash (by decide) (.cons .simple (.cons .simple .nil))) .nil)) (.cons
    (.hash (by decide) (.cons .simple (.cons .simple (.cons .simple .nil)))) .nil)))

theorem exSimple_load : simplefoLoad exLib ⟨0, 12⟩ (some (.hash exSimple)) = .ok (some (exPairs, ⟨1, 12⟩)) := by decide +kernel

example : ∃ rest, Others ["service_types"] exSimple rest ∧ All (SimpleOf exLib exSimple) rest exPairs ∧ IsMax [0, 1, 1] 1 ∧ IsMax [12, 1, 1] 12 :=
  ((C93_simplefo exLib ⟨0, 12⟩ exSimple exSimple_clean).2 exPairs ⟨1, 12⟩).mp exSimple_load

end Gdnsd.Res
