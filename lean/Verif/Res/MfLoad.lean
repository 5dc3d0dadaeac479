/-
Lemmas: a resource of `multifo`, and all of them.
-/
import Verif.Res.Levels
namespace Gdnsd.Res
open Vscf VscfSpec Conf ConfSpec SvcSpec ResSpec
open Svc (Addr)

theorem within_trans {a b c : Val} (h1 : Within a b) (h2 : Within b c) : Within a c := by
  induction h1 with
  | refl => exact h2
  | child he _ ih => exact .child he (ih h2)

theorem within_mem {v : Val} {es : List (Entry Val)} {e : Entry Val} (h : Within v (.hash es)) (he : e ∈ es) : Within v e.val := within_trans h (.child he .refl)

/-- No level says "not a number". -/
theorem no_nan {lib : Lib} {levels : List (List (Entry Val))} (hn : ∀ es ∈ levels, (es.map (·.key)).Nodup)
    (h : ∀ es ∈ levels, ∀ r t, Is es "up_thresh" (.simple r t) → lib.dbl t ≠ some .nan) : threshOf lib (firstOf levels (str "up_thresh")) ≠ some .nan := by
  induction levels with
  | nil => simp [firstOf, threshOf]
  | cons es l ih =>
    rw [firstOf_cons]
    cases hf : find es (str "up_thresh") with
    | none =>
      rw [Option.none_or]
      exact ih (fun x hx => hn x (by simp [hx])) fun x hx => h x (by simp [hx])
    | some v =>
      rw [Option.some_or]
      cases v with
      | simple r t =>
        have := h es (by simp) r t ((is_iff (hn es (by simp))).mpr hf)
        simp only [threshOf]
        split
        · simp
        · rename_i d hd
          rw [hd] at this
          split
          · simp
          · exact this
      | array _ => simp [threshOf]
      | hash _ => simp [threshOf]

/-- What is known of a level of the configuration. -/
structure Lvl (lib : Lib) (es : List (Entry Val)) : Prop where
  nodup : (es.map (·.key)).Nodup
  nan : ∀ r t, Is es "up_thresh" (.simple r t) → lib.dbl t ≠ some .nan

/-- What is known of a value of the configuration. -/
structure Good (lib : Lib) (v : Val) : Prop where
  clean : Clean v
  nan : NoNan lib v
  fits : Fits v

theorem Good.lvl {lib : Lib} {es : List (Entry Val)} (h : Good lib (.hash es)) : Lvl lib es := ⟨(clean_hash h.clean).1, h.nan es .refl⟩

theorem Good.mem {lib : Lib} {es : List (Entry Val)} (h : Good lib (.hash es)) {e : Entry Val} (he : e ∈ es) : Good lib e.val where
  clean := (cleanOf_mem (clean_hash h.clean).2.2 he).1
  nan := fun fs hw => h.nan fs (.child he hw)
  fits := ⟨fun fs hw => h.fits.1 fs (.child he hw), fun vs hw => h.fits.2 vs (.child he hw)⟩

theorem lvl_nodup {lib : Lib} {levels : List (List (Entry Val))} (h : ∀ es ∈ levels, Lvl lib es) : ∀ es ∈ levels, (es.map (·.key)).Nodup := fun es he => (h es he).nodup

theorem lvl_nan {lib : Lib} {levels : List (List (Entry Val))} (h : ∀ es ∈ levels, Lvl lib es) : threshOf lib (firstOf levels (str "up_thresh")) ≠ some .nan :=
  no_nan (lvl_nodup h) fun es he => (h es he).nan

/-- The two results for a stanza. -/
theorem stanza_good {lib : Lib} {mk : List Bytes} {src P : List (Entry Val)} {a b : Entry Val} (h : Handed mk params src a b) (hg : Good lib a.val)
    {outer : List (List (Entry Val))} (hsrc : ∀ k ∈ params, (find src k).map shape = (firstOf outer k).map shape) (hl : ∀ es ∈ outer, Lvl lib es)
    (hn : (P.map (·.key)).Nodup) (hs : SoundOf P) (hP : ∀ k ∈ params, (find P k).map shape = (firstOf outer k).map shape) :
    (∃ fs levels vals, stanza P b.val = .ok (some fs) ∧ View levels vals fs ∧ (∀ v6 s, Stanza lib v6 outer a.val s ↔ SetOf lib v6 levels vals s) ∧
      (∀ es ∈ levels, Lvl lib es) ∧ vals.length < 2 ^ 53) ∨
    (stanza P b.val = .ok none ∧ ∀ v6 s, ¬ Stanza lib v6 outer a.val s) := by
  rcases stanza_view (lib := lib) h hg.clean hsrc hn hs hP with ⟨fs, levels, vals, h1, h2, h3, h4, h5⟩ | h'
  · refine Or.inl ⟨fs, levels, vals, h1, h2, h3, ?_, ?_⟩
    · rcases h4 with rfl | ⟨es, he, rfl⟩
      · exact hl
      · intro x hx
        rcases List.mem_cons.mp hx with rfl | hx
        · rw [he] at hg
          exact hg.lvl
        · exact hl x hx
    · rcases h5 with h5 | h5 | ⟨es, he, h5⟩
      · exact Nat.lt_of_le_of_lt h5 (by decide)
      · rw [h5] at hg
        exact Nat.lt_trans (hg.fits.2 vals .refl) (by decide)
      · rw [he] at hg
        exact Nat.lt_of_le_of_lt h5 (Nat.lt_trans (hg.fits.1 es .refl) (by decide))
  · exact Or.inr h'

theorem auto_good {lib : Lib} {mk : List Bytes} {src P : List (Entry Val)} {a b : Entry Val} (h : Handed mk params src a b) (hg : Good lib a.val)
    {outer : List (List (Entry Val))} (hsrc : ∀ k ∈ params, (find src k).map shape = (firstOf outer k).map shape) (hl : ∀ es ∈ outer, Lvl lib es)
    (hn : (P.map (·.key)).Nodup) (hs : SoundOf P) (hP : ∀ k ∈ params, (find P k).map shape = (firstOf outer k).map shape) (name : Bytes) :
    configAuto lib name P b.val ≠ .ub ∧ ∀ r, configAuto lib name P b.val = .ok (some r) ↔
      ∃ s, (Stanza lib false outer a.val s ∧ r = ⟨name, some s, none⟩) ∨ (Stanza lib true outer a.val s ∧ r = ⟨name, none, some s⟩) := by
  rcases stanza_good h hg hsrc hl hn hs hP with ⟨fs, levels, vals, h1, h2, h3, h4, h5⟩ | ⟨h1, h2⟩
  · simp only [h3]
    exact configAuto_view h1 h2 (lvl_nodup h4) (lvl_nan h4) h5
  · unfold configAuto
    simp only [h1, Outcome.bind_ok]
    refine ⟨nofun, fun r => ⟨fun h => (by cases h), ?_⟩⟩
    rintro ⟨s, ⟨h, _⟩ | ⟨h, _⟩⟩ <;> exact absurd h (h2 _ s)

theorem opt_good {lib : Lib} {v6 : Bool} {o1 P : List (Entry Val)} {opts es : List (Entry Val)} {o2 : List (Entry Val)} (h : L2 params es opts o1 o2)
    (hP : P = o2) (hg : Good lib (.hash opts)) (hl : Lvl lib es) {k : String} (hk : str k ∉ params) :
    optStanza lib v6 P (find o2 (str k)) ≠ .ub ∧ ∀ s, optStanza lib v6 P (find o2 (str k)) = .ok (some s) ↔ MaybeStanza lib v6 [opts, es] opts k s := by
  subst hP
  have hn := hg.lvl.nodup
  have hls : ∀ x ∈ [opts, es], Lvl lib x := by
    intro x hx
    simp only [List.mem_cons, List.not_mem_nil, or_false] at hx
    rcases hx with rfl | rfl
    · exact hg.lvl
    · exact hl
  cases hf : find opts (str k) with
  | none =>
    rw [h.absent _ hk hf]
    refine ⟨nofun, fun s => ?_⟩
    cases s with
    | none =>
      simp only [optStanza, MaybeStanza]
      exact ⟨fun _ => absent_iff.mpr hf, fun _ => trivial⟩
    | some s =>
      simp only [optStanza, MaybeStanza]
      constructor
      · intro h; simp at h
      · rintro ⟨v, h1, _⟩
        rw [(is_iff hn).mp h1] at hf
        cases hf
  | some v =>
    obtain ⟨a, b, h1, h2, h3⟩ := h.value _ hk v hf
    have hga : Good lib a.val := by
      obtain ⟨e, he, _, hev⟩ := find_some hf
      rw [h1, ← hev]
      exact hg.mem he
    rw [h2]
    have hno : ¬ Absent opts k := fun ha => by
      rw [absent_iff.mp ha] at hf
      cases hf
    have hsome : ∀ s, MaybeStanza lib v6 [opts, es] opts k (some s) ↔ Stanza lib v6 [opts, es] a.val s := by
      intro s
      simp only [MaybeStanza]
      constructor
      · rintro ⟨w, g1, g2⟩
        rw [(is_iff hn).mp g1] at hf
        cases hf
        rw [h1]
        exact g2
      · intro g
        exact ⟨a.val, by rw [h1]; exact (is_iff hn).mpr hf, g⟩
    simp only [optStanza, configStanza]
    rcases stanza_good h3 hga h.param1 hls h.nodup h.sound h.param with ⟨fs, levels, vals, g1, g2, g3, g4, g5⟩ | ⟨g1, g2⟩
    · simp only [g1, Outcome.bind_ok]
      obtain ⟨c1, c2⟩ := configAddrs_set (v6 := v6) g2 (lvl_nodup g4) (lvl_nan g4) g5
      cases hc : configAddrs lib v6 fs with
      | ub => exact absurd hc c1
      | ok o =>
        rw [hc] at c2
        refine ⟨nofun, fun s => ?_⟩
        cases s with
        | none =>
          simp only [MaybeStanza]
          constructor
          · intro h
            cases o <;> simp [Outcome.map] at h
          · intro h; exact absurd h hno
        | some s =>
          rw [hsome, g3, ← c2 s]
          cases o <;> simp [Outcome.map]
    · simp only [g1, Outcome.bind_ok]
      refine ⟨nofun, fun s => ?_⟩
      cases s with
      | none =>
        simp only [MaybeStanza]
        constructor
        · intro h; simp [Outcome.map] at h
        · intro h; exact absurd h hno
      | some s =>
        rw [hsome]
        constructor
        · intro h; simp [Outcome.map] at h
        · intro h; exact absurd h (g2 _ s)

theorem addrs_keys : str "addrs_v4" ∉ params ∧ str "addrs_v6" ∉ params := by decide

/-- What was handed down once, as a view. -/
theorem L2.view {es opts o1 o2 : List (Entry Val)} (h : L2 params es opts o1 o2) : View [opts, es] ((Res.others params opts).map (·.val)) o2 where
  nodup := h.nodup
  marked := fun e he hm => by rw [h.marked e he] at hm; exact List.contains_iff_mem.mp hm
  sound := h.sound
  vals := by rw [h.others, List.map_map]; rfl
  levels := h.param

theorem configRes_good {lib : Lib} {es es1 : List (Entry Val)} (hg : Good lib (.hash es)) (hall : All (Handed params params es) es es1) {a b : Entry Val}
    (ha : a ∈ es) (h : Handed params params es a b) : configRes lib es1 b ≠ .ub ∧ ∀ r, configRes lib es1 b = .ok (some r) ↔ MultiOf lib es a r := by
  have hga := hg.mem ha
  have hl1 : ∀ x ∈ [es], Lvl lib x := by
    intro x hx
    rw [List.mem_singleton] at hx
    subst hx
    exact hg.lvl
  have hsrc : ∀ k ∈ params, (find es k).map shape = (firstOf [es] k).map shape := by
    intro k _
    rw [firstOf_cons]
    simp [firstOf]
  have hP : ∀ k ∈ params, (find es1 k).map shape = (firstOf [es] k).map shape := by
    intro k hk
    rw [(find_handed hall k).1]
    exact hsrc k hk
  have hn1 : (es1.map (·.key)).Nodup := by rw [handed_keys hall]; exact hg.lvl.nodup
  have hs1 := handed_soundOf hall
  have hkey : cstr b.key = cstr a.key := by rw [h.key]
  have direct : (∀ opts, a.val = .hash opts → Absent opts "addrs_v4" ∧ Absent opts "addrs_v6") → ∀ r, (MultiOf lib es a r ↔
      ∃ s, (Stanza lib false [es] a.val s ∧ r = ⟨cstr b.key, some s, none⟩) ∨ (Stanza lib true [es] a.val s ∧ r = ⟨cstr b.key, none, some s⟩)) := by
    intro hd r
    constructor
    · intro h'
      cases h' with
      | split h1 h2 => exact absurd (hd _ h1) h2
      | direct4 _ h2 h3 => exact ⟨_, Or.inl ⟨h3, by rw [hkey, upToZero_iff.mp h2]⟩⟩
      | direct6 _ h2 h3 => exact ⟨_, Or.inr ⟨h3, by rw [hkey, upToZero_iff.mp h2]⟩⟩
    · rintro ⟨s, ⟨h1, rfl⟩ | ⟨h1, rfl⟩⟩
      · exact .direct4 hd (upToZero_iff.mpr hkey) h1
      · exact .direct6 hd (upToZero_iff.mpr hkey) h1
  have flat : (∀ opts, a.val ≠ .hash opts) → configRes lib es1 b = configAuto lib (cstr b.key) es1 b.val →
      configRes lib es1 b ≠ .ub ∧ ∀ r, configRes lib es1 b = .ok (some r) ↔ MultiOf lib es a r := by
    intro hno heq
    rw [heq]
    obtain ⟨c1, c2⟩ := auto_good h hga hsrc hl1 hn1 hs1 hP (cstr b.key)
    refine ⟨c1, fun r => ?_⟩
    rw [c2, direct fun opts ho => absurd ho (hno opts)]
  cases hav : a.val with
  | simple r t =>
    have hb := h.other (by simp [hav])
    exact flat (by simp [hav]) (by unfold configRes; rw [hb, hav])
  | array vs =>
    have hb := h.other (by simp [hav])
    exact flat (by simp [hav]) (by unfold configRes; rw [hb, hav])
  | hash opts =>
    rw [hav] at hga
    obtain ⟨o1, o2, n, h1, h2, h3⟩ := levels2 params_zero h hav (clean_hash hga.clean).2.1
    unfold configRes
    simp only [h1, h2, Outcome.bind_ok]
    have hno := hga.lvl.nodup
    have habs : ∀ k, str k ∉ params → (find o2 (str k) = none ↔ Absent opts k) := by
      intro k hk
      constructor
      · intro hf
        cases hf' : find opts (str k) with
        | none => exact absent_iff.mpr hf'
        | some v =>
          obtain ⟨_, _, _, g, _⟩ := h3.value _ hk v hf'
          rw [hf] at g
          cases g
      · intro hab
        exact h3.absent _ hk (absent_iff.mp hab)
    split
    · rename_i hnn
      rw [habs _ addrs_keys.1, habs _ addrs_keys.2] at hnn
      have hd : ∀ opts, a.val = .hash opts → Absent opts "addrs_v4" ∧ Absent opts "addrs_v6" := by
        intro o ho
        rw [hav] at ho
        cases ho
        exact hnn
      have hls : ∀ x ∈ [opts, es], Lvl lib x := by
        intro x hx
        simp only [List.mem_cons, List.not_mem_nil, or_false] at hx
        rcases hx with rfl | rfl
        · exact hga.lvl
        · exact hg.lvl
      have hsz : ((Res.others params opts).map (·.val)).length < 2 ^ 53 := by
        rw [List.length_map]
        exact Nat.lt_of_le_of_lt (List.length_filter_le _ _) (Nat.lt_trans (hga.fits.1 opts .refl) (by decide))
      obtain ⟨c1, c2⟩ := configAuto_view (P := es1) (name := cstr b.key) (v := .hash o2) (lib := lib) rfl h3.view (lvl_nodup hls) (lvl_nan hls) hsz
      refine ⟨c1, fun r => ?_⟩
      rw [c2, direct hd]
      have hst : ∀ v6 s, Stanza lib v6 [es] a.val s ↔ SetOf lib v6 [opts, es] ((Res.others params opts).map (·.val)) s := by
        intro v6 s
        rw [hav]
        constructor
        · intro h'
          cases h' with
          | hash g1 g2 =>
            rw [others_iff.mp g1] at g2
            exact g2
          | list g1 _ _ => exact absurd rfl (g1 opts)
        · intro h'
          exact .hash (others_iff.mpr rfl) h'
      simp only [hst]
    · rename_i hnn
      rw [habs _ addrs_keys.1, habs _ addrs_keys.2] at hnn
      obtain ⟨p1, p2⟩ := opt_good (v6 := false) h3 rfl hga hg.lvl addrs_keys.1
      obtain ⟨q1, q2⟩ := opt_good (v6 := true) h3 rfl hga hg.lvl addrs_keys.2
      have honly := h3.only (l := ["addrs_v4", "addrs_v6"]) (ms := mfParams) rfl
      have hsplit : ∀ r, MultiOf lib es a r ↔ ∃ s4 s6, r = ⟨cstr b.key, s4, s6⟩ ∧ Only opts (["addrs_v4", "addrs_v6"] ++ mfParams) ∧
          MaybeStanza lib false [opts, es] opts "addrs_v4" s4 ∧ MaybeStanza lib true [opts, es] opts "addrs_v6" s6 := by
        intro r
        constructor
        · intro h'
          cases h' with
          | split g1 _ g3 g4 g5 g6 =>
            rw [hav] at g1
            cases g1
            exact ⟨_, _, by rw [hkey, upToZero_iff.mp g4], g3, g5, g6⟩
          | direct4 g1 => exact absurd (g1 opts hav) hnn
          | direct6 g1 => exact absurd (g1 opts hav) hnn
        · rintro ⟨s4, s6, rfl, g1, g2, g3⟩
          exact .split hav hnn g1 (upToZero_iff.mpr hkey) g2 g3
      cases hp : optStanza lib false o2 (find o2 (str "addrs_v4")) with
      | ub => exact absurd hp p1
      | ok s4 =>
        rw [hp] at p2
        simp only [Outcome.bind_ok]
        cases s4 with
        | none =>
          refine ⟨nofun, fun r => ?_⟩
          rw [hsplit]
          constructor
          · intro h; cases h
          · rintro ⟨s4, s6, _, _, g, _⟩
            have := (p2 s4).mpr g
            cases this
        | some s4 =>
          dsimp only
          cases hq : optStanza lib true o2 (find o2 (str "addrs_v6")) with
          | ub => exact absurd hq q1
          | ok s6 =>
            rw [hq] at q2
            refine ⟨by simp [Outcome.map], fun r => ?_⟩
            rw [hsplit]
            cases s6 with
            | none =>
              constructor
              · intro h; simp [Outcome.map] at h
              · rintro ⟨_, s6, _, _, _, g⟩
                have := (q2 s6).mpr g
                cases this
            | some s6 =>
              simp only [Outcome.map]
              by_cases ho : (unmarked (marks o2 [str "addrs_v4", str "addrs_v6"])).isEmpty = true
              · rw [if_pos ho]
                constructor
                · intro h
                  simp only [Outcome.ok.injEq, Option.some.injEq] at h
                  exact ⟨s4, s6, h.symm, honly.mp ho, (p2 s4).mp rfl, (q2 s6).mp rfl⟩
                · rintro ⟨t4, t6, rfl, _, g1, g2⟩
                  have e1 := (p2 t4).mpr g1
                  have e2 := (q2 t6).mpr g2
                  simp only [Outcome.ok.injEq, Option.some.injEq] at e1 e2
                  rw [e1, e2]
              · rw [if_neg ho]
                constructor
                · intro h; simp at h
                · rintro ⟨_, _, _, g, _⟩
                  exact absurd (honly.mpr g) ho

/-! ### Limits -/

theorem most_from (f : MRes → Option ASet) : ∀ (rs : List MRes) (m : Nat),
    let x := rs.foldl (fun m r => match f r with | some s => if s.as.length > m then s.as.length else m | none => m) m
    m ≤ x ∧ (∀ y ∈ sizes f rs, y ≤ x) ∧ (x = m ∨ x ∈ sizes f rs)
  | [], m => ⟨Nat.le_refl _, by simp [sizes], Or.inl rfl⟩
  | r :: rs, m => by
    simp only [List.foldl_cons]
    cases hf : f r with
    | none =>
      have := most_from f rs m
      have hs : sizes f (r :: rs) = sizes f rs := by simp [sizes, hf]
      rw [hs]
      exact this
    | some s =>
      have hs : sizes f (r :: rs) = s.as.length :: sizes f rs := by simp [sizes, hf]
      rw [hs]
      dsimp only
      split
      · rename_i hgt
        obtain ⟨h1, h2, h3⟩ := most_from f rs s.as.length
        refine ⟨Nat.le_trans (Nat.le_of_lt hgt) h1, ?_, ?_⟩
        · intro y hy
          rcases List.mem_cons.mp hy with rfl | hy
          · exact h1
          · exact h2 y hy
        · rcases h3 with h3 | h3
          · right; rw [h3]; simp
          · right; simp only [List.mem_cons]; exact Or.inr h3
      · rename_i hgt
        obtain ⟨h1, h2, h3⟩ := most_from f rs m
        refine ⟨h1, ?_, ?_⟩
        · intro y hy
          rcases List.mem_cons.mp hy with rfl | hy
          · exact Nat.le_trans (Nat.le_of_not_lt hgt) h1
          · exact h2 y hy
        · rcases h3 with h3 | h3
          · exact Or.inl h3
          · right; simp only [List.mem_cons]; exact Or.inr h3

theorem most_max (f : MRes → Option ASet) (rs : List MRes) (n m : Nat) : m = (if most f rs > n then most f rs else n) ↔ IsMax (n :: sizes f rs) m := by
  obtain ⟨_, h2, h3⟩ := most_from f rs 0
  change ∀ y ∈ sizes f rs, y ≤ most f rs at h2
  change most f rs = 0 ∨ most f rs ∈ sizes f rs at h3
  constructor
  · rintro rfl
    split
    · rename_i hgt
      refine ⟨?_, ?_⟩
      · rcases h3 with h3 | h3
        · omega
        · exact List.mem_cons_of_mem _ h3
      · intro y hy
        rcases List.mem_cons.mp hy with rfl | hy
        · omega
        · exact h2 y hy
    · rename_i hgt
      refine ⟨by simp, ?_⟩
      intro y hy
      rcases List.mem_cons.mp hy with rfl | hy
      · omega
      · have := h2 y hy; omega
  · rintro ⟨h4, h5⟩
    have h6 := h5 n (by simp)
    rcases List.mem_cons.mp h4 with rfl | h4
    · rw [if_neg]
      rcases h3 with h3 | h3
      · omega
      · have := h5 _ (List.mem_cons_of_mem _ h3); omega
    · have := h2 m h4
      rcases h3 with h3 | h3
      · have : most f rs ≤ n := by omega
        rw [if_neg (by omega)]
        omega
      · have := h5 _ (List.mem_cons_of_mem _ h3)
        split <;> omega

theorem most_le (f : MRes → Option ASet) (rs : List MRes) (c : Nat) : most f rs ≤ c ↔ ∀ y ∈ sizes f rs, y ≤ c := by
  obtain ⟨_, h2, h3⟩ := most_from f rs 0
  change ∀ y ∈ sizes f rs, y ≤ most f rs at h2
  change most f rs = 0 ∨ most f rs ∈ sizes f rs at h3
  constructor
  · intro h y hy
    exact Nat.le_trans (h2 y hy) h
  · intro h
    rcases h3 with h3 | h3
    · omega
    · exact h _ h3

end Gdnsd.Res
