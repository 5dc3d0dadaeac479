/-
Lists of datacenters, and the tree that the `map` stanza becomes.
-/
import Verif.Gmap.Spec
import Verif.Conf.Lemmas
import Verif.Conf.ListenLemmas
import Verif.Res.MfLemmas
import Verif.Meta.Lemmas
namespace Gdnsd.Gmap
open Vscf VscfSpec Conf ConfSpec SvcSpec GmapSpec
open Maps (LIST_MAX)

/-! ### Numbers of datacenters -/

theorem name2num_iff {names : List Bytes} {d : Bytes} {n : Nat} : NumberOf names d n ↔ name2num names d = n ∧ n ≠ 0 := by
  unfold name2num NumberOf
  constructor
  · rintro ⟨i, rfl, h1, h2⟩
    have : names.findIdx? (· == d) = some i := by
      rw [List.findIdx?_eq_some_iff_getElem]
      obtain ⟨hi, hd⟩ := List.getElem?_eq_some_iff.mp h1
      refine ⟨hi, by simp [hd], fun j hj => ?_⟩
      have := h2 j hj
      rw [List.getElem?_eq_getElem (by omega)] at this
      simpa using this
    rw [this]
    exact ⟨rfl, by omega⟩
  · rintro ⟨h1, h2⟩
    cases hf : names.findIdx? (· == d) with
    | none => rw [hf] at h1; exact absurd h1.symm h2
    | some i =>
      rw [hf] at h1
      rw [List.findIdx?_eq_some_iff_getElem] at hf
      obtain ⟨hi, hd, hb⟩ := hf
      refine ⟨i, h1.symm, by rw [List.getElem?_eq_getElem hi]; simpa using hd, fun j hj => ?_⟩
      have := hb j hj
      rw [List.getElem?_eq_getElem (by omega)]
      simpa using this

theorem name2num_le {names : List Bytes} {d : Bytes} : name2num names d ≤ names.length := by
  unfold name2num
  cases hf : names.findIdx? (· == d) with
  | none => exact Nat.zero_le _
  | some i =>
    rw [List.findIdx?_eq_some_iff_getElem] at hf
    exact hf.1

theorem name2num_zero {names : List Bytes} {d : Bytes} : name2num names d = 0 ↔ d ∉ names := by
  unfold name2num
  cases hf : names.findIdx? (· == d) with
  | none =>
    rw [List.findIdx?_eq_none_iff] at hf
    simp only [true_iff]
    intro hm
    have := hf d hm
    simp at this
  | some i =>
    rw [List.findIdx?_eq_some_iff_getElem] at hf
    obtain ⟨hi, hd, _⟩ := hf
    simp only [Nat.add_eq_zero_iff, Nat.one_ne_zero, and_false, false_iff, Decidable.not_not]
    have : names[i] = d := by simpa using hd
    exact this ▸ List.getElem_mem hi

/-! ### Lists -/

theorem xlateFrom_some {names : List Bytes} {vs : List Val} : ∀ {auto : Bool} {i : Nat} {p : Option Bytes}, xlateFrom names auto i vs = .ok (some p) →
    (auto = true → vs.length = 1) →
    (p = none ∧ auto = true ∧ ∃ r t, vs = [.simple r t] ∧ UpToZero t (nm "auto")) ∨ (∃ l ds, p = some l ∧ Texts vs ds ∧ Numbers names ds l) := by
  induction vs with
  | nil =>
    intro auto i p h _
    unfold xlateFrom at h
    split at h
    · cases h
    · obtain rfl := Option.some.inj (Outcome.ok.inj h)
      exact Or.inr ⟨[], [], rfl, .nil, .nil⟩
  | cons v vs ih =>
    intro auto i p h hl
    cases v with
    | array _ => unfold xlateFrom at h; cases h
    | hash _ => unfold xlateFrom at h; cases h
    | simple r t =>
      unfold xlateFrom at h
      by_cases h1 : auto = true ∧ cstr t = str "auto"
      · rw [if_pos h1] at h
        obtain rfl := Option.some.inj (Outcome.ok.inj h)
        have : vs = [] := by
          have := hl h1.1
          simpa using this
        subst this
        exact Or.inl ⟨rfl, h1.1, r, t, rfl, upToZero_iff.mpr h1.2.symm⟩
      · rw [if_neg h1] at h
        by_cases h2 : name2num names (cstr t) = 0
        · rw [if_pos h2] at h; cases h
        · rw [if_neg h2] at h
          by_cases h3 : 256 ≤ i
          · rw [if_pos h3] at h; cases h
          · rw [if_neg h3] at h
            cases hx : xlateFrom names auto (i + 1) vs with
            | ub => rw [hx] at h; cases h
            | ok o =>
              rw [hx, Outcome.map_ok] at h
              cases o with
              | none => cases h
              | some q =>
                obtain rfl := Option.some.inj (Outcome.ok.inj h)
                have hl' : auto = true → vs.length = 1 → False := by
                  intro ha hb
                  have := hl ha
                  simp at this
                  subst this
                  simp at hb
                by_cases ha : auto = true
                · have hv : vs = [] := by
                    have := hl ha
                    simpa using this
                  subst hv
                  unfold xlateFrom at hx
                  split at hx
                  · cases hx
                  · obtain rfl := Option.some.inj (Outcome.ok.inj hx)
                    exact Or.inr ⟨_, _, rfl, .cons (upToZero_iff.mpr rfl) .nil, .cons (name2num_iff.mpr ⟨rfl, h2⟩) .nil⟩
                · rcases ih hx (fun h => absurd h ha) with ⟨_, h4, _⟩ | ⟨l, ds, rfl, h5, h6⟩
                  · exact absurd h4 ha
                  · exact Or.inr ⟨_, _, rfl, .cons (upToZero_iff.mpr rfl) h5, .cons (name2num_iff.mpr ⟨rfl, h2⟩) h6⟩

theorem xlateFrom_of {names : List Bytes} {vs : List Val} {ds : List Bytes} {l : Bytes} (ht : Texts vs ds) (hn : Numbers names ds l) (hau : nm "auto" ∉ names) :
    ∀ {auto : Bool} {i : Nat}, i + vs.length ≤ 255 → xlateFrom names auto i vs = .ok (some (some l)) := by
  induction ht generalizing l with
  | nil =>
    intro auto i hi
    cases hn
    simp only [List.length_nil] at hi
    unfold xlateFrom
    rw [if_neg (by omega)]
  | @cons r t u vs us h1 _ ih =>
    intro auto i hi
    cases hn with
    | @cons _ _ n l' h2 h3 =>
      simp only [List.length_cons] at hi
      obtain rfl := upToZero_iff.mp h1
      obtain ⟨rfl, h4⟩ := name2num_iff.mp h2
      have hna : ¬ (auto = true ∧ cstr t = str "auto") := by
        rintro ⟨_, h⟩
        rw [h] at h4
        exact h4 (name2num_zero.mpr hau)
      unfold xlateFrom
      rw [if_neg hna, if_neg h4, if_neg (by omega), ih h3 (by omega)]
      rfl

theorem xlate_some {names : List Bytes} {auto : Bool} {v : Val} {p : Option Bytes} (h : xlate names auto v = .ok (some p)) : ListOf names auto v p := by
  unfold xlate at h
  rcases xlateFrom_some h (by intro h; simp only [Bool.and_eq_true, beq_iff_eq] at h; exact h.2) with ⟨rfl, h1, r, t, h2, h3⟩ | ⟨l, ds, rfl, h1, h2⟩
  · simp only [Bool.and_eq_true] at h1
    exact .auto h1.1 (Meta.several_iff.mpr h2.symm) h3
  · exact .names (Meta.several_iff.mpr rfl) h1 h2

theorem items_le {v : Val} (hb : Brief v) : (Svc.items v).length ≤ 255 := by
  unfold Svc.items
  cases v with
  | array vs => exact hb vs rfl
  | simple _ _ => simp
  | hash _ => simp

theorem xlate_of {names : List Bytes} {auto : Bool} {v : Val} {p : Option Bytes} (hl : ListOf names auto v p) (hau : nm "auto" ∉ names) (hb : Brief v) :
    xlate names auto v = .ok (some p) := by
  unfold xlate
  cases hl with
  | @auto r t h1 h2 h3 =>
    rw [← Meta.several_iff.mp h2]
    simp only [List.length_cons, List.length_nil, h1, Bool.true_and]
    unfold xlateFrom
    rw [if_pos ⟨rfl, (upToZero_iff.mp h3).symm⟩]
  | @names vs ds l h1 h2 h3 =>
    have hle := items_le hb
    rw [Meta.several_iff.mp h1] at h2
    exact xlateFrom_of h2 h3 hau (by omega)

theorem xlateFrom_safe {names : List Bytes} {auto : Bool} {vs : List Val} : ∀ {i : Nat}, i + vs.length ≤ 255 → xlateFrom names auto i vs ≠ .ub := by
  induction vs with
  | nil => intro i hi; simp only [List.length_nil] at hi; unfold xlateFrom; rw [if_neg (by omega)]; simp
  | cons v vs ih =>
    intro i hi
    simp only [List.length_cons] at hi
    cases v with
    | array _ => unfold xlateFrom; simp
    | hash _ => unfold xlateFrom; simp
    | simple r t =>
      unfold xlateFrom
      split
      · simp
      · split
        · simp
        · rw [if_neg (by omega)]
          have := @ih (i + 1) (by omega)
          cases hx : xlateFrom names auto (i + 1) vs with
          | ub => exact absurd hx this
          | ok o => simp [Outcome.map_ok]

theorem xlate_safe {names : List Bytes} {auto : Bool} {v : Val} (hb : Brief v) : xlate names auto v ≠ .ub := by
  have := items_le hb
  exact xlateFrom_safe (by omega)

theorem numbers_fun {names : List Bytes} {ds : List Bytes} {l l' : Bytes} (h : Numbers names ds l) (h' : Numbers names ds l') : l = l' := by
  induction h generalizing l' with
  | nil => cases h'; rfl
  | cons h1 _ ih =>
    cases h' with
    | cons h3 h4 =>
      obtain ⟨rfl, _⟩ := name2num_iff.mp h1
      obtain ⟨rfl, _⟩ := name2num_iff.mp h3
      rw [ih h4]

theorem texts_fun {vs : List Val} {ds ds' : List Bytes} (h : Texts vs ds) (h' : Texts vs ds') : ds = ds' :=
  Option.some.inj ((Res.texts_iff.mpr h).symm.trans (Res.texts_iff.mpr h'))

theorem listOf_fun {names : List Bytes} {auto : Bool} {v : Val} (hau : nm "auto" ∉ names) {p q : Option Bytes} (h : ListOf names auto v p) (h' : ListOf names auto v q) : p = q := by
  have mixed : ∀ {r t vs ds l}, Several v [.simple r t] → UpToZero t (nm "auto") → Several v vs → Texts vs ds → Numbers names ds l → False := by
    intro r t vs ds l h1 h2 h3 h4 h5
    rw [Meta.several_iff] at h1 h3
    rw [h3, ← h1] at h4
    cases h4 with
    | cons h6 h7 =>
      cases h5 with
      | cons h8 _ =>
        obtain rfl := upToZero_iff.mp h6
        obtain ⟨h9, h10⟩ := name2num_iff.mp h8
        rw [← upToZero_iff.mp h2] at h9
        exact h10 (h9.symm.trans (name2num_zero.mpr hau))
  cases h with
  | auto h1 h2 h3 =>
    cases h' with
    | auto _ _ _ => rfl
    | names h4 h5 h6 => exact (mixed h2 h3 h4 h5 h6).elim
  | names h1 h2 h3 =>
    cases h' with
    | auto h4 h5 h6 => exact (mixed h5 h6 h1 h2 h3).elim
    | names h4 h5 h6 =>
      rw [Meta.several_iff] at h1 h4
      subst h1; subst h4
      obtain rfl := texts_fun h2 h5
      rw [numbers_fun h3 h6]

/-! ### The tree -/

/-- What an index means. -/
def Stands (L : List Bytes) : Ref → Option Bytes → Prop
  | .auto, none => True
  | .idx i, some l => L[i]? = some l
  | _, _ => False

theorem stands_mono {L L' : List Bytes} (h : L <+: L') {r : Ref} {o : Option Bytes} (hs : Stands L r o) : Stands L' r o := by
  obtain ⟨M, rfl⟩ := h
  cases r <;> cases o <;> simp only [Stands] at hs ⊢
  rename_i i l
  have hi := (List.getElem?_eq_some_iff.mp hs).1
  rw [List.getElem?_append_left hi]
  exact hs

mutual

/-- A value and what it becomes. -/
inductive Built (names : List Bytes) (auto : Bool) (L : List Bytes) : Option Bytes → Val → Dcmap → Prop
  | list {o v ref r} : (∀ es, v ≠ .hash es) → ListOf names auto v r → Stands L ref r → Built names auto L o v (.list ref)
  | node {o es d r ks} : Default names auto es o r → Stands L d r → BuiltKids names auto L r es ks → Built names auto L o (.hash es) (.node d ks)

/-- Entries and what they become. -/
inductive BuiltKids (names : List Bytes) (auto : Bool) (L : List Bytes) : Option Bytes → List (Entry Val) → Kids → Prop
  | nil {o} : BuiltKids names auto L o [] .nil
  | skip {o m v es ks} : BuiltKids names auto L o es ks → BuiltKids names auto L o (⟨str "default", m, v⟩ :: es) ks
  | cons {o k m v t es ks} : k ≠ str "default" → Built names auto L o v t → BuiltKids names auto L o es ks →
      BuiltKids names auto L o (⟨k, m, v⟩ :: es) (.cons (cstr k) t ks)

end

mutual

theorem Built.mono {names : List Bytes} {auto : Bool} {L L' : List Bytes} (hp : L <+: L') : ∀ {o : Option Bytes} {v : Val} {t : Dcmap}, Built names auto L o v t → Built names auto L' o v t
  | _, _, _, .list h1 h2 h3 => .list h1 h2 (stands_mono hp h3)
  | _, _, _, .node h1 h2 h3 => .node h1 (stands_mono hp h2) (BuiltKids.mono hp h3)

theorem BuiltKids.mono {names : List Bytes} {auto : Bool} {L L' : List Bytes} (hp : L <+: L') : ∀ {o : Option Bytes} {es : List (Entry Val)} {ks : Kids}, BuiltKids names auto L o es ks → BuiltKids names auto L' o es ks
  | _, _, _, .nil => .nil
  | _, _, _, .skip h => .skip (BuiltKids.mono hp h)
  | _, _, _, .cons h1 h2 h3 => .cons h1 (Built.mono hp h2) (BuiltKids.mono hp h3)

end

theorem findOrAdd_some {L L' : List Bytes} {c : Bytes} {i : Nat} (h : findOrAdd L c = some (L', i)) :
    L <+: L' ∧ L'[i]? = some c ∧ (L.length ≤ LIST_MAX + 1 → L'.length ≤ LIST_MAX + 1) := by
  unfold findOrAdd at h
  cases hf : L.findIdx? (· == c) with
  | none =>
    rw [hf] at h
    dsimp only at h
    split at h
    · cases h
    · simp only [Option.some.injEq, Prod.mk.injEq] at h
      obtain ⟨rfl, rfl⟩ := h
      exact ⟨List.prefix_append _ _, by simp, by simp; omega⟩
  | some j =>
    rw [hf] at h
    simp only [Option.some.injEq, Prod.mk.injEq] at h
    obtain ⟨rfl, rfl⟩ := h
    rw [List.findIdx?_eq_some_iff_getElem] at hf
    obtain ⟨hi, hd, _⟩ := hf
    have hd : L[j] = c := by simpa using hd
    exact ⟨List.prefix_refl _, by rw [List.getElem?_eq_getElem hi, hd], id⟩

theorem findOrAdd_ok {L : List Bytes} (c : Bytes) (h : L.length ≤ LIST_MAX) : ∃ L' i, findOrAdd L c = some (L', i) ∧ L'.length ≤ L.length + 1 := by
  unfold findOrAdd
  cases hf : L.findIdx? (· == c) with
  | none =>
    refine ⟨L ++ [c], L.length, ?_, by simp⟩
    dsimp only
    rw [if_neg (by omega)]
  | some j => exact ⟨L, j, rfl, by omega⟩

theorem addVscf_some {names : List Bytes} {auto : Bool} {L L' : List Bytes} {v : Val} {ref : Ref} (h : addVscf names auto L v = .ok (some (L', ref))) :
    L <+: L' ∧ (L.length ≤ LIST_MAX + 1 → L'.length ≤ LIST_MAX + 1) ∧ ∃ r, ListOf names auto v r ∧ Stands L' ref r := by
  unfold addVscf at h
  cases hx : xlate names auto v with
  | ub => rw [hx] at h; cases h
  | ok o =>
    rw [hx, Outcome.map_ok] at h
    have h := Outcome.ok.inj h
    cases o with
    | none => cases h
    | some p =>
      cases p with
      | none =>
        rw [Option.bind_some] at h
        simp only [Option.some.injEq, Prod.mk.injEq] at h
        obtain ⟨rfl, rfl⟩ := h
        exact ⟨List.prefix_refl _, id, none, xlate_some hx, trivial⟩
      | some l =>
        rw [Option.bind_some] at h
        simp only [Option.map_eq_some_iff] at h
        obtain ⟨⟨L1, i⟩, h1, h2⟩ := h
        simp only [Prod.mk.injEq] at h2
        obtain ⟨rfl, rfl⟩ := h2
        obtain ⟨h3, h4, h5⟩ := findOrAdd_some h1
        exact ⟨h3, h5, some l, xlate_some hx, h4⟩

theorem addVscf_of {names : List Bytes} {auto : Bool} {L : List Bytes} {v : Val} {r : Option Bytes} (hl : ListOf names auto v r) (hau : nm "auto" ∉ names) (hb : Brief v)
    (hL : L.length ≤ LIST_MAX) : ∃ L' ref, addVscf names auto L v = .ok (some (L', ref)) ∧ L'.length ≤ L.length + 1 := by
  unfold addVscf
  rw [xlate_of hl hau hb]
  cases r with
  | none => exact ⟨L, .auto, rfl, by omega⟩
  | some l =>
    obtain ⟨L', i, h1, h2⟩ := findOrAdd_ok l hL
    refine ⟨L', .idx i, ?_, h2⟩
    rw [Outcome.map_ok, Option.bind_some]
    simp [h1]

theorem addVscf_safe {names : List Bytes} {auto : Bool} {L : List Bytes} {v : Val} (hb : Brief v) : addVscf names auto L v ≠ .ub := by
  unfold addVscf
  cases hx : xlate names auto v with
  | ub => exact absurd hx (xlate_safe hb)
  | ok o => simp [Outcome.map_ok]

/-! #### From the configuration to the tree -/

theorem inner_some {names : List Bytes} {auto : Bool} {L L' : List Bytes} {o : Option Bytes} {parent d : Ref} {es : List (Entry Val)} (hn : (es.map (·.key)).Nodup)
    (hp : Stands L parent o) (h : innerDefault names auto L parent (find es (str "default")) = .ok (some (L', d))) :
    L <+: L' ∧ (L.length ≤ LIST_MAX + 1 → L'.length ≤ LIST_MAX + 1) ∧ ∃ r, Default names auto es o r ∧ Stands L' d r := by
  cases hf : find es (str "default") with
  | none =>
    rw [hf] at h
    unfold innerDefault at h
    simp only [Outcome.ok.injEq, Option.some.injEq, Prod.mk.injEq] at h
    obtain ⟨rfl, rfl⟩ := h
    exact ⟨List.prefix_refl _, id, o, .outer (absent_iff.mpr hf), hp⟩
  | some v =>
    rw [hf] at h
    obtain ⟨h1, h2, r, h3, h4⟩ := addVscf_some h
    exact ⟨h1, h2, r, .own ((is_iff hn).mpr hf) h3, h4⟩

mutual

theorem child_some {names : List Bytes} {auto : Bool} : ∀ {v : Val} {L L' : List Bytes} {o : Option Bytes} {parent : Ref} {t : Dcmap}, Clean v → Stands L parent o →
    child names auto parent L v = .ok (some (L', t)) → L <+: L' ∧ (L.length ≤ LIST_MAX + 1 → L'.length ≤ LIST_MAX + 1) ∧ Built names auto L' o v t
  | .hash es, L, L', o, parent, t, hc, hp, h => by
    unfold child at h
    obtain ⟨hn, -, hco⟩ := clean_hash hc
    cases hi : innerDefault names auto L parent (find es (str "default")) with
    | ub => rw [hi] at h; cases h
    | ok x =>
      rw [hi, Outcome.bind_ok] at h
      match x, hi, h with
      | none, _, h => cases h
      | some (L1, d), hi, h =>
        obtain ⟨h1, h2, r, h3, h4⟩ := inner_some hn hp hi
        dsimp only at h
        cases hk : kids names auto d L1 es with
        | ub => rw [hk] at h; cases h
        | ok y =>
          rw [hk, Outcome.map_ok] at h
          match y, hk, h with
          | none, _, h => cases h
          | some (L2, ks), hk, h =>
            simp only [Option.map_some, Outcome.ok.injEq, Option.some.injEq, Prod.mk.injEq] at h
            obtain ⟨rfl, rfl⟩ := h
            obtain ⟨h5, h6, h7⟩ := kids_some hco h4 hk
            exact ⟨h1.trans h5, fun h => h6 (h2 h), .node h3 (stands_mono h5 h4) h7⟩
  | .simple r t, L, L', o, parent, _, _, _, h => by
    unfold child at h
    cases hi : addVscf names auto L (.simple r t) with
    | ub => rw [hi] at h; cases h
    | ok x =>
      rw [hi, Outcome.map_ok] at h
      match x, hi, h with
      | none, _, h => cases h
      | some (L1, ref), hi, h =>
        simp only [Option.map_some, Outcome.ok.injEq, Option.some.injEq, Prod.mk.injEq] at h
        obtain ⟨rfl, rfl⟩ := h
        obtain ⟨h1, h2, r, h3, h4⟩ := addVscf_some hi
        exact ⟨h1, h2, .list (by simp) h3 h4⟩
  | .array vs, L, L', o, parent, _, _, _, h => by
    unfold child at h
    cases hi : addVscf names auto L (.array vs) with
    | ub => rw [hi] at h; cases h
    | ok x =>
      rw [hi, Outcome.map_ok] at h
      match x, hi, h with
      | none, _, h => cases h
      | some (L1, ref), hi, h =>
        simp only [Option.map_some, Outcome.ok.injEq, Option.some.injEq, Prod.mk.injEq] at h
        obtain ⟨rfl, rfl⟩ := h
        obtain ⟨h1, h2, r, h3, h4⟩ := addVscf_some hi
        exact ⟨h1, h2, .list (by simp) h3 h4⟩

theorem kids_some {names : List Bytes} {auto : Bool} : ∀ {es : List (Entry Val)} {L L' : List Bytes} {o : Option Bytes} {d : Ref} {ks : Kids}, CleanOf es → Stands L d o →
    kids names auto d L es = .ok (some (L', ks)) → L <+: L' ∧ (L.length ≤ LIST_MAX + 1 → L'.length ≤ LIST_MAX + 1) ∧ BuiltKids names auto L' o es ks
  | [], L, L', o, d, ks, _, _, h => by
    unfold kids at h
    simp only [Outcome.ok.injEq, Option.some.injEq, Prod.mk.injEq] at h
    obtain ⟨rfl, rfl⟩ := h
    exact ⟨List.prefix_refl _, id, .nil⟩
  | ⟨k, m, v⟩ :: es, L, L', o, d, ks, hc, hd, h => by
    unfold kids at h
    have hcv : Clean v ∧ CleanOf es := by
      cases hc with
      | cons h1 h2 => exact ⟨h1, h2⟩
    by_cases hk : k = str "default"
    · rw [if_pos hk] at h
      obtain ⟨h1, h2, h3⟩ := kids_some hcv.2 hd h
      exact ⟨h1, h2, hk ▸ .skip h3⟩
    · rw [if_neg hk] at h
      cases hi : child names auto d L v with
      | ub => rw [hi] at h; cases h
      | ok x =>
        rw [hi, Outcome.bind_ok] at h
        match x, hi, h with
        | none, _, h => cases h
        | some (L1, t), hi, h =>
          obtain ⟨h1, h2, h3⟩ := child_some hcv.1 hd hi
          dsimp only at h
          cases hk' : kids names auto d L1 es with
          | ub => rw [hk'] at h; cases h
          | ok y =>
            rw [hk', Outcome.map_ok] at h
            match y, hk', h with
            | none, _, h => cases h
            | some (L2, ks'), hk', h =>
              simp only [Option.map_some, Outcome.ok.injEq, Option.some.injEq, Prod.mk.injEq] at h
              obtain ⟨rfl, rfl⟩ := h
              obtain ⟨h4, h5, h6⟩ := kids_some hcv.2 (stands_mono h1 hd) hk'
              exact ⟨h1.trans h4, fun h => h5 (h2 h), .cons hk (h3.mono h4) h6⟩

end

/-! #### When it is accepted -/

theorem find_ne {e : Entry Val} {es : List (Entry Val)} {k : Bytes} (h : e.key ≠ k) : find (e :: es) k = find es k := by
  unfold find
  rw [List.find?_cons, show (e.key == k) = false from by simpa using h]

theorem find_eq {e : Entry Val} {es : List (Entry Val)} : find (e :: es) e.key = some e.val := by
  unfold find
  rw [List.find?_cons, show (e.key == e.key) = true from by simp]
  rfl

theorem lawful_default {names : List Bytes} {auto : Bool} {es : List (Entry Val)} (h : Lawful names auto es) {v : Val} (hf : find es (str "default") = some v) : ∃ r, ListOf names auto v r := by
  induction h with
  | nil => cases hf
  | @list e es l h1 _ ih =>
    by_cases hk : e.key = str "default"
    · rw [← hk, find_eq] at hf
      exact ⟨l, Option.some.inj hf ▸ h1⟩
    · exact ih (by rwa [find_ne hk] at hf)
  | @sub k m fs es h1 _ _ _ ih => exact ih (by rwa [find_ne (e := ⟨k, m, .hash fs⟩) (show k ≠ str "default" from h1)] at hf)

theorem briefs_default {es : List (Entry Val)} (h : Briefs es) {v : Val} (hf : find es (str "default") = some v) : Brief v := by
  induction h with
  | nil => cases hf
  | @list k m w es h0 h1 _ ih =>
    by_cases hk : k = str "default"
    · rw [← hk, find_eq (e := ⟨k, m, w⟩)] at hf
      exact Option.some.inj hf ▸ h1
    · exact ih (by rwa [find_ne (e := ⟨k, m, w⟩) hk] at hf)
  | @sub k m fs es _ _ _ ih =>
    by_cases hk : k = str "default"
    · rw [← hk, find_eq (e := ⟨k, m, .hash fs⟩)] at hf
      intro vs hv
      rw [← Option.some.inj hf] at hv
      cases hv
    · exact ih (by rwa [find_ne (e := ⟨k, m, .hash fs⟩) hk] at hf)

theorem not_lawful_key {names : List Bytes} {auto : Bool} {e : Entry Val} {es : List (Entry Val)} (h : Lawful names auto (e :: es)) : Lawful names auto es := by
  cases h with
  | list _ h => exact h
  | sub _ _ h => exact h

mutual

/-- How much a value may add to the lists. -/
theorem child_of {names : List Bytes} {auto : Bool} (hau : nm "auto" ∉ names) : ∀ {v : Val} {L : List Bytes} {parent : Ref},
    ((∃ r, ListOf names auto v r) ∧ (∀ es, v ≠ .hash es) ∧ Brief v) ∨ (∃ es, v = .hash es ∧ Lawful names auto es ∧ Briefs es) → L.length + weight v + 1 ≤ LIST_MAX →
    ∃ L' t, child names auto parent L v = .ok (some (L', t)) ∧ L'.length ≤ L.length + weight v + 1
  | .hash es, L, parent, hv, hL => by
    rcases hv with ⟨_, h, _⟩ | ⟨_, h1, hlaw, hbr⟩
    · exact absurd rfl (h es)
    · cases h1
      rw [weight] at hL ⊢
      have hd : ∃ L1 d, innerDefault names auto L parent (find es (str "default")) = .ok (some (L1, d)) ∧ L1.length ≤ L.length + 1 := by
        cases hf : find es (str "default") with
        | none => exact ⟨L, parent, rfl, by omega⟩
        | some v =>
          obtain ⟨r, hr⟩ := lawful_default hlaw hf
          exact addVscf_of hr hau (briefs_default hbr hf) (by omega)
      obtain ⟨L1, d, h2, h3⟩ := hd
      obtain ⟨L2, ks, h4, h5⟩ := kids_of hau (es := es) (L := L1) (d := d) hlaw hbr (by omega)
      refine ⟨L2, .node d ks, ?_, by omega⟩
      unfold child
      rw [h2, Outcome.bind_ok]
      dsimp only
      rw [h4]
      rfl
  | .simple r t, L, parent, hv, hL => by
    rcases hv with ⟨⟨_, h1⟩, _, hb⟩ | ⟨_, h1, _⟩
    · have hw : weight (.simple r t) = 0 := by unfold weight; rfl
      rw [hw] at hL ⊢
      obtain ⟨L', ref, h2, h3⟩ := addVscf_of (L := L) h1 hau hb (by omega)
      refine ⟨L', .list ref, ?_, by omega⟩
      unfold child
      rw [h2]
      rfl
    · cases h1
  | .array vs, L, parent, hv, hL => by
    rcases hv with ⟨⟨r, h1⟩, _, hb⟩ | ⟨_, h1, _⟩
    · have hw : weight (.array vs) = 0 := by unfold weight; rfl
      rw [hw] at hL ⊢
      obtain ⟨L', ref, h2, h3⟩ := addVscf_of (L := L) h1 hau hb (by omega)
      refine ⟨L', .list ref, ?_, by omega⟩
      unfold child
      rw [h2]
      rfl
    · cases h1

theorem kids_of {names : List Bytes} {auto : Bool} (hau : nm "auto" ∉ names) : ∀ {es : List (Entry Val)} {L : List Bytes} {d : Ref}, Lawful names auto es → Briefs es →
    L.length + weights es ≤ LIST_MAX → ∃ L' ks, kids names auto d L es = .ok (some (L', ks)) ∧ L'.length ≤ L.length + weights es
  | [], L, d, _, _, _ => ⟨L, .nil, by unfold kids; rfl, by omega⟩
  | ⟨k, m, v⟩ :: es, L, d, hlaw, hbr, hL => by
    rw [weights] at hL ⊢
    have hes : Lawful names auto es := not_lawful_key hlaw
    have hbs : Briefs es := by
      cases hbr with
      | list _ _ h => exact h
      | sub _ h => exact h
    unfold kids
    by_cases hk : k = str "default"
    · rw [if_pos hk]
      obtain ⟨L', ks, h1, h2⟩ := kids_of hau (L := L) (d := d) hes hbs (by omega)
      exact ⟨L', ks, h1, by omega⟩
    · rw [if_neg hk]
      have hv : ((∃ r, ListOf names auto v r) ∧ (∀ es, v ≠ .hash es) ∧ Brief v) ∨ (∃ es, v = .hash es ∧ Lawful names auto es ∧ Briefs es) := by
        cases hbr with
        | list h1 h2 _ =>
          cases hlaw with
          | list h3 _ => exact Or.inl ⟨⟨_, h3⟩, h1, h2⟩
          | sub _ _ _ => exact absurd rfl (h1 _)
        | @sub _ _ fs _ h1 _ =>
          cases hlaw with
          | list h3 _ =>
            exfalso
            cases h3 with
            | auto _ h4 _ => rw [Meta.several_iff] at h4; cases h4
            | names h4 h5 _ => rw [Meta.several_iff] at h4; subst h4; cases h5
          | sub _ h3 _ => exact Or.inr ⟨fs, rfl, h3, h1⟩
      obtain ⟨L1, t, h1, h2⟩ := child_of hau (L := L) (parent := d) hv (by omega)
      obtain ⟨L2, ks, h3, h4⟩ := kids_of hau (L := L1) (d := d) hes hbs (by omega)
      refine ⟨L2, .cons (cstr k) t ks, ?_, by omega⟩
      rw [h1, Outcome.bind_ok]
      dsimp only
      rw [h3]
      rfl

end

mutual

theorem child_safe {names : List Bytes} {auto : Bool} : ∀ {v : Val} {L : List Bytes} {parent : Ref}, ((∀ es, v ≠ .hash es) ∧ Brief v) ∨ (∃ es, v = .hash es ∧ Briefs es) → child names auto parent L v ≠ .ub
  | .hash es, L, parent, hv => by
    rcases hv with ⟨h, _⟩ | ⟨_, h1, hbr⟩
    · exact absurd rfl (h es)
    · cases h1
      unfold child
      cases hi : innerDefault names auto L parent (find es (str "default")) with
      | ub =>
        exfalso
        cases hf : find es (str "default") with
        | none => rw [hf] at hi; cases hi
        | some v => rw [hf] at hi; exact addVscf_safe (briefs_default hbr hf) hi
      | ok x =>
        rw [Outcome.bind_ok]
        match x with
        | none => simp
        | some (L1, d) =>
          have := kids_safe (names := names) (auto := auto) (es := es) (L := L1) (d := d) hbr
          dsimp only
          cases hk : kids names auto d L1 es with
          | ub => exact absurd hk this
          | ok _ => simp [Outcome.map_ok]
  | .simple r t, L, parent, hv => by
    rcases hv with ⟨_, hb⟩ | ⟨_, h1, _⟩
    · unfold child
      have := addVscf_safe (names := names) (auto := auto) (L := L) hb
      cases hx : addVscf names auto L (.simple r t) with
      | ub => exact absurd hx this
      | ok _ => simp [Outcome.map_ok]
    · cases h1
  | .array vs, L, parent, hv => by
    rcases hv with ⟨_, hb⟩ | ⟨_, h1, _⟩
    · unfold child
      have := addVscf_safe (names := names) (auto := auto) (L := L) hb
      cases hx : addVscf names auto L (.array vs) with
      | ub => exact absurd hx this
      | ok _ => simp [Outcome.map_ok]
    · cases h1

theorem kids_safe {names : List Bytes} {auto : Bool} : ∀ {es : List (Entry Val)} {L : List Bytes} {d : Ref}, Briefs es → kids names auto d L es ≠ .ub
  | [], _, _, _ => by unfold kids; simp
  | ⟨k, m, v⟩ :: es, L, d, hbr => by
    unfold kids
    have hbs : Briefs es ∧ (((∀ es, v ≠ .hash es) ∧ Brief v) ∨ (∃ es, v = .hash es ∧ Briefs es)) := by
      cases hbr with
      | list h1 h2 h => exact ⟨h, Or.inl ⟨h1, h2⟩⟩
      | sub h1 h => exact ⟨h, Or.inr ⟨_, rfl, h1⟩⟩
    by_cases hk : k = str "default"
    · rw [if_pos hk]
      exact kids_safe hbs.1
    · rw [if_neg hk]
      have h1 := child_safe (names := names) (auto := auto) (L := L) (parent := d) hbs.2
      cases hi : child names auto d L v with
      | ub => exact absurd hi h1
      | ok x =>
        rw [Outcome.bind_ok]
        match x with
        | none => simp
        | some (L1, t) =>
          have h2 := kids_safe (names := names) (auto := auto) (L := L1) (d := d) hbs.1
          dsimp only
          cases hk' : kids names auto d L1 es with
          | ub => exact absurd hk' h2
          | ok _ => simp [Outcome.map_ok]

end

mutual

theorem built_lawful {names : List Bytes} {auto : Bool} {L : List Bytes} : ∀ {v : Val} {o : Option Bytes} {t : Dcmap}, Clean v → Built names auto L o v t →
    (∃ r, ListOf names auto v r) ∨ ∃ es, v = .hash es ∧ Lawful names auto es
  | .hash es, _, _, hc, h => by
    cases h with
    | list h1 _ _ => exact absurd rfl (h1 es)
    | node h1 _ h3 =>
      refine Or.inr ⟨_, rfl, kids_lawful (clean_hash hc).2.2 (clean_hash hc).1 h3 fun v hf => ?_⟩
      cases h1 with
      | own h4 h5 =>
        rw [is_iff (clean_hash hc).1, hf] at h4
        exact ⟨_, Option.some.inj h4 ▸ h5⟩
      | outer h4 => rw [absent_iff.mp h4] at hf; cases hf
  | .simple _ _, _, _, _, h => by
    cases h with
    | list _ h2 _ => exact Or.inl ⟨_, h2⟩
  | .array _, _, _, _, h => by
    cases h with
    | list _ h2 _ => exact Or.inl ⟨_, h2⟩

theorem kids_lawful {names : List Bytes} {auto : Bool} {L : List Bytes} : ∀ {es : List (Entry Val)} {o : Option Bytes} {ks : Kids}, CleanOf es → (es.map (·.key)).Nodup →
    BuiltKids names auto L o es ks → (∀ v, find es (str "default") = some v → ∃ r, ListOf names auto v r) → Lawful names auto es
  | [], _, _, _, _, _, _ => .nil
  | ⟨k, m, v⟩ :: es, o, ks, hc, hn, hb, hd => by
    have hce : Clean v ∧ CleanOf es := by
      cases hc with
      | cons h1 h2 => exact ⟨h1, h2⟩
    simp only [List.map_cons, List.nodup_cons] at hn
    cases hb with
    | skip h =>
      obtain ⟨r, hr⟩ := hd v (find_eq (e := ⟨str "default", m, v⟩))
      refine .list (e := ⟨str "default", m, v⟩) hr (kids_lawful hce.2 hn.2 h fun w hw => ?_)
      obtain ⟨e, he, hk, _⟩ := find_some hw
      exact absurd (List.mem_map_of_mem (f := (·.key)) he) (hk ▸ hn.1)
    | cons h1 h2 h3 =>
      have hes := kids_lawful hce.2 hn.2 h3 fun w hw => hd w (by rw [find_ne (e := ⟨k, m, v⟩) h1]; exact hw)
      rcases built_lawful hce.1 h2 with ⟨r, hr⟩ | ⟨fs, rfl, hf⟩
      · exact .list (e := ⟨k, m, v⟩) hr hes
      · exact .sub h1 hf hes

end

end Gdnsd.Gmap
