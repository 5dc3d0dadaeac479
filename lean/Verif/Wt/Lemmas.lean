/-
Lemmas: items, groups and names.
-/
import Verif.Wt.Spec
import Verif.Res.MfLoad
import Verif.Vscf.ConvProps
import Verif.Dname.Props
import Verif.Plugins.WeightedProps
namespace Gdnsd.Wt
open Vscf VscfSpec Conf ConfSpec SvcSpec ResSpec WtSpec Res
open Svc (Addr)

theorem weighed_iff {v : Val} {t : Bytes} {w : UInt32} : weighed v = some (t, w) ↔ ∃ r, Weighed v (.simple r t) w := by
  constructor
  · intro h
    unfold weighed at h
    split at h
    · rename_i r t' r' w'
      cases hl : getLong w' with
      | none => rw [hl] at h; cases h
      | some x =>
        rw [hl] at h
        simp only at h
        split at h
        · cases h
        · rename_i hx
          simp only [Option.some.injEq, Prod.mk.injEq] at h
          obtain ⟨rfl, rfl⟩ := h
          obtain ⟨neg, m, h1, h2, h3, h4⟩ := C78_long.mp hl
          cases neg with
          | true => simp only [if_true] at h2; omega
          | false =>
            simp only [Bool.false_eq_true, if_false] at h2
            subst h2
            refine ⟨r, r', w', m, rfl, h1, by omega, by omega, ?_⟩
            rw [Int.toNat_natCast, UInt32.toNat_ofNat']
            omega
    · cases h
  · rintro ⟨r, r', w', m, rfl, h1, h2, h3, h4⟩
    have hl : getLong w' = some (m : Int) := C78_long.mpr ⟨false, m, h1, by simp, by omega, by omega⟩
    simp only [weighed, hl]
    rw [if_neg (by omega)]
    simp only [Int.toNat_natCast, Option.some.injEq, Prod.mk.injEq, true_and]
    rw [← h4]
    exact UInt32.ofNat_toNat

theorem item_iff {lib : Lib} {v6 : Bool} {v : Val} {p : Addr × UInt32} : IsItem lib v6 v p ↔ addrOf lib v6 v = some p := by
  constructor
  · rintro ⟨x, h1, r, t, u, rfl, h2, h3, h4⟩
    simp only [addrOf, weighed_iff.mpr ⟨r, h1⟩]
    rw [upToZero_iff.mp h2] at h3
    simp [h3, h4]
  · intro h
    unfold addrOf at h
    split at h
    · cases h
    · rename_i t w hw
      obtain ⟨r, hw⟩ := weighed_iff.mp hw
      split at h
      · cases h
      · rename_i a ha
        split at h
        · rename_i h6
          simp only [Option.some.injEq] at h
          subst h
          exact ⟨.simple r t, hw, r, t, _, rfl, upToZero_iff.mpr rfl, ha, h6⟩
        · cases h

/-- An item is in range. -/
theorem item_weight {lib : Lib} {v6 : Bool} {v : Val} {p : Addr × UInt32} (h : IsItem lib v6 v p) : p.1.v6 = v6 ∧ 1 ≤ p.2.toNat ∧ p.2.toNat ≤ 1048575 := by
  obtain ⟨x, ⟨r, t, m, _, _, h1, h2, h3⟩, _, _, _, _, _, _, h4⟩ := h
  exact ⟨h4, by omega, by omega⟩

theorem groupLoop_ok {lib : Lib} {v6 : Bool} : ∀ (es : List (Entry Val)), (∀ e ∈ es, e.key ≠ []) → ∃ o, groupLoop lib v6 es.length es = .ok o ∧
    ∀ as, o = some as ↔ All (IsItem lib v6) (es.map (·.val)) as
  | [], _ => ⟨some [], rfl, fun as => ⟨fun h => by cases h; exact .nil, fun h => by cases h; rfl⟩⟩
  | e :: es, hk => by
    obtain ⟨o, h1, h2⟩ := groupLoop_ok (lib := lib) (v6 := v6) es fun x hx => hk x (by simp [hx])
    have hl : e.key.length ≠ 0 := fun h => hk e (by simp) (List.length_eq_zero_iff.mp h)
    simp only [List.length_cons, groupLoop, assert, hl, ne_eq, not_false_eq_true, decide_true, if_true, Outcome.bind_ok]
    cases ha : addrOf lib v6 e.val with
    | none =>
      refine ⟨none, rfl, fun as => ⟨nofun, fun h => ?_⟩⟩
      cases h with
      | cons h _ => rw [item_iff, ha] at h; cases h
    | some a =>
      refine ⟨o.map (a :: ·), by simp [h1], fun as => ?_⟩
      constructor
      · intro h
        cases o with
        | none => cases h
        | some as' =>
          simp only [Option.map_some, Option.some.injEq] at h
          subst h
          exact .cons (item_iff.mpr ha) ((h2 as').mp rfl)
      · intro h
        cases h with
        | @cons _ b _ as' h h' =>
          rw [item_iff, ha] at h
          simp only [Option.some.injEq] at h
          subst h
          rw [(h2 as').mpr h']
          rfl

theorem fresh_unmarked {es : List (Entry Val)} (h : Fresh es) : unmarked es = es := by
  rw [unmarked, List.filter_eq_self]
  intro e he
  rw [h e he]
  rfl

theorem groupOf_ok {lib : Lib} {v6 : Bool} {v : Val} (hc : Clean v) (hk : Labelled v) : ∃ o, groupOf lib v6 v = .ok o ∧ ∀ g, o = some g ↔ IsGroup lib v6 v g := by
  have other : (∀ es, v ≠ .hash es) → ∀ g, (none : Option (List (Addr × UInt32))) = some g ↔ IsGroup lib v6 v g := by
    intro hno g
    refine ⟨nofun, ?_⟩
    rintro ⟨es, h, _⟩
    exact absurd h (hno es)
  cases v with
  | simple r t => exact ⟨none, rfl, other nofun⟩
  | array vs => exact ⟨none, rfl, other nofun⟩
  | hash es =>
    obtain ⟨_, hf, _⟩ := clean_hash hc
    have hlen : ∀ g, IsGroup lib v6 (.hash es) g → es.length = g.length := by
      rintro g ⟨fs, h, _, _, ha⟩
      cases h
      rw [all_length ha, List.length_map]
    simp only [groupOf]
    split
    · rename_i h0
      refine ⟨none, rfl, fun g => ⟨nofun, fun h => ?_⟩⟩
      have := hlen g h
      obtain ⟨_, _, h1, _⟩ := h
      exact absurd (List.length_eq_zero_iff.mp (by omega)) h1
    · rename_i h0
      split
      · rename_i h64
        refine ⟨none, rfl, fun g => ⟨nofun, fun h => ?_⟩⟩
        have := hlen g h
        obtain ⟨_, _, _, h1, _⟩ := h
        omega
      · rename_i h64
        rw [fresh_unmarked hf]
        obtain ⟨o, h1, h2⟩ := groupLoop_ok (lib := lib) (v6 := v6) es (hk es .refl)
        refine ⟨o, h1, fun g => ?_⟩
        rw [h2]
        constructor
        · intro h
          have := all_length h
          rw [List.length_map] at this
          exact ⟨es, rfl, fun h => by subst h; exact h0 (by simpa using this.symm), by omega, h⟩
        · rintro ⟨fs, h, _, _, h'⟩
          cases h
          exact h'

/-- One item of a set. -/
def IsOne (lib : Lib) (v6 g : Bool) (v : Val) (x : List (Addr × UInt32)) : Prop := if g = true then IsGroup lib v6 v x else ∃ a, IsItem lib v6 v a ∧ x = [a]

theorem itemsLoop_mode {lib : Lib} {v6 g : Bool} : ∀ (es : List (Entry Val)), (∀ e ∈ es, Clean e.val ∧ Labelled e.val) → ∃ o, itemsLoop lib v6 (some g) es.length es = .ok o ∧
    ∀ gs, o = some gs ↔ All (IsOne lib v6 g) (es.map (·.val)) gs
  | [], _ => ⟨some [], rfl, fun as => ⟨fun h => by cases h; exact .nil, fun h => by cases h; rfl⟩⟩
  | e :: es, hk => by
    obtain ⟨o, h1, h2⟩ := itemsLoop_mode (lib := lib) (v6 := v6) (g := g) es fun x hx => hk x (by simp [hx])
    have hone : ∃ o, (if g = true then groupOf lib v6 e.val else .ok ((addrOf lib v6 e.val).map fun a => [a])) = .ok o ∧ ∀ x, o = some x ↔ IsOne lib v6 g e.val x := by
      obtain ⟨c1, c2⟩ := hk e (by simp)
      cases g with
      | true =>
        obtain ⟨o, g1, g2⟩ := groupOf_ok (lib := lib) (v6 := v6) c1 c2
        exact ⟨o, g1, g2⟩
      | false =>
        refine ⟨_, rfl, fun x => ?_⟩
        simp only [IsOne, Bool.false_eq_true, if_false, item_iff, Option.map_eq_some_iff]
        constructor
        · rintro ⟨a, h, rfl⟩; exact ⟨a, h, rfl⟩
        · rintro ⟨a, h, rfl⟩; exact ⟨a, h, rfl⟩
    obtain ⟨p, p1, p2⟩ := hone
    simp only [List.length_cons, itemsLoop, modeOf, p1, Outcome.bind_ok]
    cases p with
    | none =>
      refine ⟨none, rfl, fun as => ⟨nofun, fun h => ?_⟩⟩
      cases h with
      | cons h _ => rw [← p2] at h; cases h
    | some a =>
      refine ⟨o.map (a :: ·), by simp [h1], fun as => ?_⟩
      constructor
      · intro h
        cases o with
        | none => cases h
        | some as' =>
          simp only [Option.map_some, Option.some.injEq] at h
          subst h
          exact .cons ((p2 a).mp rfl) ((h2 as').mp rfl)
      · intro h
        cases h with
        | @cons _ b _ as' h h' =>
          rw [← p2] at h
          simp only [Option.some.injEq] at h
          subst h
          rw [(h2 as').mpr h']
          rfl

theorem all_item {lib : Lib} {v6 : Bool} {vals : List Val} {gs : List (List (Addr × UInt32))} :
    All (IsOne lib v6 false) vals gs ↔ ∃ as, All (IsItem lib v6) vals as ∧ gs = as.map fun a => [a] := by
  induction vals generalizing gs with
  | nil =>
    constructor
    · intro h; cases h; exact ⟨[], .nil, rfl⟩
    · rintro ⟨as, h, rfl⟩; cases h; exact .nil
  | cons v vs ih =>
    constructor
    · intro h
      cases h with
      | cons h1 h2 =>
        obtain ⟨a, h3, rfl⟩ := h1
        obtain ⟨as, h4, rfl⟩ := ih.mp h2
        exact ⟨a :: as, .cons h3 h4, rfl⟩
    · rintro ⟨as, h, rfl⟩
      cases h with
      | cons h1 h2 => exact .cons ⟨_, h1, rfl⟩ (ih.mpr ⟨_, h2, rfl⟩)

theorem all_group {lib : Lib} {v6 : Bool} {vals : List Val} {gs : List (List (Addr × UInt32))} : All (IsOne lib v6 true) vals gs ↔ All (IsGroup lib v6) vals gs :=
  all_iff fun _ _ _ => by simp [IsOne]

theorem itemsLoop_ok {lib : Lib} {v6 : Bool} (es : List (Entry Val)) (hk : ∀ e ∈ es, Clean e.val ∧ Labelled e.val) (hne : es ≠ []) :
    ∃ o, itemsLoop lib v6 none es.length es = .ok o ∧
    ∀ gs, o = some gs ↔ (∃ as, All (IsItem lib v6) (es.map (·.val)) as ∧ gs = as.map fun a => [a]) ∨ All (IsGroup lib v6) (es.map (·.val)) gs := by
  cases es with
  | nil => exact absurd rfl hne
  | cons e es =>
    have key : ∀ g, modeOf none e.val = some g → (∀ x, ¬ IsOne lib v6 (!g) e.val x) → ∃ o, itemsLoop lib v6 none (e :: es).length (e :: es) = .ok o ∧
        ∀ gs, o = some gs ↔ (∃ as, All (IsItem lib v6) ((e :: es).map (·.val)) as ∧ gs = as.map fun a => [a]) ∨ All (IsGroup lib v6) ((e :: es).map (·.val)) gs := by
      intro g hg hno
      obtain ⟨o, h1, h2⟩ := itemsLoop_mode (lib := lib) (v6 := v6) (g := g) (e :: es) hk
      refine ⟨o, ?_, fun gs => ?_⟩
      · simp only [List.length_cons, itemsLoop, hg]
        simpa only [List.length_cons, itemsLoop, modeOf] using h1
      · rw [h2, ← all_item, ← all_group]
        have hx : ¬ All (IsOne lib v6 (!g)) ((e :: es).map (·.val)) gs := by
          intro h
          cases h with
          | cons h _ => exact hno _ h
        cases g with
        | true => exact ⟨Or.inr, fun h => h.resolve_left hx⟩
        | false => exact ⟨Or.inl, fun h => h.resolve_right hx⟩
    cases hv : e.val with
    | hash fs =>
      refine key true (by rw [hv]; rfl) fun x h => ?_
      obtain ⟨a, ⟨y, ⟨_, _, _, h1, _⟩, _⟩, _⟩ := h
      rw [hv] at h1
      cases h1
    | array vs =>
      refine key false (by rw [hv]; rfl) fun x h => ?_
      obtain ⟨fs, h1, _⟩ := h
      rw [hv] at h1
      cases h1
    | simple r t =>
      refine ⟨none, by simp [itemsLoop, modeOf, hv], fun gs => ⟨nofun, ?_⟩⟩
      rintro (⟨as, h, _⟩ | h)
      · cases h with
        | cons h _ =>
          obtain ⟨y, ⟨_, _, _, h1, _⟩, _⟩ := h
          rw [show (fun x : Entry Val => x.val) e = e.val from rfl, hv] at h1
          cases h1
      · cases h with
        | cons h _ =>
          obtain ⟨fs, h1, _⟩ := h
          rw [show (fun x : Entry Val => x.val) e = e.val from rfl, hv] at h1
          cases h1

/-! ### Names -/

theorem cnameOf_ok (v : Val) : ∃ o, cnameOf v = .ok o ∧ ∀ c, o = some c ↔ IsName v c := by
  unfold cnameOf
  cases hw : weighed v with
  | none =>
    refine ⟨none, rfl, fun c => ⟨nofun, ?_⟩⟩
    rintro ⟨r, t, ls, h, _⟩
    rw [weighed_iff.mpr ⟨r, h⟩] at hw
    cases hw
  | some p =>
    obtain ⟨t, w⟩ := p
    obtain ⟨r, hr⟩ := weighed_iff.mp hw
    have hraw : ∀ {r' t' w'}, Weighed v (.simple r' t') w' → rawOf v = r' := by
      rintro r' t' w' ⟨_, _, _, rfl, _⟩
      rfl
    have huniq : ∀ c, IsName v c → ∃ ls, c.weight = w ∧ c.text = cstr t ∧ DnameSpec.NameText r ls true ∧ DnameSpec.WF ls ∧ c.dname = DnameSpec.encode (ls.map (·.map DnameSpec.lower)) true := by
      rintro c ⟨r', t', ls, h1, h2, h3, h4, h5⟩
      have := weighed_iff.mpr ⟨r', h1⟩
      rw [hw] at this
      simp only [Option.some.injEq, Prod.mk.injEq] at this
      obtain ⟨rfl, rfl⟩ := this
      rw [← hraw h1, hraw hr] at h3
      exact ⟨ls, rfl, upToZero_iff.mp h2, h3, h4, h5⟩
    dsimp only
    rw [hraw hr]
    rcases Dname.C01_parse_exact r r.length (Nat.le_refl _) with ⟨ls, q, h1, h2, h3⟩ | ⟨h1, h2⟩
    · rw [List.take_length] at h1
      rw [h3]
      cases q with
      | true =>
        refine ⟨_, rfl, fun c => ?_⟩
        simp only [if_true, Option.some.injEq]
        constructor
        · rintro rfl
          exact ⟨r, t, ls, hr, upToZero_iff.mpr rfl, h1, h2, rfl⟩
        · intro h
          obtain ⟨ls', e1, e2, e3, e4, e5⟩ := huniq c h
          obtain ⟨rfl, _⟩ := Dname.C01_grammar_functional h1 e3
          cases c
          simp_all
      | false =>
        refine ⟨none, rfl, fun c => ⟨nofun, fun h => ?_⟩⟩
        obtain ⟨ls', e1, e2, e3, e4, e5⟩ := huniq c h
        have := (Dname.C01_grammar_functional h1 e3).2
        cases this
    · rw [List.take_length] at h1
      rw [h2]
      refine ⟨none, rfl, fun c => ⟨nofun, fun h => ?_⟩⟩
      obtain ⟨ls', e1, e2, e3, e4, e5⟩ := huniq c h
      exact absurd ⟨ls', true, e3, e4⟩ h1

/-- A name is in range, and it is well-formed. -/
theorem name_weight {v : Val} {c : Cname} (h : IsName v c) : 1 ≤ c.weight.toNat ∧ c.weight.toNat ≤ 1048575 ∧ Dname.status c.dname = .ok .valid := by
  obtain ⟨r, t, ls, ⟨_, _, m, _, _, h1, h2, h3⟩, _, h4, h5, h6⟩ := h
  refine ⟨by omega, by omega, ?_⟩
  have := Dname.C01_parse_complete r r.length (Nat.le_refl _) ls true (by rw [List.take_length]; exact h4) h5
  have := (Dname.C01_parse_status r r.length (Nat.le_refl _) _ _ this (by simp)).1
  rw [h6]
  exact this

theorem cnamesLoop_ok : ∀ (es : List (Entry Val)), ∃ o, cnamesLoop es.length es = .ok o ∧ ∀ cs, o = some cs ↔ All IsName (es.map (·.val)) cs
  | [] => ⟨some [], rfl, fun as => ⟨fun h => by cases h; exact .nil, fun h => by cases h; rfl⟩⟩
  | e :: es => by
    obtain ⟨o, h1, h2⟩ := cnamesLoop_ok es
    obtain ⟨p, p1, p2⟩ := cnameOf_ok e.val
    simp only [List.length_cons, cnamesLoop, p1, Outcome.bind_ok]
    cases p with
    | none =>
      refine ⟨none, rfl, fun as => ⟨nofun, fun h => ?_⟩⟩
      cases h with
      | cons h _ => rw [← p2] at h; cases h
    | some a =>
      refine ⟨o.map (a :: ·), by simp [h1], fun as => ?_⟩
      constructor
      · intro h
        cases o with
        | none => cases h
        | some as' =>
          simp only [Option.map_some, Option.some.injEq] at h
          subst h
          exact .cons ((p2 a).mp rfl) ((h2 as').mp rfl)
      · intro h
        cases h with
        | @cons _ b _ as' h h' =>
          rw [← p2] at h
          simp only [Option.some.injEq] at h
          subst h
          rw [(h2 as').mpr h']
          rfl

end Gdnsd.Wt
