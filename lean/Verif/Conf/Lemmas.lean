import Verif.Conf.Model
import Verif.Conf.Spec
import Verif.Vscf.ConvProps
import Verif.Vscf.CloneProps
namespace Gdnsd.Conf
open Vscf VscfSpec ConfSpec

/-! ### Code that asks for keys -/

theorem pure_iff {α : Type} {a b : α} {es : List (Entry Val)} {k : List Bytes} : (pure a : Opts α) es = some (b, k) ↔ b = a ∧ k = [] := by
  show some (a, []) = some (b, k) ↔ _
  simp only [Option.some.injEq, Prod.mk.injEq]
  exact ⟨fun h => ⟨h.1.symm, h.2.symm⟩, fun h => ⟨h.1.symm, h.2.symm⟩⟩

theorem bind_iff {α β : Type} {x : Opts α} {f : α → Opts β} {es : List (Entry Val)} {b : β} {k : List Bytes} :
    (x >>= f) es = some (b, k) ↔ ∃ a k1 k2, x es = some (a, k1) ∧ f a es = some (b, k2) ∧ k = k1 ++ k2 := by
  show ((x es).bind fun p => (f p.1 es).map fun q => (q.1, p.2 ++ q.2)) = some (b, k) ↔ _
  simp only [Option.bind_eq_some_iff, Option.map_eq_some_iff, Prod.exists, Prod.mk.injEq]
  constructor
  · rintro ⟨a, k1, h1, b', k2, h2, rfl, rfl⟩
    exact ⟨a, k1, k2, h1, h2, rfl⟩
  · rintro ⟨a, k1, k2, h1, h2, rfl⟩
    exact ⟨a, k1, h1, b, k2, h2, rfl, rfl⟩

theorem require_iff {p : Prop} [Decidable p] {es : List (Entry Val)} {u : Unit} {k : List Bytes} : require p es = some (u, k) ↔ p ∧ k = [] := by
  unfold require
  split
  next h => rw [pure_iff]; simp [h]
  next h => simp [fatal, h]

theorem ask_iff {s : String} {es : List (Entry Val)} {v : Option Val} {k : List Bytes} : ask s es = some (v, k) ↔ v = find es (str s) ∧ k = [str s] := by
  simp only [ask, Option.some.injEq, Prod.mk.injEq]
  exact ⟨fun h => ⟨h.1.symm, h.2.symm⟩, fun h => ⟨h.1.symm, h.2.symm⟩⟩

theorem removed_iff {s : String} {es : List (Entry Val)} {u : Unit} {k : List Bytes} : removed s es = some (u, k) ↔ k = [str s] := by
  unfold removed
  simp only [bind_iff, ask_iff, pure_iff]
  constructor
  · rintro ⟨a, k1, k2, ⟨_, rfl⟩, ⟨_, rfl⟩, rfl⟩; rfl
  · rintro rfl; exact ⟨_, _, [], ⟨rfl, rfl⟩, ⟨trivial, rfl⟩, rfl⟩

theorem nm_str (s : String) : nm s = str s := rfl

theorem absent_iff {es : List (Entry Val)} {s : String} : Absent es s ↔ find es (str s) = none := by
  rw [find_none]
  simp [Absent, Has, nm_str]

theorem is_iff {es : List (Entry Val)} (hn : (es.map (·.key)).Nodup) {s : String} {v : Val} : Is es s v ↔ find es (str s) = some v := by
  constructor
  · rintro ⟨e, he, hk, rfl⟩
    rw [← find_mem hn he, hk, nm_str]
  · intro h
    obtain ⟨e, he, h1, h2⟩ := find_some h
    exact ⟨e, he, h1, h2⟩

theorem truth_iff {t : Bytes} {b : Bool} : Truth t b ↔ getBool t = some b := C78_bool.symm

theorem count_iff {t : Bytes} {n : Nat} : Count t n ↔ getUlong t = some n := C78_ulong.symm

theorem optBool_iff {es : List (Entry Val)} (hn : (es.map (·.key)).Nodup) {s : String} {old b : Bool} {k : List Bytes} :
    optBool s old es = some (b, k) ↔ BoolOf es s old b ∧ k = [str s] := by
  unfold optBool BoolOf
  simp only [bind_iff, ask_iff, absent_iff, is_iff hn, truth_iff]
  constructor
  · rintro ⟨a, k1, k2, ⟨rfl, rfl⟩, h, rfl⟩
    generalize h0 : find es (str s) = o at h
    match o, h with
    | none, h => rw [pure_iff] at h; exact ⟨Or.inl ⟨rfl, h.1⟩, by simp [h.2]⟩
    | some (.simple r v), h =>
      dsimp only at h
      generalize hx : getBool v = x at h
      match x, h with
      | some x, h => rw [pure_iff] at h; exact ⟨Or.inr ⟨r, v, rfl, by rw [hx, h.1]⟩, by simp [h.2]⟩
      | none, h => cases h
    | some (.array _), h => cases h
    | some (.hash _), h => cases h
  · rintro ⟨h, rfl⟩
    refine ⟨_, _, [], ⟨rfl, rfl⟩, ?_, by simp⟩
    rcases h with ⟨h0, rfl⟩ | ⟨r, t, h0, ht⟩
    · rw [h0]; rfl
    · rw [h0]; simp only [ht]; rfl

theorem optUint_iff {es : List (Entry Val)} (hn : (es.map (·.key)).Nodup) {s : String} {min max old n : Nat} (hm : max < 2 ^ 32) {k : List Bytes} :
    optUint s min max old es = some (n, k) ↔ UintOf es s min max old n ∧ k = [str s] := by
  unfold optUint UintOf
  simp only [bind_iff, ask_iff, absent_iff, is_iff hn, count_iff]
  constructor
  · rintro ⟨a, k1, k2, ⟨rfl, rfl⟩, h, rfl⟩
    generalize h0 : find es (str s) = o at h
    match o, h with
    | none, h => rw [pure_iff] at h; exact ⟨Or.inl ⟨rfl, h.1⟩, by simp [h.2]⟩
    | some (.simple r v), h =>
      dsimp only at h
      generalize hx : getUlong v = x at h
      match x, h with
      | some x, h =>
        dsimp only at h
        by_cases hr : x < min ∨ x > max
        · rw [if_pos hr] at h; cases h
        · rw [if_neg hr, pure_iff, Nat.mod_eq_of_lt (by omega)] at h
          exact ⟨Or.inr ⟨r, v, rfl, by rw [hx, h.1], by omega, by omega⟩, by simp [h.2]⟩
      | none, h => cases h
    | some (.array _), h => cases h
    | some (.hash _), h => cases h
  · rintro ⟨h, rfl⟩
    refine ⟨_, _, [], ⟨rfl, rfl⟩, ?_, by simp⟩
    rcases h with ⟨h0, rfl⟩ | ⟨r, t, h0, ht, h1, h2⟩
    · rw [h0]; rfl
    · rw [h0]
      simp only [ht]
      rw [if_neg (by omega), Nat.mod_eq_of_lt (by omega)]
      rfl

theorem upToZero_iff {t u : Bytes} : UpToZero t u ↔ u = cstr t := by
  constructor
  · intro h
    induction h with
    | nil => rfl
    | zero => simp [cstr]
    | cons h1 _ ih => rw [ih]; simp [cstr, h1]
  · rintro rfl
    induction t with
    | nil => exact .nil
    | cons c r ih =>
      by_cases hc : c = 0
      · subst hc; simp only [cstr, bne_self_eq_false, Bool.false_eq_true, not_false_eq_true, List.takeWhile_cons_of_neg]; exact .zero
      · have : cstr (c :: r) = c :: cstr r := by simp [cstr, hc]
        rw [this]; exact .cons hc ih

theorem optStr_iff {es : List (Entry Val)} (hn : (es.map (·.key)).Nodup) {s : String} {old b : Option Bytes} {k : List Bytes} :
    optStr s old es = some (b, k) ↔ TextOf es s old b ∧ k = [str s] := by
  unfold optStr TextOf
  simp only [bind_iff, ask_iff, absent_iff, is_iff hn, upToZero_iff]
  constructor
  · rintro ⟨a, k1, k2, ⟨rfl, rfl⟩, h, rfl⟩
    generalize h0 : find es (str s) = o at h
    match o, h with
    | none, h => rw [pure_iff] at h; exact ⟨Or.inl ⟨rfl, h.1⟩, by simp [h.2]⟩
    | some (.simple r v), h => rw [pure_iff] at h; exact ⟨Or.inr ⟨r, v, _, rfl, rfl, h.1⟩, by simp [h.2]⟩
    | some (.array _), h => cases h
    | some (.hash _), h => cases h
  · rintro ⟨h, rfl⟩
    refine ⟨_, _, [], ⟨rfl, rfl⟩, ?_, by simp⟩
    rcases h with ⟨h0, rfl⟩ | ⟨r, t, u, h0, rfl, rfl⟩
    · rw [h0]; rfl
    · rw [h0]; rfl

/-- Nothing was marked before the program asked for anything. -/
def Fresh (es : List (Entry Val)) : Prop := ∀ e ∈ es, e.marked = false

theorem allMarked_iff {es : List (Entry Val)} (hf : Fresh es) {l : List String} {ks : List Bytes} (h : ∀ b, b ∈ ks ↔ ∃ k ∈ l, b = str k) :
    allMarked ks es = true ↔ Only es l := by
  simp only [allMarked, List.all_eq_true, Bool.or_eq_true, List.contains_iff_mem, Only, nm_str, h]
  constructor
  · intro ha e he
    rcases ha e he with h1 | h1
    · rw [hf e he] at h1; cases h1
    · exact h1
  · intro ha e he
    exact Or.inr (ha e he)

end Gdnsd.Conf
