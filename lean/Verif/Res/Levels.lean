/-
Lemmas: a resource that is a hash, below the plugin's hash and above its stanzas; and the loop over the resources.
-/
import Verif.Res.MfView
namespace Gdnsd.Res
open Vscf VscfSpec Conf ConfSpec SvcSpec ResSpec
open Svc (Addr)

theorem handed_keys {mk ks : List Bytes} {src as bs : List (Entry Val)} (h : All (Handed mk ks src) as bs) : bs.map (·.key) = as.map (·.key) := by
  induction h with
  | nil => rfl
  | cons h _ ih => simp [h.key, ih]

theorem handed_soundOf {mk ks : List Bytes} {src as bs : List (Entry Val)} (h : All (Handed mk ks src) as bs) : SoundOf bs :=
  soundOf_of fun _ he => by
    obtain ⟨_, _, h⟩ := all_left h he
    exact h.sound

theorem handed_others {mk ks : List Bytes} {src as bs : List (Entry Val)} (h : All (Handed mk ks src) as bs) : All (Handed mk ks src) (others ks as) (others ks bs) := by
  induction h with
  | nil => exact .nil
  | @cons a b as bs h _ ih =>
    simp only [others, List.filter_cons, h.key] at ih ⊢
    split
    · exact .cons h ih
    · exact ih

theorem all_shapes {mk ks : List Bytes} {src as bs : List (Entry Val)} (h : All (Handed mk ks src) as bs) : bs.map (fun e => shape e.val) = as.map (fun e => shape e.val) := by
  induction h with
  | nil => rfl
  | cons h _ ih => simp [h.shape, ih]

/-- A resource `opts` of the plugin's hash `es`, after parameters were handed down to it (`o1`) and from it (`o2`). -/
structure L2 (ks : List Bytes) (es opts o1 o2 : List (Entry Val)) : Prop where
  nodup : (o2.map (·.key)).Nodup
  sound : SoundOf o2
  param : ∀ k ∈ ks, (find o2 k).map shape = (firstOf [opts, es] k).map shape
  param1 : ∀ k ∈ ks, (find o1 k).map shape = (firstOf [opts, es] k).map shape
  absent : ∀ k, k ∉ ks → find opts k = none → find o2 k = none
  value : ∀ k, k ∉ ks → ∀ v, find opts k = some v → ∃ a b : Entry Val, a.val = v ∧ find o2 k = some b.val ∧ Handed ks ks o1 a b
  marked : ∀ e ∈ o2, e.marked = ks.contains e.key
  others : (others ks o2).map (fun e => shape e.val) = (others ks opts).map (fun e => shape e.val)
  keys : ∀ k, k ∉ ks → (Has o2 k ↔ Has opts k)

theorem levels2 {mk ks : List Bytes} (hz : ∀ k ∈ ks, (0 : UInt8) ∉ k) {es : List (Entry Val)} {a b : Entry Val} (h : Handed mk ks es a b) {opts : List (Entry Val)}
    (ha : a.val = .hash opts) (hf : Fresh opts) : ∃ o1 o2 n, b.val = .hash o1 ∧ handDown ks o1 = .ok (o2, n) ∧ L2 ks es opts o1 o2 := by
  obtain ⟨xs, h1, h2, h3⟩ := h.hash opts ha
  have hs := h.sound
  rw [h1] at hs
  cases hs with
  | hash hn hso =>
    obtain ⟨o2, g1, g2⟩ := handDown_ok ks [] (opts ++ xs) hz (handed_start hso)
    simp only [List.nil_append] at g2
    have hfirst : ∀ k ∈ ks, (find (opts ++ xs) k).map shape = (firstOf [opts, es] k).map shape := by
      intro k hk
      rw [h3 k hk, firstOf_cons, firstOf_cons]
      simp [firstOf]
    have hout : ∀ k, k ∉ ks → find (opts ++ xs) k = find opts k := by
      intro k hk
      have : find xs k = none := by
        rw [find_none]
        rintro ⟨x, hx, rfl⟩
        exact hk (h2 x hx).1
      rw [find_append, this, Option.or_none]
    refine ⟨opts ++ xs, o2, _, h1, g1, ?_, handed_soundOf g2, ?_, hfirst, ?_, ?_, ?_, ?_, ?_⟩
    · rw [handed_keys g2]; exact hn
    · intro k hk
      rw [(find_handed g2 k).1]
      exact hfirst k hk
    · intro k hk hnone
      have := (find_handed g2 k).1
      rw [hout k hk, hnone] at this
      cases hf' : find o2 k with
      | none => rfl
      | some v => rw [hf'] at this; cases this
    · intro k hk v hv
      rw [← hout k hk] at hv
      obtain ⟨x, _, y, _, _, e2, e3, e4⟩ := (find_handed g2 k).2 v hv
      exact ⟨x, y, e2, e3, e4⟩
    · intro e he
      obtain ⟨x, hx, hh⟩ := all_left g2 he
      have hm : x.marked = false := by
        rcases List.mem_append.mp hx with hx | hx
        · exact hf x hx
        · exact (h2 x hx).2.2
      rw [hh.marked, hm, hh.key, Bool.false_or]
    · rw [all_shapes (handed_others g2), others_append, others_in fun x hx => (h2 x hx).1, List.append_nil]
    · intro k hk
      rw [has_iff, handed_keys g2, ← has_iff, has_append]
      constructor
      · rintro (h | ⟨x, hx, rfl⟩)
        · exact h
        · exact absurd (h2 x hx).1 hk
      · exact Or.inl

theorem marks_empty {es : List (Entry Val)} {ks ms : List Bytes} (h : ∀ e ∈ es, e.marked = ms.contains e.key) :
    (unmarked (marks es ks)).isEmpty = true ↔ ∀ e ∈ es, e.key ∈ ks ∨ e.key ∈ ms := by
  rw [List.isEmpty_iff, unmarked, List.filter_eq_nil_iff, marks_eq]
  constructor
  · intro hall e he
    have := hall _ (List.mem_map_of_mem (f := fun e : Entry Val => if ks.contains e.key = true then { e with marked := true } else e) he)
    by_cases hk : e.key ∈ ks
    · exact Or.inl hk
    · have hk' : ks.contains e.key = false := by
        rw [Bool.eq_false_iff]; exact fun hc => hk (List.contains_iff_mem.mp hc)
      rw [hk'] at this
      simp only [Bool.false_eq_true, if_false] at this
      right
      rw [h e he] at this
      simpa using this
  · intro hall x hx
    obtain ⟨e, he, rfl⟩ := List.mem_map.mp hx
    by_cases hk : ks.contains e.key = true
    · rw [if_pos hk]; simp
    · rw [if_neg hk, h e he]
      have hk' : e.key ∉ ks := fun hc => hk (List.contains_iff_mem.mpr hc)
      rcases hall e he with h' | h'
      · exact absurd h' hk'
      · simp [h']

/-- No other options, of a resource. -/
theorem L2.only {ks : List Bytes} {es opts o1 o2 : List (Entry Val)} (h : L2 ks es opts o1 o2) {l ms : List String} (hk : ks = ms.map str) :
    (unmarked (Res.marks o2 (l.map str))).isEmpty = true ↔ Only opts (l ++ ms) := by
  rw [marks_empty h.marked]
  subst hk
  constructor
  · intro hall e he
    by_cases hin : e.key ∈ ms.map str
    · obtain ⟨k, h1, h2⟩ := List.mem_map.mp hin
      exact ⟨k, by simp [h1], h2.symm⟩
    · obtain ⟨x, hx, hxk⟩ := (h.keys e.key hin).mpr ⟨e, he, rfl⟩
      rcases hall x hx with h' | h'
      · obtain ⟨k, h1, h2⟩ := List.mem_map.mp h'
        exact ⟨k, by simp [h1], by rw [← hxk, ← h2]; rfl⟩
      · rw [hxk] at h'; exact absurd h' hin
  · intro hall x hx
    by_cases hin : x.key ∈ ms.map str
    · exact Or.inr hin
    · left
      obtain ⟨e, he, hek⟩ := (h.keys x.key hin).mp ⟨x, hx, rfl⟩
      obtain ⟨k, h1, h2⟩ := hall e he
      rcases List.mem_append.mp h1 with h1 | h1
      · rw [← hek, h2]; exact List.mem_map_of_mem h1
      · exact absurd (by rw [← hek, h2]; exact List.mem_map_of_mem h1) hin

/-! ### Loops -/

theorem resLoop_ok {α : Type} {one : Entry Val → Outcome (Option α)} : ∀ (l : List (Entry Val)) (n : Nat), l.length ≤ n → (∀ e ∈ l, one e ≠ .ub) →
    ∃ o, resLoop one n l = .ok o ∧ ∀ rs, o = some rs ↔ All (fun e r => one e = .ok (some r)) l rs
  | [], _, _, _ => ⟨some [], by simp [resLoop], fun rs => ⟨fun h => by cases h; exact .nil, fun h => by cases h; rfl⟩⟩
  | e :: es, 0, h, _ => by simp at h
  | e :: es, n + 1, h, hu => by
    obtain ⟨o, h1, h2⟩ := resLoop_ok es n (by simpa using h) fun x hx => hu x (by simp [hx])
    simp only [resLoop]
    cases he : one e with
    | ub => exact absurd he (hu e (by simp))
    | ok r =>
      cases r with
      | none =>
        refine ⟨none, rfl, fun rs => ⟨nofun, fun h => ?_⟩⟩
        cases h with
        | cons h _ => rw [he] at h; cases h
      | some r =>
        refine ⟨o.map (r :: ·), by simp [h1], fun rs => ?_⟩
        constructor
        · intro h
          cases o with
          | none => cases h
          | some rs' =>
            simp only [Option.map_some, Option.some.injEq] at h
            subst h
            exact .cons he ((h2 rs').mp rfl)
        · intro h
          cases h with
          | @cons _ b _ rs' h h' =>
            rw [he] at h
            simp only [Outcome.ok.injEq, Option.some.injEq] at h
            subst h
            rw [(h2 rs').mpr h']
            rfl

theorem all_through {α β γ : Type} {R : α → β → Prop} {P : α → γ → Prop} {Q : β → γ → Prop} {as : List α} {bs : List β} (h : All R as bs)
    (hpq : ∀ a b, a ∈ as → b ∈ bs → R a b → ∀ r, Q b r ↔ P a r) (rs : List γ) : All Q bs rs ↔ All P as rs := by
  induction h generalizing rs with
  | nil => constructor <;> (intro h; cases h; exact .nil)
  | cons h _ ih =>
    have ih := ih fun a b ha hb => hpq a b (by simp [ha]) (by simp [hb])
    have h1 := hpq _ _ (by simp) (by simp) h
    constructor
    · intro h'
      cases h' with
      | cons h2 h3 => exact .cons ((h1 _).mp h2) ((ih _).mp h3)
    · intro h'
      cases h' with
      | cons h2 h3 => exact .cons ((h1 _).mpr h2) ((ih _).mpr h3)

theorem handed_unmarked {ks : List Bytes} {src as bs : List (Entry Val)} (hf : Fresh as) (h : All (Handed ks ks src) as bs) : unmarked bs = others ks bs := by
  induction h with
  | nil => rfl
  | @cons a b as bs h _ ih =>
    have ih := ih fun x hx => hf x (by simp [hx])
    have hm : b.marked = ks.contains b.key := by rw [h.marked, hf a (by simp), h.key, Bool.false_or]
    simp only [unmarked, others, List.filter_cons, hm] at ih ⊢
    rw [ih]

end Gdnsd.Res
