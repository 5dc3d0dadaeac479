/-
Lemmas: what a parameter comes to when it is handed down.
-/
import Verif.Res.Spec
import Verif.Vscf.CloneProps
import Verif.Conf.Lemmas
import Verif.Svc.Lemmas
import Verif.Statio.Lemmas
import Verif.Plugins.Scale
namespace Gdnsd.Res
open Vscf VscfSpec Conf ConfSpec SvcSpec ResSpec
open Svc (Addr)

/-! ### Lists -/

section
variable {α β : Type} {P Q : α → β → Prop}

theorem all_append {as as' : List α} {bs bs' : List β} (h : All P as bs) (h' : All P as' bs') : All P (as ++ as') (bs ++ bs') := by
  induction h with
  | nil => exact h'
  | cons h _ ih => exact .cons h ih

theorem all_mono {as : List α} {bs : List β} (h : ∀ a b, a ∈ as → b ∈ bs → P a b → Q a b) (ha : All P as bs) : All Q as bs := by
  induction ha with
  | nil => exact .nil
  | cons h1 _ ih => exact .cons (h _ _ (by simp) (by simp) h1) (ih fun a b h2 h3 => h a b (by simp [h2]) (by simp [h3]))

theorem all_left {as : List α} {bs : List β} (ha : All P as bs) {b : β} (h : b ∈ bs) : ∃ a ∈ as, P a b := by
  induction ha with
  | nil => cases h
  | cons h1 _ ih =>
    rcases List.mem_cons.mp h with rfl | h
    · exact ⟨_, by simp, h1⟩
    · obtain ⟨a, h2, h3⟩ := ih h
      exact ⟨a, by simp [h2], h3⟩

theorem all_right {as : List α} {bs : List β} (ha : All P as bs) {a : α} (h : a ∈ as) : ∃ b ∈ bs, P a b := by
  induction ha with
  | nil => cases h
  | cons h1 _ ih =>
    rcases List.mem_cons.mp h with rfl | h
    · exact ⟨_, by simp, h1⟩
    · obtain ⟨a, h2, h3⟩ := ih h
      exact ⟨a, by simp [h2], h3⟩

theorem all_length {as : List α} {bs : List β} (ha : All P as bs) : bs.length = as.length := by
  induction ha with
  | nil => rfl
  | cons _ _ ih => simp [ih]

theorem all_iff {as : List α} {bs : List β} (h : ∀ a b, a ∈ as → (P a b ↔ Q a b)) : All P as bs ↔ All Q as bs :=
  ⟨all_mono fun a b ha _ => (h a b ha).mp, all_mono fun a b ha _ => (h a b ha).mpr⟩

end

theorem all_self {α : Type} {P : α → α → Prop} {as : List α} (h : ∀ a ∈ as, P a a) : All P as as := by
  induction as with
  | nil => exact .nil
  | cons a as ih => exact .cons (h a (by simp)) (ih fun x hx => h x (by simp [hx]))

theorem all_map {α β γ : Type} {P : γ → β → Prop} {f : α → γ} {as : List α} {bs : List β} : All P (as.map f) bs ↔ All (fun a b => P (f a) b) as bs := by
  induction as generalizing bs with
  | nil => constructor <;> (intro h; cases h; exact .nil)
  | cons a as ih =>
    constructor
    · intro h
      cases h with
      | cons h1 h2 => exact .cons h1 (ih.mp h2)
    · intro h
      cases h with
      | cons h1 h2 => exact .cons h1 (ih.mpr h2)

/-! ### What matters of a parameter's value -/

/-- What is looked at of the value of a parameter. -/
inductive Shape where
  | simple (t : Bytes)
  | list (l : List (Option Bytes))
  | hash
deriving DecidableEq

def textOf? : Val → Option Bytes
  | .simple _ t => some t
  | _ => none

def shape : Val → Shape
  | .simple _ t => .simple t
  | .array vs => .list (vs.map textOf?)
  | .hash _ => .hash

theorem copies_text {ig : Bool} : ∀ {vs ws}, Copies ig vs ws → ws.map textOf? = vs.map textOf?
  | _, _, .nil => rfl
  | _, _, .cons h hs => by
    simp only [List.map_cons, copies_text hs]
    cases h <;> rfl

theorem copy_shape {ig : Bool} {v w : Val} (h : Copy ig v w) : shape w = shape v := by
  cases h with
  | simple => rfl
  | array h => simp only [shape, copies_text h]
  | hash _ => rfl

theorem texts_shape : ∀ {vs ws : List Val}, vs.map textOf? = ws.map textOf? → texts vs = texts ws
  | [], [], _ => rfl
  | [], _ :: _, h => by cases h
  | _ :: _, [], h => by cases h
  | v :: vs, w :: ws, h => by
    simp only [List.map_cons, List.cons.injEq] at h
    cases v <;> cases w <;> simp_all [texts, textOf?, texts_shape h.2]

theorem svcNames_shape {v w : Option Val} (h : v.map shape = w.map shape) : svcNames v = svcNames w := by
  cases v with
  | none => cases w with
    | none => rfl
    | some w => cases h
  | some v => cases w with
    | none => cases h
    | some w =>
      simp only [Option.map_some, Option.some.injEq] at h
      simp only [svcNames]
      cases v <;> cases w <;> simp_all [shape, Svc.items, texts]
      exact texts_shape h

theorem threshOf_shape {lib : Lib} {v w : Option Val} (h : v.map shape = w.map shape) : threshOf lib v = threshOf lib w := by
  cases v with
  | none => cases w with
    | none => rfl
    | some w => cases h
  | some v => cases w with
    | none => cases h
    | some w =>
      simp only [Option.map_some, Option.some.injEq] at h
      cases v <;> cases w <;> simp_all [shape, threshOf]

theorem ignoreOf_shape {v w : Option Val} (h : v.map shape = w.map shape) : ignoreOf v = ignoreOf w := by
  cases v with
  | none => cases w with
    | none => rfl
    | some w => cases h
  | some v => cases w with
    | none => cases h
    | some w =>
      simp only [Option.map_some, Option.some.injEq] at h
      cases v <;> cases w <;> simp_all [shape, ignoreOf]

/-! ### Handing down -/

theorem find_append (es fs : List (Entry Val)) (k : Bytes) : find (es ++ fs) k = (find es k).or (find fs k) := by
  simp only [find, List.find?_append]
  cases es.find? fun e => e.key == k <;> simp

theorem find_cons (e : Entry Val) (es : List (Entry Val)) (k : Bytes) : find (e :: es) k = if e.key = k then some e.val else find es k := by
  simp only [find, List.find?_cons]
  by_cases h : e.key = k
  · simp [h]
  · rw [show (e.key == k) = false by simpa using h, if_neg h]

/-- A child after keys `mk` were marked and the values of the keys `ks` of `src` were handed down. -/
structure Handed (mk ks : List Bytes) (src : List (Entry Val)) (a b : Entry Val) : Prop where
  key : b.key = a.key
  marked : b.marked = (a.marked || mk.contains a.key)
  sound : Sound b.val
  other : (∀ es, a.val ≠ .hash es) → b.val = a.val
  hash : ∀ es, a.val = .hash es → ∃ xs, b.val = .hash (es ++ xs) ∧ (∀ x ∈ xs, x.key ∈ ks ∧ ¬ Has es x.key ∧ x.marked = false) ∧
    ∀ k ∈ ks, (find (es ++ xs) k).map shape = ((find es k).or (find src k)).map shape

theorem Handed.shape {mk ks : List Bytes} {src : List (Entry Val)} {a b : Entry Val} (h : Handed mk ks src a b) : shape b.val = shape a.val := by
  cases ha : a.val with
  | hash es =>
    obtain ⟨xs, h1, _⟩ := h.hash es ha
    rw [h1]; rfl
  | simple r t => rw [h.other (by simp [ha]), ha]
  | array vs => rw [h.other (by simp [ha]), ha]

theorem find_handed {mk ks : List Bytes} {src0 as bs : List (Entry Val)} (h : All (Handed mk ks src0) as bs) (k : Bytes) :
    (find bs k).map shape = (find as k).map shape ∧ ∀ v, find as k = some v → ∃ a ∈ as, ∃ b ∈ bs, a.key = k ∧ a.val = v ∧ find bs k = some b.val ∧ Handed mk ks src0 a b := by
  induction h with
  | nil => exact ⟨rfl, nofun⟩
  | @cons a b as bs h _ ih =>
    simp only [find_cons, h.key]
    by_cases hk : a.key = k
    · simp only [if_pos hk]
      refine ⟨by simp [h.shape], fun v hv => ⟨a, by simp, b, by simp, hk, by simpa using hv, rfl, h⟩⟩
    · simp only [if_neg hk]
      refine ⟨ih.1, fun v hv => ?_⟩
      obtain ⟨x, hx, y, hy, h1⟩ := ih.2 v hv
      exact ⟨x, by simp [hx], y, by simp [hy], h1⟩

theorem handed_mark {mk ks : List Bytes} {src as bs : List (Entry Val)} (h : All (Handed mk ks src) as bs) (k : Bytes) :
    All (Handed (mk ++ [k]) ks src) as (setMark bs k) := by
  induction h with
  | nil => exact .nil
  | @cons a b as bs h _ ih =>
    refine .cons ?_ ih
    have hk := h.key
    show Handed (mk ++ [k]) ks src a (if b.key = k then { b with marked := true } else b)
    split
    next hb =>
      refine ⟨hk, ?_, h.sound, h.other, h.hash⟩
      rw [hk] at hb
      simp [hb]
    next hb =>
      refine ⟨hk, ?_, h.sound, h.other, h.hash⟩
      rw [hk] at hb
      rw [h.marked]
      simp [hb]

theorem setMark_length (es : List (Entry Val)) (k : Bytes) : (setMark es k).length = es.length := by simp [setMark]

theorem find_setMark (es : List (Entry Val)) (k k' : Bytes) : find (setMark es k) k' = find es k' := by
  induction es with
  | nil => rfl
  | cons e es ih =>
    have h1 : setMark (e :: es) k = (if e.key = k then { e with marked := true } else e) :: setMark es k := rfl
    rw [h1, find_cons, find_cons, ih]
    split <;> rfl

/-- Nothing happens to a child that has the key. -/
theorem handed_more {mk ks : List Bytes} {src : List (Entry Val)} {a b : Entry Val} {k : Bytes} (h : Handed mk ks src a b)
    (hb : ∀ es, b.val = .hash es → ∃ v, find es k = some v) : Handed mk (ks ++ [k]) src a b := by
  refine ⟨h.key, h.marked, h.sound, h.other, fun es hes => ?_⟩
  obtain ⟨xs, h1, h2, h3⟩ := h.hash es hes
  refine ⟨xs, h1, fun x hx => ⟨by simp [(h2 x hx).1], (h2 x hx).2⟩, fun k' hk' => ?_⟩
  rcases List.mem_append.mp hk' with hk' | hk'
  · exact h3 k' hk'
  · simp only [List.mem_singleton] at hk'
    subst hk'
    by_cases hin : k' ∈ ks
    · exact h3 k' hin
    · obtain ⟨v, hv⟩ := hb _ h1
      cases hes' : find es k' with
      | some u => rw [find_append, hes']; rfl
      | none =>
        rw [find_append, hes', Option.none_or] at hv
        obtain ⟨x, hx, hx', _⟩ := find_some hv
        exact absurd (hx' ▸ (h2 x hx).1) hin

theorem bequeath_handed {mk ks : List Bytes} {src : List (Entry Val)} {k : Bytes} : ∀ (B0 B A0 A : List (Entry Val)),
    All (Handed mk (ks ++ [k]) src) A0 A → All (Handed mk ks src) B0 B → A0 ++ B0 = src → (∃ v, find src k = some v) →
    ∃ B', bequeathFrom k false B.length A.length (A ++ B) = .ok (A ++ B') ∧ All (Handed mk (ks ++ [k]) src) B0 B'
  | _, _, _, _, _, .nil, _, _ => ⟨[], rfl, .nil⟩
  | a :: B0, b :: B, A0, A, hA, .cons hb hB, hsrc, hex => by
    have hat : (A ++ b :: B)[A.length]? = some b := by simp
    obtain ⟨v0, hv0⟩ := hex
    have hsh : (find (A ++ b :: B) k).map shape = some (shape v0) ∧ ∀ v, find (A ++ b :: B) k = some v → Sound v := by
      constructor
      · rw [find_append]
        have h1 := (find_handed hA k).1
        have h2 := (find_handed (.cons hb hB) k).1
        have h3 : (find (A0 ++ a :: B0) k).map shape = some (shape v0) := by rw [hsrc, hv0]; rfl
        rw [find_append] at h3
        cases hf : find A0 k with
        | some x =>
          rw [hf] at h1 h3
          cases hf' : find A k with
          | none => rw [hf'] at h1; cases h1
          | some y => rw [hf'] at h1; simp at h1 h3 ⊢; rw [h1, h3]
        | none =>
          rw [hf] at h1 h3
          cases hf' : find A k with
          | some y => rw [hf'] at h1; cases h1
          | none =>
            simp only [Option.none_or] at h3 ⊢
            rw [h2, h3]
      · intro v hv
        obtain ⟨e, he, _, rfl⟩ := find_some hv
        rcases List.mem_append.mp he with he | he
        · obtain ⟨_, _, h⟩ := all_left hA he
          exact h.sound
        · obtain ⟨_, _, h⟩ := all_left (.cons hb hB) he
          exact h.sound
    obtain ⟨v, hv, hvs⟩ : ∃ v, find (A ++ b :: B) k = some v ∧ shape v = shape v0 := by
      cases hf : find (A ++ b :: B) k with
      | none => rw [hf] at hsh; cases hsh.1
      | some v => rw [hf] at hsh; exact ⟨v, rfl, by simpa using hsh.1⟩
    have hs := hsh.2 v hv
    have stay : Handed mk (ks ++ [k]) src a b → bequeathFrom k false (b :: B).length A.length (A ++ b :: B) = bequeathFrom k false B.length (A.length + 1) (A ++ b :: B) →
        ∃ B', bequeathFrom k false (b :: B).length A.length (A ++ b :: B) = .ok (A ++ B') ∧ All (Handed mk (ks ++ [k]) src) (a :: B0) B' := by
      intro hh heq
      obtain ⟨B', h1, h2⟩ := bequeath_handed B0 B (A0 ++ [a]) (A ++ [b]) (all_append hA (.cons hh .nil)) hB (by simpa using hsrc) ⟨v0, hv0⟩
      refine ⟨b :: B', ?_, .cons hh h2⟩
      rw [heq]
      simpa using h1
    cases hval : b.val with
    | simple r s => exact stay (handed_more hb (by simp [hval])) (by simp [bequeathFrom, hv, hval])
    | array vs => exact stay (handed_more hb (by simp [hval])) (by simp [bequeathFrom, hv, hval])
    | hash es =>
      cases hfe : find es k with
      | some x => exact stay (handed_more hb (by simp only [hval, Val.hash.injEq]; rintro _ rfl; exact ⟨x, hfe⟩)) (by simp [bequeathFrom, hv, hval, hfe])
      | none =>
        have hno := find_none.mp hfe
        obtain ⟨w, h1, h2⟩ := clone_ok false v hs
        have hws := copy_sound h2 hs
        have hnew : Handed mk (ks ++ [k]) src a { b with val := .hash (es ++ [⟨k, false, w⟩]) } := by
          refine ⟨hb.key, hb.marked, ?_, fun hc => ?_, fun gs hgs => ?_⟩
          · have hb' := hb.sound
            rw [hval] at hb'
            cases hb' with
            | hash hn hso =>
              refine .hash ?_ (soundOf_append hso (.cons hws .nil))
              simp only [List.map_append, List.map_cons, List.map_nil]
              rw [List.nodup_append]
              refine ⟨hn, by simp, fun x hx y hy => ?_⟩
              simp only [List.mem_singleton] at hy
              subst hy
              exact fun h => hno (has_iff.mpr (h ▸ hx))
          · have := hb.other hc
            rw [hval] at this
            exact absurd this.symm (hc es)
          · obtain ⟨xs, h3, h4, h5⟩ := hb.hash gs hgs
            rw [hval] at h3
            simp only [Val.hash.injEq] at h3
            subst h3
            have hng : ¬ Has gs k := fun ⟨e, he, hk⟩ => hno ⟨e, by simp [he], hk⟩
            refine ⟨xs ++ [⟨k, false, w⟩], by simp, fun x hx => ?_, fun k' hk' => ?_⟩
            · rcases List.mem_append.mp hx with hx | hx
              · exact ⟨by simp [(h4 x hx).1], (h4 x hx).2⟩
              · simp only [List.mem_singleton] at hx
                subst hx
                exact ⟨by simp, hng, rfl⟩
            · rw [← List.append_assoc, find_append]
              by_cases hkk : k' = k
              · subst hkk
                have hg : find gs k' = none := find_none.mpr hng
                rw [hfe, hg, hv0, find_cons]
                simp [copy_shape h2, hvs]
              · have hin : k' ∈ ks := by
                  rcases List.mem_append.mp hk' with h | h
                  · exact h
                  · exact absurd (by simpa using h) hkk
                have hlast : find [(⟨k, false, w⟩ : Entry Val)] k' = none := by
                  rw [find_cons, if_neg (fun h => hkk h.symm)]; rfl
                rw [hlast, Option.or_none]
                exact h5 k' hin
        have hset : (A ++ b :: B).set A.length { b with val := .hash (es ++ [⟨k, false, w⟩]) } = (A ++ [{ b with val := .hash (es ++ [⟨k, false, w⟩]) }]) ++ B := by
          simp
        obtain ⟨B', h3, h4⟩ := bequeath_handed B0 B (A0 ++ [a]) (A ++ [{ b with val := .hash (es ++ [⟨k, false, w⟩]) }]) (all_append hA (.cons hnew .nil)) hB
          (by simpa using hsrc) ⟨v0, hv0⟩
        refine ⟨_ :: B', ?_, .cons hnew h4⟩
        simp only [List.length_cons, bequeathFrom, hat, hv, hval]
        rw [if_pos ⟨Or.inl (by trivial), by simp [hfe]⟩, h1, Outcome.bind_ok, addEntry_new hno, Option.getD_some, hset]
        simpa using h3

theorem handed_none {mk ks : List Bytes} {src as bs : List (Entry Val)} (h : All (Handed mk ks src) as bs) {k : Bytes} (hk : find src k = none)
    (hsub : ∀ a ∈ as, a ∈ src) : All (Handed (mk ++ [k]) (ks ++ [k]) src) as bs := by
  refine all_mono (fun a b ha _ h => ⟨h.key, ?_, h.sound, h.other, fun es hes => ?_⟩) h
  · rw [h.marked]
    have : a.key ≠ k := fun hc => find_none.mp hk ⟨a, hsub a ha, hc⟩
    simp [this]
  · obtain ⟨xs, h1, h2, h3⟩ := h.hash es hes
    refine ⟨xs, h1, fun x hx => ⟨by simp [(h2 x hx).1], (h2 x hx).2⟩, fun k' hk' => ?_⟩
    by_cases hin : k' ∈ ks
    · exact h3 k' hin
    · have : k' = k := by
        rcases List.mem_append.mp hk' with h | h
        · exact absurd h hin
        · simpa using h
      subst this
      rw [hk, Option.or_none, find_append]
      cases hf : find xs k' with
      | none => simp
      | some v =>
        obtain ⟨x, hx, hx', _⟩ := find_some hf
        exact absurd (hx' ▸ (h2 x hx).1) hin

/-- Several keys are handed down. -/
theorem handDown_ok {src : List (Entry Val)} : ∀ (rest : List Bytes) (done : List Bytes) (cur : List (Entry Val)), (∀ k ∈ rest, 0 ∉ k) →
    All (Handed done done src) src cur →
    ∃ cur', handDown rest cur = .ok (cur', present src rest) ∧ All (Handed (done ++ rest) (done ++ rest) src) src cur'
  | [], done, cur, _, h => ⟨cur, rfl, by simpa using h⟩
  | k :: rest, done, cur, hz, h => by
    have hc : cstr k = k := cstr_self (hz k (by simp))
    have hf := (find_handed h k).1
    cases hk : find src k with
    | none =>
      have hcur : find cur k = none := by
        rw [hk] at hf
        cases hf' : find cur k with
        | none => rfl
        | some v => rw [hf'] at hf; cases hf
      obtain ⟨cur', h1, h2⟩ := handDown_ok rest (done ++ [k]) cur (fun x hx => hz x (by simp [hx])) (handed_none h hk fun _ h => h)
      refine ⟨cur', ?_, by simpa using h2⟩
      simp only [handDown, bequeath, hc, hcur, Outcome.bind_ok, h1, Outcome.map_ok, present, List.filter_cons, hk]
      simp
    | some v =>
      have hcur : ∃ w, find cur k = some w := by
        rw [hk] at hf
        cases hf' : find cur k with
        | none => rw [hf'] at hf; cases hf
        | some w => exact ⟨w, rfl⟩
      obtain ⟨w, hw⟩ := hcur
      obtain ⟨B', h1, h2⟩ := bequeath_handed src (setMark cur k) [] [] .nil (handed_mark h k) rfl ⟨v, hk⟩
      obtain ⟨cur', h3, h4⟩ := handDown_ok rest (done ++ [k]) B' (fun x hx => hz x (by simp [hx])) h2
      refine ⟨cur', ?_, by simpa using h4⟩
      rw [setMark_length] at h1
      simp only [List.nil_append, List.length_nil] at h1
      simp only [handDown, bequeath, hc, hw, if_true, h1, Outcome.map_ok, Outcome.bind_ok, h3, present, List.filter_cons, hk]
      simp

theorem handed_start {src : List (Entry Val)} (hs : SoundOf src) : All (Handed [] [] src) src src :=
  all_self fun a ha => ⟨rfl, by simp, soundOf_mem hs ha, fun _ => rfl, fun es hes => ⟨[], by simp [hes], nofun, nofun⟩⟩

end Gdnsd.Res
